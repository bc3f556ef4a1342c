import Verif.Matrix.Ops

/-!
# The multiplication algorithms compute the product
-/

namespace Stxxl.Mat

variable {R : Type} [CommRing R]
variable {B : Nat} {s0 s : St R} {C : SBM} {tag : Nat → Nat} {own : List Nat} {Xs : List Reg} {F : Nat → Nat → Nat → M B R}

/-! ### Naive multiplication -/

theorem naive_inner (A D : SBM) (l r c : Nat)
    (hA : ∀ t, t < l → s0.live (A.block r t) ∧ tag (A.block r t) = 0) (hD : ∀ t, t < l → s0.live (D.block t c) ∧ tag (D.block t c) = 0)
    {x : Reg} {k : Nat} (hk : Only Xs k x) (hr : r < x.m.h) (hc : c < x.m.w) : ∀ (s : St R) (u : Nat → M B R),
    Good B s0 C tag own Xs s (cellUpd F r c u) →
    Good B s0 C tag own Xs ((List.range l).foldl (fun s t =>
      s.set (x.m.block r c) (blockMul B A.tr D.tr x.m.tr (s.blk (A.block r t)) (s.blk (D.block t c)) (s.blk (x.m.block r c)))) s)
      (cellUpd F r c (Function.update u k (u k + ∑ t ∈ Finset.range l, V B s0 A r t * V B s0 D t c))) := by
  induction l with
  | zero => intro s u h; simpa using h
  | succ l ih =>
    intro s u h
    have g1 := ih (fun t ht => hA t (by omega)) (fun t ht => hD t (by omega)) s u h
    rw [List.range_succ, List.foldl_append]
    have := g1.setCell hk hr hc
      (blockMul B A.tr D.tr x.m.tr (s0.blk (A.block r l)) (s0.blk (D.block l c))
        (((List.range l).foldl (fun s t =>
          s.set (x.m.block r c) (blockMul B A.tr D.tr x.m.tr (s.blk (A.block r t)) (s.blk (D.block t c)) (s.blk (x.m.block r c)))) s).blk
            (x.m.block r c))) _ (by
        rw [vl_blockMul, g1.cellVal hk.1 hr hc])
    have e1 := g1.frame _ (hA l (by omega)).1 (hA l (by omega)).2
    have e2 := g1.frame _ (hD l (by omega)).1 (hD l (by omega)).2
    simp only [List.foldl_cons, List.foldl_nil]
    rw [e1, e2]
    rw [Finset.sum_range_succ]
    simpa [Function.update_self, Function.update_idem, V, add_assoc] using this

theorem naive_ok (n m l : Nat) : MulOk (R := R) B true (naiveMul B) n m l := by
  intro s A D C e1 e2 e3 e4 e5 e6 hs hA hD hC hinj hlen d1 d2
  subst e4
  obtain ⟨tag, t1, t2⟩ := exists_tag hinj (fun _ _ => 1)
  have g0 : Good B s C tag [] [⟨C, 1⟩] s (fun _ r c => V B s C r c) :=
    { wf := hs, live := by simp, fresh := by simp, nodup := by simp
      val := by
        intro k x hx r c _ _
        cases k with
        | zero => simp at hx; subst hx; rfl
        | succ k => simp at hx
      isLive := by
        intro k x hx
        cases k with
        | zero => simp at hx; subst hx; exact hC
        | succ k => simp at hx
      tagged := by
        intro k x hx r c hr hc
        cases k with
        | zero => simp at hx; subst hx; exact t1 r c hr hc
        | succ k => simp at hx
      inj := by
        intro k x hx _
        cases k with
        | zero => simp at hx; subst hx; exact hinj
        | succ k => simp at hx
      frame := fun _ _ _ => rfl
      tag0 := fun i _ hi => t2 i hi
      len := by
        intro k x hx
        cases k with
        | zero => simp at hx; subst hx; exact hlen
        | succ k => simp at hx }
  have hk : Only [⟨C, 1⟩] 0 ⟨C, 1⟩ := by
    refine ⟨rfl, by simp, ?_⟩
    intro j y hy hj
    cases j with
    | zero => exact absurd rfl hj
    | succ j => simp at hy
  have g1 := Good.loop (F := fun _ r c => V B s C r c) C.h C.w
    (fun i j s => (List.range A.w).foldl (fun s k =>
      s.set (C.block i j) (blockMul B A.tr D.tr C.tr (s.blk (A.block i k)) (s.blk (D.block k j)) (s.blk (C.block i j)))) s)
    (fun _ => True)
    (fun r c u => Function.update u 0 (u 0 + ∑ t ∈ Finset.range A.w, V B s A r t * V B s D t c)) (fun _ _ _ _ _ _ => trivial)
    (fun s' F r c hr hc _ g => by
      have := naive_inner (F := F) A D A.w r c
        (fun t ht => ⟨hA r t (by omega) ht, t2 _ (fun r' c' hr' hc' => d1 r' c' r t hr' hc' (by omega) ht)⟩)
        (fun t ht => ⟨hD t c (by omega) (by omega), t2 _ (fun r' c' hr' hc' => d2 r' c' t c hr' hc' (by omega) (by omega))⟩)
        hk hr hc s' (fun k => F k r c) (by rw [cellUpd_self]; exact g)
      exact this) trivial g0
  refine ⟨g1.wf, fun i => (g1.live i).trans (by simp), ?_, ?_⟩
  · intro i hi hni
    exact g1.frame i hi (t2 i hni)
  · intro r c hr hc
    have := g1.val 0 ⟨C, 1⟩ rfl r c (by simpa [e1] using hr) (by simpa [e2] using hc)
    rw [if_pos ⟨by omega, by omega⟩] at this
    simp only [Function.update_self] at this
    rw [if_pos rfl]; exact this

/-! ### Quarters -/

/-- A quarterer with given sizes of the upper left (`h1 × w1`) and lower right (`h2 × w2`) quarter. -/
def genQuarter (s : St R) (m : SBM) (h1 w1 h2 w2 : Nat) : Quarter × St R :=
  let ul := Mat.sub s m h1 w1 0 0
  let ur := Mat.sub ul.2 m h1 w2 0 w1
  let dl := Mat.sub ur.2 m h2 w1 h1 0
  let dr := Mat.sub dl.2 m h2 w2 h1 w1
  (⟨ul.1, ur.1, dl.1, dr.1⟩, dr.2)

theorem padQuarter_eq (s : St R) (m : SBM) :
    padQuarter s m = genQuarter s m ((m.h + 1) / 2) ((m.w + 1) / 2) ((m.h + 1) / 2) ((m.w + 1) / 2) := rfl

theorem approxQuarter_eq (s : St R) (m : SBM) :
    approxQuarter s m = genQuarter s m (m.h / 2) (m.w / 2) (m.h - m.h / 2) (m.w - m.w / 2) := rfl

/-- Sizes and blocks of the quarters. -/
structure QOf (q : Quarter) (m : SBM) (h1 w1 h2 w2 : Nat) : Prop where
  ulh : q.ul.h = h1
  ulw : q.ul.w = w1
  urh : q.ur.h = h1
  urw : q.ur.w = w2
  dlh : q.dl.h = h2
  dlw : q.dl.w = w1
  drh : q.dr.h = h2
  drw : q.dr.w = w2
  ult : q.ul.tr = m.tr
  urt : q.ur.tr = m.tr
  dlt : q.dl.tr = m.tr
  drt : q.dr.tr = m.tr
  ulb : ∀ r c, r < h1 → c < w1 → r < m.h → c < m.w → q.ul.block r c = m.block r c
  urb : ∀ r c, r < h1 → c < w2 → r < m.h → c + w1 < m.w → q.ur.block r c = m.block r (c + w1)
  dlb : ∀ r c, r < h2 → c < w1 → r + h1 < m.h → c < m.w → q.dl.block r c = m.block (r + h1) c
  drb : ∀ r c, r < h2 → c < w2 → r + h1 < m.h → c + w1 < m.w → q.dr.block r c = m.block (r + h1) (c + w1)

theorem GoodL.quarter {Fs : List (BM B R)} (h : GoodL B s0 C tag own Xs Fs s) (hblk : s.blk = s0.blk) (m : SBM) (hm : Owned s0 m)
    (h1 w1 h2 w2 k1 k2 k3 k4 : Nat)
    (ht : ∀ r c, r < m.h → c < m.w → (r < h1 → c < w1 → tag (m.block r c) = k1) ∧ (r < h1 → w1 ≤ c → tag (m.block r c) = k2) ∧
      (h1 ≤ r → c < w1 → tag (m.block r c) = k3) ∧ (h1 ≤ r → w1 ≤ c → tag (m.block r c) = k4))
    (hi : (k1 = 0 ∧ k2 = 0 ∧ k3 = 0 ∧ k4 = 0) ∨ Inj m) :
    ∃ q s' tag', genQuarter s m h1 w1 h2 w2 = (q, s') ∧ s'.blk = s0.blk ∧ QOf q m h1 w1 h2 w2 ∧
      (∀ i, s0.live i → tag' i = tag i) ∧
      GoodL B s0 C tag' (own ++ q.ul.own ++ q.ur.own ++ q.dl.own ++ q.dr.own)
        (Xs ++ [⟨q.ul, k1⟩] ++ [⟨q.ur, k2⟩] ++ [⟨q.dl, k3⟩] ++ [⟨q.dr, k4⟩])
        (Fs ++ [window B s0 m 0 0] ++ [window B s0 m 0 w1] ++ [window B s0 m h1 0] ++ [window B s0 m h1 w1]) s' := by
  obtain ⟨q1, s1, g1, a1, a2, a3, a4, a5, a6⟩ := h.sub hblk m hm h1 w1 0 0 k1
    (fun r c hr hc hr' hc' => (ht _ _ hr' hc').1 (by omega) (by omega)) (fun hk => by
      rcases hi with hi | hi
      · exact absurd hi.1 hk
      · exact hi)
  obtain ⟨q2, s2, g2, b1, b2, b3, b4, b5, b6⟩ := a6.sub a2 m hm h1 w2 0 w1 k2
    (fun r c hr hc hr' hc' => by
      rw [a5 _ (hm _ _ hr' hc')]
      exact (ht _ _ hr' hc').2.1 (by omega) (by omega)) (fun hk => by
      rcases hi with hi | hi
      · exact absurd hi.2.1 hk
      · exact hi)
  obtain ⟨q3, s3, g3, c1, c2, c3, c4, c5, c6⟩ := b6.sub b2 m hm h2 w1 h1 0 k3
    (fun r c hr hc hr' hc' => by
      rw [b5 _ (hm _ _ hr' hc'), a5 _ (hm _ _ hr' hc')]
      exact (ht _ _ hr' hc').2.2.1 (by omega) (by omega)) (fun hk => by
      rcases hi with hi | hi
      · exact absurd hi.2.2.1 hk
      · exact hi)
  obtain ⟨q4, s4, g4, d1, d2, d3, d4, d5, d6⟩ := c6.sub c2 m hm h2 w2 h1 w1 k4
    (fun r c hr hc hr' hc' => by
      rw [c5 _ (hm _ _ hr' hc'), b5 _ (hm _ _ hr' hc'), a5 _ (hm _ _ hr' hc')]
      exact (ht _ _ hr' hc').2.2.2 (by omega) (by omega)) (fun hk => by
      rcases hi with hi | hi
      · exact absurd hi.2.2.2 hk
      · exact hi)
  refine ⟨⟨q1, q2, q3, q4⟩, s4, g4, ?_, d2, ?_, ?_, d6⟩
  · unfold genQuarter
    rw [a1]; dsimp only; rw [b1]; dsimp only; rw [c1]; dsimp only; rw [d1]
  · refine ⟨a3.1, a3.2.1, b3.1, b3.2.1, c3.1, c3.2.1, d3.1, d3.2.1, a3.2.2, b3.2.2, c3.2.2, d3.2.2, ?_, ?_, ?_, ?_⟩
    · intro r c hr hc hr' hc'; exact a4 r c hr hc hr' hc'
    · intro r c hr hc hr' hc'; exact b4 r c hr hc hr' hc'
    · intro r c hr hc hr' hc'; exact c4 r c hr hc hr' hc'
    · intro r c hr hc hr' hc'; exact d4 r c hr hc hr' hc'
  · intro i hi
    rw [d5 i hi, c5 i hi, b5 i hi, a5 i hi]

/-- End of the scope: the owned blocks are released. -/
theorem GoodL.finish {Fs : List (BM B R)} (h : GoodL B s0 C tag own Xs Fs s) (ms : List SBM) (hms : (ms.flatMap SBM.own).Perm own) :
    (destroyAll s ms).Wf ∧ (∀ i, (destroyAll s ms).live i ↔ s0.live i) ∧
      (∀ i, s0.live i → (∀ r c, r < C.h → c < C.w → C.block r c ≠ i) → (destroyAll s ms).blk i = s0.blk i) ∧
      ∀ i, s0.live i → (destroyAll s ms).blk i = s.blk i := by
  rw [destroyAll_eq]
  have hmem : ∀ i, i ∈ ms.flatMap SBM.own ↔ i ∈ own := fun i => hms.mem_iff
  obtain ⟨a, b, c⟩ := releases_spec (ms.flatMap SBM.own) h.1.wf
    (fun i hi => (h.1.live i).2 (Or.inr ((hmem i).1 hi))) (hms.nodup_iff.2 h.1.nodup)
  have hc : ∀ i, s0.live i → ((ms.flatMap SBM.own).foldl St.release s).blk i = s.blk i :=
    fun i hi => c i (fun hm => h.1.fresh i ((hmem i).1 hm) hi)
  refine ⟨a, ?_, ?_, hc⟩
  · intro i
    rw [b, h.1.live, hmem]
    constructor
    · rintro ⟨h1 | h1, h2⟩
      · exact h1
      · exact absurd h1 h2
    · intro h1; exact ⟨Or.inl h1, fun h2 => h.1.fresh i h2 h1⟩
  · intro i hi hni
    rw [hc i hi]
    exact h.1.frame i hi (h.1.tag0 i hi hni)

theorem quad_mul (A D : SBM) (r0 c0 w1 w2 : Nat) (hl : A.w ≤ w1 + w2) (hAD : D.h = A.w) {r c : Nat} (hr : r + r0 < A.h) (hc : c + c0 < D.w) :
    mulN w1 (window B s A r0 0) (window B s D 0 c0) r c + mulN w2 (window B s A r0 w1) (window B s D w1 c0) r c =
      ∑ t ∈ Finset.range A.w, V B s A (r + r0) t * V B s D t (c + c0) := by
  have e : ∀ t, window B s A r0 w1 r t * window B s D w1 c0 t c =
      (fun t => if t < A.w then V B s A (r + r0) t * V B s D t (c + c0) else 0) (w1 + t) := by
    intro t
    simp only [window, hr, hc, true_and, and_true, hAD, Nat.add_comm t w1]
    split <;> simp
  have e' : ∀ t, window B s A r0 0 r t * window B s D 0 c0 t c =
      (fun t => if t < A.w then V B s A (r + r0) t * V B s D t (c + c0) else 0) t := by
    intro t
    simp only [window, hr, hc, true_and, and_true, hAD, Nat.add_zero]
    split <;> simp
  unfold mulN
  rw [Finset.sum_congr rfl (fun t _ => e t), Finset.sum_congr rfl (fun t _ => e' t), ← Finset.sum_range_add]
  rw [← Finset.sum_subset (Finset.range_subset_range.2 hl)]
  · apply Finset.sum_congr rfl
    intro t ht
    rw [if_pos (Finset.mem_range.1 ht)]
  · intro t _ ht
    rw [if_neg (fun h => ht (Finset.mem_range.2 h))]

/-- `Only` on a list with known colours. -/
theorem only_of (k : Nat) (x : Reg) (h1 : Xs[k]? = some x) (h2 : x.col ≠ 0)
    (h3 : ((Xs.map Reg.col).zipIdx.all fun p => p.2 == k || p.1 != x.col) = true) : Only Xs k x := by
  refine ⟨h1, h2, ?_⟩
  intro j y hy hj e
  rw [List.all_eq_true] at h3
  have := h3 (y.col, j) (by
    rw [List.mk_mem_zipIdx_iff_getElem?]
    simp [hy])
  simp [hj, e] at this

/-- The quarters of `C` together give `C`. -/
theorem assemble {q : Quarter} {h1 w1 h2 w2 : Nat} (hq : QOf q C h1 w1 h2 w2) (hh : C.h ≤ h1 + h2) (hw : C.w ≤ w1 + w2) (s : St R)
    (T g1 g2 g3 g4 : BM B R)
    (v1 : ∀ r c, r < h1 → c < w1 → V B s q.ul r c = g1 r c) (v2 : ∀ r c, r < h1 → c < w2 → V B s q.ur r c = g2 r c)
    (v3 : ∀ r c, r < h2 → c < w1 → V B s q.dl r c = g3 r c) (v4 : ∀ r c, r < h2 → c < w2 → V B s q.dr r c = g4 r c)
    (t1 : ∀ r c, r < h1 → c < w1 → r < C.h → c < C.w → g1 r c = T r c)
    (t2 : ∀ r c, r < h1 → c < w2 → r < C.h → c + w1 < C.w → g2 r c = T r (c + w1))
    (t3 : ∀ r c, r < h2 → c < w1 → r + h1 < C.h → c < C.w → g3 r c = T (r + h1) c)
    (t4 : ∀ r c, r < h2 → c < w2 → r + h1 < C.h → c + w1 < C.w → g4 r c = T (r + h1) (c + w1)) :
    ∀ r c, r < C.h → c < C.w → V B s C r c = T r c := by
  intro r c hr hc
  by_cases hr1 : r < h1
  · by_cases hc1 : c < w1
    · rw [← t1 r c hr1 hc1 hr hc, ← v1 r c hr1 hc1]
      unfold V; rw [hq.ulb r c hr1 hc1 hr hc, hq.ult]
    · obtain ⟨c, rfl⟩ : ∃ c', c = c' + w1 := ⟨c - w1, by omega⟩
      rw [← t2 r c hr1 (by omega) hr hc, ← v2 r c hr1 (by omega)]
      unfold V; rw [hq.urb r c hr1 (by omega) hr hc, hq.urt]
  · obtain ⟨r, rfl⟩ : ∃ r', r = r' + h1 := ⟨r - h1, by omega⟩
    by_cases hc1 : c < w1
    · rw [← t3 r c (by omega) hc1 hr hc, ← v3 r c (by omega) hc1]
      unfold V; rw [hq.dlb r c (by omega) hc1 hr hc, hq.dlt]
    · obtain ⟨c, rfl⟩ : ∃ c', c = c' + w1 := ⟨c - w1, by omega⟩
      rw [← t4 r c (by omega) (by omega) hr hc, ← v4 r c (by omega) (by omega)]
      unfold V; rw [hq.drb r c (by omega) (by omega) hr hc, hq.drt]

end Stxxl.Mat
