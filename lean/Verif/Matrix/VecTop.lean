import Verif.Matrix.VecMul

/-!
# Products of a matrix and a vector: the class `matrix`
-/

namespace Stxxl.Mat

variable {R : Type} [CommRing R] {B : Nat}

theorem sum_blocks' (n : Nat) (g : Nat → R) : ∑ t ∈ Finset.range n, ∑ k ∈ Finset.range B, g (t * B + k) = ∑ u ∈ Finset.range (n * B), g u := by
  rw [← sum_blocks]
  exact Finset.sum_congr rfl fun t _ => Finset.sum_range _

theorem grid_sum {H W nz nx k : Nat} {x : Nat → R} {m : Nat → Nat → Nat → Nat → R} {f : Nat → Nat → R} (hk : k < nz) (hz : nz ≤ H * B) (hx : nx ≤ W * B)
    (hm : ∀ r c i j, r < H → c < W → i < B → j < B → r * B + i < nz → c * B + j < nx → m r c i j = f (r * B + i) (c * B + j)) :
    ∑ r ∈ Finset.range H, ∑ c ∈ Finset.range W, contrib B x nx nz r c (m r c) k = ∑ q ∈ Finset.range nx, x q * f k q := by
  have e : ∀ r ∈ Finset.range H, ∑ c ∈ Finset.range W, contrib B x nx nz r c (m r c) k =
      ∑ i ∈ Finset.range B, (fun p => ∑ q ∈ Finset.range (W * B), if p < nz ∧ q < nx then (if k = p then x q * f p q else 0) else 0) (r * B + i) := by
    intro r hr
    unfold contrib
    rw [Finset.sum_comm]
    refine Finset.sum_congr rfl fun i hi => ?_
    dsimp only
    rw [← sum_blocks' (B := B) W (fun q => if r * B + i < nz ∧ q < nx then (if k = r * B + i then x q * f (r * B + i) q else 0) else 0)]
    refine Finset.sum_congr rfl fun c hc => Finset.sum_congr rfl fun j hj => ?_
    by_cases hin : r * B + i < nz ∧ c * B + j < nx
    · rw [if_pos hin, if_pos hin, hm r c i j (Finset.mem_range.1 hr) (Finset.mem_range.1 hc) (Finset.mem_range.1 hi) (Finset.mem_range.1 hj) hin.1 hin.2]
    · rw [if_neg hin, if_neg hin]
  rw [Finset.sum_congr rfl e, sum_blocks' (B := B) H (fun p => ∑ q ∈ Finset.range (W * B), if p < nz ∧ q < nx then (if k = p then x q * f p q else 0) else 0)]
  rw [Finset.sum_eq_single k]
  · rw [← Finset.sum_subset (Finset.range_subset_range.2 hx)]
    · refine Finset.sum_congr rfl fun q hq => ?_
      rw [if_pos ⟨hk, Finset.mem_range.1 hq⟩, if_pos rfl]
    · intro q _ hq
      rw [if_neg (fun h => hq (Finset.mem_range.2 h.2))]
  · intro p _ hp
    refine Finset.sum_eq_zero fun q _ => ?_
    rw [if_neg (c := k = p) (fun e => hp e.symm), ite_self]
  · intro h
    exact absurd (Finset.mem_range.2 (by omega)) h

theorem el_eq {t : Bool} {o : Option (Raw R)} {i j : Nat} (hi : i < B) (hj : j < B) : el B t o i j = vl B t o ⟨i, hi⟩ ⟨j, hj⟩ := by
  cases o <;> rfl

theorem ObjOk.el {s : St R} {o : SBM} {v : Val R} (h : ObjOk B s o v) {r c i j : Nat} (hr : r < o.h) (hc : c < o.w) (hi : i < B) (hj : j < B)
    (h1 : r * B + i < v.h) (h2 : c * B + j < v.w) : Mat.el B o.tr (s.blk (o.block r c)) i j = v.f (r * B + i) (c * B + j) := by
  rw [el_eq hi hj]
  have := h.val r c hr hc ⟨i, hi⟩ ⟨j, hj⟩
  rw [if_pos ⟨h1, h2⟩] at this
  exact this

theorem lt_divCeil (hB : 0 < B) {n r : Nat} (h : r < divCeil n B) : r * B ≤ n := by
  have := Nat.div_add_mod' n B
  unfold divCeil at h
  have hr : r ≤ n / B := by split at h <;> omega
  calc r * B ≤ n / B * B := Nat.mul_le_mul_right _ hr
    _ ≤ n := by omega

variable {w : World R} {σ : List (Option (Val R))}

theorem mulCol_ok (hB : 0 < B) (h : Inv B w σ) {x : Nat} {m : Mat} {v : Val R} (hx : w.vars[x]? = some (some m)) (hv : σ[x]? = some (some v))
    {xs : List R} (hl : xs.length = v.w) (h1 : v.h < 2 ^ 32) (h2 : v.w < 2 ^ 32) :
    w.mulCol B m xs = some (w, (List.range v.h).map fun i => ((List.range v.w).map fun t => v.f i t * xs.getD t 0).sum) := by
  obtain ⟨e1, e2⟩ := h.dims hx hv
  have ho := h.objOk hx hv
  unfold World.mulCol
  rw [if_pos (by omega), colRec_ok (by omega) (by omega) h.core.wf _ _ _ _ _ (Nat.le_refl _)
    (fun r hr => by rw [ho.h] at hr; rw [Nat.zero_add, e1]; exact lt_divCeil hB hr)
    (fun c hc => by rw [ho.w] at hc; rw [Nat.zero_add, hl]; exact lt_divCeil hB hc)]
  dsimp only
  rw [e1, hl]
  refine congrArg some (Prod.ext rfl (List.map_congr_left fun k hk => ?_))
  have hk := List.mem_range.1 hk
  rw [zero_add, list_sum_range]
  simp only [Nat.zero_add]
  rw [grid_sum (f := v.f) hk (by rw [ho.h]; exact le_divCeil hB _) (by rw [ho.w]; exact le_divCeil hB _)
    (fun r c i j hr hc hi hj a b => ho.el hr hc hi hj a b)]
  exact Finset.sum_congr rfl fun _ _ => mul_comm _ _

theorem mulRow_ok (hB : 0 < B) (h : Inv B w σ) {x : Nat} {m : Mat} {v : Val R} (hx : w.vars[x]? = some (some m)) (hv : σ[x]? = some (some v))
    {ys : List R} (hl : ys.length = v.h) (h1 : v.h < 2 ^ 32) (h2 : v.w < 2 ^ 32) :
    w.mulRow B ys m = some (w, (List.range v.w).map fun j => ((List.range v.h).map fun t => ys.getD t 0 * v.f t j).sum) := by
  obtain ⟨e1, e2⟩ := h.dims hx hv
  have ho := h.objOk hx hv
  unfold World.mulRow
  rw [if_pos (by omega), rowRec_ok (by omega) (by omega) h.core.wf _ _ _ _ _ (Nat.le_refl _)
    (fun r hr => by rw [ho.h] at hr; rw [Nat.zero_add, hl]; exact lt_divCeil hB hr)
    (fun c hc => by rw [ho.w] at hc; rw [Nat.zero_add, e2]; exact lt_divCeil hB hc)]
  dsimp only
  rw [e2, hl]
  refine congrArg some (Prod.ext rfl (List.map_congr_left fun k hk => ?_))
  have hk := List.mem_range.1 hk
  rw [zero_add, list_sum_range]
  simp only [Nat.zero_add]
  rw [Finset.sum_comm]
  rw [grid_sum (m := fun c r i j => Mat.el B (w.sbm m).tr (w.st.blk ((w.sbm m).block r c)) j i) (f := fun i j => v.f j i) hk
    (by rw [ho.w]; exact le_divCeil hB _) (by rw [ho.h]; exact le_divCeil hB _)
    (fun c r j i hc hr hj hi b a => ho.el hr hc hi hj a b)]

/-- With 2^32 rows the first block of a column is skipped. -/
theorem lim_wrap (B : Nat) : lim B (2 ^ 32) 0 = 0 := by
  unfold lim; simp

/-! ### A matrix from two vectors -/

/-- The blocks that exist stay as they are. -/
structure Keeps (s s' : St R) : Prop where
  wf : s'.Wf
  live : ∀ i, s'.live i ↔ s.live i
  blk : ∀ i, s.live i → s'.blk i = s.blk i

theorem Keeps.trans {s s' s'' : St R} (h : Keeps s s') (h' : Keeps s' s'') : Keeps s s'' :=
  ⟨h'.wf, fun i => (h'.live i).trans (h.live i), fun i hi => (h'.blk i ((h.live i).2 hi)).trans (h.blk i hi)⟩

theorem forCells_keep {a : SBM} (f : Nat → Nat → St R → St R) (hf : ∀ r c s, ∃ v, f r c s = s.set (a.block r c) v) {s : St R} (hs : s.Wf) (ho : Owned s a) :
    (forCells a.h a.w f s).Wf ∧ (∀ i, (forCells a.h a.w f s).live i ↔ s.live i) ∧
      ∀ i, (∀ r c, r < a.h → c < a.w → a.block r c ≠ i) → (forCells a.h a.w f s).blk i = s.blk i := by
  rw [forCells_eq]
  have key : ∀ (l : List (Nat × Nat)), (∀ p ∈ l, p.1 < a.h ∧ p.2 < a.w) → ∀ {s : St R}, s.Wf → Owned s a →
      (l.foldl (fun s p => f p.1 p.2 s) s).Wf ∧ (∀ i, (l.foldl (fun s p => f p.1 p.2 s) s).live i ↔ s.live i) ∧
      ∀ i, (∀ r c, r < a.h → c < a.w → a.block r c ≠ i) → (l.foldl (fun s p => f p.1 p.2 s) s).blk i = s.blk i := by
    intro l hl
    induction l with
    | nil => intro s hs _; exact ⟨hs, fun _ => Iff.rfl, fun _ _ => rfl⟩
    | cons p l ih =>
      intro s hs ho
      obtain ⟨v, hv⟩ := hf p.1 p.2 s
      have hp := hl p (by simp)
      obtain ⟨b1, b2, b3⟩ := ih (fun q hq => hl q (List.mem_cons_of_mem _ hq)) (s := f p.1 p.2 s)
        (by rw [hv]; exact set_wf hs (ho _ _ hp.1 hp.2)) (by rw [hv]; exact ho)
      refine ⟨b1, fun i => (b2 i).trans (by rw [hv]; exact Iff.rfl), fun i hi => ?_⟩
      rw [List.foldl_cons, b3 i hi, hv]
      exact if_neg (fun e => hi _ _ hp.1 hp.2 e.symm)
  exact key _ (fun p hp => mem_grid.1 hp) hs ho

/-- A copy of a matrix, something done with it, and its destruction: the existing blocks stay as they are. -/
theorem copy_keep {s : St R} (hs : s.Wf) (A : SBM) (f : St R → St R)
    (hf : (f (copySbm B s A).2).Wf ∧ (∀ i, (f (copySbm B s A).2).live i ↔ (copySbm B s A).2.live i) ∧
      ∀ i, (copySbm B s A).2.live i → ¬ HasBlock (copySbm B s A).1 i → (f (copySbm B s A).2).blk i = (copySbm B s A).2.blk i) :
    Keeps s (destroy (f (copySbm B s A).2) (copySbm B s A).1) := by
  have ha := newSbm_added hs A.h A.w false
  have how : Owned (newSbm s A.h A.w false).2 (newSbm s A.h A.w false).1 := fun r c hr hc =>
    (ha.live _).2 (Or.inr ((mem_own_hb rfl _).2 ⟨r, c, hr, hc, rfl⟩))
  obtain ⟨b1, b2, b3⟩ := forCells_keep (a := (newSbm s A.h A.w false).1) (cellOp2 B .add false A.tr (newSbm s A.h A.w false).1 A)
    (fun r c s => ⟨_, rfl⟩) ha.wf how
  obtain ⟨f1, f2, f3⟩ := hf
  have hl : ∀ i, (f (copySbm B s A).2).live i ↔ s.live i ∨ i ∈ (newSbm s A.h A.w false).1.own := fun i => (f2 i).trans ((b2 i).trans (ha.live i))
  obtain ⟨c1, c2, c3⟩ := releases_spec (newSbm s A.h A.w false).1.own f1 (fun i hi => (hl i).2 (Or.inr hi)) ha.nodup
  refine ⟨c1, fun i => (c2 i).trans ?_, fun i hi => ?_⟩
  · rw [hl i]
    constructor
    · rintro ⟨h | h, hn⟩
      · exact h
      · exact absurd h hn
    · intro h
      exact ⟨Or.inl h, fun hm => ha.fresh i hm h⟩
  · have hn : i ∉ (newSbm s A.h A.w false).1.own := fun hm => ha.fresh i hm hi
    have hnb : ¬ HasBlock (newSbm s A.h A.w false).1 i := fun hm => hn ((mem_own_hb rfl i).2 hm)
    refine (c3 i hn).trans ((f3 i ((b2 i).2 ((ha.live i).2 (Or.inl hi))) hnb).trans ?_)
    exact (b3 i (fun r c hr hc e => hnb ⟨r, c, hr, hc, e⟩)).trans (congrFun ha.blk i)

theorem copy_owned {s : St R} (hs : s.Wf) (A : SBM) : (copySbm B s A).2.Wf ∧ Owned (copySbm B s A).2 (copySbm B s A).1 := by
  have ha := newSbm_added hs A.h A.w false
  have how : Owned (newSbm s A.h A.w false).2 (newSbm s A.h A.w false).1 := fun r c hr hc =>
    (ha.live _).2 (Or.inr ((mem_own_hb rfl _).2 ⟨r, c, hr, hc, rfl⟩))
  obtain ⟨b1, b2, b3⟩ := forCells_keep (a := (newSbm s A.h A.w false).1) (cellOp2 B .add false A.tr (newSbm s A.h A.w false).1 A)
    (fun r c s => ⟨_, rfl⟩) ha.wf how
  exact ⟨b1, fun r c hr hc => (b2 _).2 (how r c hr hc)⟩

theorem fromNaive_keep {l r : Nat → R} {nl nr : Nat} {junk : Raw R} {A : SBM} {ol or' : Nat} {s : St R} (hs : s.Wf) :
    Keeps s (fromNaive B l r nl nr junk A ol or' s) := by
  obtain ⟨h1, h2⟩ := copy_owned (B := B) hs A
  obtain ⟨a1, a2, a3⟩ := forCells_keep (a := (copySbm B s A).1) (fun row col t => t.set ((copySbm B s A).1.block row col)
    (some (fromBlock B (copySbm B s A).1.tr l r nl nr ((ol + row) * B) ((or' + col) * B) junk))) (fun _ _ _ => ⟨_, rfl⟩) h1 h2
  exact copy_keep hs A _ ⟨a1, a2, fun i _ hn => a3 i (fun r c hr hc e => hn ⟨r, c, hr, hc, e⟩)⟩

theorem fromRec_keep {l r : Nat → R} {nl nr : Nat} {junk : Raw R} : ∀ (fuel : Nat) (A : SBM) (ol or' : Nat) {s : St R}, s.Wf →
    Keeps s (fromRec B l r nl nr junk fuel A ol or' s) := by
  intro fuel
  induction fuel with
  | zero => intro A ol or' s hs; exact ⟨hs, fun _ => Iff.rfl, fun _ _ => rfl⟩
  | succ fuel ih =>
    intro A ol or' s hs
    obtain ⟨h1, h2⟩ := copy_owned (B := B) hs A
    rw [fromRec]
    dsimp only
    split_ifs
    · exact copy_keep hs A (fun s => s) ⟨h1, fun _ => Iff.rfl, fun _ _ _ => rfl⟩
    · have := fromNaive_keep (B := B) (l := l) (r := r) (nl := nl) (nr := nr) (junk := junk) (A := (copySbm B s A).1) (ol := ol) (or' := or') h1
      exact copy_keep hs A (fun s' => fromNaive B l r nl nr junk (copySbm B s A).1 ol or' s') ⟨this.wf, this.live, fun i hi _ => this.blk i hi⟩
    · obtain ⟨q, e, _, _, _, _, ho⟩ := approx_view h1 (copySbm B s A).1
      rw [e]
      dsimp only
      have k1 := ih q.ul ol or' h1
      have k2 := ih q.ur ol (or' + q.ul.w) k1.wf
      have k3 := ih q.dr (ol + q.ul.h) (or' + q.ul.w) k2.wf
      have k4 := ih q.dl (ol + q.ul.h) or' k3.wf
      have k := ((k1.trans k2).trans k3).trans k4
      have ed : ∀ t : St R, destroyAll t (q.rev ++ [(copySbm B s A).1]) = destroy t (copySbm B s A).1 := by
        intro t
        unfold destroyAll
        rw [List.foldl_append]
        have := destroyAll_none ho t
        unfold destroyAll at this
        rw [this]; rfl
      rw [ed]
      exact copy_keep hs A (fun s' => fromRec B l r nl nr junk fuel q.dl (ol + q.ul.h) or' (fromRec B l r nl nr junk fuel q.dr (ol + q.ul.h) (or' + q.ul.w)
        (fromRec B l r nl nr junk fuel q.ur ol (or' + q.ul.w) (fromRec B l r nl nr junk fuel q.ul ol or' s')))) ⟨k.wf, k.live, fun i hi _ => k.blk i hi⟩

/-- The matrix made of two vectors is zero. -/
theorem fromVectors_zero (h : Inv B w σ) (l r : List R) (junk : Raw R) :
    ObjOk B (w.fromVectors B l r junk).2.st ((w.fromVectors B l r junk).2.sbm (w.fromVectors B l r junk).1) ⟨l.length, r.length, fun _ _ => 0⟩ := by
  obtain ⟨n1, n2⟩ := newMat_self h l.length r.length
  have k := fromRec_keep (B := B) (l := fun k => l.getD k 0) (r := fun k => r.getD k 0) (nl := l.length) (nr := r.length) (junk := junk)
    (((w.newMat B l.length r.length).2.sbm (w.newMat B l.length r.length).1).h + ((w.newMat B l.length r.length).2.sbm (w.newMat B l.length r.length).1).w)
    ((w.newMat B l.length r.length).2.sbm (w.newMat B l.length r.length).1) 0 0 n1
  exact n2.frame (fun i hi _ => (k.live i).2 hi) (fun i hi _ => k.blk i hi)

end Stxxl.Mat
