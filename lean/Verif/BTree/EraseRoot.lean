/-
`erase` on the whole tree.
-/
import Verif.BTree.Erase
import Verif.BTree.Root

namespace BTree
variable {K V : Type} [LinearOrder K]

/-- What an erasure does to contents. -/
def ErsEnts (k : K) (m m' : List (K × V)) (r : Nat) : Prop :=
  (r = 0 ∧ m' = m ∧ ∀ e ∈ m, e.1 ≠ k) ∨
    (r = 1 ∧ ∃ P v Q, m = P ++ (k, v) :: Q ∧ m' = P ++ Q)

theorem atErase_inv {c : Cfg K} (hc : c.Ok) {k : K} {w w' : W} {Ls Ls' : List (Blk K V)} {r : Nat}
    (hA : AtErase c k w Ls Ls' r w') (hI : LInv Ls w) :
    LInv Ls' w' ∧ Keeps (fun k' => k' ≠ k) none Ls Ls' w w' ∧ ErsEnts k (ents Ls) (ents Ls') r := by
  obtain ⟨A, l, C, l', w1, rfl, h2, h3, h4, h5, h6⟩ := hA
  have entsA : ∀ e ∈ ents A, e.1 < k := by
    intro e he; obtain ⟨a, ha, he⟩ := mem_ents.mp he; exact h4 a ha e he
  have entsC : ∀ e ∈ ents C, k < e.1 := by
    intro e he; obtain ⟨a, ha, he⟩ := mem_ents.mp he; exact h5 a ha e he
  rcases leafErase_cases hc k w h6 with ⟨hn, e⟩ | ⟨P, v, Q, hPQ, e⟩
  · rw [h2] at e
    simp only [Prod.mk.injEq] at e
    obtain ⟨rfl, rfl, rfl⟩ := e
    obtain ⟨b1, b2, b3⟩ := mv_inv h3 hI
    refine ⟨b1, b2.mono (fun _ _ => trivial), Or.inl ⟨rfl, b3, ?_⟩⟩
    intro e he
    simp only [ents_append, ents_cons, List.mem_append] at he
    rcases he with he | he | he
    · exact ne_of_lt (entsA e he)
    · exact hn e he
    · exact ne_of_gt (entsC e he)
  · rw [h2] at e
    simp only [Prod.mk.injEq] at e
    obtain ⟨rfl, rfl, rfl⟩ := e
    have hi : P.length < l.els.length := by rw [hPQ]; simp
    obtain ⟨c1, c2⟩ := carry_erase (A := A) (C := C) hi hI.nd (k, v) (by rw [hPQ]; simp)
    have e1 : l.els.take P.length ++ l.els.drop (P.length + 1) = P ++ Q := by rw [hPQ]; simp
    rw [e1] at c1 c2
    generalize hg : (fun q : Nat × Nat => if q.1 = l.bid ∧ P.length + 1 ≤ q.2 ∧ q.2 ≤ l.els.length then (l.bid, q.2 - 1) else q) = g at c1 c2
    have hits : ∀ id, (w.fix l.bid (P.length + 1) l.els.length (fun p => (l.bid, p - 1))).its id = (w.its id).map g := by
      intro id; rw [fix_its, ← hg]
    have inv1 : LInv (A ++ { l with els := P ++ Q } :: C) (w.fix l.bid (P.length + 1) l.els.length (fun p => (l.bid, p - 1))) := by
      refine ⟨by simpa using hI.nd, ?_, fin_of (hits 0) c2 hI.fin⟩
      exact links_swap (w := w) (l := l) rfl rfl rfl hI.links
    have k1 : Keeps (fun k' => k' ≠ k) none (A ++ l :: C) (A ++ { l with els := P ++ Q } :: C) w _ :=
      keeps_of (by simp) (fun id _ => hits id) c1
    obtain ⟨b1, b2, b3⟩ := mv_inv h3 inv1
    refine ⟨b1, k1.trans (b2.mono (fun _ _ => trivial)), Or.inr ⟨rfl, ents A ++ P, v, Q ++ ents C, ?_, ?_⟩⟩
    · simp [hPQ]
    · rw [b3]; simp

theorem rootFob_eq {c : Cfg K} (hc : c.Ok) {h : Nat} {P Q : List (K × Tree K V h)} {kl kr : K} {left right : Tree K V h}
    {w w' : W} {live live' : List Nat} {i : Nat} {lft : Option (K × Tree K V h)} {right' : Tree K V h}
    (hs : OrdE (V := V) (h + 1) none c.mx (P ++ (kl, left) :: (kr, right) :: Q))
    (hs' : OrdE (V := V) (h + 1) none c.mx (P ++ lft.toList ++ (kr, right') :: Q))
    (hi : i = P.length ∨ (i = P.length + 1 ∧ Q = []))
    (hf : fob c h left right w live = some (lft, right', w', live')) :
    rootFob c h (P ++ (kl, left) :: (kr, right) :: Q) i w live = some (P ++ lft.toList ++ (kr, right') :: Q, w', live') := by
  have g0 : (P ++ (kl, left) :: (kr, right) :: Q)[P.length]? = some (kl, left) := get_len
  have g1 : (P ++ (kl, left) :: (kr, right) :: Q)[P.length + 1]? = some (kr, right) := by
    rw [List.getElem?_append_right (by omega)]; simp
  have hkr : kr ≤ c.mx := by
    have := Kids.append.mp hs
    obtain ⟨mid, m1, m2⟩ := this
    obtain ⟨b, eb, hb, _⟩ := Kids.lo_le m2.2.2.2.2 rfl
    cases eb; exact hb
  have hklr : kl < kr := by
    have hp := Kids.sorted hs
    exact (List.pairwise_cons.mp (List.pairwise_append.mp hp).2.1).1 (kr, right) (by simp)
  have hset : (P ++ (kl, left) :: (kr, right) :: Q).set (P.length + 1) (kr, right') = P ++ (kl, left) :: (kr, right') :: Q := by
    rw [List.set_append_right _ _ (by omega)]
    simp
  have her : ((P ++ (kl, left) :: (kr, right) :: Q).set (P.length + 1) (kr, right')).eraseIdx P.length = P ++ (kr, right') :: Q := by
    rw [hset, List.eraseIdx_append_of_length_le (by omega)]
    simp
  have fin : (match (P ++ (kl, left) :: (kr, right) :: Q)[P.length]?, (P ++ (kl, left) :: (kr, right) :: Q)[P.length + 1]? with
      | some (_, left), some (kr, right) =>
        match fob c h left right w live with
        | none => none
        | some (none, right', w', live') =>
          some (((P ++ (kl, left) :: (kr, right) :: Q).set (P.length + 1) (kr, right')).eraseIdx P.length, w', live')
        | some (some e, right', w', live') =>
          match mapIns c.lt e (((P ++ (kl, left) :: (kr, right) :: Q).set (P.length + 1) (kr, right')).eraseIdx P.length) with
          | none => none
          | some root' => some (root', w', live')
      | _, _ => none) = some (P ++ lft.toList ++ (kr, right') :: Q, w', live') := by
    rw [g0, g1]
    dsimp only
    rw [hf]
    cases lft with
    | none => dsimp only; rw [her]; simp
    | some e =>
      dsimp only
      rw [her]
      have hp := Kids.sorted hs'
      simp only [Option.toList_some, List.append_assoc, List.cons_append, List.nil_append] at hp
      have hA : ∀ a ∈ P, a.1 < e.1 := fun a ha => (List.pairwise_append.mp hp).2.2 a ha e (by simp)
      have hB : e.1 < kr := (List.pairwise_cons.mp (List.pairwise_append.mp hp).2.1).1 (kr, right') (by simp)
      rw [mapIns_ok (f := (kr, right')) hc hA hB]
      simp
  rcases hi with rfl | ⟨rfl, rfl⟩
  · unfold rootFob
    rw [g0]
    dsimp only
    have hne : ¬ (kl = c.mx) := ne_of_lt (lt_of_lt_of_le hklr hkr)
    rw [if_neg (fun h => hne h.1), if_neg hne]
    rw [g0, g1] at fin
    simp only [g0, g1]
    exact fin
  · have hk : kr = c.mx := by
      have := Kids.last (A := P ++ [(kl, left)]) (e := (kr, right)) (show Kids (fun lo k (b : Tree K V h) => OrdE h lo k b.els) none ((P ++ [(kl, left)]) ++ [(kr, right)]) (some c.mx) by rw [List.append_assoc]; exact hs)
      simpa using this.symm
    unfold rootFob
    rw [g1]
    dsimp only
    rw [if_neg (by omega), if_pos hk]
    have : P.length + 1 - 1 = P.length := by omega
    rw [this]
    rw [g0, g1] at fin
    simp only [g0, g1]
    exact fin

/-- The end of `erase` after the root was repaired. -/
theorem collapse_ok {c : Cfg K} (hc : c.Ok) {h size : Nat} {root2 : List (K × Tree K V h)} {w2 : W} {live2 R : List Nat}
    (ho : OrdE (V := V) (h + 1) none c.mx root2)
    (hg : ∀ e ∈ root2, c.min h ≤ (Blk.els (Prod.snd e)).length ∧ (Blk.els (Prod.snd e)).length ≤ c.max h ∧ GoodE c h (Blk.els (Prod.snd e)))
    (hl : root2.length ≤ c.maxN) (hnd : live2.Nodup) (hp : live2.Perm (bidsK h root2 ++ R))
    (hlf : LInv (leavesK h root2) w2) (hsz : size = (ents (leavesK h root2)).length) :
    ∃ s', collapse c size w2 live2 h root2 = some s' ∧
      Inv c R s' ∧ s'.leaves = leavesK h root2 ∧ s'.w = w2 := by
  cases h with
  | zero =>
    exact ⟨{ h := 0, root := root2, size := size, w := w2, live := live2 }, rfl,
      ⟨ho, fun e he => ⟨(hg e he).2.1, (hg e he).2.2, Or.inl (hg e he).1⟩, hl, by simp, hnd, hp, hlf, hsz⟩, rfl, rfl⟩
  | succ h =>
    match root2, ho, hg, hl, hp, hlf, hsz with
    | [], ho, _, _, _, _, _ => exact absurd ho (by simp [OrdE, Kids])
    | [(kk, n)], ho, hg, hl, hp, hlf, hsz =>
      have hk : kk = c.mx := by
        have := Kids.last (A := []) (e := (kk, n)) ho
        simpa using this.symm
      have ho' := ho.2.1
      subst hk
      obtain ⟨g1, g2, g3⟩ := hg (c.mx, n) (by simp)
      have hmax := hc.max (h + 1)
      have hmin : c.min (h + 1) = c.max (h + 1) / 2 := rfl
      have hmaxN : c.max (h + 1) = c.maxN := rfl
      dsimp only at g1 g2
      have e1 : leavesK (h + 1) [(c.mx, n)] = leavesK h n.els := by rw [leavesK_cons, leaves_succ]; simp [leavesK]
      rw [e1] at hlf hsz
      refine ⟨{ h := h, root := n.els, size := size, w := w2, live := live2.erase n.bid }, by simp [collapse], ?_, ?_, rfl⟩
      · refine ⟨ho', fun e he => ⟨(g3 e he).2.1, (g3 e he).2.2, Or.inl (g3 e he).1⟩, ?_, ?_, hnd.erase _, ?_, hlf, hsz⟩
        · show n.els.length ≤ _; omega
        · intro _; show 2 ≤ n.els.length; omega
        · refine perm_erase (hp.trans ?_)
          rw [bidsK_cons, dealloc_succ, show bidsK (h + 1) ([] : List (K × Tree K V (h + 1))) = [] from rfl]
          rw [List.perm_iff_count]; intro y
          simp only [List.count_append, List.count_cons, List.count_nil]; omega
      · show leavesK h n.els = _; exact e1.symm
    | a :: b :: t, ho, hg, hl, hp, hlf, hsz =>
      exact ⟨{ h := h + 1, root := a :: b :: t, size := size, w := w2, live := live2 }, rfl,
        ⟨ho, fun e he => ⟨(hg e he).2.1, (hg e he).2.2, Or.inl (hg e he).1⟩, hl, by simp, hnd, hp, hlf, hsz⟩, rfl, rfl⟩

/-- The repair of the root and what follows it. -/
theorem rootStep {c : Cfg K} (hc : c.Ok) {h size : Nat} {P Q : List (K × Tree K V h)} {kl kr : K} {left right : Tree K V h}
    {w1 : W} {live1 R : List Nat} {i : Nat}
    (ho : OrdE (V := V) (h + 1) none c.mx (P ++ (kl, left) :: (kr, right) :: Q))
    (hl : (P ++ (kl, left) :: (kr, right) :: Q).length ≤ c.maxN)
    (hi : i = P.length ∨ (i = P.length + 1 ∧ Q = []))
    (gl : GoodE c h left.els) (gr : GoodE c h right.els) (l1 : left.els.length ≤ c.max h)
    (r1 : right.els.length ≤ c.max h) (lne : left.els ≠ []) (rne : right.els ≠ [])
    (hu : (left.els.length < c.min h ∧ c.min h ≤ right.els.length) ∨
      (right.els.length < c.min h ∧ c.min h ≤ left.els.length))
    (hPQ : ∀ e, e ∈ P ∨ e ∈ Q → c.min h ≤ e.2.els.length ∧ e.2.els.length ≤ c.max h ∧ GoodE c h e.2.els)
    (hnd : live1.Nodup) (hp : live1.Perm (bidsK h (P ++ (kl, left) :: (kr, right) :: Q) ++ R))
    (hlf : LInv (leavesK h (P ++ (kl, left) :: (kr, right) :: Q)) w1)
    (hsz : size = (ents (leavesK h (P ++ (kl, left) :: (kr, right) :: Q))).length) :
    ∃ root2 w2 live2 s', rootFob c h (P ++ (kl, left) :: (kr, right) :: Q) i w1 live1 = some (root2, w2, live2) ∧
      collapse c size w2 live2 h root2 = some s' ∧
      Inv c R s' ∧ Mv (leavesK h (P ++ (kl, left) :: (kr, right) :: Q)) w1 s'.leaves s'.w := by
  obtain ⟨lft, right', w', live', f1, f2, f3, f4, f5, f6⟩ := pair_ok hc w1 live1 ho gl gr l1 r1 lne rne hu
  obtain ⟨b1, b2, b3⟩ := mv_inv f4 hlf
  obtain ⟨s', q1, q2, q3, q4⟩ := collapse_ok hc (size := size) f2 (by
      intro e he
      have hcase : (e ∈ P ∨ e ∈ Q) ∨ e ∈ lft.toList ++ [(kr, right')] := by
        simp only [List.mem_append, List.mem_cons, List.not_mem_nil, or_false] at he ⊢; tauto
      rcases hcase with hh | hh
      · exact hPQ e hh
      · exact f3 e hh) (by
      refine Nat.le_trans ?_ hl
      cases lft <;> simp) (f5 hnd) (f6 R hp) b1 (by rw [b3]; exact hsz)
  exact ⟨_, _, _, s', rootFob_eq hc ho f2 hi f1, q1, q2, by rw [q3, q4]; exact f4⟩

/-- `erase(key)` on the whole tree. -/
theorem erase_ok {c : Cfg K} (hc : c.Ok) {R : List Nat} {s : St K V} (hI : Inv c R s) (k : K) (hk : k ≤ c.mx) :
    ∃ s' r, erase c s k = some (s', r) ∧ Inv c R s' ∧ Keeps (fun k' => k' ≠ k) none s.leaves s'.leaves s.w s'.w ∧
      ErsEnts k (ents s.leaves) (ents s'.leaves) r := by
  obtain ⟨A, k', ch, B, mid, e1, e2, m1, m2, m3, m4, m5, m6, m7⟩ :=
    kids_find hc (k := k) hI.ord (fun a ha => by cases ha) hk
  have hgch := hI.good (k', ch) (by rw [e1]; simp)
  have hmx := hc.max s.h
  have hmn : c.min s.h = c.max s.h / 2 := rfl
  have hch2 : s.h ≠ 0 → 2 ≤ ch.els.length := by
    intro h0
    rcases hgch.2.2 with h | h
    · dsimp only at h; omega
    · exact absurd h.1 h0
  obtain ⟨ch', r, w1, live1, i1, i2, i3, i4, i5, i6, i7⟩ := ers_ok hc k s.h ch s.w s.live mid k' m5 hgch.2.1 hch2 m2 m4
  have kA : ∀ a ∈ leavesK s.h A, ∀ e ∈ a.els, e.1 < k := by
    intro a ha e he
    obtain ⟨_, b, eb, hb⟩ := kids_leaf_keys m1 a ha e he
    exact lt_of_le_of_lt hb (m2 b eb)
  have kB : ∀ a ∈ leavesK s.h B, ∀ e ∈ a.els, k < e.1 := by
    intro a ha e he
    exact lt_of_le_of_lt m4 ((kids_leaf_keys m6 a ha e he).1 k' rfl)
  have hget : s.root[lb c.lt k s.root]? = some (k', ch) := by rw [e2, e1]; exact get_len
  have hset : s.root.set (lb c.lt k s.root) (k', ch') = A ++ (k', ch') :: B := by rw [e2, e1]; exact set_len
  have lv : s.leaves = leavesK s.h A ++ leaves s.h ch ++ leavesK s.h B := by rw [St.leaves_eq, e1]; simp
  have lv' : leavesK s.h A ++ leaves s.h ch' ++ leavesK s.h B = leavesK s.h (A ++ (k', ch') :: B) := by simp
  have at' := i7.ctx kA kB
  rw [← lv, lv'] at at'
  obtain ⟨a1, a2, a3⟩ := atErase_inv hc at' hI.lf
  have ho1 : OrdE (V := V) (s.h + 1) none c.mx (A ++ (k', ch') :: B) := kids_replace m1 m3 i2 m6
  have hlenE : (A ++ (k', ch') :: B).length = s.root.length := by rw [e1]; simp
  have hn1 := i6.1 hI.nd
  have hlv : live1.Perm (bidsK s.h (A ++ (k', ch') :: B) ++ R) := by
    have := i6.2 (bidsK s.h A ++ bidsK s.h B ++ R) (hI.live.trans (by
      rw [e1, bidsK_append, bidsK_cons, List.perm_iff_count]; intro y
      simp only [List.count_append]; omega))
    refine this.trans ?_
    rw [bidsK_append, bidsK_cons, List.perm_iff_count]; intro y
    simp only [List.count_append]; omega
  have hsz : s.size - r = (ents (leavesK s.h (A ++ (k', ch') :: B))).length := by
    rcases a3 with ⟨rfl, e, _⟩ | ⟨rfl, P, v, Q, e, e'⟩
    · rw [e]; simpa using hI.size
    · rw [e', hI.size, e]; simp
  have hroot1 : (A ++ (k', ch') :: B).length ≤ c.maxN := by rw [hlenE]; exact hI.rmax
  have hE2 : ∀ e, e ∈ A ∨ e ∈ B → c.min s.h ≤ e.2.els.length ∧ e.2.els.length ≤ c.max s.h ∧ GoodE c s.h e.2.els := by
    intro e he
    have hm : e ∈ s.root := by rw [e1]; rcases he with he | he <;> simp [he]
    obtain ⟨g1, g2, g3⟩ := hI.good e hm
    refine ⟨?_, g1, g2⟩
    rcases g3 with h | ⟨_, h⟩
    · exact h
    · exfalso
      rw [e1] at h
      simp only [List.length_append, List.length_cons] at h
      rcases he with he | he
      · have := List.length_pos_of_mem he; omega
      · have := List.length_pos_of_mem he; omega
  have hch'len : ch'.els.length ≤ c.max s.h := Nat.le_trans i4 hgch.1
  have finish : ∀ s', (∃ s'' : St K V, s'' = s' ∧ Inv c R s' ∧ Mv (leavesK s.h (A ++ (k', ch') :: B)) w1 s'.leaves s'.w) →
      Keeps (fun k' => k' ≠ k) none s.leaves s'.leaves s.w s'.w ∧ ErsEnts k (ents s.leaves) (ents s'.leaves) r := by
    rintro s' ⟨_, _, _, hm⟩
    obtain ⟨b1, b2, b3⟩ := mv_inv hm a1
    exact ⟨a2.trans (b2.mono (fun _ _ => trivial)), by rw [b3]; exact a3⟩
  unfold erase
  dsimp only
  rw [hget]
  dsimp only
  rw [if_neg (by intro h; have := hI.rmin h.1; omega), i1]
  dsimp only
  rw [hset]
  by_cases hun : c.min s.h ≤ ch'.els.length ∨ (s.h = 0 ∧ s.root.length = 1)
  · rw [if_pos hun]
    refine ⟨_, r, rfl, ⟨ho1, ?_, hroot1, ?_, hn1, hlv, a1, hsz⟩, a2, a3⟩
    · intro e he
      show _ ∧ _ ∧ (_ ∨ s.h = 0 ∧ (A ++ (k', ch') :: B).length = 1)
      rw [hlenE]
      rcases List.mem_append.mp he with he | he
      · obtain ⟨g1, g2, g3⟩ := hE2 e (Or.inl he); exact ⟨g2, g3, Or.inl g1⟩
      · rcases List.mem_cons.mp he with rfl | he
        · exact ⟨hch'len, i3, hun⟩
        · obtain ⟨g1, g2, g3⟩ := hE2 e (Or.inr he); exact ⟨g2, g3, Or.inl g1⟩
    · intro h0; have := hI.rmin h0; show 2 ≤ (A ++ (k', ch') :: B).length; omega
  · rw [if_neg hun]
    have hun1 : ¬ c.min s.h ≤ ch'.els.length := fun h => hun (Or.inl h)
    have hr2 : 2 ≤ s.root.length := by
      by_cases h0 : s.h = 0
      · have h1 : s.root.length ≠ 1 := fun h1 => hun (Or.inr ⟨h0, h1⟩)
        have : 1 ≤ s.root.length := by rw [← hlenE]; simp; omega
        omega
      · exact hI.rmin h0
    have hchmin : c.min s.h ≤ ch.els.length := by
      rcases hgch.2.2 with h | ⟨_, h⟩
      · exact h
      · omega
    have hch'ne : ch'.els ≠ [] := by intro hh; rw [hh] at i5; simp at i5; omega
    have hne : ∀ e, e ∈ A ∨ e ∈ B → e.2.els ≠ [] := by
      intro e he hh; have := (hE2 e he).1; rw [hh] at this; simp at this; omega
    rw [e2]
    cases B with
    | nil =>
      rcases List.eq_nil_or_concat A with rfl | ⟨A', z, rfl⟩
      · rw [e1] at hr2; simp at hr2
      · obtain ⟨kz, z⟩ := z
        rw [List.concat_eq_append] at *
        have hE : (A' ++ [(kz, z)]) ++ [(k', ch')] = A' ++ (kz, z) :: (k', ch') :: [] := by simp
        have gz := hE2 (kz, z) (Or.inl (by simp))
        rw [hE] at ho1 hroot1 hlv a1 hsz finish ⊢
        obtain ⟨root2, w2, live2, s', q0, q1, q2, q3⟩ := rootStep hc (size := s.size - r) (i := (A' ++ [(kz, z)]).length) ho1 hroot1 (Or.inr ⟨by simp, rfl⟩)
          gz.2.2 i3 gz.2.1 hch'len (hne (kz, z) (Or.inl (by simp))) hch'ne (Or.inr ⟨by omega, gz.1⟩)
          (fun e he => hE2 e (by simp only [List.not_mem_nil, or_false] at he; left; simp [he])) hn1 hlv a1 hsz
        rw [q0]; dsimp only; rw [q1]
        exact ⟨s', r, rfl, q2, finish s' ⟨s', rfl, q2, q3⟩⟩
    | cons b B' =>
      obtain ⟨kb, b⟩ := b
      have gb := hE2 (kb, b) (Or.inr (by simp))
      obtain ⟨root2, w2, live2, s', q0, q1, q2, q3⟩ := rootStep hc (size := s.size - r) (i := A.length) ho1 hroot1 (Or.inl rfl)
        i3 gb.2.2 hch'len gb.2.1 hch'ne (hne (kb, b) (Or.inr (by simp))) (Or.inl ⟨by omega, gb.1⟩)
        (fun e he => hE2 e (by simp only [List.mem_cons]; tauto)) hn1 hlv a1 hsz
      rw [q0]; dsimp only; rw [q1]
      exact ⟨s', r, rfl, q2, finish s' ⟨s', rfl, q2, q3⟩⟩

end BTree
