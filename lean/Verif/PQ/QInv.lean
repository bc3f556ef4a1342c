import Verif.PQ.MAppend

/-! # The invariant of the priority queue; refilling the buffers -/

namespace Stxxl.PQ
open Stxxl.LT (upd Below)

variable {α : Type} {C : Cmp α} {c : Cfg}

/-- The elements of group `i`. -/
def grp (s : State α) (i : Nat) : List α := s.gb i ++ contents (s.mg i)

/-- All elements behind the delete buffer. -/
def below (c : Cfg) (s : State α) : List α := (List.range c.total).flatMap (grp s)

/-- Groups, without the order between a buffer and its merger. -/
structure BInv0 (c : Cfg) (C : Cmp α) (s : State α) : Prop where
  nact_le : s.nact ≤ c.total
  idle : ∀ i, s.nact ≤ i → s.gb i = [] ∧ contents (s.mg i) = []
  mg : ∀ i, MInv (c.mp i) C (s.mg i)
  desc : ∀ i, Desc C (s.gb i)
  len : ∀ i, (s.gb i).length ≤ c.N
  real : ∀ i, ∀ x ∈ s.gb i, C.Real x

structure BInv (c : Cfg) (C : Cmp α) (s : State α) : Prop extends BInv0 c C s where
  ge : ∀ i, GeAll C (s.gb i) (contents (s.mg i))
  size : s.size = (below c s).length

theorem below_perm {s s' : State α} (h : ∀ i, i < c.total → (grp s' i).Perm (grp s i)) : (below c s').Perm (below c s) :=
  List.Perm.flatMap_left _ (fun i hi => h i (List.mem_range.1 hi))

theorem Cfg.Ok.mp (hc : c.Ok) (i : Nat) : (c.mp i).Ok := by
  unfold Cfg.mp
  split
  · obtain ⟨a, ha⟩ := hc.intK_pow2
    refine ⟨?_, ?_, hc.bs_pos⟩
    · have := hc.intK_room; show 1 ≤ c.intK; omega
    · show c.intK = 2 ^ LT.ilog2Ceil c.intK
      have h1 := LT.le_ilog2Ceil c.intK
      rw [ha] at h1 ⊢
      congr 1
      have h2 : a ≤ LT.ilog2Ceil (2 ^ a) := (Nat.pow_le_pow_iff_right (by omega)).1 h1
      have h3 : LT.ilog2Ceil (2 ^ a) ≤ a := by
        unfold LT.ilog2Ceil
        split
        · omega
        · rename_i hgt
          have : Nat.log2 (2 ^ a - 1) < a := (Nat.log2_lt (by omega)).2 (by omega)
          omega
      omega
  · exact ⟨by have := hc.extK_two; show 1 ≤ c.extK; omega, rfl, hc.bs_pos⟩

/-- The refilled buffer is full or the merger is empty. -/
theorem refillGroup_ok (hC : C.Ok) {s : State α} (h : BInv c C s) {i : Nat} (hi : i < s.nact) :
    ∃ len s', refillGroup c C s i = some (len, s') ∧ BInv c C s' ∧ s'.nact = s.nact ∧ s'.del = s.del ∧ s'.heap = s.heap ∧
      s'.size = s.size ∧ (∀ j, (grp s' j).Perm (grp s j)) ∧ len = (s'.gb i).length ∧
      (∀ j, j ≠ i → s'.gb j = s.gb j ∧ s'.mg j = s.mg j) ∧ ((s'.gb i).length = c.N ∨ contents (s'.mg i) = []) := by
  have hlen := h.len i
  have hsz := (h.mg i).size
  obtain ⟨n, hnd⟩ : ∃ n, n = (if (s.mg i).msize + (s.gb i).length ≥ c.N then c.N - (s.gb i).length else (s.mg i).msize) := ⟨_, rfl⟩
  unfold refillGroup
  simp only [← hnd]
  split
  · rename_i hn
    have hle : n ≤ (contents (s.mg i)).length := by rw [hnd]; split <;> omega
    obtain ⟨xs, M, e1, B⟩ := multiMerge_ok hC (h.mg i) hle
    have hpi : ((s.gb i ++ xs) ++ contents M).Perm (grp s i) := by
      rw [List.append_assoc]; exact (List.perm_append_left_iff _).2 B.perm.symm
    have hg : ∀ j, (grp { s with mg := upd s.mg i M, gb := upd s.gb i (s.gb i ++ xs) } j).Perm (grp s j) := by
      intro j
      unfold grp
      by_cases e : j = i
      · subst e; show (upd s.gb j _ j ++ contents (upd s.mg j M j)).Perm _
        rw [upd_same, upd_same]; exact hpi
      · show (upd s.gb i _ j ++ contents (upd s.mg i M j)).Perm _
        rw [upd_ne _ _ e, upd_ne _ _ e]
    simp only [e1]
    refine ⟨n + (s.gb i).length, { s with mg := upd s.mg i M, gb := upd s.gb i (s.gb i ++ xs) }, rfl, ?_, rfl, rfl, rfl, rfl, hg, ?_, ?_, ?_⟩
    · refine { nact_le := h.nact_le, idle := ?_, mg := ?_, desc := ?_, len := ?_, real := ?_, ge := ?_, size := ?_ }
      · intro j hj
        have hj : s.nact ≤ j := hj
        show upd s.gb i _ j = [] ∧ contents (upd s.mg i M j) = []
        rw [upd_ne _ _ (by omega), upd_ne _ _ (by omega)]; exact h.idle j hj
      · intro j
        show MInv (c.mp j) C (upd s.mg i M j)
        by_cases e : j = i
        · subst e; rw [upd_same]; exact B.inv
        · rw [upd_ne _ _ e]; exact h.mg j
      · intro j
        show Desc C (upd s.gb i _ j)
        by_cases e : j = i
        · subst e; rw [upd_same]
          exact (h.desc j).append B.desc (fun x hx y hy => h.ge j x hx y (B.perm.mem_iff.2 (List.mem_append_left _ hy)))
        · rw [upd_ne _ _ e]; exact h.desc j
      · intro j
        show (upd s.gb i _ j).length ≤ _
        by_cases e : j = i
        · subst e; rw [upd_same, List.length_append, B.len, hnd]; split <;> omega
        · rw [upd_ne _ _ e]; exact h.len j
      · intro j
        show ∀ x ∈ upd s.gb i _ j, _
        by_cases e : j = i
        · subst e; rw [upd_same]; intro x hx
          rcases List.mem_append.1 hx with hx | hx
          · exact h.real j x hx
          · exact contents_real (h.mg j) x (B.perm.mem_iff.2 (List.mem_append_left _ hx))
        · rw [upd_ne _ _ e]; exact h.real j
      · intro j
        show GeAll C (upd s.gb i _ j) (contents (upd s.mg i M j))
        by_cases e : j = i
        · subst e; rw [upd_same, upd_same]; intro x hx y hy
          rcases List.mem_append.1 hx with hx | hx
          · exact h.ge j x hx y (B.perm.mem_iff.2 (List.mem_append_right _ hy))
          · exact B.ge x hx y hy
        · rw [upd_ne _ _ e, upd_ne _ _ e]; exact h.ge j
      · show s.size = _
        rw [h.size]
        exact (below_perm (fun i _ => hg i)).length_eq.symm
    · show _ = (upd s.gb i _ i).length
      rw [upd_same, List.length_append, B.len]; omega
    · intro j e
      show upd s.gb i _ j = _ ∧ upd s.mg i M j = _
      rw [upd_ne _ _ e, upd_ne _ _ e]; exact ⟨rfl, rfl⟩
    · show (upd s.gb i _ i).length = _ ∨ contents (upd s.mg i M i) = []
      rw [upd_same, upd_same, List.length_append, B.len]
      have hl := B.perm.length_eq
      rw [List.length_append, B.len, ← hsz] at hl
      by_cases hc : (s.mg i).msize + (s.gb i).length ≥ c.N
      · left; rw [if_pos hc] at hnd; omega
      · right; rw [if_neg hc] at hnd; exact List.length_eq_zero_iff.1 (by omega)
  · rename_i hn
    refine ⟨n + (s.gb i).length, s, rfl, h, rfl, rfl, rfl, rfl, fun j => List.Perm.refl _, by omega, fun j _ => ⟨rfl, rfl⟩, ?_⟩
    by_cases hc : (s.mg i).msize + (s.gb i).length ≥ c.N
    · left; rw [if_pos hc] at hnd; omega
    · right; rw [if_neg hc] at hnd; exact List.length_eq_zero_iff.1 (by omega)

theorem flatMap_range_succ {β : Type} (f : Nat → List β) (n : Nat) :
    ((List.range (n + 1)).flatMap f).length = ((List.range n).flatMap f).length + (f n).length := by
  rw [List.range_succ, List.flatMap_append]; simp

theorem flatMap_range_congr {β : Type} {f g : Nat → List β} {n : Nat} (h : ∀ j, j < n → f j = g j) :
    (List.range n).flatMap f = (List.range n).flatMap g := by
  apply flatMap_congr'
  intro j hj; exact h j (List.mem_range.1 hj)

structure Refilled (c : Cfg) (C : Cmp α) (n tot : Nat) (s : State α) (tot' : Nat) (s' : State α) : Prop where
  inv : BInv c C s'
  del : s'.del = s.del
  heap : s'.heap = s.heap
  size : s'.size = s.size
  grp : ∀ j, (grp s' j).Perm (grp s j)
  frame : ∀ j, n ≤ j → s'.gb j = s.gb j ∧ s'.mg j = s.mg j
  ready : ∀ j, j < n → c.delSize ≤ (s'.gb j).length ∨ contents (s'.mg j) = []
  tot_le : tot' ≤ tot + ((List.range n).flatMap s'.gb).length
  tot_lt : tot' < tot + c.delSize → tot' = tot + ((List.range n).flatMap s'.gb).length ∧ ∀ j, j < n → contents (s'.mg j) = []
  mono : tot ≤ tot'

theorem refillGroups_ok (hC : C.Ok) (hc : c.Ok) : ∀ (n tot : Nat) {s : State α}, BInv c C s → n ≤ s.nact →
    ∃ tot' s', refillGroups c C (List.range n).reverse tot s = some (tot', s') ∧ Refilled c C n tot s tot' s'
  | 0, tot, s, h, _ => ⟨tot, s, rfl, h, rfl, rfl, rfl, fun _ => List.Perm.refl _, fun _ _ => ⟨rfl, rfl⟩, by simp, by simp, by simp, Nat.le_refl _⟩
  | n + 1, tot, s, h, hn => by
    rw [List.range_succ, List.reverse_append, List.reverse_singleton, List.singleton_append]
    have key : ∃ len s1, (∀ tot, refillGroups c C (n :: (List.range n).reverse) tot s = refillGroups c C (List.range n).reverse (tot + len) s1) ∧
        BInv c C s1 ∧ n ≤ s1.nact ∧ s1.del = s.del ∧ s1.heap = s.heap ∧ s1.size = s.size ∧ (∀ j, (grp s1 j).Perm (grp s j)) ∧
        (∀ j, j ≠ n → s1.gb j = s.gb j ∧ s1.mg j = s.mg j) ∧ (c.delSize ≤ (s1.gb n).length ∨ contents (s1.mg n) = []) ∧
        len ≤ (s1.gb n).length ∧ (len < c.delSize → len = (s1.gb n).length ∧ contents (s1.mg n) = []) := by
      by_cases hlt : (s.gb n).length < c.delSize
      · obtain ⟨len, s1, e1, h1, hna, hd, hh, hs, hg, hl, hf, hr⟩ := refillGroup_ok hC h (i := n) (by omega)
        have hr' : len < c.delSize → contents (s1.mg n) = [] := by
          intro hll
          rcases hr with hr | hr
          · have := hc.del_le_N; omega
          · exact hr
        by_cases hz : len = 0 ∧ n = s1.nact - 1
        · refine ⟨len, { s1 with nact := s1.nact - 1 }, ?_, ?_, ?_, hd, hh, hs, hg, hf, ?_, by show len ≤ (s1.gb n).length; omega,
            fun hll => ⟨hl, hr' hll⟩⟩
          · intro tot; simp only [refillGroups, hlt, if_true, e1]; rw [if_pos hz]
          · refine { nact_le := by have := h1.nact_le; show s1.nact - 1 ≤ _; omega, idle := ?_, mg := h1.mg, desc := h1.desc, len := h1.len, real := h1.real, ge := h1.ge, size := h1.size }
            intro j hj
            have hj : s1.nact - 1 ≤ j := hj
            by_cases e : j = n
            · subst e
              have hz0 : (s1.gb j).length = 0 := by omega
              exact ⟨List.length_eq_zero_iff.1 hz0, hr' (by have := hc.del_pos; omega)⟩
            · exact h1.idle j (by omega)
          · show n ≤ s1.nact - 1; omega
          · exact Or.inr (hr' (by have := hc.del_pos; omega))
        · refine ⟨len, s1, ?_, h1, by omega, hd, hh, hs, hg, hf, ?_, by omega, fun hll => ⟨hl, hr' hll⟩⟩
          · intro tot; simp only [refillGroups, hlt, if_true, e1, hz, if_false]
          · by_cases hll : len < c.delSize
            · exact Or.inr (hr' hll)
            · left; omega
      · refine ⟨c.delSize, s, ?_, h, by omega, rfl, rfl, rfl, fun _ => List.Perm.refl _, fun _ _ => ⟨rfl, rfl⟩, Or.inl (by omega), by omega, by omega⟩
        intro tot; simp only [refillGroups, hlt, if_false]
    obtain ⟨len, s1, e1, h1, hn1, hd, hh, hs, hg, hf, hr, hl1, hl2⟩ := key
    obtain ⟨tot', s', e2, R⟩ := refillGroups_ok hC hc n (tot + len) h1 hn1
    have hfn := R.frame n (Nat.le_refl _)
    have hlen := flatMap_range_succ s'.gb n
    rw [hfn.1] at hlen
    refine ⟨tot', s', by rw [e1 tot]; exact e2, R.inv, R.del.trans hd, R.heap.trans hh, R.size.trans hs, fun j => (R.grp j).trans (hg j), ?_, ?_, ?_, ?_, ?_⟩
    · intro j hj
      have a := R.frame j (by omega)
      have b := hf j (by omega)
      exact ⟨a.1.trans b.1, a.2.trans b.2⟩
    · intro j hj
      by_cases e : j = n
      · subst e; rw [hfn.1, hfn.2]; exact hr
      · exact R.ready j (by omega)
    · have := R.tot_le; omega
    · intro hlt
      have a := R.tot_lt (by omega)
      have hm := R.mono
      have b := hl2 (by omega)
      refine ⟨by omega, ?_⟩
      intro j hj
      by_cases e : j = n
      · subst e; rw [hfn.2]; exact b.2
      · exact a.2 j (by omega)
    · have := R.mono; omega

/-! ### The merge of the group buffers -/

theorem take1_nobids {sl sl' : Nat → Slot α} {i : Nat} {x : α} (h : take1 C sl i = some (x, sl')) (hb : ∀ j, (sl j).bids = []) :
    ∀ j, (sl' j).bids = [] := by
  unfold take1 at h
  cases hn : (sl i).next with
  | none => rw [hn] at h; cases h
  | some s1 =>
    rw [hn] at h
    simp only [Option.some.injEq, Prod.mk.injEq] at h
    obtain ⟨_, rfl⟩ := h
    intro j
    by_cases e : j = i
    · subst e
      rw [upd_same]
      unfold Slot.next at hn
      have := hb j
      split at hn
      · cases hn
      · cases hn; exact this
      · rw [this] at hn; cases hn; rfl
    · rw [upd_ne _ _ e]; exact hb j

theorem merge2_nobids : ∀ (n : Nat) {sl sl' : Nat → Slot α} {xs : List α}, merge2 C n sl = some (xs, sl') →
    (∀ j, (sl j).bids = []) → ∀ j, (sl' j).bids = []
  | 0, sl, sl', xs, h, hb => by simp [merge2] at h; rw [← h.2]; exact hb
  | n + 1, sl, sl', xs, h, hb => by
    unfold merge2 at h
    split at h
    · cases h
    · rename_i e1
      split at h
      · cases h
      · rename_i e2
        simp only [Option.some.injEq, Prod.mk.injEq] at h
        rw [← h.2]
        exact merge2_nobids n e2 (take1_nobids e1 hb)

theorem merge3_nobids : ∀ (n : Nat) (l : Nat × Nat × Nat) {sl sl' : Nat → Slot α} {xs : List α}, merge3Loop C n l sl = some (xs, sl') →
    (∀ j, (sl j).bids = []) → ∀ j, (sl' j).bids = []
  | 0, l, sl, sl', xs, h, hb => by simp [merge3Loop] at h; rw [← h.2]; exact hb
  | n + 1, (a, b, d), sl, sl', xs, h, hb => by
    unfold merge3Loop at h
    split at h
    · cases h
    · rename_i e1
      split at h
      · cases h
      · rename_i e2
        simp only [Option.some.injEq, Prod.mk.injEq] at h
        rw [← h.2]
        exact merge3_nobids n _ e2 (take1_nobids e1 hb)

theorem merge4_nobids : ∀ (n : Nat) (l : Nat × Nat × Nat × Nat) {sl sl' : Nat → Slot α} {xs : List α}, merge4Loop C n l sl = some (xs, sl') →
    (∀ j, (sl j).bids = []) → ∀ j, (sl' j).bids = []
  | 0, l, sl, sl', xs, h, hb => by simp [merge4Loop] at h; rw [← h.2]; exact hb
  | n + 1, (a, b, d, e), sl, sl', xs, h, hb => by
    unfold merge4Loop at h
    split at h
    · cases h
    · rename_i e1
      split at h
      · cases h
      · rename_i e2
        simp only [Option.some.injEq, Prod.mk.injEq] at h
        rw [← h.2]
        exact merge4_nobids n _ e2 (take1_nobids e1 hb)

theorem Takes.prefix {S : List Nat} {i : Nat} (hi : i ∈ S) : ∀ (xs : List α) {e : Nat → List α} (r : List α), e i = xs ++ r → Desc C (e i) →
    (∀ j, j ∈ S → j ≠ i → e j = []) → (hirr : ∀ x, C.less x x = false) → Takes C S e xs (upd e i r)
  | [], e, r, h, _, _, _ => by
    have : upd e i r = e := by funext j; by_cases hj : j = i <;> simp [upd, hj, h]
    rw [this]; exact .nil e
  | x :: t, e, r, h, hd, ho, hirr => by
    have hd2 : Desc C (t ++ r) := by rw [h] at hd; exact (List.pairwise_cons.1 hd).2
    have := Takes.prefix hi t (e := upd e i (t ++ r)) r (by rw [upd_same]) (by rw [upd_same]; exact hd2)
      (fun j hj hne => by rw [upd_ne _ _ hne]; exact ho j hj hne) hirr
    have hu : upd (upd e i (t ++ r)) i r = upd e i r := by funext j; by_cases hj : j = i <;> simp [upd, hj]
    rw [hu] at this
    refine .cons i x (t ++ r) hi h ?_ this
    intro j hj y hy
    by_cases e1 : j = i
    · subst e1; rw [h] at hy; simp at hy; subst hy; exact hirr _
    · rw [ho j hj e1] at hy; cases hy

theorem bufSlot_elems (l : List α) : (bufSlot l).elems = l := by simp [bufSlot, Slot.elems]

theorem bufSlot_ok {l : List α} (hd : Desc C l) (hr : ∀ x ∈ l, C.Real x) : (bufSlot l).Ok C :=
  ⟨fun _ => rfl, by simp [bufSlot], by rw [bufSlot_elems]; exact hd, by rw [bufSlot_elems]; exact hr⟩

theorem fillFrom_ok (hC : C.Ok) {nact len : Nat} {gb : Nat → List α} (h4 : nact ≤ 4) (hd : ∀ i, Desc C (gb i))
    (hr : ∀ i, ∀ x ∈ gb i, C.Real x) (hlen : len ≤ ((List.range nact).flatMap gb).length) :
    ∃ xs gb', fillFrom C nact len gb = some (xs, gb') ∧ xs.length = len ∧ Takes C (List.range nact) gb xs gb' := by
  have hok : ∀ i, (bufSlot (gb i)).Ok C := fun i => bufSlot_ok (hd i) (hr i)
  have hseq : seqs (fun i => bufSlot (gb i)) = gb := by funext i; exact bufSlot_elems _
  have hfin : ∀ {S : List Nat} {xs : List α} {sl' : Nat → Slot α}, Merged C S len (fun i => bufSlot (gb i)) xs sl' → (∀ j, (sl' j).bids = []) →
      xs.length = len ∧ Takes C S gb xs (fun i => (sl' i).cur) := by
    intro S xs sl' m hb
    have e : seqs sl' = fun i => (sl' i).cur := by funext i; unfold seqs Slot.elems; rw [hb i]; simp
    have := m.takes
    rw [hseq, e] at this
    exact ⟨m.len, this⟩
  obtain rfl | rfl | rfl | rfl | rfl : nact = 0 ∨ nact = 1 ∨ nact = 2 ∨ nact = 3 ∨ nact = 4 := by omega
  · have : len = 0 := by simpa using hlen
    subst this
    exact ⟨[], gb, by simp [fillFrom], rfl, .nil _⟩
  · have hl : len ≤ (gb 0).length := by simpa using hlen
    refine ⟨(gb 0).take len, upd gb 0 ((gb 0).drop len), ?_, by simp; omega, ?_⟩
    · simp only [fillFrom]; rw [if_neg (by omega)]
    · exact Takes.prefix (List.mem_range.2 (by omega)) _ _ (by simp) (hd 0) (fun j hj hne => by
        have := List.mem_range.1 hj; omega) (fun x => by
        cases h : C.less x x with
        | false => rfl
        | true => have := hC.asymm x x h; rw [h] at this; cases this)
  · obtain ⟨xs, sl', e, m⟩ := merge2_ok hC len hok (by rw [hseq]; exact hlen)
    exact ⟨xs, fun i => (sl' i).cur, by simp only [fillFrom, e], hfin m (merge2_nobids _ e (fun _ => rfl))⟩
  · obtain ⟨xs, sl', e, m⟩ := merge3_ok hC len hok (by rw [hseq]; exact hlen)
    exact ⟨xs, fun i => (sl' i).cur, by simp only [fillFrom, e], hfin m (merge3_nobids _ _ e (fun _ => rfl))⟩
  · obtain ⟨xs, sl', e, m⟩ := merge4_ok hC len hok (by rw [hseq]; exact hlen)
    exact ⟨xs, fun i => (sl' i).cur, by simp only [fillFrom, e], hfin m (merge4_nobids _ _ e (fun _ => rfl))⟩

/-- The delete buffer is sorted, real, not below anything behind it, and empty only if there is nothing behind it. -/
structure DInv (c : Cfg) (C : Cmp α) (s : State α) : Prop where
  desc : Desc C s.del
  real : ∀ x ∈ s.del, C.Real x
  ge : GeAll C s.del (below c s)
  nil : s.del = [] → s.size = 0

theorem refillDelete_ok (hC : C.Ok) (hc : c.Ok) {s : State α} (h : BInv c C s) :
    ∃ s', refillDelete c C s = some s' ∧ BInv c C s' ∧ DInv c C s' ∧ (s'.del ++ below c s').Perm (below c s) ∧ s'.heap = s.heap := by
  obtain ⟨tot, s1, e1, R⟩ := refillGroups_ok hC hc s.nact 0 h (Nat.le_refl _)
  have I := R.inv
  have hbelow : (below c s1).Perm (below c s) := below_perm (fun i _ => R.grp i)
  have hnact : s1.nact ≤ c.total := I.nact_le
  have hgl : (List.range s.nact).flatMap s1.gb = (List.range s1.nact).flatMap s1.gb := by
    by_cases hle : s.nact ≤ s1.nact
    · refine (flatMap_range_ext hle ?_).symm
      intro j hj _
      have := R.frame j hj
      rw [this.1]; exact (h.idle j hj).1
    · exact flatMap_range_ext (by omega) (fun j hj _ => (I.idle j hj).1)
  have hgt : (List.range c.total).flatMap s1.gb = (List.range s1.nact).flatMap s1.gb :=
    flatMap_range_ext hnact (fun j hj _ => (I.idle j hj).1)
  have hsub : ((List.range c.total).flatMap s1.gb).length ≤ (below c s1).length := by
    unfold below
    generalize c.total = n
    induction n with
    | zero => simp
    | succ n ih =>
      rw [flatMap_range_succ, flatMap_range_succ]; unfold grp at ih ⊢
      rw [List.length_append]; omega
  have hready : ∀ j, c.delSize ≤ (s1.gb j).length ∨ contents (s1.mg j) = [] := by
    intro j
    by_cases hj : j < s.nact
    · exact R.ready j hj
    · right; rw [(R.frame j (by omega)).2]; exact (h.idle j (by omega)).2
  have htl := R.tot_le
  have htt := R.tot_lt
  rw [Nat.zero_add] at htl htt
  rw [hgl] at htl htt
  have hsize : s1.size = (below c s1).length := I.size
  have hexact : tot < c.delSize → s1.size = tot ∧ ∀ j, contents (s1.mg j) = [] := by
    intro hlt
    have a := htt (by omega)
    have hall : ∀ j, contents (s1.mg j) = [] := by
      intro j
      by_cases hj : j < s.nact
      · exact a.2 j hj
      · rw [(R.frame j (by omega)).2]; exact (h.idle j (by omega)).2
    refine ⟨?_, hall⟩
    rw [hsize]
    have : below c s1 = (List.range c.total).flatMap s1.gb := by
      unfold below
      apply flatMap_range_congr
      intro j _
      unfold grp; rw [hall j, List.append_nil]
    rw [this, hgt]; omega
  obtain ⟨len, hlen⟩ : ∃ len, len = if tot ≥ c.delSize then c.delSize else tot := ⟨_, rfl⟩
  have hlent : len ≤ tot := by rw [hlen]; split <;> omega
  have hlend : len ≤ c.delSize := by rw [hlen]; split <;> omega
  obtain ⟨xs, gb', e2, hxl, hT⟩ := fillFrom_ok hC (nact := s1.nact) (len := len) (gb := s1.gb) (by have := hc.total_le; omega) I.desc I.real (by omega)
  have sp := Takes.spec hC List.nodup_range (fun i _ => I.desc i) hT
  have hgb' : ∀ i, s1.nact ≤ i → gb' i = [] := by
    intro i hi
    rw [sp.frame i (by simp; omega)]; exact (I.idle i hi).1
  have hmem : ∀ i, ∀ x ∈ gb' i, x ∈ s1.gb i := fun i x hx => (sp.suff i).subset hx
  refine ⟨{ s1 with del := xs, gb := gb', size := if tot ≥ c.delSize then s1.size - c.delSize else 0 }, ?_, ?_, ?_, ?_, R.heap⟩
  · unfold refillDelete
    simp only [e1]
    rw [if_neg, ← hlen]
    · simp only [e2]
    · rintro (⟨a, b⟩ | ⟨a, b⟩)
      · rw [hgt] at hsub; omega
      · exact b (hexact (by omega)).1
  all_goals
    have hperm2 : (xs ++ (List.range c.total).flatMap gb').Perm ((List.range c.total).flatMap s1.gb) := by
      rw [hgt, flatMap_range_ext hnact (fun j hj _ => hgb' j hj)]
      exact sp.perm.symm
    have hsplit : ∀ (f g : Nat → List α) (n : Nat), ((List.range n).flatMap (fun i => f i ++ g i)).Perm
        ((List.range n).flatMap f ++ (List.range n).flatMap g) := by
      intro f g n
      induction n with
      | zero => simp
      | succ n ih =>
        rw [List.range_succ, List.flatMap_append, List.flatMap_append, List.flatMap_append]
        simp only [List.flatMap_cons, List.flatMap_nil, List.append_nil]
        refine ((List.perm_append_right_iff _).2 ih).trans ?_
        rw [List.append_assoc, List.append_assoc]
        refine (List.perm_append_left_iff _).2 ?_
        rw [← List.append_assoc, ← List.append_assoc]
        exact (List.perm_append_right_iff _).2 List.perm_append_comm
    have hbp : (xs ++ below c { s1 with del := xs, gb := gb', size := if tot ≥ c.delSize then s1.size - c.delSize else 0 }).Perm (below c s1) := by
      have a := hsplit gb' (fun i => contents (s1.mg i)) c.total
      have b := hsplit s1.gb (fun i => contents (s1.mg i)) c.total
      refine ((List.perm_append_left_iff xs).2 a).trans ?_
      rw [← List.append_assoc]
      exact ((List.perm_append_right_iff _).2 hperm2).trans b.symm
  · have hbl := hbp.length_eq
    rw [List.length_append, hxl] at hbl
    refine { nact_le := I.nact_le, idle := fun i hi => ⟨hgb' i hi, (I.idle i hi).2⟩, mg := I.mg, desc := ?_, len := ?_, real := fun i x hx => I.real i x (hmem i x hx), ge := fun i x hx => I.ge i x (hmem i x hx), size := ?_ }
    · intro i; exact List.Pairwise.sublist (sp.suff i).sublist (I.desc i)
    · intro i; exact Nat.le_trans (sp.suff i).length_le (I.len i)
    · generalize (below c { s1 with del := xs, gb := gb', size := if tot ≥ c.delSize then s1.size - c.delSize else 0 }).length = nb at hbl ⊢
      show (if tot ≥ c.delSize then s1.size - c.delSize else 0) = nb
      split
      · rename_i ht; rw [if_pos ht] at hlen; omega
      · rename_i ht; rw [if_neg ht] at hlen
        have := (hexact (by omega)).1; omega
  · refine ⟨sp.desc, ?_, ?_, ?_⟩
    · intro x hx
      have : x ∈ (List.range s1.nact).flatMap s1.gb := sp.perm.mem_iff.2 (List.mem_append_left _ hx)
      obtain ⟨i, _, hi⟩ := List.mem_flatMap.1 this
      exact I.real i x hi
    · intro x hx y hy
      obtain ⟨i, hi, hy⟩ := List.mem_flatMap.1 hy
      have hxs : x ∈ xs := hx
      have hgeb : ∀ z ∈ gb' i, C.less x z = false := by
        intro z hz
        by_cases hin : i < s1.nact
        · exact sp.ge x hxs z (List.mem_flatMap.2 ⟨i, List.mem_range.2 hin, hz⟩)
        · rw [hgb' i (by omega)] at hz; cases hz
      rcases List.mem_append.1 hy with hy | hy
      · exact hgeb y hy
      · have hy : y ∈ contents (s1.mg i) := hy
        rcases hready i with hr | hr
        · have hcase : gb' i = [] ∨ ∃ z t, gb' i = z :: t := by
            cases gb' i with
            | nil => exact Or.inl rfl
            | cons z t => exact Or.inr ⟨z, t, rfl⟩
          rcases hcase with hnil | ⟨z, t, hz⟩
          · have hin : i < s1.nact := by
              by_contra hcn
              rw [(I.idle i (by omega)).2] at hy; cases hy
            have hp1 := flatMap_upd_perm (List.nodup_range (n := s1.nact)) (e := s1.gb) (List.mem_range.2 hin) []
            rw [List.nil_append] at hp1
            have hp2 : (xs ++ (List.range s1.nact).flatMap gb').Perm (s1.gb i ++ (List.range s1.nact).flatMap (upd s1.gb i [])) :=
              sp.perm.symm.trans hp1
            have hx2 : x ∈ s1.gb i := by
              have : ∀ (ys : List α), (∃ zs : List α, (xs ++ zs).Perm (s1.gb i ++ ys) ∧ zs.Sublist ys) → x ∈ s1.gb i := by
                rintro ys ⟨zs, hpp, hsl⟩
                have hle := hpp.length_eq
                rw [List.length_append, List.length_append] at hle
                have h3 := hsl.length_le
                have : zs = ys := hsl.eq_of_length (by omega)
                subst this
                exact ((List.perm_append_right_iff zs).1 hpp).mem_iff.1 hxs
              apply this _ ⟨_, hp2, ?_⟩
              have hsuf : ∀ n, ((List.range n).flatMap gb').Sublist ((List.range n).flatMap (upd s1.gb i [])) := by
                intro n
                induction n with
                | zero => simp
                | succ n ih =>
                  rw [List.range_succ, List.flatMap_append, List.flatMap_append]
                  simp only [List.flatMap_cons, List.flatMap_nil, List.append_nil]
                  refine List.Sublist.append ih ?_
                  by_cases e : n = i
                  · subst e; rw [hnil]; simp
                  · rw [upd_ne _ _ e]; exact (sp.suff n).sublist
              exact hsuf _
            exact I.ge i x hx2 y hy
          · have a := hgeb z (by rw [hz]; simp)
            have b := I.ge i z (hmem i z (by rw [hz]; simp)) y hy
            exact hC.negtrans x z y a b
        · rw [hr] at hy; cases hy
    · intro hnil
      have hnil : xs = [] := hnil
      rw [hnil] at hxl
      show (if tot ≥ c.delSize then s1.size - c.delSize else 0) = 0
      have := hc.del_pos
      rw [if_neg]
      intro ht; rw [if_pos ht] at hlen; simp at hxl; omega
  · exact hbp.trans hbelow

end Stxxl.PQ
