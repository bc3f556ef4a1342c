import Verif.PQ.MInv

/-! # `multi_merge` of a merger takes the best elements -/

namespace Stxxl.PQ
open Stxxl.LT (upd Below)

variable {α : Type} {C : Cmp α} {p : MP}

theorem maybeCompact_ok (hC : C.Ok) {M : Merger α} (h : MInv0 p C M) :
    ∃ M', maybeCompact p C M = some M' ∧ MInv0 p C M' ∧ (contents M').Perm (contents M) ∧ M'.msize = M.msize := by
  unfold maybeCompact
  simp only
  split
  · rename_i hc
    exact compact_ok hC h.toMInv1 (by intro e; have := h.pow; rw [e] at this; omega)
  · exact ⟨M, rfl, h, List.Perm.refl _, rfl⟩

/-- The result of taking the `n` best elements, before compaction: the element count is not yet updated. -/
structure Took (p : MP) (C : Cmp α) (M : Merger α) (n : Nat) (xs : List α) (M' : Merger α) : Prop where
  inv : MInv0 p C M'
  takes : Takes C (List.range M.k) (seqs M.slots) xs (seqs M'.slots)
  len : xs.length = n
  k : M'.k = M.k
  msize : M'.msize = M.msize

theorem keyed_congr {e : Nat → α × Nat} {v v' : Nat → α} {L : Nat} (hv : v' = v) (h : TInv C e v L) : TInv C e v' L := hv ▸ h

theorem contents_slot {M : Merger α} (h : SInv0 p C M.k M.slots M.free) (hne : contents M ≠ []) :
    ∃ i, i < M.k ∧ seqs M.slots i ≠ [] := by
  by_contra hc
  apply hne
  unfold contents
  rw [List.flatMap_eq_nil_iff]
  intro i hi
  by_contra hn
  exact hc ⟨i, List.mem_range.1 hi, hn⟩

theorem Takes.nonempty {S : List Nat} {e e' : Nat → List α} {xs : List α} (h : Takes C S e xs e') : ∀ i, e' i ≠ [] → e i ≠ [] := by
  induction h with
  | nil e => exact fun _ h => h
  | cons i x t hi he hb ht ih =>
    intro j hj
    by_cases e : j = i
    · subst e; rw [he]; simp
    · have := ih j hj; rwa [upd_ne _ _ e] at this

theorem SInv0.merged {k n : Nat} {sl sl' : Nat → Slot α} {fr : List Nat} {S : List Nat} {xs : List α}
    (h : SInv0 p C k sl fr) (m : Merged C S n sl xs sl') : SInv0 p C k sl' fr :=
  { ok := m.ok
    ne := fun i hi => by rw [m.alloc]; exact h.ne i (m.takes.nonempty i hi)
    lt := fun i hi => h.lt i (by rw [← m.alloc]; exact hi)
    nodup := h.nodup
    free := fun i => by rw [h.free i, m.alloc] }

theorem mergeOne_ok (hC : C.Ok) {M : Merger α} (h : MInv0 p C M) (hL : M.logK = 0) {n : Nat} (hn : 0 < n)
    (hlen : n ≤ (contents M).length) : ∃ xs M', mergeOne p C M n = some (xs, M') ∧ Took p C M n xs M' := by
  have hk : M.k = 1 := by rw [h.pow, hL]
  have hw := h.tree.tree
  rw [hL] at hw
  have h0 : (M.entry 0).2 = 0 := by have := hw.winner_lt; simpa using this
  have hc : contents M = [0].flatMap (seqs M.slots) := by unfold contents; rw [hk]; rfl
  have hal : (M.slots 0).alloc = true := by
    apply h.slots.ne
    intro e
    rw [hc] at hlen; simp [e] at hlen; omega
  have hf : M.free = [] := by
    apply List.eq_nil_iff_forall_not_mem.2
    intro i hi
    have := (h.slots.free i).1 hi
    have e : i = 0 := by omega
    rw [e, hal] at this; simp at this
  rw [hc] at hlen
  obtain ⟨xs, sl, e1, m⟩ := copyN_ok hC n h.slots.ok hlen
  have hS : SInv0 p C M.k sl M.free := h.slots.merged m
  obtain ⟨M', f1, f2, f3, f4, f5⟩ := freeIfs_ok (p := p) hC [0]
    (M := { M with slots := sl, entry := upd M.entry 0 (keys C sl 0, (M.entry 0).2) }) hS
  have f1' : freeIf p C 0 { M with slots := sl, entry := upd M.entry 0 (keys C sl 0, (M.entry 0).2) } = some M' := by
    simp only [freeIfs] at f1
    generalize freeIf p C 0 { M with slots := sl, entry := upd M.entry 0 (keys C sl 0, (M.entry 0).2) } = r at f1
    cases r with
    | none => cases f1
    | some a => exact f1
  have hkeys : keys C M'.slots = keys C sl := keys_congr (sl := sl) m.ok f3.ok f2.seqs
  refine ⟨xs, M', ?_, ?_, ?_, m.len, f2.k, f2.msize⟩
  · simp only [mergeOne, hk, ne_eq, not_true, h0, hf, or_self, if_false, e1]
    rw [h0, hf] at f1'; rw [hk] at f1'; 
    simp only [f1']
  · refine { pow := by rw [f2.k, f2.logK]; exact h.pow, le := by rw [f2.k]; exact h.le, slots := f3, full := ?_, tree := ?_ }
    · intro i hi
      have := f3.lt i hi
      rw [f2.k] at this
      have e : i = 0 := by have := this.1; have : i < M.k := this; omega
      subst e
      exact f4 0 (by simp) hi
    · rw [f2.entry, f2.logK, hkeys]
      show TInv C (upd M.entry 0 (keys C sl 0, (M.entry 0).2)) (keys C sl) M.logK
      rw [hL, h0]
      refine ⟨?_, ?_, ?_⟩
      · rw [upd_same]
        rw [h0] at hw
        exact hw
      · intro m hm; have := below_root.1 hm; omega
      · rw [upd_same]
  · rw [f2.seqs, hk]; exact m.takes

theorem Takes.mono {S S' : List Nat} {e e' : Nat → List α} {xs : List α} (h : Takes C S e xs e') (hS : S ⊆ S')
    (hn : ∀ i ∈ S', i ∉ S → e i = []) : Takes C S' e xs e' := by
  induction h with
  | nil e => exact .nil e
  | cons i x t hi he hb ht ih =>
    refine .cons i x t (hS hi) he ?_ (ih ?_)
    · intro j hj y hy
      by_cases hjs : j ∈ S
      · exact hb j hjs y hy
      · rw [hn j hj hjs] at hy; cases hy
    · intro j hj hjs
      have : j ≠ i := fun e => hjs (e ▸ hi)
      rw [upd_ne _ _ this]; exact hn j hj hjs

theorem mergeFlat_ok (hC : C.Ok) {M : Merger α} (h : MInv0 p C M) {n : Nat} {S : List Nat}
    {f : (Nat → Slot α) → Option (List α × (Nat → Slot α))} (is : List Nat)
    (his : ∀ i, i < M.k → i ∈ is) (hS : S ⊆ List.range M.k) (hSn : ∀ i, i < M.k → i ∉ S → seqs M.slots i = [])
    (hf : ∃ xs sl', f M.slots = some (xs, sl') ∧ Merged C S n M.slots xs sl') :
    ∃ xs M', mergeFlat p C is f M = some (xs, M') ∧ Took p C M n xs M' := by
  obtain ⟨xs, sl, e1, m⟩ := hf
  have hS0 : SInv0 p C M.k sl M.free := h.slots.merged m
  obtain ⟨M', f1, f2, f3, f4, f5⟩ := freeIfs_ok (p := p) hC is (M := rebuild C { M with slots := sl }) hS0
  have hkeys : keys C M'.slots = keys C sl := keys_congr (sl := sl) m.ok f3.ok f2.seqs
  refine ⟨xs, M', ?_, ?_, ?_, m.len, f2.k, f2.msize⟩
  · simp only [mergeFlat, e1, f1]
  · refine { pow := by rw [f2.k, f2.logK]; exact h.pow, le := by rw [f2.k]; exact h.le, slots := f3, full := ?_, tree := ?_ }
    · intro i hi
      have := f3.lt i hi
      rw [f2.k] at this
      exact f4 i (his i this.1) hi
    · rw [f2.entry, f2.logK, hkeys]
      exact rebuild_ok hC (M := { M with slots := sl }) h.pow
  · rw [f2.seqs]
    exact m.takes.mono hS (fun i hi hn => hSn i (List.mem_range.1 hi) hn)

/-- One round of the tree loop. -/
theorem treeIter_ok (hC : C.Ok) {M : Merger α} (h1 : MInv1 p C M) {w : Nat} (hw : WInv C M.entry (keys C M.slots) M.logK w)
    (hne : contents M ≠ []) (un : Bool) :
    ∃ x t M' w', treeIter p C un M w = some (x, M', w') ∧ MInv1 p C M' ∧ M'.k = M.k ∧ M'.logK = M.logK ∧ M'.msize = M.msize ∧
      WInv C M'.entry (keys C M'.slots) M'.logK w'.2 ∧ w'.1 = keys C M'.slots w'.2 ∧ w < M.k ∧
      seqs M.slots w = x :: t ∧ seqs M'.slots = upd (seqs M.slots) w t ∧
      (∀ j ∈ List.range M.k, ∀ y ∈ (seqs M.slots j).head?, C.less x y = false) := by
  have hwk : w < M.k := by rw [h1.pow]; exact hw.tree.winner_lt
  have hwins : Wins C (List.range M.k) (keys C M.slots) w := by
    intro j hj
    exact hw.tree.best hC (by rw [← h1.pow]; exact List.mem_range.1 hj)
  obtain ⟨x, t, sl, e1, e2, e3, ok, al, fr, bst⟩ := take_ok hC h1.slots.ok (List.mem_range.2 hwk) hwins hne
  have hS : SInv0 p C M.k sl M.free :=
    { ok := ok
      ne := fun i hi => by
        rw [al]; apply h1.slots.ne
        by_cases e : i = w
        · subst e; rw [e2]; simp
        · rw [e3, upd_ne _ _ e] at hi; exact hi
      lt := fun i hi => h1.slots.lt i (by rw [← al]; exact hi)
      nodup := h1.slots.nodup
      free := fun i => by rw [h1.slots.free i, al] }
  have hst : ∃ M2, (if C.isSentinel (keys C sl w) then freeArray p { M with slots := sl } w else some { M with slots := sl }) = some M2 ∧
      Same { M with slots := sl } M2 ∧ SInv0 p C M2.k M2.slots M2.free ∧ (∀ i, (M2.slots i).alloc = true → seqs M2.slots i ≠ []) := by
    by_cases hs : C.isSentinel (keys C sl w) = true
    · have he : seqs sl w = [] := ((ok w).isEmpty hC).1 hs
      obtain ⟨M2, f1, f2, f3, f4⟩ := freeArray_ok (p := p) (M := { M with slots := sl }) hS (i := w) (by
        show (sl w).alloc = true
        rw [al]; apply h1.slots.ne; rw [e2]; simp) he
      refine ⟨M2, by rw [if_pos hs]; exact f1, f2, f3, ?_⟩
      intro i hi
      rw [f4] at hi
      split at hi
      · cases hi
      · rename_i e
        rw [f2.seqs]
        show seqs sl i ≠ []
        rw [e3, upd_ne _ _ e]
        exact h1.full i (by rw [← al]; exact hi)
    · refine ⟨_, by rw [if_neg hs], Same.refl _, hS, ?_⟩
      intro i hi
      show seqs sl i ≠ []
      by_cases e : i = w
      · subst e
        intro hc
        exact hs (((ok i).isEmpty hC).2 hc)
      · rw [e3, upd_ne _ _ e]
        exact h1.full i (by rw [← al]; exact hi)
  obtain ⟨M2, g1, g2, g3, g4⟩ := hst
  have hkeys : keys C M2.slots = keys C sl := keys_congr (sl := sl) ok g3.ok g2.seqs
  have hr := replay_ok hC (v' := keys C sl) hw (fun j hj => keys_frame fr hj) un _ rfl
  rw [← h1.pow] at hr
  have he : M2.entry = M.entry := g2.entry
  refine ⟨x, t, { M2 with entry := (if un then treeSteps C M.k ((List.range M.logK).map (· + 1)) (M2.entry, keys C sl w, w)
        else climb C (M.logK + 1) ((w + M.k) / 2) (M2.entry, keys C sl w, w)).1 },
    (if un then treeSteps C M.k ((List.range M.logK).map (· + 1)) (M2.entry, keys C sl w, w)
        else climb C (M.logK + 1) ((w + M.k) / 2) (M2.entry, keys C sl w, w)).2, ?_, ?_, g2.k, g2.logK, g2.msize, ?_, ?_, hwk, e2, ?_, bst⟩
  · simp only [treeIter, e1, g1]
  · exact ⟨by show M2.k = 2 ^ M2.logK; rw [g2.k, g2.logK]; exact h1.pow, by show M2.k ≤ _; rw [g2.k]; exact h1.le, g3, g4⟩
  · show WInv C _ (keys C M2.slots) M2.logK _
    rw [hkeys, g2.logK, he]; exact hr.1
  · show _ = keys C M2.slots _
    rw [hkeys, he]; exact hr.2
  · show seqs M2.slots = _
    rw [g2.seqs]; exact e3

theorem contents_cons {M M' : Merger α} {w : Nat} {x : α} {t : List α} (hk : M'.k = M.k) (hw : w < M.k)
    (e : seqs M.slots w = x :: t) (e' : seqs M'.slots = upd (seqs M.slots) w t) :
    (contents M).length = (contents M').length + 1 := by
  have := (flatMap_upd_perm (List.nodup_range (n := M.k)) (e := seqs M.slots) (List.mem_range.2 hw) t).length_eq
  unfold contents
  rw [hk, e']
  rw [e] at this
  simp only [List.length_append, List.length_cons] at this
  omega

theorem treeLoop_ok (hC : C.Ok) (un : Bool) : ∀ (n : Nat) {M : Merger α} {w : α × Nat}, MInv1 p C M →
    WInv C M.entry (keys C M.slots) M.logK w.2 → w.1 = keys C M.slots w.2 → n ≤ (contents M).length →
    ∃ xs M' w', treeLoop p C un n M w = some (xs, M', w') ∧ MInv1 p C M' ∧ M'.k = M.k ∧ M'.logK = M.logK ∧ M'.msize = M.msize ∧
      WInv C M'.entry (keys C M'.slots) M'.logK w'.2 ∧ w'.1 = keys C M'.slots w'.2 ∧ xs.length = n ∧
      Takes C (List.range M.k) (seqs M.slots) xs (seqs M'.slots)
  | 0, M, w, h1, hw, hk, _ => ⟨[], M, w, rfl, h1, rfl, rfl, rfl, hw, hk, rfl, .nil _⟩
  | n + 1, M, w, h1, hw, hk, hn => by
    obtain ⟨x, t, M1, w1, a1, a2, a3, a4, a5, a6, a7, a8, a9, a10, a11⟩ := treeIter_ok hC h1 hw (by
      intro e; rw [e] at hn; simp at hn) un
    have hl := contents_cons a3 a8 a9 a10
    obtain ⟨xs, M', w', b1, b2, b3, b4, b5, b6, b7, b8, b9⟩ := treeLoop_ok hC un n a2 a6 a7 (by omega)
    refine ⟨x :: xs, M', w', by simp only [treeLoop, a1, b1], b2, b3.trans a3, b4.trans a4, b5.trans a5, b6, b7, by simp [b8], ?_⟩
    refine .cons w.2 x t (List.mem_range.2 a8) a9 a11 ?_
    rw [← a10, ← a3]; exact b9

theorem mergeTree_ok (hC : C.Ok) (un : Bool) {M : Merger α} (h : MInv0 p C M) {n : Nat} (hn : n ≤ (contents M).length) :
    ∃ xs M', mergeTree p C un M n = some (xs, M') ∧ Took p C M n xs M' := by
  obtain ⟨xs, M', w', b1, b2, b3, b4, b5, b6, b7, b8, b9⟩ := treeLoop_ok hC un n h.toMInv1 ⟨h.tree.tree, h.tree.keyed⟩ h.tree.root hn
  refine ⟨xs, { M' with entry := upd M'.entry 0 w' }, by simp only [mergeTree, b1], ?_, b9, b8, b3, b5⟩
  refine { pow := b2.pow, le := b2.le, slots := b2.slots, full := b2.full, tree := ?_ }
  show TInv C (upd M'.entry 0 w') (keys C M'.slots) M'.logK
  have hidx : ∀ m, 1 ≤ m → upd M'.entry 0 w' m = M'.entry m := fun m hm => upd_ne _ _ (by omega)
  refine ⟨?_, ?_, by rw [upd_same]; exact b7⟩
  · rw [upd_same]
    have := b6.tree
    unfold T at this ⊢
    exact LT.Tree.frame this (fun m hm => by
      have := (below_root.1 hm).1
      show (upd M'.entry 0 w' m).2 = _
      rw [hidx m this]; rfl) (fun _ _ => rfl)
  · intro m hm
    have := (below_root.1 hm).1
    rw [hidx m this]; exact b6.keyed m hm

theorem mergeSwitch_ok (hC : C.Ok) {M : Merger α} (h : MInv0 p C M) {n : Nat} (hn : 0 < n) (hlen : n ≤ (contents M).length) :
    ∃ xs M', mergeSwitch p C M n = some (xs, M') ∧ Took p C M n xs M' := by
  unfold mergeSwitch
  split
  · exact mergeOne_ok hC h (by assumption) hn hlen
  split
  · rename_i _ hL
    have hk : M.k = 2 := by rw [h.pow, hL]
    rw [if_neg (by omega)]
    unfold contents at hlen; rw [hk] at hlen
    exact mergeFlat_ok hC h (S := [0, 1]) [0, 1] (by rw [hk]; intro i hi; simp; omega) (by rw [hk]; exact List.Subset.refl _)
      (by rw [hk]; intro i hi; simp; omega) (merge2_ok hC n h.slots.ok hlen)
  split
  · rename_i _ _ hL
    have hk : M.k = 4 := by rw [h.pow, hL]
    rw [if_neg (by omega)]
    unfold contents at hlen; rw [hk] at hlen
    split
    · rename_i he
      have he' := ((h.slots.ok 3).isEmpty hC).1 he
      have hr : (List.range 4).flatMap (seqs M.slots) = [0, 1, 2].flatMap (seqs M.slots) := by
        show [0, 1, 2, 3].flatMap (seqs M.slots) = _
        simp [seqs, he']
      rw [hr] at hlen
      exact mergeFlat_ok hC h (S := [0, 1, 2]) [0, 1, 2, 3] (by rw [hk]; intro i hi; simp; omega)
        (by rw [hk]; intro i hi; simp at hi ⊢; omega)
        (by rw [hk]; intro i hi hn
            have : i = 3 := by simp at hn; omega
            subst this; exact he') (merge3_ok hC n h.slots.ok hlen)
    · exact mergeFlat_ok hC h (S := [0, 1, 2, 3]) [0, 1, 2, 3] (by rw [hk]; intro i hi; simp; omega) (by rw [hk]; exact List.Subset.refl _)
        (by rw [hk]; intro i hi; simp; omega) (merge4_ok hC n h.slots.ok hlen)
  split
  · exact mergeTree_ok hC true h hlen
  · exact mergeTree_ok hC false h hlen

/-- `multi_merge` removes the `n` best elements and delivers them in order. -/
structure Best (p : MP) (C : Cmp α) (M : Merger α) (n : Nat) (xs : List α) (M' : Merger α) : Prop where
  inv : MInv p C M'
  len : xs.length = n
  desc : Desc C xs
  perm : (contents M).Perm (xs ++ contents M')
  ge : GeAll C xs (contents M')

theorem multiMerge_ok (hC : C.Ok) {M : Merger α} (h : MInv p C M) {n : Nat} (hlen : n ≤ (contents M).length) :
    ∃ xs M', multiMerge p C M n = some (xs, M') ∧ Best p C M n xs M' := by
  unfold multiMerge
  rw [if_neg (by rw [h.size]; omega)]
  split
  · rename_i e
    subst e
    exact ⟨[], M, rfl, h, rfl, List.Pairwise.nil, List.Perm.refl _, by intro x hx; cases hx⟩
  · obtain ⟨xs, M1, e1, t⟩ := mergeSwitch_ok hC h.toMInv0 (n := n) (by omega) hlen
    obtain ⟨M2, e2, h2, hp, hm⟩ := maybeCompact_ok hC t.inv
    have sp := Takes.spec hC List.nodup_range (fun i _ => (h.slots.ok i).desc) t.takes
    have hc1 : (List.range M.k).flatMap (seqs M1.slots) = contents M1 := by unfold contents; rw [t.k]
    have sperm := sp.perm
    have sge := sp.ge
    rw [hc1] at sperm sge
    have hc2 : contents { M2 with msize := M2.msize - n } = contents M2 := rfl
    refine ⟨xs, { M2 with msize := M2.msize - n }, by simp only [e1, e2], ?_, t.len, sp.desc, ?_, ?_⟩
    · refine { pow := h2.pow, le := h2.le, slots := h2.slots, full := h2.full, tree := h2.tree, size := ?_ }
      show M2.msize - n = (contents M2).length
      have hl := sperm.length_eq
      have hl2 := hp.length_eq
      rw [List.length_append] at hl
      have hl3 : (contents M).length = xs.length + (contents M1).length := hl
      rw [hm, t.msize, h.size]
      have := t.len
      omega
    · exact sperm.trans ((List.perm_append_left_iff xs).2 hp.symm)
    · intro x hx y hy
      exact sge x hx y (hp.mem_iff.1 hy)

end Stxxl.PQ
