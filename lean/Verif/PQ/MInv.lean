import Verif.PQ.Tree
import Mathlib.Data.List.Perm.Subperm

/-! # The invariant of a merger -/

namespace Stxxl.PQ
open Stxxl.LT (upd Below)

variable {α : Type} {C : Cmp α} {p : MP}

/-- All elements of a merger. -/
def contents (M : Merger α) : List α := (List.range M.k).flatMap (seqs M.slots)

/-- Admissible parameters of a merger. -/
structure MP.Ok (p : MP) : Prop where
  pos : 1 ≤ p.arity
  room : p.nslots = p.maxArity
  bs : 0 < p.bs

/-- The slots and the free list are consistent; a slot may be allocated and empty. -/
structure SInv0 (p : MP) (C : Cmp α) (k : Nat) (sl : Nat → Slot α) (fr : List Nat) : Prop where
  ok : ∀ i, (sl i).Ok C
  ne : ∀ i, seqs sl i ≠ [] → (sl i).alloc = true
  lt : ∀ i, (sl i).alloc = true → i < k ∧ i < p.arity
  nodup : fr.Nodup
  free : ∀ i, i ∈ fr ↔ i < k ∧ i < p.arity ∧ (sl i).alloc = false

/-- Everything but the element count and the tree. -/
structure MInv1 (p : MP) (C : Cmp α) (M : Merger α) : Prop where
  pow : M.k = 2 ^ M.logK
  le : M.k ≤ p.maxArity
  slots : SInv0 p C M.k M.slots M.free
  full : ∀ i, (M.slots i).alloc = true → seqs M.slots i ≠ []

/-- Everything but the element count. -/
structure MInv0 (p : MP) (C : Cmp α) (M : Merger α) : Prop extends MInv1 p C M where
  tree : TInv C M.entry (keys C M.slots) M.logK

structure MInv (p : MP) (C : Cmp α) (M : Merger α) : Prop extends MInv0 p C M where
  size : M.msize = (contents M).length

theorem SInv0.free_lt {k : Nat} {sl : Nat → Slot α} {fr : List Nat} (h : SInv0 p C k sl fr) {i : Nat} (hi : i < p.arity)
    (hf : i ∉ fr) : fr.length < p.arity := by
  have h1 : (i :: fr) ⊆ List.range p.arity := by
    intro j hj
    rcases List.mem_cons.1 hj with rfl | hj
    · exact List.mem_range.2 hi
    · exact List.mem_range.2 ((h.free j).1 hj).2.1
  have h2 := (List.subperm_of_subset (List.nodup_cons.2 ⟨hf, h.nodup⟩) h1).length_le
  simp at h2; omega

theorem keys_congr {sl sl' : Nat → Slot α} (h : ∀ i, (sl i).Ok C) (h' : ∀ i, (sl' i).Ok C) (e : seqs sl' = seqs sl) :
    keys C sl' = keys C sl := by
  funext i; rw [keys_eq h, keys_eq h', e]

theorem empty_ok (b : Bool) : (⟨[], [], b⟩ : Slot α).Ok C :=
  ⟨fun _ => rfl, by simp, by simp [Slot.elems, Desc], by simp [Slot.elems]⟩

theorem Slot.Ok.nil {s : Slot α} (h : s.Ok C) (he : s.elems = []) : s.cur = [] ∧ s.bids = [] :=
  ⟨h.elems_nil.1 he, h.last (h.elems_nil.1 he)⟩

/-- `M'` differs from `M` only in allocation and free list. -/
structure Same (M M' : Merger α) : Prop where
  k : M'.k = M.k
  logK : M'.logK = M.logK
  entry : M'.entry = M.entry
  msize : M'.msize = M.msize
  seqs : seqs M'.slots = seqs M.slots

theorem Same.contents {M M' : Merger α} (h : Same M M') : contents M' = contents M := by
  unfold PQ.contents; rw [h.k, h.seqs]

theorem freeArray_ok {M : Merger α} (h : SInv0 p C M.k M.slots M.free) {i : Nat} (ha : (M.slots i).alloc = true)
    (he : seqs M.slots i = []) :
    ∃ M', freeArray p M i = some M' ∧ Same M M' ∧ SInv0 p C M'.k M'.slots M'.free ∧
      (∀ j, (M'.slots j).alloc = if j = i then false else (M.slots j).alloc) := by
  have hl := h.lt i ha
  have hnf : i ∉ M.free := fun hf => by have := ((h.free i).1 hf).2.2; rw [ha] at this; cases this
  have hf := h.free_lt hl.2 hnf
  have hn := (h.ok i).nil he
  have hseq : seqs (upd M.slots i { (M.slots i) with cur := [], alloc := false }) = seqs M.slots := by
    funext j
    by_cases hj : j = i
    · subst hj; unfold seqs at he ⊢; rw [upd_same, he]; simp [Slot.elems, hn.2]
    · unfold seqs; rw [upd_ne _ _ hj]
  refine ⟨{ M with slots := upd M.slots i { (M.slots i) with cur := [], alloc := false }, free := i :: M.free },
    by simp [freeArray, ha, pushFree, hf], ⟨rfl, rfl, rfl, rfl, hseq⟩, ?_, ?_⟩
  · refine ⟨?_, ?_, ?_, List.nodup_cons.2 ⟨hnf, h.nodup⟩, ?_⟩
    · intro j
      by_cases hj : j = i
      · subst hj; show (upd M.slots j _ j).Ok C; rw [upd_same]; simp only [hn.2]; exact empty_ok _
      · show (upd M.slots i _ j).Ok C; rw [upd_ne _ _ hj]; exact h.ok j
    · intro j hj
      have hj' : seqs M.slots j ≠ [] := by rw [← hseq]; exact hj
      have : j ≠ i := fun e => hj' (e ▸ he)
      show (upd M.slots i _ j).alloc = true
      rw [upd_ne _ _ this]; exact h.ne j hj'
    · intro j hj
      have hj : (upd M.slots i { (M.slots i) with cur := [], alloc := false } j).alloc = true := hj
      by_cases e : j = i
      · subst e; rw [upd_same] at hj; cases hj
      · rw [upd_ne _ _ e] at hj; exact h.lt j hj
    · intro j
      show j ∈ i :: M.free ↔ _ ∧ _ ∧ (upd M.slots i { (M.slots i) with cur := [], alloc := false } j).alloc = false
      by_cases e : j = i
      · subst e; rw [upd_same]; simpa using hl
      · rw [upd_ne _ _ e]; simp [e, h.free j]
  · intro j
    show (upd M.slots i _ j).alloc = _
    by_cases e : j = i
    · subst e; rw [upd_same]; simp
    · rw [upd_ne _ _ e]; simp [e]

theorem Same.refl (M : Merger α) : Same M M := ⟨rfl, rfl, rfl, rfl, rfl⟩
theorem Same.trans {M M' M'' : Merger α} (h : Same M M') (h' : Same M' M'') : Same M M'' :=
  ⟨h'.k.trans h.k, h'.logK.trans h.logK, h'.entry.trans h.entry, h'.msize.trans h.msize, h'.seqs.trans h.seqs⟩

theorem freeIfs_ok (hC : C.Ok) : ∀ (is : List Nat) {M : Merger α}, SInv0 p C M.k M.slots M.free →
    ∃ M', freeIfs p C is M = some M' ∧ Same M M' ∧ SInv0 p C M'.k M'.slots M'.free ∧
      (∀ j ∈ is, (M'.slots j).alloc = true → seqs M'.slots j ≠ []) ∧
      (∀ j, (M'.slots j).alloc = true → (M.slots j).alloc = true)
  | [], M, h => ⟨M, rfl, Same.refl M, h, by simp, fun _ x => x⟩
  | i :: is, M, h => by
    have hst : ∃ M1, freeIf p C i M = some M1 ∧ Same M M1 ∧ SInv0 p C M1.k M1.slots M1.free ∧
        ((M1.slots i).alloc = true → seqs M1.slots i ≠ []) ∧ (∀ j, (M1.slots j).alloc = true → (M.slots j).alloc = true) := by
      by_cases hc : (M.slots i).isEmpty C = true ∧ (M.slots i).alloc = true
      · have he := ((h.ok i).isEmpty hC).1 hc.1
        obtain ⟨M1, h1, h2, h3, h4⟩ := freeArray_ok h hc.2 he
        refine ⟨M1, by simp [freeIf, hc, h1], h2, h3, ?_, ?_⟩
        · rw [h4]; simp
        · intro j; rw [h4]; split <;> simp
      · refine ⟨M, by simp only [freeIf, hc, if_false], Same.refl M, h, ?_, fun _ x => x⟩
        intro ha he
        exact hc ⟨((h.ok i).isEmpty hC).2 he, ha⟩
    obtain ⟨M1, e1, s1, i1, f1, a1⟩ := hst
    obtain ⟨M2, e2, s2, i2, f2, a2⟩ := freeIfs_ok hC is i1
    refine ⟨M2, by simp [freeIfs, e1, e2], s1.trans s2, i2, ?_, fun j hj => a1 j (a2 j hj)⟩
    intro j hj ha
    rcases List.mem_cons.1 hj with rfl | hj
    · rw [s2.seqs]; exact f1 (a2 j ha)
    · exact f2 j hj ha

/-- Making empty slots sentinels. -/
theorem sentLoop_ok {chk : Bool} : ∀ (is : List Nat) (sl : Nat → Slot α) (fr : List Nat), is.Nodup → (∀ i, (sl i).Ok C) →
    (∀ i ∈ is, seqs sl i = [] ∧ (sl i).alloc = false ∧ i ∉ fr) → fr.Nodup → (∀ i ∈ fr, i < p.arity) →
    ∃ sl' fr', sentLoop p chk is sl fr = some (sl', fr') ∧ seqs sl' = seqs sl ∧ (∀ j, (sl' j).Ok C) ∧
      (∀ j, (sl' j).alloc = (sl j).alloc) ∧ fr'.Nodup ∧ (∀ j, j ∈ fr' ↔ j ∈ fr ∨ (j ∈ is ∧ j < p.arity))
  | [], sl, fr, _, ok, _, nd, _ => ⟨sl, fr, rfl, rfl, ok, fun _ => rfl, nd, by simp⟩
  | i :: is, sl, fr, hnd, ok, hs, nd, lt => by
    have hi := hs i List.mem_cons_self
    have hn := (ok i).nil hi.1
    have hm : mkSentinel p (sl i) = ⟨[], [], false⟩ := by
      unfold mkSentinel
      split
      · cases hsi : sl i with
        | mk c b a => rw [hsi] at hn hi; simp_all
      · rfl
    have hseq : seqs (upd sl i (mkSentinel p (sl i))) = seqs sl := by
      funext j
      by_cases hj : j = i
      · subst hj; unfold seqs; rw [upd_same, hm]; have := hi.1; unfold seqs at this; rw [this]; rfl
      · unfold seqs; rw [upd_ne _ _ hj]
    have hok : ∀ j, (upd sl i (mkSentinel p (sl i)) j).Ok C := by
      intro j
      by_cases hj : j = i
      · subst hj; rw [upd_same, hm]; exact empty_ok _
      · rw [upd_ne _ _ hj]; exact ok j
    have hal : ∀ j, (upd sl i (mkSentinel p (sl i)) j).alloc = (sl j).alloc := by
      intro j
      by_cases hj : j = i
      · subst hj; rw [upd_same, hm]; exact hi.2.1.symm
      · rw [upd_ne _ _ hj]
    have hnd' := List.nodup_cons.1 hnd
    by_cases hlt : i < p.arity
    · have hpf : fr.length < p.arity := by
        have h1 : (i :: fr) ⊆ List.range p.arity := by
          intro j hj
          rcases List.mem_cons.1 hj with rfl | hj
          · exact List.mem_range.2 hlt
          · exact List.mem_range.2 (lt j hj)
        have h2 := (List.subperm_of_subset (List.nodup_cons.2 ⟨hi.2.2, nd⟩) h1).length_le
        simp at h2; omega
      obtain ⟨sl', fr', h1, h2, h3, h4, h5, h6⟩ := sentLoop_ok (chk := chk) is (upd sl i (mkSentinel p (sl i))) (i :: fr)
        hnd'.2 hok (fun j hj => by
          have := hs j (List.mem_cons_of_mem _ hj)
          refine ⟨by rw [hseq]; exact this.1, by rw [hal]; exact this.2.1, ?_⟩
          intro hc
          rcases List.mem_cons.1 hc with rfl | hc
          · exact hnd'.1 hj
          · exact this.2.2 hc) (List.nodup_cons.2 ⟨hi.2.2, nd⟩) (by
          intro j hj
          rcases List.mem_cons.1 hj with rfl | hj
          · exact hlt
          · exact lt j hj)
      refine ⟨sl', fr', ?_, h2.trans hseq, h3, fun j => (h4 j).trans (hal j), h5, ?_⟩
      · simp only [sentLoop, hi.2.1, Bool.and_false, Bool.false_eq_true, if_false, hlt, if_true, pushFree, hpf]; exact h1
      · intro j; rw [h6 j]; simp only [List.mem_cons]
        constructor
        · rintro ((rfl | h) | h)
          · exact Or.inr ⟨Or.inl rfl, hlt⟩
          · exact Or.inl h
          · exact Or.inr ⟨Or.inr h.1, h.2⟩
        · rintro (h | ⟨rfl | h, h'⟩)
          · exact Or.inl (Or.inr h)
          · exact Or.inl (Or.inl rfl)
          · exact Or.inr ⟨h, h'⟩
    · obtain ⟨sl', fr', h1, h2, h3, h4, h5, h6⟩ := sentLoop_ok (chk := chk) is (upd sl i (mkSentinel p (sl i))) fr
        hnd'.2 hok (fun j hj => by
          have := hs j (List.mem_cons_of_mem _ hj)
          exact ⟨by rw [hseq]; exact this.1, by rw [hal]; exact this.2.1, this.2.2⟩) nd lt
      refine ⟨sl', fr', ?_, h2.trans hseq, h3, fun j => (h4 j).trans (hal j), h5, ?_⟩
      · simp only [sentLoop, hi.2.1, Bool.and_false, Bool.false_eq_true, if_false, hlt]; exact h1
      · intro j; rw [h6 j]; simp only [List.mem_cons]
        constructor
        · rintro (h | h)
          · exact Or.inl h
          · exact Or.inr ⟨Or.inr h.1, h.2⟩
        · rintro (h | ⟨rfl | h, h'⟩)
          · exact Or.inl h
          · exact absurd h' hlt
          · exact Or.inr ⟨h, h'⟩

theorem swap_perm {S : List Nat} (hS : S.Nodup) (e : Nat → List α) {i j : Nat} (hi : i ∈ S) (hj : j ∈ S) (hij : j ≠ i) :
    (S.flatMap (upd (upd e i (e j)) j (e i))).Perm (S.flatMap e) := by
  have h1 := flatMap_upd_perm hS (e := e) hi (e j)
  have h2 := flatMap_upd_perm hS (e := upd e i (e j)) hj (e i)
  rw [upd_ne _ _ hij] at h2
  exact ((List.perm_append_left_iff (e j)).1 (h1.trans h2)).symm

theorem compactLoop_ok (hC : C.Ok) {k : Nat} : ∀ (n pos : Nat) (sl : Nat → Slot α) (le : Nat), le ≤ pos → pos + n = k →
    (∀ j, (sl j).Ok C) → (∀ j, (sl j).alloc = true ↔ seqs sl j ≠ []) → (∀ j, (sl j).alloc = true → j < k ∧ j < p.arity) →
    (∀ j, le ≤ j → j < pos → seqs sl j = []) → (∀ j, j < le → (sl j).alloc = true) →
    ∃ sl' le', compactLoop C (List.range' pos n) sl le = some (sl', le') ∧ (∀ j, (sl' j).Ok C) ∧
      (∀ j, (sl' j).alloc = true ↔ seqs sl' j ≠ []) ∧ (∀ j, (sl' j).alloc = true → j < le' ∧ j < p.arity) ∧ (∀ j, j < le' → (sl' j).alloc = true) ∧ le' ≤ k ∧
      ((List.range k).flatMap (seqs sl')).Perm ((List.range k).flatMap (seqs sl))
  | 0, pos, sl, le, hle, hpk, ok, full, lt, mid, pre => by
    refine ⟨sl, le, by simp [compactLoop], ok, full, ?_, pre, by omega, List.Perm.refl _⟩
    intro j hj
    refine ⟨?_, (lt j hj).2⟩
    by_contra hc
    exact (full j).1 hj (mid j (by omega) (by have := (lt j hj).1; omega))
  | n + 1, pos, sl, le, hle, hpk, ok, full, lt, mid, pre => by
    rw [List.range'_succ]
    by_cases he : (sl pos).isEmpty C = true
    · have he' := ((ok pos).isEmpty hC).1 he
      obtain ⟨sl', le', h1, h2⟩ := compactLoop_ok hC n (pos + 1) sl le (by omega) (by omega) ok full lt (by
        intro j h1 h2
        by_cases e : j = pos
        · subst e; exact he'
        · exact mid j h1 (by omega)) pre
      exact ⟨sl', le', by simp only [compactLoop, he, Bool.not_true, Bool.false_eq_true, if_false]; exact h1, h2⟩
    · have hne : seqs sl pos ≠ [] := fun h => he (((ok pos).isEmpty hC).2 h)
      have hal := (full pos).2 hne
      by_cases hpl : pos = le
      · obtain ⟨sl', le', h1, h2⟩ := compactLoop_ok hC n (pos + 1) sl (le + 1) (by omega) (by omega) ok full lt (by
          intro j h1 h2; omega) (by
          intro j hj
          by_cases e : j = pos
          · subst e; exact hal
          · exact pre j (by omega))
        refine ⟨sl', le', ?_, h2⟩
        have hne2 : ¬ (pos ≠ le) := by omega
        simp only [compactLoop, he, hal, Bool.not_true, Bool.not_false, if_true, Bool.false_eq_true, if_false, hne2]
        exact h1
      · have hem := mid le (Nat.le_refl _) (by omega)
        have hnal : (sl le).alloc = false := by
          cases h : (sl le).alloc with
          | false => rfl
          | true => exact absurd hem ((full le).1 h)
        have hseq : seqs (upd (upd sl le (sl pos)) pos (sl le)) = upd (upd (seqs sl) le (seqs sl pos)) pos (seqs sl le) := by
          funext j
          unfold seqs upd
          by_cases h1 : j = pos
          · simp [h1]
          · by_cases h2 : j = le
            · subst h2; simp [h1]
            · simp [h1, h2]
        have hval : ∀ j, upd (upd sl le (sl pos)) pos (sl le) j = if j = pos then sl le else if j = le then sl pos else sl j := by
          intro j; simp [upd]
        obtain ⟨sl', le', h1, h2, h3, h4, h4', h5, h6⟩ := compactLoop_ok hC (k := k) n (pos + 1) (upd (upd sl le (sl pos)) pos (sl le)) (le + 1)
          (by omega) (by omega)
          (by intro j; rw [hval]; split
              · exact ok le
              · split
                · exact ok pos
                · exact ok j)
          (by intro j
              rw [show seqs (upd (upd sl le (sl pos)) pos (sl le)) j = (upd (upd sl le (sl pos)) pos (sl le) j).elems from rfl, hval]
              split
              · exact full le
              · split
                · exact full pos
                · exact full j)
          (by intro j; rw [hval]; intro hj
              have hpp := lt pos hal
              split at hj
              · rw [hnal] at hj; cases hj
              · split at hj
                · rename_i _ e; subst e; exact ⟨by omega, by omega⟩
                · exact lt j hj)
          (by intro j hj1 hj2
              rw [show seqs (upd (upd sl le (sl pos)) pos (sl le)) j = (upd (upd sl le (sl pos)) pos (sl le) j).elems from rfl, hval]
              split
              · exact hem
              · rw [if_neg (by omega)]; exact mid j (by omega) (by omega))
          (by intro j hj; rw [hval, if_neg (by omega)]
              split
              · exact hal
              · exact pre j (by omega))
        refine ⟨sl', le', ?_, h2, h3, h4, h4', h5, ?_⟩
        · simp only [compactLoop, he, hal, hnal, Bool.not_true, Bool.not_false, if_true, Bool.false_eq_true, if_false, ne_eq, hpl, not_false_eq_true]
          exact h1
        · refine h6.trans ?_
          rw [hseq]
          exact swap_perm List.nodup_range _ (List.mem_range.2 (by omega)) (List.mem_range.2 (by omega)) hpl

theorem halve_ok (le : Nat) : ∀ (L k : Nat), k = 2 ^ L → le ≤ k →
    (halve le L k).1 = 2 ^ (halve le L k).2 ∧ le ≤ (halve le L k).1 ∧ (halve le L k).1 ≤ k
  | 0, k, hk, hle => by simp [halve, hk]; simpa [hk] using hle
  | L + 1, k, hk, hle => by
    unfold halve
    split
    · rename_i h
      have h2 : k / 2 = 2 ^ L := by rw [hk, Nat.pow_succ]; omega
      have := halve_ok le L (k / 2) h2 h.2
      exact ⟨this.1, this.2.1, by omega⟩
    · exact ⟨hk, hle, Nat.le_refl _⟩

theorem flatMap_range_ext {e : Nat → List α} {k k' : Nat} (h : k ≤ k') (he : ∀ j, k ≤ j → j < k' → e j = []) :
    (List.range k').flatMap e = (List.range k).flatMap e := by
  obtain ⟨d, rfl⟩ : ∃ d, k' = k + d := ⟨k' - k, by omega⟩
  rw [List.range_add, List.flatMap_append]
  suffices (List.map (fun x => k + x) (List.range d)).flatMap e = [] by rw [this, List.append_nil]
  rw [List.flatMap_eq_nil_iff]
  intro j hj
  simp only [List.mem_map, List.mem_range] at hj
  obtain ⟨a, ha, rfl⟩ := hj
  exact he _ (by omega) (by omega)

theorem compact_ok (hC : C.Ok) {M : Merger α} (h : MInv1 p C M) (hl : M.logK ≠ 0) :
    ∃ M', compact p C M = some M' ∧ MInv0 p C M' ∧ (contents M').Perm (contents M) ∧ M'.msize = M.msize := by
  have hfull : ∀ j, (M.slots j).alloc = true ↔ seqs M.slots j ≠ [] := fun j => ⟨h.full j, h.slots.ne j⟩
  obtain ⟨sl, le, h1, h2, h3, h4, h4', h5, h6⟩ := compactLoop_ok hC (p := p) (k := M.k) M.k 0 M.slots 0 (by omega) (by omega) h.slots.ok hfull
    h.slots.lt (by intro j _ hj; omega) (by intro j hj; omega)
  rw [← List.range_eq_range'] at h1
  have hh := halve_ok le M.logK M.k h.pow h5
  generalize hkk : halve le M.logK M.k = kk at hh
  obtain ⟨k', L'⟩ := kk
  simp only at hh
  have hemp : ∀ j, le ≤ j → seqs sl j = [] ∧ (sl j).alloc = false := by
    intro j hj
    have : (sl j).alloc = false := by
      cases e : (sl j).alloc with
      | false => rfl
      | true => have := (h4 j e).1; omega
    refine ⟨?_, this⟩
    by_contra hc
    rw [(h3 j).2 hc] at this; cases this
  obtain ⟨sl', fr, g1, g2, g3, g4, g5, g6⟩ := sentLoop_ok (p := p) (C := C) (chk := true) (List.range' le (k' - le)) sl [] List.nodup_range' h2 (by
    intro i hi
    have := List.mem_range'_1.1 hi
    exact ⟨(hemp i this.1).1, (hemp i this.1).2, by simp⟩) List.nodup_nil (by simp)
  refine ⟨rebuild C { M with k := k', logK := L', slots := sl', free := fr }, ?_, ?_, ?_, rfl⟩
  · simp only [compact, hl, if_false, h1, hkk, g1]
  · refine { pow := hh.1, le := Nat.le_trans hh.2.2 h.le, slots := ⟨g3, ?_, ?_, g5, ?_⟩, full := ?_, tree := ?_ }
    · intro i hi
      show (sl' i).alloc = true
      rw [g4 i, h3 i, ← g2]; exact hi
    · intro i hi
      have hi : (sl' i).alloc = true := hi
      rw [g4 i] at hi
      have := h4 i hi
      exact ⟨Nat.lt_of_lt_of_le this.1 hh.2.1, this.2⟩
    · intro i
      show i ∈ fr ↔ i < k' ∧ i < p.arity ∧ (sl' i).alloc = false
      rw [g6 i, g4 i, List.mem_range'_1]
      constructor
      · rintro (hc | hc)
        · cases hc
        · exact ⟨by omega, hc.2, (hemp i (by omega)).2⟩
      · rintro ⟨a, b, c⟩
        refine Or.inr ⟨⟨?_, by omega⟩, b⟩
        by_contra hc
        rw [h4' i (by omega)] at c; cases c
    · intro i hi
      have hi : (sl' i).alloc = true := hi
      rw [g4 i] at hi
      show seqs sl' i ≠ []
      rw [g2]; exact (h3 i).1 hi
    · exact rebuild_ok hC (M := { M with k := k', logK := L', slots := sl', free := fr }) hh.1
  · show ((List.range k').flatMap (seqs sl')).Perm _
    rw [g2]
    have e := flatMap_range_ext (e := seqs sl) (Nat.le_trans hh.2.1 (Nat.le_refl k')) (fun j hj _ => (hemp j hj).1)
    have e2 := flatMap_range_ext (e := seqs sl) (h5) (fun j hj _ => (hemp j hj).1)
    rw [e, ← e2]
    exact h6

end Stxxl.PQ
