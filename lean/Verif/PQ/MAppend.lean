import Verif.PQ.MMerge
import Verif.LoserTree.Merge
import Mathlib.Data.List.Nodup

/-! # Appending sequences to a merger -/

namespace Stxxl.PQ
open Stxxl.LT (upd Below)

variable {α : Type} {C : Cmp α} {p : MP}

/-- At most `m` slots of the merger are in use. -/
def Used (M : Merger α) (m : Nat) : Prop := ∃ l : List Nat, l.length ≤ m ∧ ∀ i, (M.slots i).alloc = true → i ∈ l

theorem Used.space {M : Merger α} {m : Nat} (h : MInv p C M) (u : Used M m) (hm : m < p.arity) : spaceAvail p M = true := by
  by_contra hc
  simp [spaceAvail] at hc
  obtain ⟨l, hl, ha⟩ := u
  have : List.range p.arity ⊆ l := by
    intro i hi
    have hi := List.mem_range.1 hi
    apply ha
    cases e : (M.slots i).alloc with
    | true => rfl
    | false =>
      have := (h.slots.free i).2 ⟨by omega, hi, e⟩
      rw [hc.2] at this; cases this
  have := (List.subperm_of_subset List.nodup_range this).length_le
  simp at this; omega

theorem used_empty {M : Merger α} (h : MInv p C M) (he : contents M = []) : Used M 0 := by
  refine ⟨[], Nat.le_refl _, ?_⟩
  intro i hi
  exfalso
  have h1 := h.full i hi
  unfold contents at he
  rw [List.flatMap_eq_nil_iff] at he
  exact h1 (he i (List.mem_range.2 (h.slots.lt i hi).1))

theorem pow_le_ceil {L : Nat} (hp : p.Ok) (h : 2 ^ L < p.arity) : 2 ^ L * 2 ≤ p.maxArity := by
  have h1 : p.arity ≤ p.maxArity := LT.le_ilog2Ceil _
  unfold MP.maxArity at h1 ⊢
  have h2 : 2 ^ L < 2 ^ LT.ilog2Ceil p.arity := Nat.lt_of_lt_of_le h h1
  have h3 := (Nat.pow_lt_pow_iff_right (by omega : 1 < 2)).1 h2
  rw [← Nat.pow_succ]
  exact Nat.pow_le_pow_right (by omega) h3

theorem doubleK_ok (hC : C.Ok) (hp : p.Ok) {M : Merger α} (h : MInv p C M) (hf : M.free = []) (hk : M.k < p.arity) :
    ∃ M', doubleK p C M = some M' ∧ MInv p C M' ∧ seqs M'.slots = seqs M.slots ∧ contents M' = contents M ∧
      (∀ j, (M'.slots j).alloc = (M.slots j).alloc) ∧ M'.free ≠ [] := by
  have hk2 : M.k * 2 ≤ p.maxArity := by rw [h.pow] at hk ⊢; exact pow_le_ceil hp hk
  have hpos : 0 < M.k := by rw [h.pow]; exact Nat.two_pow_pos _
  have hout : ∀ j, M.k ≤ j → seqs M.slots j = [] ∧ (M.slots j).alloc = false := by
    intro j hj
    have : (M.slots j).alloc = false := by
      cases e : (M.slots j).alloc with
      | false => rfl
      | true => have := (h.slots.lt j e).1; omega
    refine ⟨?_, this⟩
    by_contra hc
    rw [h.slots.ne j hc] at this; cases this
  obtain ⟨sl, fr, g1, g2, g3, g4, g5, g6⟩ := sentLoop_ok (p := p) (C := C) (chk := false) (List.range' M.k M.k).reverse M.slots M.free
    (List.nodup_reverse.2 List.nodup_range') h.slots.ok (by
      intro i hi
      have := List.mem_range'_1.1 (List.mem_reverse.1 hi)
      exact ⟨(hout i this.1).1, (hout i this.1).2, by rw [hf]; simp⟩) h.slots.nodup (fun i hi => ((h.slots.free i).1 hi).2.1)
  have hkf : M.k ∈ fr := (g6 M.k).2 (Or.inr ⟨List.mem_reverse.2 (List.mem_range'_1.2 ⟨Nat.le_refl _, by omega⟩), hk⟩)
  have hfr : fr ≠ [] := fun e => by rw [e] at hkf; cases hkf
  have hpow : M.k * 2 = 2 ^ (M.logK + 1) := by rw [h.pow, Nat.pow_succ]
  have hcont : (List.range (M.k * 2)).flatMap (seqs sl) = contents M := by
    rw [g2]; unfold contents
    exact flatMap_range_ext (by omega) (fun j hj _ => (hout j hj).1)
  refine ⟨rebuild C { M with k := M.k * 2, logK := M.logK + 1, slots := sl, free := fr }, ?_, ?_, g2, hcont, g4, hfr⟩
  · have hns : ¬ (p.nslots ≤ 2 * M.k - 1) := by rw [hp.room]; omega
    have : ¬ (M.k = 0 ∨ ¬ M.k < p.arity ∨ M.free ≠ [] ∨ p.nslots ≤ 2 * M.k - 1) := by
      rintro (a | a | a | a)
      · omega
      · exact a hk
      · exact a hf
      · exact hns a
    have h2 : ¬ (fr = [] ∨ p.maxArity < M.k * 2) := by
      rintro (a | a)
      · exact hfr a
      · omega
    rw [doubleK, if_neg this]
    simp only [g1]
    rw [if_neg h2]
  · refine { pow := hpow, le := hk2, slots := ⟨g3, ?_, ?_, g5, ?_⟩, full := ?_, tree := ?_, size := ?_ }
    · intro i hi
      show (sl i).alloc = true
      rw [g4 i]; apply h.slots.ne; rw [← g2]; exact hi
    · intro i hi
      have hi : (sl i).alloc = true := hi
      rw [g4 i] at hi
      have := h.slots.lt i hi
      exact ⟨by show i < M.k * 2; omega, this.2⟩
    · intro i
      show i ∈ fr ↔ i < M.k * 2 ∧ i < p.arity ∧ (sl i).alloc = false
      rw [g6 i, g4 i, hf, List.mem_reverse, List.mem_range'_1]
      constructor
      · rintro (hc | hc)
        · cases hc
        · exact ⟨by omega, hc.2, (hout i (by omega)).2⟩
      · rintro ⟨a, b, c⟩
        refine Or.inr ⟨⟨?_, by omega⟩, b⟩
        by_contra hc
        have := (h.slots.free i).2 ⟨by omega, b, c⟩
        rw [hf] at this; cases this
    · intro i hi
      have hi : (sl i).alloc = true := hi
      rw [g4 i] at hi
      show seqs sl i ≠ []
      rw [g2]; exact h.full i hi
    · exact rebuild_ok hC (M := { M with k := M.k * 2, logK := M.logK + 1, slots := sl, free := fr }) hpow
    · show M.msize = _
      rw [h.size]
      exact (congrArg List.length hcont).symm

theorem newPlayer_ok (hC : C.Ok) (hp : p.Ok) {M : Merger α} (h : MInv p C M) (hs : spaceAvail p M = true) :
    ∃ i fr M', newPlayer p C M = some (i, { M' with free := fr }) ∧ M'.free = i :: fr ∧ MInv p C M' ∧ contents M' = contents M ∧
      (∀ j, (M'.slots j).alloc = (M.slots j).alloc) := by
  have hcase : M.free = [] ∨ ∃ i fr, M.free = i :: fr := by
    cases M.free with
    | nil => exact Or.inl rfl
    | cons i fr => exact Or.inr ⟨i, fr, rfl⟩
  rcases hcase with hf | ⟨i, fr, hf⟩
  · have hk : M.k < p.arity := by simpa [spaceAvail, hf] using hs
    obtain ⟨M', e1, e2, e3, e4, e5, e6⟩ := doubleK_ok hC hp h hf hk
    have hcase : ∃ i fr, M'.free = i :: fr := List.exists_cons_of_ne_nil e6
    obtain ⟨i, fr, hf'⟩ := hcase
    exact ⟨i, fr, M', by simp only [newPlayer, hf, e1, hf'], hf', e2, e4, e5⟩
  · exact ⟨i, fr, M, by simp only [newPlayer, hf], hf, h, rfl, fun _ => rfl⟩

theorem insert_inv (hC : C.Ok) {M : Merger α} (h : MInv p C M) {i : Nat} {fr : List Nat} (hf : M.free = i :: fr) {s : Slot α}
    (hs : s.Ok C) (ha : s.alloc = true) (hne : s.elems ≠ []) (n : Nat) (hn : n = s.elems.length) :
    MInv p C (insertUpdate C { { M with free := fr } with slots := upd M.slots i s, msize := M.msize + n } i) ∧
    (contents (insertUpdate C { { M with free := fr } with slots := upd M.slots i s, msize := M.msize + n } i)).Perm (s.elems ++ contents M) := by
  have hi := (h.slots.free i).1 (by rw [hf]; simp)
  have he : seqs M.slots i = [] := by
    by_contra hc
    have := h.slots.ne i hc
    rw [hi.2.2] at this; cases this
  have hnd := h.slots.nodup
  rw [hf] at hnd
  have hseq : seqs (upd M.slots i s) = upd (seqs M.slots) i s.elems := by
    funext j
    by_cases e : j = i
    · subst e; unfold seqs; rw [upd_same, upd_same]
    · unfold seqs; rw [upd_ne _ _ e, upd_ne _ _ e]
  have hok : ∀ j, (upd M.slots i s j).Ok C := by
    intro j
    by_cases e : j = i
    · subst e; rw [upd_same]; exact hs
    · rw [upd_ne _ _ e]; exact h.slots.ok j
  have hkeys : keys C (upd M.slots i s) = upd (keys C M.slots) i (s.deref C) := by
    funext j
    by_cases e : j = i
    · subst e; unfold keys; rw [upd_same, upd_same]
    · unfold keys; rw [upd_ne _ _ e, upd_ne _ _ e]
  have hx : C.less (keys C M.slots i) (s.deref C) = true := by
    rw [keys_eq h.slots.ok, he, hs.deref]
    obtain ⟨x, t, hxt⟩ := List.exists_cons_of_ne_nil hne
    rw [hxt]
    exact hs.real x (by rw [hxt]; simp)
  have hcont : (contents (insertUpdate C { { M with free := fr } with slots := upd M.slots i s, msize := M.msize + n } i)).Perm
      (s.elems ++ contents M) := by
    show ((List.range M.k).flatMap (seqs (upd M.slots i s))).Perm _
    rw [hseq]
    have := flatMap_upd_perm (List.nodup_range (n := M.k)) (e := seqs M.slots) (List.mem_range.2 hi.1) s.elems
    rw [he, List.nil_append] at this
    exact this.symm
  refine ⟨?_, hcont⟩
  refine { pow := h.pow, le := h.le, slots := ⟨hok, ?_, ?_, (List.nodup_cons.1 hnd).2, ?_⟩, full := ?_, tree := ?_, size := ?_ }
  · intro j hj
    show (upd M.slots i s j).alloc = true
    by_cases e : j = i
    · subst e; rw [upd_same]; exact ha
    · rw [upd_ne _ _ e]; apply h.slots.ne
      have hj : seqs (upd M.slots i s) j ≠ [] := hj
      rw [hseq, upd_ne _ _ e] at hj; exact hj
  · intro j hj
    have hj : (upd M.slots i s j).alloc = true := hj
    by_cases e : j = i
    · subst e; exact ⟨hi.1, hi.2.1⟩
    · rw [upd_ne _ _ e] at hj; exact h.slots.lt j hj
  · intro j
    show j ∈ fr ↔ j < M.k ∧ j < p.arity ∧ (upd M.slots i s j).alloc = false
    by_cases e : j = i
    · subst e; rw [upd_same, ha]; simp [(List.nodup_cons.1 hnd).1]
    · rw [upd_ne _ _ e, ← h.slots.free j, hf]; simp [e]
  · intro j hj
    have hj : (upd M.slots i s j).alloc = true := hj
    show seqs (upd M.slots i s) j ≠ []
    rw [hseq]
    by_cases e : j = i
    · subst e; rw [upd_same]; exact hne
    · rw [upd_ne _ _ e] at hj ⊢; exact h.full j hj
  · show TInv C (updateOnInsert C M.logK (keys C (upd M.slots i s) i) i (M.logK + 1) ((i + M.k) / 2) M.entry).1
      (keys C (upd M.slots i s)) M.logK
    rw [hkeys, upd_same, h.pow]
    exact insert_ok hC h.tree (by rw [← h.pow]; exact hi.1) hx
  · rw [hcont.length_eq, List.length_append, ← h.size]
    show M.msize + n = _
    omega

theorem used_insert {M : Merger α} {m i : Nat} (u : Used M m) (s : Slot α) (fr : List Nat) (n : Nat) :
    Used (insertUpdate C { { M with free := fr } with slots := upd M.slots i s, msize := M.msize + n } i) (m + 1) := by
  obtain ⟨l, hl, ha⟩ := u
  refine ⟨i :: l, by simp; omega, ?_⟩
  intro j hj
  have hj : (upd M.slots i s j).alloc = true := hj
  by_cases e : j = i
  · subst e; simp
  · rw [upd_ne _ _ e] at hj; exact List.mem_cons_of_mem _ (ha j hj)

theorem real_not_sentinel {x : α} (h : C.Real x) : C.isSentinel x = false := by unfold Cmp.isSentinel; rw [h]; rfl

/-- What appending a sequence does. -/
structure Appended (p : MP) (C : Cmp α) (M : Merger α) (xs : List α) (M' : Merger α) : Prop where
  inv : MInv p C M'
  perm : (contents M').Perm (xs ++ contents M)
  used : ∀ m, Used M m → Used M' (m + 1)

theorem Appended.nil {M : Merger α} (h : MInv p C M) : Appended p C M [] M :=
  ⟨h, List.Perm.refl _, fun m ⟨l, hl, ha⟩ => ⟨l, by omega, ha⟩⟩

theorem appendArray_ok (hC : C.Ok) (hp : p.Ok) {M : Merger α} (h : MInv p C M) (hs : spaceAvail p M = true) {xs : List α}
    (hd : Desc C xs) (hr : ∀ x ∈ xs, C.Real x) : ∃ M', appendArray p C M xs = some M' ∧ Appended p C M xs M' := by
  cases xs with
  | nil => exact ⟨M, rfl, Appended.nil h⟩
  | cons x t =>
    obtain ⟨i, fr, M', e1, e2, e3, e4, e5⟩ := newPlayer_ok hC hp h hs
    have hi := (e3.slots.free i).1 (by rw [e2]; simp)
    have hl : C.isSentinel ((x :: t).getLast (by simp)) = false := real_not_sentinel (hr _ (List.getLast_mem _))
    have hel : (⟨x :: t, [], true⟩ : Slot α).elems = x :: t := by simp [Slot.elems]
    have hsl : (⟨x :: t, [], true⟩ : Slot α).Ok C :=
      ⟨by simp, by simp, by rw [hel]; exact hd, by rw [hel]; exact hr⟩
    have hii := insert_inv hC e3 e2 hsl rfl (by rw [hel]; simp) (x :: t).length (by rw [hel])
    rw [hel, e4] at hii
    refine ⟨_, ?_, hii.1, hii.2, ?_⟩
    · simp only [appendArray, real_not_sentinel (hr x (by simp)), hl, Bool.or_self, Bool.false_eq_true, if_false, e1, hi.2.2]
    · intro m u
      have : Used M' m := by
        obtain ⟨l, hl, ha⟩ := u
        exact ⟨l, hl, fun j hj => ha j (by rw [← e5]; exact hj)⟩
      exact used_insert this _ _ _

theorem Desc.append {xs ys : List α} (h1 : Desc C xs) (h2 : Desc C ys) (h : GeAll C xs ys) : Desc C (xs ++ ys) :=
  List.pairwise_append.2 ⟨h1, h2, h⟩

theorem GeAll.perm_right {xs ys zs : List α} (h : GeAll C xs ys) (hp : ys.Perm zs) : GeAll C xs zs :=
  fun x hx y hy => h x hx y (hp.mem_iff.2 hy)

theorem drain_ok (hC : C.Ok) {po : MP} {bs : Nat} (hbs : 0 < bs) : ∀ (n : Nat) {O : Merger α}, MInv po C O → n * bs ≤ (contents O).length →
    ∃ bl O', drain po C bs n O = some (bl, O') ∧ MInv po C O' ∧ (∀ b ∈ bl, b ≠ []) ∧ Desc C bl.flatten ∧ bl.flatten.length = n * bs ∧
      (contents O).Perm (bl.flatten ++ contents O') ∧ GeAll C bl.flatten (contents O')
  | 0, O, h, _ => ⟨[], O, rfl, h, by simp, List.Pairwise.nil, by simp, by simp, by intro x hx; simp at hx⟩
  | n + 1, O, h, hn => by
    rw [Nat.succ_mul] at hn
    obtain ⟨b, O1, e1, B⟩ := multiMerge_ok hC h (n := bs) (by omega)
    have hl := B.perm.length_eq
    rw [List.length_append, B.len] at hl
    obtain ⟨bl, O2, e2, h2, hb, hd, hlen, hp, hg⟩ := drain_ok hC hbs n B.inv (by omega)
    have hge : GeAll C b (bl.flatten ++ contents O2) := B.ge.perm_right hp
    refine ⟨b :: bl, O2, by simp only [drain, e1, e2], h2, ?_, ?_, ?_, ?_, ?_⟩
    · intro c hc
      rcases List.mem_cons.1 hc with rfl | hc
      · intro e; have := B.len; rw [e] at this; simp at this; omega
      · exact hb c hc
    · rw [List.flatten_cons]
      exact B.desc.append hd (fun x hx y hy => hge x hx y (List.mem_append_left _ hy))
    · rw [List.flatten_cons, List.length_append, B.len, hlen, Nat.succ_mul]; omega
    · rw [List.flatten_cons, List.append_assoc]
      exact B.perm.trans ((List.perm_append_left_iff b).2 hp)
    · rw [List.flatten_cons]
      intro x hx y hy
      rcases List.mem_append.1 hx with hx | hx
      · exact hge x hx y (List.mem_append_right _ hy)
      · exact hg x hx y hy

theorem contents_real {M : Merger α} (h : MInv p C M) : ∀ x ∈ contents M, C.Real x := by
  intro x hx
  unfold contents at hx
  obtain ⟨i, _, hx⟩ := List.mem_flatMap.1 hx
  exact (h.slots.ok i).real x hx

/-- Moving the whole contents of one merger into a new sequence of another. -/
theorem appendMerger_ok (hC : C.Ok) (hp : p.Ok) {M : Merger α} (h : MInv p C M) (hs : spaceAvail p M = true) {po : MP} {O : Merger α}
    (hO : MInv po C O) : ∃ M' O', appendMerger p C M po O O.msize = some (M', O') ∧ Appended p C M (contents O) M' ∧ MInv po C O' ∧
      contents O' = [] := by
  unfold appendMerger
  split
  · rename_i e
    have he : contents O = [] := by rw [hO.size] at e; exact List.length_eq_zero_iff.1 e
    exact ⟨M, O, rfl, by rw [he]; exact Appended.nil h, hO, he⟩
  · rename_i hpos
    obtain ⟨i, fr, M', e1, e2, e3, e4, e5⟩ := newPlayer_ok hC hp h hs
    have hi := (e3.slots.free i).1 (by rw [e2]; simp)
    have hbs := hp.bs
    have hdm := Nat.div_add_mod O.msize p.bs
    have hml := Nat.mod_lt O.msize hbs
    obtain ⟨first, nb, hfirst, hnb, hf0, htot⟩ : ∃ first nb, (if O.msize % p.bs = 0 then p.bs else O.msize % p.bs) = first ∧
        (if O.msize % p.bs = 0 then O.msize / p.bs - 1 else O.msize / p.bs) = nb ∧ 0 < first ∧ first + nb * p.bs = O.msize := by
      refine ⟨_, _, rfl, rfl, ?_, ?_⟩
      · split <;> omega
      · split
        · rename_i hz
          have : 0 < O.msize / p.bs := by
            apply Nat.pos_of_ne_zero; intro e; rw [e, hz] at hdm; simp at hdm; omega
          rw [Nat.sub_mul, Nat.mul_comm (O.msize / p.bs)]
          have := Nat.le_mul_of_pos_right p.bs this
          omega
        · rw [Nat.mul_comm]; omega
    simp only [hfirst, hnb, e1]
    obtain ⟨b, O1, f1, B⟩ := multiMerge_ok hC hO (n := first) (by rw [← hO.size]; omega)
    have hl := B.perm.length_eq
    rw [List.length_append, B.len, ← hO.size] at hl
    obtain ⟨bl, O2, f2, h2, hb, hd, hlen, hpm, hg⟩ := drain_ok hC hbs nb B.inv (by omega)
    have hl2 := hpm.length_eq
    rw [List.length_append, hlen] at hl2
    have hnil : contents O2 = [] := List.length_eq_zero_iff.1 (by omega)
    rw [hnil, List.append_nil] at hpm
    have hge : GeAll C b bl.flatten := B.ge.perm_right hpm
    have hel : (⟨b, bl, true⟩ : Slot α).elems = b ++ bl.flatten := rfl
    have hperm : (contents O).Perm (b ++ bl.flatten) := B.perm.trans ((List.perm_append_left_iff b).2 hpm)
    have hbne : b ≠ [] := by intro e; have := B.len; rw [e] at this; simp at this; omega
    have hsl : (⟨b, bl, true⟩ : Slot α).Ok C :=
      ⟨fun e => absurd e hbne, hb, by rw [hel]; exact B.desc.append hd hge, by
        rw [hel]; intro x hx; exact contents_real hO x (hperm.mem_iff.2 hx)⟩
    have hii := insert_inv hC e3 e2 hsl rfl (by rw [hel]; simp [hbne]) O.msize (by rw [hel, ← hperm.length_eq, hO.size])
    rw [hel, e4] at hii
    refine ⟨_, O2, ?_, ⟨hii.1, hii.2.trans ((List.perm_append_right_iff _).2 hperm.symm), ?_⟩, h2, hnil⟩
    · simp only [f1, f2]
      rw [if_neg (by rintro (a | a) <;> [(rw [hi.2.2] at a; cases a); omega])]
    · intro m u
      have : Used M' m := by
        obtain ⟨l, hl, ha⟩ := u
        exact ⟨l, hl, fun j hj => ha j (by rw [← e5]; exact hj)⟩
      exact used_insert this _ _ _

theorem init_inv (hC : C.Ok) (hp : p.Ok) : MInv p C (Merger.init C) ∧ contents (Merger.init C) = [] := by
  have hc : contents (Merger.init C) = [] := rfl
  refine ⟨?_, hc⟩
  refine { pow := rfl, le := Nat.two_pow_pos _, slots := ⟨fun i => empty_ok _, ?_, ?_, ?_, ?_⟩, full := ?_, tree := ?_, size := rfl }
  · intro i hi; exact absurd rfl hi
  · intro i hi; cases hi
  · show [0].Nodup; simp
  · intro i
    show i ∈ [0] ↔ i < 1 ∧ i < p.arity ∧ false = false
    have := hp.pos
    simp; omega
  · intro i hi; cases hi
  · exact rebuild_ok hC (M := { k := 1, logK := 0, entry := fun _ => (C.minv, 0), slots := fun _ => ⟨[], [], false⟩, free := [0], msize := 0 }) rfl

end Stxxl.PQ
