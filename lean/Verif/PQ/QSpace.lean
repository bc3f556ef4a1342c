import Verif.PQ.QInv

/-! # Making space in the groups -/

namespace Stxxl.PQ
open Stxxl.LT (upd Below)

variable {α : Type} {C : Cmp α} {c : Cfg}

theorem Cfg.Ok.arity (hc : c.Ok) (i : Nat) : 1 < (c.mp i).arity := by
  unfold Cfg.mp
  split
  · have := hc.intK_room; have := hc.int_pos; have := hc.ext_pos; unfold Cfg.total at *; show 1 < c.intK; omega
  · have := hc.extK_two; show 1 < c.extK; omega

/-- What `makeSpace` at `level` with result `final` does. -/
structure Spaced (c : Cfg) (C : Cmp α) (level : Nat) (s : State α) (final : Nat) (s' : State α) : Prop where
  inv : BInv0 c C s'
  le : level ≤ final
  lt : final < s'.nact
  gb : s'.gb = s.gb
  del : s'.del = s.del
  heap : s'.heap = s.heap
  size : s'.size = s.size
  space : spaceAvail (c.mp level) (s'.mg level) = true
  before : ∀ j, j < level → s'.mg j = s.mg j
  after : ∀ j, final < j → s'.mg j = s.mg j
  same : final = level → (contents (s'.mg level)).Perm (contents (s.mg level))
  emptied : level < final → contents (s'.mg level) = []
  perm : ((List.range c.total).flatMap fun i => contents (s'.mg i)).Perm ((List.range c.total).flatMap fun i => contents (s.mg i))

theorem flatMap_upd_eq {S : List Nat} (hS : S.Nodup) {e : Nat → List α} {i : Nat} (hi : i ∈ S) {l : List α} (hp : l.Perm (e i)) :
    (S.flatMap (upd e i l)).Perm (S.flatMap e) := by
  have := flatMap_upd_perm hS (e := e) hi l
  exact (List.perm_append_left_iff (e i)).1 (this.symm.trans ((List.perm_append_right_iff _).2 hp))

/-- Moving the contents of level `i` to level `j`. -/
theorem move_perm {S : List Nat} (hS : S.Nodup) {e : Nat → List α} {i j : Nat} (hi : i ∈ S) (hj : j ∈ S) (hij : j ≠ i) {l : List α}
    (hp : l.Perm (e i ++ e j)) : (S.flatMap (upd (upd e i []) j l)).Perm (S.flatMap e) := by
  have h1 := flatMap_upd_perm hS (e := e) hi []
  have h2 := flatMap_upd_perm hS (e := upd e i []) hj l
  rw [upd_ne _ _ hij] at h2
  rw [List.nil_append] at h1
  -- l ++ F e1 ~ e j ++ F e2, F e ~ e i ++ F e1
  have h3 : (e j ++ (e i ++ S.flatMap (upd e i []))).Perm (e j ++ S.flatMap (upd (upd e i []) j l)) := by
    refine List.Perm.trans ?_ h2
    rw [← List.append_assoc]
    exact (List.perm_append_right_iff _).2 (List.perm_append_comm.trans hp.symm)
  exact ((List.perm_append_left_iff (e j)).1 h3).symm.trans h1.symm

theorem contents_upd (mg : Nat → Merger α) (i : Nat) (M : Merger α) :
    (fun j => contents (upd mg i M j)) = upd (fun j => contents (mg j)) i (contents M) := by
  funext j
  by_cases e : j = i
  · subst e; simp [upd]
  · simp [upd, e]

theorem makeSpace_ok (hC : C.Ok) (hc : c.Ok) : ∀ (fuel level : Nat) {s : State α}, BInv0 c C s → level < c.total → level ≤ s.nact →
    c.total - level ≤ fuel → ∃ final s', makeSpace c C fuel level s = some (final, s') ∧ Spaced c C level s final s'
  | 0, level, s, _, hl, _, hf => by omega
  | fuel + 1, level, s, h, hl, hn, hf => by
    obtain ⟨s0, hs0⟩ : ∃ s0, s0 = if level = s.nact then { s with nact := s.nact + 1 } else s := ⟨_, rfl⟩
    have h0 : BInv0 c C s0 := by
      rw [hs0]; split
      · refine { nact_le := by show s.nact + 1 ≤ _; omega, idle := fun i hi => h.idle i (by have hi : s.nact + 1 ≤ i := hi; omega), mg := h.mg, desc := h.desc, len := h.len, real := h.real }
      · exact h
    have hmg : s0.mg = s.mg := by rw [hs0]; split <;> rfl
    have hgb : s0.gb = s.gb := by rw [hs0]; split <;> rfl
    have hdel : s0.del = s.del := by rw [hs0]; split <;> rfl
    have hheap : s0.heap = s.heap := by rw [hs0]; split <;> rfl
    have hsize : s0.size = s.size := by rw [hs0]; split <;> rfl
    have hna : level < s0.nact := by rw [hs0]; split <;> [(show level < s.nact + 1; omega); omega]
    unfold makeSpace
    rw [if_neg (by omega)]
    simp only [← hs0]
    split
    · rename_i hsp
      exact ⟨level, s0, rfl, ⟨h0, Nat.le_refl _, hna, hgb, hdel, hheap, hsize, hsp, fun j _ => by rw [hmg], fun j _ => by rw [hmg],
        fun _ => by rw [hmg], by omega, by rw [hmg]⟩⟩
    · split
      · rename_i hlast
        have hnint : ¬ level < c.numInt := by have := hc.ext_pos; unfold Cfg.total at *; omega
        rw [if_neg hnint]
        have hi := init_inv hC (hc.mp level)
        have hu0 := used_empty hi.1 hi.2
        obtain ⟨M', O', e1, A, _, _⟩ := appendMerger_ok hC (hc.mp level) hi.1 (hu0.space hi.1 (by have := hc.arity level; omega)) (h0.mg level)
        have hpm : (contents M').Perm (contents (s.mg level)) := by
          have := A.perm; rwa [hi.2, List.append_nil, hmg] at this
        simp only [e1]
        refine ⟨level, { s0 with mg := upd s0.mg level M' }, rfl, ⟨?_, Nat.le_refl _, hna, hgb, hdel, hheap, hsize, ?_, ?_, ?_, ?_, ?_, ?_⟩⟩
        · refine { nact_le := h0.nact_le, idle := ?_, mg := ?_, desc := h0.desc, len := h0.len, real := h0.real }
          · intro i hi
            have hi : s0.nact ≤ i := hi
            show _ ∧ contents (upd s0.mg level M' i) = []
            rw [upd_ne _ _ (by omega)]; exact h0.idle i hi
          · intro i
            show MInv (c.mp i) C (upd s0.mg level M' i)
            by_cases e : i = level
            · subst e; rw [upd_same]; exact A.inv
            · rw [upd_ne _ _ e]; exact h0.mg i
        · show spaceAvail _ (upd s0.mg level M' level) = true
          rw [upd_same]
          exact (A.used 0 hu0).space A.inv (hc.arity level)
        · intro j hj
          show upd s0.mg level M' j = _
          rw [upd_ne _ _ (by omega), hmg]
        · intro j hj
          show upd s0.mg level M' j = _
          rw [upd_ne _ _ (by omega), hmg]
        · intro _
          show (contents (upd s0.mg level M' level)).Perm _
          rw [upd_same]; exact hpm
        · intro hh; omega
        · show ((List.range c.total).flatMap fun i => contents (upd s0.mg level M' i)).Perm _
          rw [contents_upd, hmg]
          exact flatMap_upd_eq List.nodup_range (List.mem_range.2 hl) hpm
      · rename_i hnl
        obtain ⟨final, s1, e1, S⟩ := makeSpace_ok hC hc fuel (level + 1) h0 (by omega) (by omega) (by omega)
        have hml : s1.mg level = s.mg level := by rw [S.before level (by omega), hmg]
        simp only [e1]
        -- the contents of this level go to the next one
        have fin : ∀ M M' : Merger α, MInv (c.mp level) C M → contents M = [] →
            Appended (c.mp (level + 1)) C (s1.mg (level + 1)) (contents (s1.mg level)) M' →
            Spaced c C level s final { s1 with mg := upd (upd s1.mg level M) (level + 1) M' } := by
          intro M M' hM hMe A
          have hv : ∀ j, upd (upd s1.mg level M) (level + 1) M' j = if j = level + 1 then M' else if j = level then M else s1.mg j := by
            intro j; simp [upd]
          have hlv : upd (upd s1.mg level M) (level + 1) M' level = M := by
            rw [hv, if_neg (by omega), if_pos rfl]
          have hSle := S.le
          have hSlt := S.lt
          refine ⟨?_, by omega, S.lt, by rw [← hgb]; exact S.gb, S.del.trans hdel, S.heap.trans hheap, S.size.trans hsize, ?_, ?_, ?_, ?_, ?_, ?_⟩
          · refine { nact_le := S.inv.nact_le, idle := ?_, mg := ?_, desc := S.inv.desc, len := S.inv.len, real := S.inv.real }
            · intro i hi
              have hi : s1.nact ≤ i := hi
              show _ ∧ contents (upd (upd s1.mg level M) (level + 1) M' i) = []
              rw [hv, if_neg (by omega), if_neg (by omega)]
              exact S.inv.idle i hi
            · intro i
              show MInv (c.mp i) C (upd (upd s1.mg level M) (level + 1) M' i)
              rw [hv]
              split
              · rename_i e; rw [e]; exact A.inv
              · split
                · rename_i e; rw [e]; exact hM
                · exact S.inv.mg i
          · show spaceAvail _ (upd (upd s1.mg level M) (level + 1) M' level) = true
            rw [hlv]
            exact (used_empty hM hMe).space hM (by have := hc.arity level; omega)
          · intro j hj
            show upd (upd s1.mg level M) (level + 1) M' j = _
            rw [hv, if_neg (by omega), if_neg (by omega), S.before j (by omega), hmg]
          · intro j hj
            show upd (upd s1.mg level M) (level + 1) M' j = _
            rw [hv, if_neg (by omega), if_neg (by omega), S.after j hj, hmg]
          · intro hfl; omega
          · intro _
            show contents (upd (upd s1.mg level M) (level + 1) M' level) = []
            rw [hlv]; exact hMe
          · show ((List.range c.total).flatMap fun i => contents (upd (upd s1.mg level M) (level + 1) M' i)).Perm _
            rw [contents_upd, contents_upd, hMe, ← hmg]
            exact (move_perm List.nodup_range (List.mem_range.2 hl) (List.mem_range.2 (by omega)) (by omega) A.perm).trans S.perm
        split
        · obtain ⟨xs, M, f1, B⟩ := multiMerge_ok hC (S.inv.mg level) (n := (s1.mg level).msize) (by rw [(S.inv.mg level).size])
          have hl2 := B.perm.length_eq
          rw [List.length_append, B.len, ← (S.inv.mg level).size] at hl2
          have hMe : contents M = [] := List.length_eq_zero_iff.1 (by omega)
          have hpx := B.perm
          rw [hMe, List.append_nil] at hpx
          obtain ⟨M', f2, A⟩ := appendArray_ok hC (hc.mp (level + 1)) (S.inv.mg (level + 1)) S.space B.desc
            (fun x hx => contents_real (S.inv.mg level) x (hpx.mem_iff.2 hx))
          simp only [f1, f2]
          exact ⟨final, _, rfl, fin M M' B.inv hMe ⟨A.inv, A.perm.trans ((List.perm_append_right_iff _).2 hpx.symm), A.used⟩⟩
        · obtain ⟨M', M, f1, A, hM, hMe⟩ := appendMerger_ok hC (hc.mp (level + 1)) (S.inv.mg (level + 1)) S.space (S.inv.mg level)
          simp only [f1]
          exact ⟨final, _, rfl, fin M M' hM hMe A⟩

theorem sentinel_min (hC : C.Ok) : C.isSentinel C.minv = true := by
  unfold Cmp.isSentinel
  cases h : C.less C.minv C.minv with
  | false => rfl
  | true => have := hC.asymm _ _ h; rw [h] at this; cases this

theorem appendSeg_ok (hC : C.Ok) (hc : c.Ok) {M : Merger α} (h : MInv (c.mp 0) C M) (hs : spaceAvail (c.mp 0) M = true) {xs : List α}
    (hd : Desc C xs) (hr : ∀ x ∈ xs, C.Real x) {n : Nat} (hn : n = xs.length) :
    ∃ M', appendSeg c C M (xs ++ [C.minv]) n = some M' ∧ Appended (c.mp 0) C M xs M' := by
  subst hn
  unfold appendSeg
  split
  · rename_i e
    have : xs = [] := List.length_eq_zero_iff.1 e
    subst this
    exact ⟨M, rfl, Appended.nil h⟩
  · rw [List.getElem?_append_right (Nat.le_refl _)]
    simp only [Nat.sub_self, List.getElem?_cons_zero, sentinel_min hC, if_true, List.take_left']
    exact appendArray_ok hC (hc.mp 0) h hs hd hr

structure Dumped (c : Cfg) (C : Cmp α) (is : List Nat) (s s' : State α) : Prop where
  inv : BInv0 c C s'
  gb : ∀ i, s'.gb i = if i ∈ is then [] else s.gb i
  mg : ∀ i, i ≠ 0 → s'.mg i = s.mg i
  perm : (contents (s'.mg 0)).Perm (is.flatMap s.gb ++ contents (s.mg 0))
  del : s'.del = s.del
  heap : s'.heap = s.heap
  size : s'.size = s.size
  nact : s'.nact = s.nact

theorem dumpGroups_ok (hC : C.Ok) (hc : c.Ok) : ∀ (is : List Nat) (m : Nat) {s : State α}, BInv0 c C s → is.Nodup → (is ≠ [] → 0 < s.nact) →
    Used (s.mg 0) m → m + is.length ≤ c.intK → ∃ s', dumpGroups c C is s = some s' ∧ Dumped c C is s s'
  | [], m, s, h, _, _, _, _ => ⟨s, rfl, h, by simp, fun _ _ => rfl, by simp, rfl, rfl, rfl, rfl⟩
  | i :: is, m, s, h, hnd, hna, hu, hm => by
    have har : (c.mp 0).arity = c.intK := by unfold Cfg.mp; rw [if_pos hc.int_pos]
    simp only [List.length_cons] at hm
    obtain ⟨M, e1, A⟩ := appendSeg_ok hC hc (h.mg 0) (hu.space (h.mg 0) (by rw [har]; omega)) (h.desc i) (h.real i) rfl
    have hnd' := List.nodup_cons.1 hnd
    have hpos := hna (by simp)
    have h1 : BInv0 c C { s with mg := upd s.mg 0 M, gb := upd s.gb i [] } := by
      refine { nact_le := h.nact_le, idle := ?_, mg := ?_, desc := ?_, len := ?_, real := ?_ }
      · intro j hj
        have hj : s.nact ≤ j := hj
        show upd s.gb i [] j = [] ∧ contents (upd s.mg 0 M j) = []
        rw [upd_ne _ _ (show j ≠ 0 by omega)]
        refine ⟨?_, (h.idle j hj).2⟩
        by_cases e : j = i
        · subst e; rw [upd_same]
        · rw [upd_ne _ _ e]; exact (h.idle j hj).1
      · intro j
        show MInv (c.mp j) C (upd s.mg 0 M j)
        by_cases e : j = 0
        · subst e; rw [upd_same]; exact A.inv
        · rw [upd_ne _ _ e]; exact h.mg j
      · intro j
        show Desc C (upd s.gb i [] j)
        by_cases e : j = i
        · subst e; rw [upd_same]; exact List.Pairwise.nil
        · rw [upd_ne _ _ e]; exact h.desc j
      · intro j
        show (upd s.gb i [] j).length ≤ _
        by_cases e : j = i
        · subst e; rw [upd_same]; simp
        · rw [upd_ne _ _ e]; exact h.len j
      · intro j
        show ∀ x ∈ upd s.gb i [] j, _
        by_cases e : j = i
        · subst e; rw [upd_same]; simp
        · rw [upd_ne _ _ e]; exact h.real j
    obtain ⟨s', e2, D⟩ := dumpGroups_ok hC hc is (m + 1) h1 hnd'.2 (fun _ => hpos) (by
      show Used (upd s.mg 0 M 0) (m + 1)
      rw [upd_same]; exact A.used m hu) (by omega)
    refine ⟨s', by simp only [dumpGroups, e1, e2], D.inv, ?_, ?_, ?_, D.del, D.heap, D.size, D.nact⟩
    · intro j
      rw [D.gb j]
      show (if j ∈ is then [] else upd s.gb i [] j) = _
      by_cases hj : j ∈ is
      · simp [hj]
      · by_cases e : j = i
        · subst e; simp [upd_same]
        · simp [hj, e, upd_ne _ _ e]
    · intro j hj
      rw [D.mg j hj]
      exact upd_ne _ _ hj
    · have hp := D.perm
      have hfm : is.flatMap (upd s.gb i []) = is.flatMap s.gb :=
        flatMap_congr' (fun j hj => upd_ne _ _ (fun e => hnd'.1 (e ▸ hj)))
      have hp : (contents (s'.mg 0)).Perm (is.flatMap (upd s.gb i []) ++ contents (upd s.mg 0 M 0)) := hp
      rw [hfm, upd_same] at hp
      rw [List.flatMap_cons]
      refine hp.trans (((List.perm_append_left_iff _).2 A.perm).trans ?_)
      rw [← List.append_assoc]
      exact (List.perm_append_right_iff _).2 List.perm_append_comm

end Stxxl.PQ
