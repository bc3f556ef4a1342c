import Verif.ReqQueue.Inv
import Mathlib.Tactic.Tauto
import Batteries.Tactic.PermuteGoals

/-! # Every step keeps the invariants -/

namespace Stxxl.ReqQueue

theorem get_set {l : List UPc} {i j : Nat} {u v w : UPc} (h : l[i]? = some u) (hj : (l.set i v)[j]? = some w) :
    (j = i ∧ w = v) ∨ (j ≠ i ∧ l[j]? = some w) := by
  grind

theorem inv_add {n : Nat} {s : St} (I : Inv n s) {i : Nat} {r : Req} (hi : s.users[i]? = some .idle)
    (hr : s.ts = .running) (hf : Fresh s r) : Inv n { s with users := s.users.set i (.addLook r) } := by
  obtain ⟨f1, f2, f3⟩ := hf
  have c1 := countP_set' (p := isPost) (v := .addLook r) hi
  have c2 := countP_set' (p := isWait) (v := .addLook r) hi
  simp only [isPost, isWait] at c1 c2
  have hd := I.dts.mpr hr
  refine { I with len := by simpa using I.len, acct := ?_, frsh := ?_, uniq := ?_, own1 := ?_, own2 := ?_, didle := ?_ }
  · have := I.acct; dsimp only; grind
  · intro j u r' hj hs
    rcases get_set hi hj with ⟨rfl, rfl⟩ | ⟨_, h⟩
    · simp only [sub, Option.some.injEq] at hs; subst hs; exact f1
    · exact I.frsh j u r' h hs
  · intro j k u v r' hj hk hu hv
    rcases get_set hi hj with ⟨rfl, rfl⟩ | ⟨h1, h⟩ <;> rcases get_set hi hk with ⟨rfl, rfl⟩ | ⟨h2, h'⟩
    · rfl
    · simp only [sub, Option.some.injEq] at hu; subst hu
      have := List.mem_of_getElem? h'
      cases v <;> simp [sub] at hv <;> simp_all
    · simp only [sub, Option.some.injEq] at hv; subst hv
      have := List.mem_of_getElem? h
      cases u <;> simp [sub] at hu <;> simp_all
    · exact I.uniq j k u v r' h h' hu hv
  · intro k j hj
    obtain ⟨r', h, hk⟩ := I.own1 k j hj
    exact ⟨r', by grind, hk⟩
  · intro j r' hj
    rcases get_set hi hj with ⟨rfl, h⟩ | ⟨_, h⟩
    · cases h
    · exact I.own2 j r' h
  · intro h; exact absurd hd h

theorem inv_cancel {n : Nat} {s : St} (I : Inv n s) {i : Nat} {r : Req} (hi : s.users[i]? = some .idle)
    (hr : s.ts = .running) : Inv n { s with users := s.users.set i (.canFind r) } := by
  have c1 := countP_set' (p := isPost) (v := .canFind r) hi
  have c2 := countP_set' (p := isWait) (v := .canFind r) hi
  simp only [isPost, isWait] at c1 c2
  have hd := I.dts.mpr hr
  refine { I with len := by simpa using I.len, acct := ?_, frsh := ?_, uniq := ?_, own1 := ?_, own2 := ?_, didle := ?_ }
  · have := I.acct; dsimp only; grind
  · intro j u r' hj hs
    rcases get_set hi hj with ⟨rfl, rfl⟩ | ⟨_, h⟩
    · cases hs
    · exact I.frsh j u r' h hs
  · intro j k u v r' hj hk hu hv
    rcases get_set hi hj with ⟨rfl, rfl⟩ | ⟨h1, h⟩
    · cases hu
    rcases get_set hi hk with ⟨rfl, rfl⟩ | ⟨h2, h'⟩
    · cases hv
    exact I.uniq j k u v r' h h' hu hv
  · intro k j hj
    obtain ⟨r', h, hk⟩ := I.own1 k j hj
    exact ⟨r', by grind, hk⟩
  · intro j r' hj
    rcases get_set hi hj with ⟨rfl, h⟩ | ⟨_, h⟩
    · cases h
    · exact I.own2 j r' h
  · intro h; exact absurd hd h

theorem inv_user {n : Nat} {s s' : St} (I : Inv n s) {i : Nat} (h : ustep s i = some s') : Inv n s' := by
  unfold ustep at h
  have hdn : ∀ u, s.users[i]? = some u → u ≠ .idle → s.dtor = .no := by
    intro u hu hne
    cases hd : s.dtor with
    | no => rfl
    | _ => exact absurd (I.didle (by simp [hd]) u (List.mem_of_getElem? hu)) hne
  split at h
  · -- addLook
    rename_i r hi
    have hd := hdn _ hi (by simp)
    split at h <;> simp only [Option.some.injEq, reduceCtorEq] at h
    subst h
    have c1 := countP_set' (p := isPost) (v := .addPush r) hi
    have c2 := countP_set' (p := isWait) (v := .addPush r) hi
    simp only [isPost, isWait] at c1 c2
    refine { I with len := by simpa using I.len, acct := ?_, frsh := ?_, uniq := ?_, own1 := ?_, own2 := ?_, didle := ?_ }
    · have := I.acct; dsimp only; grind
    · intro j u r' hj hs
      rcases get_set hi hj with ⟨rfl, rfl⟩ | ⟨_, h⟩
      · exact I.frsh j _ r' hi hs
      · exact I.frsh j u r' h hs
    · intro j k u v r' hj hk hu hv
      rcases get_set hi hj with ⟨rfl, rfl⟩ | ⟨h1, h⟩ <;> rcases get_set hi hk with ⟨rfl, rfl⟩ | ⟨h2, h'⟩
      · rfl
      · exact I.uniq _ k _ v r' hi h' hu hv
      · exact I.uniq j _ u _ r' h hi hu hv
      · exact I.uniq j k u v r' h h' hu hv
    · intro k j hj
      obtain ⟨r', h, hk⟩ := I.own1 k j hj
      exact ⟨r', by grind, hk⟩
    · intro j r' hj
      rcases get_set hi hj with ⟨rfl, h⟩ | ⟨_, h⟩
      · cases h
      · exact I.own2 j r' h
    · intro h; exact absurd hd h
  · -- addPush
    rename_i r hi
    have hd := hdn _ hi (by simp)
    split at h <;> simp only [Option.some.injEq, reduceCtorEq] at h
    subst h
    have c1 := countP_set' (p := isPost) (v := .addPost r) hi
    have c2 := countP_set' (p := isWait) (v := .addPost r) hi
    simp only [isPost, isWait] at c1 c2
    have hrp : r ∉ s.pushed := I.frsh i _ r hi rfl
    have hrc : r ∉ s.cancelled := fun h => hrp (I.canSub r h)
    refine { I with len := by simpa using I.len, acct := ?_, fifo := ?_, nodup := ?_, canSub := ?_, frsh := ?_, uniq := ?_, own1 := ?_, own2 := ?_, didle := ?_, lost := ?_ }
    · have := I.acct; dsimp only
      have : (upd s.q r.isWrite (s.q r.isWrite ++ [r]) true).length + (upd s.q r.isWrite (s.q r.isWrite ++ [r]) false).length
          = (s.q true).length + (s.q false).length + 1 := by
        cases hw : r.isWrite <;> simp [upd] <;> omega
      grind
    · intro k
      have := I.fifo k
      show (s.pushed ++ [r]).filter _ = s.popped.filter _ ++ _
      rw [List.filter_append, this, List.append_assoc]
      congr 1
      by_cases hk : r.isWrite = k
      · subst hk; simp [upd, hrc]
      · have : ¬ (k = r.isWrite) := fun h => hk h.symm
        simp [upd, hk, this]
    · show (s.pushed ++ [r]).Nodup
      rw [List.nodup_append]
      exact ⟨I.nodup, by simp, by rintro a ha b hb rfl; simp at hb; subst hb; exact hrp ha⟩
    · intro x hx; exact List.mem_append_left _ (I.canSub x hx)
    · intro j u r' hj hs
      rcases get_set hi hj with ⟨rfl, rfl⟩ | ⟨hne, h⟩
      · cases hs
      · have h1 := I.frsh j u r' h hs
        have h2 : r' ≠ r := by
          rintro rfl; exact hne (I.uniq j i _ _ r' h hi hs rfl)
        simp [h1, h2]
    · intro j k u v r' hj hk hu hv
      rcases get_set hi hj with ⟨rfl, rfl⟩ | ⟨h1, h⟩
      · cases hu
      rcases get_set hi hk with ⟨rfl, rfl⟩ | ⟨h2, h'⟩
      · cases hv
      exact I.uniq j k u v r' h h' hu hv
    · intro k j hj
      obtain ⟨r', h, hk⟩ := I.own1 k j hj
      exact ⟨r', by grind, hk⟩
    · intro j r' hj
      rcases get_set hi hj with ⟨rfl, h⟩ | ⟨_, h⟩
      · cases h
      · exact I.own2 j r' h
    · intro h; exact absurd hd h
    · intro h; exact absurd hd (I.wterm (by tauto))
  · -- addPost
    rename_i r hi
    have hd := hdn _ hi (by simp)
    simp only [Option.some.injEq] at h
    subst h
    have c1 := countP_set' (p := isPost) (v := .idle) hi
    have c2 := countP_set' (p := isWait) (v := .idle) hi
    simp only [isPost, isWait] at c1 c2
    refine { I with len := by simpa using I.len, acct := ?_, frsh := ?_, uniq := ?_, own1 := ?_, own2 := ?_, didle := ?_ }
    · have := I.acct; dsimp only; grind
    · intro j u r' hj hs
      rcases get_set hi hj with ⟨rfl, rfl⟩ | ⟨_, h⟩
      · cases hs
      · exact I.frsh j u r' h hs
    · intro j k u v r' hj hk hu hv
      rcases get_set hi hj with ⟨rfl, rfl⟩ | ⟨h1, h⟩
      · cases hu
      rcases get_set hi hk with ⟨rfl, rfl⟩ | ⟨h2, h'⟩
      · cases hv
      exact I.uniq j k u v r' h h' hu hv
    · intro k j hj
      obtain ⟨r', h, hk⟩ := I.own1 k j hj
      exact ⟨r', by grind, hk⟩
    · intro j r' hj
      rcases get_set hi hj with ⟨rfl, h⟩ | ⟨_, h⟩
      · cases h
      · exact I.own2 j r' h
    · intro h; exact absurd hd h
  · -- canFind
    rename_i r hi
    have hd := hdn _ hi (by simp)
    split at h
    swap
    · simp at h
    rename_i hown
    split at h
    · rename_i hmem
      simp only [Option.some.injEq] at h
      subst h
      have c1 := countP_set' (p := isPost) (v := .canWait r) hi
      have c2 := countP_set' (p := isWait) (v := .canWait r) hi
      simp only [isPost, isWait] at c1 c2
      have hfl := I.fifo r.isWrite
      have hrp : r ∈ s.pushed ∧ r ∉ s.cancelled := by
        have : r ∈ s.pushed.filter (fun x => decide (x.isWrite = r.isWrite ∧ x ∉ s.cancelled)) := by
          rw [hfl]; exact List.mem_append_right _ hmem
        simpa using this
      refine { I with len := by simpa using I.len, acct := ?_, fifo := ?_, canSub := ?_, canNodup := ?_, frsh := ?_, uniq := ?_, own1 := ?_, own2 := ?_, didle := ?_, lost := ?_ }
      · have := I.acct; dsimp only
        have hl := List.length_erase_of_mem hmem
        have hpos : 0 < (s.q r.isWrite).length := List.length_pos_of_mem hmem
        have : (upd s.q r.isWrite ((s.q r.isWrite).erase r) true).length + (upd s.q r.isWrite ((s.q r.isWrite).erase r) false).length + 1
            = (s.q true).length + (s.q false).length := by
          cases hw : r.isWrite <;> rw [hw] at hl hpos <;> simp only [upd, if_true] <;> simp <;> omega
        grind
      · intro k
        show s.pushed.filter _ = s.popped.filter _ ++ upd s.q r.isWrite ((s.q r.isWrite).erase r) k
        by_cases hk : r.isWrite = k
        · subst hk
          simp only [upd, if_true]
          exact filter_cancel I.nodup hfl hmem
        · have : ¬ (k = r.isWrite) := fun h => hk h.symm
          simp only [upd, this, if_false]
          exact filter_other hk (I.fifo k)
      · intro x hx
        rcases List.mem_append.mp hx with h | h
        · exact I.canSub x h
        · simp at h; subst h; exact hrp.1
      · show (s.cancelled ++ [r]).Nodup
        rw [List.nodup_append]
        exact ⟨I.canNodup, by simp, by rintro a ha b hb rfl; simp at hb; subst hb; exact hrp.2 ha⟩
      · intro j u r' hj hs
        rcases get_set hi hj with ⟨rfl, rfl⟩ | ⟨_, h⟩
        · cases hs
        · exact I.frsh j u r' h hs
      · intro j k u v r' hj hk hu hv
        rcases get_set hi hj with ⟨rfl, rfl⟩ | ⟨h1, h⟩
        · cases hu
        rcases get_set hi hk with ⟨rfl, rfl⟩ | ⟨h2, h'⟩
        · cases hv
        exact I.uniq j k u v r' h h' hu hv
      · intro k j hj
        by_cases hk : k = r.isWrite
        · subst hk
          simp only [upd, if_true, Option.some.injEq] at hj
          subst hj
          exact ⟨r, by grind, rfl⟩
        · simp only [upd, hk, if_false] at hj
          obtain ⟨r', h, hk⟩ := I.own1 k j hj
          exact ⟨r', by grind, hk⟩
      · intro j r' hj
        rcases get_set hi hj with ⟨rfl, h⟩ | ⟨hne, h⟩
        · cases h; simp [upd]
        · have := I.own2 j r' h
          have hk : r'.isWrite ≠ r.isWrite := by
            intro hk; rw [hk, hown] at this; cases this
          simp [upd, hk, this]
      · intro h; exact absurd hd h
      · intro h; exact absurd hd (I.wterm (by tauto))
    · simp only [Option.some.injEq] at h
      subst h
      have c1 := countP_set' (p := isPost) (v := .idle) hi
      have c2 := countP_set' (p := isWait) (v := .idle) hi
      simp only [isPost, isWait] at c1 c2
      refine { I with len := by simpa using I.len, acct := ?_, frsh := ?_, uniq := ?_, own1 := ?_, own2 := ?_, didle := ?_ }
      · have := I.acct; dsimp only; grind
      · intro j u r' hj hs
        rcases get_set hi hj with ⟨rfl, rfl⟩ | ⟨_, h⟩
        · cases hs
        · exact I.frsh j u r' h hs
      · intro j k u v r' hj hk hu hv
        rcases get_set hi hj with ⟨rfl, rfl⟩ | ⟨h1, h⟩
        · cases hu
        rcases get_set hi hk with ⟨rfl, rfl⟩ | ⟨h2, h'⟩
        · cases hv
        exact I.uniq j k u v r' h h' hu hv
      · intro k j hj
        obtain ⟨r', h, hk⟩ := I.own1 k j hj
        exact ⟨r', by grind, hk⟩
      · intro j r' hj
        rcases get_set hi hj with ⟨rfl, h⟩ | ⟨_, h⟩
        · cases h
        · exact I.own2 j r' h
      · intro h; exact absurd hd h
  · -- canWait
    rename_i r hi
    have hd := hdn _ hi (by simp)
    split at h <;> simp only [Option.some.injEq, reduceCtorEq] at h
    subst h
    have c1 := countP_set' (p := isPost) (v := .idle) hi
    have c2 := countP_set' (p := isWait) (v := .idle) hi
    simp only [isPost, isWait] at c1 c2
    have ho := I.own2 i r hi
    refine { I with len := by simpa using I.len, acct := ?_, frsh := ?_, uniq := ?_, own1 := ?_, own2 := ?_, didle := ?_ }
    · have := I.acct; dsimp only; grind
    · intro j u r' hj hs
      rcases get_set hi hj with ⟨rfl, rfl⟩ | ⟨_, h⟩
      · cases hs
      · exact I.frsh j u r' h hs
    · intro j k u v r' hj hk hu hv
      rcases get_set hi hj with ⟨rfl, rfl⟩ | ⟨h1, h⟩
      · cases hu
      rcases get_set hi hk with ⟨rfl, rfl⟩ | ⟨h2, h'⟩
      · cases hv
      exact I.uniq j k u v r' h h' hu hv
    · intro k j hj
      by_cases hk : k = r.isWrite
      · subst hk; simp [upd] at hj
      · simp only [upd, hk, if_false] at hj
        obtain ⟨r', h, hk'⟩ := I.own1 k j hj
        refine ⟨r', ?_, hk'⟩
        have : j ≠ i := by
          rintro rfl
          rw [hi] at h; cases h; exact hk hk'.symm
        grind
    · intro j r' hj
      rcases get_set hi hj with ⟨rfl, h⟩ | ⟨hne, h⟩
      · cases h
      · have := I.own2 j r' h
        have hk : r'.isWrite ≠ r.isWrite := by
          intro hk; rw [hk, ho] at this; simp at this; exact hne this.symm
        simp [upd, hk, this]
    · intro h; exact absurd hd h
  · simp at h

set_option maxHeartbeats 1600000 in
theorem inv_worker {n : Nat} {s s' : St} (I : Inv n s) (h : wstep s = some s') : Inv n s' := by
  obtain ⟨i1, i2, i3, i4, i5, i6, i7, i8, i9, i10, i11, i12, i13, i14, i20, i15, i16, i17, i18, i19⟩ := I
  unfold wstep at h
  split at h
  · rename_i hw
    split at h <;> simp only [Option.some.injEq, reduceCtorEq] at h
    subst h
    refine ⟨i1, ?_, ?_, i4, i5, i6, i7, i8, i9, i10, i11, i12, ?_, ?_, i20, ?_, ?_, i17, ?_, ?_⟩ <;>
      simp_all [tok, St.popped, inServ] <;> omega
  · rename_i hw
    split at h
    swap
    · simp at h
    split at h
    · rename_i r rest hq
      simp only [Option.some.injEq] at h
      subst h
      refine ⟨i1, ?_, ?_, i4, i5, i6, i7, i8, i9, i10, i11, i12, ?_, ?_, i20, ?_, ?_, ?_, ?_, ?_⟩
      · dsimp only
        have : (upd s.q s.phase rest true).length + (upd s.q s.phase rest false).length + 1
          = (s.q true).length + (s.q false).length := by
          cases hp : s.phase <;> rw [hp] at hq <;> simp [upd, hq] <;> omega
        rw [hw] at i2
        simp only [tok] at i2 ⊢
        omega
      · intro k
        have h3 := i3 k
        simp only [St.popped, hw, inServ, List.append_nil] at h3 ⊢
        rw [h3, List.filter_append, List.append_assoc]
        congr 1
        have hr : r.isWrite = s.phase := by
          have := i3 s.phase
          have hm : r ∈ s.pushed.filter (fun x => decide (x.isWrite = s.phase ∧ x ∉ s.cancelled)) := by
            rw [this, hq]; simp
          simp at hm; exact hm.2.1
        by_cases hk : k = s.phase
        · subst hk; simp [upd, hq, hr]
        · have : ¬ (s.phase = k) := fun h => hk h.symm
          simp [upd, hk, hr, this]
      · intro h; have := i13 h; rw [hw] at this; cases this
      · intro h; have := i14 h; rw [hw] at this; cases this
      · simp
      · simp
      · apply chainOk_append i17
        intro r' hr' hw'
        cases hr'
        have hr : r.isWrite = s.phase := by
          have := i3 s.phase
          have hm : r ∈ s.pushed.filter (fun x => decide (x.isWrite = s.phase ∧ x ∉ s.cancelled)) := by
            rw [this, hq]; simp
          simp at hm; exact hm.2.1
        rw [i18 (hr ▸ hw') (by simp [hw])]
        rfl
      · simp
      · simp
    · rename_i hq
      simp only [Option.some.injEq] at h
      subst h
      refine ⟨i1, ?_, ?_, i4, i5, i6, i7, i8, i9, i10, i11, i12, ?_, ?_, i20, ?_, ?_, ?_, ?_, ?_⟩
      · rw [hw] at i2; exact i2
      · simpa only [St.popped, hw, inServ] using i3
      · intro h; have := i13 h; rw [hw] at this; cases this
      · intro h; have := i14 h; rw [hw] at this; cases this
      · simp
      · simp
      · apply chainOk_append i17
        intro r' hr'; cases hr'
      · simp
      · simp +contextual
  · rename_i r hw
    simp only [Option.some.injEq] at h
    subst h
    refine ⟨i1, ?_, ?_, i4, i5, i6, i7, i8, i9, i10, i11, i12, ?_, ?_, i20, ?_, ?_, i17, ?_, ?_⟩ <;>
      simp_all [tok, St.popped, inServ]
  · rename_i hw
    simp only [Option.some.injEq] at h
    subst h
    refine ⟨i1, ?_, ?_, i4, i5, i6, i7, i8, i9, i10, i11, i12, ?_, ?_, i20, ?_, ?_, i17, ?_, ?_⟩ <;>
      simp_all [tok, St.popped, inServ] <;> omega
  · rename_i hw
    split at h <;> simp only [Option.some.injEq] at h <;> subst h
    · refine ⟨i1, ?_, ?_, i4, i5, i6, i7, i8, i9, i10, i11, i12, ?_, ?_, i20, ?_, ?_, i17, ?_, ?_⟩ <;>
        simp_all [tok, St.popped, inServ]
    · refine ⟨i1, ?_, ?_, i4, i5, i6, i7, i8, i9, i10, i11, i12, ?_, ?_, i20, ?_, ?_, i17, ?_, ?_⟩ <;>
        simp_all [tok, St.popped, inServ]
  · rename_i hw
    split at h <;> simp only [Option.some.injEq, reduceCtorEq] at h
    subst h
    have hd := i15 (by tauto)
    have hid := i12 hd
    have e1 := countP_idle (p := isPost) rfl hid
    have e2 := countP_idle (p := isWait) rfl hid
    rw [hw, e1, e2] at i2
    simp only [tok] at i2
    have hlt : (s.sem - 1) + 1 = s.sem := by omega
    have hwd : ∀ w, (w = WPc.gone → s.wpc = .gone) → (s.ts = .terminated → w = .gone) ∧ (s.dtor = .joined → w = .gone) := by
      intro w _
      exact ⟨fun h => by (have := i13 h; rw [hw] at this; cases this), fun h => by (have := i14 h; rw [hw] at this; cases this)⟩
    split
    · refine ⟨i1, ?_, ?_, i4, i5, i6, i7, i8, i9, i10, i11, i12, (hwd _ (by simp)).1, (hwd _ (by simp)).2, i20, fun _ => hd, ?_, i17, ?_, by simp⟩
      · dsimp only; rw [e1, e2]; simp only [tok]; omega
      · simpa only [St.popped, hw, inServ] using i3
      · intro _; dsimp only; omega
      · intro h _; exact i18 h (by simp [hw])
    · refine ⟨i1, ?_, ?_, i4, i5, i6, i7, i8, i9, i10, i11, i12, (hwd _ (by simp)).1, (hwd _ (by simp)).2, i20, fun _ => hd, ?_, i17, ?_, by simp⟩
      · dsimp only; rw [e1, e2]; simp only [tok]; omega
      · simpa only [St.popped, hw, inServ] using i3
      · simp
      · intro h _; exact i18 h (by simp [hw])
  · rename_i hw
    simp only [Option.some.injEq] at h
    subst h
    refine ⟨i1, ?_, ?_, i4, i5, i6, i7, i8, i9, i10, i11, i12, ?_, ?_, i20, ?_, ?_, i17, ?_, ?_⟩ <;>
      simp_all [tok, St.popped, inServ] <;> omega
  · rename_i hw
    simp only [Option.some.injEq] at h
    subst h
    refine ⟨i1, ?_, ?_, i4, i5, i6, i7, i8, i9, i10, ?_, i12, ?_, ?_, ?_, ?_, ?_, i17, ?_, ?_⟩ <;>
      simp_all [tok, St.popped, inServ]
  · simp at h

theorem inv_dtor {n : Nat} {s s' : St} (I : Inv n s) (h : dstep s = some s') : Inv n s' := by
  obtain ⟨i1, i2, i3, i4, i5, i6, i7, i8, i9, i10, i11, i12, i13, i14, i20, i15, i16, i17, i18, i19⟩ := I
  unfold dstep at h
  split at h
  · rename_i hd
    simp only [Option.some.injEq] at h
    subst h
    refine ⟨i1, ?_, i3, i4, i5, i6, i7, i8, i9, i10, ?_, ?_, i13, ?_, ?_, ?_, i16, i17, i18, i19⟩ <;>
      simp_all [dtok] <;> omega
  · rename_i hd
    split at h <;> simp only [Option.some.injEq, reduceCtorEq] at h
    subst h
    refine ⟨i1, ?_, i3, i4, i5, i6, i7, i8, i9, i10, ?_, fun _ => i12 (by simp [hd]), ?_, ?_, ?_, ?_, i16, i17, i18, i19⟩ <;>
      simp_all [dtok]
  · simp at h

theorem inv_stop {n : Nat} {s : St} (I : Inv n s) (hi : ∀ u ∈ s.users, u = .idle) (hd : s.dtor = .no) :
    Inv n { s with ts := .terminating, dtor := .set } := by
  obtain ⟨i1, i2, i3, i4, i5, i6, i7, i8, i9, i10, i11, i12, i13, i14, i20, i15, i16, i17, i18, i19⟩ := I
  refine ⟨i1, ?_, i3, i4, i5, i6, i7, i8, i9, i10, ?_, fun _ => hi, ?_, ?_, ?_, ?_, i16, i17, i18, i19⟩ <;>
    simp_all [dtok]

theorem inv_step {n : Nat} {s s' : St} (I : Inv n s) (st : Step s s') : Inv n s' := by
  cases st with
  | add i r hi hr hf => exact inv_add I hi hr hf
  | cancel i r hi hr => exact inv_cancel I hi hr
  | user _ i h => exact inv_user I h
  | worker _ h => exact inv_worker I h
  | stop hi hd => exact inv_stop I hi hd
  | dtor _ h => exact inv_dtor I h

theorem reach_inv {n : Nat} {s : St} (h : Reach n s) : Inv n s := by
  induction h with
  | init => exact inv_init n
  | step _ st ih => exact inv_step ih st

end Stxxl.ReqQueue
