import Verif.LinuxAio.Inv
import Batteries.Tactic.PermuteGoals

/-! # Steps of the posting thread keep the invariants -/

namespace Stxxl.LinuxAio

theorem take_drop_count (l : List Req) (c : Nat) (x : Req) : (l.take c).count x + (l.drop c).count x = l.count x := by
  rw [← List.count_append, List.take_append_drop]

theorem take_drop_len (l : List Req) (c : Nat) : (l.take c).length + (l.drop c).length = l.length := by
  rw [← List.length_append, List.take_append_drop]

theorem count_erase' (l : List Req) (e x : Req) : (l.erase e).count x = l.count x - (if e = x then 1 else 0) := by
  rw [List.count_erase]
  by_cases h : e = x
  · subst h; simp
  · rw [if_neg h]; simp [h]

set_option maxHeartbeats 2000000 in
theorem inv_post {C : Cfg} {s s' : St} (I : Inv C s) {c : Nat} (h : pstep C s c = some s') : Inv C s' := by
  have aW := I.acctW
  have aF := I.acctF
  have aP := I.acctP
  have ff := I.fifo
  have pt := I.part
  have bx := I.box
  have n1 := I.noreap
  have n2 := I.noreap2
  have ds := I.dst
  have i7 := I.lookW
  have i8 := I.chkW
  have i9 := I.lossP
  have i10 := I.latePb
  have i11 := I.lossW
  have i13 := I.getW
  have pl := I.pleft
  unfold pstep at h
  unfold dState at ds
  have hdu : dtokP s.dtor = 1 → s.users.countP isPost = 0 ∧ s.users.countP isWait = 0 := by
    intro hd
    have hi := I.didle (by intro h; rw [h] at hd; cases hd)
    exact ⟨countP_idle rfl hi, countP_idle rfl hi⟩
  have hterm : dtokP s.dtor = 1 → s.ppc ≠ .gone → s.pts = .terminating := by
    intro h1 h2
    cases hd : s.dtor <;> rw [hd] at ds h1 <;> simp_all [dtokP]
  have hgone : dtokW s.dtor = 1 → s.ppc = .gone := by
    intro h1
    cases hd : s.dtor <;> rw [hd] at ds h1 <;> simp_all [dtokW]
  have hfr := I.free
  have hst := I.strict
  have hfp := I.failP
  have hcd := fun x => take_drop_count s.done c x
  have hld := take_drop_len s.done c
  have hce := count_erase' s.boxes
  split at h
  · -- top
    rename_i hp
    rw [hp] at aW aF aP ff n1 n2 ds i7 i8 i9 i10 pl
    simp only [hp] at pt bx
    simp only [tokP, holdP, incP, hand, evP, decP] at aW aF aP ff pt bx n1
    split at h <;> simp only [Option.some.injEq, reduceCtorEq] at h
    subst h
    refine { I with acctW := ?_, acctF := ?_, acctP := ?_, fifo := ?_, part := ?_, box := ?_, noreap := ?_, noreap2 := ?_, dst := ?_, pleft := ?_, nback := ?_, lookW := ?_, chkW := ?_, lossP := ?_, latePb := ?_, lossW := ?_, getW := ?_, failP := ?_, strict := ?_ } <;>
      dsimp only [tokP, holdP, incP, hand, evP, decP, dState, release]
    all_goals (try grind)
    all_goals (try (intro hd; have := hgone hd; rw [hp] at this; cases this))
    intro hd hch
    have h1 : s.lateP = false := by
      cases hl : s.lateP with
      | false => rfl
      | true => have := i10 hd hl; simp at this
    have h2 : s.nW - 1 = 0 := by simpa using hch
    have h3 := hdu hd
    exact ⟨fun _ => List.eq_nil_of_length_eq_zero (by omega), fun _ => h1⟩
  · -- chk
    rename_i v hp
    rw [hp] at aW aF aP ff n1 n2 ds i7 i8 i9 i10 pl
    simp only [hp] at pt bx
    simp only [tokP, holdP, incP, hand, evP, decP] at aW aF aP ff pt bx n1
    split at h <;> simp only [Option.some.injEq, reduceCtorEq] at h <;> subst h
    all_goals refine { I with acctW := ?_, acctF := ?_, acctP := ?_, fifo := ?_, part := ?_, box := ?_, noreap := ?_, noreap2 := ?_, dst := ?_, pleft := ?_, nback := ?_, lookW := ?_, chkW := ?_, lossP := ?_, latePb := ?_, lossW := ?_, getW := ?_, failP := ?_, strict := ?_ } <;>
      dsimp only [tokP, holdP, incP, hand, evP, decP, dState, release]
    all_goals (try grind)
    all_goals (try (intro hd; have := hgone hd; rw [hp] at this; cases this))
  · -- look
    rename_i hp
    rw [hp] at aW aF aP ff n1 n2 ds i7 i8 i9 i10 pl
    simp only [hp] at pt bx
    simp only [tokP, holdP, incP, hand, evP, decP] at aW aF aP ff pt bx n1
    split at h
    swap
    · simp at h
    rename_i hown
    have hne : s.waiting ≠ [] := by
      intro he
      have h1 := hfr hown
      rw [he] at aW
      simp only [List.length_nil] at aW
      have hle : dtokP s.dtor ≤ 1 := by cases s.dtor <;> simp [dtokP]
      exact i7 rfl (by omega) he
    split at h <;> simp only [Option.some.injEq, reduceCtorEq] at h <;> subst h
    all_goals refine { I with acctW := ?_, acctF := ?_, acctP := ?_, fifo := ?_, part := ?_, box := ?_, noreap := ?_, noreap2 := ?_, dst := ?_, pleft := ?_, nback := ?_, lookW := ?_, chkW := ?_, lossP := ?_, latePb := ?_, lossW := ?_, getW := ?_, failP := ?_, strict := ?_ } <;>
      dsimp only [tokP, holdP, incP, hand, evP, decP, dState, release]
    all_goals (try grind)
    all_goals (try (intro hd; have := hgone hd; rw [hp] at this; cases this))
  · -- back
    rename_i hp
    rw [hp] at aW aF aP ff n1 n2 ds i7 i8 i9 i10 pl
    simp only [hp] at pt bx
    simp only [tokP, holdP, incP, hand, evP, decP] at aW aF aP ff pt bx n1
    simp only [Option.some.injEq, reduceCtorEq] at h
    exact absurd hp I.nback
  · -- free
    rename_i r hp
    rw [hp] at aW aF aP ff n1 n2 ds i7 i8 i9 i10 pl
    simp only [hp] at pt bx
    simp only [tokP, holdP, incP, hand, evP, decP] at aW aF aP ff pt bx n1
    split at h <;> simp only [Option.some.injEq, reduceCtorEq] at h
    subst h
    refine { I with acctW := ?_, acctF := ?_, acctP := ?_, fifo := ?_, part := ?_, box := ?_, noreap := ?_, noreap2 := ?_, dst := ?_, pleft := ?_, nback := ?_, lookW := ?_, chkW := ?_, lossP := ?_, latePb := ?_, lossW := ?_, getW := ?_, failP := ?_, strict := ?_ } <;>
      dsimp only [tokP, holdP, incP, hand, evP, decP, dState, release]
    all_goals (try grind)
    all_goals (try (intro hd; have := hgone hd; rw [hp] at this; cases this))
  · -- submit
    rename_i r hp
    rw [hp] at aW aF aP ff n1 n2 ds i7 i8 i9 i10 pl
    simp only [hp] at pt bx
    simp only [tokP, holdP, incP, hand, evP, decP] at aW aF aP ff pt bx n1
    split at h
    all_goals split at h <;> simp only [Option.some.injEq, reduceCtorEq] at h
    all_goals subst h
    all_goals refine { I with acctW := ?_, acctF := ?_, acctP := ?_, fifo := ?_, part := ?_, box := ?_, noreap := ?_, noreap2 := ?_, dst := ?_, pleft := ?_, nback := ?_, lookW := ?_, chkW := ?_, lossP := ?_, latePb := ?_, lossW := ?_, getW := ?_, failP := ?_, strict := ?_ } <;>
      dsimp only [tokP, holdP, incP, hand, evP, decP, dState, release]
    all_goals (try grind)
    all_goals (try (intro hd; have := hgone hd; rw [hp] at this; cases this))
  · -- reap
    rename_i r hp
    rw [hp] at aW aF aP ff n1 n2 ds i7 i8 i9 i10 pl
    simp only [hp] at pt bx
    simp only [tokP, holdP, incP, hand, evP, decP] at aW aF aP ff pt bx n1
    split at h <;> simp only [Option.some.injEq, reduceCtorEq] at h
    subst h
    refine { I with acctW := ?_, acctF := ?_, acctP := ?_, fifo := ?_, part := ?_, box := ?_, noreap := ?_, noreap2 := ?_, dst := ?_, pleft := ?_, nback := ?_, lookW := ?_, chkW := ?_, lossP := ?_, latePb := ?_, lossW := ?_, getW := ?_, failP := ?_, strict := ?_ } <;>
      dsimp only [tokP, holdP, incP, hand, evP, decP, dState, release]
    all_goals (try grind)
    all_goals (try (intro hd; have := hgone hd; rw [hp] at this; cases this))
  · -- hRel nil
    rename_i r hp
    rw [hp] at aW aF aP ff n1 n2 ds i7 i8 i9 i10 pl
    simp only [hp] at pt bx
    simp only [tokP, holdP, incP, hand, evP, decP] at aW aF aP ff pt bx n1
    simp only [Option.some.injEq, reduceCtorEq] at h
    subst h
    refine { I with acctW := ?_, acctF := ?_, acctP := ?_, fifo := ?_, part := ?_, box := ?_, noreap := ?_, noreap2 := ?_, dst := ?_, pleft := ?_, nback := ?_, lookW := ?_, chkW := ?_, lossP := ?_, latePb := ?_, lossW := ?_, getW := ?_, failP := ?_, strict := ?_ } <;>
      dsimp only [tokP, holdP, incP, hand, evP, decP, dState, release]
    all_goals (try grind)
    all_goals (try (intro hd; have := hgone hd; rw [hp] at this; cases this))
  · -- hRel cons
    rename_i r e es hp
    rw [hp] at aW aF aP ff n1 n2 ds i7 i8 i9 i10 pl
    simp only [hp] at pt bx
    simp only [tokP, holdP, incP, hand, evP, decP] at aW aF aP ff pt bx n1
    simp only [Option.some.injEq, reduceCtorEq] at h
    subst h
    refine { I with acctW := ?_, acctF := ?_, acctP := ?_, fifo := ?_, part := ?_, box := ?_, noreap := ?_, noreap2 := ?_, dst := ?_, pleft := ?_, nback := ?_, lookW := ?_, chkW := ?_, lossP := ?_, latePb := ?_, lossW := ?_, getW := ?_, failP := ?_, strict := ?_ } <;>
      dsimp only [tokP, holdP, incP, hand, evP, decP, dState, release]
    all_goals (try grind)
    all_goals (try (intro hd; have := hgone hd; rw [hp] at this; cases this))
  · -- hDec
    rename_i r es hp
    rw [hp] at aW aF aP ff n1 n2 ds i7 i8 i9 i10 pl
    simp only [hp] at pt bx
    simp only [tokP, holdP, incP, hand, evP, decP] at aW aF aP ff pt bx n1
    split at h <;> simp only [Option.some.injEq, reduceCtorEq] at h
    subst h
    refine { I with acctW := ?_, acctF := ?_, acctP := ?_, fifo := ?_, part := ?_, box := ?_, noreap := ?_, noreap2 := ?_, dst := ?_, pleft := ?_, nback := ?_, lookW := ?_, chkW := ?_, lossP := ?_, latePb := ?_, lossW := ?_, getW := ?_, failP := ?_, strict := ?_ } <;>
      dsimp only [tokP, holdP, incP, hand, evP, decP, dState, release]
    all_goals (try grind)
    all_goals (try (intro hd; have := hgone hd; rw [hp] at this; cases this))
  · -- inc
    rename_i hp
    rw [hp] at aW aF aP ff n1 n2 ds i7 i8 i9 i10 pl
    simp only [hp] at pt bx
    simp only [tokP, holdP, incP, hand, evP, decP] at aW aF aP ff pt bx n1
    simp only [Option.some.injEq, reduceCtorEq] at h
    subst h
    refine { I with acctW := ?_, acctF := ?_, acctP := ?_, fifo := ?_, part := ?_, box := ?_, noreap := ?_, noreap2 := ?_, dst := ?_, pleft := ?_, nback := ?_, lookW := ?_, chkW := ?_, lossP := ?_, latePb := ?_, lossW := ?_, getW := ?_, failP := ?_, strict := ?_ } <;>
      dsimp only [tokP, holdP, incP, hand, evP, decP, dState, release]
    all_goals (try grind)
    all_goals (try (intro hd; have := hgone hd; rw [hp] at this; cases this))
  · -- leave
    rename_i hp
    rw [hp] at aW aF aP ff n1 n2 ds i7 i8 i9 i10 pl
    simp only [hp] at pt bx
    simp only [tokP, holdP, incP, hand, evP, decP] at aW aF aP ff pt bx n1
    simp only [Option.some.injEq, reduceCtorEq] at h
    subst h
    refine { I with acctW := ?_, acctF := ?_, acctP := ?_, fifo := ?_, part := ?_, box := ?_, noreap := ?_, noreap2 := ?_, dst := ?_, pleft := ?_, nback := ?_, lookW := ?_, chkW := ?_, lossP := ?_, latePb := ?_, lossW := ?_, getW := ?_, failP := ?_, strict := ?_ } <;>
      dsimp only [tokP, holdP, incP, hand, evP, decP, dState, release]
    all_goals (try grind)
    all_goals (try (intro hd; have := hgone hd; rw [hp] at this; cases this))
  · simp at h

end Stxxl.LinuxAio
