import Verif.LinuxAio.StepsP

/-! # Steps of the waiting thread keep the invariants -/

namespace Stxxl.LinuxAio

set_option maxHeartbeats 2000000 in
theorem inv_wait {C : Cfg} {s s' : St} (I : Inv C s) {c : Nat} (h : wstep C s c = some s') : Inv C s' := by
  have aF := I.acctF
  have aP := I.acctP
  have pt := I.part
  have bx := I.box
  have ds := I.dst
  have i11 := I.lossW
  have i12 := I.lateWb
  have i13 := I.getW
  have wl := I.wleft
  unfold wstep at h
  unfold dState at ds
  have hterm : dtokW s.dtor = 1 → s.wpc ≠ .gone → s.wts = .terminating := by
    intro h1 h2
    cases hd : s.dtor <;> rw [hd] at ds h1 <;> simp_all [dtokW]
  have hgone : dtokW s.dtor = 1 → s.ppc = .gone := by
    intro h1
    cases hd : s.dtor <;> rw [hd] at ds h1 <;> simp_all [dtokW]
  have hwts : s.wts = .terminating → s.dtor ≠ .no ∧ s.dtor ≠ .setP ∧ s.dtor ≠ .joinP ∧ s.dtor ≠ .midW := by
    intro h1
    cases hd : s.dtor <;> rw [hd] at ds <;> simp_all
  have hcd := fun x => take_drop_count s.done c x
  have hld := take_drop_len s.done c
  have hce := count_erase' s.boxes
  split at h
  · -- top
    rename_i hp
    rw [hp] at aF aP ds i11 i12 i13 wl
    simp only [hp] at pt bx
    simp only [tokW, evW, decW] at aF aP pt bx
    split at h <;> simp only [Option.some.injEq, reduceCtorEq] at h
    subst h
    refine { I with acctF := ?_, acctP := ?_, part := ?_, box := ?_, dst := ?_, wleft := ?_, lossW := ?_, getW := ?_, lateWb := ?_ } <;>
      dsimp only [tokW, evW, decW, dState, release]
    all_goals (try grind)
    · intro hd hch
      have h1 : s.lateW = false := by
        cases hl : s.lateW with
        | false => rfl
        | true => have := i12 hd hl; simp at this
      have h2 : s.nP - 1 = 0 := by simpa using hch
      have h3 := hgone hd
      rw [h3] at aP
      simp only [incP, decP, evP, List.length_nil] at aP
      exact ⟨fun _ => ⟨List.eq_nil_of_length_eq_zero (by omega), List.eq_nil_of_length_eq_zero (by omega)⟩, fun _ => h1⟩
    · intro hd hch
      have h3 := hgone hd
      rw [h3] at aP
      simp only [incP, decP, evP, List.length_nil] at aP
      rcases hch with h | ⟨v, hv, h⟩
      · cases h
      · cases h; omega
  · -- chk
    rename_i v hp
    rw [hp] at aF aP ds i11 i12 i13 wl
    simp only [hp] at pt bx
    simp only [tokW, evW, decW] at aF aP pt bx
    split at h <;> simp only [Option.some.injEq, reduceCtorEq] at h <;> subst h
    all_goals refine { I with acctF := ?_, acctP := ?_, part := ?_, box := ?_, dst := ?_, wleft := ?_, lossW := ?_, getW := ?_, lateWb := ?_ } <;>
      dsimp only [tokW, evW, decW, dState, release]
    all_goals (try grind)
    rename_i hnv
    intro hd _
    refine i13 hd (.inr ⟨v, ?_, rfl⟩)
    rintro rfl
    exact hnv ⟨hterm hd (by simp [hp]), rfl⟩
  · -- get
    rename_i hp
    rw [hp] at aF aP ds i11 i12 i13 wl
    simp only [hp] at pt bx
    simp only [tokW, evW, decW] at aF aP pt bx
    split at h <;> simp only [Option.some.injEq, reduceCtorEq] at h
    subst h
    refine { I with acctF := ?_, acctP := ?_, part := ?_, box := ?_, dst := ?_, wleft := ?_, lossW := ?_, getW := ?_, lateWb := ?_ } <;>
      dsimp only [tokW, evW, decW, dState, release]
    all_goals (try grind)
  · -- inc
    rename_i es hp
    rw [hp] at aF aP ds i11 i12 i13 wl
    simp only [hp] at pt bx
    simp only [tokW, evW, decW] at aF aP pt bx
    simp only [Option.some.injEq, reduceCtorEq] at h
    subst h
    refine { I with acctF := ?_, acctP := ?_, part := ?_, box := ?_, dst := ?_, wleft := ?_, lossW := ?_, getW := ?_, lateWb := ?_ } <;>
      dsimp only [tokW, evW, decW, dState, release]
    all_goals (try grind)
  · -- hRel nil
    rename_i hp
    rw [hp] at aF aP ds i11 i12 i13 wl
    simp only [hp] at pt bx
    simp only [tokW, evW, decW] at aF aP pt bx
    simp only [Option.some.injEq, reduceCtorEq] at h
    subst h
    refine { I with acctF := ?_, acctP := ?_, part := ?_, box := ?_, dst := ?_, wleft := ?_, lossW := ?_, getW := ?_, lateWb := ?_ } <;>
      dsimp only [tokW, evW, decW, dState, release]
    all_goals (try grind)
  · -- hRel cons
    rename_i e es hp
    rw [hp] at aF aP ds i11 i12 i13 wl
    simp only [hp] at pt bx
    simp only [tokW, evW, decW] at aF aP pt bx
    simp only [Option.some.injEq, reduceCtorEq] at h
    subst h
    refine { I with acctF := ?_, acctP := ?_, part := ?_, box := ?_, dst := ?_, wleft := ?_, lossW := ?_, getW := ?_, lateWb := ?_ } <;>
      dsimp only [tokW, evW, decW, dState, release]
    all_goals (try grind)
  · -- hDec
    rename_i es hp
    rw [hp] at aF aP ds i11 i12 i13 wl
    simp only [hp] at pt bx
    simp only [tokW, evW, decW] at aF aP pt bx
    split at h <;> simp only [Option.some.injEq, reduceCtorEq] at h
    subst h
    refine { I with acctF := ?_, acctP := ?_, part := ?_, box := ?_, dst := ?_, wleft := ?_, lossW := ?_, getW := ?_, lateWb := ?_ } <;>
      dsimp only [tokW, evW, decW, dState, release]
    all_goals (try grind)
  · -- leave
    rename_i hp
    rw [hp] at aF aP ds i11 i12 i13 wl
    simp only [hp] at pt bx
    simp only [tokW, evW, decW] at aF aP pt bx
    simp only [Option.some.injEq, reduceCtorEq] at h
    subst h
    refine { I with acctF := ?_, acctP := ?_, part := ?_, box := ?_, dst := ?_, wleft := ?_, lossW := ?_, getW := ?_, lateWb := ?_ } <;>
      dsimp only [tokW, evW, decW, dState, release]
    all_goals (try grind)
  · simp at h

end Stxxl.LinuxAio
