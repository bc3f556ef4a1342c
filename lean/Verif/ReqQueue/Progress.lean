import Verif.ReqQueue.Steps

/-! # What the worker does alone, and the two bad runs -/

namespace Stxxl.ReqQueue

/-- A run of the worker thread alone. -/
inductive WRun : St → St → Prop where
  | refl (s : St) : WRun s s
  | step {s t u : St} (h : wstep s = some t) (r : WRun t u) : WRun s u

theorem WRun.trans {s t u : St} (h : WRun s t) (h' : WRun t u) : WRun s u := by
  induction h with
  | refl => exact h'
  | step hs _ ih => exact .step hs (ih h')

theorem WRun.reach {n : Nat} {s t : St} (h : WRun s t) (hr : Reach n s) : Reach n t := by
  induction h with
  | refl => exact hr
  | step hs _ ih => exact ih (hr.step (.worker _ _ hs))

/-- The worker never touches the user threads, their logs, or the destructor. -/
theorem wstep_frame {s t : St} (h : wstep s = some t) :
    t.users = s.users ∧ t.dtor = s.dtor ∧ t.pushed = s.pushed ∧ t.cancelled = s.cancelled ∧ t.own = s.own := by
  unfold wstep at h
  split at h
  · split at h <;> simp only [Option.some.injEq, reduceCtorEq] at h; subst h; simp
  · split at h
    · split at h <;> simp only [Option.some.injEq] at h <;> subst h <;> simp
    · simp at h
  · simp only [Option.some.injEq] at h; subst h; simp
  · simp only [Option.some.injEq] at h; subst h; simp
  · split at h <;> simp only [Option.some.injEq] at h <;> subst h <;> simp
  · split at h <;> simp only [Option.some.injEq, reduceCtorEq] at h; subst h; simp
  · simp only [Option.some.injEq] at h; subst h; simp
  · simp only [Option.some.injEq] at h; subst h; simp
  · simp at h

theorem WRun.frame {s t : St} (h : WRun s t) :
    t.users = s.users ∧ t.dtor = s.dtor ∧ t.pushed = s.pushed ∧ t.cancelled = s.cancelled := by
  induction h with
  | refl => exact ⟨rfl, rfl, rfl, rfl⟩
  | step hs _ ih =>
    obtain ⟨a, b, c, d, _⟩ := wstep_frame hs
    obtain ⟨a', b', c', d'⟩ := ih
    exact ⟨a'.trans a, b'.trans b, c'.trans c, d'.trans d⟩

theorem own_none {n : Nat} {s : St} (I : Inv n s) (hi : ∀ u ∈ s.users, u = .idle) (k : Bool) : s.own k = none := by
  cases h : s.own k with
  | none => rfl
  | some i =>
    obtain ⟨r, hr, _⟩ := I.own1 k i h
    have := hi _ (List.mem_of_getElem? hr)
    cases this

def qlen (s : St) : Nat := (s.q true).length + (s.q false).length

theorem sem_idle {n : Nat} {s : St} (I : Inv n s) (hi : ∀ u ∈ s.users, u = .idle) :
    s.sem + tok s.wpc = qlen s + dtok s.dtor := by
  have := I.acct
  rw [countP_idle (p := isPost) rfl hi, countP_idle (p := isWait) rfl hi] at this
  simp only [qlen]; omega

/-- From `top` with something in a queue, the worker alone gets to `chk` with one request fewer. -/
theorem round {n : Nat} {s : St} (hr : Reach n s) (hi : ∀ u ∈ s.users, u = .idle) (hnt : s.dtor = .no ∨ s.dtor = .posted)
    (hw : s.wpc = .top) (hq : 0 < qlen s) :
    ∃ t, WRun s t ∧ t.wpc = .chk ∧ qlen t + 1 = qlen s := by
  -- one attempt succeeds when the queue of the phase is not empty
  have one : ∀ s : St, Reach n s → (∀ u ∈ s.users, u = .idle) → s.wpc = .top → s.q s.phase ≠ [] →
      ∃ t, WRun s t ∧ t.wpc = .chk ∧ qlen t + 1 = qlen s := by
    intro s hr hi hw hne
    have I := reach_inv hr
    have hs := sem_idle I hi
    cases hqp : s.q s.phase with
    | nil => exact absurd hqp hne
    | cons r rest =>
      have hql : 0 < qlen s := by
        unfold qlen; cases hp : s.phase <;> rw [hp] at hqp <;> rw [hqp] <;> simp <;> omega
      rw [hw] at hs; simp only [tok] at hs
      refine ⟨_, .step (t := { s with sem := s.sem - 1, wpc := .look }) ?_ (.step
        (t := { s with sem := s.sem - 1, wpc := .serve r, q := upd s.q s.phase rest, obs := s.obs ++ [.pop r], phase := true }) ?_ (.step
        (t := { s with sem := s.sem - 1, wpc := .chk, q := upd s.q s.phase rest, obs := s.obs ++ [.pop r], phase := true, served := s.served ++ [r] }) ?_ (.refl _))), rfl, ?_⟩
      · unfold wstep; rw [hw]; dsimp only; rw [if_pos (by omega)]
      · unfold wstep; dsimp only; rw [if_pos (own_none I hi _), hqp]
      · rfl
      · unfold qlen; dsimp only
        cases hp : s.phase <;> rw [hp] at hqp <;> simp [upd, hqp] <;> omega
  by_cases hne : s.q s.phase = []
  swap
  · exact one s hr hi hw hne
  have I := reach_inv hr
  have hs := sem_idle I hi
  rw [hw] at hs; simp only [tok] at hs
  rcases hnt with hd | hd
  · -- running: go round once with an empty queue, the phase changes
    have hts := I.dts.mp hd
    let t : St := { s with wpc := .top, obs := s.obs ++ [.empty s.phase], phase := !s.phase }
    have hrun : WRun s t := by
      refine .step (t := { s with sem := s.sem - 1, wpc := .look }) ?_ (.step
        (t := { s with sem := s.sem - 1, wpc := .back, obs := s.obs ++ [.empty s.phase] }) ?_ (.step
        (t := { s with sem := s.sem, wpc := .chk, obs := s.obs ++ [.empty s.phase], phase := !s.phase }) ?_ (.step ?_ (.refl _))))
      · unfold wstep; rw [hw]; dsimp only; rw [if_pos (by omega)]
      · unfold wstep; dsimp only; rw [if_pos (own_none I hi _), hne]
      · unfold wstep; dsimp only
        rw [show s.sem - 1 + 1 = s.sem by omega]
      · unfold wstep; dsimp only; rw [if_neg (by rw [hts]; simp)]
    have htne : t.q t.phase ≠ [] := by
      intro h
      have h : s.q (!s.phase) = [] := h
      unfold qlen at hq
      cases hp : s.phase <;> rw [hp] at hne h <;> simp_all
    obtain ⟨u, hu1, hu2, hu3⟩ := one t (hrun.reach hr) hi rfl htne
    exact ⟨u, hrun.trans hu1, hu2, hu3⟩
  · -- terminating: the same, through the termination test
    have hnr : s.ts = .terminating := by
      have h1 : s.ts ≠ .running := fun h => by have := I.dts.mpr h; rw [hd] at this; cases this
      have h2 : s.ts ≠ .terminated := fun h => by have := I.dterm h; rw [hw] at this; cases this
      have h3 : s.ts ≠ .notRunning := by
        intro h
        have := I.dnr h
        rw [hd] at this; cases this
      cases h : s.ts <;> simp_all
    rw [hd] at hs; simp only [dtok] at hs
    let t : St := { s with wpc := .top, obs := s.obs ++ [.empty s.phase], phase := !s.phase }
    have hrun : WRun s t := by
      refine .step (t := { s with sem := s.sem - 1, wpc := .look }) ?_ (.step
        (t := { s with sem := s.sem - 1, wpc := .back, obs := s.obs ++ [.empty s.phase] }) ?_ (.step
        (t := { s with sem := s.sem, wpc := .chk, obs := s.obs ++ [.empty s.phase], phase := !s.phase }) ?_ (.step
        (t := { s with sem := s.sem, wpc := .chkDec, obs := s.obs ++ [.empty s.phase], phase := !s.phase }) ?_ (.step
        (t := { s with sem := s.sem - 1, wpc := .chkInc, obs := s.obs ++ [.empty s.phase], phase := !s.phase }) ?_ (.step ?_ (.refl _))))))
      · unfold wstep; rw [hw]; dsimp only; rw [if_pos (by omega)]
      · unfold wstep; dsimp only; rw [if_pos (own_none I hi _), hne]
      · unfold wstep; dsimp only
        rw [show s.sem - 1 + 1 = s.sem by omega]
      · unfold wstep; dsimp only; rw [if_pos hnr]
      · unfold wstep; dsimp only; rw [if_pos (by omega), if_neg (by omega)]
      · unfold wstep; dsimp only
        rw [show s.sem - 1 + 1 = s.sem by omega]
    have htne : t.q t.phase ≠ [] := by
      intro h
      have h : s.q (!s.phase) = [] := h
      unfold qlen at hq
      cases hp : s.phase <;> rw [hp] at hne h <;> simp_all
    obtain ⟨u, hu1, hu2, hu3⟩ := one t (hrun.reach hr) hi rfl htne
    exact ⟨u, hrun.trans hu1, hu2, hu3⟩

end Stxxl.ReqQueue
