import Verif.Request.Progress

/-!
# C45: requests under every interleaving

`Reach n nw spur s`: `s` is a state of `n` threads, `nw` of them workers, after any interleaving of any calls
(`aread`/`awrite`, `wait`, `poll`, `cancel`, `wait_any`) on any number of requests, with any outcome of the transfers.
`spur`: condition variables may wake up spuriously.
-/

namespace Stxxl.Request

/-- At every moment the life of every request is the beginning of: submitted, taken by a worker, transferred once, handler
run once, file reference given back once; or of: submitted, cancelled, file reference given back once. -/
theorem C45_life {n nw : Nat} {spur : Bool} {s : St} (h : Reach n nw spur s) (r : Nat) : LifeOk r s.tr := by
  have I := reach_inv h
  by_cases hr : r < s.nr
  · have h2 := (I.req r hr).life
    rcases h2 with h2 | ⟨h2, h3, h4, h5⟩
    · left
      refine ⟨(s.req r).err, ?_⟩
      rw [h2]
      unfold lifeAt servedLife
      simp only [Bool.false_eq_true, if_false]
      split_ifs <;> simp
    · right
      rw [h2]
      unfold lifeAt cancelledLife
      simp only [if_true]
      split_ifs <;> first | omega | simp
  · left
    refine ⟨false, ?_⟩
    rw [(I.fresh r (by omega)).1]
    simp

/-- Everything a caller is told is true when he is told: `wait` returns only when the request has been transferred, its
handler has run and its file reference is back (and throws exactly if the transfer failed), or when it was cancelled; `poll`
says `true` only when the transfer is over or cancelled, throws only if it failed, and says `false` only if the handler had
not run when `poll` was called; `cancel` says `true` only for a request that is never transferred and whose handler never
runs, and `false` only if a worker has taken it or another `cancel` was first; `wait_any` returns the position of a request
that is finished, and throws only if one of its requests failed; only a spurious wake-up can make it return the end of the
sequence. -/
theorem C45_trace {n nw : Nat} {spur : Bool} {s : St} (h : Reach n nw spur s) : TraceOk spur s.tr :=
  (reach_inv h).trOk

/-- No notification is lost and nothing waits for ever: when no thread can go on by itself, all requests are finished
(served or cancelled, with everything that belongs to it) and no thread is inside any call, except `wait_any` of no
requests at all. -/
theorem C45_quiescent {n nw : Nat} {spur : Bool} {s : St} (h : Reach n nw spur s) (hw : 0 < nw) (hn : nw ≤ n)
    (hu : s.ub = none) (hq : ∀ t a s', StepA n spur s t a s' → a.external = true) :
    (∀ r, r < s.nr → (∃ e, hist r s.tr = servedLife e) ∨ hist r s.tr = cancelledLife) ∧
    (∀ t, s.th t = .idle ∨ s.th t = .wIdle ∨ ∃ x, s.th t = .aSleep x []) := by
  have I := reach_inv h
  refine ⟨fun r hr => ?_, quiet_th I hu hq hw hn⟩
  have := quiet_ph I hu hq hw hn r hr
  rcases life_end I hr (by omega) with h1 | ⟨-, h1⟩
  · exact Or.inl ⟨_, h1⟩
  · exact Or.inr h1

/-- And that point is reached: without new calls there is no infinite execution, whatever the scheduler does. -/
theorem C45_terminates {n nw : Nat} {spur : Bool} (f : Nat → St) (h : Reach n nw spur (f 0))
    (hs : ∀ i, ∃ t a, a.external = false ∧ StepA n spur (f i) t a (f (i + 1))) : False := by
  have hr : ∀ i, Reach n nw spur (f i) := by
    intro i
    induction i with
    | zero => exact h
    | succ i ih => obtain ⟨t, a, -, st⟩ := hs i; exact Reach.step ih st
  have hm : ∀ i, measure n (f i) + i ≤ measure n (f 0) := by
    intro i
    induction i with
    | zero => exact Nat.le_refl _
    | succ i ih =>
      obtain ⟨t, a, ha, st⟩ := hs i
      have := measure_step (reach_inv (hr i)) st ha
      omega
  have := hm (measure n (f 0) + 1)
  omega

/-- A switch is never used after the `wait_any` it belongs to has returned, unless some `wait_any` ended by an exception. -/
theorem C45_switch_outlives_its_use {n nw : Nat} {spur : Bool} {s : St} (h : Reach n nw spur s)
    (hx : ∀ t rs, .anyThrow t rs ∉ s.tr) (x : Nat) : s.ub ≠ some (.deadSwitch x) := fun hu => by
  obtain ⟨t, rs, h1⟩ := (reach_inv h).ubDead x hu
  exact hx t rs h1

/-- The null file pointer is dereferenced only by a `cancel` that runs at the same time as the end of the same request. -/
theorem C45_null_file_only_in_cancel {n nw : Nat} {spur : Bool} {s : St} (h : Reach n nw spur s) {t r : Nat}
    (hu : s.ub = some (.nullFile t r)) : s.th t = .cDeref r ∧ .refRel ∈ hist r s.tr := by
  have I := reach_inv h
  obtain ⟨h1, h2⟩ := I.ubNull t r hu
  have hr := I.refs t r (by rw [h1]; simp [Pc.refs])
  refine ⟨h1, ?_⟩
  rcases (I.req r hr).life with h3 | ⟨h3, -⟩
  · rw [h3]; unfold lifeAt
    rw [if_neg (by omega), if_neg (by omega)]
    simp only [Bool.false_eq_true, if_false]
    rw [if_neg (by omega), if_neg (by omega)]
    simp
  · rw [h3]; unfold lifeAt
    rw [if_neg (by omega), if_neg (by omega)]
    simp only [if_true]
    rw [if_neg (by omega)]
    simp

/-! ## Executions -/

/-- Run a list of steps. -/
def runA (n : Nat) (spur : Bool) : St → List (Nat × Act) → Option St
  | s, [] => some s
  | s, (t, a) :: l =>
    if t < n ∧ s.ub = none then
      match step spur s t a with
      | some s' => runA n spur s' l
      | none => none
    else none

theorem runA_reach {n nw : Nat} {spur : Bool} : ∀ (l : List (Nat × Act)) (s s' : St), Reach n nw spur s →
    runA n spur s l = some s' → Reach n nw spur s' := by
  intro l
  induction l with
  | nil => intro s s' h e; simp [runA] at e; subst e; exact h
  | cons a l ih =>
    obtain ⟨t, a⟩ := a
    intro s s' h e
    simp only [runA] at e
    split at e
    · rename_i hc
      split at e
      · rename_i s1 hs
        exact ih s1 s' (Reach.step h ⟨hc.1, hc.2, hs⟩) e
      · simp at e
    · simp at e

/-- The trace and the undefined behaviour after a list of steps from the beginning. -/
def outcome (n nw : Nat) (spur : Bool) (l : List (Nat × Act)) : Option (List Ev × Option Ub) :=
  (runA n spur (init nw) l).map fun s => (s.tr, s.ub)

theorem outcome_reach {n nw : Nat} {spur : Bool} {l : List (Nat × Act)} {o : List Ev × Option Ub}
    (h : outcome n nw spur l = some o) : ∃ s, Reach n nw spur s ∧ s.tr = o.1 ∧ s.ub = o.2 := by
  unfold outcome at h
  obtain ⟨s, h1, h2⟩ := Option.map_eq_some_iff.1 h
  exact ⟨s, runA_reach l _ s Reach.init h1, by rw [← h2], by rw [← h2]⟩

def gos (t k : Nat) : List (Nat × Act) := List.replicate k (t, .go)

/-- A complete run: two requests, a `wait_any` that sleeps and is woken by the worker, a `wait`, a `cancel`. -/
def fullRun : List (Nat × Act) :=
  [(1, .submit), (1, .submit), (2, .callAny [0, 1])] ++ gos 2 8 ++ [(1, .callCancel 1)] ++ gos 1 3 ++
  [(0, .take 0), (0, .io false)] ++ gos 0 6 ++ gos 2 5 ++ gos 0 3 ++ gos 1 6 ++ [(1, .callWait 0)] ++ gos 1 2

example : ∃ s, Reach 3 1 false s ∧ s.ub = none ∧ .anyRet 2 [0, 1] (some 0) ∈ s.tr ∧ .cancelRet 1 1 true ∈ s.tr ∧
    .waitRet 1 0 true ∈ s.tr := by
  obtain ⟨o, ho⟩ : ∃ o, outcome 3 1 false fullRun = some o := Option.isSome_iff_exists.1 (by decide +kernel)
  obtain ⟨s, h1, h2, h3⟩ := outcome_reach ho
  have h4 : ∀ o', outcome 3 1 false fullRun = some o' → o'.2 = none ∧ .anyRet 2 [0, 1] (some 0) ∈ o'.1 ∧
      .cancelRet 1 1 true ∈ o'.1 ∧ .waitRet 1 0 true ∈ o'.1 := by
    have : (outcome 3 1 false fullRun).all (fun o' => o'.2 = none ∧ .anyRet 2 [0, 1] (some 0) ∈ o'.1 ∧
      .cancelRet 1 1 true ∈ o'.1 ∧ .waitRet 1 0 true ∈ o'.1) = true := by decide +kernel
    intro o' e
    rw [e] at this
    simpa using this
  obtain ⟨a, b, c, d⟩ := h4 o ho
  exact ⟨s, h1, by rw [h3]; exact a, by rw [h2]; exact b, by rw [h2]; exact c, by rw [h2]; exact d⟩

/-! ## What the code does wrong -/

/-- A worker finishes request 0 between the two reads of `m_file` in `cancel()`. -/
def cancelRun : List (Nat × Act) :=
  [(1, .submit), (0, .take 0), (0, .io false), (1, .callCancel 0), (1, .go)] ++ gos 0 6 ++ [(1, .go)]

/-- Found: `cancel()` reads `m_file` twice without synchronisation (`request_with_state.cpp:56,59`); if the request ends in
between, it calls a member function of a null pointer. -/
theorem C45_cancel_can_dereference_null : ∃ s, Reach 2 1 false s ∧ s.ub = some (.nullFile 1 0) := by
  have h : outcome 2 1 false cancelRun =
      some ([.refRel 0, .handler 0, .ioEnd 0 false, .taken 0, .submit 0], some (.nullFile 1 0)) := by decide +kernel
  obtain ⟨s, h1, -, h3⟩ := outcome_reach h
  exact ⟨s, h1, h3⟩

/-- `wait_any` of two requests of which the second fails. -/
def throwRun : List (Nat × Act) :=
  [(1, .submit), (1, .submit), (0, .take 1), (0, .io true), (1, .callAny [0, 1])] ++ gos 1 6 ++ gos 0 7 ++
  [(0, .take 0), (0, .io false)] ++ gos 0 4

/-- Found: when `wait_any` throws (`request_operations.h:114`, `request_with_waiters.cpp:32`), its switch stays registered
at the earlier requests; when one of them ends, the worker writes into the stack frame that is gone. -/
theorem C45_wait_any_throw_leaves_dangling_switch :
    ∃ s, Reach 2 1 false s ∧ .anyThrow 1 [0, 1] ∈ s.tr ∧ s.ub = some (.deadSwitch 0) := by
  have h : outcome 2 1 false throwRun =
      some ([.handler 0, .ioEnd 0 false, .taken 0, .refRel 1, .handler 1, .anyThrow 1 [0, 1], .ioEnd 1 true, .taken 1,
        .submit 1, .submit 0], some (.deadSwitch 0)) := by decide +kernel
  obtain ⟨s, h1, h2, h3⟩ := outcome_reach h
  exact ⟨s, h1, by rw [h2]; decide, h3⟩

/-- A spurious wake-up of the sleeping `wait_any`. -/
def spuriousRun : List (Nat × Act) :=
  [(1, .submit), (1, .callAny [0])] ++ gos 1 5 ++ [(1, .spurious)] ++ gos 1 4

/-- Found: `onoff_switch::wait_for_on` waits with `if` instead of `while` (`onoff_switch.h:64-65`): after a spurious wake-up
`wait_any` returns the end of the sequence although no request has finished. -/
theorem C45_wait_any_spurious_wakeup :
    ∃ s, Reach 2 1 true s ∧ s.tr = [.anyRet 1 [0] none, .submit 0] := by
  have h : outcome 2 1 true spuriousRun = some ([.anyRet 1 [0] none, .submit 0], none) := by decide +kernel
  obtain ⟨s, h1, h2, -⟩ := outcome_reach h
  exact ⟨s, h1, h2⟩

/-- `poll` between the end of the transfer and the call of the handler. -/
def pollRun : List (Nat × Act) :=
  [(1, .submit), (0, .take 0), (0, .io false), (0, .go), (1, .callPoll 0), (1, .go), (1, .go)]

/-- Worth knowing: `poll` (and `wait_any`) may report a request as complete before its handler has run; only `wait` waits
for the handler. -/
theorem C45_poll_true_before_handler :
    ∃ s, Reach 2 1 false s ∧
      s.tr = [.pollRet 1 0 (some true), .pollCall 1 0, .ioEnd 0 false, .taken 0, .submit 0] := by
  have h : outcome 2 1 false pollRun =
      some ([.pollRet 1 0 (some true), .pollCall 1 0, .ioEnd 0 false, .taken 0, .submit 0], none) := by decide +kernel
  obtain ⟨s, h1, h2, -⟩ := outcome_reach h
  exact ⟨s, h1, h2⟩

/-- Any number of further steps. -/
inductive Steps (n : Nat) (spur : Bool) : St → St → Prop where
  | refl {s} : Steps n spur s s
  | step {s s' s'' t a} : Steps n spur s s' → StepA n spur s' t a s'' → Steps n spur s s''

/-- Found: `wait_any` of an empty sequence sleeps for ever. -/
theorem C45_wait_any_empty_never_returns {n nw : Nat} {s s' : St} (h : Reach n nw false s) {t x : Nat}
    (ht : s.th t = .aSleep x []) (hs : Steps n false s s') : s'.th t = .aSleep x [] := by
  have : Reach n nw false s' ∧ s'.th t = .aSleep x [] := by
    induction hs with
    | refl => exact ⟨h, ht⟩
    | @step s1 s2 t' a _ st ih =>
      obtain ⟨hr, he⟩ := ih
      refine ⟨Reach.step hr st, ?_⟩
      have I := reach_inv hr
      by_cases e : t = t'
      · subst e
        have hs := st.2.2
        cases a <;> simp [step, he] at hs
      · rcases th_other I st.2.2 t e with h1 | ⟨r, c, y, l, rs, h1, h2, h3⟩
        · rw [h1, he]
        · exfalso
          rw [he] at h2
          injection h2 with h2 h4
          subst h2
          have hw := (I.notifySub t' r c x l h1).1
          have := I.ws1 t r x (by rw [he]; rfl) hw
          rw [he] at this
          simp [Pc.refs] at this
  exact this.2

example : ∃ s, Reach 2 1 false s ∧ s.th 1 = .aSleep 0 [] := by
  refine ⟨_, runA_reach [(1, .callAny []), (1, .go), (1, .go)] (init 1) _ Reach.init rfl, rfl⟩

end Stxxl.Request
