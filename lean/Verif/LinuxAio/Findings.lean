import Verif.LinuxAio.Props

/-!
# C77, C78: what goes wrong in the Linux AIO queue

Reachable states, with the run that leads there, in which the queue does not do what its user relies on.
-/

namespace Stxxl.LinuxAio

/-- Actions, to write runs down. -/
inductive Act where
  | add (i : Nat) (r : Req) | cancel (i : Nat) (r : Req) | u (i : Nat) | p (c : Nat) | w (c : Nat) | k (r : Req) (ok : Bool)
  | stop | d

def act (C : Cfg) (s : St) : Act → Option St
  | .add i r =>
    if s.users[i]? = some .idle ∧ s.dtor = .no ∧ r ∉ s.pushed ∧ .addPush r ∉ s.users then
      some { s with users := s.users.set i (.addPush r) } else none
  | .cancel i r =>
    if s.users[i]? = some .idle ∧ s.dtor = .no then some { s with users := s.users.set i (.canFind r) } else none
  | .u i => ustep s i
  | .p c => pstep C s c
  | .w c => wstep C s c
  | .k r ok => kstep s r ok
  | .stop => if (∀ u ∈ s.users, u = .idle) ∧ s.dtor = .no then some { s with pts := .terminating, dtor := .setP } else none
  | .d => dstep s

theorem act_step {C : Cfg} {s t : St} {a : Act} (h : act C s a = some t) : Step C s t := by
  cases a with
  | add i r =>
    simp only [act] at h
    split at h <;> simp only [Option.some.injEq, reduceCtorEq] at h
    rename_i hc
    subst h
    exact .add s i r hc.1 hc.2.1 hc.2.2
  | cancel i r =>
    simp only [act] at h
    split at h <;> simp only [Option.some.injEq, reduceCtorEq] at h
    rename_i hc
    subst h
    exact .cancel s i r hc.1 hc.2
  | u i => exact .internal _ _ (.user _ _ i h)
  | p c => exact .internal _ _ (.post _ _ c h)
  | w c => exact .internal _ _ (.wait _ _ c h)
  | k r ok => exact .internal _ _ (.os _ _ r ok h)
  | stop =>
    simp only [act] at h
    split at h <;> simp only [Option.some.injEq, reduceCtorEq] at h
    rename_i hc
    subst h
    exact .stop s hc.1 hc.2
  | d => exact .internal _ _ (.dtor _ _ h)

def runActs (C : Cfg) (s : St) : List Act → Option St
  | [] => some s
  | a :: l => (act C s a).bind (runActs C · l)

theorem runActs_reach {C : Cfg} {n : Nat} {s t : St} {l : List Act} (h : Reach C n s) (hr : runActs C s l = some t) :
    Reach C n t := by
  induction l generalizing s with
  | nil => cases hr; exact h
  | cons a l ih =>
    simp only [runActs] at hr
    cases ha : act C s a with
    | none => rw [ha] at hr; cases hr
    | some v => rw [ha] at hr; exact ih (h.step (act_step ha)) hr

inductive Steps (C : Cfg) : St → St → Prop where
  | refl (s : St) : Steps C s s
  | step {s t u : St} (h : Step C s t) (r : Steps C t u) : Steps C s u

/-! ## Cancelling can deadlock the queue -/

structure Dead (i : Nat) (r : Req) (s : St) : Prop where
  ppc : s.ppc = .look
  nW : s.nW = 0
  cw : s.users[i]? = some (.canWait r)
  own : s.own = some i
  own2 : ∀ (j : Nat) (u : UPc), s.users[j]? = some u → isHold u = true → j = i
  dtor : s.dtor = .no

theorem dead_step {C : Cfg} {i : Nat} {r : Req} {s t : St} (D : Dead i r s) (st : Step C s t) :
    Dead i r t ∧ t.posted = s.posted ∧ t.pushed = s.pushed := by
  have key : ∀ (j : Nat) (u v : UPc), s.users[j]? = some u → isHold u = false → isHold v = false →
      Dead i r { s with users := s.users.set j v } := by
    intro j u v hj hu hv
    have hji : j ≠ i := by rintro rfl; rw [D.cw] at hj; cases hj; cases hu
    refine { D with cw := by have := D.cw; grind, own2 := ?_ }
    intro k w hk hh
    rcases get_set hj hk with ⟨_, h⟩ | ⟨_, h⟩
    · rw [h, hv] at hh; cases hh
    · exact D.own2 k w h hh
  cases st with
  | add j q hj _ _ => exact ⟨key j _ _ hj rfl rfl, rfl, rfl⟩
  | cancel j q hj _ => exact ⟨key j _ _ hj rfl rfl, rfl, rfl⟩
  | stop hi _ => exact absurd (hi _ (List.mem_of_getElem? D.cw)) (by simp)
  | internal _ st =>
    cases st with
    | user j h =>
      exfalso
      unfold ustep at h
      split at h
      · simp [D.own] at h
      · rename_i q hj
        have := D.own2 j _ hj rfl
        subst this
        rw [D.cw] at hj; cases hj
      · simp [D.own] at h
      · simp [D.nW] at h
      · simp at h
    | post c h =>
      exfalso
      unfold pstep at h
      rw [D.ppc] at h
      simp [D.own] at h
    | wait c h =>
      unfold wstep at h
      split at h
      · split at h <;> simp only [Option.some.injEq, reduceCtorEq] at h
        subst h; exact ⟨{ D with }, rfl, rfl⟩
      · split at h <;> simp only [Option.some.injEq, reduceCtorEq] at h <;> subst h <;> exact ⟨{ D with }, rfl, rfl⟩
      · split at h <;> simp only [Option.some.injEq, reduceCtorEq] at h
        subst h; exact ⟨{ D with }, rfl, rfl⟩
      · simp only [Option.some.injEq] at h
        subst h; exact ⟨{ D with }, rfl, rfl⟩
      · simp only [Option.some.injEq] at h
        subst h; exact ⟨{ D with }, rfl, rfl⟩
      · simp only [Option.some.injEq] at h
        subst h; exact ⟨{ D with }, rfl, rfl⟩
      · split at h <;> simp only [Option.some.injEq, reduceCtorEq] at h
        subst h; exact ⟨{ D with }, rfl, rfl⟩
      · simp only [Option.some.injEq] at h
        subst h; exact ⟨{ D with }, rfl, rfl⟩
      · simp at h
    | os q ok h =>
      unfold kstep at h
      split at h <;> simp only [Option.some.injEq, reduceCtorEq] at h
      subst h; exact ⟨{ D with }, rfl, rfl⟩
    | dtor h => unfold dstep at h; rw [D.dtor] at h; simp at h

theorem dead_forever {C : Cfg} {i : Nat} {r : Req} {s t : St} (D : Dead i r s) (h : Steps C s t) :
    t.users[i]? = some (.canWait r) ∧ t.posted = s.posted ∧ t.pushed = s.pushed := by
  induction h with
  | refl => exact ⟨D.cw, rfl, rfl⟩
  | step st _ ih =>
    obtain ⟨d, e, f⟩ := dead_step D st
    obtain ⟨a, b, c⟩ := ih d
    exact ⟨a, b.trans e, c.trans f⟩

/-- The configuration used in the runs: two events, a well-behaved operating system. -/
def C2 : Cfg := { max := 2, strict := true }

/-- A request is submitted; the posting thread takes the unit of the semaphore; before it locks the queue, the request is
cancelled. -/
def deadRun : List Act := [.add 0 7, .u 0, .u 0, .p 0, .p 0, .cancel 0 7, .u 0]

/-- **Cancelling can deadlock the queue**: a reachable state in which a `cancel_request` call never returns, whatever happens
next and however the threads are scheduled, and no further request is accepted or posted ("will never block",
`linuxaio_queue.cpp:114`, is false). -/
theorem C77_cancel_can_deadlock :
    ∃ s, Reach C2 2 s ∧ s.users[0]? = some (.canWait 7) ∧
      ∀ t, Steps C2 s t → t.users[0]? = some (.canWait 7) ∧ t.posted = s.posted ∧ t.pushed = s.pushed := by
  cases h : runActs C2 (init C2 2) deadRun with
  | none => exact absurd h (Option.isSome_iff_ne_none.mp (by decide +kernel))
  | some s =>
    have hr : Reach C2 2 s := runActs_reach .init h
    have : ((runActs C2 (init C2 2) deadRun).map (fun s => ((s.ppc, s.nW), (s.users, s.own, s.dtor))))
        = some ((.look, 0), ([.canWait 7, .idle], some 0, .no)) := by decide +kernel
    rw [h] at this
    simp only [Option.map_some, Option.some.injEq, Prod.mk.injEq] at this
    obtain ⟨⟨a, b⟩, c, d, e⟩ := this
    have D : Dead 0 7 s :=
      { ppc := a, nW := b, cw := by rw [c]; rfl, own := d, dtor := e,
        own2 := fun j u hj hh => by have := (reach_inv hr).own2 j u hj hh; rw [d] at this; cases this; rfl }
    exact ⟨s, hr, D.cw, fun t ht => dead_forever D ht⟩

/-! ## A refused submission can deadlock the queue -/

structure Dead2 (r : Req) (s : St) : Prop where
  ppc : s.ppc = .hDec r []
  nP : s.nP = 0
  wpc : s.wpc = .get
  infl : s.inflight = []
  dne : s.done = []
  dtor : s.dtor = .no ∨ s.dtor = .setP ∨ s.dtor = .joinP

theorem dead2_step {C : Cfg} {r : Req} {s t : St} (D : Dead2 r s) (st : Step C s t) :
    Dead2 r t ∧ t.completed = s.completed := by
  cases st with
  | add j q hj _ _ => exact ⟨{ D with }, rfl⟩
  | cancel j q hj _ => exact ⟨{ D with }, rfl⟩
  | stop hi _ => exact ⟨{ D with dtor := .inr (.inl rfl) }, rfl⟩
  | internal _ st =>
    cases st with
    | user j h =>
      unfold ustep at h
      split at h
      · split at h <;> simp only [Option.some.injEq, reduceCtorEq] at h
        subst h; exact ⟨{ D with }, rfl⟩
      · simp only [Option.some.injEq] at h
        subst h; exact ⟨{ D with }, rfl⟩
      · split at h
        · split at h <;> simp only [Option.some.injEq, reduceCtorEq] at h <;> subst h <;> exact ⟨{ D with }, rfl⟩
        · simp at h
      · split at h <;> simp only [Option.some.injEq, reduceCtorEq] at h
        subst h; exact ⟨{ D with }, rfl⟩
      · simp at h
    | post c h =>
      exfalso
      unfold pstep at h
      rw [D.ppc] at h
      simp [D.nP] at h
    | wait c h =>
      exfalso
      unfold wstep at h
      rw [D.wpc] at h
      dsimp only at h
      rw [D.dne] at h
      split at h
      · rename_i hc; simp at hc; omega
      · simp at h
    | os q ok h =>
      exfalso
      unfold kstep at h
      rw [D.infl] at h
      simp at h
    | dtor h =>
      unfold dstep at h
      rcases D.dtor with hd | hd | hd <;> rw [hd] at h
      · simp at h
      · simp only [Option.some.injEq] at h
        subst h
        exact ⟨{ D with dtor := .inr (.inr rfl) }, rfl⟩
      · simp [D.ppc] at h

theorem dead2_forever {C : Cfg} {r : Req} {s t : St} (D : Dead2 r s) (h : Steps C s t) :
    Dead2 r t ∧ t.completed = s.completed := by
  induction h with
  | refl => exact ⟨D, rfl⟩
  | step st _ ih =>
    obtain ⟨d, e⟩ := dead2_step D st
    obtain ⟨a, b⟩ := ih d
    exact ⟨a, b.trans e⟩

/-- An operating system that may refuse a request at any time (`io_submit(2)`: `EAGAIN`, insufficient resources). -/
def C2r : Cfg := { max := 2, strict := false }

/-- Two requests; the first is posted, the waiting thread takes the unit for it and waits for events; the submission of the
second is refused, so the posting thread fetches the event of the first itself. -/
def refuseRun : List Act :=
  [.add 0 1, .u 0, .u 0, .add 0 2, .u 0, .u 0, .p 0, .p 0, .p 0, .p 0, .p 0, .p 0, .w 0, .w 0, .k 1 true,
   .p 0, .p 0, .p 0, .p 0, .p 1, .p 1, .p 0]

/-- **A refused submission can deadlock the queue**: although the operating system refuses only once, the posting thread waits
for ever for a unit that the waiting thread has taken, and the waiting thread waits for ever for an event; request 2 is never
completed and the destructor never returns ("will never block", `linuxaio_queue.cpp:188`, is false). -/
theorem C77_refusal_can_deadlock :
    ∃ s, Reach C2r 1 s ∧ s.refused = [2] ∧ 2 ∈ s.pushed ∧ (∀ u ∈ s.users, u = .idle) ∧
      ∀ t, Steps C2r s t → 2 ∉ t.completed ∧ 2 ∉ t.cancelled ∧ t.dtor ≠ .joined := by
  cases h : runActs C2r (init C2r 1) refuseRun with
  | none => exact absurd h (Option.isSome_iff_ne_none.mp (by decide +kernel))
  | some s =>
    have hr : Reach C2r 1 s := runActs_reach .init h
    have : ((runActs C2r (init C2r 1) refuseRun).map
          (fun s => ((s.ppc, s.wpc, s.nP), (s.inflight, s.done, s.dtor))))
        = some ((.hDec 2 [], .get, 0), ([], [], .no)) := by decide +kernel
    have this2 : ((runActs C2r (init C2r 1) refuseRun).map (fun s => ((s.refused, s.pushed), (s.completed, s.users))))
        = some (([2], [1, 2]), ([1], [.idle])) := by decide +kernel
    rw [h] at this this2
    simp only [Option.map_some, Option.some.injEq, Prod.mk.injEq] at this this2
    obtain ⟨⟨a, b, c⟩, ⟨d, e, f⟩⟩ := this
    obtain ⟨⟨g, i⟩, j, k⟩ := this2
    have D : Dead2 2 s := { ppc := a, nP := c, wpc := b, infl := d, dne := e, dtor := .inl f }
    refine ⟨s, hr, g, by rw [i]; simp, by rw [k]; simp, fun t ht => ?_⟩
    obtain ⟨Dt, hc⟩ := dead2_forever D ht
    have hrt : Reach C2r 1 t := by
      clear D a b c d e f g i j k Dt hc h
      induction ht with
      | refl => exact hr
      | step st _ ih => exact ih (hr.step st)
    refine ⟨by rw [hc, j]; simp, ?_, ?_⟩
    · intro hx
      have h2 := C76_each_request_in_exactly_one_place hrt
      have h3 := List.nodup_iff_count.mp h2.1 2
      have h4 := List.perm_iff_count.mp h2.2 2
      have h5 := List.count_pos_iff.mpr hx
      have h6 : (St.inHands t).count 2 = 1 := by simp [St.inHands, Dt.ppc, Dt.wpc, hand, evP, evW]
      simp only [List.count_append] at h4
      omega
    · intro hx
      have := Dt.dtor
      rw [hx] at this
      simp at this

/-! ## The destructor can lose any number of requests -/

/-- One event, a well-behaved operating system, one user thread: `k + 1` requests were submitted; the posting thread has taken
the unit of the first one and has not yet looked at the thread state. -/
def lossSt (C : Cfg) (k : Nat) : St :=
  { init C 1 with waiting := List.range (k + 1), pushed := List.range (k + 1), nW := k, ppc := .chk 0 }

theorem lossSt_reach (C : Cfg) (k : Nat) : Reach C 1 (lossSt C k) := by
  induction k with
  | zero =>
    have : runActs C (init C 1) [.add 0 0, .u 0, .u 0, .p 0] = some (lossSt C 0) := rfl
    exact runActs_reach .init this
  | succ k ih =>
    have hadd : act C (lossSt C k) (.add 0 (k + 1)) = some { lossSt C k with users := [.addPush (k + 1)] } := by
      simp [act, lossSt, init]
    have h1 : act C { lossSt C k with users := [.addPush (k + 1)] } (.u 0)
        = some { lossSt C k with users := [.addPost (k + 1)], own := some 0, waiting := List.range (k + 2), pushed := List.range (k + 2) } := by
      simp [act, ustep, lossSt, init, List.range_succ]
    have h2 : act C { lossSt C k with users := [.addPost (k + 1)], own := some 0, waiting := List.range (k + 2), pushed := List.range (k + 2) } (.u 0)
        = some (lossSt C (k + 1)) := by
      simp [act, ustep, lossSt, init]
    exact ((ih.step (act_step hadd)).step (act_step h1)).step (act_step h2)

/-- The state after the destructor ran on `lossSt`. -/
def lostSt (C : Cfg) (k : Nat) : St :=
  { lossSt C k with nW := k + 1, ppc := .gone, wpc := .gone, pts := .notRunning, wts := .notRunning, dtor := .joined, lateP := true }

/-- **The destructor can lose any number of requests**, although it is documented to finish what was submitted
(`stop_thread` raises the semaphore so that the thread works the queue off): for every `k` there is a run, with a well-behaved
operating system, after which the destructor has returned and `k + 1` submitted requests were neither completed nor
cancelled. The value that the thread compares with 0 is the one it read before those requests were submitted. -/
theorem C77_shutdown_can_lose_everything (C : Cfg) (k : Nat) :
    ∃ s, Reach C 1 s ∧ s.dtor = .joined ∧ s.pushed.length = k + 1 ∧ s.completed = [] ∧ s.cancelled = [] := by
  have hrun : runActs C (lossSt C k) [.stop, .p 0, .p 0, .d, .d, .d, .d, .w 0, .w 0, .w 0, .d] = some (lostSt C k) := by
    simp [runActs, act, lossSt, init, pstep, dstep, wstep, lostSt]
  exact ⟨lostSt C k, runActs_reach (lossSt_reach C k) hrun, rfl, by simp [lostSt, lossSt], rfl, rfl⟩

/-! ## A refused submission leaks the request -/

/-- As `refuseRun`, but the waiting thread is slower. -/
def leakRun : List Act :=
  [.add 0 1, .u 0, .u 0, .add 0 2, .u 0, .u 0, .p 0, .p 0, .p 0, .p 0, .p 0, .p 0, .k 1 true,
   .p 0, .p 0, .p 0, .p 0, .p 1, .p 1, .p 0, .p 0, .p 0, .p 0, .p 0, .k 2 true,
   .w 0, .w 0, .w 1, .w 0, .w 0, .w 0, .w 0]

/-- **A refused submission leaks the request**: everything is completed, nothing is left with the operating system, both threads
sleep, and a heap object still owns a reference to request 2 (`fill_control_block` makes a new one for every attempt,
`linuxaio_request.cpp:55`, and only the last one is deleted). -/
theorem C76_refusal_leaks :
    ∃ s, Reach C2r 1 s ∧ s.completed = [1, 2] ∧ s.inflight = [] ∧ s.done = [] ∧ s.ppc = .top ∧ s.wpc = .top ∧
      s.boxes = [2] := by
  cases h : runActs C2r (init C2r 1) leakRun with
  | none => exact absurd h (Option.isSome_iff_ne_none.mp (by decide +kernel))
  | some s =>
    have : ((runActs C2r (init C2r 1) leakRun).map
          (fun s => ((s.completed, s.inflight, s.done), (s.ppc, s.wpc, s.boxes))))
        = some (([1, 2], [], []), (.top, .top, [2])) := by decide +kernel
    rw [h] at this
    simp only [Option.map_some, Option.some.injEq, Prod.mk.injEq] at this
    obtain ⟨⟨a, b, c⟩, d, e, f⟩ := this
    exact ⟨s, runActs_reach .init h, a, b, c, d, e, f⟩

/-! ## C78: errors and the size of the queue -/

/-- **A failed transfer is reported as a success**: no request of this queue ever gets an error recorded, so `wait()` throws for
none, ... -/
theorem C78_no_error_is_ever_reported {C : Cfg} {n : Nat} {s : St} (h : Reach C n s) : s.errored = [] := (reach_inv h).errd

/-- ... not even for a completed request whose transfer failed (`io_event::res` is not looked at,
`linuxaio_queue.cpp:179-190`). -/
theorem C78_failed_transfer_unreported :
    ∃ s, Reach C2 1 s ∧ 1 ∈ s.failed ∧ 1 ∈ s.completed ∧ 1 ∉ s.errored := by
  cases h : runActs C2 (init C2 1)
      [.add 0 1, .u 0, .u 0, .p 0, .p 0, .p 0, .p 0, .p 0, .p 0, .k 1 false, .w 0, .w 0, .w 1, .w 0, .w 0] with
  | none => exact absurd h (Option.isSome_iff_ne_none.mp (by decide +kernel))
  | some s =>
    have : ((runActs C2 (init C2 1)
      [.add 0 1, .u 0, .u 0, .p 0, .p 0, .p 0, .p 0, .p 0, .p 0, .k 1 false, .w 0, .w 0, .w 1, .w 0, .w 0]).map
          (fun s => (s.failed, s.completed, s.errored))) = some ([1], [1], []) := by decide +kernel
    rw [h] at this
    simp only [Option.map_some, Option.some.injEq, Prod.mk.injEq] at this
    obtain ⟨a, b, c⟩ := this
    exact ⟨s, runActs_reach .init h, by rw [a]; simp, by rw [b]; simp, by rw [c]; simp⟩

/-- The size asked for is the size of the queue if the operating system grants it. -/
theorem C78_setup_granted {os : Nat → OsAns} {d : Nat} (h : os (if d = 0 then 64 else d) = .ok) :
    setup os d = .ok (if d = 0 then 64 else d) := by
  simp [setup, negotiate, h]

theorem negotiate_fails {os : Nat → OsAns} (hm : ∀ a b, os a ≠ .ok → a ≤ b → os b ≠ .ok) (fuel n : Nat) (h : os n ≠ .ok)
    (m : Nat) : negotiate os fuel n ≠ .ok m := by
  induction fuel generalizing n with
  | zero => simp [negotiate]
  | succ f ih =>
    rw [negotiate]
    split
    · rename_i ho; exact absurd ho h
    · simp
    · split
      · split
        · exact ih (n * 2) (hm n _ h (by omega))
        · simp
      · simp

/-- **The negotiation never succeeds**: if the operating system does not grant the size first asked for, and grants no larger
size than one it refused, the constructor fails, whatever smaller size it would grant (`max_events <<= 1` doubles; the comment
says "try with half as many events", `linuxaio_queue.cpp:53`). -/
theorem C78_setup_never_recovers {os : Nat → OsAns} (hm : ∀ a b, os a ≠ .ok → a ≤ b → os b ≠ .ok) {d : Nat}
    (h : os (if d = 0 then 64 else d) ≠ .ok) (m : Nat) : setup os d ≠ .ok m :=
  negotiate_fails hm 32 _ h m

/-- In particular: an operating system that grants up to 32 events, a queue of the default size, no queue. -/
theorem C78_setup_fails_though_smaller_possible :
    let os : Nat → OsAns := fun n => if n ≤ 32 then .ok else .again
    os 32 = .ok ∧ os 1 = .ok ∧ ∀ m, setup os 0 ≠ .ok m := by
  refine ⟨rfl, rfl, fun m => ?_⟩
  apply C78_setup_never_recovers
  · intro a b ha hab
    simp only [ne_eq] at *
    split at ha
    · simp at ha
    · rw [if_neg (by omega)]; simp
  · simp

/-! ## The theorems of C76 and C77 are about something -/

/-- Two threads, three requests, one cancelled while it waits, two completed, out of order. -/
def goodRun : List Act :=
  [.add 0 1, .u 0, .add 1 2, .u 0, .u 1, .u 1, .add 0 3, .u 0, .u 0, .cancel 1 3, .u 1, .u 1,
   .p 0, .p 0, .p 0, .p 0, .p 0, .p 0, .p 0, .p 0, .p 0, .p 0, .p 0, .p 0, .k 2 true, .w 0, .w 0, .w 1, .w 0, .w 0, .w 0, .w 0,
   .k 1 true, .w 0, .w 0, .w 1, .w 0, .w 0, .w 0, .w 0]

example : (runActs C2 (init C2 2) goodRun).map (fun s => ((s.pushed, s.posted, s.completed), (s.cancelled, s.nF, s.boxes)))
    = some (([1, 2, 3], [1, 2], [2, 1]), ([3], 2, [])) := by decide +kernel

/-- A shutdown that completes everything: the hypotheses of `C77_shutdown_complete_iff_not_late` with both sides true. -/
def goodStop : List Act :=
  [.add 0 1, .u 0, .u 0, .stop, .d, .p 0, .p 0, .p 0, .p 0, .p 0, .p 0, .p 0, .p 0, .p 0, .d, .d, .d, .w 0, .w 0, .k 1 true,
   .w 1, .w 0, .w 0, .w 0, .w 0, .w 0, .w 0, .w 0, .d]

example : (runActs C2 (init C2 1) goodStop).map (fun s => ((s.dtor, s.completed), (s.lateP, s.lateW)))
    = some ((.joined, [1]), (false, false)) := by decide +kernel

end Stxxl.LinuxAio
