/-!
# Model of the synchronisation primitives

`include/stxxl/bits/common/semaphore.h`, `state.h`, `onoff_switch.h`, each as a transition system of any number of threads.
Every function locks the mutex of the object, works on the value, and unlocks it, so what it does between locking (or being woken up,
which includes locking again) and unlocking (or going to sleep, which unlocks) is one step. `notify_one`/`notify_all` is called after
unlocking and is a separate step; between the two other threads may run. `notify_one` wakes some sleeping thread, if there is one; the
scheduler chooses which. A condition variable may wake up a sleeping thread spuriously at any time.

Simplification: `int v` of the semaphore is an integer without overflow.
-/
namespace Stxxl.Sync

/-! ### `semaphore` (semaphore.h:23-68) -/

/-- Where a thread is. -/
inductive SPc where
  /-- outside -/
  | idle
  /-- in `operator++`, before `m_cond.notify_one()` (line 46) -/
  | notify
  /-- in `m_cond.wait(lock)` (line 55) -/
  | sleeping
  /-- woken up, before the test of the loop (line 54) -/
  | woken
deriving DecidableEq

/-- Completed changes of the value, with the value returned. -/
inductive SEv where
  | up (r : Int)
  | down (r : Int)
  | dec (r : Int)
deriving DecidableEq

structure Sem where
  v : Int
  th : List SPc
  log : List SEv

inductive SAct where
  /-- call `operator++` -/
  | up
  /-- call `operator--` -/
  | down
  /-- call `decrement` -/
  | decrement
  /-- a woken thread tests the condition again -/
  | go
  /-- `notify_one`, which wakes the given thread, or finds none -/
  | notify (w : Option Nat)
  /-- spurious wake-up -/
  | spurious
deriving DecidableEq

/-- The critical section of `operator--` (lines 51-58). -/
def Sem.tryDown (s : Sem) (t : Nat) : Sem :=
  if s.v ≤ 0 then { s with th := s.th.set t .sleeping }
  else { v := s.v - 1, th := s.th.set t .idle, log := .down (s.v - 1) :: s.log }

/-- One step of thread `t`; `none`: not possible now. -/
def Sem.step (s : Sem) (t : Nat) (a : SAct) : Option Sem :=
  match s.th[t]?, a with
  -- lines 41-48
  | some .idle, .up => some { v := s.v + 1, th := s.th.set t .notify, log := .up (s.v + 1) :: s.log }
  | some .idle, .down => some (s.tryDown t)
  -- lines 64-68
  | some .idle, .decrement => some { v := s.v - 1, th := s.th, log := .dec (s.v - 1) :: s.log }
  | some .woken, .go => some (s.tryDown t)
  | some .notify, .notify none => if SPc.sleeping ∈ s.th then none else some { s with th := s.th.set t .idle }
  | some .notify, .notify (some w) =>
    if s.th[w]? = some .sleeping then some { s with th := (s.th.set w .woken).set t .idle } else none
  | some .sleeping, .spurious => some { s with th := s.th.set t .woken }
  | _, _ => none

/-- A run: which thread does what. -/
def Sem.run (s : Sem) : List (Nat × SAct) → Option Sem
  | [] => some s
  | (t, a) :: as =>
    match s.step t a with
    | none => none
    | some s => s.run as

/-- `semaphore(init_value)` (lines 36-38), shared by `n` threads. -/
def Sem.start (init : Int) (n : Nat) : Sem := ⟨init, List.replicate n .idle, []⟩

/-! ### `state<ValueType>` (state.h:25-63) -/

inductive TPc (V : Type) where
  | idle
  /-- in `set_to`, before `m_cond.notify_all()` (line 48) -/
  | notify
  /-- in `wait_for(needed_state)`, asleep (line 55) -/
  | sleeping (need : V)
  /-- woken up, before the test (line 54) -/
  | woken (need : V)
deriving DecidableEq

inductive TEv (V : Type) where
  /-- `set_to(x)` -/
  | set (x : V)
  /-- `wait_for(need)` has returned, when the state was `cur` -/
  | waited (need cur : V)
  /-- `operator()` has returned `x` -/
  | read (x : V)
deriving DecidableEq

structure St (V : Type) where
  v : V
  th : List (TPc V)
  log : List (TEv V)

inductive TAct (V : Type) where
  | set (x : V)
  | wait (need : V)
  | read
  | go
  | notify
  | spurious
deriving DecidableEq

/-- `notify_all`: every sleeping thread is woken. -/
def TPc.wake {V : Type} : TPc V → TPc V
  | .sleeping x => .woken x
  | p => p

variable {V : Type} [DecidableEq V]

/-- The critical section of `wait_for` (lines 51-56). -/
def St.tryWait (s : St V) (t : Nat) (need : V) : St V :=
  if need ≠ s.v then { s with th := s.th.set t (.sleeping need) }
  else { s with th := s.th.set t .idle, log := .waited need s.v :: s.log }

def St.step (s : St V) (t : Nat) (a : TAct V) : Option (St V) :=
  match s.th[t]?, a with
  -- lines 43-49
  | some .idle, .set x => some { v := x, th := s.th.set t .notify, log := .set x :: s.log }
  | some .idle, .wait x => some (s.tryWait t x)
  -- lines 58-62
  | some .idle, .read => some { s with log := .read s.v :: s.log }
  | some (.woken x), .go => some (s.tryWait t x)
  | some .notify, .notify => some { s with th := (s.th.set t .idle).map TPc.wake }
  | some (.sleeping x), .spurious => some { s with th := s.th.set t (.woken x) }
  | _, _ => none

def St.run (s : St V) : List (Nat × TAct V) → Option (St V)
  | [] => some s
  | (t, a) :: as =>
    match s.step t a with
    | none => none
    | some s => s.run as

def St.start (x : V) (n : Nat) : St V := ⟨x, List.replicate n .idle, []⟩

/-! ### `onoff_switch` (onoff_switch.h:28-80) -/

inductive OPc where
  | idle
  /-- in `on()` or `off()`, before `m_cond.notify_one()` (lines 50, 58) -/
  | notify
  /-- asleep in `wait_for_on()` (`true`, line 65) or `wait_for_off()` (`false`, line 72) -/
  | sleeping (need : Bool)
  /-- woken up -/
  | woken (need : Bool)
deriving DecidableEq

inductive OEv where
  /-- `wait_for_on()` (`true`) or `wait_for_off()` (`false`) has returned, when the switch was `cur` -/
  | waited (need cur : Bool)
deriving DecidableEq

structure Switch where
  isOn : Bool
  th : List OPc
  log : List OEv
deriving DecidableEq

inductive OAct where
  /-- `on()` (`true`) or `off()` (`false`) -/
  | turn (x : Bool)
  /-- `wait_for_on()` (`true`) or `wait_for_off()` (`false`) -/
  | wait (need : Bool)
  | go
  | notify (w : Option Nat)
  | spurious
deriving DecidableEq

/-- Is the thread asleep? -/
def OPc.asleep : OPc → Bool
  | .sleeping _ => true
  | _ => false

/-- The thread after being woken up. -/
def OPc.wake : OPc → OPc
  | .sleeping x => .woken x
  | p => p

/-- The condition is tested once, with `if` (lines 64, 71): a thread that was woken up returns whatever the switch is. -/
def Switch.step (s : Switch) (t : Nat) (a : OAct) : Option Switch :=
  match s.th[t]?, a with
  | some .idle, .turn x => some { s with isOn := x, th := s.th.set t .notify }
  | some .idle, .wait x =>
    if x ≠ s.isOn then some { s with th := s.th.set t (.sleeping x) }
    else some { s with log := .waited x s.isOn :: s.log }
  | some (.woken x), .go => some { s with th := s.th.set t .idle, log := .waited x s.isOn :: s.log }
  | some .notify, .notify none => if s.th.any OPc.asleep then none else some { s with th := s.th.set t .idle }
  | some .notify, .notify (some w) =>
    match s.th[w]? with
    | some (.sleeping x) => some { s with th := (s.th.set w (.woken x)).set t .idle }
    | _ => none
  | some (.sleeping x), .spurious => some { s with th := s.th.set t (.woken x) }
  | _, _ => none

def Switch.run (s : Switch) : List (Nat × OAct) → Option Switch
  | [] => some s
  | (t, a) :: as =>
    match s.step t a with
    | none => none
    | some s => s.run as

def Switch.start (x : Bool) (n : Nat) : Switch := ⟨x, List.replicate n .idle, []⟩

end Stxxl.Sync
