/-!
# The disk request queue with separate write and read queues, as interleaved threads

`/repo/lib/io/request_queue_impl_qwqr.cpp:43-225`, `/repo/lib/io/request_queue_impl_worker.cpp:32-85` (`start_thread`,
`stop_thread`), `/repo/include/stxxl/bits/common/semaphore.h:35-60`.

Any number of user threads call `add_request` and `cancel_request`, one thread runs the destructor, one thread is the worker.
One step of the model is one critical section, or one semaphore operation, of one thread. A critical section in which nothing
can block is one step, possible when its mutex is free; the one critical section in which the code can block
(`cancel_request`: `m_sem--` while holding the mutex) is two steps, and the mutex is held in between.

Simplifications: a request is an identity and a type (file and offset only select a warning text); `serve()` is one step
(the file system call and `completed()`), I/O errors are reported there and do not change the queue; the log fields
(`pushed`, `served`, `cancelled`, `obs`) are history variables, no step reads them. `m_priority_op` is `WRITE`, which is what
the constructor of the class fixes (`request_queue_impl_qwqr.h:33-36`).
-/

namespace Stxxl.ReqQueue

/-- A request: who it is and whether it writes (`request.h:41-100`, `request_interface.h:55`). -/
structure Req where
  id : Nat
  isWrite : Bool
deriving DecidableEq, Repr

/-- Where a user thread is. -/
inductive UPc where
  /-- not inside a call -/
  | idle
  /-- `add_request`: the state was `RUNNING`; next is the look at the other queue (`qwqr.cpp:61-72, 78-89`) -/
  | addLook (r : Req)
  /-- `add_request`: next is lock, `push_back`, unlock (`:73-74, 90-91`) -/
  | addPush (r : Req)
  /-- `add_request`: next is `m_sem++` (`:94`) -/
  | addPost (r : Req)
  /-- `cancel_request`: next is lock and `find` (`:109-112, 122-125`) -/
  | canFind (r : Req)
  /-- `cancel_request`: the request has been erased, the mutex is held, next is `m_sem--` and unlock (`:117, 130`) -/
  | canWait (r : Req)
deriving DecidableEq, Repr

/-- Where the worker is (`qwqr.cpp:143-212`). -/
inductive WPc where
  /-- next is `m_sem--` (`:150`) -/
  | top
  /-- next is lock and look at the front of the queue of this phase (`:154-159, 178-183`) -/
  | look
  /-- a request was popped; next is `serve()` (`:163, 188`) -/
  | serve (r : Req)
  /-- the queue was empty; next is `m_sem++` and the phase change (`:169-172, 195-198`) -/
  | back
  /-- next is reading the thread state (`:206`) -/
  | chk
  /-- next is `m_sem--` of the termination test (`:207`) -/
  | chkDec
  /-- next is `m_sem++` of the termination test (`:210`) -/
  | chkInc
  /-- left the loop; next is `set_to(TERMINATED)` (`:214`) -/
  | leave
  | gone
deriving DecidableEq, Repr

/-- `thread_state` (`request_queue_impl_worker.h:36`); `NOT_RUNNING` here is the state after the destructor. -/
inductive TS where
  | running | terminating | terminated | notRunning
deriving DecidableEq, Repr

/-- Where the destructor is (`request_queue_impl_worker.cpp:50-85`): not called, `TERMINATING` set, `sem++` done (in `join`),
returned. -/
inductive DPc where
  | no | set | posted | joined
deriving DecidableEq, Repr

/-- What the worker saw in its critical sections. -/
inductive Obs where
  | pop (r : Req)
  | empty (isWrite : Bool)
deriving DecidableEq, Repr

/-- Function update. -/
def upd {β : Type} (f : Bool → β) (k : Bool) (v : β) : Bool → β := fun x => if x = k then v else f x

/-- The shared state. `q true` is `m_write_queue`, `q false` is `m_read_queue`, `own k` the holder of the mutex of queue `k`
(a user thread; the other critical sections are single steps), `phase` is `write_phase`. -/
structure St where
  users : List UPc
  q : Bool → List Req
  own : Bool → Option Nat
  sem : Nat
  ts : TS
  dtor : DPc
  wpc : WPc
  phase : Bool
  /-- requests in the order in which they entered the queues -/
  pushed : List Req
  /-- requests served, in order of completion -/
  served : List Req
  /-- requests for which `cancel_request` returned (or is about to return) `true` -/
  cancelled : List Req
  /-- what the worker saw -/
  obs : List Obs

/-- After the constructor (`:43-48`), with `n` user threads. -/
def init (n : Nat) : St :=
  { users := List.replicate n .idle, q := fun _ => [], own := fun _ => none, sem := 0, ts := .running, dtor := .no,
    wpc := .top, phase := true, pushed := [], served := [], cancelled := [], obs := [] }

/-- Next step of the worker thread, `none` when it is blocked or gone (`qwqr.cpp:143-225`). -/
def wstep (s : St) : Option St :=
  match s.wpc with
  | .top => if 0 < s.sem then some { s with sem := s.sem - 1, wpc := .look } else none
  | .look =>
    if s.own s.phase = none then
      match s.q s.phase with
      | r :: rest =>
        some { s with q := upd s.q s.phase rest, wpc := .serve r, obs := s.obs ++ [.pop r], phase := true }
      | [] => some { s with wpc := .back, obs := s.obs ++ [.empty s.phase] }
    else none
  | .serve r => some { s with wpc := .chk, served := s.served ++ [r] }
  | .back => some { s with sem := s.sem + 1, wpc := .chk, phase := !s.phase }
  | .chk => if s.ts = .terminating then some { s with wpc := .chkDec } else some { s with wpc := .top }
  | .chkDec =>
    if 0 < s.sem then
      some { s with sem := s.sem - 1, wpc := if s.sem - 1 = 0 then .leave else .chkInc }
    else none
  | .chkInc => some { s with sem := s.sem + 1, wpc := .top }
  | .leave => some { s with ts := .terminated, wpc := .gone }
  | .gone => none

/-- Next step of user thread `i` inside a call, `none` when it is blocked or idle (`qwqr.cpp:50-133`). -/
def ustep (s : St) (i : Nat) : Option St :=
  match s.users[i]? with
  | some (.addLook r) =>
    if s.own (!r.isWrite) = none then some { s with users := s.users.set i (.addPush r) } else none
  | some (.addPush r) =>
    if s.own r.isWrite = none then
      some { s with users := s.users.set i (.addPost r), q := upd s.q r.isWrite (s.q r.isWrite ++ [r]),
                    pushed := s.pushed ++ [r] }
    else none
  | some (.addPost _) => some { s with users := s.users.set i .idle, sem := s.sem + 1 }
  | some (.canFind r) =>
    if s.own r.isWrite = none then
      if r ∈ s.q r.isWrite then
        some { s with users := s.users.set i (.canWait r), q := upd s.q r.isWrite ((s.q r.isWrite).erase r),
                      own := upd s.own r.isWrite (some i), cancelled := s.cancelled ++ [r] }
      else some { s with users := s.users.set i .idle }
    else none
  | some (.canWait r) =>
    if 0 < s.sem then
      some { s with users := s.users.set i .idle, sem := s.sem - 1, own := upd s.own r.isWrite none }
    else none
  | _ => none

/-- Next step of the destructor after it was called (`request_queue_impl_worker.cpp:50-85`): `sem++`, then `join`. -/
def dstep (s : St) : Option St :=
  match s.dtor with
  | .set => some { s with sem := s.sem + 1, dtor := .posted }
  | .posted => if s.wpc = .gone then some { s with ts := .notRunning, dtor := .joined } else none
  | _ => none

/-- The request is new: it was never submitted, and no thread is about to submit it (a request object is submitted once, by
the `aread`/`awrite` that made it: `disk_queued_file.cpp:25-55`). -/
def Fresh (s : St) (r : Req) : Prop :=
  r ∉ s.pushed ∧ .addLook r ∉ s.users ∧ .addPush r ∉ s.users

/-- A step of the system. `add` and `cancel` begin a call (with the state `RUNNING`; otherwise the code throws, no step);
`cancel` may name any request that was ever submitted. `stop` begins the destructor: as for any C++ object, no call is active
then. -/
inductive Step : St → St → Prop where
  | add (s : St) (i : Nat) (r : Req) (hi : s.users[i]? = some .idle) (hr : s.ts = .running) (hf : Fresh s r) :
      Step s { s with users := s.users.set i (.addLook r) }
  | cancel (s : St) (i : Nat) (r : Req) (hi : s.users[i]? = some .idle) (hr : s.ts = .running) :
      Step s { s with users := s.users.set i (.canFind r) }
  | user (s s' : St) (i : Nat) (h : ustep s i = some s') : Step s s'
  | worker (s s' : St) (h : wstep s = some s') : Step s s'
  | stop (s : St) (hi : ∀ u ∈ s.users, u = .idle) (hd : s.dtor = .no) :
      Step s { s with ts := .terminating, dtor := .set }
  | dtor (s s' : St) (h : dstep s = some s') : Step s s'

/-- Everything that can happen to a queue used by `n` user threads. -/
inductive Reach (n : Nat) : St → Prop where
  | init : Reach n (init n)
  | step {s s' : St} (h : Reach n s) (st : Step s s') : Reach n s'

end Stxxl.ReqQueue
