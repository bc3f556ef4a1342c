/-!
# The Linux AIO request queue, as interleaved threads

`/repo/lib/io/linuxaio_queue.cpp:34-260`, `/repo/include/stxxl/bits/io/linuxaio_queue.h:30-92`,
`/repo/lib/io/linuxaio_request.cpp:30-126`, `/repo/lib/io/request_queue_impl_worker.cpp:34-85` (`stop_thread`),
`/repo/include/stxxl/bits/common/semaphore.h:35-60`.

Any number of user threads call `add_request` and `cancel_request`, one thread runs the destructor, one thread posts requests
to the operating system, one waits for them, and the operating system finishes requests in any order. One step of the model is
one semaphore operation, one system call, one reading of a thread state or one critical section of one thread; critical
sections in which a semaphore is used are two steps, with the mutex held in between.

Simplifications. A request is an identity (the queue never looks at file, offset or type). `completed()`, `delete r` and
`num_free_events++` of one event are one step (no other thread can tell). Errors other than `EAGAIN` of `io_submit`
and all errors of `io_getevents` throw out of the thread function, which ends the program; they are not modelled. The second
lock of `cancel_request` (`posted_mtx`) guards nothing and is left out. The log fields (`pushed`, `posted`, `completed`,
`cancelled`, `failed`, `refused`, `lateP`, `lateW`) are history variables, no step reads them.
-/

namespace Stxxl.LinuxAio

/-- A request object (`linuxaio_request.h:33-76`). -/
abbrev Req := Nat

/-- Where a user thread is. -/
inductive UPc where
  /-- not inside a call -/
  | idle
  /-- `add_request`: next is lock and `push_back` (`linuxaio_queue.cpp:85-87`) -/
  | addPush (r : Req)
  /-- `add_request`: the mutex is held, next is `num_waiting_requests++` and unlock (`:88-89`) -/
  | addPost (r : Req)
  /-- `cancel_request`: next is lock and `find` (`:102-105`) -/
  | canFind (r : Req)
  /-- `cancel_request`: erased and `completed(false, true)` called, the mutex is held, next is `num_waiting_requests--` and
  unlock (`:106-116`) -/
  | canWait (r : Req)
deriving DecidableEq, Repr

/-- Where the posting thread is (`linuxaio_queue.cpp:125-177`). -/
inductive PPc where
  /-- next is `num_waiting_requests--` (`:133`) -/
  | top
  /-- the semaphore operation returned `v`; next is reading the thread state (`:136`) -/
  | chk (v : Nat)
  /-- next is lock and look at `waiting_requests` (`:139-144`) -/
  | look
  /-- next is `num_waiting_requests++` (`:167-172`) -/
  | back
  /-- `req = r`; next is `num_free_events--` (`:146`) -/
  | free (r : Req)
  /-- next is `post()` (`:149`) -/
  | submit (r : Req)
  /-- `post()` failed; next is `io_getevents` (`:155`) -/
  | reap (r : Req)
  /-- in `handle_events`, these events are left; next is `completed`, `delete`, `num_free_events++` (`:181-187`) -/
  | hRel (r : Req) (es : List Req)
  /-- in `handle_events`; next is `num_posted_requests--` (`:188`) -/
  | hDec (r : Req) (es : List Req)
  /-- posted; next is `num_posted_requests++` (`:165`) -/
  | inc
  /-- left the loop; next is `set_to(TERMINATED)` (`:236`) -/
  | leave
  | gone
deriving DecidableEq, Repr

/-- Where the waiting thread is (`linuxaio_queue.cpp:193-229`). -/
inductive WPc where
  /-- next is `num_posted_requests--` (`:201`) -/
  | top
  /-- the semaphore operation returned `v`; next is reading the thread state (`:204`) -/
  | chk (v : Nat)
  /-- next is `io_getevents` (`:210`); `EINTR` only repeats it (`:211-215`) -/
  | get
  /-- these events were returned; next is `num_posted_requests++` (`:223`) -/
  | inc (es : List Req)
  /-- in `handle_events`, as for the posting thread (`:181-187`) -/
  | hRel (es : List Req)
  /-- in `handle_events` (`:188`) -/
  | hDec (es : List Req)
  /-- left the loop; next is `set_to(TERMINATED)` (`:252`) -/
  | leave
  | gone
deriving DecidableEq, Repr

/-- `thread_state` (`request_queue_impl_worker.h:36`); `NOT_RUNNING` here is the state after `stop_thread`. -/
inductive TS where
  | running | terminating | terminated | notRunning
deriving DecidableEq, Repr

/-- Where the destructor is (`linuxaio_queue.cpp:68-73`, `stop_thread` of the posting thread, then of the waiting thread):
not called; `TERMINATING` set; `sem++` done, in `join`; the same for the waiting thread; returned. -/
inductive DPc where
  | no | setP | joinP | midW | setW | joinW | joined
deriving DecidableEq, Repr

/-- The number of events asked for and granted (`max_events`), and whether the operating system refuses a request (`EAGAIN`)
only when that many are outstanding. -/
structure Cfg where
  max : Nat
  strict : Bool

/-- The shared state. `nW`, `nF`, `nP` are the semaphores `num_waiting_requests`, `num_free_events`, `num_posted_requests`;
`own` is the user thread that holds `waiting_mtx` (the critical section of the posting thread is one step); `inflight` are the
requests the operating system works on, `done` the events it holds ready; `boxes` are the heap objects `new request_ptr(this)`
(`linuxaio_request.cpp:55`) that were not deleted, each owning one reference to its request. -/
structure St where
  users : List UPc
  own : Option Nat
  waiting : List Req
  nW : Nat
  nF : Nat
  nP : Nat
  ppc : PPc
  wpc : WPc
  pts : TS
  wts : TS
  dtor : DPc
  inflight : List Req
  done : List Req
  boxes : List Req
  /-- requests in the order in which they entered the queue -/
  pushed : List Req
  /-- requests accepted by the operating system, in that order -/
  posted : List Req
  /-- requests for which `completed(false)` was called by the queue -/
  completed : List Req
  /-- requests for which `cancel_request` returned (or is about to return) `true` -/
  cancelled : List Req
  /-- requests whose transfer failed (`io_event::res < 0`) -/
  failed : List Req
  /-- requests for which `m_error` is set, so that `wait()` throws (`request.h:71-92`) -/
  errored : List Req
  /-- log of the refused submissions -/
  refused : List Req
  /-- when the destructor raised `num_waiting_requests`, the posting thread had already taken its last unit -/
  lateP : Bool
  /-- when the destructor raised `num_posted_requests`, the waiting thread had already taken its last unit -/
  lateW : Bool

/-- After the constructor (`:34-66`), with `n` user threads. -/
def init (C : Cfg) (n : Nat) : St :=
  { users := List.replicate n .idle, own := none, waiting := [], nW := 0, nF := C.max, nP := 0, ppc := .top, wpc := .top,
    pts := .running, wts := .running, dtor := .no, inflight := [], done := [], boxes := [], pushed := [], posted := [],
    completed := [], cancelled := [], failed := [], errored := [], refused := [], lateP := false, lateW := false }

/-- `handle_events` for one event up to `num_free_events++` (`:179-187`): `completed(canceled)` with `canceled = false`, the
heap object is deleted. `events[e].res` is not looked at. -/
def release (s : St) (e : Req) : St :=
  { s with completed := s.completed ++ [e], boxes := s.boxes.erase e, nF := s.nF + 1 }

/-- Next step of the posting thread (`:125-177, 231-243`), `none` when it is blocked or gone. `c` is what the operating system
decides: at `post()` (`linuxaio_request.cpp:69-95`) `0` is acceptance, anything else `EAGAIN`; at `io_getevents` it is the
number of events. -/
def pstep (C : Cfg) (s : St) (c : Nat) : Option St :=
  match s.ppc with
  | .top => if 0 < s.nW then some { s with nW := s.nW - 1, ppc := .chk (s.nW - 1) } else none
  | .chk v => if s.pts = .terminating ∧ v = 0 then some { s with ppc := .leave } else some { s with ppc := .look }
  | .look =>
    if s.own = none then
      match s.waiting with
      | r :: rest => some { s with waiting := rest, ppc := .free r }
      | [] => some { s with ppc := .back }
    else none
  | .back => some { s with nW := s.nW + 1, ppc := .top }
  | .free r => if 0 < s.nF then some { s with nF := s.nF - 1, ppc := .submit r } else none
  | .submit r =>
    if c = 0 then
      if s.inflight.length + s.done.length < C.max then
        some { s with inflight := s.inflight ++ [r], posted := s.posted ++ [r], boxes := s.boxes ++ [r], ppc := .inc }
      else none
    else if C.strict = false ∨ C.max ≤ s.inflight.length + s.done.length then
      some { s with boxes := s.boxes ++ [r], refused := s.refused ++ [r], ppc := .reap r }
    else none
  | .reap r =>
    if 0 < c ∧ c ≤ s.done.length ∧ c ≤ C.max then
      some { s with done := s.done.drop c, ppc := .hRel r (s.done.take c) }
    else none
  | .hRel r [] => some { s with ppc := .submit r }
  | .hRel r (e :: es) => some { release s e with ppc := .hDec r es }
  | .hDec r es => if 0 < s.nP then some { s with nP := s.nP - 1, ppc := .hRel r es } else none
  | .inc => some { s with nP := s.nP + 1, ppc := .top }
  | .leave => some { s with pts := .terminated, ppc := .gone }
  | .gone => none

/-- Next step of the waiting thread (`:193-229, 247-259`), `none` when it is blocked or gone. `c` is the number of events
`io_getevents` returns. -/
def wstep (C : Cfg) (s : St) (c : Nat) : Option St :=
  match s.wpc with
  | .top => if 0 < s.nP then some { s with nP := s.nP - 1, wpc := .chk (s.nP - 1) } else none
  | .chk v => if s.wts = .terminating ∧ v = 0 then some { s with wpc := .leave } else some { s with wpc := .get }
  | .get =>
    if 0 < c ∧ c ≤ s.done.length ∧ c ≤ C.max then
      some { s with done := s.done.drop c, wpc := .inc (s.done.take c) }
    else none
  | .inc es => some { s with nP := s.nP + 1, wpc := .hRel es }
  | .hRel [] => some { s with wpc := .top }
  | .hRel (e :: es) => some { release s e with wpc := .hDec es }
  | .hDec es => if 0 < s.nP then some { s with nP := s.nP - 1, wpc := .hRel es } else none
  | .leave => some { s with wts := .terminated, wpc := .gone }
  | .gone => none

/-- The operating system finishes a request (successfully or not) and holds the event ready (`io_submit(2)`,
`io_getevents(2)`). -/
def kstep (s : St) (r : Req) (ok : Bool) : Option St :=
  if r ∈ s.inflight then
    some { s with inflight := s.inflight.erase r, done := s.done ++ [r],
                  failed := if ok then s.failed else s.failed ++ [r] }
  else none

/-- Next step of user thread `i` inside a call, `none` when it is blocked or idle (`:75-122`). -/
def ustep (s : St) (i : Nat) : Option St :=
  match s.users[i]? with
  | some (.addPush r) =>
    if s.own = none then
      some { s with users := s.users.set i (.addPost r), own := some i, waiting := s.waiting ++ [r], pushed := s.pushed ++ [r] }
    else none
  | some (.addPost _) => some { s with users := s.users.set i .idle, own := none, nW := s.nW + 1 }
  | some (.canFind r) =>
    if s.own = none then
      if r ∈ s.waiting then
        some { s with users := s.users.set i (.canWait r), own := some i, waiting := s.waiting.erase r,
                      cancelled := s.cancelled ++ [r] }
      else some { s with users := s.users.set i .idle }
    else none
  | some (.canWait _) =>
    if 0 < s.nW then some { s with users := s.users.set i .idle, own := none, nW := s.nW - 1 } else none
  | _ => none

/-- Next step of the destructor after it was called (`:68-73`, `request_queue_impl_worker.cpp:50-85`). `io_destroy` changes
nothing the program can see. -/
def dstep (s : St) : Option St :=
  match s.dtor with
  | .setP => some { s with nW := s.nW + 1, dtor := .joinP,
                           lateP := decide (s.ppc = .chk 0 ∨ s.ppc = .leave ∨ s.ppc = .gone) }
  | .joinP => if s.ppc = .gone then some { s with pts := .notRunning, dtor := .midW } else none
  | .midW => some { s with wts := .terminating, dtor := .setW }
  | .setW => some { s with nP := s.nP + 1, dtor := .joinW,
                           lateW := decide (s.wpc = .chk 0 ∨ s.wpc = .leave ∨ s.wpc = .gone) }
  | .joinW => if s.wpc = .gone then some { s with wts := .notRunning, dtor := .joined } else none
  | _ => none

/-- The request is new: it was never submitted, and no thread is about to submit it (a request object is submitted once, by
the `aread`/`awrite` that made it: `linuxaio_file.cpp:22-47`). -/
def Fresh (s : St) (r : Req) : Prop := r ∉ s.pushed ∧ .addPush r ∉ s.users

/-- A step inside the library or the operating system: a user thread inside a call, the posting thread, the waiting thread, the
operating system, the destructor once called. -/
inductive IStep (C : Cfg) : St → St → Prop where
  | user (s s' : St) (i : Nat) (h : ustep s i = some s') : IStep C s s'
  | post (s s' : St) (c : Nat) (h : pstep C s c = some s') : IStep C s s'
  | wait (s s' : St) (c : Nat) (h : wstep C s c = some s') : IStep C s s'
  | os (s s' : St) (r : Req) (ok : Bool) (h : kstep s r ok = some s') : IStep C s s'
  | dtor (s s' : St) (h : dstep s = some s') : IStep C s s'

/-- A step of the system. `add` and `cancel` begin a call, `stop` begins the destructor: as for any C++ object, no call is
active then, and none begins later. -/
inductive Step (C : Cfg) : St → St → Prop where
  | add (s : St) (i : Nat) (r : Req) (hi : s.users[i]? = some .idle) (hd : s.dtor = .no) (hf : Fresh s r) :
      Step C s { s with users := s.users.set i (.addPush r) }
  | cancel (s : St) (i : Nat) (r : Req) (hi : s.users[i]? = some .idle) (hd : s.dtor = .no) :
      Step C s { s with users := s.users.set i (.canFind r) }
  | stop (s : St) (hi : ∀ u ∈ s.users, u = .idle) (hd : s.dtor = .no) :
      Step C s { s with pts := .terminating, dtor := .setP }
  | internal (s s' : St) (h : IStep C s s') : Step C s s'

/-- Everything that can happen to a queue used by `n` user threads. -/
inductive Reach (C : Cfg) (n : Nat) : St → Prop where
  | init : Reach C n (init C n)
  | step {s s' : St} (h : Reach C n s) (st : Step C s s') : Reach C n s'

/-- The constructor's negotiation with the operating system (`:46-57`): `os n` is the answer of `io_setup(n)`; the loop goes on
while the answer is `EAGAIN` and `max_events > 1`. `max_events <<= 1` is done in `int`: beyond `2^30` the shift overflows
(outcome `overflow`). `fuel` bounds the recursion; 32 rounds always suffice. -/
inductive Setup where
  | ok (n : Nat) | failed (n : Nat) | overflow
deriving DecidableEq, Repr

/-- Answer of `io_setup(2)`. -/
inductive OsAns where
  | ok | again | err
deriving DecidableEq, Repr

/-- The loop (`:46-57`). -/
def negotiate (os : Nat → OsAns) : Nat → Nat → Setup
  | 0, _ => .overflow
  | fuel + 1, n =>
    match os n with
    | .ok => .ok n
    | .err => .failed n
    | .again => if 1 < n then (if n < 2 ^ 30 then negotiate os fuel (n * 2) else .overflow) else .failed n

/-- The constructor (`:34-57`) with the argument `desired`; `0` means 64. -/
def setup (os : Nat → OsAns) (desired : Nat) : Setup :=
  negotiate os 32 (if desired = 0 then 64 else desired)

end Stxxl.LinuxAio
