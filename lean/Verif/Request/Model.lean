
/-!
# The life of an I/O request under every interleaving

Models `request_with_state` (`lib/io/request_with_state.cpp:28-91`), `request_with_waiters`
(`lib/io/request_with_waiters.cpp:24-61`), `serving_request::serve` (`lib/io/serving_request.cpp:44-67`),
`onoff_switch` (`include/stxxl/bits/common/onoff_switch.h:28-80`) and `wait_any`
(`include/stxxl/bits/io/request_operations.h:103-143`), run by any number of worker threads and user
threads over any number of requests.  One step of a thread is one access to shared data, or one critical
section of a mutex inside which nothing else shared is touched; the critical sections of `m_waiters_mutex`
that do touch other shared data (`add_waiter`, `notify_waiters`) are split, with an explicit lock.

Simplifications:
* memory is sequentially consistent (the unsynchronised reads of `m_file` and `m_error` are single steps);
* `state::wait_for` (a correct `while` loop over a condition variable, `state.h:51-56`) is a blocking guard;
* the disk queues are one pool of queued requests from which any idle worker may take any request (the
  order and the shutdown protocol are the subject of `Verif.ReqQueue`);
* the request objects themselves stay alive while somebody works on them (reference counts: `Verif.CountingPtr`);
* the completion handler is an opaque event and does not itself call into requests.
-/

namespace Stxxl.Request

/-- `request_state` of `include/stxxl/bits/io/request_with_state.h:33`. -/
inductive RSt where
  | op | done | r2d
deriving DecidableEq, Repr

/-- The observable events of an execution. -/
inductive Ev where
  /-- `aread`/`awrite` returned request `r` (`lib/io/disk_queued_file.cpp:24-50`) -/
  | submit (r : Nat)
  /-- a worker removed `r` from its queue -/
  | taken (r : Nat)
  /-- the transfer of `r` ended, `e`: with an I/O error -/
  | ioEnd (r : Nat) (e : Bool)
  /-- `r` was removed from its queue by `cancel()` -/
  | cancelled (r : Nat)
  /-- the completion handler of `r` ran -/
  | handler (r : Nat)
  /-- the reference that `r` holds on its file was given back -/
  | refRel (r : Nat)
  /-- `r->wait()` returned to thread `t`, `ok = false`: by throwing the I/O error -/
  | waitRet (t r : Nat) (ok : Bool)
  /-- thread `t` called `r->poll()` -/
  | pollCall (t r : Nat)
  /-- `r->poll()` returned a truth value to thread `t`, or threw (`none`) -/
  | pollRet (t r : Nat) (res : Option Bool)
  /-- `r->cancel()` returned `b` -/
  | cancelRet (t r : Nat) (b : Bool)
  /-- `wait_any(rs)` returned an index, or the end of the sequence (`none`) -/
  | anyRet (t : Nat) (rs : List Nat) (res : Option Nat)
  /-- `wait_any(rs)` threw an I/O error -/
  | anyThrow (t : Nat) (rs : List Nat)
deriving DecidableEq, Repr

/-- A request (`request.h:38-51`, `request_with_waiters.h`, `request_with_state.h:28-36`).  `queued`: it is in
its disk queue.  `ph` is a ghost: how far its completion has got.  No step looks at it. -/
structure Req where
  st : RSt := .op
  file : Bool := true
  err : Bool := false
  queued : Bool := true
  mtx : Option Nat := none
  ws : List Nat := []
  ph : Nat := 0
deriving DecidableEq, Repr

/-- The `onoff_switch` in the stack frame of one call of `wait_any`; every call has its own.  `alive`: the frame
still exists; `owner`: the thread of that call, which is the only one to wait on `m_cond`. -/
structure Sw where
  isOn : Bool := false
  alive : Bool := false
  owner : Nat := 0
deriving DecidableEq, Repr

/-- Where a thread is. -/
inductive Pc where
  /-- a user thread outside any call -/
  | idle
  /-- a worker outside `serve()` -/
  | wIdle
  /-- `serve()`: in `m_file->serve` (`serving_request.cpp:57`) -/
  | serve (r : Nat)
  /- `completed(false)` (`request_with_state.cpp:81-91`, by a worker, `c = false`) and the success branch of
  `cancel()` (`:61-66`, by a user, `c = true`) run the same steps except for the handler: -/
  /-- before `m_state.set_to(DONE)` -/
  | setDone (r : Nat) (c : Bool)
  /-- before `m_on_complete(this)` -/
  | handler (r : Nat)
  /-- `notify_waiters()`: before the lock -/
  | nLock (r : Nat) (c : Bool)
  /-- `notify_waiters()`: in the loop, switches `todo` left -/
  | iter (r : Nat) (c : Bool) (todo : List Nat)
  /-- `onoff_switch::on()`: `m_on` is set, before `m_cond.notify_one()` (`onoff_switch.h:50`) -/
  | notify (r : Nat) (c : Bool) (x : Nat) (todo : List Nat)
  /-- before `m_file->delete_request_ref()` -/
  | delRef (r : Nat) (c : Bool)
  /-- before `m_file = 0` -/
  | nullFile (r : Nat) (c : Bool)
  /-- before `m_state.set_to(READY2DIE)` -/
  | setR2D (r : Nat) (c : Bool)
  /-- `wait()` in `m_state.wait_for(READY2DIE)` -/
  | wait (r : Nat)
  /-- `wait()` before `check_errors()` -/
  | waitChk (r : Nat)
  /-- `poll()` before reading the state -/
  | poll (r : Nat)
  /-- `poll()` before `check_errors()` -/
  | pollChk (r : Nat) (s : RSt)
  /-- `cancel()` before `if (m_file)` -/
  | cFile (r : Nat)
  /-- `cancel()` before `m_file->get_queue_id()` -/
  | cDeref (r : Nat)
  /-- `cancel()` before the queue is searched -/
  | cQueue (r : Nat)
  /-- `wait_any(pre ++ todo)`: first loop, `add_waiter(&sw)` done for `pre` -/
  | aLock (x : Nat) (pre todo : List Nat)
  /-- `add_waiter` of `r`: lock held, before `poll()` reads the state -/
  | aPoll (x : Nat) (pre : List Nat) (r : Nat) (todo : List Nat)
  /-- `add_waiter` of `r`: lock held, before `check_errors()` -/
  | aChk (x : Nat) (pre : List Nat) (r : Nat) (todo : List Nat) (s : RSt)
  /-- `r` was finished already: `delete_waiter(&sw)` is left to be done for `rem` -/
  | aRoll (x : Nat) (pre : List Nat) (r : Nat) (todo rem : List Nat)
  /-- before `sw.wait_for_on()` -/
  | aWait (x : Nat) (rs : List Nat)
  /-- asleep in `m_cond.wait(lock)` (`onoff_switch.h:65`) -/
  | aSleep (x : Nat) (rs : List Nat)
  /-- last loop, done for `pre` -/
  | aDel (x : Nat) (pre todo : List Nat) (res : Option Nat)
  /-- last loop, before `poll()` of `r` reads the state -/
  | aFPoll (x : Nat) (pre : List Nat) (r : Nat) (todo : List Nat)
  /-- last loop, before `check_errors()` of `r` -/
  | aFChk (x : Nat) (pre : List Nat) (r : Nat) (todo : List Nat) (s : RSt)
deriving DecidableEq, Repr

/-- Undefined behaviour: a null `m_file` is dereferenced, or a switch is used after the `wait_any` that owned it. -/
inductive Ub where
  | nullFile (t r : Nat)
  | deadSwitch (x : Nat)
deriving DecidableEq, Repr

/-- The whole state: `nr` requests and `ns` switches exist, `tr` is the trace, latest event first. -/
structure St where
  nr : Nat
  req : Nat → Req
  ns : Nat
  sw : Nat → Sw
  th : Nat → Pc
  tr : List Ev
  ub : Option Ub

/-- Point update of a function. -/
def upd {β : Type} (f : Nat → β) (k : Nat) (v : β) : Nat → β := fun i => if i = k then v else f i

/-- `nw` workers (threads `0 … nw-1`), all others are users; nothing has been submitted. -/
def init (nw : Nat) : St :=
  { nr := 0, req := fun _ => {}, ns := 0, sw := fun _ => {},
    th := fun t => if t < nw then .wIdle else .idle, tr := [], ub := none }

/-- What a thread does next, with the choices that are not its own. -/
inductive Act where
  | submit | callWait (r : Nat) | callPoll (r : Nat) | callCancel (r : Nat) | callAny (rs : List Nat)
  /-- the next step of the code -/
  | go
  /-- an idle worker takes request `r` -/
  | take (r : Nat)
  /-- the transfer ends, with or without an error -/
  | io (e : Bool)
  /-- a condition variable wakes up spuriously -/
  | spurious
deriving DecidableEq, Repr

/-- The user threads decide to call something; every other action is the system's. -/
def Act.external : Act → Bool
  | .submit | .callWait _ | .callPoll _ | .callCancel _ | .callAny _ => true
  | _ => false

namespace St

def setTh (s : St) (t : Nat) (p : Pc) : St := { s with th := upd s.th t p }
def setReq (s : St) (r : Nat) (q : Req) : St := { s with req := upd s.req r q }
def setSw (s : St) (x : Nat) (w : Sw) : St := { s with sw := upd s.sw x w }
def emit (s : St) (e : Ev) : St := { s with tr := e :: s.tr }
def fail (s : St) (u : Ub) : St := { s with ub := some u }
/-- the frame of `wait_any` goes away and with it the switch -/
def kill (s : St) (x : Nat) : St := s.setSw x { s.sw x with alive := false }

end St

/-- `std::set::insert`. -/
def insertW (x : Nat) (l : List Nat) : List Nat := if x ∈ l then l else x :: l

/-- `m_state == DONE || m_state == READY2DIE` (`request_with_state.cpp:78`). -/
def RSt.fin : RSt → Bool
  | .op => false
  | _ => true

/-- `m_cond.notify_one()`: the only thread that can be waiting on switch `x` is its owner, and it wakes up if it
sleeps.  `wait_for_on` does not look at the flag again (`onoff_switch.h:64-65`). -/
def woken (x : Nat) : Pc → Pc
  | .aSleep y rs => if y = x then .aDel x [] rs none else .aSleep y rs
  | p => p

/-- See `woken`. -/
def wake (s : St) (x : Nat) : St := s.setTh (s.sw x).owner (woken x (s.th (s.sw x).owner))

/-- One step of thread `t`; `spur`: condition variables may wake up spuriously.  `none`: not possible now. -/
def step (spur : Bool) (s : St) (t : Nat) (a : Act) : Option St :=
  match s.th t, a with
  -- `disk_queued_file.cpp:24-50`, `request.cpp:21-37`: a new request, a reference on the file, into the queue
  | .idle, .submit =>
    some ({ s with nr := s.nr + 1, req := upd s.req s.nr {} }.emit (.submit s.nr))
  | .idle, .callWait r => if r < s.nr then some (s.setTh t (.wait r)) else none
  | .idle, .callPoll r => if r < s.nr then some ((s.emit (.pollCall t r)).setTh t (.poll r)) else none
  | .idle, .callCancel r => if r < s.nr then some (s.setTh t (.cFile r)) else none
  -- `request_operations.h:108-110`
  | .idle, .callAny rs =>
    if (∀ r ∈ rs, r < s.nr) then
      some ({ s with ns := s.ns + 1, sw := upd s.sw s.ns { isOn := false, alive := true, owner := t } }.setTh t
        (.aLock s.ns [] rs))
    else none
  -- `request_queue_impl_qwqr.cpp:153-162`: a worker takes a request
  | .wIdle, .take r =>
    if r < s.nr ∧ (s.req r).queued then
      some (((s.setReq r { s.req r with queued := false, ph := 1 }).emit (.taken r)).setTh t (.serve r))
    else none
  -- `serving_request.cpp:55-62`
  | .serve r, .io e =>
    if (s.req r).file then
      some (((s.setReq r { s.req r with err := e, ph := 2 }).emit (.ioEnd r e)).setTh t (.setDone r false))
    else some (s.fail (.nullFile t r))
  -- `request_with_state.cpp:84` and `:61`
  | .setDone r c, .go =>
    some ((s.setReq r { s.req r with st := .done, ph := if c then 4 else 3 }).setTh t
      (if c then .nLock r c else .handler r))
  -- `request_with_state.cpp:85-86`
  | .handler r, .go =>
    some (((s.setReq r { s.req r with ph := 4 }).emit (.handler r)).setTh t (.nLock r false))
  -- `request_with_waiters.cpp:48-55`
  | .nLock r c, .go =>
    if (s.req r).mtx = none then
      some ((s.setReq r { s.req r with mtx := some t, ph := 5 }).setTh t (.iter r c (s.req r).ws))
    else none
  | .iter r c [], .go =>
    some ((s.setReq r { s.req r with mtx := none, ph := 6 }).setTh t (.delRef r c))
  -- `onoff_switch.h:45-49`
  | .iter r c (x :: todo), .go =>
    if (s.sw x).alive then
      some ((s.setSw x { s.sw x with isOn := true }).setTh t (.notify r c x todo))
    else some (s.fail (.deadSwitch x))
  -- `onoff_switch.h:50`
  | .notify r c x todo, .go =>
    if (s.sw x).alive then some ((wake s x).setTh t (.iter r c todo))
    else some (s.fail (.deadSwitch x))
  -- `request_with_state.cpp:88-90` and `:63-65`
  | .delRef r c, .go =>
    if (s.req r).file then
      some (((s.setReq r { s.req r with ph := 7 }).emit (.refRel r)).setTh t (.nullFile r c))
    else some (s.fail (.nullFile t r))
  | .nullFile r c, .go => some ((s.setReq r { s.req r with file := false, ph := 8 }).setTh t (.setR2D r c))
  | .setR2D r c, .go =>
    let s1 := s.setReq r { s.req r with st := .r2d, ph := 9 }
    if c then some ((s1.emit (.cancelRet t r true)).setTh t .idle) else some (s1.setTh t .wIdle)
  -- `request_with_state.cpp:41-50`
  | .wait r, .go => if (s.req r).st = .r2d then some (s.setTh t (.waitChk r)) else none
  | .waitChk r, .go => some ((s.emit (.waitRet t r (!(s.req r).err))).setTh t .idle)
  -- `request_with_state.cpp:72-79`
  | .poll r, .go => some (s.setTh t (.pollChk r (s.req r).st))
  | .pollChk r q, .go =>
    some ((s.emit (.pollRet t r (if (s.req r).err then none else some q.fin))).setTh t .idle)
  -- `request_with_state.cpp:52-70`
  | .cFile r, .go =>
    if (s.req r).file then some (s.setTh t (.cDeref r))
    else some ((s.emit (.cancelRet t r false)).setTh t .idle)
  | .cDeref r, .go =>
    if (s.req r).file then some (s.setTh t (.cQueue r)) else some (s.fail (.nullFile t r))
  | .cQueue r, .go =>
    if (s.req r).queued then
      some (((s.setReq r { s.req r with queued := false, ph := 2 }).emit (.cancelled r)).setTh t (.setDone r true))
    else some ((s.emit (.cancelRet t r false)).setTh t .idle)
  -- `request_operations.h:112-131`, `request_with_waiters.cpp:24-40`
  | .aLock x pre [], .go => some (s.setTh t (.aWait x pre))
  | .aLock x pre (r :: todo), .go =>
    if (s.req r).mtx = none then
      some ((s.setReq r { s.req r with mtx := some t }).setTh t (.aPoll x pre r todo))
    else none
  | .aPoll x pre r todo, .go => some (s.setTh t (.aChk x pre r todo (s.req r).st))
  | .aChk x pre r todo q, .go =>
    if (s.req r).err then
      some ((((s.setReq r { s.req r with mtx := none }).kill x).emit (.anyThrow t (pre ++ r :: todo))).setTh t .idle)
    else if q.fin then
      some ((s.setReq r { s.req r with mtx := none }).setTh t (.aRoll x pre r todo pre))
    else
      some ((s.setReq r { s.req r with mtx := none, ws := insertW x (s.req r).ws }).setTh t
        (.aLock x (pre ++ [r]) todo))
  -- `request_operations.h:119-129`; the code walks backwards, which makes no difference
  | .aRoll x pre r todo [], .go =>
    if (s.req r).err then
      some (((s.kill x).emit (.anyThrow t (pre ++ r :: todo))).setTh t .idle)
    else some (((s.kill x).emit (.anyRet t (pre ++ r :: todo) (some pre.length))).setTh t .idle)
  | .aRoll x pre r todo (q :: rem), .go =>
    if (s.req q).mtx = none then
      some ((s.setReq q { s.req q with ws := (s.req q).ws.filter (· ≠ x) }).setTh t (.aRoll x pre r todo rem))
    else none
  -- `onoff_switch.h:61-66`
  | .aWait x rs, .go =>
    if (s.sw x).isOn then some (s.setTh t (.aDel x [] rs none)) else some (s.setTh t (.aSleep x rs))
  | .aSleep x rs, .spurious => if spur then some (s.setTh t (.aDel x [] rs none)) else none
  -- `request_operations.h:135-142`
  | .aDel x pre [] res, .go => some (((s.kill x).emit (.anyRet t pre res)).setTh t .idle)
  | .aDel x pre (r :: todo) res, .go =>
    if (s.req r).mtx = none then
      some ((s.setReq r { s.req r with ws := (s.req r).ws.filter (· ≠ x) }).setTh t
        (match res with
          | none => .aFPoll x pre r todo
          | some k => .aDel x (pre ++ [r]) todo (some k)))
    else none
  | .aFPoll x pre r todo, .go => some (s.setTh t (.aFChk x pre r todo (s.req r).st))
  | .aFChk x pre r todo q, .go =>
    if (s.req r).err then
      some (((s.kill x).emit (.anyThrow t (pre ++ r :: todo))).setTh t .idle)
    else some (s.setTh t (.aDel x (pre ++ [r]) todo (if q.fin then some pre.length else none)))
  | _, _ => none

/-- A step of thread `t` among `n` threads; nothing happens after undefined behaviour. -/
def StepA (n : Nat) (spur : Bool) (s : St) (t : Nat) (a : Act) (s' : St) : Prop :=
  t < n ∧ s.ub = none ∧ step spur s t a = some s'

/-- The states reachable by `n` threads, `nw` of them workers, in any interleaving. -/
inductive Reach (n nw : Nat) (spur : Bool) : St → Prop where
  | init : Reach n nw spur (init nw)
  | step {s s' t a} : Reach n nw spur s → StepA n spur s t a s' → Reach n nw spur s'

end Stxxl.Request
