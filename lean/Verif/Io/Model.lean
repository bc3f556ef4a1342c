import Verif.ExtVector.Model

/-!
# Asynchronous block requests

A model of the request layer as the containers and algorithms see it:
`/repo/lib/io/request_queue_impl_qwqr.cpp:43-205` (the default disk queue: one thread, a FIFO queue of writes and a FIFO
queue of reads, either of which may be preferred), `/repo/lib/io/request_with_state.cpp:42-80` (`wait`, `cancel`, `poll`).

A request is served at one moment between its submission and the return of `wait()`: a write copies the buffer as it is at
that moment to the block, a read copies the block to the buffer. Requests are served in any order, except that a write is
never served before an older write to the same block (writes are queued FIFO). A request that has not been served may be
cancelled; `cancel` may also fail on it (the thread has already taken it from the queue). I/O errors are not modelled, and
neither is `linuxaio`, which gives no order between two writes to the same block.
-/

namespace Stxxl.Io
open Stxxl.ExtVector (upd)

/-- State of a request (`request_with_state.h:30-40`; `DONE` and `READY2DIE` are one state here). -/
inductive St where
  | pending | done | cancelled
deriving DecidableEq

/-- A request for a whole block: buffer `buf`, block `bid` (`request.h:41-100`). -/
structure Rq where
  isWrite : Bool
  buf : Nat
  bid : Nat
  st : St
deriving DecidableEq

/-- Memory, disk, and all requests ever submitted, oldest first; a request pointer is an index into `rqs`. -/
structure Io (β : Type) where
  mem : Nat → β
  disk : Nat → β
  rqs : List Rq

namespace Io
variable {β : Type}

/-- An older write to the same block is still in the write queue. -/
def blocked (s : Io β) (i bid : Nat) : Bool :=
  (s.rqs.take i).any (fun r => decide (r.st = .pending) && r.isWrite && decide (r.bid = bid))

/-- The disk thread serves request `i`, if it may (`request_queue_impl_qwqr.cpp:131-205`, `serving_request.cpp:31-70`). -/
def serve (s : Io β) (i : Nat) : Io β :=
  match s.rqs[i]? with
  | none => s
  | some r =>
    if r.st ≠ .pending then s
    else if r.isWrite then
      if blocked s i r.bid then s
      else { s with disk := upd s.disk r.bid (s.mem r.buf), rqs := s.rqs.set i { r with st := .done } }
    else { s with mem := upd s.mem r.buf (s.disk r.bid), rqs := s.rqs.set i { r with st := .done } }

def serveAll (s : Io β) : List Nat → Io β
  | [] => s
  | i :: is => serveAll (serve s i) is

/-- `block->read(bid)`, `block->write(bid)` (`typed_block.h:126-150`, `add_request`): the new request is the last one. -/
def issue (s : Io β) (isWrite : Bool) (buf bid : Nat) : Io β :=
  { s with rqs := s.rqs ++ [{ isWrite := isWrite, buf := buf, bid := bid, st := .pending }] }

/-- `req->cancel()` (`request_with_state.cpp:53-71`); `ok` says whether the request was still in the queue. -/
def cancel (s : Io β) (ok : Bool) (i : Nat) : Io β :=
  match s.rqs[i]? with
  | none => s
  | some r => if r.st = .pending ∧ ok = true then { s with rqs := s.rqs.set i { r with st := .cancelled } } else s

/-- Serve the writes to block `bid` among the first `k` requests, in order. -/
def serveWrites (s : Io β) (bid : Nat) : Nat → Io β
  | 0 => s
  | k + 1 =>
    let s' := serveWrites s bid k
    if (s'.rqs[k]?.any fun r => r.isWrite && decide (r.bid = bid)) then serve s' k else s'

/-- `req->wait()` (`request_with_state.cpp:42-51`): when it returns, the request has been served or cancelled. Only what
must have happened by then is done here; further requests may be served by separate `serve` steps. -/
def wait (s : Io β) (i : Nat) : Option (Io β) :=
  match s.rqs[i]? with
  | none => none
  | some r => if r.isWrite then some (serveWrites s r.bid (i + 1)) else some (serve s i)

/-- `req->poll()` (`request_with_state.cpp:73-80`). -/
def poll (s : Io β) (i : Nat) : Bool :=
  match s.rqs[i]? with
  | none => false
  | some r => decide (r.st ≠ .pending)

end Io
end Stxxl.Io
