import Verif.Io.Model
import Verif.Schedule.Model

/-!
# Model of `buffered_writer`, `block_prefetcher`, `buf_ostream`, `buf_istream`

Models `/repo/include/stxxl/bits/mng/buf_writer.h`, `block_prefetcher.h`, `buf_ostream.h`, `buf_istream.h` on top of the request model
`Verif.Io.Model`. Buffers of the object are the addresses `0 .. n-1`; a block of `B` records is a function of which the first `B` values count.
Other threads' progress is given by choice arguments: lists of requests the disk threads serve at that moment (`srv`), which finished
request a polling loop notices (`pick`), which request `wait_any` returns (`c`), which of several batch entries with equal offset is on top.
`none` is a deadlock (waiting for something nobody will ever signal), a failed assertion, or an invalid access.
-/

namespace Stxxl.BufStream
open Stxxl.Io
open Stxxl.ExtVector (upd)

/-! ## `buffered_writer` -/

/-- `buffered_writer`, `buf_writer.h:36-66`. A bid is a number; its disk offset is given by `offs`. -/
structure W (β : Type) where
  io : Io β
  nw : Nat
  bs : Nat
  free : List Nat
  busy : List Nat
  batch : List (Nat × Nat)
  reqs : Nat → Option Nat
  bids : Nat → Nat

variable {β : Type}

/-- Constructor, `buf_writer.h:74-87`. -/
def W.new (io : Io β) (bufs batchSize : Nat) : W β where
  io := io
  nw := if bufs > 2 then bufs else 2
  bs := if batchSize ≠ 0 then batchSize else 1
  free := List.range (if bufs > 2 then bufs else 2)
  busy := []
  batch := []
  reqs := fun _ => none
  bids := fun _ => 0

/-- `if (req.valid()) req->wait();` -/
def waitOpt (io : Io β) : Option Nat → Option (Io β)
  | none => some io
  | some i => io.wait i

/-- The polling loop of `get_free_block`, `buf_writer.h:93-103`. `pick` is the first entry whose `poll()` returned true, if any. -/
def pollLoop (pick : Option Nat) (w : W β) : Option (W β) :=
  match pick with
  | none => some w
  | some k =>
    match w.busy[k]? with
    | none => some w
    | some b =>
      match w.reqs b with
      | none => none
      | some i => if w.io.poll i then some { w with busy := w.busy.eraseIdx k, free := w.free ++ [b] } else some w

/-- `get_free_block`, `buf_writer.h:90-124`. `wait_any` on an empty array never returns (`request_operations.h:104-143`). -/
def getFree (srv : List Nat) (pick : Option Nat) (c : Nat) (w : W β) : Option (W β × Nat) :=
  match pollLoop pick { w with io := w.io.serveAll srv } with
  | none => none
  | some w =>
    match w.free.getLast? with
    | some b => some ({ w with free := w.free.dropLast }, b)
    | none =>
      match w.busy[c % w.busy.length]? with
      | none => none
      | some b =>
        match w.reqs b with
        | none => none
        | some i =>
          match w.io.wait i with
          | none => none
          | some io => some ({ w with io := io, busy := w.busy.eraseIdx (c % w.busy.length) }, b)

/-- The batch flushing loop, `buf_writer.h:134-146`, `160-171`, `192-203`; the batch has `n` entries. `o` gives the requests served before each round
and the tie break of the priority queue. -/
def flushBatch (o : Nat → List Nat × Nat) : Nat → W β → Option (W β)
  | 0, w => some w
  | n + 1, w =>
    match Schedule.popMin (o n).2 w.batch with
    | none => none
    | some (e, rest) =>
      match waitOpt (w.io.serveAll (o n).1) (w.reqs e.2) with
      | none => none
      | some io => flushBatch o n { w with io := io.issue true e.2 (w.bids e.2), reqs := upd w.reqs e.2 (some io.rqs.length),
                                           busy := w.busy ++ [e.2], batch := rest }

/-- Choices made during one `write`. -/
structure Ch where
  o : Nat → List Nat × Nat
  srv : List Nat
  pick : Option Nat
  c : Nat

/-- `write`, `buf_writer.h:130-155`. -/
def write (offs : Nat → Nat) (ch : Ch) (w : W β) (b bid : Nat) : Option (W β × Nat) :=
  match (if w.batch.length ≥ w.bs then flushBatch ch.o w.batch.length w else some w) with
  | none => none
  | some w => getFree ch.srv ch.pick ch.c { w with bids := upd w.bids b bid, batch := (offs bid, b) :: w.batch }

/-- Waiting for all busy blocks, `buf_writer.h:172-178`, `204-210`. -/
def waitBusy (reqs : Nat → Option Nat) : List Nat → Io β → Option (Io β)
  | [], io => some io
  | b :: bs, io =>
    match reqs b with
    | none => none
    | some i =>
      match io.wait i with
      | none => none
      | some io => waitBusy reqs bs io

/-- `flush`, `buf_writer.h:157-186`; the destructor `buf_writer.h:189-215` does the same. -/
def flush (ch : Ch) (w : W β) : Option (W β) :=
  match flushBatch ch.o w.batch.length w with
  | none => none
  | some w =>
    match waitBusy w.reqs w.busy (w.io.serveAll ch.srv) with
    | none => none
    | some io => some { w with io := io, free := List.range w.nw, busy := [] }

/-! ## `buf_ostream` -/

/-- `buf_ostream`, `buf_ostream.h:29-42`. `pos` is the number of bids used so far. -/
structure Os (α : Type) where
  w : W (Nat → α)
  pos : Nat
  elem : Nat
  cur : Nat

variable {α : Type}

/-- Constructor, `buf_ostream.h:49-54`. -/
def Os.new (ch : Ch) (io : Io (Nat → α)) (nbuffers : Nat) : Option (Os α) :=
  match getFree ch.srv ch.pick ch.c (W.new io nbuffers (nbuffers / 2)) with
  | none => none
  | some (w, b) => some ⟨w, 0, 0, b⟩

/-- `operator <<`, `buf_ostream.h:59-68`; `bl k` is the `k`-th bid, `B` the number of records per block. -/
def Os.put (offs : Nat → Nat) (bl : Nat → Nat) (B : Nat) (ch : Ch) (s : Os α) (x : α) : Option (Os α) :=
  let io := { s.w.io with mem := upd s.w.io.mem s.cur (upd (s.w.io.mem s.cur) s.elem x) }
  let w := { s.w with io := io }
  if s.elem + 1 ≥ B then
    match write offs ch w s.cur (bl s.pos) with
    | none => none
    | some (w, b) => some ⟨w, s.pos + 1, 0, b⟩
  else some { s with w := w, elem := s.elem + 1 }

/-- A sequence of `<<`; the `k`-th uses the choices `ch k`. -/
def Os.putAll (offs : Nat → Nat) (bl : Nat → Nat) (B : Nat) (ch : Nat → Ch) : List α → Os α → Option (Os α)
  | [], s => some s
  | x :: xs, s =>
    match Os.put offs bl B (ch xs.length) s x with
    | none => none
    | some s => Os.putAll offs bl B ch xs s

/-- `fill`, `buf_ostream.h:98-105`: the loop runs at most `B` times. -/
def Os.fill (offs : Nat → Nat) (bl : Nat → Nat) (B : Nat) (ch : Nat → Ch) (x : α) : Nat → Os α → Option (Os α)
  | n, s =>
    if s.elem = 0 then some s
    else match n with
      | 0 => none
      | n + 1 =>
        match Os.put offs bl B (ch n) s x with
        | none => none
        | some s => Os.fill offs bl B ch x n s

/-- Destructor, `buf_ostream.h:117-120`: asserts that no partial block is pending, then destroys the writer. -/
def Os.close (ch : Ch) (s : Os α) : Option (Io (Nat → α)) :=
  if s.elem = 0 then (flush ch s.w).map (·.io) else none

/-! ## `block_prefetcher` -/

/-- `block_prefetcher`, `block_prefetcher.h:54-81`. `sw k` is the request whose completion turns on the switch `completed[k]`. -/
structure Pf (β : Type) where
  io : Io β
  len : Nat
  nread : Nat
  nextread : Nat
  nextconsume : Nat
  rreqs : Nat → Option Nat
  sw : Nat → Option Nat
  pbuf : Nat → Option Nat

/-- Requesting block `k` into buffer `b`, `block_prefetcher.h:138-147`, `180-189`. -/
def Pf.request (bl : Nat → Nat) (p : Pf β) (b k : Nat) : Pf β :=
  { p with io := p.io.issue false b (bl k), rreqs := upd p.rreqs b (some p.io.rqs.length), sw := upd p.sw k (some p.io.rqs.length),
           pbuf := upd p.pbuf k (some b) }

/-- The loop of the constructor, `block_prefetcher.h:136-148`, for buffers `0 .. n-1`. -/
def Pf.init (bl : Nat → Nat) (seq : Nat → Nat) : Nat → Pf β → Option (Pf β)
  | 0, p => some p
  | n + 1, p =>
    match Pf.init bl seq n p with
    | none => none
    | some p => if seq n < p.len then some (Pf.request bl p n (seq n)) else none

/-- Constructor, `block_prefetcher.h:107-149`: `seq` is the prefetch order, `bl` the bids of the consumption sequence. -/
def Pf.new (bl : Nat → Nat) (seq : Nat → Nat) (io : Io β) (len bufs : Nat) : Option (Pf β) :=
  if 0 < len ∧ 0 < bufs then
    Pf.init bl seq (min bufs len) ⟨io, len, min bufs len, min bufs len, 0, fun _ => none, fun _ => none, fun _ => none⟩
  else none

/-- `wait`, `block_prefetcher.h:84-97`: a switch that no request will ever turn on is a deadlock. -/
def Pf.wait (p : Pf β) (k : Nat) : Option (Pf β × Nat) :=
  match p.sw k with
  | none => none
  | some i =>
    match p.io.wait i with
    | none => none
    | some io =>
      match p.pbuf k with
      | none => none
      | some b => if b < p.nread then some ({ p with io := io }, b) else none

/-- `pull_block`, `block_prefetcher.h:153-157`. The caller must not pull beyond the end. -/
def Pf.pull (srv : List Nat) (p : Pf β) : Option (Pf β × Nat) :=
  Pf.wait { p with io := p.io.serveAll srv, nextconsume := p.nextconsume + 1 } p.nextconsume

/-- `block_consumed`, `block_prefetcher.h:163-196`: returns the next buffer, or none at the end. -/
def Pf.consumed (bl : Nat → Nat) (seq : Nat → Nat) (srv srv' : List Nat) (p : Pf β) (b : Nat) : Option (Pf β × Option Nat) :=
  match waitOpt (p.io.serveAll srv) (p.rreqs b) with
  | none => none
  | some io =>
    let p := { p with io := io, rreqs := upd p.rreqs b none }
    match (if p.nextread < p.len then
             if b < p.nread ∧ seq p.nextread < p.len ∧ p.sw (seq p.nextread) = none then
               some (Pf.request bl { p with nextread := p.nextread + 1 } b (seq p.nextread))
             else none
           else some p) with
    | none => none
    | some p =>
      if p.nextconsume ≥ p.len then some (p, none)
      else
        match Pf.wait { p with io := p.io.serveAll srv', nextconsume := p.nextconsume + 1 } p.nextconsume with
        | none => none
        | some (p, b) => some (p, some b)

/-! ## `buf_istream` -/

/-- `buf_istream`, `buf_istream.h:33-56`. -/
structure Is (α : Type) where
  pf : Pf (Nat → α)
  elem : Nat
  cur : Nat
  more : Bool

/-- `nbuffers = max(2 * ndisks, nbuffers - 1)` in unsigned arithmetic, `buf_istream.h:77`; `nbuffers` positive. -/
def Is.bufs (ndisks nbuffers : Nat) : Nat := max (2 * ndisks) (nbuffers - 1)

/-- Constructor, `buf_istream.h:61-84`. `dev k` is the device of the `k`-th block (the wrapper `async_schedule.h:25-48` collects them). -/
def Is.new (bl : Nat → Nat) (dev : Schedule.Disks) (junk : Nat → Bool) (tie : Nat → Nat) (srv : List Nat) (io : Io (Nat → α))
    (len ndisks mdev nbuffers : Nat) : Option (Is α × (Nat → Nat)) :=
  match Schedule.schedule dev junk tie len (Is.bufs ndisks nbuffers) mdev with
  | none => none
  | some out =>
    let seq := fun k => out.getD k 0
    match Pf.new bl seq io len (Is.bufs ndisks nbuffers) with
    | none => none
    | some p =>
      match p.pull srv with
      | none => none
      | some (p, b) => some (⟨p, 0, b, true⟩, seq)

/-- `operator >>`, `buf_istream.h:90-102`, with `next_block`, `138-146`. -/
def Is.get (bl : Nat → Nat) (seq : Nat → Nat) (B : Nat) (srv srv' : List Nat) (s : Is α) : Option (Is α × α) :=
  if s.more then
    let x := s.pf.io.mem s.cur s.elem
    if s.elem + 1 ≥ B then
      match s.pf.consumed bl seq srv srv' s.cur with
      | none => none
      | some (p, none) => some (⟨p, 0, s.cur, false⟩, x)
      | some (p, some b) => some (⟨p, 0, b, true⟩, x)
    else some ({ s with elem := s.elem + 1 }, x)
  else none

/-- Reading `n` records. -/
def Is.getAll (bl : Nat → Nat) (seq : Nat → Nat) (B : Nat) (srv : Nat → List Nat × List Nat) : Nat → Is α → Option (Is α × List α)
  | 0, s => some (s, [])
  | n + 1, s =>
    match Is.get bl seq B (srv n).1 (srv n).2 s with
    | none => none
    | some (s, x) =>
      match Is.getAll bl seq B srv n s with
      | none => none
      | some (s, xs) => some (s, x :: xs)

end Stxxl.BufStream
