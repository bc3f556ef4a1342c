import Verif.Io.Model

/-!
# Model of `write_pool`, `prefetch_pool` and `read_write_pool`

Buffers (`block_type*`), blocks (`bid`) and requests are numbers. The pools are used from one thread, as in the code.
`sched` arguments list the requests the disk thread serves at that point inside an operation; `canc i` says whether
`cancel()` of request `i`, if it has not been served, finds it in the queue.
-/

namespace Stxxl.Pools
open Stxxl.Io Stxxl.ExtVector

/-- `write_pool::busy_entry` (`write_pool.h:39-50`); `bid = none` stands for a bid with `storage = 0`. -/
structure WEntry where
  buf : Nat
  req : Nat
  bid : Option Nat

/-- An element of the hash map `prefetch_pool::busy_blocks` (`prefetch_pool.h:58-60`). Also used for a read request in
the user's hands. -/
structure PEntry where
  bid : Nat
  buf : Nat
  req : Nat

/-- Both pools (`write_pool.h:54-58`, `prefetch_pool.h:64-71`; `free_blocks_size` is the length of `pfree`). -/
structure Pool where
  wfree : List Nat
  wbusy : List WEntry
  pfree : List Nat
  pbusy : List PEntry

/-- Program state. -/
structure Sys (β : Type) where
  io : Io β
  p : Pool

namespace Sys
variable {β : Type}

/-- `size()` of the write pool, `write_pool.h:105`. -/
def sizeWrite (s : Sys β) : Nat := s.p.wfree.length + s.p.wbusy.length
/-- `size()` of the prefetch pool, `prefetch_pool.h:111-114`. -/
def sizePrefetch (s : Sys β) : Nat := s.p.pfree.length + s.p.pbusy.length

/-- Cancel all requests in the list (the loop body of `write_pool.h:118-129`). -/
def cancelAll (io : Io β) (canc : Nat → Bool) : List Nat → Io β
  | [] => io
  | i :: is => cancelAll (io.cancel (canc i) i) canc is

/-- `i2->bid.storage = 0` in the same loop. -/
def clearBid (bid : Nat) (e : WEntry) : WEntry := if e.bid = some bid then { e with bid := none } else e

/-- `write_pool::write`, `write_pool.h:115-134`. The new request is number `io.rqs.length`. -/
def wWrite (s : Sys β) (canc : Nat → Bool) (buf bid : Nat) : Option (Sys β) :=
  if s.p.wbusy.any (fun e => decide (e.bid = some bid) && decide (e.buf = buf)) then none  -- assert(i2->block != block)
  else
    let io1 := cancelAll s.io canc ((s.p.wbusy.filter (fun e => decide (e.bid = some bid))).map (·.req))
    some { io := io1.issue true buf bid
           p := { s.p with wbusy := s.p.wbusy.map (clearBid bid) ++ [⟨buf, io1.rqs.length, some bid⟩] } }

/-- `check_all_busy`, `write_pool.h:255-271`: finished entries become free. -/
def checkAllBusy (sched : Nat → List Nat) : List WEntry → Io β → Io β × List Nat × List WEntry
  | [], io => (io, [], [])
  | e :: es, io =>
    let io1 := io.serveAll (sched e.req)
    let (io2, fr, bs) := checkAllBusy sched es io1
    if io1.poll e.req then (io2, e.buf :: fr, bs) else (io2, fr, e :: bs)

/-- `write_pool::steal`, `write_pool.h:138-157`. `pick` is the entry that `wait_any` finds completed. -/
def steal (s : Sys β) (pick : Nat) (sched : Nat → List Nat) : Option (Sys β × Nat) :=
  match s.p.wfree.getLast? with
  | some b => some ({ s with p := { s.p with wfree := s.p.wfree.dropLast } }, b)
  | none =>
    match s.p.wbusy[pick % s.p.wbusy.length]? with
    | none => none  -- STXXL_ASSERT(size() > 0)
    | some e =>
      match s.io.wait e.req with
      | none => none
      | some io1 =>
        let r := checkAllBusy sched (s.p.wbusy.eraseIdx (pick % s.p.wbusy.length)) io1
        some ({ io := r.1, p := { s.p with wfree := s.p.wfree ++ r.2.1, wbusy := r.2.2 } }, e.buf)

/-- `write_pool::has_request` and `steal_request`, `write_pool.h:199-207,226-245`: the entry found, if any. -/
def wFind (s : Sys β) (bid : Nat) : Option WEntry := s.p.wbusy.find? (fun e => decide (e.bid = some bid))

/-- `busy_blocks.erase(i2)` in `steal_request`. -/
def wErase (s : Sys β) (bid : Nat) : List WEntry := s.p.wbusy.eraseP (fun e => decide (e.bid = some bid))

/-- `busy_blocks.find(bid)`. -/
def pFind (s : Sys β) (bid : Nat) : Option PEntry := s.p.pbusy.find? (fun e => decide (e.bid = bid))
def pErase (s : Sys β) (bid : Nat) : List PEntry := s.p.pbusy.eraseP (fun e => decide (e.bid = bid))

/-- `prefetch_pool::hint(bid, w_pool)`, `prefetch_pool.h:197-229`. -/
def hint (s : Sys β) (bid : Nat) : Sys β :=
  match s.pFind bid with
  | some _ => s
  | none =>
    match s.p.pfree.getLast? with
    | none => s
    | some b =>
      match s.wFind bid with
      | some e =>
        { s with p := { wfree := s.p.wfree ++ [b], wbusy := s.wErase bid
                        pfree := s.p.pfree.dropLast, pbusy := s.p.pbusy ++ [⟨bid, e.buf, e.req⟩] } }
      | none =>
        { io := s.io.issue false b bid
          p := { s.p with pfree := s.p.pfree.dropLast, pbusy := s.p.pbusy ++ [⟨bid, b, s.io.rqs.length⟩] } }

/-- `prefetch_pool::invalidate`, `prefetch_pool.h:232-248`: `some (s, found)`; `none` = invalid request pointer. -/
def invalidate (s : Sys β) (canc : Nat → Bool) (bid : Nat) : Option (Sys β × Bool) :=
  match s.pFind bid with
  | none => some (s, false)
  | some e =>
    let io1 := if (s.io.rqs[e.req]?.any fun r => !r.isWrite) then s.io.cancel (canc e.req) e.req else s.io
    match io1.wait e.req with
    | none => none
    | some io2 => some ({ io := io2, p := { s.p with pfree := s.p.pfree ++ [e.buf], pbusy := s.pErase bid } }, true)

/-- `prefetch_pool::read(block, bid, w_pool)`, `prefetch_pool.h:305-336`: the buffer and the request handed out. -/
def read (s : Sys β) (buf bid : Nat) : Sys β × Nat × Nat :=
  match s.pFind bid with
  | some e => ({ s with p := { s.p with pfree := s.p.pfree ++ [buf], pbusy := s.pErase bid } }, e.buf, e.req)
  | none =>
    match s.wFind bid with
    | some e => ({ s with p := { s.p with wfree := s.p.wfree ++ [buf], wbusy := s.wErase bid } }, e.buf, e.req)
    | none => ({ s with io := s.io.issue false buf bid }, buf, s.io.rqs.length)

/-- `read_write_pool::write`, `read_write_pool.h:96-106`. -/
def write (s : Sys β) (canc : Nat → Bool) (sched : List Nat) (buf bid : Nat) : Option (Sys β) :=
  match s.wWrite canc buf bid with
  | none => none
  | some s1 =>
    match ({ s1 with io := s1.io.serveAll sched } : Sys β).invalidate canc bid with
    | none => none
    | some (s2, found) => if found then some (s2.hint bid) else some s2

/-- `write_pool::add`, `write_pool.h:247-252`. -/
def add (s : Sys β) (buf : Nat) : Sys β := { s with p := { s.p with wfree := s.p.wfree ++ [buf] } }
/-- `prefetch_pool::add`, `prefetch_pool.h:129-134`. -/
def addPrefetch (s : Sys β) (buf : Nat) : Sys β := { s with p := { s.p with pfree := s.p.pfree ++ [buf] } }

/-- `prefetch_pool::steal`, `prefetch_pool.h:139-147`; `none` = `STXXL_CHECK` fails. -/
def stealPrefetch (s : Sys β) : Option (Sys β × Nat) :=
  match s.p.pfree.getLast? with
  | none => none
  | some b => some ({ s with p := { s.p with pfree := s.p.pfree.dropLast } }, b)

/-- `while (++diff <= 0) delete steal();` of `write_pool::resize`, `k` rounds. -/
def stealLoop (picks : Nat → Nat) (sched : Nat → Nat → List Nat) : Nat → Sys β → Option (Sys β)
  | 0, s => some s
  | k + 1, s =>
    match s.steal (picks k) (sched k) with
    | none => none
    | some (s1, _) => stealLoop picks sched k s1

/-- `write_pool::resize`, `write_pool.h:166-182`; `fresh` are the addresses of the new blocks. -/
def resizeWrite (s : Sys β) (n : Nat) (fresh : List Nat) (picks : Nat → Nat) (sched : Nat → Nat → List Nat) : Option (Sys β) :=
  if s.sizeWrite < n then some { s with p := { s.p with wfree := s.p.wfree ++ fresh.take (n - s.sizeWrite) } }
  else stealLoop picks sched (s.sizeWrite - n) s

/-- `prefetch_pool::resize`, `prefetch_pool.h:344-363`. -/
def resizePrefetch (s : Sys β) (n : Nat) (fresh : List Nat) : Sys β :=
  if s.sizePrefetch < n then { s with p := { s.p with pfree := s.p.pfree ++ fresh.take (n - s.sizePrefetch) } }
  else { s with p := { s.p with pfree := s.p.pfree.take (s.p.pfree.length - (s.sizePrefetch - n)) } }

/-- The waiting part of the destructors, `write_pool.h:92-101`, `prefetch_pool.h:98-104`. -/
def waitReqs (io : Io β) : List Nat → Option (Io β)
  | [] => some io
  | i :: is =>
    match io.wait i with
    | none => none
    | some io1 => waitReqs io1 is

/-- `~read_write_pool`, `read_write_pool.h:62-69`: the write pool, then the prefetch pool. -/
def destroy (s : Sys β) : Option (Io β) :=
  waitReqs s.io (s.p.wbusy.map (·.req) ++ s.p.pbusy.map (·.req))

end Sys

/-! ## The client -/

/-- What the client has: buffers, and reads it has not waited for yet. -/
structure Client where
  held : List Nat
  up : List PEntry

/-- All buffers, wherever they are. -/
def allBufs {β : Type} (s : Sys β) (c : Client) : List Nat :=
  c.held ++ c.up.map (·.buf) ++ s.p.wfree ++ s.p.wbusy.map (·.buf) ++ s.p.pfree ++ s.p.pbusy.map (·.buf)

/-- The client has not waited for a read of `bid`. -/
def Client.open (c : Client) (bid : Nat) : Prop := ∃ e ∈ c.up, e.bid = bid

/-- One step of the client, or of the disk. `spec bid` is the content of the latest write to `bid` (of the initial disk,
if there was none). The client follows the rules in the pools' documentation: it passes only buffers it owns, and it
waits for a read of a block before it asks the pool anything else about this block. -/
inductive Step {β : Type} : Sys β → Client → (Nat → β) → Sys β → Client → (Nat → β) → Prop
  | serve {s c spec} (i : Nat) : Step s c spec { s with io := s.io.serve i } c spec
  /-- somebody writes a block directly, of which the pool has neither a copy nor a request -/
  | foreign {s : Sys β} {c spec} (bid : Nat) (v : β) (h : ∀ e ∈ s.p.wbusy, e.bid ≠ some bid)
      (h' : ∀ e ∈ s.p.pbusy, e.bid ≠ bid) (h'' : ¬ c.open bid) :
      Step s c spec { s with io := { s.io with disk := upd s.io.disk bid v } } c (upd spec bid v)
  | newBuf {s c spec} (buf : Nat) (h : buf ∉ allBufs s c) : Step s c spec s { c with held := buf :: c.held } spec
  | fill {s : Sys β} {c spec} (buf : Nat) (v : β) (h : buf ∈ c.held) :
      Step s c spec { s with io := { s.io with mem := upd s.io.mem buf v } } c spec
  | write {s s' : Sys β} {c spec} (canc : Nat → Bool) (sched : List Nat) (buf bid : Nat) (h : buf ∈ c.held) (h' : ¬ c.open bid)
      (r : s.write canc sched buf bid = some s') :
      Step s c spec s' { c with held := c.held.erase buf } (upd spec bid (s.io.mem buf))
  | read {s : Sys β} {c spec} (buf bid : Nat) (h : buf ∈ c.held) (h' : ¬ c.open bid) :
      Step s c spec (s.read buf bid).1
        { held := c.held.erase buf, up := ⟨bid, (s.read buf bid).2.1, (s.read buf bid).2.2⟩ :: c.up } spec
  /-- the client waits for a read; the buffer with the data is then its own -/
  | wait {s : Sys β} {c spec} (e : PEntry) (io : Io β) (up1 up2 : List PEntry) (h : c.up = up1 ++ e :: up2)
      (r : s.io.wait e.req = some io) : Step s c spec { s with io := io } { held := e.buf :: c.held, up := up1 ++ up2 } spec
  | hint {s : Sys β} {c spec} (bid : Nat) (h : ¬ c.open bid) : Step s c spec (s.hint bid) c spec
  | invalidate {s s' : Sys β} {c spec} (canc : Nat → Bool) (bid : Nat) (found : Bool) (h : ¬ c.open bid)
      (r : s.invalidate canc bid = some (s', found)) : Step s c spec s' c spec
  | steal {s s' : Sys β} {c spec} (pick : Nat) (sched : Nat → List Nat) (buf : Nat)
      (r : s.steal pick sched = some (s', buf)) : Step s c spec s' { c with held := buf :: c.held } spec
  | add {s : Sys β} {c spec} (buf : Nat) (h : buf ∈ c.held) : Step s c spec (s.add buf) { c with held := c.held.erase buf } spec
  | addPrefetch {s : Sys β} {c spec} (buf : Nat) (h : buf ∈ c.held) :
      Step s c spec (s.addPrefetch buf) { c with held := c.held.erase buf } spec
  | stealPrefetch {s s' : Sys β} {c spec} (buf : Nat) (r : s.stealPrefetch = some (s', buf)) :
      Step s c spec s' { c with held := buf :: c.held } spec
  | resizeWrite {s s' : Sys β} {c spec} (n : Nat) (fresh : List Nat) (picks : Nat → Nat) (sched : Nat → Nat → List Nat)
      (h : (allBufs s c ++ fresh).Nodup) (h' : n - s.sizeWrite ≤ fresh.length)
      (r : s.resizeWrite n fresh picks sched = some s') : Step s c spec s' c spec
  | resizePrefetch {s : Sys β} {c spec} (n : Nat) (fresh : List Nat)
      (h : (allBufs s c ++ fresh).Nodup) (h' : n - s.sizePrefetch ≤ fresh.length) :
      Step s c spec (s.resizePrefetch n fresh) c spec

/-- Reachable states of a pool constructed with `wb` and `pb` as its initial buffers (`read_write_pool.h:45-51`). -/
inductive Reach {β : Type} : Sys β → Client → (Nat → β) → Prop
  | new (mem disk : Nat → β) (wb pb : List Nat) (h : (wb ++ pb).Nodup) :
      Reach ⟨⟨mem, disk, []⟩, ⟨wb, [], pb, []⟩⟩ ⟨[], []⟩ disk
  | step {s s' c c' spec spec'} : Reach s c spec → Step s c spec s' c' spec' → Reach s' c' spec'

end Stxxl.Pools
