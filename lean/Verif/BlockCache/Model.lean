import Verif.Pager.Props
import Verif.BlockCache.Spec

/-!
# Model of `hash_map::block_cache`

Models `/repo/include/stxxl/bits/containers/hash_map/block_cache.h:35-560`.

A block is a function from subblock indices to contents. `disk` is external memory. An outstanding read of slot
`i` is `pend i = some b`; its data arrives when it is waited for. The writes of the write buffer are
asynchronous: `wreq j = some b` means that buffer `j` is still to be written to block `b`; it may complete at
any time (`Op.complete`). `Cfg.fifo` says whether the I/O layer finishes an earlier write of a block before a
later read or write of it; that is a property of the request queue, not of the cache.
Not modelled: statistics, I/O errors, subblock indices out of range, `swap`, the destructor.
-/

namespace BlockCache
open Stxxl.Pager (Lru)
open Spec (Op Out)

/-- `n` blocks in the cache, `m` write buffers. -/
structure Cfg where
  n : Nat
  m : Nat
  fifo : Bool

def upd {α : Type} (f : Nat → α) (k : Nat) (v : α) : Nat → α := fun i => if i = k then v else f i

/-- Members of `block_cache` (block_cache.h:167-194) and `block_cache_write_buffer` (block_cache.h:44-47);
`valid i = none` is `valid_all`; `ptr` are the client's pointer variables (slot and subblock). -/
structure St (V : Type) where
  blk : Nat → Nat → V
  bids : Nat → Nat
  retain : Nat → Nat
  dirty : Nat → Bool
  valid : Nat → Option Nat
  free : List Nat
  pend : Nat → Option Nat
  map : Nat → Option Nat
  lru : Lru
  wbuf : Nat → Nat → V
  wreq : Nat → Option Nat
  wfree : List Nat
  wbusy : List Nat
  disk : Nat → Nat → V
  ptr : Nat → Option (Nat × Nat)

section
variable {V : Type}

/-- Constructors, block_cache.h:50-60,207-228; the memory contents are arbitrary. -/
def ctor (c : Cfg) (blk wbuf disk : Nat → Nat → V) : St V :=
  { blk := blk, bids := fun _ => 0, retain := fun _ => 0, dirty := fun _ => false, valid := fun _ => some 0,
    free := (List.range c.n).reverse, pend := fun _ => none, map := fun _ => none, lru := Lru.new c.n,
    wbuf := wbuf, wreq := fun _ => none, wfree := (List.range c.m).reverse, wbusy := [], disk := disk,
    ptr := fun _ => none }

/-- Asynchronous write number `j` is done. -/
def complete (s : St V) (j : Nat) : St V :=
  match s.wreq j with
  | none => s
  | some b => { s with disk := upd s.disk b (s.wbuf j), wreq := upd s.wreq j none }

/-- With a FIFO request queue an access to block `b` is preceded by the pending writes of it. -/
def drain (c : Cfg) (s : St V) (b : Nat) : St V :=
  if c.fifo then (List.range c.m).foldl (fun s j => if s.wreq j = some b then complete s j else s) s else s

/-- The write buffer to use next, block_cache.h:66-77: a free one, or the oldest after waiting for it. -/
def freeBuf (s : St V) : Option (Nat × St V) :=
  match s.wfree with
  | j :: fr => some (j, { s with wfree := fr })
  | [] =>
    match s.wbusy with
    | [] => none
    | j :: bs => some (j, { complete s j with wbusy := bs })

/-- `blocks_[i] = write_buffer_.write(blocks_[i], bids_[i])`, block_cache.h:64-85: the slot gets the buffer's
old block in exchange. -/
def writeBack (s : St V) (i : Nat) : Option (St V) :=
  match freeBuf s with
  | none => none
  | some (j, s1) =>
    some { s1 with blk := upd s1.blk i (s1.wbuf j), wbuf := upd s1.wbuf j (s1.blk i),
                   wreq := upd s1.wreq j (some (s1.bids i)), wbusy := s1.wbusy ++ [j] }

/-- `if (reqs_[i].valid()) reqs_[i]->wait()`. -/
def wait (s : St V) (i : Nat) : St V :=
  match s.pend i with
  | none => s
  | some b => { s with blk := upd s.blk i (s.disk b), pend := upd s.pend i none }

/-- The loop of `kick_block`, block_cache.h:266-281, with `k` tries left before the last one, which throws. -/
def kickLoop (retained : Nat → Bool) : Nat → Lru → Option (Option Nat × Lru)
  | 0, p =>
    match p.kick with
    | none => none
    | some _ => some (none, p)
  | k + 1, p =>
    match p.kick with
    | none => none
    | some v =>
      match p.hit v with
      | none => none
      | some p' => if retained v then kickLoop retained k p' else some (some v, p')

/-- `kick_block`, block_cache.h:258-304, second part: what happens to the victim. -/
def evict (s : St V) (v : Nat) : Option (St V) :=
  let s1 := if s.valid v = none then wait s v else s
  match (if s1.dirty v then writeBack s1 v else some s1) with
  | none => none
  | some s2 => some { s2 with map := upd s2.map (s2.bids v) none, free := v :: s2.free }

/-- `kick_block`; the `Bool` is false if it throws. -/
def kick (c : Cfg) (s : St V) : Option (Bool × St V) :=
  match kickLoop (fun i => 0 < s.retain i) c.n s.lru with
  | none => none
  | some (none, p) => some (false, { s with lru := p })
  | some (some v, p) => (evict { s with lru := p } v).map (fun s' => (true, s'))

/-- `if (free_blocks_.empty()) kick_block();`. -/
def makeRoom (c : Cfg) (s : St V) : Option (Bool × St V) := if s.free = [] then kick c s else some (true, s)

/-- Taking a free slot for block `b`, block_cache.h:404-410,450-455. -/
def assign (s : St V) (b : Nat) : Option (Nat × St V) :=
  match s.free with
  | [] => none
  | i :: fr =>
    some (i, { s with free := fr, map := upd s.map b (some i), bids := upd s.bids i b, dirty := upd s.dirty i false,
                      retain := upd s.retain i 0 })

/-- Loading one subblock, block_cache.h:414-421. -/
def loadSub (c : Cfg) (s : St V) (b i k : Nat) : Option (St V) :=
  let s1 := drain c s b
  match s1.lru.hit i with
  | none => none
  | some p => some { s1 with blk := upd s1.blk i (upd (s1.blk i) k (s1.disk b k)), valid := upd s1.valid i (some k), lru := p }

/-- `get_subblock`, block_cache.h:361-425: the slot; `none` inside means that `kick_block` threw. -/
def get (c : Cfg) (s : St V) (b k : Nat) : Option (Option Nat × St V) :=
  match s.map b with
  | some i =>
    if s.valid i = none ∨ s.valid i = some k then
      some (some i, if s.valid i = none then wait s i else s)
    else (loadSub c s b i k).map (fun s' => (some i, s'))
  | none =>
    match makeRoom c s with
    | none => none
    | some (false, s1) => some (none, s1)
    | some (true, s1) =>
      match assign s1 b with
      | none => none
      | some (i, s2) => (loadSub c s2 b i k).map (fun s' => (some i, s'))

/-- Starting to read a whole block, block_cache.h:458-461. -/
def loadAll (c : Cfg) (s : St V) (b i : Nat) : Option (St V) :=
  let s1 := drain c s b
  match s1.lru.hit i with
  | none => none
  | some p => some { s1 with pend := upd s1.pend i (some b), valid := upd s1.valid i none, lru := p }

/-- `prefetch_block`, block_cache.h:429-462; the `Bool` is false if `kick_block` threw. -/
def prefetch (c : Cfg) (s : St V) (b : Nat) : Option (Bool × St V) :=
  match s.map b with
  | some i =>
    if s.valid i = none then
      match s.lru.hit i with
      | none => none
      | some p => some (true, { s with lru := p })
    else (loadAll c s b i).map (fun s' => (true, s'))
  | none =>
    match makeRoom c s with
    | none => none
    | some (false, s1) => some (false, s1)
    | some (true, s1) =>
      match assign s1 b with
      | none => none
      | some (i, s2) => (loadAll c s2 b i).map (fun s' => (true, s'))

/-- `retain_block`, block_cache.h:312-321. -/
def retain (s : St V) (b : Nat) : Bool × St V :=
  match s.map b with
  | none => (false, s)
  | some i => (true, { s with retain := upd s.retain i (s.retain i + 1) })

/-- `release_block`, block_cache.h:329-341. -/
def release (s : St V) (b : Nat) : Bool × St V :=
  match s.map b with
  | none => (false, s)
  | some i => if s.retain i = 0 then (false, s) else (true, { s with retain := upd s.retain i (s.retain i - 1) })

/-- `make_dirty`, block_cache.h:347-368. -/
def makeDirty (c : Cfg) (s : St V) (b : Nat) : Bool × St V :=
  match s.map b with
  | none => (false, s)
  | some i =>
    let s1 := if s.valid i = none then s
      else
        let s0 := drain c s b
        { s0 with pend := upd s0.pend i (some b), valid := upd s0.valid i none }
    let s2 := wait s1 i
    (true, { s2 with dirty := upd s2.dirty i true })

/-- One round of the loop of `flush`, block_cache.h:467-479, for slot `i`. -/
def flushSlot (s : St V) (i : Nat) : Option (St V) :=
  if s.map (s.bids i) = some i ∧ s.dirty i = true then
    (writeBack s i).map (fun s' => { s' with dirty := upd s'.dirty i false })
  else some s

def flushSlots (s : St V) : List Nat → Option (St V)
  | [] => some s
  | i :: is => (flushSlot s i).bind (fun s' => flushSlots s' is)

/-- `write_buffer_.flush()`, block_cache.h:87-99. -/
def wflush (c : Cfg) (s : St V) : St V :=
  { s.wbusy.foldl complete s with wbusy := [], wfree := (List.range c.m).reverse }

/-- `flush`, block_cache.h:465-481; `order` is the iteration order of `bid_map_`. -/
def flush (c : Cfg) (s : St V) (order : List Nat) : Option (St V) := (flushSlots s order).map (wflush c)

/-- `clear`, block_cache.h:484-498. -/
def clear (c : Cfg) (s : St V) : St V :=
  { s with free := (List.range c.n).reverse, pend := fun _ => none, map := fun _ => none }

/-- A block is written past the cache, as `buffered_writer` does. -/
def put (c : Cfg) (s : St V) (b : Nat) (x : Nat → V) : St V :=
  let s1 := drain c s b
  { s1 with disk := upd s1.disk b x }

def setPtr (s : St V) (h : Nat) (p : Option (Nat × Nat)) : St V := { s with ptr := upd s.ptr h p }

/-- The answer of a call that may throw or be undefined. -/
def answer (s : St V) : Option (Bool × St V) → St V × Out V
  | none => (s, .ub)
  | some (true, s') => (s', .unit)
  | some (false, s') => (s', .full)

/-- One event. -/
def step (c : Cfg) (s : St V) : Op V → St V × Out V
  | .get b k h =>
    match get c s b k with
    | none => (s, .ub)
    | some (none, s') => (s', .full)
    | some (some i, s') => (setPtr s' h (some (i, k)), .unit)
  | .prefetch b => answer s (prefetch c s b)
  | .retain b => ((retain s b).2, .bool (retain s b).1)
  | .release b => ((release s b).2, .bool (release s b).1)
  | .makeDirty b => ((makeDirty c s b).2, .bool (makeDirty c s b).1)
  | .flush order => answer s ((flush c s order).map (fun s' => (true, s')))
  | .clear => (clear c s, .unit)
  | .read h =>
    match s.ptr h with
    | none => (s, .ub)
    | some (i, k) => (s, .val (s.blk i k))
  | .write h v =>
    match s.ptr h with
    | none => (s, .ub)
    | some (i, k) => ({ s with blk := upd s.blk i (upd (s.blk i) k v) }, .unit)
  | .put b x => (put c s b x, .unit)
  | .complete j => (complete s j, .unit)

/-- The answers of a history. -/
def run (c : Cfg) (s : St V) : List (Op V) → List (Out V)
  | [] => []
  | op :: ops => (step c s op).2 :: run c (step c s op).1 ops

end

end BlockCache
