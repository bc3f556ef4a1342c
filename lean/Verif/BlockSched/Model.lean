/-!
# `block_scheduler`: swappable blocks under a memory limit

Model of include/stxxl/bits/mng/block_scheduler.h.  All line numbers in this file refer to it.

Modelled: `swappable_block` (:36-226), `block_scheduler` (:243-540) and the algorithms
`online_lru` (:590-735), `simulation` (:738-875) and `offline_lfd` (:878-1117).

Simplifications:
* `block_scheduler_algorithm_offline_lru_prefetching` (:1119-1844), which does asynchronous
  prefetching through completion handlers, is not modelled.
* I/O is synchronous: `clean_async` writes at once.  `flush` (:521-538) puts an internal block on the
  free list before the write has finished, but hands out no block before it has waited.
* The contents of a block are one value of type `α`.  A client's partial write is a read followed by
  a whole write.
* The queues of evictable blocks are lists; that `addressable_fifo_queue` and
  `addressable_priority_queue` behave so is C37.
* The block manager is a function `pick` that yields a block address not in use (C01-C06).
-/

namespace Stxxl.BlockSched

/-- Outcome of a call: normal, `oom` = the assertion "not enough memory available" (:619, :934),
`ub` = another assertion fails or a container is accessed out of range. -/
inductive Out (β : Type) where
  | ok (x : β)
  | oom
  | ub
  deriving DecidableEq, Repr

/-- sequencing -/
def Out.bind {β γ : Type} (x : Out β) (f : β → Out γ) : Out γ :=
  match x with
  | .ok y => f y
  | .oom => .oom
  | .ub => .ub

/-- `swappable_block` (:36-49): `external_data` (`none` = not valid), `internal_data`
(`none` = NULL, otherwise the number of the internal block), `dirty`, `reference_count` -/
structure SB where
  ext : Option Nat
  int : Option Nat
  dirty : Bool
  rc : Nat
  deriving DecidableEq, Repr

/-- constructor, :62-65 -/
def SB.blank : SB := { ext := none, int := none, dirty := false, rc := 0 }
/-- `is_external`, :82-83 -/
def SB.isExternal (b : SB) : Bool := b.ext.isSome && !b.dirty
/-- `is_initialized`, :94-95 -/
def SB.isInitialized (b : SB) : Bool := b.int.isSome || b.isExternal
/-- `is_evictable`, :90-91 -/
def SB.isEvictable (b : SB) : Bool := decide (b.rc = 0) && b.int.isSome

/-- `block_scheduler_operation`, :277-286 -/
inductive POp where
  | acquire | acquireUninit | release | releaseDirty | deinit | init | extract
  deriving DecidableEq, Repr

/-- `prediction_sequence_element`, :288-297 -/
structure PEl where
  op : POp
  sb : Nat
  time : Nat
  deriving DecidableEq, Repr

/-- the current algorithm object with its own attributes -/
inductive Algo where
  | lru
  /-- `next_use`, :923 -/
  | lfd (nextUse : List (Bool × Nat))
  /-- `time_count`, `last_op_release`, `reference_counts`, `prediction_sequence`, :753-756, :566 -/
  | sim (time : Nat) (lastRel : Bool) (rcs : Nat → Int) (pred : List PEl)

/-- parameters: `max_internal_blocks` (:311), the effect of `fill_default` (`none`: the version of
the base class, :134, which does nothing; `some v`: a subclass fills the block with `v`), and the
block manager's choice of a block address (`new_block`, :51-52) -/
structure Cfg (α : Type) where
  maxBlocks : Nat
  fill : Option α
  pick : List Nat → Nat
  pick_fresh : ∀ l : List Nat, pick l ∉ l

/-- `block_scheduler` (:311-326).  `mem` is the contents of the internal blocks, `nalloc` the number
of internal blocks allocated so far, `disk` the contents of external blocks, `used` the external
blocks in use (the scheduler's and the client's), `dummy` is `dummy_block` of the simulation (:757).
`evict` is the queue of the current algorithm: (priority, block). -/
structure St (α : Type) where
  sbs : Nat → SB
  nsb : Nat
  mem : Nat → α
  disk : Nat → α
  used : List Nat
  free : List Nat
  remaining : Nat
  nalloc : Nat
  freeSb : List Nat
  evict : List (Nat × Nat)
  algo : Algo
  dummy : α

variable {α : Type}

/-- functional update -/
def upd {β : Type} (f : Nat → β) (i : Nat) (v : β) : Nat → β := fun k => if k = i then v else f k

/-- constructor of the scheduler, :357-364 -/
def St.new (c : Cfg α) (junk : α) : St α :=
  { sbs := fun _ => SB.blank, nsb := 0, mem := fun _ => junk, disk := fun _ => junk, used := [],
    free := [], remaining := c.maxBlocks, nalloc := 0, freeSb := [], evict := [], algo := .lru, dummy := junk }

/-- `get_free_internal_block`, :321-345 (`max_internal_blocks_alloc_at_once` = 128, :542) -/
def getFreeBs (s : St α) : Option (Nat × St α) :=
  match s.free with
  | b :: r => some (b, { s with free := r })
  | [] =>
    if s.remaining > 0 then
      let n := min 128 s.remaining
      some (s.nalloc, { s with remaining := s.remaining - n, nalloc := s.nalloc + n,
                               free := (List.range (n - 1)).map fun k => s.nalloc + 1 + k })
    else none

/-- `return_free_internal_block`, :348-349 -/
def returnFree (s : St α) (b : Nat) : St α := { s with free := b :: s.free }

/-- `clean_async` / `clean_sync` with `get_external_block`, :51-52, :158-178 -/
def clean (c : Cfg α) (s : St α) (i : Nat) : St α :=
  let b := s.sbs i
  if b.dirty then
    let e := b.ext.getD (c.pick s.used)
    { s with
      sbs := upd s.sbs i { b with ext := some e, dirty := false },
      used := if b.ext.isSome then s.used else e :: s.used,
      disk := match b.int with
        | some m => upd s.disk e (s.mem m)
        | none => s.disk }
  else s

/-- `detach_internal_block`, :189-196 -/
def detach (c : Cfg α) (s : St α) (i : Nat) : Out (Nat × St α) :=
  match (s.sbs i).int with
  | none => .ub
  | some m =>
    if (s.sbs i).rc = 0 then
      let s' := clean c s i
      .ok (m, { s' with sbs := upd s'.sbs i { s'.sbs i with int := none } })
    else .ub

/-- the first element in the order of `addressable_priority_queue` with `priority` (:911-913 and
common/addressable_queues.h:114-123): the largest `p`, among equals the smallest block -/
def best : (Nat × Nat) → List (Nat × Nat) → (Nat × Nat)
  | x, [] => x
  | x, y :: r => if y.1 > x.1 ∨ (y.1 = x.1 ∧ y.2 < x.2) then best y r else best x r

/-- `erase` of a key in the queues -/
def eraseKey (i : Nat) (l : List (Nat × Nat)) : List (Nat × Nat) := l.filter fun x => x.2 ≠ i

/-- `evictable_blocks_pop`: the oldest of the FIFO (:661-662), the top of the stack (:800-805), the
first of the priority queue (:1002-1003) -/
def popEvict (s : St α) : Option (Nat × St α) :=
  match s.evict with
  | [] => none
  | x :: r =>
    match s.algo with
    | .lfd _ => some ((best x r).2, { s with evict := eraseKey (best x r).2 (x :: r) })
    | _ => some (x.2, { s with evict := r })

/-- `get_free_internal_block` of the algorithms, :613-621, :928-936 -/
def getFree (c : Cfg α) (s : St α) : Out (Nat × St α) :=
  match getFreeBs s with
  | some r => .ok r
  | none =>
    match popEvict s with
    | none => .oom
    | some (j, s') => detach c s' j

/-- `attach_internal_block`, :181-185 -/
def attach (s : St α) (i m : Nat) : St α := { s with sbs := upd s.sbs i { s.sbs i with int := some m } }

/-- `read_sync`, :140-154 -/
def readSync (s : St α) (i : Nat) : Out (St α) :=
  match (s.sbs i).int, (s.sbs i).ext with
  | some m, some e => .ok { s with sbs := upd s.sbs i { s.sbs i with dirty := false }, mem := upd s.mem m (s.disk e) }
  | _, _ => .ub

/-- `swappable_block::acquire`, :106-111 -/
def incRc (s : St α) (i : Nat) : St α := { s with sbs := upd s.sbs i { s.sbs i with rc := (s.sbs i).rc + 1 } }

/-- `acquire` of the LRU and the LFD algorithm (same code), :664-700, :1005-1041 -/
def acquireReal (c : Cfg α) (s : St α) (i : Nat) (uninit : Bool) : Out (St α) :=
  let b := s.sbs i
  if b.int.isSome then
    .ok (incRc (if b.rc = 0 then { s with evict := eraseKey i s.evict } else s) i)
  else if b.isInitialized then
    (getFree c s).bind fun r =>
      let s1 := attach r.2 i r.1
      if uninit then .ok (incRc s1 i)
      else (readSync s1 i).bind fun s2 => .ok (incRc s2 i)
  else
    (getFree c s).bind fun r =>
      let s1 := incRc (attach r.2 i r.1) i
      if uninit then .ok s1
      else .ok (match c.fill with
        | none => s1
        | some v => { s1 with mem := upd s1.mem r.1 v })

/-- `priority`, :894-913, with 64-bit `unsigned_type` -/
def prio (b : SB) (t : Bool × Nat) : Nat :=
  if t.1 then (t.2 * 4) % 2 ^ 64 + (if b.dirty then 0 else 2) + (if b.ext.isSome then 1 else 0)
  else (2 ^ 64 - 4) + t.2 % 4

/-- the part common to both `release`: `make_dirty_if`, `release`, and what happens to a block no
longer acquired; `ins` puts it into the queue, :702-717, :1060-1073 -/
def releaseReal (c : Cfg α) (s : St α) (i : Nat) (dirty : Bool) (ins : St α → List (Nat × Nat)) : Out (St α) :=
  let b := s.sbs i
  if b.rc = 0 then .ub
  else
    let b' := { b with dirty := dirty || b.dirty, rc := b.rc - 1 }
    let s1 := { s with sbs := upd s.sbs i b' }
    if b'.rc = 0 then
      if b'.dirty || b'.isExternal then .ok { s1 with evict := ins s1 }
      else (detach c s1 i).bind fun r => .ok (returnFree r.2 r.1)
    else .ok s1

/-- all blocks of the queue in the order of `evictable_blocks_pop`, as the constructors of the
algorithms take them over (`init`, :626-631, :763-770, :972-981); fuel: the length of the queue -/
def popAll : Nat → St α → List Nat
  | 0, _ => []
  | n + 1, s => match popEvict s with
    | none => []
    | some (j, s') => j :: popAll n s'

/-- switching to a new `online_lru`, :633-640, :503-509.  The old object, now without evictable
blocks, is deleted. -/
def toLru (s : St α) : St α :=
  { s with evict := (popAll s.evict.length s).map fun j => (0, j), algo := .lru }

/-- the loop over the prediction sequence in `init`, :949-970: from back to front, keeping for each
block its next use, and yielding `next_use` -/
def scanPred : List PEl → (Nat → Bool × Nat) × List (Bool × Nat)
  | [] => (fun _ => (false, 1), [])
  | e :: r =>
    let (f, nu) := scanPred r
    match e.op with
    | .acquire | .acquireUninit => (upd f e.sb (true, e.time), nu)
    | .release | .releaseDirty => (f, f e.sb :: nu)
    | .deinit => (upd f e.sb (false, 0), nu)
    | .init => (upd f e.sb (false, 3), nu)
    | .extract => (upd f e.sb (false, 2), nu)

/-- `get_prediction_sequence` of the current algorithm, :582-583; empty except for simulation -/
def predOf : Algo → List PEl
  | .sim _ _ _ p => p
  | _ => []

/-- switching to a new `offline_lfd` for the prediction sequence `p`, :944-995 -/
def toLfd (s : St α) (p : List PEl) : St α :=
  { s with evict := (popAll s.evict.length s).map fun j => (prio (s.sbs j) ((scanPred p).1 j), j),
           algo := .lfd (scanPred p).2 }

/-- switching to a new `simulation`, :763-786.  The queue becomes a stack. -/
def toSim (s : St α) : St α :=
  { s with evict := ((popAll s.evict.length s).map fun j => (0, j)).reverse,
           algo := .sim 0 false (fun i => if i < s.nsb ∧ (s.sbs i).isInitialized then 1 else 0) [] }

/-- `online_lru::release`, :702-717 -/
def releaseLru (c : Cfg α) (s : St α) (i : Nat) (dirty : Bool) : Out (St α) :=
  releaseReal c s i dirty fun s1 => s1.evict ++ [(0, i)]

/-- `release` dispatched on the current algorithm, :702-717, :820-833, :1043-1075 -/
def release (c : Cfg α) (s : St α) (i : Nat) (dirty : Bool) : Out (St α) :=
  match s.algo with
  | .lru => releaseLru c s i dirty
  | .lfd [] => releaseLru c (toLru s) i dirty
  | .lfd (t :: nu) =>
    (releaseReal c s i dirty fun s1 => s1.evict ++ [(prio (s1.sbs i) t, i)]).bind fun s' =>
      .ok { s' with algo := .lfd nu }
  | .sim time lastRel rcs pred =>
    let time' := if lastRel then time else time + 1
    .ok { s with algo := .sim time' true (upd rcs i (rcs i - 1 + (if dirty then 1 else 0)))
                  (pred ++ [⟨if dirty then .releaseDirty else .release, i, time'⟩]) }

/-- `acquire` dispatched on the current algorithm, :664-700, :807-818, :1005-1041 -/
def acquire (c : Cfg α) (s : St α) (i : Nat) (uninit : Bool) : Out (St α) :=
  match s.algo with
  | .sim time _ rcs pred =>
    .ok { s with algo := .sim time false (upd rcs i (rcs i + 1))
                  (pred ++ [⟨if uninit then .acquireUninit else .acquire, i, time⟩]) }
  | _ => acquireReal c s i uninit

/-- `swappable_block::deinitialize` with `free_external_block`, :54-58, :201-212 -/
def deinitSB (s : St α) (i : Nat) : Option Nat × St α :=
  let b := s.sbs i
  (b.int, { s with sbs := upd s.sbs i { b with dirty := false, ext := none, int := none },
                   used := match b.ext with
                     | some e => s.used.erase e
                     | none => s.used })

/-- `return_free_internal_block` if not NULL -/
def returnOpt (r : Option Nat × St α) : St α :=
  match r.1 with
  | some m => returnFree r.2 m
  | none => r.2

/-- `deinitialize`, :719-726, :835-841, :1077-1084 -/
def deinit (s : St α) (i : Nat) : Out (St α) :=
  match s.algo with
  | .sim time lr rcs pred => .ok { s with algo := .sim time lr (upd rcs i 0) (pred ++ [⟨.deinit, i, time⟩]) }
  | _ =>
    if (s.sbs i).rc ≠ 0 then .ub
    else
      let s1 := if (s.sbs i).isEvictable then { s with evict := eraseKey i s.evict } else s
      .ok (returnOpt (deinitSB s1 i))

/-- `initialize`, :216-220, :728-732, :843-849, :1086-1090 -/
def init (s : St α) (i e : Nat) : Out (St α) :=
  match s.algo with
  | .sim time lr rcs pred => .ok { s with algo := .sim time lr (upd rcs i 1) (pred ++ [⟨.init, i, time⟩]) }
  | _ =>
    if (s.sbs i).isInitialized then .ub
    else .ok { s with sbs := upd s.sbs i { s.sbs i with ext := some e } }

/-- `extract_external_block`, :224-230, :734-742, :851-858, :1092-1100.  The result `none` is an
invalid external block. -/
def extract (c : Cfg α) (s : St α) (i : Nat) : Out (Option Nat × St α) :=
  match s.algo with
  | .sim time lr rcs pred => .ok (none, { s with algo := .sim time lr (upd rcs i 0) (pred ++ [⟨.extract, i, time⟩]) })
  | _ =>
    let s1 := if (s.sbs i).isEvictable then { s with evict := eraseKey i s.evict } else s
    let r : Out (St α) :=
      if (s1.sbs i).int.isSome then (detach c s1 i).bind fun r => .ok (returnFree r.2 r.1)
      else .ok s1
    r.bind fun s2 => .ok ((s2.sbs i).ext, { s2 with sbs := upd s2.sbs i { s2.sbs i with ext := none } })

/-- `is_initialized`, :577-578, :866-869 -/
def isInit (s : St α) (i : Nat) : Bool :=
  match s.algo with
  | .sim _ _ rcs _ => decide (rcs i > 0)
  | _ => (s.sbs i).isInitialized

/-- smallest element of the priority queue `free_swappable_blocks`, :324-325 -/
def minOf : Nat → List Nat → Nat
  | x, [] => x
  | x, y :: r => minOf (min x y) r

/-- `allocate_swappable_block`, :466-483, with `swappable_blocks_resize` of the simulation (:860-863) -/
def alloc (s : St α) : Nat × St α :=
  match s.freeSb with
  | [] => (s.nsb, { s with sbs := upd s.sbs s.nsb SB.blank, nsb := s.nsb + 1,
                           algo := match s.algo with
                             | .sim t l rcs p => .sim t l (upd rcs s.nsb 0) p
                             | a => a })
  | x :: r => (minOf x r, { s with freeSb := s.freeSb.erase (minOf x r) })

/-- `free_swappable_block`, :487-491 -/
def freeBlock (s : St α) (i : Nat) : Out (St α) :=
  (deinit s i).bind fun s' => .ok { s' with freeSb := i :: s'.freeSb }

/-- loop of `flush`, :521-538; fuel: the number of evictable blocks -/
def flushLoop (c : Cfg α) : Nat → St α → Out (St α)
  | 0, s => .ok s
  | n + 1, s => match popEvict s with
    | none => .ok s
    | some (j, s1) =>
      (detach c (clean c s1 j) j).bind fun r => flushLoop c n (returnFree r.2 r.1)

/-- `flush`, :521-538 -/
def flush (c : Cfg α) (s : St α) : Out (St α) := flushLoop c s.evict.length s

/-- loop of the destructors of the algorithms: evictable blocks get deinitialized, :642-652, :788-798,
:988-998 -/
def dropEvict : List Nat → St α → St α
  | [], s => s
  | j :: r, s => dropEvict r (returnOpt (deinitSB s j))

/-- loop of the destructor of the scheduler over all swappable blocks, :374-383; it deinitializes
those that are not acquired and forgets their internal blocks, which are deallocated as a whole -/
def dropAll : Nat → St α → St α
  | 0, s => s
  | n + 1, s =>
    let s' := dropAll n s
    if (s'.sbs n).rc = 0 then (deinitSB s' n).2 else s'

/-- `~block_scheduler`, :366-394 -/
def destroy (s : St α) : St α :=
  let s1 := dropEvict (popAll s.evict.length s) { s with evict := [] }
  if s1.freeSb.length ≠ s1.nsb then dropAll s1.nsb s1 else s1

/-! ## Operations of a client -/

/-- calls of a client; `newExt`, `readExt`, `writeExt`, `delExt` are its own external blocks, which it
can hand over with `init` and gets with `extract` -/
inductive Op (α : Type) where
  | alloc
  | free (i : Nat)
  | acquire (i : Nat) (uninit : Bool)
  | read (i : Nat)
  | write (i : Nat) (v : α)
  | release (i : Nat) (dirty : Bool)
  | deinit (i : Nat)
  | init (i e : Nat)
  | extract (i : Nat)
  | isInit (i : Nat)
  | timestep
  | flush
  | toLru
  | toLfd (pred : Option (List PEl))
  | toSim
  | newExt (v : α)
  | readExt (e : Nat)
  | writeExt (e : Nat) (v : α)
  | delExt (e : Nat)
  deriving DecidableEq

/-- results -/
inductive Res (α : Type) where
  | unit
  | idx (i : Nat)
  | val (v : α)
  | bool (b : Bool)
  | ext (e : Option Nat)
  deriving DecidableEq, Repr

/-- access to the data of an acquired block (`get_internal_block`, :123-134); in simulation mode the
reference returned by `acquire` is that of `dummy_block` (:817) -/
def readOp (s : St α) (i : Nat) : Out (St α × Res α) :=
  match s.algo with
  | .sim .. => .ok (s, .val s.dummy)
  | _ => match (s.sbs i).int with
    | some m => if (s.sbs i).rc = 0 then .ub else .ok (s, .val (s.mem m))
    | none => .ub

/-- writing through the reference -/
def writeOp (s : St α) (i : Nat) (v : α) : Out (St α × Res α) :=
  match s.algo with
  | .sim .. => .ok ({ s with dummy := v }, .unit)
  | _ => match (s.sbs i).int with
    | some m => if (s.sbs i).rc = 0 then .ub else .ok ({ s with mem := upd s.mem m v }, .unit)
    | none => .ub

/-- `explicit_timestep`, :871-872 -/
def timestep (s : St α) : St α :=
  match s.algo with
  | .sim t l rcs p => { s with algo := .sim (t + 1) l rcs p }
  | _ => s

/-- one call.  A call for a block that does not exist accesses `swappable_blocks` out of range. -/
def step (c : Cfg α) (s : St α) : Op α → Out (St α × Res α)
  | .alloc => .ok ((alloc s).2, .idx (alloc s).1)
  | .free i => if i < s.nsb then (freeBlock s i).bind fun s' => .ok (s', .unit) else .ub
  | .acquire i u => if i < s.nsb then (acquire c s i u).bind fun s' => .ok (s', .unit) else .ub
  | .read i => if i < s.nsb then readOp s i else .ub
  | .write i v => if i < s.nsb then writeOp s i v else .ub
  | .release i d => if i < s.nsb then (release c s i d).bind fun s' => .ok (s', .unit) else .ub
  | .deinit i => if i < s.nsb then (deinit s i).bind fun s' => .ok (s', .unit) else .ub
  | .init i e => if i < s.nsb then (init s i e).bind fun s' => .ok (s', .unit) else .ub
  | .extract i => if i < s.nsb then (extract c s i).bind fun r => .ok (r.2, .ext r.1) else .ub
  | .isInit i => if i < s.nsb then .ok (s, .bool (isInit s i)) else .ub
  | .timestep => .ok (timestep s, .unit)
  | .flush => (flush c s).bind fun s' => .ok (s', .unit)
  | .toLru => .ok (toLru s, .unit)
  | .toLfd p =>
    if (p.getD (predOf s.algo)).all fun e => decide (e.sb < s.nsb) then
      .ok (toLfd s (p.getD (predOf s.algo)), .unit)
    else .ub
  | .toSim => .ok (toSim s, .unit)
  | .newExt v => .ok ({ s with used := c.pick s.used :: s.used, disk := upd s.disk (c.pick s.used) v }, .ext (some (c.pick s.used)))
  | .readExt e => .ok (s, .val (s.disk e))
  | .writeExt e v => .ok ({ s with disk := upd s.disk e v }, .unit)
  | .delExt e => .ok ({ s with used := s.used.erase e }, .unit)

/-- a run of the scheduler with the results of the calls -/
inductive Run (c : Cfg α) : St α → List (Op α × Res α) → St α → Prop
  | nil (s : St α) : Run c s [] s
  | cons {s s1 s2 : St α} {o : Op α} {r : Res α} {tr : List (Op α × Res α)} :
      step c s o = .ok (s1, r) → Run c s1 tr s2 → Run c s ((o, r) :: tr) s2

end Stxxl.BlockSched
