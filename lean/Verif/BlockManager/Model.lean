import Verif.DiskAlloc.Props

/-!
# Model of `stxxl::block_manager`

Models `/repo/include/stxxl/bits/mng/block_manager.h` and `/repo/lib/mng/block_manager.cpp`. The files are
represented by their allocator id, which the constructor makes equal to the disk index
(`block_manager.cpp:54`, `create_file(cfg, mode, i)`). `file::discard` has no effect on allocation and is left out.
-/

namespace Stxxl.BlockManager
open Stxxl.DiskAlloc

/-- Data members, `block_manager.h:65-80`. `disks` stands for `disk_allocators` (with `ndisks` its length). -/
structure Mgr where
  disks : List State
  totalAllocation : Int
  currentAllocation : Int
  maximumAllocation : Int

/-- Constructor, `block_manager.cpp:32-83`: one allocator per configured disk `(size, autogrow)`. -/
def initDisks : List (Int × Bool) → Except Err (List State)
  | [] => .ok []
  | c :: cs =>
    match DiskAlloc.init c.1 c.2 with
    | .error e => .error e
    | .ok s =>
      match initDisks cs with
      | .error e => .error e
      | .ok ss => .ok (s :: ss)

/-- A block id: `BID` (`bid.h`), `storage == 0`, a block of a user file that is not managed, or block `b` of the
managed disk `d`. -/
inductive Bid where
  | invalid
  | unmanaged
  | on (d : Nat) (b : Region)
  deriving DecidableEq

/-- The second loop of `new_blocks_int`, `block_manager.h:211-218`: on every disk `i ≥ i₀` allocate `bl[i]` blocks.
Returns the disks, the arrays `disk_bids` filled so far and the exception, if one was thrown. -/
def allocDisks (bs : Int) (bl : Nat → Nat) : Nat → List State → List State × List (List Region) × Option Err
  | _, [] => ([], [], none)
  | i, s :: ss =>
    if bl i = 0 then
      let r := allocDisks bs bl (i + 1) ss
      (s :: r.1, [] :: r.2.1, r.2.2)
    else
      match newBlocks s bs (List.replicate (bl i) bs) with
      | (s', .error e) => (s' :: ss, [[]], some e)
      | (s', .ok b) =>
        let r := allocDisks bs bl (i + 1) ss
        (s' :: r.1, b :: r.2.1, r.2.2)

/-- `bl[disk]++` -/
def bump (bl : Nat → Nat) (d : Nat) : Nat → Nat := fun x => if x = d then bl x + 1 else bl x

/-- The last loop, `block_manager.h:220-229`; `bl` are the running counters. `none` = out of bounds. -/
def gather (bids : List (List Region)) : (Nat → Nat) → List Nat → Option (List (Nat × Region))
  | _, [] => some []
  | bl, d :: ds =>
    match bids[d]? with
    | none => none
    | some bd =>
      match bd[bl d]? with
      | none => none
      | some b => (gather bids (bump bl d) ds).map (fun out => (d, b) :: out)

/-- The first loop, `block_manager.h:201-207`: the counters `bl` after the disks in the list were chosen. -/
def countDisks : List Nat → Nat → Nat
  | [] => fun _ => 0
  | d :: ds => bump (countDisks ds) d

/-- What `new_blocks_int` returns: `ub` for an out-of-range disk number or index. -/
inductive Res where
  | ok (out : List (Nat × Region))
  | thrown (e : Err) (allocated : List (List Region))
  | ub

/-- `new_blocks_int`, `block_manager.h:185-236`; `f` is the disk-assign functor, `bs` the block size. -/
def newBlocksInt (m : Mgr) (bs : Int) (n : Nat) (f : Nat → Nat) (offset : Nat) : Mgr × Res :=
  let chosen := (List.range n).map (fun i => f (offset + i))
  if chosen.any (fun d => decide (m.disks.length ≤ d)) then (m, .ub)
  else
    match allocDisks bs (countDisks chosen) 0 m.disks with
    | (disks, bids, some e) => ({ m with disks := disks }, .thrown e bids)
    | (disks, bids, none) =>
      match gather bids (fun _ => 0) chosen with
      | none => ({ m with disks := disks }, .ub)
      | some out =>
        ({ disks := disks
           totalAllocation := m.totalAllocation + n * bs
           currentAllocation := m.currentAllocation + n * bs
           maximumAllocation := max m.maximumAllocation (m.currentAllocation + n * bs) }, .ok out)

/-- `delete_block`, `block_manager.h:238-255`. -/
def deleteBlock (m : Mgr) : Bid → Except Err Mgr
  | .invalid => .ok m
  | .unmanaged => .ok m
  | .on d b =>
    match m.disks[d]? with
    | none => .error .assertFailed
    | some s =>
      match DiskAlloc.deleteBlock s b with
      | .error e => .error e
      | .ok s' => .ok { m with disks := m.disks.set d s', currentAllocation := m.currentAllocation - b.2 }

/-- `delete_blocks`, `block_manager.h:257-266`. An exception stops the loop. -/
def deleteBlocks (m : Mgr) : List Bid → Except Err Mgr
  | [] => .ok m
  | b :: bs =>
    match deleteBlock m b with
    | .error e => .error e
    | .ok m' => deleteBlocks m' bs

/-- `get_total_bytes`, `block_manager.cpp:99-107`. -/
def getTotalBytes (m : Mgr) : Int := (m.disks.map DiskAlloc.getTotalBytes).sum
/-- `get_free_bytes`, `block_manager.cpp:109-117`. -/
def getFreeBytes (m : Mgr) : Int := (m.disks.map DiskAlloc.getFreeBytes).sum

end Stxxl.BlockManager
