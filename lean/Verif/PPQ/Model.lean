import Verif.PPQ.Spec
/-!
Model of `stxxl::parallel_priority_queue` (include/stxxl/bits/containers/parallel_priority_queue.h; "ppq.h" below).

`lt x y` is `m_inv_compare(x, y)` (ppq.h:1915-1930), that is: `x` is to be extracted before `y`.
Everything is the release build (`NDEBUG`), except that `Cfg.asserts` switches on the assertion of the constructor of `internal_array`.
`none` stands for undefined behaviour, `abort()` and not terminating.

Memory accounting (`m_mem_left`) is not modelled: the outcome of each test of it, and which prefetched blocks have arrived when a
request is polled, are given by an `Oracle` that every operation has as an argument and over which the theorems quantify. Statistics,
block identifiers, the requests and the contents of the block pool are not modelled; only the number of prefetch blocks is.
The tests of `m_in_bulk_push`, `m_limit_extract` in the operations are assertions and are part of `Legal` (Spec.lean).
-/
namespace Stxxl.PPQ
variable {α : Type}

/-- Parameters of the queue. `mm` is `potentially_parallel::multiway_merge` on iterator pairs: the output and the advanced sequences. -/
structure Cfg (α : Type) where
  /-- `m_inv_compare` -/
  lt : α → α → Bool
  /-- `potentially_parallel::multiway_merge` with `m_inv_compare`: sequences, number of elements ↦ output, what is left -/
  mm : List (List α) → Nat → Option (List α × List (List α))
  /-- `m_num_insertion_heaps` -/
  numHeaps : Nat
  /-- `m_insertion_heap_capacity` -/
  heapCap : Nat
  /-- `m_extract_buffer_limit` -/
  ebLimit : Nat
  /-- `external_array::block_items` -/
  B : Nat
  /-- `m_num_read_blocks_per_ea * n`, truncated -/
  readBlocks : Nat → Nat
  /-- `c_max_internal_level_size` -/
  maxIL : Nat
  /-- `c_max_external_level_size` -/
  maxEL : Nat
  /-- not `NDEBUG` -/
  asserts : Bool
  /-- result of a comparison with the element behind the end of the extract buffer -/
  junk : Bool

/-- The outcomes of the tests of `m_mem_left` and of polling requests during one call. -/
structure Oracle where
  /-- `m_mem_left >= mem_free` in `flush_ia_ea_until_memory_free` (ppq.h:3379), n-th time -/
  memFree : Nat → Bool
  /-- not worth to make an external array (`flush_internal_arrays`, ppq.h:4076-4081) -/
  mergeInstead : Bool
  /-- memory suffices to merge the internal arrays of this level (ppq.h:4457) -/
  memIA : Nat → Bool
  /-- memory suffices to merge the external arrays of this level (ppq.h:4191) -/
  memEA : Nat → Bool
  /-- number of further blocks that have already been read, n-th call of `wait_next_blocks` (ppq.h:1061) -/
  poll : Nat → Nat
  /-- number of blocks of the k-th array read in the n-th iteration of merging external arrays (ppq.h:4251-4309) -/
  loads : Nat → Nat → Nat
  /-- number of iterations of merging external arrays we are willing to wait for -/
  fuel : Nat
  /-- number of prefetch blocks added while merging external arrays (ppq.h:4245-4250) -/
  extraBlocks : Nat

/-- An insertion heap (ppq.h:2069-2080). `ord` is the part of the vector that has heap order, listed in sorted order (only its first
element is ever looked at; which of several equivalent elements comes to the front of a heap is thereby simplified), `pend` the
elements appended by `bulk_push` since, whose number is `heap_add_size`. -/
structure Hp (α : Type) where
  ord : List α
  pend : List α

/-- `internal_array` (ppq.h:267-418): `items` is `m_values` from `m_min_index` on. -/
structure IA (α : Type) where
  items : List α
  level : Nat

/-- `external_array` (ppq.h:442-1200) after the write phase: `data` is what was written, `idx`, `endIdx`, `unh` are `m_index`,
`m_end_index`, `m_unhinted_block`. `m_size` is `m_capacity - m_index` throughout. -/
structure EA (α : Type) where
  data : List α
  idx : Nat
  endIdx : Nat
  unh : Nat
  level : Nat

/-- `minima_tree::Types` (ppq.h:1688-1693) -/
inductive Ty | H | I | E
  deriving DecidableEq, Repr

structure S (α : Type) where
  heaps : List (Hp α)
  /-- `m_heaps_size`, `m_internal_size`, `m_external_size` -/
  hsize : Nat
  isize : Nat
  esize : Nat
  /-- `m_extract_buffer` from `m_extract_buffer_index` on; its length is `m_extract_buffer_size` -/
  eb : List α
  ias : List (IA α)
  eas : List (EA α)
  /-- `m_minima.m_heaps`: for each player the value of its last notification (none: inactive) -/
  mh : List (Option α)
  /-- `m_minima.m_ia` -/
  mia : List (Option α)
  /-- players `HEAP` and `IA` of `m_minima.m_head` with the value of their last notification, whether `EB` is active, and the winner -/
  hdH : Option α
  hdI : Option α
  hdE : Bool
  root : Option Ty
  /-- `m_external_min_tree` -/
  emt : List (Option α)
  /-- `m_num_read_blocks` and `m_pool.free_size_prefetch()` -/
  R : Nat
  free : Nat
  /-- `m_in_bulk_push`, `m_limit_extract` with `m_limit_element`, `m_limit_has_full_range` -/
  bulk : Bool
  /-- `m_bulk_first_delayed_external_array` -/
  delayed : Nat
  lim : Option α
  full : Bool
  /-- an element behind the end of the extract buffer was read -/
  oob : Bool

/-! ### Winner trees

A winner tree plays ties for the right player (winner_tree.h:252-259), so that the winner is the rightmost of the players with a least
value (C39: as long as all changes are notified). -/

/-- Index and value of the rightmost least key; `winner_tree::top` (winner_tree.h:187). -/
def argminFrom (lt : α → α → Bool) : Nat → List (Option α) → Option (Nat × α)
  | _, [] => none
  | i, none :: l => argminFrom lt (i + 1) l
  | i, some x :: l =>
    match argminFrom lt (i + 1) l with
    | none => some (i, x)
    | some (j, y) => if lt x y then some (i, x) else some (j, y)

def argmin (lt : α → α → Bool) (l : List (Option α)) : Option (Nat × α) := argminFrom lt 0 l

/-- One game of a winner tree (winner_tree.h:252-259). -/
def game (lt : α → α → Bool) (a b : Option (Ty × α)) : Option (Ty × α) :=
  match a, b with
  | none, b => b
  | a, none => a
  | some x, some y => if lt x.2 y.2 then some x else some y

/-- The winner of `m_head` with the current values of the players (`head_comp`, ppq.h:1595-1630; three players: `HEAP` plays `IA`, the
winner plays `EB`). -/
def headGame (c : Cfg α) (s : S α) : Option Ty :=
  let n1 := game c.lt (s.hdH.map (Ty.H, ·)) (s.hdI.map (Ty.I, ·))
  if s.hdE then
    match s.eb with
    | x :: _ => (game c.lt n1 (some (Ty.E, x))).map (·.1)
    | [] => match n1 with
      | none => some .E
      | some y => some (if c.junk then y.1 else .E)
  else n1.map (·.1)

/-- A replay in `m_head` after the value of a player has changed. If the extract buffer is an active player although it is used up, the
game with it reads the element behind its end. -/
def headEvent (c : Cfg α) (s : S α) : S α :=
  { s with
    root := headGame c s
    oob := s.oob || (s.hdE && s.eb.isEmpty && (s.hdH.isSome || s.hdI.isSome)) }

/-- `m_head.notify_change(HEAP)`, or `deactivate_player(HEAP)` if no heap is active (ppq.h:1731, 1755-1762). -/
def headH (c : Cfg α) (s : S α) : S α := headEvent c { s with hdH := (argmin c.lt s.mh).map (·.2) }

/-- The same for `IA` (ppq.h:1744, 1751, 1771-1778). -/
def headI (c : Cfg α) (s : S α) : S α := headEvent c { s with hdI := (argmin c.lt s.mia).map (·.2) }

/-- `update_heap` if the heap is not empty, otherwise `deactivate_heap` (ppq.h:1728-1732, 1755-1762). -/
def updHeap (c : Cfg α) (s : S α) (p : Nat) : S α :=
  headH c { s with mh := s.mh.set p ((s.heaps[p]?).bind (·.ord.head?)) }

/-- `clear_heaps` (ppq.h:1781-1785) -/
def clearHeaps (c : Cfg α) (s : S α) : S α :=
  headEvent c { s with mh := s.mh.map fun _ => none, hdH := none }

/-- `update_extract_buffer` (ppq.h:1735-1738) -/
def updEB (c : Cfg α) (s : S α) : S α := headEvent c { s with hdE := true }

/-- `deactivate_extract_buffer` (ppq.h:1765-1768) -/
def deactEB (c : Cfg α) (s : S α) : S α := headEvent c { s with hdE := false }

/-- `update_internal_array`, or `deactivate_internal_array` if the array is empty (ppq.h:1741-1745, 1771-1778) -/
def updIA (c : Cfg α) (s : S α) (i : Nat) : S α :=
  headI c { s with mia := s.mia.set i ((s.ias[i]?).bind (·.items.head?)) }

/-- Current key of the i-th internal array. -/
def iaKey (s : S α) (i : Nat) : Option α := (s.ias[i]?).bind (·.items.head?)

/-- `add_internal_array` (ppq.h:1748-1752): growing the tree is undefined (C39); so is a game with a player that does not exist any more
or is empty. (The games are those on the path to the root, hence with two slots with the other player, in general possibly with fewer;
the model requires every other active player to exist.) -/
def addIAmin (c : Cfg α) (s : S α) (i : Nat) : Option (S α) :=
  if i ≥ s.mia.length then none
  else if (List.range s.mia.length).any (fun j => j != i && (s.mia.getD j none).isSome && (iaKey s j).isNone) then none
  else some (updIA c s i)

/-- `clear_internal_arrays` (ppq.h:1788-1792), `initial_ia_size` = 2 -/
def clearIAmin (c : Cfg α) (s : S α) : S α := headEvent c { s with mia := [none, none], hdI := none }

/-- Number of slots for `n` players: the least power of two that is not less (winner_tree.h:106). -/
def slotsFrom : Nat → Nat → Nat → Nat
  | 0, p, _ => p
  | f + 1, p, n => if n ≤ p then p else slotsFrom f (2 * p) n

/-- `rebuild_internal_arrays` (ppq.h:1794-1805) -/
def rebuildIAmin (c : Cfg α) (s : S α) : S α :=
  if s.ias.isEmpty then headEvent c { s with hdI := none }
  else headI c { s with mia := (List.range (slotsFrom s.ias.length 1 s.ias.length)).map (iaKey s) }

/-! ### External arrays -/

namespace EA
/-- number of blocks needed for `n` items: `m_num_blocks` and `get_end_block_index` (ppq.h:535-563, 724-733) -/
def blocksOf (B n : Nat) : Nat := (n + B - 1) / B
def nb (B : Nat) (e : EA α) : Nat := blocksOf B e.data.length
def endBlk (B : Nat) (e : EA α) : Nat := blocksOf B e.endIdx
/-- `empty` (ppq.h:680) -/
def isEmpty (e : EA α) : Bool := e.data.length - e.idx = 0
/-- what is still in the array -/
def rest (e : EA α) : List α := e.data.drop e.idx
/-- from `begin()` to `end()` (ppq.h:743-755) -/
def loaded (e : EA α) : List α := (e.data.take e.endIdx).drop e.idx
/-- `get_next_block_min` if `has_em_data` (ppq.h:764-775): the minimum of a block is its first element (ppq.h:900-922) -/
def nextMin (B : Nat) (e : EA α) : Option α := if e.endBlk B < e.nb B then e.data[e.endBlk B * B]? else none
/-- `get_next_hintable_min` if `has_unhinted_em_data` (ppq.h:950-961) -/
def hintMin (B : Nat) (e : EA α) : Option α := if e.unh < e.nb B then e.data[e.unh * B]? else none
/-- `num_hinted_blocks` (ppq.h:964-968) -/
def hinted (B : Nat) (e : EA α) : Nat := e.unh - e.endBlk B
/-- `num_used_blocks` (ppq.h:1100-1103) -/
def used (B : Nat) (e : EA α) : Nat := e.endBlk B - e.idx / B
/-- `wait_next_blocks` with `k` further blocks that have been read (ppq.h:1038-1077) -/
def waitNext (B : Nat) (e : EA α) (k : Nat) : EA α :=
  let n := 1 + min k (e.unh - e.endBlk B - 1)
  { e with endIdx := min e.data.length ((e.endBlk B + n) * B) }
/-- `remove_items` (ppq.h:1107-1158): the array and the number of blocks given back -/
def remove (B : Nat) (e : EA α) (n : Nat) : EA α × Nat :=
  if n = 0 then (e, 0)
  else
    let after := e.idx + n
    let blkAfter := if e.data.length - e.idx = n ∧ after % B ≠ 0 then after / B + 1 else after / B
    ({ e with idx := after }, blkAfter - e.idx / B)
end EA

/-- `update_external_min_tree` (ppq.h:3522-3530) -/
def updEMT (c : Cfg α) (s : S α) (i : Nat) : S α :=
  { s with emt := s.emt.set i ((s.eas[i]?).bind (·.nextMin c.B)) }

/-- `hint_external_arrays` (ppq.h:3534-3560), and the loop of `rebuild_hint_tree` (ppq.h:3470-3490): give the free blocks to the arrays
whose next block not yet requested has the least minimum. The hint tree is taken to be up to date. -/
def hintLoop (c : Cfg α) : Nat → List (EA α) → Nat × List (EA α)
  | 0, eas => (0, eas)
  | f + 1, eas =>
    match argmin c.lt (eas.map (·.hintMin c.B)) with
    | none => (f + 1, eas)
    | some (i, _) => hintLoop c f (eas.modify i fun e => { e with unh := e.unh + 1 })

def hintExternal (c : Cfg α) (s : S α) : S α :=
  let x := hintLoop c s.free s.eas
  { s with free := x.1, eas := x.2 }

/-- `rebuild_hint_tree` (ppq.h:3445-3502); `m_num_hinted_blocks` is the sum over the arrays (ppq.h:2471-2488). -/
def rebuildHints (c : Cfg α) (s : S α) : S α :=
  let f := s.free + (s.eas.map (·.hinted c.B)).sum
  hintExternal c { s with free := f, eas := s.eas.map fun e => { e with unh := e.endBlk c.B } }

/-- `resize_read_pool` (ppq.h:3393-3441) -/
def resizePool (c : Cfg α) (s : S α) : S α :=
  let n := c.readBlocks s.eas.length
  if n > s.R then { s with R := n, free := s.free + (n - s.R) }
  else
    let k := min (s.R - n) s.free
    { s with R := s.R - k, free := s.free - k }

/-- `wait_next_ea_blocks` (ppq.h:3856-3865) -/
def waitEA (c : Cfg α) (s : S α) (i k : Nat) : S α :=
  updEMT c { s with eas := s.eas.modify i fun e => e.waitNext c.B k } i

/-- `cleanup_external_arrays` (ppq.h:2207-2265): arrays before the first removed one keep their place in the tree, all later ones
are deactivated and the moved ones replayed. -/
def cleanupExt (c : Cfg α) (s : S α) : S α :=
  let eas' := s.eas.filter fun e => !e.isEmpty
  let first := (s.eas.findIdx? (·.isEmpty)).getD s.eas.length
  resizePool c
    { s with
      eas := eas'
      emt := (List.range s.emt.length).map fun i =>
        if i < first then s.emt.getD i none
        else if i < s.eas.length then (eas'[i]?).bind (·.nextMin c.B)
        else s.emt.getD i none }

/-- `cleanup_internal_arrays` (ppq.h:2184-2204) -/
def cleanupInt (c : Cfg α) (s : S α) : S α :=
  rebuildIAmin c { s with ias := s.ias.filter fun a => !a.items.isEmpty }

/-- Add an external array at the end: `swap_back`, `activate_without_replay`, `update_external_min_tree` (ppq.h:4101-4120, 4379-4390). The tree
has 4 slots (ppq.h:2365); growing it is undefined (C39). -/
def pushEA (c : Cfg α) (s : S α) (e : EA α) : Option (S α) :=
  if s.eas.length ≥ s.emt.length then none
  else some (updEMT c { s with eas := s.eas ++ [e] } s.eas.length)

/-! ### Merging -/

/-- `std::lower_bound(begin, end, v, m_inv_compare)`: what is before it. -/
def below (lt : α → α → Bool) (v : Option α) (l : List α) : List α :=
  match v with
  | none => l
  | some v => l.takeWhile fun x => lt x v

def total (S : List (List α)) : Nat := (S.map List.length).sum

/-- The sequences to merge: the loaded parts of the external arrays, then the internal arrays (ppq.h:3598-3712). -/
def seqs (c : Cfg α) (s : S α) (v : Option α) : List (List α) :=
  (s.eas.map fun e => below c.lt v e.loaded) ++ (s.ias.map fun a => below c.lt v a.items)

/-- One pass of the loop of `check_external_level` over the arrays to be merged (ppq.h:4227-4372): load blocks, merge everything that is
less than the minimum of the first block not loaded. -/
def mergePass (c : Cfg α) (loads : Nat → Nat) (xs : List (EA α)) : Option (List α × List (EA α)) :=
  let ys := xs.mapIdx fun k e =>
    { e with endIdx := max e.endIdx (min e.data.length ((e.endBlk c.B + loads k) * c.B)) }
  let v := (argmin c.lt (ys.map (·.nextMin c.B))).map (·.2)
  let S := ys.map fun e => below c.lt v e.loaded
  match c.mm S (total S) with
  | none => none
  | some (out, _) => some (out, List.zipWith (fun e l => (e.remove c.B l.length).1) ys S)

/-- The loop: until all arrays are empty. -/
def mergeLoop (c : Cfg α) (o : Oracle) : Nat → List (EA α) → List α → Option (List α)
  | 0, _, _ => none
  | f + 1, xs, acc =>
    if xs.all (·.isEmpty) then some acc
    else match mergePass c (o.loads f) xs with
      | none => none
      | some (out, xs') => mergeLoop c o f xs' (acc ++ out)

/-- The arrays to be merged (ppq.h:4178-4186). -/
def mergeSel (force : Bool) (level : Nat) (e : EA α) : Bool := (decide (e.level = level) || force) && !e.isEmpty

/-- What is left of an array (ppq.h:4253-4255, 4351-4376). -/
def used (c : Cfg α) (sel : EA α → Bool) (e : EA α) : EA α :=
  if sel e then { e with idx := e.data.length, endIdx := e.data.length, unh := e.nb c.B } else { e with unh := e.endBlk c.B }

/-- `check_external_level` (ppq.h:4165-4398). The number of levels is 8 (ppq.h:2108). -/
def checkExt (c : Cfg α) (o : Oracle) (force : Bool) : Nat → Nat → S α → Option (S α)
  | 0, _, _ => none
  | f + 1, level, s =>
    if force = false ∧ (s.eas.filter fun e => decide (e.level = level)).length < c.maxEL then some s
    else if o.memEA level = false ∧ force = false then some s
    else
      let xs := s.eas.filter (mergeSel force level)
      match mergeLoop c o o.fuel xs [] with
        | none => none
        | some out =>
          let R' := s.R + o.extraBlocks
          let s1 := cleanupExt c { s with
            eas := s.eas.map (used c (mergeSel force level))
            R := R'
            free := R' - ((s.eas.filter fun e => !mergeSel force level e).map (·.used c.B)).sum
            delayed := if s.bulk then 0 else s.delayed }
          match pushEA c s1 ⟨out, 0, 0, 0, if force then 7 else level + 1⟩ with
          | none => none
          | some s2 => if force then some s2 else checkExt c o force f (level + 1) s2

/-- `merge_external_arrays` (ppq.h:3357-3373) -/
def mergeExternal (c : Cfg α) (o : Oracle) (s : S α) : Option (S α) :=
  match checkExt c o true 8 0 s with
  | none => none
  | some s => let s := resizePool c s
    some (if s.bulk then s else rebuildHints c s)

/-- `add_as_internal_array` (ppq.h:4403-4486) of a vector; the number of levels is 8 (ppq.h:2102). -/
def addIA (c : Cfg α) (o : Oracle) : Nat → S α → List α → Nat → Option (S α)
  | 0, _, _, _ => none
  | f + 1, s, vals, level =>
    if vals.isEmpty then none
    else if c.asserts then none  -- STXXL_ASSERT(values.size() > 0) after values was swapped away (ppq.h:310-311)
    else
      let s1 := { s with ias := s.ias ++ [⟨vals, level⟩] }
      match (if s.eb.isEmpty then some s1 else addIAmin c s1 s.ias.length) with
      | none => none
      | some s2 =>
        let s3 := { s2 with isize := s2.isize + vals.length }
        if (s3.ias.filter fun a => decide (a.level = level)).length < c.maxIL then some s3
        else if o.memIA level = false then some s3
        else
          let S := (s3.ias.filter fun a => decide (a.level = level) && !a.items.isEmpty).map (·.items)
          match c.mm S (total S) with
          | none => none
          | some (out, _) =>
            let s4 := cleanupInt c { s3 with
              ias := s3.ias.map fun a => if a.level = level then { a with items := [] } else a }
            addIA c o f { s4 with isize := s4.isize - total S } out (level + 1)

/-- The second half of `convert_eb_into_ia` (ppq.h:3728-3744) -/
def convertEB (c : Cfg α) (o : Oracle) (s : S α) : Option (S α) :=
  if s.eb.isEmpty then some s
  else match addIA c o 8 (deactEB c { s with full := false }) s.eb 0 with
    | none => none
    | some s => some { s with eb := [] }

/-- `flush_internal_arrays` (ppq.h:4048-4143) -/
def flushInternal (c : Cfg α) (o : Oracle) (s : S α) : Option (S α) :=
  match convertEB c o (clearIAmin c s) with
  | none => none
  | some s =>
    let s := cleanupInt c s
    if o.mergeInstead then mergeExternal c o s
    else if s.isize = 0 then none
    else match c.mm (s.ias.map (·.items)) s.isize with
      | none => none
      | some (out, _) =>
        let n := s.isize
        match pushEA c { s with isize := 0, esize := s.esize + n } ⟨out, 0, 0, 0, 0⟩ with
        | none => none
        | some s =>
          match checkExt c o false 8 0 (cleanupInt c { s with ias := [] }) with
          | none => none
          | some s => let s := resizePool c s
            some (if s.bulk then s else rebuildHints c s)

/-- `flush_ia_ea_until_memory_free` (ppq.h:3377-3389), n-th call during the operation -/
def flushMem (c : Cfg α) (o : Oracle) (n : Nat) (s : S α) : Option (S α) :=
  if o.memFree n then some s
  else if s.isize > 0 then flushInternal c o s
  else mergeExternal c o s

/-- `convert_eb_into_ia` (ppq.h:3716-3744) -/
def convert (c : Cfg α) (o : Oracle) (n : Nat) (s : S α) : Option (S α) :=
  if s.eb.isEmpty then some s
  else match flushMem c o n { s with full := false } with
    | none => none
    | some s => convertEB c o s

/-- Sorting (`std::sort`; C25 for stxxl's). -/
def insertSorted (lt : α → α → Bool) (x : α) : List α → List α
  | [] => [x]
  | y :: l => if lt x y then x :: y :: l else y :: insertSorted lt x l

def sortList (lt : α → α → Bool) (l : List α) : List α := l.foldl (fun acc x => insertSorted lt x acc) []

/-- `flush_insertion_heap` (ppq.h:3914-3962) -/
def flushHeap (c : Cfg α) (o : Oracle) (p : Nat) (s : S α) : Option (S α) :=
  match s.heaps[p]? with
  | none => none
  | some h =>
    let vals := sortList c.lt (h.ord ++ h.pend)
    match flushMem c o 0 s with
    | none => none
    | some s =>
      let s := updHeap c { s with heaps := s.heaps.set p ⟨[], []⟩ } p
      match addIA c o 8 s vals 0 with
      | none => none
      | some s => some { s with hsize := s.hsize - vals.length }

/-- `flush_insertion_heaps` (ppq.h:3965-4045), `c_merge_sorted_heaps` = true -/
def flushHeaps (c : Cfg α) (o : Oracle) (s : S α) : Option (S α) :=
  match flushMem c o 0 s with
  | none => none
  | some s =>
    match c.mm (s.heaps.map fun h => sortList c.lt (h.ord ++ h.pend)) s.hsize with
    | none => none
    | some (out, _) =>
      match addIA c o 8 s out 0 with
      | none => none
      | some s => some { clearHeaps c { s with heaps := s.heaps.map fun _ => ⟨[], []⟩ } with hsize := 0 }

/-- `flush_insertion_heaps_with_limit` (ppq.h:3279-3350): the elements before `limit` are popped from every heap. `pop_heap` on a heap
with appended elements that have not been sifted up is undefined. -/
def flushLimit (c : Cfg α) (o : Oracle) (l : α) (s : S α) : Option (S α) :=
  if s.heaps.any (fun h => !h.pend.isEmpty && ((h.ord ++ h.pend).head?.map fun x => c.lt x l).getD false) then none
  else
    let vals := (s.heaps.map fun h => h.ord.takeWhile fun x => c.lt x l).flatten
    if vals.isEmpty then some s
    else match flushMem c o 1 s with
      | none => none
      | some s =>
        let s := { s with heaps := s.heaps.map fun h => { h with ord := h.ord.dropWhile fun x => c.lt x l } }
        let s := (List.range s.heaps.length).foldl (updHeap c) s
        match addIA c o 8 s (sortList c.lt vals) 0 with
        | none => none
        | some s => some { s with hsize := s.hsize - vals.length }

/-! ### The extract buffer -/

/-- `advance_arrays` (ppq.h:3868-3911), after a merge of `Q` that left `Q'` -/
def advance (c : Cfg α) (s : S α) (Q Q' : List (List α)) : S α :=
  let d := List.zipWith (fun a b => a.length - b.length) Q Q'
  let de := d.take s.eas.length
  let di := d.drop s.eas.length
  let rm := List.zipWith (fun (e : EA α) n => e.remove c.B n) s.eas de
  let freed := (rm.map (·.2)).sum
  let s := cleanupExt c { s with
    eas := rm.map (·.1)
    free := s.free + freed
    esize := s.esize - de.sum
    ias := List.zipWith (fun (a : IA α) n => { a with items := a.items.drop n }) s.ias di
    isize := s.isize - di.sum }
  let s := if freed = 0 then s else hintExternal c s
  cleanupInt c s

/-- The limit of what can be merged: the least minimum of a block not yet loaded (ppq.h:3672-3684). -/
def extLimit (c : Cfg α) (s : S α) : Option α := (argmin c.lt s.emt).map (·.2)

/-- The loop of `refill_extract_buffer` that loads blocks until enough elements can be merged (ppq.h:3785-3815). -/
def refillLoop (c : Cfg α) (o : Oracle) (minimum : Nat) : Nat → S α → Option (S α)
  | 0, _ => none
  | f + 1, s =>
    if total (seqs c s (extLimit c s)) ≥ minimum then some s
    else match argmin c.lt s.emt with
      | none => some s
      | some (i, _) =>
        match s.eas[i]? with
        | none => none
        | some e => if e.hinted c.B = 0 then some s else refillLoop c o minimum f (waitEA c s i (o.poll f))

def fuelOf (c : Cfg α) (s : S α) : Nat := (s.eas.map (·.nb c.B)).sum + 1

/-- `refill_extract_buffer` (ppq.h:3751-3852); called with an empty extract buffer -/
def refill (c : Cfg α) (o : Oracle) (minimum maximum : Nat) (s : S α) : Option (S α) :=
  let maximum := if maximum = 0 then c.ebLimit else maximum
  let s := cleanupInt c (clearIAmin c (cleanupExt c s))
  if s.eas.isEmpty && s.ias.isEmpty then some (deactEB c { s with eb := [] })
  else match (if minimum > 0 then refillLoop c o minimum (fuelOf c s) s else some s) with
    | none => none
    | some s =>
      let S := seqs c s (extLimit c s)
      let n := min (total S) maximum
      if n = 0 then none
      else match c.mm S n with
        | none => none
        | some (out, S') => some (updEB c (advance c { s with eb := out } S S'))

/-- `top` and `pop` begin with this (ppq.h:3051-3054, 3090-3093). -/
def prep (c : Cfg α) (o : Oracle) (s : S α) : Option (S α) :=
  if s.eb.isEmpty then refill c o (min c.ebLimit (s.isize + s.esize)) 0 s else some s

/-! ### Operations -/

/-- `push` (ppq.h:3025-3043): the tree is notified if the heap had been empty or the new element went to the front (`push_heap`
returned 0: it is strictly before the old first element). -/
def push (c : Cfg α) (o : Oracle) (x : α) (p : Nat) (s : S α) : Option (S α) :=
  match s.heaps[p]? with
  | none => none
  | some h =>
    match (if h.ord.length + h.pend.length ≥ c.heapCap then flushHeap c o p s else some s) with
    | none => none
    | some s =>
      match s.heaps[p]? with
      | none => none
      | some h =>
        let s := { s with heaps := s.heaps.set p { h with ord := insertSorted c.lt x h.ord }, hsize := s.hsize + 1 }
        some (if (h.ord.head?.map fun y => c.lt x y).getD true then updHeap c s p else s)

/-- `top` (ppq.h:3046-3081) -/
def top (c : Cfg α) (o : Oracle) (s : S α) : Option (α × S α) :=
  match prep c o s with
  | none => none
  | some s =>
    match s.root with
    | none => none
    | some .H => match argmin c.lt s.mh with
      | none => none
      | some (i, _) => ((s.heaps[i]?).bind (·.ord.head?)).map (·, s)
    | some .I => match argmin c.lt s.mia with
      | none => none
      | some (i, _) => (iaKey s i).map (·, s)
    | some .E => s.eb.head?.map (·, s)

/-- `pop` (ppq.h:3084-3156) -/
def pop (c : Cfg α) (o : Oracle) (s : S α) : Option (S α) :=
  match prep c o s with
  | none => none
  | some s =>
    match s.root with
    | none => none
    | some .H => match argmin c.lt s.mh with
      | none => none
      | some (i, _) => match s.heaps[i]? with
        | some ⟨_ :: l, q⟩ => some (updHeap c { s with heaps := s.heaps.set i ⟨l, q⟩, hsize := s.hsize - 1 } i)
        | _ => none
    | some .I => match argmin c.lt s.mia with
      | none => none
      | some (i, _) => match s.ias[i]? with
        | some ⟨_ :: l, v⟩ => some (updIA c { s with ias := s.ias.set i ⟨l, v⟩, isize := s.isize - 1 } i)
        | _ => none
    | some .E => match s.eb with
      | [] => none
      | _ :: l => let s := { s with eb := l }
        some (if l.isEmpty then deactEB c s else updEB c s)

/-- `size` (ppq.h:2564-2567) -/
def size (s : S α) : Nat := s.hsize + s.isize + s.esize + s.eb.length

/-- `bulk_push_begin` (ppq.h:2599-2625) -/
def bulkBegin (s : S α) : S α := { s with bulk := true, delayed := s.eas.length }

/-- `bulk_push` (ppq.h:2634-2699), the branch that is compiled in (`&& 1`) -/
def bulkPush (c : Cfg α) (o : Oracle) (x : α) (p : Nat) (s : S α) : Option (S α) :=
  match s.heaps[p]? with
  | none => none
  | some h =>
    match (if h.ord.length + h.pend.length ≥ c.heapCap then flushHeap c o p { s with hsize := s.hsize + h.pend.length } else some s) with
    | none => none
    | some s =>
      match s.heaps[p]? with
      | none => none
      | some h => some { s with heaps := s.heaps.set p { h with pend := h.pend ++ [x] } }

/-- `bulk_push_end` (ppq.h:2722-2809) -/
def bulkEnd (c : Cfg α) (s : S α) : S α :=
  let n := (s.heaps.map (·.pend.length)).sum
  let s := { s with
    bulk := false
    hsize := s.hsize + n
    heaps := s.heaps.map fun h => ⟨h.pend.foldl (fun acc x => insertSorted c.lt x acc) h.ord, []⟩ }
  let s := (List.range s.heaps.length).foldl
    (fun s p => if ((s.heaps[p]?).bind (·.ord.head?)).isSome then updHeap c s p else s) s
  if s.delayed = s.eas.length then s else rebuildHints c s

/-- `bulk_pop` (ppq.h:2812-2834) -/
def bulkPop (c : Cfg α) (o : Oracle) (maxSize : Nat) (s : S α) : Option (List α × S α) :=
  let n := min maxSize (size s)
  match (if s.hsize > 0 then flushHeaps c o s else some s) with
  | none => none
  | some s => match convert c o 2 s with
    | none => none
    | some s => match refill c o n n s with
      | none => none
      | some s => some (s.eb, deactEB c { s with eb := [] })

/-- The loop of `bulk_pop_limit` (ppq.h:2862-2890): the limit up to which elements are extracted, and whether that is all of them. -/
def limitLoop (c : Cfg α) (o : Oracle) (l : α) : Nat → S α → Option (S α × α × Bool)
  | 0, _ => none
  | f + 1, s =>
    match argmin c.lt s.emt with
    | none => some (s, l, true)
    | some (i, _) =>
      match s.eas[i]? with
      | none => none
      | some e =>
        match e.nextMin c.B with
        | none => none
        | some v =>
          if c.lt l v then some (s, l, true)
          else if e.hinted c.B = 0 then some (s, v, false)
          else limitLoop c o l f (waitEA c s i (o.poll f))

/-- `bulk_pop_limit` (ppq.h:2842-2936) -/
def bulkPopLimit (c : Cfg α) (o : Oracle) (l : α) (maxSize : Option Nat) (s : S α) : Option ((List α × Bool) × S α) :=
  match convert c o 2 s with
  | none => none
  | some s => match (if s.hsize > 0 then flushLimit c o l s else some s) with
    | none => none
    | some s => match limitLoop c o l (fuelOf c s) s with
      | none => none
      | some (s, v, full) =>
        let S := seqs c s (some v)
        let m := maxSize.getD (total S)
        let n := min (total S) m
        match c.mm S n with
        | none => none
        | some (out, S') => some ((out, full && decide (total S ≤ m)), advance c s S S')

/-- `limit_begin`, `limit_top` and `limit_pop` refill the extract buffer in this way (ppq.h:3180-3189, 3211-3229, 3244-3259). -/
def limitRefill (c : Cfg α) (o : Oracle) (l : α) (s : S α) : Option (S α) :=
  match bulkPopLimit c o l (some c.ebLimit) s with
  | none => none
  | some ((out, full), s) =>
    let s := { s with full := full, eb := out }
    some (if out.isEmpty then deactEB c s else updEB c s)

/-- `limit_begin` (ppq.h:3175-3193) -/
def limitBegin (c : Cfg α) (o : Oracle) (l : α) (s : S α) : Option (S α) :=
  match limitRefill c o l { s with lim := some l } with
  | none => none
  | some s => some (bulkBegin s)

/-- `limit_top` (ppq.h:3205-3233) -/
def limitTop (c : Cfg α) (o : Oracle) (s : S α) : Option (α × S α) :=
  match s.lim with
  | none => none
  | some l =>
    if s.eb.isEmpty && s.full then some (l, s)
    else match (if s.eb.isEmpty then limitRefill c o l s else some s) with
      | none => none
      | some s => s.eb.head?.map (·, s)

/-- `limit_pop` (ppq.h:3236-3261) -/
def limitPop (c : Cfg α) (o : Oracle) (s : S α) : Option (S α) :=
  match s.lim, s.eb with
  | some l, _ :: r =>
    let s := { s with eb := r }
    if r.isEmpty && !s.full then limitRefill c o l s else some s
  | _, _ => none

/-- `limit_end` (ppq.h:3264-3271) -/
def limitEnd (c : Cfg α) (s : S α) : S α := { bulkEnd c s with lim := none }

/-- The constructor (ppq.h:2325-2445) -/
def init (c : Cfg α) : S α :=
  { heaps := List.replicate c.numHeaps ⟨[], []⟩, hsize := 0, isize := 0, esize := 0, eb := [], ias := [], eas := []
    mh := List.replicate c.numHeaps none, mia := [none, none], hdH := none, hdI := none, hdE := false, root := none
    emt := [none, none, none, none], R := 0, free := 0, bulk := false, delayed := 0, lim := none, full := false, oob := false }

/-- One call. -/
def exec (c : Cfg α) (o : Oracle) (op : Op α) (s : S α) : Option (Out α × S α) :=
  match op with
  | .push x p => (push c o x p s).map (.unit, ·)
  | .top => (top c o s).map fun r => (.val r.1, r.2)
  | .pop => (pop c o s).map (.unit, ·)
  | .size => some (.num (size s), s)
  | .bulkPushBegin => some (.unit, bulkBegin s)
  | .bulkPush x p | .limitPush x p => (bulkPush c o x p s).map (.unit, ·)
  | .bulkPushEnd => some (.unit, bulkEnd c s)
  | .bulkPop n => (bulkPop c o n s).map fun r => (.list r.1, r.2)
  | .bulkPopLimit l n => (bulkPopLimit c o l n s).map fun r => (.listFlag r.1.1 r.1.2, r.2)
  | .limitBegin l => (limitBegin c o l s).map (.unit, ·)
  | .limitTop => (limitTop c o s).map fun r => (.val r.1, r.2)
  | .limitPop => (limitPop c o s).map (.unit, ·)
  | .limitEnd => some (.unit, limitEnd c s)

/-- A sequence of calls: their results and the final state. -/
def run (c : Cfg α) : List (Op α × Oracle) → S α → Option (List (Op α × Out α) × S α)
  | [], s => some ([], s)
  | (op, o) :: l, s =>
    match exec c o op s with
    | none => none
    | some (out, s) => match run c l s with
      | none => none
      | some (outs, s) => some ((op, out) :: outs, s)

end Stxxl.PPQ
