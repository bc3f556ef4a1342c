/-
Model of `btree::node_cache` (/repo/include/stxxl/bits/containers/btree/node_cache.h), which keeps a fixed
number of nodes (blocks) of the tree in memory.

A node's contents are its own BID (`info.me`, leaf.h:233-236) and a value.  `disk` are the blocks in external
memory; `live` the blocks allocated by this cache.  An outstanding read (`m_reqs`) is `pend i = some b`; its
data arrives when it is waited for (block `b` is not written in between: that is part of what is proved, since
every write of a block needs its node not to be pending).  Outcome `none`: undefined behaviour (failed
assertion, access to a node whose data has not arrived).  Not modelled: the statistics counters, the assertions
on `m_bid2node.size()`, I/O errors.
-/
import Verif.Pager.Props
import Verif.NodeCache.Spec

namespace NodeCache
open Stxxl.Pager (Lru)
open Spec (Op Out)

def upd {α : Type} (f : Nat → α) (k : Nat) (v : α) : Nat → α := fun i => if i = k then v else f i

/-- node_cache.h:77-92; `ptr` are the client's pointer variables (the slot pointed to). -/
structure St (V : Type) where
  n : Nat
  node : Nat → Nat × V
  pend : Nat → Option Nat
  fixed : Nat → Bool
  dirty : Nat → Bool
  free : List Nat
  map : Nat → Option Nat
  lru : Lru
  disk : Nat → Nat × V
  live : List Nat
  ptr : Nat → Option Nat

section
variable {V : Type}

/-- Constructor (node_cache.h:114-147), with `n ≥ 3` nodes; the last free slot is used first. -/
def ctor (n : Nat) (node disk : Nat → Nat × V) : St V :=
  { n := n, node := node, pend := fun _ => none, fixed := fun _ => false, dirty := fun _ => true,
    free := (List.range n).reverse, map := fun _ => none, lru := Lru.new n, disk := disk, live := [], ptr := fun _ => none }

/-- `if (m_reqs[i].valid()) m_reqs[i]->wait()`. -/
def wait (s : St V) (i : Nat) : St V :=
  match s.pend i with
  | some b => { s with node := upd s.node i (s.disk b), pend := upd s.pend i none }
  | none => s

/-- The loop that looks for a node to kick out (node_cache.h:194-208 and copies): outcome, or `none` in the
result if all `size()` tries found fixed nodes. -/
def kickLoop (fixed : Nat → Bool) : Nat → Lru → Option (Option Nat × Lru)
  | 0, p => some (none, p)
  | k + 1, p =>
    match p.kick with
    | none => none
    | some v =>
      match p.hit v with
      | none => none
      | some p' => if fixed v then kickLoop fixed k p' else some (some v, p')

/-- Kicking a node out (node_cache.h:210-224 and copies): wait for its request, write it if dirty, forget it. -/
def evict (s : St V) : Option (Option Nat × St V) :=
  match kickLoop s.fixed s.n s.lru with
  | none => none
  | some (none, p) => some (none, { s with lru := p })
  | some (some v, p) =>
    let s1 := wait { s with lru := p } v
    let me := (s1.node v).1
    let s2 := if s1.dirty v then { s1 with disk := upd s1.disk me (s1.node v) } else s1
    some (some v, { s2 with map := upd s2.map me none })

/-- `node.init(new_bid)` and the bookkeeping of `get_new_node` for slot `v`. -/
def initSlot (init : V) (b v : Nat) (s : St V) : St V :=
  { s with live := b :: s.live, map := upd s.map b (some v), node := upd s.node v (b, init), dirty := upd s.dirty v true }

/-- `get_new_node` (node_cache.h:186-254). -/
def getNew (init : V) (pick : List Nat → Nat) (s : St V) : Option (Option (Nat × Nat) × St V) :=
  let b := pick s.live
  match s.free with
  | [] =>
    match evict s with
    | none => none
    | some (none, s1) => some (none, s1)
    | some (some v, s1) => some (some (b, v), initSlot init b v s1)
  | v :: fr =>
    if s.fixed v then none                      -- assertion node_cache.h:236
    else match s.lru.hit v with
      | none => none
      | some p => some (some (b, v), initSlot init b v { s with free := fr, lru := p })

/-- `node.load(bid)` into slot `v` and the bookkeeping of `get_node` / `get_const_node`. -/
def loadSlot (b v : Nat) (fix w : Bool) (s : St V) : Option (St V) :=
  if (s.disk b).1 = b then                      -- assertion leaf.h:248
    some { s with node := upd s.node v (s.disk b), pend := upd s.pend v none, map := upd s.map b (some v),
                  fixed := upd s.fixed v fix, dirty := upd s.dirty v w }
  else none

/-- `get_node` (`w = true`, node_cache.h:256-338) and `get_const_node` (`w = false`, node_cache.h:340-449):
the slot, or `none` for the NULL pointer. -/
def get (w : Bool) (s : St V) (b : Nat) (fix : Bool) : Option (Option Nat × St V) :=
  match s.map b with
  | some i =>
    match s.lru.hit i with
    | none => none
    | some p =>
      some (some i, wait { s with fixed := upd s.fixed i fix, lru := p, dirty := if w then upd s.dirty i true else s.dirty } i)
  | none =>
    match s.free with
    | [] =>
      match evict s with
      | none => none
      | some (none, s1) => some (none, s1)
      | some (some v, s1) => (loadSlot b v fix w s1).map (fun s2 => (some v, s2))
    | v :: fr =>
      if s.fixed v then none                    -- assertion node_cache.h:320,428
      else match s.lru.hit v with
        | none => none
        | some p => (loadSlot b v fix w { s with free := fr, lru := p }).map (fun s2 => (some v, s2))

/-- `delete_node` (node_cache.h:451-475). -/
def del (s : St V) (b : Nat) : St V :=
  match s.map b with
  | some i =>
    let s1 := wait s i
    { s1 with free := i :: s1.free, map := upd s1.map b none, fixed := upd s1.fixed i false, live := s1.live.erase b }
  | none => { s with live := s.live.erase b }

/-- `node.prefetch(bid)` into slot `v`: the read is started but not waited for. -/
def prefSlot (b v : Nat) (s : St V) : St V :=
  { s with pend := upd s.pend v (some b), map := upd s.map b (some v), fixed := upd s.fixed v false, dirty := upd s.dirty v false }

/-- `prefetch_node` (node_cache.h:477-550). -/
def prefetch (s : St V) (b : Nat) : Option (St V) :=
  match s.map b with
  | some _ => some s
  | none =>
    match s.free with
    | [] =>
      match evict s with
      | none => none
      | some (none, s1) => some s1
      | some (some v, s1) => some (prefSlot b v s1)
    | v :: fr =>
      if s.fixed v then none                    -- assertion node_cache.h:532
      else match s.lru.hit v with
        | none => none
        | some p => some (prefSlot b v { s with free := fr, lru := p })

/-- `unfix_node` (node_cache.h:552-557). -/
def unfix (s : St V) (b : Nat) : Option (St V) :=
  match s.map b with
  | some i => some { s with fixed := upd s.fixed i false }
  | none => none                                -- assertion node_cache.h:554

def setPtr (s : St V) (h : Nat) (p : Option Nat) : St V := { s with ptr := upd s.ptr h p }

/-- The calls, and the client's accesses through its pointers. -/
def step (init : V) (pick : List Nat → Nat) (s : St V) : Op V → Option (St V × Out V)
  | .new h =>
    match getNew init pick s with
    | none => none
    | some (none, s') => some (setPtr s' h none, .null)
    | some (some (b, i), s') => some (setPtr s' h (some i), .bid b)
  | .get b fix h =>
    match get true s b fix with
    | none => none
    | some (none, s') => some (setPtr s' h none, .null)
    | some (some i, s') => some (setPtr s' h (some i), .unit)
  | .cget b fix h =>
    match get false s b fix with
    | none => none
    | some (none, s') => some (setPtr s' h none, .null)
    | some (some i, s') => some (setPtr s' h (some i), .unit)
  | .prefetch b => (prefetch s b).map (fun s' => (s', .unit))
  | .unfix b => (unfix s b).map (fun s' => (s', .unit))
  | .del b => some (del s b, .unit)
  | .read h =>
    match s.ptr h with
    | none => none
    | some i => if s.pend i = none then some (s, .val (s.node i).2) else none
  | .write h v =>
    match s.ptr h with
    | none => none
    | some i => if s.pend i = none then some ({ s with node := upd s.node i ((s.node i).1, v) }, .unit) else none

def run (init : V) (pick : List Nat → Nat) (s : St V) : List (Op V) → Option (St V × List (Out V))
  | [] => some (s, [])
  | op :: ops =>
    match step init pick s op with
    | none => none
    | some (s', o) =>
      match run init pick s' ops with
      | none => none
      | some (s'', os) => some (s'', o :: os)

/-- One round of the destructor's loop over the nodes in the cache (node_cache.h:169-182); the slots in the
cache are those that are not free. -/
def saveSlot (s : St V) (i : Nat) : St V :=
  if i ∈ s.free then s
  else
    let s1 := wait s i
    if s1.dirty i then { s1 with disk := upd s1.disk (s1.node i).1 (s1.node i) } else s1

/-- The destructor (node_cache.h:169-185). -/
def dtor (s : St V) : St V := (List.range s.n).foldl saveSlot s

/-- `swap` (node_cache.h:560-578): `m_dirty` is not swapped.  (The blocks, `disk` and `live`, go with the
nodes; client pointers keep pointing to the nodes.) -/
def swap (a b : St V) : St V × St V :=
  ({ b with dirty := a.dirty }, { a with dirty := b.dirty })

end

end NodeCache
