/-
Model of `stxxl::map` / `btree::btree`
(/repo/include/stxxl/bits/containers/btree/{btree,node,leaf,iterator,iterator_map}.h).

Representation.  A leaf is a block number with its sorted array of (key, data) pairs; an inner node is
a block number with its sorted array of (splitter, child) pairs, the child being stored in place of its
BID (the node cache, which turns a BID into the node's contents, is the subject of C42 and is assumed
transparent here).  The two link fields `pred`/`succ` of a leaf and all registered iterators live in the
"world" `W`, because leaf operations update them for *other* leaves.  `live` is the list of blocks that
are allocated from the block manager (by this tree or anybody else); `pick` is the allocator.
A failed assertion or an access outside a container is the outcome `none` / `Res.ub`.
-/
import Mathlib.Data.List.Basic

namespace BTree

/-- A block: its BID and the first `cur_size` entries of its array.
leaf.h:47-53 (`metainfo_type`, block_type), node.h:43-53. -/
structure Blk (K X : Type) where
  bid : Nat
  els : List (K × X)

/-- What the entries of a block of level `h` carry: data in a leaf (level 0), child blocks in a node.
btree.h:55-76 (leaf_type / node_type). -/
@[reducible] def Cont (K V : Type) : Nat → Type
  | 0 => V
  | h + 1 => Blk K (Cont K V h)

/-- A subtree of level `h`; `m_height - 2` is the level of the root's children. -/
abbrev Tree (K V : Type) (h : Nat) := Blk K (Cont K V h)

/-- Static parameters: comparator, its `max_value()`, the capacities `max_size` of leaf and node
(`min_size` is half of it, leaf.h:54-58, node.h:54-58) and the number of nodes of the node cache. -/
structure Cfg (K : Type) where
  lt : K → K → Bool
  mx : K
  maxL : Nat
  maxN : Nat
  cap : Nat

/-- `max_nelements()` of blocks of level `h` (leaf.h:183, node.h:226). -/
def Cfg.max {K : Type} (c : Cfg K) : Nat → Nat
  | 0 => c.maxL
  | _ + 1 => c.maxN
/-- `min_nelements()` of blocks of level `h` (leaf.h:184, node.h:227). -/
def Cfg.min {K : Type} (c : Cfg K) (h : Nat) : Nat := c.max h / 2

/-- Leaf links and the iterator registry (`iterator_map::m_it2addr`, iterator_map.h:59-63: a multimap
from (bid,pos) to the iterator object; here each iterator object `id` has its current (bid,pos)).
Iterator 0 is the member `m_end_iterator` (btree.h:104). -/
structure W where
  succ : Nat → Option Nat
  pred : Nat → Option Nat
  its : Nat → Option (Nat × Nat)

section
variable {K V X : Type}

/-- `std::lower_bound` / `std::map::lower_bound` on an array sorted by key: the number of entries whose
key is less than `k` (a linear search; the binary search returns the same on a sorted array). -/
def lb (lt : K → K → Bool) (k : K) (els : List (K × X)) : Nat := (els.takeWhile (fun e => lt e.1 k)).length
/-- `std::upper_bound` / `std::map::upper_bound`. -/
def ub (lt : K → K → Bool) (k : K) (els : List (K × X)) : Nat := (els.takeWhile (fun e => !lt k e.1)).length

/-- Equivalence under the comparator: `!(cmp(a,b) || cmp(b,a))`. -/
def eqv (lt : K → K → Bool) (a b : K) : Bool := !(lt a b || lt b a)

/-- `iterator_map::find(bid, a, b)` followed by unregister / change / register of every iterator found
(e.g. leaf.h:328-336; iterator_map.h:117-134: positions `a ≤ pos ≤ b` of block `bid`). -/
def W.fix (w : W) (bid a b : Nat) (f : Nat → Nat × Nat) : W :=
  { w with its := fun id =>
      match w.its id with
      | some (b', p) => if b' = bid ∧ a ≤ p ∧ p ≤ b then some (f p) else some (b', p)
      | none => none }

/-- Construction of a registered iterator, held by the client in variable `id` (iterator.h:72-79;
the assignment to the client's variable unregisters that variable's old value, iterator.h:97-112). -/
def W.reg (w : W) (id : Nat) (at_ : Nat × Nat) : W :=
  { w with its := fun i => if i = id then some at_ else w.its i }

def upd (f : Nat → Option Nat) (k : Nat) (v : Option Nat) : Nat → Option Nat :=
  fun i => if i = k then v else f i

/-- The link updates of `normal_leaf::split` (leaf.h:95-106; `init` cleared the new leaf's links,
leaf.h:257-263): the new leaf `nb` goes in front of `b`. -/
def W.linkSplit (w : W) (b nb : Nat) : W :=
  let s1 := upd w.succ nb (some b)
  match w.pred b with
  | some p => { w with succ := upd s1 p (some nb), pred := upd (upd w.pred nb (some p)) b (some nb) }
  | none => { w with succ := s1, pred := upd (upd w.pred nb none) b (some nb) }

/-- The link updates of `normal_leaf::fuse` (leaf.h:576-584): `l` disappears in front of `r`. -/
def W.linkFuse (w : W) (l r : Nat) : W :=
  let pr := upd w.pred r (w.pred l)
  match w.pred l with
  | some p => { w with pred := pr, succ := upd w.succ p (some r) }
  | none => { w with pred := pr }

/-- `normal_leaf::split` (leaf.h:88-159): the smaller half goes to a new leaf to the left.
The assertion on the predecessor's last element (leaf.h:103) is not modelled. -/
def leafSplit (pick : List Nat → Nat) (l : Blk K V) (w : W) (live : List Nat) :
    Option (Blk K V × (K × Blk K V) × W × List Nat) :=
  let nb := pick live
  let half := l.els.length / 2
  match l.els[half - 1]? with
  | none => none
  | some e =>
    let w1 := w.linkSplit l.bid nb
    let w2 := w1.fix l.bid 0 l.els.length (fun p => if p < half then (nb, p) else (l.bid, p - half))
    some ({ l with els := l.els.drop half }, (e.1, { bid := nb, els := l.els.take half }), w2, nb :: live)

/-- "`*it` is equivalent to `k`" with `it` not at the end (leaf.h:312). -/
def sameAt (lt : K → K → Bool) (els : List (K × X)) (i : Nat) (k : K) : Bool :=
  match els[i]? with
  | some e => eqv lt e.1 k
  | none => false

/-- `normal_leaf::insert` (leaf.h:302-354).  The splitter's key `max_value()` ("no split", leaf.h:307) is
`none`; the returned iterator goes to the client's variable `rid`. -/
def leafInsert (c : Cfg K) (pick : List Nat → Nat) (l : Blk K V) (x : K × V) (rid : Nat) (w : W)
    (live : List Nat) : Option (Blk K V × Option (K × Blk K V) × Bool × W × List Nat) :=
  let i := lb c.lt x.1 l.els
  if sameAt c.lt l.els i x.1 then
    some (l, none, false, w.reg rid (l.bid, i), live)
  else
    let l1 : Blk K V := { l with els := l.els.take i ++ x :: l.els.drop i }
    let w1 := w.fix l.bid i l.els.length (fun p => (l.bid, p + 1))
    let w2 := w1.reg rid (l.bid, i)
    if l1.els.length ≤ c.maxL then some (l1, none, true, w2, live)
    else match leafSplit pick l1 w2 live with
      | none => none
      | some (l2, spl, w3, live3) => some (l2, some spl, true, w3, live3)

/-- `normal_node::insert(splitter, place2insert)` (node.h:91-139): insert an entry before position `i`,
splitting an overflowing node (new node to the left). -/
def nodePut (c : Cfg K) (pick : List Nat → Nat) (n : Blk K X) (i : Nat) (e : K × X) (live : List Nat) :
    Option (Blk K X × Option (K × Blk K X) × List Nat) :=
  match n.els[i]? with
  | none => none
  | some f =>
    if eqv c.lt f.1 e.1 then none            -- assertion node.h:97
    else
      let els := n.els.take i ++ e :: n.els.drop i
      if els.length ≤ c.maxN then some ({ n with els := els }, none, live)
      else
        let nb := pick live
        let half := els.length / 2
        match els[half - 1]? with
        | none => none
        | some g => some ({ n with els := els.drop half }, some (g.1, { bid := nb, els := els.take half }), nb :: live)

/-- `normal_node::insert` (node.h:318-373), and `normal_leaf::insert` at level 0. -/
def ins (c : Cfg K) (pick : List Nat → Nat) (x : K × V) (rid : Nat) :
    (h : Nat) → Tree K V h → W → List Nat →
      Option (Tree K V h × Option (K × Tree K V h) × Bool × W × List Nat)
  | 0, l, w, live => leafInsert c pick l x rid w live
  | h + 1, n, w, live =>
    let i := lb c.lt x.1 n.els
    match n.els[i]? with
    | none => none                          -- assertion node.h:329
    | some (k, ch) =>
      match ins c pick x rid h ch w live with
      | none => none
      | some (ch', spl, r, w1, live1) =>
        let n1 : Tree K V (h + 1) := { n with els := n.els.set i (k, ch') }
        match spl with
        | none => some (n1, none, r, w1, live1)
        | some (sk, left) =>
          if eqv c.lt c.mx sk then some (n1, none, r, w1, live1)
          else match nodePut c pick n1 i (sk, left) live1 with
            | none => none
            | some (n2, spl2, live2) => some (n2, spl2, r, w1, live2)

/-- `normal_leaf::erase` (leaf.h:506-533). -/
def leafErase [DecidableEq K] (c : Cfg K) (l : Blk K V) (k : K) (w : W) : Blk K V × Nat × W :=
  let i := lb c.lt k l.els
  match l.els[i]? with
  | none => (l, 0, w)
  | some e =>
    if e.1 ≠ k then (l, 0, w)
    else ({ l with els := l.els.take i ++ l.els.drop (i + 1) }, 1,
          w.fix l.bid (i + 1) l.els.length (fun p => (l.bid, p - 1)))

/-- The iterator and link updates of `normal_leaf::fuse` (leaf.h:550-584). -/
def leafFuseW (left right : Blk K V) (w : W) : W :=
  let w1 := w.fix right.bid 0 right.els.length (fun p => (right.bid, p + left.els.length))
  let w2 := w1.fix left.bid 0 left.els.length (fun p => (right.bid, p))
  w2.linkFuse left.bid right.bid

/-- The iterator updates of `normal_leaf::balance` (leaf.h:618-679).  Both `find`s happen before the
updates; their ranges are disjoint (they concern different blocks or different positions, and iterators
moved by the first loop are not in the second list), which is why the updates are one simultaneous map. -/
def leafBalW (left right : Blk K V) (nl : Nat) (w : W) : W :=
  if nl < left.els.length then
    let m := left.els.length - nl
    { w with its := fun id =>
        match w.its id with
        | some (b, p) =>
          if b = right.bid ∧ p ≤ right.els.length then some (right.bid, p + m)
          else if b = left.bid ∧ nl ≤ p ∧ p ≤ left.els.length then some (right.bid, p - nl)
          else some (b, p)
        | none => none }
  else
    let m := right.els.length - (left.els.length + right.els.length - nl)
    { w with its := fun id =>
        match w.its id with
        | some (b, p) =>
          if b = right.bid ∧ m ≤ p ∧ p ≤ right.els.length then some (right.bid, p - m)
          else if b = right.bid ∧ p ≤ m - 1 then some (left.bid, p + left.els.length)
          else some (b, p)
        | none => none }

/-- `fuse` / `balance` of two neighbouring blocks of level `h`, as chosen in `fuse_or_balance`
(node.h:163-195, btree.h:187-222; leaf.h:535-686, node.h:611-676).  Result: the left block with its new
key unless it was fused away, and the right block. -/
def fob (c : Cfg K) : (h : Nat) → (left right : Tree K V h) → W → List Nat →
      Option (Option (K × Tree K V h) × Tree K V h × W × List Nat)
  | h, left, right, w, live =>
    let total := left.els.length + right.els.length
    match left.els.getLast?, right.els.head? with
    | some a, some b =>
      if c.lt a.1 b.1 then                    -- assertions leaf.h:538,598, node.h:613,639
        if total ≤ c.max h then
          let w' := match h, left, right with
            | 0, l, r => leafFuseW l r w
            | _ + 1, _, _ => w
          some (none, { right with els := left.els ++ right.els }, w', live.erase left.bid)
        else
          let nl := total / 2
          let nr := total - nl
          if c.min h ≤ nl ∧ nl ≤ c.max h ∧ c.min h ≤ nr ∧ nr ≤ c.max h then
            if nl < left.els.length then
              let w' := match h, left, right with
                | 0, l, r => leafBalW l r nl w
                | _ + 1, _, _ => w
              match (left.els.take nl).getLast? with
              | none => none
              | some e => some (some (e.1, { left with els := left.els.take nl }),
                  { right with els := left.els.drop nl ++ right.els }, w', live)
            else if nr < right.els.length then
              let w' := match h, left, right with
                | 0, l, r => leafBalW l r nl w
                | _ + 1, _, _ => w
              let m := right.els.length - nr
              let lels := left.els ++ right.els.take m
              match lels.getLast? with
              | none => none
              | some e => some (some (e.1, { left with els := lels }), { right with els := right.els.drop m }, w', live)
            else none
          else none
      else none
    | _, _ => none

/-- `normal_node::fuse_or_balance(UIt, cache)` (node.h:141-196) on the entries of a node. -/
def nodeFob (c : Cfg K) (h : Nat) (els : List (K × Tree K V h)) (i : Nat) (w : W) (live : List Nat) :
    Option (List (K × Tree K V h) × W × List Nat) :=
  if i = els.length - 1 ∧ i = 0 then none     -- assertion node.h:150
  else
    let j := if i = els.length - 1 then i - 1 else i
    match els[j]?, els[j + 1]? with
    | some (_, left), some (kr, right) =>
      match fob c h left right w live with
      | none => none
      | some (none, right', w', live') => some (els.take j ++ (kr, right') :: els.drop (j + 2), w', live')
      | some (some (nk, left'), right', w', live') =>
        some (els.take j ++ (nk, left') :: (kr, right') :: els.drop (j + 2), w', live')
    | _, _ => none

/-- `normal_node::erase` (node.h:678-722), and `normal_leaf::erase` at level 0. -/
def ers [DecidableEq K] (c : Cfg K) (k : K) :
    (h : Nat) → Tree K V h → W → List Nat → Option (Tree K V h × Nat × W × List Nat)
  | 0, l, w, live =>
    let r := leafErase c l k w
    some (r.1, r.2.1, r.2.2, live)
  | h + 1, n, w, live =>
    let i := lb c.lt k n.els
    match n.els[i]? with
    | none => none                            -- assertion node.h:685
    | some (k', ch) =>
      if n.els.length < 2 then none           -- assertion node.h:689
      else match ers c k h ch w live with
        | none => none
        | some (ch', r, w1, live1) =>
          let els1 := n.els.set i (k', ch')
          if c.min h ≤ ch'.els.length then some ({ n with els := els1 }, r, w1, live1)
          else match nodeFob c h els1 i w1 live1 with
            | none => none
            | some (els2, w2, live2) => some ({ n with els := els2 }, r, w2, live2)

/-- The leaf reached by `find` / `lower_bound` descents (node.h:419-545): at each node the child at
`std::lower_bound`. -/
def descend (c : Cfg K) (k : K) : (h : Nat) → Tree K V h → Option (Blk K V)
  | 0, l => some l
  | h + 1, n =>
    match n.els[lb c.lt k n.els]? with
    | none => none
    | some (_, ch) => descend c k h ch

/-- The leaf reached by `upper_bound` (node.h:547-609): at each node the child at `std::upper_bound`. -/
def descendU (c : Cfg K) (k : K) : (h : Nat) → Tree K V h → Option (Blk K V)
  | 0, l => some l
  | h + 1, n =>
    match n.els[ub c.lt k n.els]? with
    | none => none
    | some (_, ch) => descendU c k h ch

/-- The leaf reached by `begin` (node.h:375-395), with its assertion `size() > 1` above a leaf. -/
def first : (h : Nat) → Tree K V h → Option (Blk K V)
  | 0, l => some l
  | h + 1, n =>
    match n.els with
    | [] => none
    | (_, ch) :: _ => if h = 0 ∧ n.els.length ≤ 1 then none else first h ch

/-- The blocks of a subtree's leaves, from left to right: where `leaf_cache.get_node(bid)` finds them. -/
def leaves : (h : Nat) → Tree K V h → List (Blk K V)
  | 0, l => [l]
  | h + 1, n => n.els.flatMap (fun e => leaves h e.2)

/-- `deallocate_children` (node.h:724-748) followed by the deletion of the block itself: the blocks
given back, in order. -/
def dealloc : (h : Nat) → Tree K V h → List Nat
  | 0, l => [l.bid]
  | h + 1, n => n.els.flatMap (fun e => dealloc h e.2) ++ [n.bid]

/-- Write `f` applied to the data at position `p` of the leaf `bid` (assignment through a reference,
iterator.h:114-120). -/
def setAt (bid p : Nat) (f : K × V → K × V) : (h : Nat) → Tree K V h → Tree K V h
  | 0, l => if l.bid = bid then { l with els := l.els.modify p f } else l
  | h + 1, n => { n with els := n.els.map (fun e => (e.1, setAt bid p f h e.2)) }

end

/-- The tree object: `m_root_node` (a std::map, here its entries in order), `m_size`, `m_height = h + 2`
(btree.h:89-104), with the world it lives in. -/
structure St (K V : Type) where
  h : Nat
  root : List (K × Tree K V h)
  size : Nat
  w : W
  live : List Nat

/-- Outcome of a call: the new state and a result; undefined behaviour (failed assertion, access outside a
container); an exception, with the state it leaves behind. -/
inductive Res (σ α : Type) where
  | ok (s : σ) (a : α)
  | ub
  | thrown (s : σ)

section
variable {K V X : Type}

/-- `std::map::insert` of a key that must be new (btree.h:108-110 asserts it; 217 relies on it). -/
def mapIns (lt : K → K → Bool) (e : K × X) (els : List (K × X)) : Option (List (K × X)) :=
  let i := lb lt e.1 els
  match els[i]? with
  | some f => if lt e.1 f.1 then some (els.take i ++ e :: els.drop i) else none
  | none => some (els ++ [e])

/-- `create_empty_leaf` (btree.h:225-234). -/
def createEmptyLeaf (c : Cfg K) (pick : List Nat → Nat) (w : W) (live : List Nat) : St K V :=
  let nb := pick live
  let w1 : W := { w with succ := upd w.succ nb none, pred := upd w.pred nb none }
  { h := 0, root := [(c.mx, { bid := nb, els := [] })], size := 0, w := w1.reg 0 (nb, 0), live := nb :: live }

/-- Constructors of an empty map (btree.h:433-471): no iterator is registered yet. -/
def ctor (c : Cfg K) (pick : List Nat → Nat) (live : List Nat) : St K V :=
  createEmptyLeaf c pick { succ := fun _ => none, pred := fun _ => none, its := fun _ => none } live

/-- `insert_into_root` (btree.h:106-164). -/
def insertIntoRoot (c : Cfg K) (pick : List Nat → Nat) (s : St K V) (e : K × Tree K V s.h) : Res (St K V) Unit :=
  match mapIns c.lt e s.root with
  | none => .ub
  | some root =>
    if root.length ≤ c.maxN then .ok { s with root := root } ()
    else
      let lbid := pick s.live
      let rbid := pick (lbid :: s.live)
      let half := root.length / 2
      match root[half - 1]?, root.getLast? with
      | some a, some b =>
        let s' : St K V :=
          { h := s.h + 1
            root := [(a.1, { bid := lbid, els := root.take half }), (b.1, { bid := rbid, els := root.drop half })]
            size := s.size, w := s.w, live := rbid :: lbid :: s.live }
        -- `m_node_cache.size() < (m_height - 1)` with `m_height = s'.h + 2`
        if c.cap < s'.h + 1 then .thrown s' else .ok s' ()
      | _, _ => .ub

/-- `btree::insert(x)` (btree.h:500-556); the returned iterator goes to the client's variable `rid`. -/
def insert (c : Cfg K) (pick : List Nat → Nat) (s : St K V) (x : K × V) (rid : Nat) : Res (St K V) Bool :=
  let i := lb c.lt x.1 s.root
  match s.root[i]? with
  | none => .ub
  | some (k, ch) =>
    match ins c pick x rid s.h ch s.w s.live with
    | none => .ub
    | some (ch', spl, r, w1, live1) =>
      let s1 : St K V :=
        { h := s.h, root := s.root.set i (k, ch'), size := if r then s.size + 1 else s.size, w := w1, live := live1 }
      match spl with
      | none => .ok s1 r
      | some e =>
        if eqv c.lt c.mx e.1 then .ok s1 r
        else match insertIntoRoot c pick s1 e with
          | .ok s2 _ => .ok s2 r
          | .ub => .ub
          | .thrown s2 => .thrown s2

/-- `btree::fuse_or_balance` (btree.h:166-223): the last entry of the root is recognised by its key. -/
def rootFob [DecidableEq K] (c : Cfg K) (h : Nat) (root : List (K × Tree K V h)) (i : Nat) (w : W)
    (live : List Nat) : Option (List (K × Tree K V h) × W × List Nat) :=
  match root[i]? with
  | none => none
  | some u =>
    if u.1 = c.mx ∧ i = 0 then none          -- assertion btree.h:176
    else
      let j := if u.1 = c.mx then i - 1 else i
      match root[j]?, root[j + 1]? with
      | some (_, left), some (kr, right) =>
        match fob c h left right w live with
        | none => none
        | some (none, right', w', live') => some ((root.set (j + 1) (kr, right')).eraseIdx j, w', live')
        | some (some e, right', w', live') =>
          match mapIns c.lt e ((root.set (j + 1) (kr, right')).eraseIdx j) with
          | none => none
          | some root' => some (root', w', live')
      | _, _ => none

/-- The end of `erase`: a root left with one inner node becomes that node (btree.h:896-916). -/
def collapse [DecidableEq K] (c : Cfg K) (size : Nat) (w : W) (live : List Nat) :
    (h : Nat) → List (K × Tree K V h) → Option (St K V)
  | h + 1, [(kk, n)] =>
    if kk = c.mx then               -- assertion btree.h:902
      some { h := h, root := n.els, size := size, w := w, live := live.erase n.bid }
    else none
  | h, root => some { h := h, root := root, size := size, w := w, live := live }

/-- `btree::erase(key)` (btree.h:850-919). -/
def erase [DecidableEq K] (c : Cfg K) (s : St K V) (k : K) : Option (St K V × Nat) :=
  let i := lb c.lt k s.root
  match s.root[i]? with
  | none => none
  | some (k', ch) =>
    if s.h ≠ 0 ∧ s.root.length < 2 then none  -- assertion btree.h:881
    else match ers c k s.h ch s.w s.live with
      | none => none
      | some (ch', r, w1, live1) =>
        let root1 := s.root.set i (k', ch')
        if c.min s.h ≤ ch'.els.length ∨ (s.h = 0 ∧ s.root.length = 1) then
          some ({ s with root := root1, size := s.size - r, w := w1, live := live1 }, r)
        else match rootFob c s.h root1 i w1 live1 with
          | none => none
          | some (root2, w2, live2) =>
            (collapse c (s.size - r) w2 live2 s.h root2).map (fun s' => (s', r))

/-- All leaves of the tree, from left to right. -/
def St.leaves (s : St K V) : List (Blk K V) := s.root.flatMap (fun e => BTree.leaves s.h e.2)

/-- The leaf cache's `get_node(bid)`: the contents of leaf `bid`. -/
def St.leafOf (s : St K V) (bid : Nat) : Option (Blk K V) := s.leaves.find? (fun l => l.bid == bid)

/-- `btree::find` (btree.h:628-688, leaf.h:423-443) into variable `rid`. -/
def find [DecidableEq K] (c : Cfg K) (s : St K V) (k : K) (rid : Nat) : Option (St K V) :=
  match s.root[lb c.lt k s.root]? with
  | none => none
  | some (_, ch) =>
    match descend c k s.h ch with
    | none => none
    | some l =>
      let i := lb c.lt k l.els
      match l.els[i]? with
      | some e =>
        if e.1 ≠ k then (s.w.its 0).map (fun a => { s with w := s.w.reg rid a })
        else some { s with w := s.w.reg rid (l.bid, i) }
      | none => (s.w.its 0).map (fun a => { s with w := s.w.reg rid a })

/-- What `normal_leaf::lower_bound` / `upper_bound` return when the position in the leaf is `i`
(leaf.h:445-504): the first position of the successor leaf if `i` is at the end. -/
def stepOver (s : St K V) (l : Blk K V) (i : Nat) : Nat × Nat :=
  if i = l.els.length then
    match s.w.succ l.bid with
    | some b => (b, 0)
    | none => (l.bid, i)
  else (l.bid, i)

/-- `btree::lower_bound` (btree.h:690-747). -/
def lowerBound (c : Cfg K) (s : St K V) (k : K) (rid : Nat) : Option (St K V) :=
  match s.root[lb c.lt k s.root]? with
  | none => none
  | some (_, ch) =>
    (descend c k s.h ch).map (fun l => { s with w := s.w.reg rid (stepOver s l (lb c.lt k l.els)) })

/-- `btree::upper_bound` (btree.h:749-807). -/
def upperBound (c : Cfg K) (s : St K V) (k : K) (rid : Nat) : Option (St K V) :=
  match s.root[ub c.lt k s.root]? with
  | none => none
  | some (_, ch) =>
    (descendU c k s.h ch).map (fun l => { s with w := s.w.reg rid (stepOver s l (ub c.lt k l.els)) })

/-- `btree::begin` (btree.h:558-611). -/
def begin_ (s : St K V) (rid : Nat) : Option (St K V) :=
  match s.root with
  | [] => none
  | (_, ch) :: _ => (first s.h ch).map (fun l => { s with w := s.w.reg rid (l.bid, 0) })

/-- `btree::end` (btree.h:613-621). -/
def end_ (s : St K V) (rid : Nat) : Option (St K V) :=
  (s.w.its 0).map (fun a => { s with w := s.w.reg rid a })

/-- Copying the iterator variable `a` into `b` (iterator.h:87-112). -/
def copyIt (s : St K V) (a b : Nat) : Option (St K V) :=
  (s.w.its a).map (fun p => { s with w := s.w.reg b p })

/-- `++it` (iterator.h:140-149, 224-235, leaf.h:371-394). -/
def incr (s : St K V) (id : Nat) : Option (St K V) :=
  match s.w.its id with
  | none => none
  | some (b, p) =>
    match s.leafOf b with
    | none => none
    | some l =>
      if p = l.els.length then none           -- assertion leaf.h:374
      else some { s with w := s.w.reg id (stepOver s l (p + 1)) }

/-- `--it` (iterator.h:151-160, leaf.h:396-421). -/
def decr (s : St K V) (id : Nat) : Option (St K V) :=
  match s.w.its id with
  | none => none
  | some (b, p) =>
    match s.leafOf b with
    | none => none
    | some l =>
      if p = 0 then
        match s.w.pred l.bid with
        | none => none                        -- assertion leaf.h:404
        | some q =>
          match s.leafOf q with
          | none => none
          | some l' => some { s with w := s.w.reg id (q, l'.els.length - 1) }
      else some { s with w := s.w.reg id (b, p - 1) }

/-- `*it` (iterator.h:114-128): the value read.  Reading at or beyond `cur_size` is undefined here. -/
def deref (s : St K V) (id : Nat) : Option (K × V) :=
  match s.w.its id with
  | none => none
  | some (b, p) => (s.leafOf b).bind (fun l => l.els[p]?)

/-- `it->second = v` (iterator.h:114-120). -/
def assign (s : St K V) (id : Nat) (v : V) : Option (St K V) :=
  match s.w.its id with
  | none => none
  | some (b, p) =>
    match (s.leafOf b).bind (fun l => l.els[p]?) with
    | none => none
    | some _ => some { s with root := s.root.map (fun e => (e.1, setAt b p (fun q => (q.1, v)) s.h e.2)) }

/-- `a == b` for iterators of the same tree (iterator.h:130-138). -/
def eqIt (s : St K V) (a b : Nat) : Bool := s.w.its a == s.w.its b

/-- `erase(iterator)` (btree.h:929-939): the key is read through the iterator. -/
def eraseIt [DecidableEq K] (c : Cfg K) (s : St K V) (id : Nat) : Option (St K V × Nat) :=
  if s.w.its id = s.w.its 0 then none         -- assertion btree.h:931
  else match deref s id with
    | none => none
    | some e =>
      match erase c s e.1 with
      | none => none
      | some (s', r) => if s'.size = s.size - 1 then some (s', r) else none   -- assertion btree.h:938

/-- `deallocate_children()` of the root (btree.h:236-260): all blocks given back. -/
def St.dealloc (s : St K V) : List Nat :=
  s.root.foldl (fun live e => (BTree.dealloc s.h e.2).foldl List.erase live) s.live

/-- `clear()` (btree.h:947-959).  (Iterators other than `end()` stay registered, pointing to freed leaves.) -/
def clear (c : Cfg K) (pick : List Nat → Nat) (s : St K V) : St K V :=
  createEmptyLeaf c pick s.w s.dealloc

/-- The loop `while (first != last) erase(first++)` of `erase(first, last)` (btree.h:1040-1047), where
`tmp` is the variable holding the value of `first++`.  The fuel only makes it a total function: running
out of it is `none`. -/
def eraseLoop [DecidableEq K] (c : Cfg K) (first last tmp : Nat) : Nat → St K V → Option (St K V)
  | 0, _ => none
  | n + 1, s =>
    if s.w.its first = s.w.its last then some s
    else match copyIt s first tmp with
      | none => none
      | some s1 =>
        match incr s1 first with
        | none => none
        | some s2 =>
          match eraseIt c s2 tmp with
          | none => none
          | some (s3, _) => eraseLoop c first last tmp n s3

/-- `erase(first, last)` (btree.h:1040-1047); `t1`, `tmp` are temporaries. -/
def eraseRange [DecidableEq K] (c : Cfg K) (pick : List Nat → Nat) (s : St K V) (first last t1 tmp : Nat) :
    Option (St K V) :=
  match begin_ s t1 with
  | none => none
  | some s1 =>
    if s1.w.its first = s1.w.its t1 ∧ s1.w.its last = s1.w.its 0 then some (clear c pick s1)
    else eraseLoop c first last tmp (s.size + 1) s1

end

end BTree
