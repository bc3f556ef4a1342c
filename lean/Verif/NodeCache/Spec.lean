/-
Specification of the B-tree's node cache (C42): what the B-tree, its client, relies on.  The cache hands out
pointers to nodes (blocks).  Contents live in a store `val`, one value per block; `fx` are the fixed nodes;
`recent` are unfixed nodes that are nevertheless certain to be in the cache, the most recently used first.
Pointers are kept in numbered variables; a pointer is valid while its node is fixed or in `recent`.
-/

namespace NodeCache.Spec

structure M (V : Type) where
  live : List Nat
  val : Nat → V
  fx : List Nat
  recent : List Nat
  ptr : Nat → Option (Nat × Bool)      -- node and whether the pointer is to non-const

inductive Op (V : Type) where
  | new (h : Nat)                       -- h = get_new_node(bid); result: bid
  | get (bid : Nat) (fix : Bool) (h : Nat)
  | cget (bid : Nat) (fix : Bool) (h : Nat)
  | prefetch (bid : Nat)
  | unfix (bid : Nat)
  | del (bid : Nat)
  | read (h : Nat)
  | write (h : Nat) (v : V)

inductive Out (V : Type) where
  | unit
  | null
  | bid (b : Nat)
  | val (v : V)
  deriving DecidableEq

section
variable {V : Type}

def hot (s : M V) (b : Nat) : Bool := s.fx.contains b || s.recent.contains b

/-- Pointers to nodes that are no longer certain to be in the cache are invalid. -/
def drop (s : M V) : M V :=
  { s with ptr := fun h => match s.ptr h with
      | some (b, w) => if hot s b then some (b, w) else none
      | none => none }

def setPtr (s : M V) (h : Nat) (p : Option (Nat × Bool)) : M V :=
  { s with ptr := fun i => if i = h then p else s.ptr i }

/-- Node `b` has been used, and is now fixed or not. -/
def touch (s : M V) (b : Nat) (fix : Bool) : M V :=
  { s with fx := if fix then b :: s.fx.erase b else s.fx.erase b,
           recent := if fix then s.recent.erase b else b :: s.recent.erase b }

/-- A node had to be brought into a cache of `n` nodes: the least recently used unfixed node may be gone. -/
def shrink (n : Nat) (s : M V) : M V := { s with recent := s.recent.take (n - 1 - s.fx.length) }

/-- Access to `b` in a cache of `n` nodes; the NULL pointer is returned exactly if all `n` nodes are fixed and `b` is none of them. -/
def access (n : Nat) (s : M V) (b : Nat) (fix w : Bool) (h : Nat) : M V × Out V :=
  if hot s b then (drop (setPtr (touch s b fix) h (some (b, w))), .unit)
  else if s.fx.length = n then (setPtr s h none, .null)
  else (drop (setPtr (touch (shrink n s) b fix) h (some (b, w))), .unit)

/-- One call; `none` if its precondition does not hold.  `pick` chooses the number of a new block, `init` is
the contents of an initialised node. -/
def step (n : Nat) (init : V) (pick : List Nat → Nat) (s : M V) : Op V → Option (M V × Out V)
  | .new h =>
    if s.fx.length = n then some (setPtr s h none, .null)
    else
      let b := pick s.live
      let s1 := { s with live := b :: s.live, val := fun i => if i = b then init else s.val i }
      some ((drop (setPtr (touch (shrink n s1) b false) h (some (b, true)))), .bid b)
  | .get b fix h => if b ∈ s.live then some (access n s b fix true h) else none
  | .cget b fix h => if b ∈ s.live then some (access n s b fix false h) else none
  | .prefetch b =>
    if b ∈ s.live then
      if hot s b ∨ s.fx.length = n then some (s, .unit) else some (drop { s with recent := [] }, .unit)
    else none
  | .unfix b => if b ∈ s.fx then some (drop { s with fx := s.fx.erase b, recent := [] }, .unit) else none
  | .del b =>
    if b ∈ s.live then some (drop { s with live := s.live.erase b, fx := s.fx.erase b, recent := s.recent.erase b }, .unit) else none
  | .read h =>
    match s.ptr h with
    | some (b, _) => some (s, .val (s.val b))
    | none => none
  | .write h v =>
    match s.ptr h with
    | some (b, true) => some ({ s with val := fun i => if i = b then v else s.val i }, .unit)
    | _ => none

def run (n : Nat) (init : V) (pick : List Nat → Nat) (s : M V) : List (Op V) → Option (M V × List (Out V))
  | [] => some (s, [])
  | op :: ops =>
    match step n init pick s op with
    | none => none
    | some (s', o) =>
      match run n init pick s' ops with
      | none => none
      | some (s'', os) => some (s'', o :: os)

/-- No blocks yet. -/
def start (val : Nat → V) : M V := ⟨[], val, [], [], fun _ => none⟩

end

end NodeCache.Spec
