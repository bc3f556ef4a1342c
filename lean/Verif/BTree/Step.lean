/-
The calls of the interface, composed from the functions of the model.
-/
import Verif.BTree.Model
import Verif.BTree.Spec

namespace BTree
open Spec (Op Out)
variable {K V : Type} [DecidableEq K]

/-- Client variables are registered iterators `i + 5`; 1–4 are temporaries, 0 is `m_end_iterator`. -/
@[reducible] def cv (i : Nat) : Nat := i + 5

def lift (o : Option (St K V)) : Res (St K V) (Out K V) :=
  match o with
  | some s => .ok s .unit
  | none => .ub

/-- `equal_range` (btree.h:809-828). -/
def equalRange (c : Cfg K) (s : St K V) (k : K) (r r' : Nat) : Option (St K V) :=
  match lowerBound c s k r with
  | none => none
  | some s1 =>
    if s1.w.its r = s1.w.its 0 then copyIt s1 r r'
    else match deref s1 r with
      | none => none
      | some e =>
        if c.lt k e.1 then copyIt s1 r r'
        else match copyIt s1 r r' with
          | none => none
          | some s2 => incr s2 r'

/-- The interface (map.h forwards to btree.h). -/
def step (c : Cfg K) (pick : List Nat → Nat) (s : St K V) : Op K V → Res (St K V) (Out K V)
  | .insert x r =>                            -- btree.h:500-556
    match insert c pick s x 1 with
    | .ok s' b =>
      match copyIt s' 1 (cv r) with
      | some s'' => .ok s'' (.bool b)
      | none => .ub
    | .ub => .ub
    | .thrown s' => .thrown s'
  | .index k d =>                             -- operator[] btree.h:623-626
    match insert c pick s (k, d) 1 with
    | .ok s' _ =>
      match deref s' 1 with
      | some e => .ok s' (.data e.2)
      | none => .ub
    | .ub => .ub
    | .thrown s' => .thrown s'
  | .indexSet k d v =>                        -- operator[] btree.h:623-626, then an assignment
    match insert c pick s (k, d) 1 with
    | .ok s' _ => lift (assign s' 1 v)
    | .ub => .ub
    | .thrown s' => .thrown s'
  | .erase k =>
    match erase c s k with
    | some (s', r) => .ok s' (.num r)
    | none => .ub
  | .eraseIt i =>
    match eraseIt c s (cv i) with
    | some (s', _) => .ok s' .unit
    | none => .ub
  | .eraseRange i j =>                        -- the arguments are passed by value
    lift (((copyIt s (cv i) 1).bind (fun s1 => copyIt s1 (cv j) 2)).bind (fun s2 => eraseRange c pick s2 1 2 3 4))
  | .find k r => lift (find c s k (cv r))
  | .count k =>                               -- btree.h:921-927
    match find c s k 1 with
    | some s' => .ok s' (.num (if s'.w.its 1 = s'.w.its 0 then 0 else 1))
    | none => .ub
  | .lower k r => lift (lowerBound c s k (cv r))
  | .upper k r => lift (upperBound c s k (cv r))
  | .equalRange k r r' => lift (equalRange c s k (cv r) (cv r'))
  | .begin_ r => lift (begin_ s (cv r))
  | .end_ r => lift (end_ s (cv r))
  | .copy i r => lift (copyIt s (cv i) (cv r))
  | .incr i => lift (incr s (cv i))
  | .decr i => lift (decr s (cv i))
  | .deref i =>
    match deref s (cv i) with
    | some e => .ok s (.val e)
    | none => .ub
  | .assign i v => lift (assign s (cv i) v)
  | .eq i j => .ok s (.bool (eqIt s (cv i) (cv j)))
  | .size => .ok s (.num s.size)              -- btree.h:484-487
  | .clear => .ok (clear c pick s) .unit

/-- A history of calls; the outputs, `none` for a call that ended with an exception (the client goes on). -/
def run (c : Cfg K) (pick : List Nat → Nat) (s : St K V) : List (Op K V) → Option (St K V × List (Option (Out K V)))
  | [] => some (s, [])
  | op :: ops =>
    match step c pick s op with
    | .ub => none
    | .ok s' o => (run c pick s' ops).map (fun r => (r.1, some o :: r.2))
    | .thrown s' => (run c pick s' ops).map (fun r => (r.1, none :: r.2))

end BTree
