/-
Specification of `stxxl::map`: what a client who only knows the interface (that of std::map) expects.
The contents are a list of (key, data) pairs with ascending keys; the client has numbered iterator
variables.  Nothing here mentions blocks, leaves or nodes.
-/
import Mathlib.Order.Defs.LinearOrder

namespace BTree.Spec

/-- What an iterator variable denotes: nothing (singular / invalidated), the entry with a key, `end()`. -/
inductive Cur (K : Type) where
  | sing
  | at_ (k : K)
  | fin
  deriving DecidableEq

structure M (K V : Type) where
  m : List (K × V)
  cur : Nat → Cur K

/-- The calls of the interface; `r`, `i`, `j` are iterator variables of the client. -/
inductive Op (K V : Type) where
  | insert (x : K × V) (r : Nat)           -- r = insert(x).first, result insert(x).second
  | index (k : K) (dflt : V)               -- read m[k]; `dflt` is the default-constructed data
  | indexSet (k : K) (dflt v : V)          -- m[k] = v
  | erase (k : K)
  | eraseIt (i : Nat)
  | eraseRange (i j : Nat)
  | find (k : K) (r : Nat)
  | count (k : K)
  | lower (k : K) (r : Nat)
  | upper (k : K) (r : Nat)
  | equalRange (k : K) (r r' : Nat)
  | begin_ (r : Nat)
  | end_ (r : Nat)
  | copy (i r : Nat)
  | incr (i : Nat)
  | decr (i : Nat)
  | deref (i : Nat)
  | assign (i : Nat) (v : V)
  | eq (i j : Nat)
  | size
  | clear

inductive Out (K V : Type) where
  | unit
  | bool (b : Bool)
  | num (n : Nat)
  | val (e : K × V)
  | data (v : V)
  deriving DecidableEq

section
variable {K V : Type} [LinearOrder K]

def set (cur : Nat → Cur K) (r : Nat) (c : Cur K) : Nat → Cur K := fun i => if i = r then c else cur i

/-- The iterator to the entry found, or `end()`. -/
def curOf : Option (K × V) → Cur K
  | some e => .at_ e.1
  | none => .fin

def lookup (m : List (K × V)) (k : K) : Option (K × V) := m.find? (fun e => decide (e.1 = k))

/-- Iterators to removed entries become singular. -/
def kill (p : K → Bool) (cur : Nat → Cur K) : Nat → Cur K := fun i =>
  match cur i with
  | .at_ k => if p k then .sing else .at_ k
  | c => c

/-- Contents after an insertion: unchanged if the key is present. -/
def ins (m : List (K × V)) (x : K × V) : List (K × V) :=
  match lookup m x.1 with
  | some _ => m
  | none => m.filter (fun e => decide (e.1 < x.1)) ++ x :: m.filter (fun e => decide (x.1 < e.1))

def put (m : List (K × V)) (k : K) (v : V) : List (K × V) := m.map (fun e => if e.1 = k then (k, v) else e)

/-- Is `k` in the range that starts at `a` and ends before `b`? -/
def inRange (a b : Cur K) (k : K) : Bool :=
  match a, b with
  | .at_ l, .at_ h => decide (l ≤ k) && decide (k < h)
  | .at_ l, .fin => decide (l ≤ k)
  | _, _ => false

/-- Is `[a, b)` a valid range? -/
def okRange : Cur K → Cur K → Bool
  | .at_ l, .at_ h => decide (l ≤ h)
  | .at_ _, .fin => true
  | .fin, .fin => true
  | _, _ => false

/-- One call; `none` if its precondition does not hold.  `mx` is the comparator's `max_value()`.
(`erase(begin(), end())` is `clear()`, which invalidates all iterators, `end()` included.) -/
def step (mx : K) (s : M K V) : Op K V → Option (M K V × Out K V)
  | .insert x r =>
    if x.1 ≤ mx then some (⟨ins s.m x, set s.cur r (.at_ x.1)⟩, .bool (lookup s.m x.1).isNone) else none
  | .index k d =>
    if k ≤ mx then some (⟨ins s.m (k, d), s.cur⟩, .data (((lookup s.m k).map Prod.snd).getD d)) else none
  | .indexSet k d v => if k ≤ mx then some (⟨put (ins s.m (k, d)) k v, s.cur⟩, .unit) else none
  | .erase k =>
    if k ≤ mx then
      some (⟨s.m.filter (fun e => decide (e.1 ≠ k)), kill (fun k' => decide (k' = k)) s.cur⟩,
        .num (if (lookup s.m k).isSome then 1 else 0))
    else none
  | .eraseIt i =>
    match s.cur i with
    | .at_ k => some (⟨s.m.filter (fun e => decide (e.1 ≠ k)), kill (fun k' => decide (k' = k)) s.cur⟩, .unit)
    | _ => none
  | .eraseRange i j =>
    if okRange (s.cur i) (s.cur j) then
      if s.cur i = curOf s.m.head? ∧ s.cur j = .fin then some (⟨[], fun _ => .sing⟩, .unit)
      else some (⟨s.m.filter (fun e => !inRange (s.cur i) (s.cur j) e.1), kill (inRange (s.cur i) (s.cur j)) s.cur⟩, .unit)
    else none
  | .find k r => if k ≤ mx then some (⟨s.m, set s.cur r (curOf (lookup s.m k))⟩, .unit) else none
  | .count k => if k ≤ mx then some (s, .num (if (lookup s.m k).isSome then 1 else 0)) else none
  | .lower k r =>
    if k ≤ mx then some (⟨s.m, set s.cur r (curOf (s.m.find? (fun e => decide (k ≤ e.1))))⟩, .unit) else none
  | .upper k r =>
    if k < mx then some (⟨s.m, set s.cur r (curOf (s.m.find? (fun e => decide (k < e.1))))⟩, .unit) else none
  | .equalRange k r r' =>
    if k ≤ mx ∧ r ≠ r' then
      some (⟨s.m, set (set s.cur r (curOf (s.m.find? (fun e => decide (k ≤ e.1)))))
        r' (curOf (s.m.find? (fun e => decide (k < e.1))))⟩, .unit)
    else none
  | .begin_ r => some (⟨s.m, set s.cur r (curOf s.m.head?)⟩, .unit)
  | .end_ r => some (⟨s.m, set s.cur r .fin⟩, .unit)
  | .copy i r =>
    match s.cur i with
    | .sing => none
    | c => some (⟨s.m, set s.cur r c⟩, .unit)
  | .incr i =>
    match s.cur i with
    | .at_ k => some (⟨s.m, set s.cur i (curOf (s.m.find? (fun e => decide (k < e.1))))⟩, .unit)
    | _ => none
  | .decr i =>
    match s.cur i with
    | .at_ k =>
      match (s.m.filter (fun e => decide (e.1 < k))).getLast? with
      | some e => some (⟨s.m, set s.cur i (.at_ e.1)⟩, .unit)
      | none => none
    | .fin =>
      match s.m.getLast? with
      | some e => some (⟨s.m, set s.cur i (.at_ e.1)⟩, .unit)
      | none => none
    | .sing => none
  | .deref i =>
    match s.cur i with
    | .at_ k => (lookup s.m k).map (fun e => (s, .val e))
    | _ => none
  | .assign i v =>
    match s.cur i with
    | .at_ k => some (⟨put s.m k v, s.cur⟩, .unit)
    | _ => none
  | .eq i j =>
    if s.cur i ≠ .sing ∧ s.cur j ≠ .sing then some (s, .bool (decide (s.cur i = s.cur j))) else none
  | .size => some (s, .num s.m.length)
  | .clear => some (⟨[], fun _ => .sing⟩, .unit)

/-- A history of calls and its outputs. -/
def run (mx : K) (s : M K V) : List (Op K V) → Option (M K V × List (Out K V))
  | [] => some (s, [])
  | op :: ops =>
    match step mx s op with
    | none => none
    | some (s', o) =>
      match run mx s' ops with
      | none => none
      | some (s'', os) => some (s'', o :: os)

/-- The largest number of elements the map has during a history. -/
def peak (mx : K) (s : M K V) : List (Op K V) → Nat
  | [] => s.m.length
  | op :: ops =>
    match step mx s op with
    | none => s.m.length
    | some (s', _) => max s.m.length (peak mx s' ops)

/-- The pair a call inserts unless its key is present. -/
def Op.inserts : Op K V → Option (K × V)
  | .insert x _ => some x
  | .index k d => some (k, d)
  | .indexSet k d _ => some (k, d)
  | _ => none

/-- What histories may do if insertions are allowed to throw after having inserted: `Hist mx σ ops outs σ'`,
where the output `none` stands for an exception. -/
inductive Hist (mx : K) : M K V → List (Op K V) → List (Option (Out K V)) → M K V → Prop where
  | nil (s : M K V) : Hist mx s [] [] s
  | ok {s s' s'' : M K V} {op : Op K V} {o : Out K V} {ops : List (Op K V)} {os : List (Option (Out K V))} :
      step mx s op = some (s', o) → Hist mx s' ops os s'' → Hist mx s (op :: ops) (some o :: os) s''
  | thrown {s s'' : M K V} {op : Op K V} {x : K × V} {ops : List (Op K V)} {os : List (Option (Out K V))} :
      op.inserts = some x → Hist mx ⟨ins s.m x, s.cur⟩ ops os s'' → Hist mx s (op :: ops) (none :: os) s''

/-- The preconditions hold at every call, whether or not insertions throw. -/
def Safe (mx : K) (s : M K V) : List (Op K V) → Prop
  | [] => True
  | op :: ops => ∃ s' o, step mx s op = some (s', o) ∧ Safe mx s' ops ∧ ∀ x, op.inserts = some x → Safe mx ⟨ins s.m x, s.cur⟩ ops

/-- The empty map; no iterators yet. -/
def start : M K V := ⟨[], fun _ => .sing⟩

end

end BTree.Spec
