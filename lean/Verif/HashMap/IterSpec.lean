import Verif.HashMap.Spec

/-!
# What a user of the hash map's iterators relies on (C44)

An iterator object is known by a number. The specification state is a finite map and, for every live iterator
object, the key it points to (or that it equals `end()`).
-/
namespace Verif.HashMap
variable {K V : Type}

/-- Where an iterator object points to; `pos = none`: it equals `end()`. `frag`: it was obtained from `begin()`
(directly or as a copy). `broken`: since then a call concerned a key behind its position, so that it may be read
but not advanced (see `C44_finding_begin`). -/
structure Pos (K : Type) where
  pos : Option K
  frag : Bool
  broken : Bool

/-- The finite map and the iterator objects. -/
structure ISt (K V : Type) where
  m : K → Option V
  its : Nat → Option (Pos K)

/-- Calls of the map, calls whose result is kept as an iterator object, and calls of iterators. -/
inductive IOp (K V : Type)
  | call (op : Op K V)
  | find (k : K)
  | findC (k : K)
  | insert (k : K) (v : V)
  | insertObl (k : K) (v : V)
  | begin
  | next (i : Nat)
  | deref (i : Nat)
  | assign (i : Nat) (v : V)
  | eraseIt (i : Nat)
  | isEnd (i : Nat)
  | equal (i j : Nat)
  | copy (i : Nat)
  | drop (i : Nat)

/-- Results. -/
inductive IOut (K V : Type)
  | unit
  | bool (b : Bool)
  | out (o : Out K V)
  | val (x : K × V)
  | iter (i : Nat)
  | iterB (i : Nat) (b : Bool)
deriving DecidableEq

/-- The iterator object `i` points to `k`. -/
def At (σ : ISt K V) (i : Nat) (k : K) : Prop := ∃ p, σ.its i = some p ∧ p.pos = some k

/-- The iterator object `i` exists. -/
def Live1 (σ : ISt K V) (i : Nat) : Prop := σ.its i ≠ none

/-- The keys a call of the map may add to, or hide in, the buffer. -/
def Op.key? : Op K V → Option K
  | .insert k _ => some k
  | .insertObl k _ => some k
  | .erase k => some k
  | .eraseObl k => some k
  | .find k => some k
  | .get k => some k
  | .set k _ => some k
  | _ => none

/-- What the user must observe. -/
def IPre (σ : ISt K V) : IOp K V → Prop
  | .call (.get k) => ∀ i, ¬ At σ i k
  | .call (.set k _) => ∀ i, ¬ At σ i k
  | .call _ => True
  | .find _ => True
  | .findC _ => True
  | .insert _ _ => True
  | .insertObl _ _ => True
  | .begin => True
  | .next i => ∃ p k, σ.its i = some p ∧ p.pos = some k ∧ p.broken = false
  | .deref i => ∃ k, At σ i k
  | .assign i _ => ∃ k, At σ i k
  | .eraseIt i => ∃ k, At σ i k
  | .isEnd i => Live1 σ i
  | .equal i j => ∃ p q, σ.its i = some p ∧ σ.its j = some q ∧ p.pos.isSome = q.pos.isSome
  | .copy i => Live1 σ i
  | .drop i => Live1 σ i

/-- A call that may run into the undefined behaviour described under C31 (empty table). -/
def IOp.mayFail : IOp K V → Bool
  | .call _ => true
  | .find _ => true
  | .findC _ => true
  | .insert _ _ => true
  | .insertObl _ _ => true
  | _ => false

/-- Key `k` was touched: iterators from `begin()` that are before it must not be advanced any more. -/
def touch (lt : K → K → Bool) (k : K) (its : Nat → Option (Pos K)) : Nat → Option (Pos K) := fun i =>
  (its i).map fun p => { p with broken := p.broken || (p.frag && (p.pos.any fun k' => lt k' k)) }

/-- The iterators to `k` become `end()`. -/
def toEnd [DecidableEq K] (k : K) (its : Nat → Option (Pos K)) : Nat → Option (Pos K) := fun i =>
  (its i).map fun p => if p.pos = some k then { p with pos := none } else p

/-- All iterators become `end()`. -/
def allEnd (its : Nat → Option (Pos K)) : Nat → Option (Pos K) := fun i =>
  (its i).map fun p => { p with pos := none }

def setI (its : Nat → Option (Pos K)) (i : Nat) (p : Option (Pos K)) : Nat → Option (Pos K) :=
  fun j => if j = i then p else its j

/-- The iterators after a call of the map. -/
def itsAfter [DecidableEq K] (lt : K → K → Bool) (op : Op K V) (its : Nat → Option (Pos K)) : Nat → Option (Pos K) :=
  match op with
  | .insert k _ => touch lt k its
  | .insertObl k _ => touch lt k its
  | .erase k => touch lt k (toEnd k its)
  | .eraseObl k => touch lt k (toEnd k its)
  | .find k => touch lt k its
  | .get k => touch lt k its
  | .set k _ => touch lt k its
  | .clear => allEnd its
  | _ => its

/-- `o` is the first key of the map in the order `lt` among those satisfying `p`, if any. -/
def IsFirst (lt : K → K → Bool) (m : K → Option V) (p : K → Prop) (o : Option K) : Prop :=
  match o with
  | some k => m k ≠ none ∧ p k ∧ ∀ k', m k' ≠ none → p k' → k' = k ∨ lt k k' = true
  | none => ∀ k', m k' ≠ none → ¬ p k'

/-- What a call may answer, and the state after it. `lt` is the order of traversal, `dv` is
`mapped_type()`. -/
def IStep [DecidableEq K] (lt : K → K → Bool) (dv : V) (σ : ISt K V) (op : IOp K V) (o : IOut K V) (σ' : ISt K V) : Prop :=
  match op with
  | .call op => ∃ r, o = .out r ∧ (op.isSize = false → Result dv op σ.m r) ∧
      σ' = ⟨next dv op σ.m, itsAfter lt op σ.its⟩
  | .find k => ∃ i, o = .iter i ∧ σ.its i = none ∧
      σ' = ⟨σ.m, setI (touch lt k σ.its) i (some ⟨(σ.m k).map fun _ => k, false, false⟩)⟩
  | .findC k => ∃ i, o = .iter i ∧ σ.its i = none ∧
      σ' = ⟨σ.m, setI σ.its i (some ⟨(σ.m k).map fun _ => k, false, false⟩)⟩
  | .insert k v => ∃ i, o = .iterB i (σ.m k).isNone ∧ σ.its i = none ∧
      σ' = ⟨next dv (.insert k v) σ.m, setI (touch lt k σ.its) i (some ⟨some k, false, false⟩)⟩
  | .insertObl k v => ∃ i, o = .iter i ∧ σ.its i = none ∧
      σ' = ⟨next dv (.insertObl k v) σ.m, setI (touch lt k σ.its) i (some ⟨some k, false, false⟩)⟩
  | .begin => ∃ i x, o = .iter i ∧ σ.its i = none ∧ IsFirst lt σ.m (fun _ => True) x ∧
      σ' = ⟨σ.m, setI σ.its i (some ⟨x, true, false⟩)⟩
  | .next i => ∃ p k x, o = .unit ∧ σ.its i = some p ∧ p.pos = some k ∧
      IsFirst lt σ.m (fun k' => lt k k' = true) x ∧ σ' = ⟨σ.m, setI σ.its i (some { p with pos := x })⟩
  | .deref i => ∃ k v, At σ i k ∧ σ.m k = some v ∧ o = .val (k, v) ∧ σ' = σ
  | .assign i v => ∃ k, At σ i k ∧ o = .unit ∧ σ' = ⟨upd σ.m k (some v), σ.its⟩
  | .eraseIt i => ∃ k, At σ i k ∧ o = .unit ∧ σ' = ⟨upd σ.m k none, touch lt k (toEnd k σ.its)⟩
  | .isEnd i => ∃ p, σ.its i = some p ∧ o = .bool p.pos.isNone ∧ σ' = σ
  | .equal i j => ∃ p q, σ.its i = some p ∧ σ.its j = some q ∧ o = .bool (decide (p.pos = q.pos)) ∧ σ' = σ
  | .copy i => ∃ j p, o = .iter j ∧ σ.its j = none ∧ σ.its i = some p ∧ σ' = ⟨σ.m, setI σ.its j (some p)⟩
  | .drop i => o = .unit ∧ σ' = ⟨σ.m, setI σ.its i none⟩

end Verif.HashMap
