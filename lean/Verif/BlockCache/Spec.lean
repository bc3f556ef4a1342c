/-!
# What the clients of the hash map's block cache rely on (C43)

Blocks consist of subblocks; the cache hands out pointers to subblocks. The specification is a store with one
value per subblock; the rest of its state only says when pointers are valid and when contents are defined.
-/

namespace BlockCache.Spec

/-- `held b`: how often block `b` is retained. `hot`: blocks that are certain to be in the cache although not
retained. `marked b`: `make_dirty(b)` has been called and `b` has been certain to be in the cache since.
`changed b`: `b` may have been changed since the last `flush`. `seen b`: `b` may be in the cache. `lost b`: the
contents of `b` are undefined. `flushed`: `flush` was called, and only `clear` may be called. `ptr`: the
client's pointer variables. -/
structure M (V : Type) where
  val : Nat → Nat → V
  held : Nat → Nat
  hot : List Nat
  marked : Nat → Bool
  changed : Nat → Bool
  seen : Nat → Bool
  lost : Nat → Bool
  flushed : Bool
  ptr : Nat → Option (Nat × Nat)

/-- The calls, the client's accesses through pointers, writing a block past the cache (as the hash map's
`buffered_writer` does), and the completion of asynchronous write number `j`. -/
inductive Op (V : Type) where
  | get (b i h : Nat)
  | prefetch (b : Nat)
  | retain (b : Nat)
  | release (b : Nat)
  | makeDirty (b : Nat)
  | flush (order : List Nat)
  | clear
  | read (h : Nat)
  | write (h : Nat) (v : V)
  | put (b : Nat) (c : Nat → V)
  | complete (j : Nat)

inductive Out (V : Type) where
  | unit
  | bool (r : Bool)
  | val (v : V)
  /-- `std::runtime_error`: all blocks are retained -/
  | full
  /-- undefined behaviour -/
  | ub
  deriving DecidableEq

section
variable {V : Type}

/-- Block `b` is certain to be in the cache. -/
def Sure (m : M V) (b : Nat) : Prop := 0 < m.held b ∨ b ∈ m.hot

instance (m : M V) (b : Nat) : Decidable (Sure m b) := inferInstanceAs (Decidable (_ ∨ _))

/-- What the client must observe. -/
def Pre (n : Nat) (m : M V) : Op V → Prop
  | .get b _ _ => m.flushed = false ∧ m.lost b = false
  | .prefetch b => m.flushed = false ∧ m.lost b = false
  | .retain _ => m.flushed = false
  | .release _ => m.flushed = false
  | .makeDirty _ => m.flushed = false
  | .flush order => m.flushed = false ∧ order.Perm (List.range n)
  | .clear => True
  | .read h => m.flushed = false ∧ m.ptr h ≠ none
  | .write h _ => m.flushed = false ∧ ∃ b i, m.ptr h = some (b, i) ∧ m.marked b = true
  | .put b _ => m.flushed = false ∧ m.seen b = false
  | .complete _ => True

/-- `k` different blocks are retained. -/
def AllHeld (m : M V) (k : Nat) : Prop := ∃ l : List Nat, l.Nodup ∧ l.length = k ∧ ∀ b ∈ l, 0 < m.held b

/-- What the cache with room for `n` blocks may answer. -/
def Post (n : Nat) (m : M V) : Op V → Out V → Prop
  | .get b _ _, o => o = .unit ∨ (o = .full ∧ AllHeld m n ∧ m.held b = 0)
  | .prefetch b, o => o = .unit ∨ (o = .full ∧ AllHeld m n ∧ m.held b = 0)
  | .retain b, o => (o = .bool true) ∨ (o = .bool false ∧ ¬ Sure m b)
  | .release b, o => o = .bool (decide (0 < m.held b))
  | .makeDirty b, o => (o = .bool true) ∨ (o = .bool false ∧ ¬ Sure m b)
  | .read h, o => ∀ b i, m.ptr h = some (b, i) → o = .val (m.val b i)
  | .flush _, o => o = .unit
  | .clear, o => o = .unit
  | .write _ _, o => o = .unit
  | .put _ _, o => o = .unit
  | .complete _, o => o = .unit

/-- Forget the pointers to, and marks of, blocks that need not be in the cache any more. -/
def tidy (m : M V) : M V :=
  { m with marked := fun b => m.marked b && decide (Sure m b)
           ptr := fun h => match m.ptr h with
             | some (b, i) => if Sure m b then some (b, i) else none
             | none => none }

/-- Block `b` is brought into the cache: a block that is not retained may have to go. -/
def bring (m : M V) (b : Nat) : M V :=
  if Sure m b then m
  else tidy { m with hot := [b], seen := fun x => x = b || m.seen x }

def setPtr (m : M V) (h : Nat) (p : Option (Nat × Nat)) : M V := { m with ptr := fun x => if x = h then p else m.ptr x }

/-- The state after a call with the given answer. -/
def next (m : M V) : Op V → Out V → M V
  | .get b i h, .unit => setPtr (bring m b) h (some (b, i))
  | .prefetch b, .unit => bring m b
  | .retain b, .bool true => { m with held := fun x => if x = b then m.held b + 1 else m.held x }
  | .release b, .bool true =>
    { m with held := fun x => if x = b then m.held b - 1 else m.held x, hot := b :: m.hot }
  | .makeDirty b, .bool true =>
    { m with marked := fun x => m.marked x || (decide (x = b) && decide (Sure m b))
             changed := fun x => x = b || m.changed x }
  | .flush _, _ => { m with flushed := true, changed := fun _ => false }
  | .clear, _ =>
    { m with held := fun _ => 0, hot := [], marked := fun _ => false, changed := fun _ => false,
             seen := fun _ => false, lost := fun b => m.lost b || m.changed b, flushed := false,
             ptr := fun _ => none }
  | .write h v, _ =>
    match m.ptr h with
    | some (b, i) => { m with val := fun x y => if x = b ∧ y = i then v else m.val x y }
    | none => m
  | .put b c, _ => { m with val := fun x => if x = b then c else m.val x
                            lost := fun x => m.lost x && decide (x ≠ b) }
  | _, _ => m

/-- Every answer is right as long as the client observes its obligations. -/
def Conforms (n : Nat) : M V → List (Op V) → List (Out V) → Prop
  | _, [], outs => outs = []
  | _, _ :: _, [] => False
  | m, op :: ops, o :: outs => Pre n m op → Post n m op o ∧ Conforms n (next m op o) ops outs

/-- Nothing is in the cache. -/
def start (val : Nat → Nat → V) : M V :=
  ⟨val, fun _ => 0, [], fun _ => false, fun _ => false, fun _ => false, fun _ => false, false, fun _ => none⟩

end

end BlockCache.Spec
