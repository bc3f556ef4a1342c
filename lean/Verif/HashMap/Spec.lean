import Verif.HashMap.Model

/-! # What a user of the hash map sees: an abstract finite map -/
namespace Verif.HashMap
variable {K V : Type}

/-- Calls of the public interface. `bulk` carries the range to insert as sorted by the stream sorter
(hash attached, ordered by hash and key). -/
inductive Op (K V : Type)
  | insert (k : K) (v : V)
  | insertObl (k : K) (v : V)
  | erase (k : K)
  | eraseObl (k : K)
  | find (k : K)
  | findC (k : K)
  | get (k : K)
  | set (k : K) (v : V)
  | size
  | rehash (n : Nat)
  | clear
  | setMaxBuf (n : Nat)
  | bulk (xs : List (Nat × (K × V)))

/-- Results of calls. -/
inductive Out (K V : Type)
  | unit
  | bool (b : Bool)
  | nat (n : Nat)
  | val (o : Option (K × V))
deriving DecidableEq, Repr

/-- `m` updated at `k`. -/
def upd [DecidableEq K] (m : K → Option V) (k : K) (o : Option V) : K → Option V :=
  fun x => if x = k then o else m x

/-- `m` has exactly `n` keys. -/
def HasCard (m : K → Option V) (n : Nat) : Prop :=
  ∃ l : List K, l.Nodup ∧ (∀ k, k ∈ l ↔ (m k).isSome = true) ∧ l.length = n

/-- The empty map. -/
def Empty (m : K → Option V) : Prop := ∀ k, m k = none

/-- The map after a call. `dv` is `mapped_type()`. -/
def next [DecidableEq K] (dv : V) (op : Op K V) (m : K → Option V) : K → Option V :=
  match op with
  | .insert k v => if (m k).isNone then upd m k (some v) else m
  | .insertObl k v => upd m k (some v)
  | .erase k => upd m k none
  | .eraseObl k => upd m k none
  | .find _ => m
  | .findC _ => m
  | .get k => upd m k (some ((m k).getD dv))
  | .set k v => upd m k (some v)
  | .size => m
  | .rehash _ => m
  | .clear => fun _ => none
  | .setMaxBuf _ => m
  | .bulk xs => fun k => ((xs.find? fun x => x.2.1 = k).map fun x => x.2.2).or (m k)

/-- The result a call on the map `m` has to give. -/
def Result (dv : V) (op : Op K V) (m : K → Option V) (out : Out K V) : Prop :=
  match op with
  | .insert k _ => out = .bool (m k).isNone
  | .erase k => out = .nat (if (m k).isSome then 1 else 0)
  | .find k => out = .val ((m k).map fun v => (k, v))
  | .findC k => out = .val ((m k).map fun v => (k, v))
  | .get k => out = .val (some (k, (m k).getD dv))
  | .size => ∃ n, HasCard m n ∧ out = .nat (n % 2 ^ 64)
  | _ => out = .unit

/-- Is the number of elements still known after a call, if it was (`c`) before? `operator[]` on a
new key loses it (see `C31_finding_index_size`), a complete reorganisation restores it. -/
def keeps (op : Op K V) (m : K → Option V) (c : Prop) : Prop :=
  match op with
  | .get k => c ∧ (m k).isSome = true
  | .set k _ => c ∧ (m k).isSome = true
  | .rehash _ => True
  | .clear => True
  | .bulk _ => True
  | _ => c

/-- The call asks for the number of elements. -/
def Op.isSize : Op K V → Bool
  | .size => true
  | _ => false

/-- The results `outs` of the calls `ops` are those of the abstract map. `c`: the number of elements
is known. -/
def Agrees [DecidableEq K] (dv : V) : List (Op K V) → List (Out K V) → (K → Option V) → Prop → Prop
  | [], outs, _, _ => outs = []
  | _ :: _, [], _, _ => False
  | op :: ops, o :: outs, m, c =>
    (op.isSize = false ∨ c → Result dv op m o) ∧ Agrees dv ops outs (next dv op m) (keeps op m c)

/-- Dereference the iterator `id` just returned (unless it equals `end()`) and destroy it. -/
def obsIt (P : Params K V) (s : HMap K V) (id : Nat) : Option (HMap K V × Out K V) := do
  let it ← s.getIt id
  if it.ended then return (s.dropIt id, .val none)
  else
    let r ← itDeref P it s
    return (s.dropIt id, .val (some r.2))

/-- A call on the model. -/
def step (P : Params K V) (op : Op K V) (s : HMap K V) : Option (HMap K V × Out K V) :=
  match op with
  | .insert k v => do let r ← insert P k v s; return (r.1.dropIt r.2.1, .bool r.2.2)
  | .insertObl k v => do let r ← insertObl P k v s; return (r.1.dropIt r.2, .unit)
  | .erase k => do let r ← erase P k s; return (r.1, .nat r.2)
  | .eraseObl k => do let s ← eraseObl P k s; return (s, .unit)
  | .find k => do let r ← find P k s; obsIt P r.1 r.2
  | .findC k => do let r ← findC P k s; obsIt P r.1 r.2
  | .get k => do
    let r ← index P k s
    let x ← r.1.readNode r.2.1 r.2.2
    return (r.1, .val (some x))
  | .set k v => do
    let r ← index P k s
    let s ← r.1.writeNode r.2.1 r.2.2 v
    return (s, .unit)
  | .size => do let r ← size P s; return (r.1, .nat r.2)
  | .rehash n => do let s ← rebuild P n s; return (s, .unit)
  | .clear => some (clear s, .unit)
  | .setMaxBuf n => do let s ← setMaxBuf P n s; return (s, .unit)
  | .bulk xs => do let s ← bulk P xs s; return (s, .unit)

/-- A history of calls. -/
def run (P : Params K V) : List (Op K V) → HMap K V → Option (HMap K V × List (Out K V))
  | [], s => some (s, [])
  | op :: ops, s => do
    let r ← step P op s
    let t ← run P ops r.1
    return (t.1, r.2 :: t.2)

end Verif.HashMap
