import Verif.HashMap.IterSpec

/-! # Calls that keep iterators -/
namespace Verif.HashMap
variable {K V : Type}

/-- `operator ==` (iterator.h:173-187); both iterators belong to the same map. -/
def itEq (a b : It K) : Bool :=
  if a.ended && b.ended then true
  else if a.bkt ≠ b.bkt ∨ a.src ≠ b.src then false
  else if a.src = .internal then decide (a.node = b.node)
  else decide (a.iExt = b.iExt)

/-- Assignment to `second` through `operator*` (iterator.h:444-467, util.h:197-206). -/
def itAssign (P : Params K V) (it : It K) (v : V) (s : HMap K V) : Option (It K × HMap K V) := do
  if it.src = .internal then
    let a ← it.node
    let s1 ← s.writeNode it.bkt a v
    return (it, s1)
  else
    let it ← ensureReader P it s
    let r ← it.reader
    let p := r.sb * P.BB + r.si * P.SS + r.iv % P.SS
    return (it, { s with mem := fun q => if q = p then ((s.mem p).1, v) else s.mem q })

/-- Store a new iterator object. -/
def HMap.addIt (s : HMap K V) (it : It K) : HMap K V :=
  { s with its := { it with id := s.nextId } :: s.its, nextId := s.nextId + 1 }

/-- A call. The copy constructor (iterator.h:125-144) does not copy the reader. -/
def istep (P : Params K V) (op : IOp K V) (s : HMap K V) : Option (HMap K V × IOut K V) :=
  match op with
  | .call op => (step P op s).map fun r => (r.1, .out r.2)
  | .find k => (find P k s).map fun r => (r.1, .iter r.2)
  | .findC k => (findC P k s).map fun r => (r.1, .iter r.2)
  | .insert k v => (insert P k v s).map fun r => (r.1, .iterB r.2.1 r.2.2)
  | .insertObl k v => (insertObl P k v s).map fun r => (r.1, .iter r.2)
  | .begin => (itBegin P s.nextId s).map fun it => (s.addIt it, .iter s.nextId)
  | .next i => do
    let it ← s.getIt i
    let it' ← itNext P it s
    return (s.putIt it', .unit)
  | .deref i => do
    let it ← s.getIt i
    let r ← itDeref P it s
    return (s.putIt r.1, .val r.2)
  | .assign i v => do
    let it ← s.getIt i
    let r ← itAssign P it v s
    return (r.2.putIt r.1, .unit)
  | .eraseIt i => do
    let it ← s.getIt i
    let s' ← eraseIt P it s
    return (s', .unit)
  | .isEnd i => do
    let it ← s.getIt i
    return (s, .bool (itEq it ⟨0, 0, .unknown, none, 0, P.dk, false, true, none⟩))
  | .equal i j => do
    let a ← s.getIt i
    let b ← s.getIt j
    return (s, .bool (itEq a b))
  | .copy i => do
    let it ← s.getIt i
    return (s.addIt { it with reader := none }, .iter s.nextId)
  | .drop i => some (s.dropIt i, .unit)

/-- A loop from `it` to `end()`: the values seen (`n` bounds the number of steps). -/
def walk (P : Params K V) (s : HMap K V) : Nat → It K → Option (List (K × V))
  | 0, _ => none
  | n + 1, it =>
    if it.ended then some []
    else do
      let r ← itDeref P it s
      let it' ← itNext P r.1 s
      let l ← walk P s n it'
      return r.2 :: l

/-- A history: all answers are as specified as long as the user observes its obligations and the table does not
lose all its buckets while it holds elements (findings of C31). A call can only run into undefined behaviour if
there are no buckets or the element counter is zero. The range of a bulk insertion must be as for C31. -/
def IConforms [DecidableEq K] (P : Params K V) (bulkPre : Op K V → Prop) :
    List (IOp K V) → HMap K V → ISt K V → Prop
  | [], _, _ => True
  | op :: ops, s, σ => IPre σ op → (∀ o, op = .call o → bulkPre o) →
    match istep P op s with
    | none => op.mayFail = true ∧ (s.buckets.length = 0 ∨ s.numTotal = 0)
    | some (s', o) => ∃ σ', IStep P.lt P.dv σ op o σ' ∧
        (0 < s'.buckets.length ∨ Empty σ'.m → IConforms P bulkPre ops s' σ')

end Verif.HashMap
