import Verif.Stack.NormalProps

/-!
# C14: `migrating_stack`

Models `/repo/include/stxxl/bits/containers/stack.h:811-955` with `ExternalStack = normal_stack`, `InternalStack = std::stack`.
-/

namespace Stxxl.Stack
open Stxxl.ExtVector (upd)

/-- The two pointers `int_impl`, `ext_impl`, `stack.h:835-836`; `none` = `NULL`. `std::stack` is a list, bottom first. -/
structure Mig (α : Type) where
  int : Option (List α)
  ext : Option (Normal α)

namespace Mig
variable {α : Type} (B P crit : Nat)

/-- Default constructor, `stack.h:848-850`. -/
def new : Mig α := ⟨some [], none⟩

/-- First loop of the converting constructor, `stack.h:144-147`: `tmp[sz - i - 1] = stack_copy.top(); stack_copy.pop()` for
`i` from `i` to `sz - 1` (`n` = iterations left). `none` = `top()` of an empty stack. -/
def unload (sz : Nat) : Nat → Nat → List α → List α → Option (List α)
  | 0, _, _, tmp => some tmp
  | n + 1, i, copy, tmp =>
    match copy.getLast? with
    | none => none
    | some x => unload sz n (i + 1) copy.dropLast (tmp.set (sz - i - 1) x)

/-- Second loop, `stack.h:149-150`; `fresh i` are the block ids the `i`-th push gets if it needs them. -/
def pushAll (fresh : Nat → List Nat) : List α → Nat → Normal α → Option (Normal α)
  | [], _, s => some s
  | v :: vs, i, s =>
    match Normal.push B P s v (fresh i) with
    | none => none
    | some s' => pushAll fresh vs (i + 1) s'

/-- `normal_stack(const StackType&)`, `stack.h:126-151`. `dflt` is the value `std::vector<value_type> tmp(sz)` is filled with,
`mem` and `disk` are the contents of the new page buffers and of the disk. -/
def convert (dflt : α) (mem : Bool → Nat → Nat → α) (disk : Nat → Nat → α) (fresh : Nat → List Nat) (st : List α) : Option (Normal α) :=
  match unload st.length st.length 0 st (List.replicate st.length dflt) with
  | none => none
  | some tmp => pushAll B P fresh tmp 0 (Normal.new mem disk)

/-- What the environment supplies. -/
structure Sup (α : Type) where
  dflt : α
  mem : Bool → Nat → Nat → α
  disk : Nat → Nat → α
  fresh : Nat → List Nat

/-- `push`, `stack.h:926-943`. `none` = failed assertion. -/
def push (m : Mig α) (e : Sup α) (v : α) : Option (Mig α) :=
  match m.int, m.ext with
  | some l, none =>
    if (l ++ [v]).length = crit then (convert B P e.dflt e.mem e.disk e.fresh (l ++ [v])).map (fun x => ⟨none, some x⟩)
    else some ⟨some (l ++ [v]), none⟩
  | none, some x => (Normal.push B P x v (e.fresh 0)).map (fun x => ⟨none, some x⟩)
  | _, _ => none

/-- `pop`, `stack.h:947-955`. -/
def pop (m : Mig α) : Option (Mig α) :=
  match m.int, m.ext with
  | some l, none => if l = [] then none else some ⟨some l.dropLast, none⟩
  | none, some x => (Normal.pop B P x).map (fun x => ⟨none, some x⟩)
  | _, _ => none

/-- `top`, `stack.h:909-922`. -/
def top (m : Mig α) : Option α :=
  match m.int, m.ext with
  | some l, none => l.getLast?
  | none, some x => x.top
  | _, _ => none

/-- `top() = v`. -/
def setTop (m : Mig α) (v : α) : Option (Mig α) :=
  match m.int, m.ext with
  | some l, none => if l = [] then none else some ⟨some (l.dropLast ++ [v]), none⟩
  | none, some x => (x.setTop v).map (fun x => ⟨none, some x⟩)
  | _, _ => none

/-- `size`, `stack.h:897-901`. -/
def size (m : Mig α) : Option Nat :=
  match m.int, m.ext with
  | some l, none => some l.length
  | none, some x => some x.size
  | _, _ => none

/-- `empty`, `stack.h:891-895`. -/
def isEmpty (m : Mig α) : Option Bool :=
  match m.int, m.ext with
  | some l, none => some l.isEmpty
  | none, some x => some x.isEmpty
  | _, _ => none

/-- `internal`, `stack.h:873-877`. -/
def internal (m : Mig α) : Option Bool :=
  match m.int, m.ext with
  | some _, none => some true
  | none, some _ => some false
  | _, _ => none

def step (m : Mig α) (e : Sup α) : Op α → Option (Mig α)
  | .push v => push B P crit m e v
  | .pop => pop B P m
  | .setTop v => setTop m v

def bids (m : Mig α) : List Nat := match m.ext with | some x => x.bids | none => []

/-- What the block manager guarantees about the ids it hands out. -/
structure Sup.Ok (P : Nat) (e : Sup α) (used : List Nat) : Prop where
  len : ∀ i, (e.fresh i).length = P
  nod : ∀ i, (e.fresh i).Nodup
  dis : ∀ i j, i ≠ j → ∀ b ∈ e.fresh i, b ∉ e.fresh j
  new : ∀ i, ∀ b ∈ e.fresh i, b ∉ used

/-- Reachable states with the abstract stack and whether the stack was ever `crit` elements high. -/
inductive Reach : Mig α → List α → Bool → Prop
  | new : Reach new [] false
  | step {m m' l t} (e : Sup α) (op : Op α) : Reach m l t → specLegal l op → e.Ok P m.bids → step B P crit m e op = some m' →
      Reach m' (specStep l op) (t || (specStep l op).length == crit)
  | foreign {x l t} (b : Nat) (c : Nat → α) : Reach ⟨none, some x⟩ l t → b ∉ x.bids →
      Reach ⟨none, some { x with disk := upd x.disk b c }⟩ l t

end Mig
end Stxxl.Stack
