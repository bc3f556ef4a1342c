import Verif.Stack.Spec
import Verif.ExtVector.Lemmas

/-!
# C11: `normal_stack`

Models `/repo/include/stxxl/bits/containers/stack.h:60-280`. `B` = `block_type::size`, `P` = `blocks_per_page`, both
positive. The two pages of `cache` are `mem false` and `mem true`; `front` says which one `front_page` points to.
I/O is waited for inside `push`/`pop` before the data can be touched by anybody, so it is instantaneous. Block ids given
out by the block manager are arguments. Elements are values; I/O errors are not modelled.
-/

namespace Stxxl.Stack
open Stxxl.ExtVector (upd writeBlocks readBlocks)

/-- Data members, `stack.h:79-87`, and the disk. `cur` is `current_element`: page, block, offset. -/
structure Normal (α : Type) where
  size : Nat
  off : Nat
  cur : Option (Bool × Nat × Nat)
  mem : Bool → Nat → Nat → α
  front : Bool
  bids : List Nat
  disk : Nat → Nat → α

namespace Normal
variable {α : Type} (B P : Nat)

/-- Default constructor, `stack.h:94-105`. -/
def new (mem : Bool → Nat → Nat → α) (disk : Nat → Nat → α) : Normal α :=
  { size := 0, off := 0, cur := none, mem := mem, front := true, bids := [], disk := disk }

/-- `element(offset)`, `stack.h:273-280`. -/
def element (s : Normal α) (o : Nat) : Bool × Nat × Nat :=
  if o < P * B then (!s.front, o / B, o % B) else (s.front, (o - P * B) / B, (o - P * B) % B)

/-- Store through an element pointer. -/
def poke (mem : Bool → Nat → Nat → α) (l : Bool × Nat × Nat) (v : α) : Bool → Nat → Nat → α :=
  fun p b o => if p = l.1 ∧ b = l.2.1 ∧ o = l.2.2 then v else mem p b o

/-- `push`, `stack.h:195-233`; `fresh` are the ids returned by the block manager. `none` = failed assertion. -/
def push (s : Normal α) (v : α) (fresh : List Nat) : Option (Normal α) :=
  if ¬ s.off ≤ 2 * P * B then none
  else if s.off = 2 * P * B then
    some { s with
      bids := s.bids ++ fresh
      disk := writeBlocks (s.mem (!s.front)) fresh 0 s.disk
      front := !s.front
      off := P * B + 1
      cur := some (!s.front, 0, 0)
      size := s.size + 1
      mem := poke s.mem (!s.front, 0, 0) v }
  else
    let c := element B P s s.off
    some { s with cur := some c, mem := poke s.mem c v, size := s.size + 1, off := s.off + 1 }

/-- `pop`, `stack.h:237-267`. In the last line, when the stack becomes empty, `element(-1)` is a pointer that is never
dereferenced; it is represented by `none`. -/
def pop (s : Normal α) : Option (Normal α) :=
  if ¬ (s.off ≤ 2 * P * B ∧ 0 < s.off ∧ 0 < s.size) then none
  else if s.off = 1 ∧ P ≤ s.bids.length then
    some { s with
      mem := fun p => if p = s.front then readBlocks s.disk (s.bids.drop (s.bids.length - P)) 0 (s.mem p) else s.mem p
      front := !s.front
      off := P * B
      size := s.size - 1
      cur := some (s.front, P - 1, B - 1)
      bids := s.bids.take (s.bids.length - P) }
  else
    some { s with
      size := s.size - 1
      off := s.off - 1
      cur := if s.off - 1 = 0 then none else some (element B P s (s.off - 1 - 1)) }

/-- `top()` as rvalue, `stack.h:178-192`. -/
def top (s : Normal α) : Option α :=
  if s.size = 0 then none else s.cur.map (fun c => s.mem c.1 c.2.1 c.2.2)

/-- `top() = v`. -/
def setTop (s : Normal α) (v : α) : Option (Normal α) :=
  if s.size = 0 then none else s.cur.map (fun c => { s with mem := poke s.mem c v })

/-- `size()`, `empty()`, `stack.h:163-172`. -/
def isEmpty (s : Normal α) : Bool := s.size = 0

def step (s : Normal α) (fresh : List Nat) : Op α → Option (Normal α)
  | .push v => push B P s v fresh
  | .pop => pop B P s
  | .setTop v => setTop s v

/-- Reachable states: any operations, and at any time somebody may write a block that is not the stack's. -/
inductive Reach : Normal α → List α → Prop
  | new (mem disk) : Reach (new mem disk) []
  | step {s s' l} (fresh : List Nat) (op : Op α) :
      Reach s l → specLegal l op → fresh.length = P → fresh.Nodup → (∀ b ∈ fresh, b ∉ s.bids) →
      step B P s fresh op = some s' → Reach s' (specStep l op)
  | foreign {s l} (b : Nat) (c : Nat → α) :
      Reach s l → b ∉ s.bids → Reach { s with disk := upd s.disk b c } l

end Normal
end Stxxl.Stack
