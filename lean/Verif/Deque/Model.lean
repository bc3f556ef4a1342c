/-!
# Model of `deque`

Models `/repo/include/stxxl/bits/containers/deque.h:29-720`. The underlying `VectorType` is the array that C08 shows `stxxl::vector` to
be: a `List (Option α)`, where `none` is an element whose value is unspecified (never assigned). `none` as the result of a function is
a failed assertion or an access out of bounds.
-/

namespace Stxxl.Deque

variable {α : Type}

/-- Data members, `deque.h:434-435`. -/
structure Dq (α : Type) where
  vec : List (Option α)
  b : Nat
  e : Nat
  size : Nat

/-- `std::copy(v.begin() + src, v.begin() + src + n, v.begin() + dst)`. -/
def copy (v : List (Option α)) : Nat → Nat → Nat → List (Option α)
  | 0, _, _ => v
  | n + 1, src, dst => copy (v.set dst (v[src]?.getD none)) n (src + 1) (dst + 1)

/-- `vector::resize(n)` with growing size: old elements stay, new ones are unspecified (C08). -/
def grow (v : List (Option α)) (n : Nat) : List (Option α) := v.take n ++ List.replicate (n - v.length) none

namespace Dq

/-- `deque()`, `deque.h:455-458`, `N0` = number of elements in a default-sized block. -/
def empty (N0 : Nat) : Dq α := ⟨List.replicate N0 none, 0, 0, 0⟩
/-- `deque(n)`, `deque.h:460-463`. -/
def sized (N0 n : Nat) : Dq α := ⟨List.replicate (max N0 (2 * n)) none, 0, n, n⟩

/-- `double_array`, `deque.h:437-449`. -/
def doubleArray (d : Dq α) : Dq α :=
  let old := d.vec.length
  let v := grow d.vec (2 * old)
  if d.e < d.b then { d with vec := copy v (old - d.b) d.b (old + d.b), b := old + d.b } else { d with vec := v }

/-- `operator[]`, `deque.h:541-551`: the outer `none` is the failed assertion. -/
def get (d : Dq α) (i : Nat) : Option (Option α) := if i < d.size then d.vec[(d.b + i) % d.vec.length]? else none
/-- `front()`, `deque.h:553-563`. -/
def front (d : Dq α) : Option (Option α) := if d.size = 0 then none else d.vec[d.b]?
/-- `back()`, `deque.h:565-575`. -/
def back (d : Dq α) : Option (Option α) := if d.size = 0 then none else d.vec[(d.e + d.vec.length - 1) % d.vec.length]?
/-- `d[i] = x`. -/
def setAt (d : Dq α) (i : Nat) (x : α) : Option (Dq α) :=
  if i < d.size ∧ (d.b + i) % d.vec.length < d.vec.length then some { d with vec := d.vec.set ((d.b + i) % d.vec.length) (some x) } else none

/-- The part of `push_front` after the overflow test, `deque.h:590-592`. -/
def putFront (d : Dq α) (x : α) : Option (Dq α) :=
  let b := (d.b + d.vec.length - 1) % d.vec.length
  if b < d.vec.length then some { d with vec := d.vec.set b (some x), b := b, size := d.size + 1 } else none
/-- `push_front`, `deque.h:582-593`. -/
def pushFront (d : Dq α) (x : α) : Option (Dq α) :=
  putFront (if (d.b + d.vec.length - 1) % d.vec.length = d.e then doubleArray d else d) x

/-- The part of `push_back` after the overflow test, `deque.h:602-604`. -/
def putBack (d : Dq α) (x : α) : Option (Dq α) :=
  if d.e < d.vec.length then some { d with vec := d.vec.set d.e (some x), e := (d.e + 1) % d.vec.length, size := d.size + 1 } else none
/-- `push_back`, `deque.h:595-605`. -/
def pushBack (d : Dq α) (x : α) : Option (Dq α) :=
  putBack (if (d.e + 1) % d.vec.length = d.b then doubleArray d else d) x

/-- `pop_front`, `deque.h:607-612`. -/
def popFront (d : Dq α) : Option (Dq α) :=
  if d.size = 0 then none else some { d with b := (d.b + 1) % d.vec.length, size := d.size - 1 }
/-- `pop_back`, `deque.h:614-619`. -/
def popBack (d : Dq α) : Option (Dq α) :=
  if d.size = 0 then none else some { d with e := (d.e + d.vec.length - 1) % d.vec.length, size := d.size - 1 }

/-- `clear()`, `deque.h:634-641`. -/
def clear (N0 : Nat) (_ : Dq α) : Dq α := empty N0

/-- The shrinking loop of `resize`, `deque.h:654-657`; `k` rounds. -/
def popLoop : Nat → Dq α → Option (Dq α)
  | 0, d => some d
  | k + 1, d => match popBack d with
    | none => none
    | some d' => popLoop k d'
/-- The reallocation in `resize`, `deque.h:661-673`. -/
def regrow (d : Dq α) (n : Nat) : Dq α :=
  if d.vec.length < n + 1 then
    let old := d.vec.length
    let v := grow d.vec (2 * n)
    if d.e < d.b then { d with vec := copy v (old - d.b) d.b (v.length - old + d.b), b := v.length - old + d.b } else { d with vec := v }
  else d
/-- `resize(n)`, `deque.h:648-677`. -/
def resize (d : Dq α) (n : Nat) : Option (Dq α) :=
  if n < d.size then popLoop (d.size - n) d
  else
    let d1 := regrow d n
    some { d1 with e := (d1.e + n - d1.size) % d1.vec.length, size := n }

/-! ## Iterators: an iterator is its `m_offset`, `deque.h:29-260` (the const iterator, `deque.h:262-405`, is the same code). -/

/-- `operator +`, `operator +=`, `operator ++`, `deque.h:96-99,107-111,143-153`. -/
def itAdd (d : Dq α) (o k : Nat) : Nat := (o + k) % d.vec.length
/-- `operator - (size_type)`, `operator -=`, `operator --`, `deque.h:91-94,101-105,154-164`. -/
def itSub (d : Dq α) (o k : Nat) : Nat := (o + d.vec.length - k) % d.vec.length
/-- `SelfAbsOffset`, `deque.h:71-74`. -/
def absOff (d : Dq α) (o : Nat) : Nat := if d.b ≤ o then o else d.vec.length + o
/-- `operator - (iterator)`, `deque.h:69-78` (a signed difference). -/
def itDiff (d : Dq α) (o a : Nat) : Int := (absOff d o : Int) - absOff d a
/-- `operator <`, `deque.h:176-180`. -/
def itLt (d : Dq α) (o a : Nat) : Bool := 0 < itDiff d a o
/-- `operator *`, `deque.h:113-116`. -/
def itDeref (d : Dq α) (o : Nat) : Option (Option α) := d.vec[o]?

/-- The loop of `std::equal(a.begin(), a.end(), b.begin())`: `o`, `p` current iterators; `fuel` bounds the number of rounds. -/
def eqLoop [DecidableEq α] (a b : Dq α) : Nat → Nat → Nat → Option Bool
  | 0, _, _ => none
  | fuel + 1, o, p =>
    if o = a.e then some true
    else match itDeref a o, itDeref b p with
      | some (some x), some (some y) => if x = y then eqLoop a b fuel (itAdd a o 1) (itAdd b p 1) else some false
      | _, _ => none
/-- `operator ==` of two deques, `deque.h:682-686`. `none` = reads out of bounds or an unspecified value. -/
def eq [DecidableEq α] (a b : Dq α) : Option Bool := eqLoop a b (a.vec.length + 1) a.b b.b

end Dq

/-! ## Specification: a list, front first; `none` is an element never assigned (created by `resize` or the constructor) -/

inductive Op (α : Type) where
  | pushFront (x : α) | pushBack (x : α) | popFront | popBack | setAt (i : Nat) (x : α) | clear | resize (n : Nat)

def specLegal (l : List (Option α)) : Op α → Prop
  | .popFront | .popBack => l ≠ []
  | .setAt i _ => i < l.length
  | _ => True

def specStep (l : List (Option α)) : Op α → List (Option α)
  | .pushFront x => some x :: l
  | .pushBack x => l ++ [some x]
  | .popFront => l.tail
  | .popBack => l.dropLast
  | .setAt i x => l.set i (some x)
  | .clear => []
  | .resize n => l.take n ++ List.replicate (n - l.length) none

def step (N0 : Nat) (d : Dq α) : Op α → Option (Dq α)
  | .pushFront x => d.pushFront x
  | .pushBack x => d.pushBack x
  | .popFront => d.popFront
  | .popBack => d.popBack
  | .setAt i x => d.setAt i x
  | .clear => some (d.clear N0)
  | .resize n => d.resize n

inductive Reach (N0 : Nat) : Dq α → List (Option α) → Prop
  | empty : Reach N0 (.empty N0) []
  | sized (n : Nat) : Reach N0 (.sized N0 n) (List.replicate n none)
  | step {d d' l} (op : Op α) : Reach N0 d l → specLegal l op → step N0 d op = some d' → Reach N0 d' (specStep l op)

end Stxxl.Deque
