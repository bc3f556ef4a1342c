/-!
# Model of `swap_vector` and `swap_remove_if` (`/repo/include/stxxl/bits/common/swap_vector.h`)

`cells` is the allocated array (`m_capacity` is its length; `m_array` is null exactly if it is empty), `dflt` the default constructed value.
`none` is undefined behaviour or a loop that does not end. Iterators are indices.
-/
namespace Stxxl.SwapVec
variable {α : Type}

/-- `m_array`, `m_size`; swap_vector.h:42-48. -/
structure Vec (α : Type) where
  cells : List α
  size : Nat
deriving DecidableEq, Repr

/-- The constructors, swap_vector.h:61-79 (`capacity` 0 if not given). -/
def Vec.make (dflt : α) (size capacity : Nat) : Vec α := ⟨List.replicate (Nat.max size capacity) dflt, size⟩

/-- `swap(a[i], b[j])` with both in the same array. -/
def swapAt (xs : List α) (i j : Nat) : Option (List α) :=
  match xs[i]?, xs[j]? with
  | some a, some b => some ((xs.set i b).set j a)
  | _, _ => none

/-- The loop of `reserve`, swap_vector.h:188-192: `swap(tmp[i], m_array[i])`; what goes to `tmp` is deleted afterwards. -/
def moveLoop (tmp : List α) : Nat → Nat → List α → Option (List α)
  | 0, _, new => some new
  | k + 1, i, new =>
    match tmp[i]?, new[i]? with
    | some a, some _ => moveLoop tmp k (i + 1) (new.set i a)
    | _, _ => none

/-- `reserve`, swap_vector.h:179-202. The loop variable is `unsigned`: with 2^32 elements or more the loop does not end. -/
def Vec.reserve (dflt : α) (v : Vec α) (n : Nat) : Option (Vec α) :=
  if v.cells.length < n then
    if v.cells = [] then some ⟨List.replicate n dflt, v.size⟩
    else if 2 ^ 32 ≤ v.size then none
    else
      match moveLoop v.cells v.size 0 (List.replicate n dflt) with
      | none => none
      | some c => some ⟨c, v.size⟩
  else some v

/-- `resize`, swap_vector.h:204-208. -/
def Vec.resize (dflt : α) (v : Vec α) (n : Nat) : Option (Vec α) :=
  match v.reserve dflt n with
  | none => none
  | some w => some { w with size := n }

/-- `swap_back(val)`, swap_vector.h:211-220: the vector and what `val` holds afterwards. -/
def Vec.swapBack (dflt : α) (v : Vec α) (val : α) : Option (Vec α × α) :=
  let w? := if v.cells.length < v.size + 1 then v.reserve dflt (Nat.max 2 (2 * v.cells.length)) else some v
  match w? with
  | none => none
  | some w =>
    match w.cells[w.size]? with
    | none => none
    | some old => some (⟨w.cells.set w.size val, w.size + 1⟩, old)

/-- `clear`, swap_vector.h:222-225. -/
def Vec.clear (v : Vec α) : Vec α := { v with size := 0 }

/-- The loop of `erase`, swap_vector.h:243-249; `k` is `end() - l`. -/
def eraseLoop : Nat → Nat → Nat → List α → Option (List α)
  | 0, _, _, xs => some xs
  | k + 1, f, l, xs =>
    match swapAt xs f l with
    | none => none
    | some ys => eraseLoop k (f + 1) (l + 1) ys

/-- `erase(first, last)`, swap_vector.h:234-254; the condition of line 238 is `last < m_array + m_size - 1`, here `last + 1 < size`.
`none` if the assertions of lines 236, 237 fail. -/
def Vec.erase (v : Vec α) (first last : Nat) : Option (Vec α) :=
  if v.size < last ∨ last < first then none
  else if last + 1 < v.size then
    match eraseLoop (v.size - last) first last v.cells with
    | none => none
    | some c => some ⟨c, v.size - (last - first)⟩
  else some { v with size := v.size - (last - first) }

/-- `erase(position)`, swap_vector.h:228-231. -/
def Vec.eraseOne (v : Vec α) (position : Nat) : Option (Vec α) := v.erase position (position + 1)

/-- `operator[]`, swap_vector.h:139-149. -/
def Vec.get (v : Vec α) (i : Nat) : Option α := if i < v.size then v.cells[i]? else none

/-- The loop of `swap_remove_if`, swap_vector.h:270-279; `k` is `last - first`. -/
def removeLoop (pred : α → Bool) : Nat → Nat → Nat → List α → Option (List α × Nat)
  | 0, _, result, xs => some (xs, result)
  | k + 1, first, result, xs =>
    match xs[first]? with
    | none => none
    | some x =>
      if pred x then removeLoop pred k (first + 1) result xs
      else
        match swapAt xs first result with
        | none => none
        | some ys => removeLoop pred k (first + 1) (result + 1) ys

/-- `swap_remove_if(first, last, pred)`, swap_vector.h:265-281: the array afterwards and the returned iterator. -/
def swapRemoveIf (pred : α → Bool) (first last : Nat) (xs : List α) : Option (List α × Nat) := removeLoop pred (last - first) first first xs

/-- `v.erase(swap_remove_if(v.begin(), v.end(), pred), v.end())`, parallel_priority_queue.h:2186-2202. -/
def Vec.eraseIf (pred : α → Bool) (v : Vec α) : Option (Vec α) :=
  match swapRemoveIf pred 0 v.size v.cells with
  | none => none
  | some (xs, r) => Vec.erase ⟨xs, v.size⟩ r v.size

end Stxxl.SwapVec
