/-!
# Model of small helpers: `/repo/include/stxxl/bits/common/is_heap.h`, `is_sorted.h`, and of `common/utils.h` `longhash1`, `swap_1D_arrays`,
`round_up_to_power_of_two(n, power)`

Ranges are lists, iterators indices; `none` is an access outside. `longhash1` works on 64-bit words, `size_t` has 64 bits. The rounding is
modelled for unsigned 64-bit integers.
-/
namespace Stxxl.Utils

variable {α : Type}

/-- The loop of `is_heap`, is_heap.h:34-44; `k` children are left. -/
def isHeapLoop (comp : α → α → Bool) (l : List α) : Nat → Nat → Nat → Nat → Option Bool
  | 0, _, _, _ => some true
  | k + 1, child, parent, num =>
    match l[parent]?, l[child]? with
    | some p, some c =>
      if comp p c then some false
      else isHeapLoop comp l k (child + 1) (if num % 2 = 0 then parent + 1 else parent) (num + 1)
    | _, _ => none

/-- `is_heap`, is_heap.h:22-47. -/
def isHeap (comp : α → α → Bool) (l : List α) : Option Bool :=
  if l.length = 0 then some true else isHeapLoop comp l (l.length - 1) 1 0 1

/-- The loop of `is_sorted`, is_sorted.h:30-34. -/
def isSortedLoop (comp : α → α → Bool) (l : List α) : Nat → Nat → Nat → Option Bool
  | 0, _, _ => some true
  | k + 1, first, next =>
    match l[first]?, l[next]? with
    | some a, some b => if comp b a then some false else isSortedLoop comp l k (first + 1) (next + 1)
    | _, _ => none

/-- `is_sorted`, is_sorted.h:22-37. -/
def isSorted (comp : α → α → Bool) (l : List α) : Option Bool :=
  if l.length = 0 then some true else isSortedLoop comp l (l.length - 1) 0 1

/-- `longhash1`, utils.h:230-241. -/
def longhash1 (key : BitVec 64) : BitVec 64 :=
  let key := key + ~~~(key <<< 32)
  let key := key ^^^ (key >>> 22)
  let key := key + ~~~(key <<< 13)
  let key := key ^^^ (key >>> 8)
  let key := key + (key <<< 3)
  let key := key ^^^ (key >>> 15)
  let key := key + ~~~(key <<< 27)
  key ^^^ (key >>> 31)

/-- `swap_1D_arrays`, utils.h:245-250, two different arrays; `k` elements are left. -/
def swapArrays : Nat → Nat → List α → List α → Option (List α × List α)
  | 0, _, a, b => some (a, b)
  | k + 1, i, a, b =>
    match a[i]?, b[i]? with
    | some x, some y => swapArrays k (i + 1) (a.set i y) (b.set i x)
    | _, _ => none

def W : Nat := 2 ^ 64

/-- `round_up_to_power_of_two(n, power)`, utils.h:266-274; `none` is a shift by too much. -/
def roundUp (n power : Nat) : Option Nat :=
  if power < 64 then
    let pot := (1 <<< power) % W
    let mask := pot - 1
    if n &&& mask ≠ 0 then some (((n &&& (W - 1 - mask)) + pot) % W) else some n
  else none

end Stxxl.Utils
