import Verif.Common.Order
import Verif.PQ.Model

/-!
# Specification of the priority queue

Vocabulary for C29, independent of the buffers and mergers: the multiset of the elements that were pushed and not popped,
and what `top`, `pop`, `size` and `empty` may return.
-/

namespace Stxxl.PQ

variable {α : Type}

/-- Requirement on the comparator (`doc/tutorial_pqueue.dox`): a strict weak ordering. -/
def Cmp.Ok (C : Cmp α) : Prop := SWO C.less

/-- The element is strictly greater than `min_value()`; elements equivalent to it must not be pushed
(`priority_queue.h:366`). -/
def Cmp.Real (C : Cmp α) (x : α) : Prop := C.less C.minv x = true

/-- No element of the list has higher priority than `t`. -/
def IsMax (C : Cmp α) (t : α) (ms : List α) : Prop := ∀ y ∈ ms, C.less t y = false

/-- A max-heap in the sense of `std::is_heap`. -/
def IsHeap (C : Cmp α) (l : List α) : Prop :=
  ∀ i (hi : i < l.length), 0 < i → C.less (l[(i - 1) / 2]'(by omega)) l[i] = false

/-- What the C++ standard guarantees of `std::push_heap`, `std::pop_heap`, `std::sort` for a strict weak ordering. -/
structure StdHeap.Ok (C : Cmp α) (H : StdHeap α) : Prop where
  push_perm : ∀ l, (H.pushHeap l).Perm l
  push_heap : ∀ l x, IsHeap C l → IsHeap C (H.pushHeap (l ++ [x]))
  pop_last : ∀ x t, IsHeap C (x :: t) → ∃ l, H.popHeap (x :: t) = l ++ [x] ∧ l.Perm t ∧ IsHeap C l
  sort_perm : ∀ l, (H.sort l).Perm l
  sort_sorted : ∀ l, Sorted C.less (H.sort l)

/-- `Run C ms pend ops obs`: starting with the multiset `ms`, the operations `ops` may return `obs`. `pend` is the element
that `top()` has returned since the last modification: a repeated `top()` returns it again, and `pop()` removes it.
`pop` and `top` are used on a non-empty queue only. -/
inductive Run (C : Cmp α) : List α → Option α → List (Op α) → List (Obs α) → Prop
  | nil (ms pend) : Run C ms pend [] []
  | push {ms pend x ops obs} : Run C (x :: ms) none ops obs → Run C ms pend (.push x :: ops) (.unit :: obs)
  | top {ms pend t ops obs} : t ∈ ms → IsMax C t ms → (∀ p ∈ pend, t = p) → Run C ms (some t) ops obs →
      Run C ms pend (.top :: ops) (.val t :: obs)
  | pop {ms pend t ms' ops obs} : ms.Perm (t :: ms') → IsMax C t ms → (∀ p ∈ pend, t = p) → Run C ms' none ops obs →
      Run C ms pend (.pop :: ops) (.unit :: obs)
  | size {ms pend ops obs} : Run C ms pend ops obs → Run C ms pend (.size :: ops) (.num ms.length :: obs)
  | isEmpty {ms pend ops obs} : Run C ms pend ops obs → Run C ms pend (.isEmpty :: ops) (.bool ms.isEmpty :: obs)

/-- The client obeys the preconditions, the queue holding `n` elements: only elements above `min_value()` are pushed, and
`top`, `pop` are called on a non-empty queue only. -/
def Legal (C : Cmp α) : Nat → List (Op α) → Prop
  | _, [] => True
  | n, .push x :: ops => C.Real x ∧ Legal C (n + 1) ops
  | n, .pop :: ops => 0 < n ∧ Legal C (n - 1) ops
  | n, .top :: ops => 0 < n ∧ Legal C n ops
  | n, .size :: ops => Legal C n ops
  | n, .isEmpty :: ops => Legal C n ops

/-- Admissible template parameters. The C++ code states only some of them; `intK_pow2`, `intK_room`, `del_le_N` and
`total_le` are necessary (counterexamples in `Verif.PQ.Props`). -/
structure Cfg.Ok (c : Cfg) : Prop where
  del_pos : 0 < c.delSize
  del_le_N : c.delSize ≤ c.N
  intK_pow2 : ∃ a, c.intK = 2 ^ a
  intK_room : c.total + 1 ≤ c.intK
  int_pos : 0 < c.numInt
  ext_pos : 0 < c.numExt
  total_le : c.total ≤ 4
  bs_pos : 0 < c.bs
  extK_two : 2 ≤ c.extK

end Stxxl.PQ
