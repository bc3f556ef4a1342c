import Verif.MwMerge.Spec
/-! What sorting means. Does not mention the model. -/
namespace Stxxl.MwSort.Spec
open MwMerge.Spec (equiv)
variable {α : Type}

/-- `out` is `src` in sorted order; with `stable`, equivalent elements keep their order. -/
structure Sorts (lt : α → α → Bool) (stable : Bool) (src out : List α) : Prop where
  perm : List.Perm out src
  sorted : Sorted lt out
  stable : stable = true → ∀ v, out.filter (equiv lt v) = src.filter (equiv lt v)

/-- The array holds `out`, and nothing else has changed (`mem` gives the cells behind the array). -/
def holds (out : List α) (mem : Nat → Option α) (after : Nat → Option α) : Prop :=
  ∀ i, after i = if i < out.length then out[i]? else mem i

/-- The elements `x` of `src` with `lo ≤ x < hi`; a missing bound is no bound. -/
def share (lt : α → α → Bool) (src : List α) (lo hi : Option α) : List α :=
  src.filter fun x => (lo.all fun v => !lt x v) && (hi.all fun v => lt x v)

end Stxxl.MwSort.Spec
