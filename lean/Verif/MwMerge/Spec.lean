import Verif.Common.Order
/-! Specification vocabulary for merging the `n` smallest elements of several sorted sequences. Does not mention the model. -/
namespace Stxxl.MwMerge.Spec
variable {α : Type}

/-- Neither is less than the other. -/
def equiv (lt : α → α → Bool) (x y : α) : Bool := !lt x y && !lt y x

/-- `out` is the result of merging the `n` smallest elements of the sequences `S`, and `S'` is what is left of them:
`out` has `n` elements and is sorted; of every sequence a prefix was taken; together nothing was lost, duplicated or invented;
nothing that is left is less than something that was output. With `stable`, the elements equivalent to any given `v` were output in the
order of their sequences and, inside a sequence, in their old order. -/
structure Merges (lt : α → α → Bool) (stable : Bool) (S : List (List α)) (n : Nat) (out : List α) (S' : List (List α)) : Prop where
  length : out.length = n
  sorted : Sorted lt out
  seqs : S'.length = S.length
  suffix : ∀ (i : Nat) (s s' : List α), S[i]? = some s → S'[i]? = some s' → ∃ p, s = p ++ s'
  perm : List.Perm (out ++ S'.flatten) S.flatten
  smallest : ∀ x ∈ out, ∀ y ∈ S'.flatten, lt y x = false
  stable : stable = true → ∀ v, out.filter (equiv lt v) ++ S'.flatten.filter (equiv lt v) = S.flatten.filter (equiv lt v)

/-- No element of a sequence is equivalent to an element of another one. -/
def Untied (lt : α → α → Bool) (S : List (List α)) : Prop :=
  S.Pairwise fun s t => ∀ x ∈ s, ∀ y ∈ t, equiv lt x y = false

/-- The memory behind `target` after the given writes `(value, position)`, in this order. -/
def store (mem : Nat → Option α) : List (α × Nat) → Nat → Option α
  | [] => mem
  | w :: ws => store (fun i => if i = w.2 then some w.1 else mem i) ws

/-- The first `n` cells contain `out`, the others what they contained before. -/
def written (mem : Nat → Option α) (n : Nat) (out : List α) : Nat → Option α := fun i => if i < n then out[i]? else mem i

end Stxxl.MwMerge.Spec
