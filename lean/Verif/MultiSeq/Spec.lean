import Verif.Common.Order
/-! Specification vocabulary for splitting several sorted sequences at a global rank. Does not mention the model. -/
namespace Stxxl.MultiSeq.Spec
variable {α : Type}

/-- All elements before the splitting points. -/
def leftPart (S : List (List α)) (offs : List Nat) : List α := (List.zipWith (fun s k => s.take k) S offs).flatten

/-- All elements from the splitting points on. -/
def rightPart (S : List (List α)) (offs : List Nat) : List α := (List.zipWith (fun s k => s.drop k) S offs).flatten

/-- Neither is less than the other. -/
def equiv (lt : α → α → Bool) (x y : α) : Bool := !lt x y && !lt y x

/-- One splitting point inside (or at the end of) every sequence. -/
def Points (S : List (List α)) (offs : List Nat) : Prop :=
  offs.length = S.length ∧ ∀ (i : Nat) (s : List α) (k : Nat), S[i]? = some s → offs[i]? = some k → k ≤ s.length

/-- The documented tie rule (multiseq_selection.h:85-90): of equivalent elements across the split, those on the left come from
sequences with a smaller (or the same) number. -/
def StableSplit (lt : α → α → Bool) (S : List (List α)) (offs : List Nat) : Prop :=
  ∀ (i j p q k l : Nat) (s t : List α) (x y : α), S[i]? = some s → S[j]? = some t → offs[i]? = some k → offs[j]? = some l →
    p < k → s[p]? = some x → l ≤ q → t[q]? = some y → equiv lt x y = true → i ≤ j

end Stxxl.MultiSeq.Spec
