/-! Specification vocabulary for the buffered readers and the buffered writer of a vector. Does not mention the model. -/
namespace Stxxl.VecBuf.Spec
variable {α : Type}

/-- What is done with a reader: read the next element, or start again. -/
inductive Act where
  | get
  | rewind
deriving DecidableEq

/-- Reading the range `[first, last)` of `f` from position `i` on; `none` if more is read than there is. -/
def readUp (f : Nat → α) (first last : Nat) : List Act → Nat → Option (Nat × List α)
  | [], i => some (i, [])
  | .get :: as, i => if i < last then (readUp f first last as (i + 1)).map fun p => (p.1, f i :: p.2) else none
  | .rewind :: as, _ => readUp f first last as first

/-- Reading the range `[first, last)` of `f` backwards; `i` is the number of the elements before and including the next one. -/
def readDown (f : Nat → α) (first last : Nat) : List Act → Nat → Option (Nat × List α)
  | [], i => some (i, [])
  | .get :: as, i => if first < i then (readDown f first last as (i - 1)).map fun p => (p.1, f (i - 1) :: p.2) else none
  | .rewind :: as, _ => readDown f first last as last

/-- The array after the values `xs` have been written from position `b` on: overwritten inside, extended at the end. Elements are
`none` as long as nothing was assigned to them. -/
def writeAt (a : List (Option α)) (b : Nat) (xs : List α) : List (Option α) :=
  a.take b ++ xs.map some ++ a.drop (b + xs.length)

end Stxxl.VecBuf.Spec
