/-!
# Specification of the scanning algorithms

The vector is seen as a list of optional elements (`none` = never written, as in `ExtVector/Spec.lean`).
-/

namespace Stxxl.Scan

variable {α σ : Type}

/-- The elements of the range. -/
def Range (abs : List (Option α)) (b e : Nat) (xs : List α) : Prop := (abs.drop b).take (e - b) = xs.map some

/-- The functor applied to the elements of a list, in order. -/
def mapAccum (f : σ → α → σ × α) : σ → List α → σ × List α
  | a, [] => (a, [])
  | a, x :: xs => ((mapAccum f (f a x).1 xs).1, (f a x).2 :: (mapAccum f (f a x).1 xs).2)

/-- `n` calls of the generator. -/
def genN (gen : σ → σ × α) : Nat → σ → σ × List α
  | 0, a => (a, [])
  | n + 1, a => ((genN gen n (gen a).1).1, (gen a).2 :: (genN gen n (gen a).1).2)

/-- The list `abs` with the range `[b, e)` replaced by `ys`. -/
def replaced (abs : List (Option α)) (b e : Nat) (ys : List α) : List (Option α) := abs.take b ++ ys.map some ++ abs.drop e

end Stxxl.Scan
