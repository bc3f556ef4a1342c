import Verif.Streams.Model
import Mathlib.Data.List.Destutter

/-! # Specification: what a stream yields -/

namespace Stxxl.Streams

variable {α β σ τ ω : Type}

/-- Reading and advancing `xs.length` times, the consumer sees the values `xs`; the stream is never empty meanwhile. -/
inductive Gives (S : Stream σ α) : σ → List α → σ → Prop where
  | nil (s : σ) : Gives S s [] s
  | cons {s t u : σ} {x : α} {xs : List α} (he : S.empty s = false) (hc : S.cur s = some x) (hn : S.next s = some t)
      (h : Gives S t xs u) : Gives S s (x :: xs) u

/-- The whole stream: the consumer sees `xs`, and then the stream is empty. -/
def Yields (S : Stream σ α) (s : σ) (xs : List α) (t : σ) : Prop := Gives S s xs t ∧ S.empty t = true

/-- The functor applied to the elements in order: its last state, and the results. -/
def runOp (f : ω → α → ω × β) : ω → List α → ω × List β
  | o, [] => (o, [])
  | o, x :: xs => ((runOp f (f o x).1 xs).1, (f o x).2 :: (runOp f (f o x).1 xs).2)

/-- `n` values of a generator. -/
def genVals (gen : ω → ω × α) : Nat → ω → List α
  | 0, _ => []
  | n + 1, g => (gen g).2 :: genVals gen n (gen g).1

end Stxxl.Streams
