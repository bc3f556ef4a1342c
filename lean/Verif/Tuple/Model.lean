/-!
# Model of `/repo/include/stxxl/bits/common/tuple.h`: tuples, their comparators with sentinels, and the streams `counter` and `concatenate`

A tuple has two or more components, here integers; `Limits` are the `numeric_limits<T>::min()` and `max()` of the component types. (One-component
tuples have no `second`; `tuple_less1st` and `tuple_greater1st` use only the first component.)
-/
namespace Stxxl.Tuple

structure T where
  first : Int
  second : Int
  rest : List Int
  deriving DecidableEq, Repr

structure Limits where
  lo : T
  hi : T

/-- `min_value`, tuple.h:150-158 and the specialisations. -/
def T.minValue (l : Limits) : T := l.lo

/-- `max_value`, tuple.h:161-169 and the specialisations. -/
def T.maxValue (l : Limits) : T := l.hi

/-- `operator ==` and `operator !=`, tuple.h:128-139. -/
def T.eq (a b : T) : Bool := a.first == b.first && a.second == b.second && a.rest == b.rest
def T.ne (a b : T) : Bool := !(a.first == b.first && a.second == b.second && a.rest == b.rest)

structure Cmp where
  lt : T → T → Bool
  minValue : Limits → T
  maxValue : Limits → T

/-- tuple.h:572-584. -/
def less1st : Cmp := ⟨fun a b => a.first < b.first, T.minValue, T.maxValue⟩

/-- tuple.h:586-598. -/
def greater1st : Cmp := ⟨fun a b => a.first > b.first, T.maxValue, T.minValue⟩

/-- tuple.h:600-614. -/
def less1stLess2nd : Cmp := ⟨fun a b => if a.first == b.first then a.second < b.second else a.first < b.first, T.minValue, T.maxValue⟩

/-- tuple.h:616-628. -/
def less2nd : Cmp := ⟨fun a b => a.second < b.second, T.minValue, T.maxValue⟩

/-- tuple.h:630-644. -/
def less2ndLess1st : Cmp := ⟨fun a b => if a.second == b.second then a.first < b.first else a.second < b.second, T.minValue, T.maxValue⟩

/-! ## Streams: what is left of an input stream is a list; `none` is `*` or `++` of an empty stream. -/

variable {α : Type}

/-- `concatenate::operator *`, tuple.h:702-712. -/
def catGet (a b : List α) : Option α :=
  match a with
  | x :: _ => some x
  | [] => b.head?

/-- `concatenate::operator ++`, tuple.h:714-726. -/
def catNext (a b : List α) : Option (List α × List α) :=
  match a, b with
  | _ :: a, b => some (a, b)
  | [], _ :: b => some ([], b)
  | [], [] => none

/-- `concatenate::empty`, tuple.h:728-731. -/
def catEmpty (a b : List α) : Bool := a.isEmpty && b.isEmpty

/-- `for (; !s.empty(); ++s) use(*s);` for at most `k` rounds: the elements, and whether the stream was empty in the end. -/
def catDrain : Nat → List α → List α → Option (List α × Bool)
  | 0, a, b => some ([], catEmpty a b)
  | k + 1, a, b =>
    if catEmpty a b then some ([], true)
    else
      match catGet a b, catNext a b with
      | some x, some (a', b') =>
        match catDrain k a' b' with
        | some (xs, e) => some (x :: xs, e)
        | none => none
      | _, _ => none

/-- `counter`, tuple.h:651-680: the first `k` elements, starting at `start`. -/
def counter : Nat → Int → List Int
  | 0, _ => []
  | k + 1, c => c :: counter k (c + 1)

end Stxxl.Tuple
