import Verif.Scan.Model

/-!
# Model of the pipelined stream operators

`/repo/include/stxxl/bits/stream/stream.h`, `unique.h`, `choose.h`.

A stream is an object with `empty()`, `operator *` and `operator ++`. The operators keep references to their inputs; the state of
an operator object contains the states of its inputs (an input is used by one operator only). `none` is undefined behaviour:
dereferencing or advancing past the end, or reading a member that was never set.
-/

namespace Stxxl.Streams

open Stxxl.ExtVector Stxxl.Scan

/-- The stream interface (`stream.h`: every class has these three methods). -/
structure Stream (σ α : Type) where
  empty : σ → Bool
  cur : σ → Option α
  next : σ → Option σ

variable {α β σ τ ω : Type}

/-- `iterator2stream`, `stream.h:45-85`, over the memory range `[i, e)` of the array `l`; the state is `m_current`. -/
def ofIter (l : List α) (e : Nat) : Stream Nat α where
  empty i := i == e
  cur i := l[i]?
  next i := if i = e then none else some (i + 1)

/-- `generator2stream`, `stream.h:656-708`; the generator is a function on its own state. State: generator, `m_current`. -/
def ofGen (_gen : ω → ω × α) : Stream (ω × α) α where
  empty _ := false
  cur s := some s.2
  next s := some (_gen s.1)

/-- The constructor of `generator2stream`, `stream.h:667-669`. -/
def ofGenInit (gen : ω → ω × α) (g : ω) : ω × α := gen g

/-- Several inputs side by side, as `transform` and `make_tuple` use them: empty if one is empty, all are advanced together
(`stream.h:904-918`, and the same pattern in the other versions). -/
def both (S : Stream σ α) (T : Stream τ β) : Stream (σ × τ) (α × β) where
  empty s := S.empty s.1 || T.empty s.2
  cur s := match S.cur s.1, T.cur s.2 with
    | some x, some y => some (x, y)
    | _, _ => none
  next s := match S.next s.1, T.next s.2 with
    | some x, some y => some (x, y)
    | _, _ => none

/-- State of `transform`: the functor (a reference), the inputs, and `current` (not set at first). -/
structure TSt (ω σ β : Type) where
  op : ω
  inp : σ
  current : Option β

/-- `if (!empty()) current = op(*i1, ...)`, `stream.h:824-825`, `843-844`. -/
def fill (S : Stream σ α) (f : ω → α → ω × β) (t : TSt ω σ β) : Option (TSt ω σ β) :=
  if S.empty t.inp then some t
  else
    match S.cur t.inp with
    | none => none
    | some x => some { t with op := (f t.op x).1, current := some (f t.op x).2 }

/-- `transform` with one input, `stream.h:807-855`. With more inputs: over `both` (`:870-1142`). -/
def transform (S : Stream σ α) (f : ω → α → ω × β) : Stream (TSt ω σ β) β where
  empty t := S.empty t.inp
  cur t := t.current
  next t :=
    match S.next t.inp with
    | none => none
    | some s => fill S f { t with inp := s }

/-- The constructor of `transform`, `stream.h:819-826`. -/
def transformInit (S : Stream σ α) (f : ω → α → ω × β) (o : ω) (s : σ) : Option (TSt ω σ β) :=
  fill S f { op := o, inp := s, current := none }

/-- `make_tuple`, `stream.h:1242-1525`: the same as `transform` with the function that builds the tuple (the tuple is `both`'s
pair; `current` is kept in the same way). -/
def makeTuple (S : Stream σ α) : Stream (TSt Unit σ α) α := transform S (fun u x => (u, x))

/-- The constructor of `make_tuple`, `stream.h:1260-1266`. -/
def makeTupleInit (S : Stream σ α) (s : σ) : Option (TSt Unit σ α) := transformInit S (fun u x => (u, x)) () s

/-- `choose<Input, k>`, `choose.h:38-308`: the projection is applied at each dereference. -/
def choose (S : Stream σ α) (p : α → β) : Stream σ β where
  empty := S.empty
  cur s := (S.cur s).map p
  next := S.next

/-- The loop of `unique::operator ++`, `unique.h:53-54`: `while (!input.empty() && pred(current = *input, old)) ++input;`.
`n` bounds the number of iterations (`none` when it is used up: the loop is still running). -/
def uniqueLoop (S : Stream σ α) (p : α → α → Bool) (old : α) : Nat → σ → Option α → Option (σ × Option α)
  | 0, _, _ => none
  | n + 1, s, c =>
    if S.empty s then some (s, c)
    else
      match S.cur s with
      | none => none
      | some x =>
        if p x old then
          match S.next s with
          | none => none
          | some s' => uniqueLoop S p old n s' (some x)
        else some (s, some x)

/-- `unique`, `unique.h:33-78` (`p = (==)`: `:84-130`). State: the input and `current`. -/
def unique (S : Stream σ α) (p : α → α → Bool) (n : Nat) : Stream (σ × Option α) α where
  empty t := S.empty t.1
  cur t := t.2
  next t :=
    match t.2, S.next t.1 with
    | some old, some s => uniqueLoop S p old n s (some old)
    | _, _ => none

/-- The constructor of `unique`, `unique.h:44-49`. -/
def uniqueInit (S : Stream σ α) (s : σ) : Option (σ × Option α) :=
  if S.empty s then some (s, none)
  else
    match S.cur s with
    | none => none
    | some x => some (s, some x)

/-- State of `vector_iterator2stream`: the block stream (absent for an empty range), `m_current`. -/
structure VSt (α : Type) where
  inp : Option (Scan.St α)
  pos : Nat

/-- `vector_iterator2stream`, `stream.h:110-195`. The block stream reads a block when its first element is asked for; the real one
reads ahead, which makes no difference as long as the vector is not changed while the stream exists. -/
def ofVec (B e : Nat) : Stream (VSt α) α where
  empty t := t.pos == e
  cur t :=
    match t.inp with
    | none => none
    | some st => (get B (endBlock B e) st).map (·.2)
  next t :=
    if t.pos = e then none
    else
      match t.inp with
      | none => none
      | some st =>
        match get B (endBlock B e) st with
        | none => none
        | some (st, _) => some { inp := if t.pos + 1 = e then none else some st, pos := t.pos + 1 }

/-- The constructor of `vector_iterator2stream`, `stream.h:130-157`: flush, open the stream at the block of `begin`, skip to `begin`. -/
def ofVecInit (B P : Nat) (s : Sys α) (b e : Nat) (junk : Nat → α) : Option (Sys α × VSt α) :=
  if b = e then some (s, { inp := none, pos := b })
  else
    match flush P s with
    | none => none
    | some s =>
      if b / B < endBlock B e then
        match scan B (endBlock B e) (fun (_ : Unit) _ => ()) (b % B) (openAt B b s junk) () with
        | none => none
        | some (st, _) => some (s, { inp := some st, pos := b })
      else some (s, { inp := none, pos := b })

/-- `discard`, `stream.h:639-647`; `n` bounds the number of iterations. -/
def discard (S : Stream σ α) : Nat → σ → Option σ
  | 0, _ => none
  | n + 1, s =>
    if S.empty s then some s
    else
      match S.cur s, S.next s with
      | some _, some s' => discard S n s'
      | _, _ => none

/-- `materialize(in, out)` for an output iterator that appends to a container, `stream.h:428-438`. -/
def materialize (S : Stream σ α) : Nat → σ → List α → Option (σ × List α)
  | 0, _, _ => none
  | n + 1, s, out =>
    if S.empty s then some (s, out)
    else
      match S.cur s, S.next s with
      | some x, some s' => materialize S n s' (out ++ [x])
      | _, _ => none

/-- `materialize(in, outbegin, outend)`, `stream.h:450-461`, into the memory array `l`. -/
def materializeTo (S : Stream σ α) (e : Nat) : Nat → σ → List α → Nat → Option (σ × List α × Nat)
  | 0, _, _, _ => none
  | n + 1, s, l, o =>
    if S.empty s || o == e then some (s, l, o)
    else
      match S.cur s, S.next s with
      | some x, some s' => if o < l.length then materializeTo S e n s' (l.set o x) (o + 1) else none
      | _, _ => none

/-! ## `materialize` into an external vector, `stream.h:474-546` -/

/-- The first loop, `:495-505`: until the beginning of a block. Result: vector, stream, position, finished? -/
def matHead (B P : Nat) (S : Stream σ α) (vic : Nat → Nat) (e : Option Nat) : Nat → Sys α → σ → Nat → Option (Sys α × σ × Nat × Bool)
  | 0, s, a, b => some (s, a, b, false)
  | k + 1, s, a, b =>
    if b % B = 0 then some (s, a, b, false)
    else if S.empty a || e == some b then some (s, a, b, true)
    else
      match S.cur a, S.next a with
      | some x, some a' =>
        match elementWrite B P s b x (vic b) with
        | none => none
        | some s => matHead B P S vic e k s a' (b + 1)
      | _, _ => none

/-- The main loop, `:521-533` (`e = none`: `:602-615`); `n` bounds the number of iterations. -/
def matLoop (B P : Nat) (S : Stream σ α) (e : Option Nat) : Nat → St α → σ → Nat → Nat → Option (St α × σ × Nat × Nat)
  | 0, _, _, _, _ => none
  | n + 1, st, a, b, prev =>
    if S.empty a || e == some b then some (st, a, b, prev)
    else
      match S.cur a, S.next a with
      | some x, some a' =>
        if b % B = 0 ∧ prev ≠ b then
          match pageExternallyUpdated st.sys (prev / (B * P)) with
          | none => none
          | some s =>
            match put B { st with sys := s } x with
            | none => none
            | some st => matLoop B P S e n st a' (b + 1) b
        else
          match put B st x with
          | none => none
          | some st => matLoop B P S e n st a' (b + 1) prev
      | _, _ => none

/-- `materialize(in, outbegin, outend)` for vector iterators, `stream.h:474-546`, and without `outend` (`e = none`), `:557-633`.
Result: vector, stream, the returned iterator. -/
def matVec (B P : Nat) (S : Stream σ α) (n : Nat) (s : Sys α) (a : σ) (b : Nat) (e : Option Nat) (vic : Nat → Nat) (junk : Nat → α) :
    Option (Sys α × σ × Nat) :=
  match matHead B P S vic e B s a b with
  | none => none
  | some (s, a, b, true) => some (s, a, b)
  | some (s, a, b, false) =>
    match flush P s with
    | none => none
    | some s =>
      match matLoop B P S e n (openAt B b s junk) a b b with
      | none => none
      | some (st, a, b, prev) =>
        match genTail B P vic B st b with
        | none => none
        | some (st, _) =>
          match (if prev ≠ b then pageExternallyUpdated st.sys (prev / (B * P)) else some st.sys) with
          | none => none
          | some s =>
            match flush P s with
            | none => none
            | some s => if st.onum = 0 then some (s, a, b) else none

end Stxxl.Streams
