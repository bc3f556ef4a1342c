/-!
# Model of the block indices and of the element iterator

`blocked_index` and `array_of_sequences_iterator` of `/repo/include/stxxl/bits/mng/adaptor.h`, `double_blocked_index` of
`/repo/include/stxxl/bits/containers/vector.h`. All counters are 64-bit words: `Nat` below `W`, operations wrap.
-/
namespace Stxxl.BlockIndex

/-- Number of values of `unsigned_type` and `external_size_type`. -/
def W : Nat := 2 ^ 64

/-- Wrapping operations on words. -/
def addW (a b : Nat) : Nat := (a + b) % W
def subW (a b : Nat) : Nat := (a + (W - b % W)) % W
def mulW (a b : Nat) : Nat := (a * b) % W

/-- The operations that change an index. -/
inductive Op where
  | assign (p : Nat)      -- `operator=`
  | inc | dec             -- `++`, `--`
  | add (k : Nat)         -- `+=`, `+`
  | sub (k : Nat)         -- `-=`, `-`
  | shr (k : Nat)         -- `>>=`
deriving Repr, DecidableEq

/-- `blocked_index<modulo>`, adaptor.h:28-33. -/
structure Idx where
  pos : Nat
  block : Nat
  offset : Nat
deriving Repr, DecidableEq

/-- `set`, adaptor.h:36-41; also the constructors, lines 44-53. -/
def Idx.set (m pos : Nat) : Idx := ⟨pos, pos / m, pos % m⟩

/-- The constructor from block and offset, adaptor.h:54-59. -/
def Idx.ofBlock (m block offset : Nat) : Idx := ⟨addW (mulW block m) offset, block, offset⟩

/-- adaptor.h:61-123. `-=` and `-` do not exist; they are not used by the theorem about this class. -/
def Idx.step (m : Nat) (x : Idx) : Op → Idx
  | .assign p => .set m p
  | .inc =>
    let o := addW x.offset 1
    if o = m then ⟨addW x.pos 1, addW x.block 1, 0⟩ else ⟨addW x.pos 1, x.block, o⟩
  | .dec =>
    if x.offset = 0 then ⟨subW x.pos 1, subW x.block 1, subW m 1⟩ else ⟨subW x.pos 1, x.block, subW x.offset 1⟩
  | .add k => .set m (addW x.pos k)
  | .sub k => .set m (subW x.pos k)
  | .shr k => .set m (x.pos >>> k)

/-- `double_blocked_index<SizeType, modulo2, modulo1>`, vector.h:48-56. -/
structure Idx2 where
  pos : Nat
  block2 : Nat
  block1 : Nat
  offset : Nat
deriving Repr, DecidableEq

/-- `set`, vector.h:60-71; also the constructors, lines 74-82, and `operator=`, lines 95-99. The casts to `int_type` and back do not change
the words. -/
def Idx2.set (m2 m1 pos : Nat) : Idx2 :=
  let m12 := mulW m1 m2
  let b2 := pos / m12
  let p := subW pos (mulW b2 m12)
  let b1 := p / m1
  ⟨pos, b2, b1, subW p (mulW b1 m1)⟩

/-- The constructor from blocks and offset, vector.h:84-93. -/
def Idx2.ofBlocks (m2 m1 b2 b1 o : Nat) : Idx2 := ⟨addW (addW (mulW b2 (mulW m1 m2)) (mulW b1 m1)) o, b2, b1, o⟩

/-- vector.h:102-218. -/
def Idx2.step (m2 m1 : Nat) (x : Idx2) : Op → Idx2
  | .assign p => .set m2 m1 p
  | .inc =>
    let o := addW x.offset 1
    if o = m1 then
      let b := addW x.block1 1
      if b = m2 then ⟨addW x.pos 1, addW x.block2 1, 0, 0⟩ else ⟨addW x.pos 1, x.block2, b, 0⟩
    else ⟨addW x.pos 1, x.block2, x.block1, o⟩
  | .dec =>
    if x.offset = 0 then
      if x.block1 = 0 then ⟨subW x.pos 1, subW x.block2 1, subW m2 1, subW m1 1⟩
      else ⟨subW x.pos 1, x.block2, subW x.block1 1, subW m1 1⟩
    else ⟨subW x.pos 1, x.block2, x.block1, subW x.offset 1⟩
  | .add k => .set m2 m1 (addW x.pos k)
  | .sub k => .set m2 m1 (subW x.pos k)
  | .shr k => .set m2 m1 (x.pos >>> k)

/-- `array_of_sequences_iterator`, adaptor.h:410-425: `base` and `elem` are blocks, counted from `arrays`; pointers may leave the array. -/
structure Iter where
  pos : Nat
  offset : Nat
  base : Int
  elem : Int
deriving Repr, DecidableEq

/-- `set`, adaptor.h:429-435; also the constructors and `operator=`, lines 438-459. -/
def Iter.set (m pos : Nat) : Iter := ⟨pos, pos % m, (pos / m : Nat), (pos / m : Nat)⟩

/-- adaptor.h:461-523. There is no `>>=`. -/
def Iter.step (m : Nat) (x : Iter) : Op → Iter
  | .assign p => .set m p
  | .inc =>
    let o := addW x.offset 1
    if o = m then ⟨addW x.pos 1, 0, x.base + 1, x.base + 1⟩ else ⟨addW x.pos 1, o, x.base, x.elem⟩
  | .dec =>
    if x.offset = 0 then ⟨subW x.pos 1, subW m 1, x.base - 1, x.base - 1⟩ else ⟨subW x.pos 1, subW x.offset 1, x.base, x.elem⟩
  | .add k => .set m (addW x.pos k)
  | .sub k => .set m (subW x.pos k)
  | .shr k => .set m (x.pos >>> k)

variable {α : Type}

/-- Element `o` of the block with number `b`; `none` is an access out of bounds. -/
def elemAt (blocks : List (List α)) (b : Int) (o : Nat) : Option α :=
  if b < 0 then none else (blocks[b.toNat]?).bind (·[o]?)

/-- `operator*`, adaptor.h:561-569. -/
def Iter.deref (blocks : List (List α)) (x : Iter) : Option α := elemAt blocks x.elem x.offset

/-- `operator[]`, adaptor.h:581-589. -/
def Iter.index (blocks : List (List α)) (m : Nat) (_x : Iter) (i : Nat) : Option α := elemAt blocks (i / m : Nat) (i % m)

/-- `operator-`, `==`, `<`, adaptor.h:526-559. -/
def Iter.dist (x y : Iter) : Nat := subW x.pos y.pos
def Iter.eq (x y : Iter) : Bool := x.pos == y.pos
def Iter.lt (x y : Iter) : Bool := decide (x.pos < y.pos)

end Stxxl.BlockIndex
