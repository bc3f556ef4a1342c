import Mathlib.Algebra.Ring.Defs
import Mathlib.Data.List.Sort

/-!
# Model of `stxxl::matrix`: blocks, block matrices and the multiplication algorithms

Models `/repo/include/stxxl/bits/containers/matrix.h`, `matrix_arithmetic.h`, `matrix_low_level.h` (the generic, non-BLAS versions) and the part of
`/repo/include/stxxl/bits/mng/block_scheduler.h` that hands out swappable blocks.

Simplifications:
* the element type is a commutative ring (`ValueType` with its `+ - *` and `0`; no rounding, no overflow);
* the block scheduler is modelled as a store `id → contents`; swapping a block between memory and disk does not show (`acquire` finds
  the contents of the last `release`), and the simulation run that records the access pattern (`is_simulating()`) does nothing;
* the OpenMP loops over the elements of a block write every element once, so they are given in closed form (`cells`);
* `int_type`/`unsigned` are `Nat`.
-/

namespace Stxxl.Mat

variable {R : Type} [CommRing R]

/-- Contents of an initialized block (`typed_block`): `BlockSideLength²` elements, by index. -/
abbrev Raw (R : Type) := Nat → R

/-- `switch_major_index` (`matrix_low_level.h:38-60`) and `elem_index_in_block_from_elem` (`matrix.h:378-383`): position of element (row, col) in a
block, row-major (`t = false`) or column-major (`t = true`). -/
def idx (B : Nat) (t : Bool) (row col : Nat) : Nat := if t then row + col * B else row * B + col

/-- The double loop `for row for col` over a block that assigns `c[row * BlockSideLength + col] = f(row, col)`. -/
def cells (B : Nat) (f : Nat → Nat → R) : Raw R := fun k => f (k / B) (k % B)

/-! ### Operations on one block (`matrix_arithmetic.h:1034-1065`) -/

/-- `addition`, `subtraction`, `scalar_multiplication` (`matrix_arithmetic.h:1034-1065`). -/
inductive Op (R : Type)
  | add
  | sub
  | scal (s : R)

/-- `op(c, a, b)`: `c = a + b` or `c = a - b` (`scalar_multiplication` has no such operator). -/
def Op.f3 : Op R → R → R → R
  | .add, a, b => a + b
  | .sub, a, b => a - b
  | .scal s, a, _ => a * s

/-- `op(c, a)`: the new value of `c`. -/
def Op.f2 : Op R → R → R → R
  | .add, c, a => c + a
  | .sub, c, a => c - a
  | .scal s, _, a => a * s

/-- `op(a)`. -/
def Op.f1 : Op R → R → R
  | .add, a => a
  | .sub, a => -a
  | .scal s, a => a * s

/-- `element_op_swappable_block(c, a, b)`, `c = a <op> b` (`matrix_arithmetic.h:1110-1180`): the new contents of `c`; an uninitialized block
(`none`) is a zero block. `low_level_matrix_binary_ass_op` (`matrix_low_level.h:62-99`). -/
def blockOp3 (B : Nat) (op : Op R) (tc ta tb : Bool) (a b : Option (Raw R)) : Option (Raw R) :=
  match a, b with
  | none, none => none
  | none, some b => some (cells B fun i j => op.f3 0 (b (idx B (tb != tc) i j)))
  | some a, none => some (cells B fun i j => op.f3 (a (idx B (ta != tc) i j)) 0)
  | some a, some b => some (cells B fun i j => op.f3 (a (idx B (ta != tc) i j)) (b (idx B (tb != tc) i j)))

/-- `element_op_swappable_block(c, a)`, `c <op>= a` (`matrix_arithmetic.h:1182-1222`). -/
def blockOp2 (B : Nat) (op : Op R) (tc ta : Bool) (c a : Option (Raw R)) : Option (Raw R) :=
  match c, a with
  | c, none => c
  | none, some a => some (cells B fun i j => op.f1 (a (idx B (tc != ta) i j)))
  | some c, some a => some (cells B fun i j => op.f2 (c (idx B false i j)) (a (idx B (tc != ta) i j)))

/-- `element_op_swappable_block(c)`, `c = <op>c` (`matrix_arithmetic.h:1224-1248`). -/
def blockOp1 (B : Nat) (op : Op R) (c : Option (Raw R)) : Option (Raw R) :=
  match c with
  | none => none
  | some c => some (cells B fun i j => op.f1 (c (idx B false i j)))

/-- The innermost loops of `low_level_matrix_multiply_and_add`: `c[i][j] += Σ a[i][k] * b[k][j]`, added one after the other. -/
def mulLoop (B : Nat) (ta tb : Bool) (a b c : Raw R) : Raw R :=
  cells B fun i j => (List.range B).foldl (fun acc k => acc + a (idx B ta i k) * b (idx B tb k j)) (c (idx B false i j))

/-- `low_level_matrix_multiply_and_add` (`matrix_low_level.h:141-200`): if `c` is column-major the factors are swapped. The four loops for the
four orders of the factors differ only in the index of the elements of `a` and `b`. -/
def lowMul (B : Nat) (a : Raw R) (ta : Bool) (b : Raw R) (tb : Bool) (c : Raw R) (tc : Bool) : Raw R :=
  if tc then mulLoop B (!tb) (!ta) b a c else mulLoop B ta tb a b c

/-- `multiply_and_add_swappable_block` (`matrix_arithmetic.h:1830-1857`): the new contents of `c`. `acquire` of an uninitialized block fills it
with zeros (`matrix.h:213-224`, `fill_default`). -/
def blockMul (B : Nat) (ta tb tc : Bool) (a b c : Option (Raw R)) : Option (Raw R) :=
  match a, b with
  | some a, some b => some (lowMul B a ta b tb (c.getD fun _ => 0) tc)
  | _, _ => c

/-! ### The store of swappable blocks -/

/-- The block scheduler: contents of the swappable blocks (`none` = uninitialized), how many there are, and the free ones
(`block_scheduler.h:278-286`, a priority queue with the smallest identifier on top, here a sorted list). -/
structure St (R : Type) where
  blk : Nat → Option (Raw R)
  next : Nat
  free : List Nat

/-- Storing the contents of a block (`release` of an acquired block). -/
def St.set (s : St R) (c : Nat) (v : Option (Raw R)) : St R :=
  { s with blk := fun k => if k = c then v else s.blk k }

/-- `allocate_swappable_block` (`block_scheduler.h:433-450`). -/
def St.alloc (s : St R) : Nat × St R :=
  match s.free with
  | [] => (s.next, { s with next := s.next + 1 })
  | i :: rest => (i, { s with free := rest })

/-- `free_swappable_block` (`block_scheduler.h:452-458`): deinitializes the block. -/
def St.release (s : St R) (i : Nat) : St R :=
  { s.set i none with free := s.free.orderedInsert (· ≤ ·) i }

/-! ### Block matrices -/

/-- `swappable_block_matrix` (`matrix.h:226-260`). -/
structure SBM where
  h : Nat
  w : Nat
  /-- `height_from_supermatrix`, `width_from_supermatrix`: the blocks in this corner belong to another matrix -/
  hs : Nat
  ws : Nat
  blocks : List Nat
  /-- `elements_in_blocks_transposed` -/
  tr : Bool

/-- `block(row, col)` (`matrix.h:386-391`). -/
def SBM.block (m : SBM) (r c : Nat) : Nat := m.blocks.getD (r * m.w + c) 0

/-- The loops of the constructors: every position gets a given block or a new one. -/
def allocCells : List (Option Nat) → St R → List Nat × St R
  | [], s => ([], s)
  | some i :: l, s => ((i :: (allocCells l s).1), (allocCells l s).2)
  | none :: l, s => ((s.alloc.1 :: (allocCells l s.alloc.2).1), (allocCells l s.alloc.2).2)

/-- `swappable_block_matrix(bs, height, width, transposed)` (`matrix.h:263-277`). -/
def newSbm (s : St R) (h w : Nat) (tr : Bool) : SBM × St R :=
  ({ h := h, w := w, hs := 0, ws := 0, blocks := (allocCells (List.replicate (h * w) none) s).1, tr := tr },
   (allocCells (List.replicate (h * w) none) s).2)

/-- What the positions of a submatrix get: blocks of the supermatrix, and new ones where the supermatrix is not large enough. -/
def subCells (m : SBM) (h w fr fc : Nat) : List (Option Nat) :=
  (List.range (h * w)).map fun k =>
    if k / w < min (m.h - fr) h ∧ k % w < min (m.w - fc) w then some (m.block (k / w + fr) (k % w + fc)) else none

/-- `swappable_block_matrix(supermatrix, height, width, from_row, from_col)` (`matrix.h:284-307`). -/
def sub (s : St R) (m : SBM) (h w fr fc : Nat) : SBM × St R :=
  ({ h := h, w := w, hs := min (m.h - fr) h, ws := min (m.w - fc) w, blocks := (allocCells (subCells m h w fr fc) s).1, tr := m.tr },
   (allocCells (subCells m h w fr fc) s).2)

/-- The blocks the matrix owns: those that are not part of a supermatrix. -/
def SBM.own (m : SBM) : List Nat :=
  ((List.range (m.h * m.w)).filter fun k => decide (¬ (k / m.w < m.hs ∧ k % m.w < m.ws))).map fun k => m.blocks.getD k 0

/-- `~swappable_block_matrix` (`matrix.h:358-368`). -/
def destroy (s : St R) (m : SBM) : St R := m.own.foldl St.release s

/-- Destructors of several objects, in the order of the list. -/
def destroyAll (s : St R) (ms : List SBM) : St R := ms.foldl destroy s

/-- The loops `for row < h, for col < w`. -/
def forCells (h w : Nat) (f : Nat → Nat → St R → St R) (s : St R) : St R :=
  (List.range h).foldl (fun s r => (List.range w).foldl (fun s c => f r c s) s) s

/-- Body of `element_op(C, A, B)`: one block. The flags are `C.is_transposed()` etc. -/
def cellOp3 (B : Nat) (op : Op R) (tc ta tb : Bool) (C A D : SBM) (r c : Nat) (s : St R) : St R :=
  s.set (C.block r c) (blockOp3 B op tc ta tb (s.blk (A.block r c)) (s.blk (D.block r c)))

/-- Body of `element_op(C, A)`. -/
def cellOp2 (B : Nat) (op : Op R) (tc ta : Bool) (C A : SBM) (r c : Nat) (s : St R) : St R :=
  s.set (C.block r c) (blockOp2 B op tc ta (s.blk (C.block r c)) (s.blk (A.block r c)))

/-- Body of `element_op(C)`. -/
def cellOp1 (B : Nat) (op : Op R) (C : SBM) (r c : Nat) (s : St R) : St R :=
  s.set (C.block r c) (blockOp1 B op (s.blk (C.block r c)))

/-- `element_op<Op>(C, A, B)`: `C = A <Op> B` (`matrix_arithmetic.h:1068-1081`). -/
def elementOp3 (B : Nat) (op : Op R) (C A D : SBM) (s : St R) : St R :=
  forCells C.h C.w (cellOp3 B op C.tr A.tr D.tr C A D) s

/-- `element_op<Op>(C, A)`: `C <Op>= A` (`matrix_arithmetic.h:1084-1095`). -/
def elementOp2 (B : Nat) (op : Op R) (C A : SBM) (s : St R) : St R :=
  forCells C.h C.w (cellOp2 B op C.tr A.tr C A) s

/-- `element_op<Op>(C)`: `C = <Op>C` (`matrix_arithmetic.h:1098-1107`). -/
def elementOp1 (B : Nat) (op : Op R) (C : SBM) (s : St R) : St R :=
  forCells C.h C.w (cellOp1 B op C) s

/-- `set_zero` (`matrix.h:417-421`): deinitializes all blocks. -/
def setZero (C : SBM) (s : St R) : St R := C.blocks.foldl (fun s i => s.set i none) s

/-- Copy constructor (`matrix.h:340-356`): new blocks, then `0 + other`. -/
def copySbm (B : Nat) (s : St R) (m : SBM) : SBM × St R :=
  let n := newSbm s m.h m.w false
  (n.1, elementOp2 B .add n.1 m n.2)

/-- `transpose` (`matrix.h:403-415`): `bn[col * height + row] = bl(row, col)`; the elements inside the blocks stay. -/
def SBM.transpose (m : SBM) : SBM :=
  { h := m.w, w := m.h, hs := m.ws, ws := m.hs,
    blocks := (List.range (m.w * m.h)).map fun k => m.block (k % m.h) (k / m.h), tr := !m.tr }

/-! ### Multiplication -/

/-- `naive_multiply_and_add` (`matrix_arithmetic.h:1812-1828`): `C = A * D + C`. -/
def naiveMul (B : Nat) (A D C : SBM) (s : St R) : St R :=
  forCells C.h C.w (fun i j s => (List.range A.w).foldl (fun s k =>
    s.set (C.block i j) (blockMul B A.tr D.tr C.tr (s.blk (A.block i k)) (s.blk (D.block k j)) (s.blk (C.block i j)))) s) s

/-- The four quarters of a matrix. -/
structure Quarter where
  ul : SBM
  ur : SBM
  dl : SBM
  dr : SBM

/-- `swappable_block_matrix_padding_quarterer` (`matrix_arithmetic.h:1394-1406`). -/
def padQuarter (s : St R) (m : SBM) : Quarter × St R :=
  let h := (m.h + 1) / 2
  let w := (m.w + 1) / 2
  let ul := sub s m h w 0 0
  let ur := sub ul.2 m h w 0 w
  let dl := sub ur.2 m h w h 0
  let dr := sub dl.2 m h w h w
  (⟨ul.1, ur.1, dl.1, dr.1⟩, dr.2)

/-- `swappable_block_matrix_approximative_quarterer` (`matrix_arithmetic.h:1408-1420`). -/
def approxQuarter (s : St R) (m : SBM) : Quarter × St R :=
  let h := m.h / 2
  let w := m.w / 2
  let ul := sub s m h w 0 0
  let ur := sub ul.2 m h (m.w - w) 0 w
  let dl := sub ur.2 m (m.h - h) w h 0
  let dr := sub dl.2 m (m.h - h) (m.w - w) h w
  (⟨ul.1, ur.1, dl.1, dr.1⟩, dr.2)

/-- The members of a quarterer in the order of their destruction. -/
def Quarter.rev (q : Quarter) : List SBM := [q.dr, q.dl, q.ur, q.ul]

/-- `recursive_multiply_and_add` (`matrix_arithmetic.h:1781-1810`): `C = A * D + C`. `fuel` bounds the depth of the recursion. -/
def recMul (B : Nat) : Nat → SBM → SBM → SBM → St R → St R
  | 0, _, _, _, s => s
  | fuel + 1, A, D, C, s =>
    if C.h * C.w * A.w = 0 then s
    else if (if C.h = 1 then 1 else 0) + (if C.w = 1 then 1 else 0) + (if A.w = 1 then 1 else 0) ≥ 2 then naiveMul B A D C s
    else
      let qa := approxQuarter s A
      let qd := approxQuarter qa.2 D
      let qc := approxQuarter qd.2 C
      let s := recMul B fuel qa.1.ul qd.1.ul qc.1.ul qc.2
      let s := recMul B fuel qa.1.ur qd.1.dl qc.1.ul s
      let s := recMul B fuel qa.1.ur qd.1.dr qc.1.ur s
      let s := recMul B fuel qa.1.ul qd.1.ur qc.1.ur s
      let s := recMul B fuel qa.1.dl qd.1.ur qc.1.dr s
      let s := recMul B fuel qa.1.dr qd.1.dr qc.1.dr s
      let s := recMul B fuel qa.1.dr qd.1.dl qc.1.dl s
      let s := recMul B fuel qa.1.dl qd.1.ul qc.1.dl s
      destroyAll s (qc.1.rev ++ qd.1.rev ++ qa.1.rev)

/-- The recursion with enough fuel. -/
def recursiveMul (B : Nat) (A D C : SBM) (s : St R) : St R := recMul B (C.h + C.w + A.w) A D C s

/-- `strassen_winograd_base_case_size` (`matrix_arithmetic.h:2055`). -/
def swBase : Nat := 3

/-- Base case condition (`matrix_arithmetic.h:1633-1635`, `:1678-1680`, `:1732-1734`). -/
def isBase (A C : SBM) : Bool := decide (C.h ≤ swBase) || decide (C.w ≤ swBase) || decide (A.w ≤ swBase)

/-- The temporaries `s1..s4` or `t1..t4`. -/
structure Four where
  x1 : SBM
  x2 : SBM
  x3 : SBM
  x4 : SBM

/-- Construction of `s1..s4` (or `t1..t4`). -/
def newFour (s : St R) (h w : Nat) (tr : Bool) : Four × St R :=
  let a := newSbm s h w tr
  let b := newSbm a.2 h w tr
  let c := newSbm b.2 h w tr
  let d := newSbm c.2 h w tr
  (⟨a.1, b.1, c.1, d.1⟩, d.2)

def Four.rev (q : Four) : List SBM := [q.x4, q.x3, q.x2, q.x1]

/-- `strassen_winograd_multiply_and_add` (`matrix_arithmetic.h:1726-1779`): `C = A * D + C`; the temporaries are row-major. -/
def swAdd (B : Nat) : Nat → SBM → SBM → SBM → St R → St R
  | 0, _, _, _, s => s
  | fuel + 1, A, D, C, s =>
    if isBase A C then recursiveMul B A D C s
    else
      let qa := padQuarter s A
      let qd := padQuarter qa.2 D
      let qc := padQuarter qd.2 C
      let ss := newFour qc.2 qa.1.ul.h qa.1.ul.w false
      let tt := newFour ss.2 qd.1.ul.h qd.1.ul.w false
      let s := tt.2
      let s := elementOp3 B .sub ss.1.x3 qa.1.ul qa.1.dl s
      let s := elementOp3 B .add ss.1.x1 qa.1.dl qa.1.dr s
      let s := elementOp3 B .sub ss.1.x2 ss.1.x1 qa.1.ul s
      let s := elementOp3 B .sub ss.1.x4 qa.1.ur ss.1.x2 s
      let s := elementOp3 B .sub tt.1.x3 qd.1.dr qd.1.ur s
      let s := elementOp3 B .sub tt.1.x1 qd.1.ur qd.1.ul s
      let s := elementOp3 B .sub tt.1.x2 qd.1.dr tt.1.x1 s
      let s := elementOp3 B .sub tt.1.x4 qd.1.dl tt.1.x2 s
      let px := newSbm s qc.1.ul.h qc.1.ul.w false
      let s := px.2
      let s := swAdd B fuel qa.1.ur qd.1.dl qc.1.ul s
      let s := swAdd B fuel qa.1.ul qd.1.ul px.1 s
      let s := elementOp2 B .add qc.1.ul px.1 s
      let s := swAdd B fuel ss.1.x2 tt.1.x2 px.1 s
      let s := elementOp2 B .add qc.1.ur px.1 s
      let s := swAdd B fuel ss.1.x3 tt.1.x3 px.1 s
      let s := elementOp2 B .add qc.1.dl px.1 s
      let s := elementOp2 B .add qc.1.dr px.1 s
      let s := setZero px.1 s
      let s := swAdd B fuel qa.1.dr tt.1.x4 qc.1.dl s
      let s := swAdd B fuel ss.1.x1 tt.1.x1 px.1 s
      let s := elementOp2 B .add qc.1.dr px.1 s
      let s := elementOp2 B .add qc.1.ur px.1 s
      let s := swAdd B fuel ss.1.x4 qd.1.dr qc.1.ur s
      destroyAll s (px.1 :: tt.1.rev ++ ss.1.rev ++ qc.1.rev ++ qd.1.rev ++ qa.1.rev)

/-- `op_swappable_block_nontransposed(c, a, op, b, row, col)` (`matrix_arithmetic.h:1338-1348`): all flags `false`. -/
def ntOp3 (B : Nat) (op : Op R) (C A D : SBM) (r c : Nat) (s : St R) : St R := cellOp3 B op false false false C A D r c s

/-- `op_swappable_block_nontransposed(c, op, a, row, col)` (`matrix_arithmetic.h:1350-1358`). -/
def ntOp2 (B : Nat) (op : Op R) (C A : SBM) (r c : Nat) (s : St R) : St R := cellOp2 B op false false C A r c s

/-- `strassen_winograd_preaddition_a` (`matrix_arithmetic.h:1252-1272`). -/
def preAddA (B : Nat) (a : Quarter) (x : Four) (s : St R) : St R :=
  forCells a.ul.h a.ul.w (fun r c s =>
    let s := ntOp3 B .sub x.x3 a.ul a.dl r c s
    let s := ntOp3 B .add x.x1 a.dl a.dr r c s
    let s := ntOp3 B .sub x.x2 x.x1 a.ul r c s
    ntOp3 B .sub x.x4 a.ur x.x2 r c s) s

/-- `strassen_winograd_preaddition_b` (`matrix_arithmetic.h:1274-1294`). -/
def preAddB (B : Nat) (b : Quarter) (x : Four) (s : St R) : St R :=
  forCells b.ul.h b.ul.w (fun r c s =>
    let s := ntOp3 B .sub x.x3 b.dr b.ur r c s
    let s := ntOp3 B .sub x.x1 b.ur b.ul r c s
    let s := ntOp3 B .sub x.x2 b.dr x.x1 r c s
    ntOp3 B .sub x.x4 b.dl x.x2 r c s) s

/-- `strassen_winograd_postaddition` (`matrix_arithmetic.h:1297-1318`). -/
def postAdd (B : Nat) (c11 c12 c21 c22 p1 p3 p5 : SBM) (s : St R) : St R :=
  forCells c11.h c11.w (fun r c s =>
    let s := ntOp2 B .add c11 p1 r c s
    let s := ntOp2 B .add p1 c22 r c s
    let s := ntOp2 B .add p5 p1 r c s
    let s := ntOp2 B .add c21 p5 r c s
    let s := ntOp3 B .add c22 p5 p3 r c s
    let s := ntOp2 B .add p1 p3 r c s
    ntOp2 B .add c12 p1 r c s) s

/-- `element_op_twice_nontransposed` (`matrix_arithmetic.h:1320-1336`): `c1 += a; c2 += a`. -/
def twiceNt (B : Nat) (op : Op R) (c1 c2 a : SBM) (s : St R) : St R :=
  forCells a.h a.w (fun r c s => ntOp2 B op c2 a r c (ntOp2 B op c1 a r c s)) s

/-- `strassen_winograd_multiply` (`matrix_arithmetic.h:1623-1670`): `C = A * D`. -/
def swMul (B : Nat) : Nat → SBM → SBM → SBM → St R → St R
  | 0, _, _, _, s => s
  | fuel + 1, A, D, C, s =>
    if isBase A C then recursiveMul B A D C (setZero C s)
    else
      let qa := padQuarter s A
      let qd := padQuarter qa.2 D
      let qc := padQuarter qd.2 C
      let ss := newFour qc.2 qa.1.ul.h qa.1.ul.w qa.1.ul.tr
      let tt := newFour ss.2 qd.1.ul.h qd.1.ul.w qd.1.ul.tr
      let s := preAddA B qa.1 ss.1 tt.2
      let s := preAddB B qd.1 tt.1 s
      let p1 := newSbm s qc.1.ul.h qc.1.ul.w qc.1.ul.tr
      let p3 := newSbm p1.2 qc.1.ul.h qc.1.ul.w qc.1.ul.tr
      let p5 := newSbm p3.2 qc.1.ul.h qc.1.ul.w qc.1.ul.tr
      let s := p5.2
      let s := swMul B fuel qa.1.ul qd.1.ul p1.1 s
      let s := swMul B fuel qa.1.ur qd.1.dl qc.1.ul s
      let s := swMul B fuel ss.1.x1 tt.1.x1 p3.1 s
      let s := swMul B fuel ss.1.x2 tt.1.x2 qc.1.dr s
      let s := swMul B fuel ss.1.x3 tt.1.x3 p5.1 s
      let s := swMul B fuel ss.1.x4 qd.1.dr qc.1.ur s
      let s := swMul B fuel qa.1.dr tt.1.x4 qc.1.dl s
      let s := postAdd B qc.1.ul qc.1.ur qc.1.dl qc.1.dr p1.1 p3.1 p5.1 s
      destroyAll s (p5.1 :: p3.1 :: p1.1 :: tt.1.rev ++ ss.1.rev ++ qc.1.rev ++ qd.1.rev ++ qa.1.rev)

/-- `strassen_winograd_multiply_and_add_interleaved` (`matrix_arithmetic.h:1672-1724`): `C = A * D + C`. -/
def swInter (B : Nat) : Nat → SBM → SBM → SBM → St R → St R
  | 0, _, _, _, s => s
  | fuel + 1, A, D, C, s =>
    if isBase A C then recursiveMul B A D C s
    else
      let qa := padQuarter s A
      let qd := padQuarter qa.2 D
      let qc := padQuarter qd.2 C
      let ss := newFour qc.2 qa.1.ul.h qa.1.ul.w qa.1.ul.tr
      let tt := newFour ss.2 qd.1.ul.h qd.1.ul.w qd.1.ul.tr
      let s := preAddA B qa.1 ss.1 tt.2
      let s := preAddB B qd.1 tt.1 s
      let px := newSbm s qc.1.ul.h qc.1.ul.w qc.1.ul.tr
      let s := px.2
      let s := swInter B fuel qa.1.ur qd.1.dl qc.1.ul s
      let s := swInter B fuel qa.1.ul qd.1.ul px.1 s
      let s := elementOp2 B .add qc.1.ul px.1 s
      let s := swInter B fuel ss.1.x2 tt.1.x2 px.1 s
      let s := setZero ss.1.x2 s
      let s := setZero tt.1.x2 s
      let s := elementOp2 B .add qc.1.ur px.1 s
      let s := swInter B fuel ss.1.x3 tt.1.x3 px.1 s
      let s := setZero ss.1.x3 s
      let s := setZero tt.1.x3 s
      let s := twiceNt B .add qc.1.dl qc.1.dr px.1 s
      let s := setZero px.1 s
      let s := swInter B fuel qa.1.dr tt.1.x4 qc.1.dl s
      let s := setZero tt.1.x4 s
      let s := swInter B fuel ss.1.x1 tt.1.x1 px.1 s
      let s := setZero ss.1.x1 s
      let s := setZero tt.1.x1 s
      let s := twiceNt B .add qc.1.dr qc.1.ur px.1 s
      let s := setZero px.1 s
      let s := swInter B fuel ss.1.x4 qd.1.dr qc.1.ur s
      destroyAll s (px.1 :: tt.1.rev ++ ss.1.rev ++ qc.1.rev ++ qd.1.rev ++ qa.1.rev)

end Stxxl.Mat
