import Verif.Matrix.Api
import Mathlib.Data.Nat.Log

/-!
# Model of products of matrices and vectors

Models `matrix_arithmetic.h:1856-2055` (`matrix::operator*(column_vector)`, `matrix::multiply_from_left`, `matrix(bs, column_vector, row_vector)`) and
`multi_level_strassen_winograd_multiply_and_add_block_grained` (`matrix_arithmetic.h:1422-1475`).

Simplification: a vector is a function with a separate size (that `stxxl::vector` stores elements is C07 to C09).
-/

namespace Stxxl.Mat

variable {R : Type} [CommRing R]

/-- `std::min(BlockSideLength, unsigned(size - offset))`: 64 bit subtraction, then conversion to 32 bits (`matrix_arithmetic.h:1909`, `:1977`). -/
def lim (B size off : Nat) : Nat := min B ((size + 2 ^ 64 - off) % 2 ^ 32)

/-- `z[p] += v`. -/
def addAt (z : Nat → R) (p : Nat) (v : R) : Nat → R := fun k => if k = p then z k + v else z k

/-- `matrix_col_vector_multiply_and_add_swappable_block` (`matrix_arithmetic.h:1893-1922`). -/
def colBlock (B : Nat) (t : Bool) (a : Option (Raw R)) (x : Nat → R) (nx nz ox oz : Nat) (z : Nat → R) : Nat → R :=
  match a with
  | none => z
  | some d =>
    if t then
      (List.range (lim B nx ox)).foldl (fun z col =>
        (List.range (lim B nz oz)).foldl (fun z row => addAt z (oz + row) (x (ox + col) * d (row + col * B))) z) z
    else
      (List.range (lim B nz oz)).foldl (fun z row =>
        (List.range (lim B nx ox)).foldl (fun z col => addAt z (oz + row) (x (ox + col) * d (row * B + col))) z) z

/-- `matrix_row_vector_multiply_and_add_swappable_block` (`matrix_arithmetic.h:1961-1990`). -/
def rowBlock (B : Nat) (t : Bool) (a : Option (Raw R)) (y : Nat → R) (ny nz oy oz : Nat) (z : Nat → R) : Nat → R :=
  match a with
  | none => z
  | some d =>
    if t then
      (List.range (lim B nz oz)).foldl (fun z col =>
        (List.range (lim B ny oy)).foldl (fun z row => addAt z (oz + col) (d (row + col * B) * y (oy + row))) z) z
    else
      (List.range (lim B ny oy)).foldl (fun z row =>
        (List.range (lim B nz oz)).foldl (fun z col => addAt z (oz + col) (d (row * B + col) * y (oy + row))) z) z

/-- `naive_matrix_col_vector_multiply_and_add` (`matrix_arithmetic.h:1881-1891`). Offsets in blocks. -/
def colNaive (B : Nat) (x : Nat → R) (nx nz : Nat) (A : SBM) (ox oz : Nat) (s : St R) (z : Nat → R) : Nat → R :=
  (List.range A.h).foldl (fun z r => (List.range A.w).foldl (fun z c =>
    colBlock B A.tr (s.blk (A.block r c)) x nx nz ((ox + c) * B) ((oz + r) * B) z) z) z

/-- `naive_matrix_row_vector_multiply_and_add` (`matrix_arithmetic.h:1949-1959`). -/
def rowNaive (B : Nat) (y : Nat → R) (ny nz : Nat) (A : SBM) (oy oz : Nat) (s : St R) (z : Nat → R) : Nat → R :=
  (List.range A.h).foldl (fun z r => (List.range A.w).foldl (fun z c =>
    rowBlock B A.tr (s.blk (A.block r c)) y ny nz ((oy + r) * B) ((oz + c) * B) z) z) z

/-- `recursive_matrix_col_vector_multiply_and_add` (`matrix_arithmetic.h:1856-1879`). `fuel` bounds the depth of the recursion. -/
def colRec (B : Nat) (x : Nat → R) (nx nz : Nat) : Nat → SBM → Nat → Nat → St R × (Nat → R) → St R × (Nat → R)
  | 0, _, _, _, p => p
  | fuel + 1, A, ox, oz, p =>
    if A.h * A.w = 0 then p
    else if A.h = 1 ∨ A.w = 1 then (p.1, colNaive B x nx nz A ox oz p.1 p.2)
    else
      let q := approxQuarter p.1 A
      let p := colRec B x nx nz fuel q.1.ul ox oz (q.2, p.2)
      let p := colRec B x nx nz fuel q.1.ur (ox + q.1.ul.w) oz p
      let p := colRec B x nx nz fuel q.1.dr (ox + q.1.ul.w) (oz + q.1.ul.h) p
      let p := colRec B x nx nz fuel q.1.dl ox (oz + q.1.ul.h) p
      (destroyAll p.1 q.1.rev, p.2)

/-- `recursive_matrix_row_vector_multiply_and_add` (`matrix_arithmetic.h:1924-1947`). -/
def rowRec (B : Nat) (y : Nat → R) (ny nz : Nat) : Nat → SBM → Nat → Nat → St R × (Nat → R) → St R × (Nat → R)
  | 0, _, _, _, p => p
  | fuel + 1, A, oy, oz, p =>
    if A.h * A.w = 0 then p
    else if A.h = 1 ∨ A.w = 1 then (p.1, rowNaive B y ny nz A oy oz p.1 p.2)
    else
      let q := approxQuarter p.1 A
      let p := rowRec B y ny nz fuel q.1.ul oy oz (q.2, p.2)
      let p := rowRec B y ny nz fuel q.1.dl (oy + q.1.ul.h) oz p
      let p := rowRec B y ny nz fuel q.1.dr (oy + q.1.ul.h) (oz + q.1.ul.w) p
      let p := rowRec B y ny nz fuel q.1.ur oy (oz + q.1.ul.w) p
      (destroyAll p.1 q.1.rev, p.2)

/-- `matrix::operator*(column_vector)` (`matrix.h:1218-1225`); `none` is the violated `assert`. -/
def World.mulCol (B : Nat) (w : World R) (m : Mat) (x : List R) : Option (World R × List R) :=
  if x.length = m.width then
    let p := colRec B (fun k => x.getD k 0) x.length m.height ((w.sbm m).h + (w.sbm m).w) (w.sbm m) 0 0 (w.st, fun _ => 0)
    some ({ w with st := p.1 }, (List.range m.height).map p.2)
  else none

/-- `matrix::multiply_from_left` (`matrix.h:1227-1234`). -/
def World.mulRow (B : Nat) (w : World R) (y : List R) (m : Mat) : Option (World R × List R) :=
  if y.length = m.height then
    let p := rowRec B (fun k => y.getD k 0) y.length m.width ((w.sbm m).h + (w.sbm m).w) (w.sbm m) 0 0 (w.st, fun _ => 0)
    some ({ w with st := p.1 }, (List.range m.width).map p.2)
  else none

/-! ### A matrix from two vectors -/

/-- `matrix_from_vectors_swappable_block` (`matrix_arithmetic.h:2028-2050`): `junk` are the elements that are not written
(`acquire(a, true)` does not fill the block). -/
def fromBlock (B : Nat) (t : Bool) (l r : Nat → R) (nl nr ol or' : Nat) (junk : Raw R) : Raw R :=
  fun k =>
    let row := if t then k % B else k / B
    let col := if t then k / B else k % B
    if row < lim B nl ol ∧ col < lim B nr or' then l (row + ol) * r (col + or') else junk k

/-- `naive_matrix_from_vectors` (`matrix_arithmetic.h:2019-2026`). The parameter `A` is a value: it is copied when the function is called and
destroyed when it returns. -/
def fromNaive (B : Nat) (l r : Nat → R) (nl nr : Nat) (junk : Raw R) (A : SBM) (ol or' : Nat) (s : St R) : St R :=
  let a := copySbm B s A
  let s := forCells a.1.h a.1.w (fun row col s =>
    s.set (a.1.block row col) (some (fromBlock B a.1.tr l r nl nr ((ol + row) * B) ((or' + col) * B) junk))) a.2
  destroy s a.1

/-- `recursive_matrix_from_vectors` (`matrix_arithmetic.h:1996-2017`). The parameter `A` is a value here, too. -/
def fromRec (B : Nat) (l r : Nat → R) (nl nr : Nat) (junk : Raw R) : Nat → SBM → Nat → Nat → St R → St R
  | 0, _, _, _, s => s
  | fuel + 1, A, ol, or', s =>
    let a := copySbm B s A
    if a.1.h * a.1.w = 0 then destroy a.2 a.1
    else if a.1.h = 1 ∨ a.1.w = 1 then destroy (fromNaive B l r nl nr junk a.1 ol or' a.2) a.1
    else
      let q := approxQuarter a.2 a.1
      let s := fromRec B l r nl nr junk fuel q.1.ul ol or' q.2
      let s := fromRec B l r nl nr junk fuel q.1.ur ol (or' + q.1.ul.w) s
      let s := fromRec B l r nl nr junk fuel q.1.dr (ol + q.1.ul.h) (or' + q.1.ul.w) s
      let s := fromRec B l r nl nr junk fuel q.1.dl (ol + q.1.ul.h) or' s
      destroyAll s (q.1.rev ++ [a.1])

/-- `matrix(bs, left, right)` (`matrix.h:1092-1102`). -/
def World.fromVectors (B : Nat) (w : World R) (l r : List R) (junk : Raw R) : Mat × World R :=
  let p := w.newMat B l.length r.length
  (p.1, p.2.run (fromRec B (fun k => l.getD k 0) (fun k => r.getD k 0) l.length r.length junk
    ((p.2.sbm p.1).h + (p.2.sbm p.1).w) (p.2.sbm p.1) 0 0))

/-! ### Algorithm 6 -/

/-- `ilog2_ceil` (`utils.h:186-192`): the smallest `p` with `i ≤ 2 ^ p`. -/
def ilog2Ceil (i : Nat) : Nat := Nat.clog 2 i

/-- `round_up_to_power_of_two(n, power)` (`utils.h:264-274`): a multiple of `2 ^ power`. -/
def roundUp (n p : Nat) : Nat := divCeil n (2 ^ p) * 2 ^ p

/-- `multi_level_strassen_winograd_multiply_and_add_block_grained` (`matrix_arithmetic.h:1422-1475`) with
`STXXL_MATRIX_MULTI_LEVEL_STRASSEN_WINOGRAD_MAX_NUM_LEVELS = 3` and `..._BASE_CASE = 2` (`matrix_arithmetic.h:21-26`); `fsw` stands for
`use_feedable_sw_block_grained<3>`, whatever it does. -/
def grained (B : Nat) (fsw : SBM → SBM → SBM → St R → St R) (A D C : SBM) (s : St R) : St R :=
  let lv := ilog2Ceil (min A.w (min C.w C.h))
  if lv > 2 then
    let lv := min lv 3
    let pa := sub s A (roundUp A.h lv) (roundUp A.w lv) 0 0
    let pd := sub pa.2 D (roundUp D.h lv) (roundUp D.w lv) 0 0
    let pc := sub pd.2 C (roundUp C.h lv) (roundUp C.w lv) 0 0
    destroyAll (fsw pa.1 pa.1 pc.1 pc.2) [pc.1, pd.1, pa.1]
  else swInter B (C.h + 1) A D C s

end Stxxl.Mat
