import Verif.Matrix.Model
import Mathlib.Data.Matrix.Mul
import Mathlib.Algebra.BigOperators.Group.Finset.Basic
import Mathlib.Algebra.BigOperators.Fin
import Mathlib.Tactic.Abel

/-!
# One block: the low-level loops compute the matrix operations
-/

namespace Stxxl.Mat

variable {R : Type} [CommRing R]

/-- The `BlockSideLength × BlockSideLength` matrix a block stands for. -/
abbrev M (B : Nat) (R : Type) := Matrix (Fin B) (Fin B) R

/-- Meaning of the contents of a block stored row-major (`t = false`) or column-major. -/
def toM (B : Nat) (t : Bool) (d : Raw R) : M B R := fun i j => d (idx B t i j)

/-- Meaning of a block: an uninitialized one is zero. -/
def vl (B : Nat) (t : Bool) (o : Option (Raw R)) : M B R :=
  match o with
  | none => 0
  | some d => toM B t d

@[simp] theorem vl_none (B : Nat) (t : Bool) : vl (R := R) B t none = 0 := rfl

theorem cells_false (B : Nat) (f : Nat → Nat → R) (i : Nat) {j : Nat} (hj : j < B) : cells B f (idx B false i j) = f i j := by
  have h1 : (i * B + j) / B = i := by
    rw [Nat.add_comm, Nat.add_mul_div_right _ _ (by omega), Nat.div_eq_of_lt hj]; omega
  have h2 : (i * B + j) % B = j := by
    rw [Nat.add_comm, Nat.add_mul_mod_self_right, Nat.mod_eq_of_lt hj]
  simp [cells, idx, h1, h2]

theorem cells_true (B : Nat) (f : Nat → Nat → R) {i : Nat} (j : Nat) (hi : i < B) : cells B f (idx B true i j) = f j i := by
  have h1 : (i + j * B) / B = j := by
    rw [Nat.add_mul_div_right _ _ (by omega), Nat.div_eq_of_lt hi]; omega
  have h2 : (i + j * B) % B = i := by
    rw [Nat.add_mul_mod_self_right, Nat.mod_eq_of_lt hi]
  simp [cells, idx, h1, h2]

theorem idx_swap (B : Nat) (i j : Nat) : idx B true i j = idx B false j i := by
  simp [idx, Nat.add_comm]

theorem toM_cells (B : Nat) (t : Bool) (f : Nat → Nat → R) (i j : Fin B) :
    toM B t (cells B f) i j = if t then f j i else f i j := by
  cases t
  · simpa [toM] using cells_false B f i j.2
  · simpa [toM] using cells_true B f j i.2

/-- The meaning of `op(c, a, b)`. -/
def Op.m3 (op : Op R) {B : Nat} (x y : M B R) : M B R := fun i j => op.f3 (x i j) (y i j)
/-- The meaning of `op(c, a)`. -/
def Op.m2 (op : Op R) {B : Nat} (x y : M B R) : M B R := fun i j => op.f2 (x i j) (y i j)
/-- The meaning of `op(a)`. -/
def Op.m1 (op : Op R) {B : Nat} (x : M B R) : M B R := fun i j => op.f1 (x i j)

@[simp] theorem m3_add {B : Nat} (x y : M B R) : Op.add.m3 x y = x + y := rfl
@[simp] theorem m3_sub {B : Nat} (x y : M B R) : Op.sub.m3 x y = x - y := rfl
@[simp] theorem m2_add {B : Nat} (x y : M B R) : Op.add.m2 x y = x + y := rfl
@[simp] theorem m2_sub {B : Nat} (x y : M B R) : Op.sub.m2 x y = x - y := rfl

theorem vl_blockOp3 (B : Nat) (op : Op R) (tc ta tb : Bool) (a b : Option (Raw R)) :
    vl B tc (blockOp3 B op tc ta tb a b) = op.m3 (vl B ta a) (vl B tb b) := by
  ext i j
  cases a <;> cases b <;> simp only [blockOp3, vl, Op.m3, toM_cells, Matrix.zero_apply]
  · cases op <;> simp [Op.f3]
  all_goals cases tc <;> cases ta <;> cases tb <;> simp [toM, idx_swap]

/-- With equal flags the block operation does not look at them. -/
theorem blockOp3_same (B : Nat) (op : Op R) (t : Bool) (a b : Option (Raw R)) :
    blockOp3 B op false false false a b = blockOp3 B op t t t a b := by
  cases a <;> cases b <;> simp [blockOp3]

theorem blockOp2_same (B : Nat) (op : Op R) (t : Bool) (c a : Option (Raw R)) :
    blockOp2 B op false false c a = blockOp2 B op t t c a := by
  cases c <;> cases a <;> simp [blockOp2]

theorem vl_blockOp2 (B : Nat) (op : Op R) (tc ta : Bool) (c a : Option (Raw R)) (hop : a = none → ∀ x : R, op.f2 x 0 = x) :
    vl B tc (blockOp2 B op tc ta c a) = op.m2 (vl B tc c) (vl B ta a) := by
  ext i j
  cases a with
  | none => cases c <;> simp [blockOp2, vl, Op.m2, hop rfl]
  | some a =>
    cases c with
    | none =>
      simp only [blockOp2, vl, Op.m2, toM_cells, Matrix.zero_apply]
      cases tc <;> cases ta <;> cases op <;> simp [toM, idx_swap, Op.f1, Op.f2]
    | some c =>
      simp only [blockOp2, vl, Op.m2, toM_cells]
      cases tc <;> cases ta <;> simp [toM, idx_swap]

theorem vl_blockOp1 (B : Nat) (op : Op R) (tc : Bool) (c : Option (Raw R)) :
    vl B tc (blockOp1 B op c) = op.m1 (vl B tc c) := by
  ext i j
  cases c with
  | none => cases op <;> simp [blockOp1, vl, Op.m1, Op.f1]
  | some c =>
    simp only [blockOp1, vl, Op.m1, toM_cells]
    cases tc <;> simp [toM, idx_swap]

theorem foldl_add_sum (n : Nat) (f : Nat → R) (x : R) :
    (List.range n).foldl (fun acc k => acc + f k) x = x + ∑ k : Fin n, f k := by
  induction n with
  | zero => simp
  | succ n ih => rw [List.range_succ, List.foldl_append, ih, Fin.sum_univ_castSucc]; simp [add_assoc]

theorem vl_lowMul (B : Nat) (ta tb tc : Bool) (a b c : Raw R) :
    toM B tc (lowMul B a ta b tb c tc) = toM B tc c + toM B ta a * toM B tb b := by
  ext i j
  cases tc
  · simp only [lowMul, mulLoop, Bool.false_eq_true, if_false, toM_cells]
    rw [foldl_add_sum]
    simp [Matrix.mul_apply, toM]
  · simp only [lowMul, mulLoop, if_true, toM_cells]
    rw [foldl_add_sum]
    have : ∀ (t : Bool) (x y : Nat), idx B (!t) x y = idx B t y x := by intro t x y; cases t <;> simp [idx_swap]
    simp [Matrix.mul_apply, toM, idx_swap, this, mul_comm]

theorem vl_blockMul (B : Nat) (ta tb tc : Bool) (a b c : Option (Raw R)) :
    vl B tc (blockMul B ta tb tc a b c) = vl B tc c + vl B ta a * vl B tb b := by
  cases a with
  | none => simp [blockMul]
  | some a =>
    cases b with
    | none => simp [blockMul]
    | some b =>
      simp only [blockMul, vl]
      rw [vl_lowMul]
      cases c with
      | none =>
        congr 1
      | some c => simp

end Stxxl.Mat
