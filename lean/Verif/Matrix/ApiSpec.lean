import Verif.Matrix.Api

/-!
# What a program with matrices means

Matrices are values: tables of ring elements. No blocks, no sharing. Independent of the model but for the statements (`Cmd`).
-/

namespace Stxxl.Mat

variable {R : Type} [CommRing R]

/-- A matrix of `h` rows and `w` columns. -/
structure Val (R : Type) where
  h : Nat
  w : Nat
  f : Nat → Nat → R

/-- The product: `Σ_t a(i, t) * b(t, j)`. -/
def Val.mul (a b : Val R) : Val R :=
  ⟨a.h, b.w, fun i j => ((List.range a.w).map fun t => a.f i t * b.f t j).sum⟩

/-- Meaning of a statement; `none` if a variable is missing or the dimensions do not fit. -/
def specStep (σ : List (Option (Val R))) : Cmd R → Option (List (Option (Val R)) × Option R)
  | .new x h w => if x < σ.length then some (σ.set x (some ⟨h, w, fun _ _ => 0⟩), none) else none
  | .copy x y => do
    let v ← (σ[y]?).join
    if x < σ.length then some (σ.set x (some v), none) else none
  | .drop x => if x < σ.length then some (σ.set x none, none) else none
  | .set x r c e => do
    let v ← (σ[x]?).join
    if r < v.h ∧ c < v.w then some (σ.set x (some { v with f := fun i j => if i = r ∧ j = c then e else v.f i j }), none) else none
  | .get x r c => do
    let v ← (σ[x]?).join
    if r < v.h ∧ c < v.w then some (σ, some (v.f r c)) else none
  | .getNc x r c => do
    let v ← (σ[x]?).join
    if r < v.h ∧ c < v.w then some (σ, some (v.f r c)) else none
  | .transpose x => do
    let v ← (σ[x]?).join
    some (σ.set x (some ⟨v.w, v.h, fun i j => v.f j i⟩), none)
  | .setZero x => do
    let v ← (σ[x]?).join
    some (σ.set x (some ⟨v.h, v.w, fun _ _ => 0⟩), none)
  | .add x a b => do
    let va ← (σ[a]?).join
    let vb ← (σ[b]?).join
    if x < σ.length ∧ va.h = vb.h ∧ va.w = vb.w then some (σ.set x (some ⟨va.h, va.w, fun i j => va.f i j + vb.f i j⟩), none) else none
  | .sub x a b => do
    let va ← (σ[a]?).join
    let vb ← (σ[b]?).join
    if x < σ.length ∧ va.h = vb.h ∧ va.w = vb.w then some (σ.set x (some ⟨va.h, va.w, fun i j => va.f i j - vb.f i j⟩), none) else none
  | .scal x a k => do
    let va ← (σ[a]?).join
    if x < σ.length then some (σ.set x (some ⟨va.h, va.w, fun i j => va.f i j * k⟩), none) else none
  | .addTo x y => do
    let vx ← (σ[x]?).join
    let vy ← (σ[y]?).join
    if vx.h = vy.h ∧ vx.w = vy.w then some (σ.set x (some ⟨vx.h, vx.w, fun i j => vx.f i j + vy.f i j⟩), none) else none
  | .subTo x y => do
    let vx ← (σ[x]?).join
    let vy ← (σ[y]?).join
    if vx.h = vy.h ∧ vx.w = vy.w then some (σ.set x (some ⟨vx.h, vx.w, fun i j => vx.f i j - vy.f i j⟩), none) else none
  | .scalTo x k => do
    let v ← (σ[x]?).join
    some (σ.set x (some ⟨v.h, v.w, fun i j => v.f i j * k⟩), none)
  | .mul _ x a b => do
    let va ← (σ[a]?).join
    let vb ← (σ[b]?).join
    if x < σ.length ∧ va.w = vb.h then some (σ.set x (some (va.mul vb)), none) else none

/-- Meaning of a program: the values read. -/
def specExec : List (Option (Val R)) → List (Cmd R) → Option (List (Option (Val R)) × List R)
  | σ, [] => some (σ, [])
  | σ, c :: cs =>
    match specStep σ c with
    | some (σ', o) =>
      match specExec σ' cs with
      | some (σ'', os) => some (σ'', o.toList ++ os)
      | none => none
    | none => none

end Stxxl.Mat
