import Verif.Matrix.Grained
import Mathlib.Algebra.Ring.Int.Defs

/-!
# Properties of `stxxl::matrix`
-/

namespace Stxxl.Mat

variable {R : Type} [CommRing R] {B : Nat}

/-- **C50** Programs with matrices mean what they would mean if matrices were plain tables: for every block size and every program (creation, copies
that share blocks, element access, transposition, sums, differences, scalings and products with any of the algorithms 0, 1, 2, 4 and 5) all values
read are the right ones. -/
theorem C50_programs (hB : 0 < B) (n : Nat) (cs : List (Cmd R)) {σ : List (Option (Val R))} {os : List R}
    (h : specExec (List.replicate n none) cs = some (σ, os)) : ∃ w, exec B (World.init n) cs = some (w, os) := by
  obtain ⟨w, hw, _⟩ := exec_ok hB cs _ _ (init_inv n) σ os h
  exact ⟨w, hw⟩

/-- **C49** After any program, `x = a.multiply(b, alg)` for any of the algorithms gives the product: a variable `x` whose elements (i, j) are
`Σ_t a(i, t) * b(t, j)`. -/
theorem C49_multiply (hB : 0 < B) (n : Nat) (cs : List (Cmd R)) {σ : List (Option (Val R))} {os : List R}
    (h : specExec (List.replicate n none) cs = some (σ, os)) (alg : Alg) (x a b : Nat) {va vb : Val R} (hx : x < σ.length)
    (ha : σ[a]? = some (some va)) (hb : σ[b]? = some (some vb)) (hd : va.w = vb.h) (i j : Nat) (hi : i < va.h) (hj : j < vb.w) :
    ∃ w, exec B (World.init n) (cs ++ [.mul alg x a b, .get x i j]) =
      some (w, os ++ [((List.range va.w).map fun t => va.f i t * vb.f t j).sum]) := by
  have key : ∀ (cs : List (Cmd R)) (σ0 : List (Option (Val R))) (os : List R), specExec σ0 cs = some (σ, os) →
      ∀ cs2 σ2 os2, specExec σ cs2 = some (σ2, os2) → specExec σ0 (cs ++ cs2) = some (σ2, os ++ os2) := by
    intro cs
    induction cs with
    | nil =>
      intro σ0 os h
      simp only [specExec, Option.some.injEq, Prod.mk.injEq] at h
      obtain ⟨rfl, rfl⟩ := h
      exact fun cs2 σ2 os2 h2 => by simpa using h2
    | cons c cs ih =>
      intro σ0 os h
      simp only [specExec] at h
      split at h
      · rename_i σ1 o h1
        split at h
        · rename_i σ2 os2 h2
          simp only [Option.some.injEq, Prod.mk.injEq] at h
          obtain ⟨rfl, rfl⟩ := h
          intro cs2 σ3 os3 h3
          have := ih σ1 os2 h2 cs2 σ3 os3 h3
          simp only [List.cons_append, specExec, h1, this, List.append_assoc]
        · cases h
      · cases h
  have k := key cs _ os h
  refine C50_programs (σ := σ.set x (some (va.mul vb))) hB n _ (k _ _ _ ?_)
  have e1 : σ[a]?.join = some va := by rw [ha]; rfl
  have e2 : σ[b]?.join = some vb := by rw [hb]; rfl
  have e3 : (σ.set x (some (va.mul vb)))[x]?.join = some (va.mul vb) := by rw [List.getElem?_set_self (by omega)]; rfl
  have s1 : specStep σ (.mul alg x a b) = some (σ.set x (some (va.mul vb)), none) := by
    simp only [specStep, e1, e2, bind, Option.bind]
    rw [if_pos ⟨by omega, hd⟩]
  have s2 : specStep (σ.set x (some (va.mul vb))) (.get x i j) = some (σ.set x (some (va.mul vb)), some ((va.mul vb).f i j)) := by
    simp only [specStep, e3, bind, Option.bind]
    rw [if_pos ⟨hi, hj⟩]
  simp only [specExec, s1, s2, Option.toList, List.append_nil, List.nil_append]
  rfl

/-- **C51** No block is lost or shared wrongly: after every program the allocated blocks are exactly those of the matrices that exist, and two
variables have a block in common only if they share their whole block matrix. -/
theorem C51_blocks (hB : 0 < B) (n : Nat) (cs : List (Cmd R)) {σ : List (Option (Val R))} {os : List R}
    (h : specExec (List.replicate n none) cs = some (σ, os)) : ∃ w, exec B (World.init n) cs = some (w, os) ∧
      (∀ i, w.st.live i ↔ ∃ (x : Nat) (m : Mat), w.vars[x]? = some (some m) ∧ HasBlock (w.sbm m) i) ∧
      ∀ (x y : Nat) (m m' : Mat) (i : Nat), w.vars[x]? = some (some m) → w.vars[y]? = some (some m') → HasBlock (w.sbm m) i → HasBlock (w.sbm m') i →
        m.data = m'.data := by
  obtain ⟨w, hw, hi⟩ := exec_ok hB cs _ _ (init_inv n) σ os h
  refine ⟨w, hw, fun i => ⟨fun hl => ?_, ?_⟩, ?_⟩
  · obtain ⟨d, v, ⟨x, m, hx, hv, rfl⟩, hb⟩ := hi.core.cov i hl
    exact ⟨x, m, hx, hb⟩
  · rintro ⟨x, m, hx, r, c, hr, hc, rfl⟩
    obtain ⟨v, hv, _⟩ := hi.rel.fwd x m hx
    exact (hi.objOk hx hv).own r c hr hc
  · intro x y m m' i hx hy h1 h2
    obtain ⟨v, hv, _⟩ := hi.rel.fwd x m hx
    obtain ⟨v', hv', _⟩ := hi.rel.fwd y m' hy
    apply Classical.byContradiction
    intro hne
    exact hi.core.dis _ v _ v' ⟨x, m, hx, hv, rfl⟩ ⟨y, m', hy, hv', rfl⟩ hne i h1 h2

/-- **C51** When all matrices are gone, no block is allocated. -/
theorem C51_all_freed (hB : 0 < B) (n : Nat) (cs : List (Cmd R)) {σ : List (Option (Val R))} {os : List R}
    (h : specExec (List.replicate n none) cs = some (σ, os)) (hn : ∀ v ∈ σ, v = none) :
    ∃ w, exec B (World.init n) cs = some (w, os) ∧ ∀ i, ¬ w.st.live i := by
  obtain ⟨w, hw, hi⟩ := exec_ok hB cs _ _ (init_inv n) σ os h
  refine ⟨w, hw, fun i hl => ?_⟩
  obtain ⟨d, v, ⟨x, m, hx, hv, _⟩, hb⟩ := hi.core.cov i hl
  have := hn _ (List.mem_of_getElem? hv)
  cases this

/-- **C52** `A * x` and `y * A`: after any program, for every matrix variable with fewer than 2^32 rows and columns, the products with vectors of the
right length are right, and the program's matrices stay as they are. -/
theorem C52_matrix_vector (hB : 0 < B) (n : Nat) (cs : List (Cmd R)) {σ : List (Option (Val R))} {os : List R}
    (h : specExec (List.replicate n none) cs = some (σ, os)) {x : Nat} {v : Val R} (hv : σ[x]? = some (some v)) (h1 : v.h < 2 ^ 32) (h2 : v.w < 2 ^ 32) :
    ∃ w m, exec B (World.init n) cs = some (w, os) ∧ w.var x = some m ∧
      (∀ xs : List R, xs.length = v.w → w.mulCol B m xs =
        some (w, (List.range v.h).map fun i => ((List.range v.w).map fun t => v.f i t * xs.getD t 0).sum)) ∧
      ∀ ys : List R, ys.length = v.h → w.mulRow B ys m =
        some (w, (List.range v.w).map fun j => ((List.range v.h).map fun t => ys.getD t 0 * v.f t j).sum) := by
  obtain ⟨w, hw, hi⟩ := exec_ok hB cs _ _ (init_inv n) σ os h
  obtain ⟨m, hm, hm', _⟩ := dims_get hi hv
  exact ⟨w, m, hw, hm, fun xs hl => mulCol_ok hB hi hm' hv hl h1 h2, fun ys hl => mulRow_ok hB hi hm' hv hl h1 h2⟩

/-! ### Violations -/

theorem colBlock_first (hB : 0 < B) (t : Bool) (a : Option (Raw R)) (x : Nat → R) (nx ox r : Nat) (z : Nat → R) :
    colBlock B t a x nx (2 ^ 32) ox (r * B) z 0 = z 0 := by
  have hadd : ∀ (row : Nat) (v : R) (z : Nat → R), 0 < r → addAt z (r * B + row) v 0 = z 0 := by
    intro row v z hr
    have : 0 < r * B := Nat.mul_pos hr hB
    exact if_neg (by omega)
  have hfold : ∀ {n : Nat} {f : Nat → (Nat → R) → Nat → R}, (∀ i z, f i z 0 = z 0) → ∀ z : Nat → R, (List.range n).foldl (fun z i => f i z) z 0 = z 0 := by
    intro n f hf
    induction n with
    | zero => intro z; rfl
    | succ n ih => intro z; rw [List.range_succ, List.foldl_append, List.foldl_cons, List.foldl_nil, hf, ih]
  cases a with
  | none => rfl
  | some d =>
    rcases Nat.eq_zero_or_pos r with rfl | hr
    · simp only [colBlock, Nat.zero_mul, lim_wrap, List.range_zero, List.foldl_nil]
      split
      · exact hfold (f := fun _ z => z) (fun _ _ => rfl) z
      · rfl
    · simp only [colBlock]
      split
      · exact hfold (fun i z => hfold (fun j z => hadd _ _ _ hr) z) z
      · exact hfold (fun i z => hfold (fun j z => hadd _ _ _ hr) z) z

theorem colRec_first (hB : 0 < B) (x : Nat → R) (nx : Nat) : ∀ (fuel : Nat) (A : SBM) (ox oz : Nat) (p : St R × (Nat → R)),
    (colRec B x nx (2 ^ 32) fuel A ox oz p).2 0 = p.2 0 := by
  have hfold : ∀ {n : Nat} {f : Nat → (Nat → R) → Nat → R}, (∀ i z, f i z 0 = z 0) → ∀ z : Nat → R, (List.range n).foldl (fun z i => f i z) z 0 = z 0 := by
    intro n f hf
    induction n with
    | zero => intro z; rfl
    | succ n ih => intro z; rw [List.range_succ, List.foldl_append, List.foldl_cons, List.foldl_nil, hf, ih]
  intro fuel
  induction fuel with
  | zero => intro A ox oz p; rfl
  | succ fuel ih =>
    intro A ox oz p
    rw [colRec]
    split
    · rfl
    split
    · exact hfold (fun r z => hfold (fun c z => colBlock_first hB ..) z) p.2
    · dsimp only
      rw [ih, ih, ih, ih]

/-- **C53** (violation) The column-vector product of a matrix with 2^32 rows is wrong: its first element is always 0, because the number of
remaining rows is truncated to 32 bits (`matrix_arithmetic.h:1909`). Here the matrix has a one at (0, 0) and the vector is (1). -/
theorem C53_tall_matrix_wrong [Nontrivial R] (hB : 0 < B) : ∃ (σ : List (Option (Val R))) (v : Val R) (w : World R) (m : Mat) (l : List R),
    specExec (R := R) [none] [.new 0 (2 ^ 32) 1, .set 0 0 0 1] = some (σ, []) ∧ σ[0]? = some (some v) ∧
    exec B (World.init 1) [.new 0 (2 ^ 32) 1, .set 0 0 0 1] = some (w, []) ∧ w.var 0 = some m ∧ w.mulCol B m [1] = some (w, l) ∧
      l.head? = some 0 ∧ ((List.range v.w).map fun t => v.f 0 t * [(1 : R)].getD t 0).sum = 1 := by
  have hs : specExec (R := R) [none] [.new 0 (2 ^ 32) 1, .set 0 0 0 1] =
      some ([some ⟨2 ^ 32, 1, fun i j => if i = 0 ∧ j = 0 then 1 else 0⟩], []) := by
    simp [specExec, specStep]
  obtain ⟨w, hw, hi⟩ := exec_ok hB _ _ _ (init_inv (R := R) 1) _ _ hs
  obtain ⟨m, hm, hm', e1, e2⟩ := dims_get hi (x := 0) rfl
  have e1 : m.height = 2 ^ 32 := e1
  have e2 : m.width = 1 := e2
  have hc : ∃ p, w.mulCol B m [1] = some p := by
    unfold World.mulCol; rw [if_pos (by simp [e2])]; exact ⟨_, rfl⟩
  obtain ⟨⟨w', l⟩, hp⟩ := hc
  have hst : (colRec B (fun k => ([(1 : R)]).getD k 0) 1 (2 ^ 32) ((w.sbm m).h + (w.sbm m).w) (w.sbm m) 0 0 (w.st, fun _ => 0)).1 = w.st := by
    have gen : ∀ (fuel : Nat) (A : SBM) (ox oz : Nat) (z : Nat → R), (colRec B (fun k => ([(1 : R)]).getD k 0) 1 (2 ^ 32) fuel A ox oz (w.st, z)).1 = w.st := by
      intro fuel
      induction fuel with
      | zero => intro A ox oz z; rfl
      | succ fuel ih =>
        intro A ox oz z
        rw [colRec]
        split
        · rfl
        split
        · rfl
        · obtain ⟨q, e, _, _, _, _, ho⟩ := approx_view hi.core.wf A
          dsimp only
          rw [e]
          dsimp only
          rw [destroyAll_none ho]
          have step : ∀ (A : SBM) (ox oz : Nat) (p : St R × (Nat → R)), p.1 = w.st →
              (colRec B (fun k => ([(1 : R)]).getD k 0) 1 (2 ^ 32) fuel A ox oz p).1 = w.st := by
            rintro A ox oz ⟨s, z⟩ rfl; exact ih A ox oz z
          exact step _ _ _ _ (step _ _ _ _ (step _ _ _ _ (step _ _ _ _ rfl)))
    exact gen _ _ _ _ _
  have hww : w' = w ∧ l.head? = some 0 := by
    unfold World.mulCol at hp
    rw [if_pos (by simp [e2])] at hp
    simp only [Option.some.injEq, Prod.mk.injEq] at hp
    obtain ⟨rfl, rfl⟩ := hp
    rw [e1]
    simp only [List.length_singleton]
    refine ⟨by rw [hst], ?_⟩
    have : (2 : Nat) ^ 32 = (2 ^ 32 - 1) + 1 := by omega
    generalize hz : (colRec B (fun k => ([(1 : R)]).getD k 0) 1 (2 ^ 32) ((w.sbm m).h + (w.sbm m).w) (w.sbm m) 0 0 (w.st, fun _ => 0)).2 = f
    have h0 : f 0 = 0 := by rw [← hz, colRec_first hB]
    generalize (2 : Nat) ^ 32 - 1 = k at this
    rw [this, List.range_succ_eq_map]
    simp [h0]
  exact ⟨_, _, w, m, l, hs, rfl, hw, hm, by rw [hp, hww.1], hww.2, by simp⟩

/-- **C53** (violation) `matrix(bs, column_vector, row_vector)` should have the elements `l(i) * r(j)`; but whatever the vectors are, all elements read
0, because the functions that fill the block matrix get a copy of it. -/
theorem C53_matrix_from_vectors_is_zero (hB : 0 < B) (n : Nat) (cs : List (Cmd R)) {σ : List (Option (Val R))} {os : List R}
    (h : specExec (List.replicate n none) cs = some (σ, os)) (l r : List R) (junk : Raw R) : ∃ w, exec B (World.init n) cs = some (w, os) ∧
      ∀ i j, i < l.length → j < r.length →
        (readElem B ((w.fromVectors B l r junk).2.sbm (w.fromVectors B l r junk).1) i j (w.fromVectors B l r junk).2.st).1 = 0 := by
  obtain ⟨w, hw, hi⟩ := exec_ok hB cs _ _ (init_inv n) σ os h
  exact ⟨w, hw, fun i j h1 h2 => read_val hB (fromVectors_zero hi l r junk) h1 h2⟩

/-- **C53** (violation) Multiplication algorithm 6 is wrong for matrices of 5 × 5 blocks, however `use_feedable_sw_block_grained` is implemented (as long
as its result depends on its arguments only): it is called with the left factor in place of the right one. -/
theorem C53_algorithm_six_wrong [Nontrivial R] (hB : 0 < B) {fsw : SBM → SBM → SBM → St R → St R} (hf : Local fsw) :
    ¬ MulOk B true (grained B fsw) 5 5 5 := grained_wrong hB hf

/-! ### Non-vacuity -/

namespace Ex

/-- Two 3 × 3 matrices in blocks of 2 × 2 over ℤ: copies, transposition, products. -/
def prog : List (Cmd Int) :=
  [.new 0 3 3, .set 0 0 0 1, .set 0 0 1 2, .set 0 1 0 3, .set 0 2 2 4, .copy 1 0, .transpose 1, .set 1 0 2 7, .mul .recursive 2 0 1, .get 2 0 0, .get 2 0 2,
    .get 0 0 1, .get 1 1 0, .addTo 0 0, .getNc 0 2 2]

example : (exec 2 (World.init 3) prog).map (·.2) = some [5, 7, 2, 2, 8] := by decide +kernel

example : (specExec [none, none, none] prog).map (·.2) = some [5, 7, 2, 2, 8] := by decide +kernel

/-- Everything is freed. -/
example : ((exec 2 (World.init 3) (prog ++ [.drop 0, .drop 1, .drop 2])).map fun p => decide (p.1.st.next = p.1.st.free.length ∧ 0 < p.1.st.next)) =
    some true := by decide +kernel

/-- Products with vectors. -/
example : ((exec 2 (World.init 3) prog).bind fun p => (p.1.var 2).bind fun m => (p.1.mulCol 2 m [1, 1, 2]).map (·.2)) = some [22, 54, 32] := by decide +kernel

/-- Strassen-Winograd on 4 × 4 blocks of 1 × 1: one recursion step. -/
def prog2 (alg : Alg) : List (Cmd Int) :=
  [.new 0 4 4, .set 0 0 0 1, .set 0 0 3 2, .set 0 3 0 5, .set 0 2 1 (-3), .set 0 1 2 4, .mul alg 1 0 0, .get 1 0 0, .get 1 3 3, .get 1 2 2, .get 1 1 1]

example : (exec 1 (World.init 2) (prog2 .strassen)).map (·.2) = some [11, 10, -12, -12] := by decide +kernel
example : (exec 1 (World.init 2) (prog2 .strassenMul)).map (·.2) = some [11, 10, -12, -12] := by decide +kernel
example : (exec 1 (World.init 2) (prog2 .interleaved)).map (·.2) = some [11, 10, -12, -12] := by decide +kernel

/-- A matrix from the vectors (1) and (1): the element is 0, not 1. -/
example : (readElem 2 (((World.init (R := Int) 1).fromVectors 2 [1] [1] (fun _ => 9)).2.sbm ((World.init (R := Int) 1).fromVectors 2 [1] [1] (fun _ => 9)).1) 0 0
    ((World.init (R := Int) 1).fromVectors 2 [1] [1] (fun _ => 9)).2.st).1 = 0 := by decide +kernel

/-- A function that depends on its arguments only. -/
example : Local (R := Int) (fun X Y Z s => if 0 < X.h ∧ 0 < X.w ∧ 0 < Y.h ∧ 0 < Y.w ∧ 0 < Z.h ∧ 0 < Z.w then
    s.set (Z.block 0 0) (blockMul 2 X.tr Y.tr Z.tr (s.blk (X.block 0 0)) (s.blk (Y.block 0 0)) (s.blk (Z.block 0 0))) else s) := by
  intro X Y Z s s' _ _ hb i hi
  dsimp only
  split
  · rename_i hd
    obtain ⟨h1, h2, h3, h4, h5, h6⟩ := hd
    simp only [St.set]
    rw [hb _ (Or.inl ⟨0, 0, h1, h2, rfl⟩), hb _ (Or.inr (Or.inl ⟨0, 0, h3, h4, rfl⟩)), hb _ (Or.inr (Or.inr ⟨0, 0, h5, h6, rfl⟩)), hb i (Or.inr (Or.inr hi))]
  · exact hb i (Or.inr (Or.inr hi))

end Ex

end Stxxl.Mat
