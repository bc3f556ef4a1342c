/-!
# Random numbers and `std::random_shuffle`

Models `/repo/include/stxxl/bits/common/rand.h`. A generator is represented by the raw 32-bit numbers it will
produce, so a theorem that quantifies over them covers every seed.
-/

namespace Stxxl

/-- A raw 32-bit output of `random_number32` (`rand.h:48-56`). -/
abbrev Raw := Fin (2 ^ 32)

/-- `random_number<random_uniform_fast>::operator()(N)`, `rand.h:125-137,245-258`: `uniform()*N` truncated, where
`uniform()` is `raw / 2^32`. Simplification: the product is computed exactly; the C++ rounds it to 53 bits, which
cannot reach `N` since `N < 2^32`. -/
def rndNumber (r : Raw) (N : Nat) : Nat := r.val * N / 2 ^ 32

theorem rndNumber_lt (r : Raw) {N : Nat} (h : 0 < N) : rndNumber r N < N := by
  unfold rndNumber
  rw [Nat.div_lt_iff_lt_mul (by decide), Nat.mul_comm N]
  exact Nat.mul_lt_mul_of_pos_right r.isLt h

/-- `std::iter_swap` of positions `i` and `j`; out-of-range access is `none` (undefined behaviour). -/
def swapAt {α} (l : List α) (i j : Nat) : Option (List α) :=
  match l[i]?, l[j]? with
  | some a, some b => some ((l.set i b).set j a)
  | _, _ => none

theorem swapAt_perm {α} {l l' : List α} {i j : Nat} (h : swapAt l i j = some l') : l'.Perm l := by
  unfold swapAt at h
  split at h
  · rename_i a b ha hb
    obtain ⟨hi, rfl⟩ := List.getElem?_eq_some_iff.1 ha
    obtain ⟨hj, rfl⟩ := List.getElem?_eq_some_iff.1 hb
    cases h
    exact List.set_set_perm hi hj
  · cases h

theorem swapAt_isSome {α} {l : List α} {i j : Nat} (hi : i < l.length) (hj : j < l.length) :
    ∃ l', swapAt l i j = some l' ∧ l'.length = l.length := by
  refine ⟨(l.set i l[j]).set j l[i], ?_, by simp⟩
  simp [swapAt, hi, hj]

/-- `std::random_shuffle(first, last, rnd)` (libstdc++ `bits/stl_algo.h`): for `i = 1 .. n-1` swap element `i` with
element `rnd(i+1)`. `k` iterations starting at `i` remain; `raws` are the numbers the generator will produce. -/
def shuffleLoop {α} (raws : Nat → Raw) : Nat → Nat → List α → Option (List α)
  | 0, _, l => some l
  | k + 1, i, l =>
    match swapAt l i (rndNumber (raws i) (i + 1)) with
    | none => none
    | some l' => shuffleLoop raws k (i + 1) l'

/-- Whole call of `std::random_shuffle`. -/
def stdShuffle {α} (raws : Nat → Raw) (l : List α) : Option (List α) :=
  if l = [] then some l else shuffleLoop raws (l.length - 1) 1 l

theorem shuffleLoop_perm {α} (raws : Nat → Raw) (k i : Nat) (l : List α) (h : i + k ≤ l.length) :
    ∃ l', shuffleLoop raws k i l = some l' ∧ l'.Perm l := by
  induction k generalizing i l with
  | zero => exact ⟨l, rfl, .refl _⟩
  | succ k ih =>
    have hj := rndNumber_lt (raws i) (N := i + 1) (by omega)
    obtain ⟨l1, h1, hlen⟩ := swapAt_isSome (l := l) (i := i) (j := rndNumber (raws i) (i + 1)) (by omega) (by omega)
    obtain ⟨l2, h2, hp⟩ := ih (i + 1) l1 (by omega)
    exact ⟨l2, by simp [shuffleLoop, h1, h2], hp.trans (swapAt_perm h1)⟩

/-- The shuffle never leaves the range and only permutes. -/
theorem stdShuffle_perm {α} (raws : Nat → Raw) (l : List α) :
    ∃ l', stdShuffle raws l = some l' ∧ l'.Perm l := by
  unfold stdShuffle
  split
  · exact ⟨l, rfl, .refl _⟩
  · rename_i h
    have : 0 < l.length := List.length_pos_iff.2 h
    exact shuffleLoop_perm raws _ _ l (by omega)

example : stdShuffle (fun _ => 0) [1, 2, 3, 4] = some [4, 1, 2, 3] := by decide

end Stxxl
