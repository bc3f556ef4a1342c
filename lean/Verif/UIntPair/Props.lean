import Verif.UIntPair.Model
import Mathlib.Tactic.Ring

/-! # C23: `uint40`/`uint48` are 40/48-bit unsigned integers

All statements are in terms of `ull`, the conversion to `uint64`. `Valid` says that the members fit their types, which every C++ object does. -/

namespace Stxxl.UIntPair

variable {hb : Nat} {u b : U}

/-- The members fit their types. -/
structure Valid (hb : Nat) (u : U) : Prop where
  low : u.low < 2 ^ 32
  high : u.high < 2 ^ hb

theorem and_lowMax (x : Nat) : x &&& lowMax = x % 2 ^ 32 := Nat.and_two_pow_sub_one_eq_mod x 32
theorem and_highMax (x : Nat) : x &&& highMax hb = x % 2 ^ hb := Nat.and_two_pow_sub_one_eq_mod x hb

theorem ull_eq (h : Valid hb u) : ull u = u.high * 2 ^ 32 + u.low := by
  rw [ull, ← Nat.shiftLeft_add_eq_or_of_lt h.low, Nat.shiftLeft_eq]

theorem ull_eq' (h : Valid hb u) : ull u = u.high * 4294967296 + u.low := ull_eq h
theorem lowMax_eq : lowMax = 4294967295 := rfl
theorem mkValid {l h : Nat} (h1 : l < 4294967296) (h2 : h < 2 ^ hb) : Valid hb ⟨l, h⟩ := ⟨h1, h2⟩

theorem mod_wrap {n : Nat} (hn : 0 < n) (x : Nat) : x % n < n := Nat.mod_lt x hn

/-- **C23** Every value is below `2^(32 + hb)`: 40 or 48 bits. -/
theorem C23_range (h : Valid hb u) : ull u < 2 ^ (32 + hb) := by
  rw [ull_eq h, Nat.pow_add]
  have := h.low; have := h.high
  have h1 : u.high * 2 ^ 32 + 2 ^ 32 ≤ 2 ^ hb * 2 ^ 32 := by
    rw [← Nat.succ_mul]; exact Nat.mul_le_mul_right _ (by omega)
  rw [Nat.mul_comm (2 ^ 32)]
  omega

/-- **C23** Conversion from `uint64` keeps every value in range exactly; larger values are caught by the assertion. -/
theorem C23_from_u64 (a : Nat) :
    (a < 2 ^ (32 + hb) → ∃ u, ofU64 hb a = some u ∧ Valid hb u ∧ ull u = a) ∧ (¬ a < 2 ^ (32 + hb) → ofU64 hb a = none) := by
  have hdiv : a >>> (32 + hb) = 0 ↔ a < 2 ^ (32 + hb) := by
    rw [Nat.shiftRight_eq_div_pow, Nat.div_eq_zero_iff]
    have := Nat.two_pow_pos (32 + hb)
    omega
  refine ⟨fun h => ?_, fun h => if_neg (fun h' => h (hdiv.1 h'))⟩
  have hv : Valid hb ⟨a &&& lowMax, (a >>> 32) &&& highMax hb⟩ :=
    ⟨by rw [and_lowMax]; exact Nat.mod_lt _ (by decide), by rw [and_highMax]; exact Nat.mod_lt _ (Nat.two_pow_pos _)⟩
  refine ⟨_, if_pos (hdiv.2 h), hv, ?_⟩
  rw [ull_eq hv]
  simp only [and_lowMax, and_highMax, Nat.shiftRight_eq_div_pow]
  have : a / 2 ^ 32 < 2 ^ hb := by
    rw [Nat.div_lt_iff_lt_mul (by decide), Nat.mul_comm, ← Nat.pow_add]; exact h
  rw [Nat.mod_eq_of_lt this]
  omega

/-- **C23** Conversion to `uint64` and back is the identity. -/
theorem C23_to_u64 (h : Valid hb u) : ofU64 hb (ull u) = some u := by
  obtain ⟨v, e, hv, hl⟩ := (C23_from_u64 (hb := hb) (ull u)).1 (C23_range h)
  rw [e]
  rw [ull_eq h, ull_eq hv] at hl
  have := h.low; have := hv.low
  congr 1
  cases u; cases v; simp only [U.mk.injEq] at *
  omega

/-- **C23** Conversions from 32-bit numbers: unsigned exactly, signed modulo `2^(32 + hb)` (as for a built-in unsigned type). -/
theorem C23_from_32 : (∀ a, a < 2 ^ 32 → Valid hb (ofU32 a) ∧ ull (ofU32 a) = a) ∧
    (∀ a : Int, -2 ^ 31 ≤ a → a < 2 ^ 31 → Valid hb (ofI32 hb a) ∧ (ull (ofI32 hb a) : Int) = a % 2 ^ (32 + hb)) := by
  have hp := Nat.two_pow_pos hb
  refine ⟨fun a h => ?_, fun a h1 h2 => ?_⟩
  · have hv : Valid hb (ofU32 a) := ⟨h, hp⟩
    exact ⟨hv, by rw [ull_eq hv]; simp [ofU32]⟩
  · have hpp : (2 : Int) ^ (32 + hb) = 4294967296 * ((2 ^ hb : Nat) : Int) := by push_cast; rw [pow_add]; norm_num
    unfold ofI32
    split
    · have hv : Valid hb ⟨(a % 2 ^ 32).toNat, 0⟩ := ⟨by simp only; omega, hp⟩
      refine ⟨hv, ?_⟩
      rw [ull_eq hv, hpp]
      simp only
      rw [Int.emod_eq_of_lt (b := 4294967296 * _) (by omega) (by omega)]
      omega
    · have hv : Valid hb ⟨(a % 2 ^ 32).toNat, highMax hb⟩ := ⟨by simp only; omega, by simp only [highMax]; omega⟩
      refine ⟨hv, ?_⟩
      rw [ull_eq' hv, hpp]
      simp only [highMax]
      rw [← Int.add_mul_emod_self_left (b := 4294967296 * ((2 ^ hb : Nat) : Int)) (c := 1), Int.mul_one,
        Int.emod_eq_of_lt (b := 4294967296 * _) (by omega) (by omega)]
      omega

/-- **C23** `++` adds one modulo `2^(32 + hb)`. -/
theorem C23_inc (h : Valid hb u) : Valid hb (inc hb u) ∧ ull (inc hb u) = (ull u + 1) % 2 ^ (32 + hb) := by
  have h1 := h.low; have h2 := h.high
  have hp := Nat.two_pow_pos hb
  have hpp : 2 ^ (32 + hb) = 4294967296 * 2 ^ hb := by rw [Nat.pow_add]
  have hr := C23_range h
  unfold inc
  split
  · next hl =>
    have hv : Valid hb ⟨0, (u.high + 1) % 2 ^ hb⟩ := mkValid (by decide) (Nat.mod_lt _ hp)
    refine ⟨hv, ?_⟩
    rw [ull_eq' hv, ull_eq' h, hl, hpp, lowMax_eq]
    dsimp only
    rw [show u.high * 4294967296 + 4294967295 + 1 = 4294967296 * (u.high + 1) by omega, Nat.mul_mod_mul_left]
    omega
  · next hl =>
    simp only [lowMax] at hl
    have hm : (u.low + 1) % 2 ^ 32 = u.low + 1 := Nat.mod_eq_of_lt (by omega)
    rw [hm]
    have hv : Valid hb ⟨u.low + 1, u.high⟩ := ⟨by simp only; omega, h2⟩
    refine ⟨hv, ?_⟩
    have := C23_range hv
    rw [ull_eq' hv] at *
    rw [ull_eq' h] at *
    dsimp only at *
    rw [← Nat.add_assoc] at *
    rw [Nat.mod_eq_of_lt this]

/-- **C23** `--` subtracts one modulo `2^(32 + hb)`; it undoes `++`. -/
theorem C23_dec (h : Valid hb u) :
    Valid hb (dec hb u) ∧ ull (dec hb u) = (ull u + 2 ^ (32 + hb) - 1) % 2 ^ (32 + hb) := by
  have h1 := h.low; have h2 := h.high
  have hp := Nat.two_pow_pos hb
  have hpp : 2 ^ (32 + hb) = 4294967296 * 2 ^ hb := by rw [Nat.pow_add]
  have hr := C23_range h
  unfold dec
  split
  · next hl =>
    have hv : Valid hb ⟨lowMax, (u.high + 2 ^ hb - 1) % 2 ^ hb⟩ := mkValid (by decide) (Nat.mod_lt _ hp)
    refine ⟨hv, ?_⟩
    rw [ull_eq' hv, ull_eq' h, hl, hpp, lowMax_eq]
    dsimp only
    by_cases h0 : u.high = 0
    · rw [h0, Nat.mod_eq_of_lt (by omega), Nat.mod_eq_of_lt (by omega)]; omega
    · rw [show u.high + 2 ^ hb - 1 = (u.high - 1) + 2 ^ hb by omega, Nat.add_mod_right, Nat.mod_eq_of_lt (by omega)]
      rw [show u.high * 4294967296 + 0 + 4294967296 * 2 ^ hb - 1 = (u.high * 4294967296 - 1) + 4294967296 * 2 ^ hb by omega, Nat.add_mod_right,
        Nat.mod_eq_of_lt (by omega)]
      omega
  · next hl =>
    have hm : (u.low + 2 ^ 32 - 1) % 2 ^ 32 = u.low - 1 := by omega
    rw [hm]
    have hv : Valid hb ⟨u.low - 1, u.high⟩ := ⟨by simp only; omega, h2⟩
    refine ⟨hv, ?_⟩
    have := C23_range hv
    rw [ull_eq' hv] at *
    rw [ull_eq' h] at *
    dsimp only at *
    rw [show u.high * 4294967296 + u.low + 2 ^ (32 + hb) - 1 = (u.high * 4294967296 + (u.low - 1)) + 2 ^ (32 + hb) by omega, Nat.add_mod_right,
      Nat.mod_eq_of_lt (by omega)]

/-- **C23** `+=` is addition modulo `2^(32 + hb)` (`hb ≥ 1`: the carry fits the high part). -/
theorem C23_add (h1 : 1 ≤ hb) (h : Valid hb u) (h' : Valid hb b) :
    Valid hb (add hb u b) ∧ ull (add hb u b) = (ull u + ull b) % 2 ^ (32 + hb) := by
  have hu := h.low; have hb' := h'.low
  have hp := Nat.two_pow_pos hb
  have h2p : 2 ≤ 2 ^ hb := by simpa using Nat.pow_le_pow_right (n := 2) (by decide) h1
  have hpp : 2 ^ (32 + hb) = 4294967296 * 2 ^ hb := by rw [Nat.pow_add]
  have hv : Valid hb (add hb u b) :=
    ⟨by simp only [add, and_lowMax]; exact Nat.mod_lt _ (by decide), by simp only [add]; exact Nat.mod_lt _ hp⟩
  refine ⟨hv, ?_⟩
  rw [ull_eq' hv, ull_eq' h, ull_eq' h', hpp]
  simp only [add, and_lowMax, and_highMax, Nat.shiftRight_eq_div_pow]
  rw [show (2 ^ 32 : Nat) = 4294967296 from rfl]
  have hc : (u.low + b.low) / 4294967296 < 2 ^ hb := by omega
  rw [Nat.mod_eq_of_lt hc]
  have e : u.high * 4294967296 + u.low + (b.high * 4294967296 + b.low) =
      (u.low + b.low) % 4294967296 + 4294967296 * (u.high + b.high + (u.low + b.low) / 4294967296) := by omega
  have hl : (u.low + b.low) % 4294967296 < 4294967296 := Nat.mod_lt _ (by decide)
  rw [e]
  generalize (u.low + b.low) % 4294967296 = r at *
  generalize u.high + b.high + (u.low + b.low) / 4294967296 = q at *
  generalize 2 ^ hb = m at *
  have hq := Nat.div_add_mod q m
  have hqm := Nat.mod_lt q hp
  clear e hv hpp hc h2p
  have hlt : 4294967296 * (q % m) + r < 4294967296 * m := by omega
  have hs : r + 4294967296 * q = (4294967296 * (q % m) + r) + (4294967296 * m) * (q / m) := by
    rw [Nat.mul_assoc]; omega
  rw [hs, Nat.add_mul_mod_self_left, Nat.mod_eq_of_lt hlt, Nat.mul_comm]

/-- **C23** All comparisons agree with the comparison of the values. -/
theorem C23_compare (h : Valid hb u) (h' : Valid hb b) :
    eq u b = decide (ull u = ull b) ∧ ne u b = decide (ull u ≠ ull b) ∧ lt u b = decide (ull u < ull b) ∧ le u b = decide (ull u ≤ ull b) ∧
    gt u b = decide (ull b < ull u) ∧ ge u b = decide (ull b ≤ ull u) := by
  have h1 := h.low; have h2 := h'.low
  rw [ull_eq h, ull_eq h']
  unfold eq ne lt le gt ge
  refine ⟨?_, ?_, ?_, ?_, ?_, ?_⟩ <;> rw [Bool.eq_iff_iff] <;> simp <;> omega

/-- **C23** `min()` and `max()` are the least and the greatest value. -/
theorem C23_min_max (h : Valid hb u) :
    Valid hb min ∧ Valid hb (max hb) ∧ ull min ≤ ull u ∧ ull u ≤ ull (max hb) ∧ ull (max hb) + 1 = 2 ^ (32 + hb) := by
  have hp := Nat.two_pow_pos hb
  have hpp : 2 ^ (32 + hb) = 4294967296 * 2 ^ hb := by rw [Nat.pow_add]
  have h1 : Valid hb min := ⟨by decide, hp⟩
  have h2 : Valid hb (max hb) := mkValid (by decide) (by simp only [highMax]; omega)
  have hm : ull (max hb) + 1 = 2 ^ (32 + hb) := by
    rw [ull_eq' h2, hpp]; simp only [max, highMax, lowMax_eq]; omega
  have := C23_range h
  refine ⟨h1, h2, ?_, by omega, hm⟩
  rw [ull_eq h1]; simp [min]

/-- Non-vacuity: carry into the high part, wrap-around, and comparison across the 32-bit boundary, for 40 bits. -/
example : Valid 8 ⟨4294967295, 3⟩ ∧ inc 8 ⟨4294967295, 3⟩ = ⟨0, 4⟩ ∧ add 8 ⟨4294967295, 255⟩ ⟨2, 1⟩ = ⟨1, 1⟩ ∧
    ull ⟨4294967295, 255⟩ = 2 ^ 40 - 1 ∧ dec 8 ⟨0, 0⟩ = ⟨4294967295, 255⟩ ∧ lt ⟨4294967295, 0⟩ ⟨0, 1⟩ = true ∧
    ofU64 8 (2 ^ 40) = none ∧ ofU64 8 (2 ^ 40 - 1) = some ⟨4294967295, 255⟩ :=
  ⟨⟨by decide, by decide⟩, by decide, by decide, by decide, by decide, by decide, by decide, by decide⟩

end Stxxl.UIntPair
