import Verif.MultiSeq.Model
/-! `round_up_to_power_of_two` returns the least power of two that is not smaller than its argument. -/
namespace Stxxl.MultiSeq

/-- `y` is `x` smeared over `w` positions: bit `i` of `y` is set iff one of the bits `i .. i+w-1` of `x` is. -/
private def Smear (x y w : Nat) : Prop := ∀ i, y.testBit i = true ↔ ∃ d, d < w ∧ x.testBit (i + d) = true

private theorem smear_self (x : Nat) : Smear x x 1 := by
  intro i
  constructor
  · intro h; exact ⟨0, by omega, h⟩
  · rintro ⟨d, hd, h⟩
    have : d = 0 := by omega
    subst this; exact h

private theorem smear_step {x y w : Nat} (h : Smear x y w) : Smear x (y ||| y >>> w) (w + w) := by
  intro i
  rw [Nat.testBit_or, Nat.testBit_shiftRight, Bool.or_eq_true, h, h]
  constructor
  · rintro (⟨d, hd, hb⟩ | ⟨d, hd, hb⟩)
    · exact ⟨d, by omega, hb⟩
    · exact ⟨w + d, by omega, by rw [show i + (w + d) = w + i + d by omega]; exact hb⟩
  · rintro ⟨d, hd, hb⟩
    by_cases hw : d < w
    · exact .inl ⟨d, hw, hb⟩
    · exact .inr ⟨d - w, by omega, by rw [show w + i + (d - w) = i + d by omega]; exact hb⟩

/-- A number whose set bits are exactly those below `k`. -/
private theorem eq_pow_sub_one {y k : Nat} (h : ∀ i, y.testBit i = true ↔ i < k) : y = 2 ^ k - 1 := by
  apply Nat.eq_of_testBit_eq
  intro i
  rw [Nat.testBit_two_pow_sub_one]
  have := h i
  cases hy : y.testBit i <;> simp_all

/-- Position just above the highest set bit. -/
private theorem exists_top {x : Nat} (hx : 0 < x) : ∃ k, 2 ^ k ≤ x ∧ x < 2 ^ (k + 1) :=
  ⟨x.log2, Nat.log2_self_le (by omega), Nat.lt_log2_self⟩

theorem roundUp_spec {n : Nat} (h1 : 1 ≤ n) (h2 : n ≤ 2 ^ 64) :
    ∃ k, roundUp n = 2 ^ k ∧ n ≤ 2 ^ k ∧ (k = 0 ∨ 2 ^ (k - 1) < n) := by
  have hs := smear_step (smear_step (smear_step (smear_step (smear_step (smear_step (smear_self (n - 1)))))))
  simp only [Nat.reduceAdd] at hs
  by_cases h0 : n = 1
  · subst h0; exact ⟨0, by decide, by decide, .inl rfl⟩
  obtain ⟨t, ht1, ht2⟩ := exists_top (x := n - 1) (by omega)
  have ht64 : t < 64 := by
    rcases Nat.lt_or_ge t 64 with h | h
    · exact h
    · have := Nat.pow_le_pow_right (n := 2) (by omega) h
      omega
  refine ⟨t + 1, ?_, by omega, .inr ?_⟩
  · have : ∀ y, Smear (n - 1) y 64 → y = 2 ^ (t + 1) - 1 := by
      intro y hy
      apply eq_pow_sub_one
      intro i
      rw [hy i]
      constructor
      · rintro ⟨d, _, hb⟩
        have hge := Nat.ge_two_pow_of_testBit hb
        rcases Nat.lt_or_ge i (t + 1) with h | h
        · exact h
        · have := Nat.pow_le_pow_right (n := 2) (by omega) (show t + 1 ≤ i + d by omega)
          omega
      · intro hi
        refine ⟨t - i, by omega, ?_⟩
        rw [show i + (t - i) = t by omega]
        rw [Nat.testBit_eq_decide_div_mod_eq]
        have : (n - 1) / 2 ^ t = 1 := by
          rw [Nat.div_eq_iff (Nat.two_pow_pos t)]
          have : 2 ^ (t + 1) = 2 * 2 ^ t := by rw [Nat.pow_succ]; omega
          omega
        simp [this]
    unfold roundUp
    have h := this _ hs
    dsimp only
    rw [h]
    have := Nat.two_pow_pos (t + 1)
    omega
  · have : t + 1 - 1 = t := by omega
    rw [this]; omega

end Stxxl.MultiSeq
