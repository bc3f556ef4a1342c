/-!
# The bucket number in IEEE double arithmetic

`_bkt_num` (hash_map.h:938-945) computes
`(uint64)((double)n * ((double)hash / (double)max))` with `max = 2^64 - 1`, which as a double is
`2^64`. Division by `2^64` is exact, so with `rnd` = rounding of a natural number to 53 significant
bits (round to nearest, ties to even) the result is `rnd (rnd n * rnd hash) / 2^64` (the exponent range
is never left). `rnd n = n` for `n < 2^53`.
-/
namespace Verif.HashMap

/-- Round `q + r / m` (`r < m`) to an integer, ties to even. -/
def rne (q r m : Nat) : Nat :=
  if 2 * r < m then q else if m < 2 * r then q + 1 else if q % 2 = 0 then q else q + 1

/-- Round a natural number to 53 significant bits (IEEE 754 round-to-nearest-even), as the
conversions and the multiplication in hash_map.h:942-944 do. -/
def rnd (x : Nat) : Nat :=
  rne (x / 2 ^ (x.log2 - 52)) (x % 2 ^ (x.log2 - 52)) (2 ^ (x.log2 - 52)) * 2 ^ (x.log2 - 52)

/-- `_bkt_num` for `n` buckets and hash value `h` (hash_map.h:938-945). -/
def bktD (n h : Nat) : Nat := rnd (rnd n * rnd h) / 2 ^ 64

theorem rne_le (q r m : Nat) : q ≤ rne q r m ∧ rne q r m ≤ q + 1 := by
  unfold rne; (repeat' split) <;> omega

theorem rne_zero (q m : Nat) (h : 0 < m) : rne q 0 m = q := by unfold rne; rw [if_pos (by omega)]

theorem rne_mono (q r r' m : Nat) (h : r ≤ r') : rne q r m ≤ rne q r' m := by
  unfold rne; (repeat' split) <;> omega

theorem rnd_small {x : Nat} (h : x < 2 ^ 53) : rnd x = x := by
  unfold rnd
  have hl : x.log2 - 52 = 0 := by
    rcases Nat.eq_zero_or_pos x with h0 | h0
    · subst h0; rfl
    · have := (Nat.log2_lt (by omega) (k := 53)).2 h
      omega
  rw [hl, Nat.pow_zero, Nat.div_one, Nat.mod_one, rne_zero _ _ (by omega), Nat.mul_one]

/-- Bounds: `rnd x` stays in the binade of `x`, or is the next power of two. -/
theorem rnd_bounds {x : Nat} (h0 : 0 < x) : 2 ^ x.log2 ≤ rnd x ∧ rnd x ≤ 2 ^ (x.log2 + 1) := by
  have hx : x < 2 ^ (x.log2 + 1) := Nat.lt_log2_self
  have hx' : 2 ^ x.log2 ≤ x := Nat.log2_self_le (by omega)
  rcases Nat.lt_or_ge x (2 ^ 53) with hs | hs
  · rw [rnd_small hs]; omega
  · have hl : 53 ≤ x.log2 := (Nat.le_log2 (by omega)).2 hs
    unfold rnd
    generalize hL : x.log2 = L at *
    have e1 : 2 ^ L = 2 ^ 52 * 2 ^ (L - 52) := by rw [← Nat.pow_add]; congr 1; omega
    have e2 : 2 ^ (L + 1) = 2 ^ 53 * 2 ^ (L - 52) := by rw [← Nat.pow_add]; congr 1; omega
    rw [e1] at hx' ⊢
    rw [e2] at hx ⊢
    generalize hm : 2 ^ (L - 52) = m at *
    have hmp : 0 < m := by rw [← hm]; exact Nat.pow_pos (by omega)
    obtain ⟨r1, r2⟩ := rne_le (x / m) (x % m) m
    have q1 : 2 ^ 52 ≤ x / m := (Nat.le_div_iff_mul_le hmp).2 hx'
    have q2 : x / m < 2 ^ 53 := (Nat.div_lt_iff_lt_mul hmp).2 hx
    exact ⟨Nat.mul_le_mul_right _ (by omega), Nat.mul_le_mul_right _ (by omega)⟩

theorem rnd_mono {x y : Nat} (h : x ≤ y) : rnd x ≤ rnd y := by
  rcases Nat.eq_zero_or_pos x with h0 | h0
  · subst h0
    have : rnd 0 = 0 := by rw [rnd_small (by omega)]
    omega
  · have hle : x.log2 ≤ y.log2 := by
      rw [Nat.le_log2 (by omega)]
      exact Nat.le_trans (Nat.log2_self_le (by omega)) h
    rcases Nat.lt_or_ge x.log2 y.log2 with hlt | hge
    · have h1 := (rnd_bounds h0).2
      have h2 := (rnd_bounds (x := y) (by omega)).1
      have h3 : 2 ^ (x.log2 + 1) ≤ 2 ^ y.log2 := Nat.pow_le_pow_right (by omega) hlt
      omega
    · have he : x.log2 = y.log2 := by omega
      unfold rnd
      rw [he]
      apply Nat.mul_le_mul_right
      generalize hm : 2 ^ (y.log2 - 52) = m
      have hmp : 0 < m := by rw [← hm]; exact Nat.pow_pos (by omega)
      have hd : x / m ≤ y / m := Nat.div_le_div_right h
      rcases Nat.lt_or_ge (x / m) (y / m) with hq | hq
      · have := (rne_le (x / m) (x % m) m).2
        have := (rne_le (y / m) (y % m) m).1
        omega
      · have hq' : x / m = y / m := by omega
        rw [hq']
        apply rne_mono
        have e1 := Nat.div_add_mod x m
        have e2 := Nat.div_add_mod y m
        rw [hq'] at e1
        omega

/-- Rounding changes a number by at most half a unit in the last place. -/
theorem rnd_err (x : Nat) : 2 * rnd x ≤ 2 * x + 2 ^ (x.log2 - 52) := by
  unfold rnd
  generalize hm : 2 ^ (x.log2 - 52) = m
  have hmp : 0 < m := by rw [← hm]; exact Nat.pow_pos (by omega)
  have e := Nat.div_add_mod x m
  have e' : x / m * m + x % m = x := by rw [Nat.mul_comm]; exact e
  have e3 : (x / m + 1) * m = x / m * m + m := by rw [Nat.add_mul, Nat.one_mul]
  unfold rne
  repeat' split
  all_goals omega

/-- Multiplying by a power of two commutes with rounding. -/
theorem rnd_two_pow {x : Nat} (k : Nat) (h0 : 0 < x) (h : 52 ≤ x.log2) :
    rnd (2 ^ k * x) = 2 ^ k * rnd x := by
  have hl : (2 ^ k * x).log2 = k + x.log2 := by
    rw [Nat.log2_eq_iff (Nat.ne_of_gt (Nat.mul_pos (Nat.pow_pos (by omega)) h0))]
    have h1 : 2 ^ x.log2 ≤ x := Nat.log2_self_le (by omega)
    have h2 : x < 2 ^ (x.log2 + 1) := Nat.lt_log2_self
    rw [Nat.pow_add, show k + x.log2 + 1 = k + (x.log2 + 1) by omega, Nat.pow_add 2 k (x.log2 + 1)]
    exact ⟨Nat.mul_le_mul_left _ h1, Nat.mul_lt_mul_of_pos_left h2 (Nat.pow_pos (by omega))⟩
  unfold rnd
  rw [hl, show k + x.log2 - 52 = k + (x.log2 - 52) by omega, Nat.pow_add]
  generalize 2 ^ (x.log2 - 52) = m
  have hk : 0 < 2 ^ k := Nat.pow_pos (by omega)
  rw [Nat.mul_div_mul_left _ _ hk, Nat.mul_mod_mul_left]
  have : rne (x / m) (2 ^ k * (x % m)) (2 ^ k * m) = rne (x / m) (x % m) m := by
    unfold rne
    have c1 : 2 * (2 ^ k * (x % m)) = 2 ^ k * (2 * (x % m)) := by
      rw [← Nat.mul_assoc, Nat.mul_comm 2, Nat.mul_assoc]
    rw [c1]
    simp only [Nat.mul_lt_mul_left hk]
  rw [this, Nat.mul_left_comm]

/-- A hash value that is not among the last 1024 rounds to at most `2^64 - 2048`. -/
theorem rnd_hash {h : Nat} (hh : h < 2 ^ 64 - 1024) : rnd h ≤ 2 ^ 64 - 2048 := by
  have h1 : rnd h ≤ rnd (2 ^ 64 - 1025) := rnd_mono (by omega)
  have h2 : rnd (2 ^ 64 - 1025) = 2 ^ 64 - 2048 := by decide +kernel
  omega

/-- The bucket number grows with the hash value. -/
theorem bktD_mono (n : Nat) {h h' : Nat} (hh : h ≤ h') : bktD n h ≤ bktD n h' :=
  Nat.div_le_div_right (rnd_mono (Nat.mul_le_mul_left _ (rnd_mono hh)))

/-- The bucket number is smaller than the number of buckets, unless the hash value is one of the
last 1024. -/
theorem bktD_lt {n h : Nat} (hn : 0 < n) (hn' : n < 2 ^ 53) (hh : h < 2 ^ 64 - 1024) : bktD n h < n := by
  unfold bktD
  rw [rnd_small hn', Nat.div_lt_iff_lt_mul (Nat.pow_pos (by omega))]
  have hd := rnd_hash hh
  have hle : n * rnd h ≤ n * (2 ^ 64 - 2048) := Nat.mul_le_mul_left _ hd
  refine Nat.lt_of_le_of_lt (rnd_mono hle) ?_
  have hL1 : 2 ^ n.log2 ≤ n := Nat.log2_self_le (by omega)
  have hL2 : n < 2 ^ (n.log2 + 1) := Nat.lt_log2_self
  rcases Nat.lt_or_ge (2 ^ n.log2) n with hlt | hge
  · have herr := rnd_err (n * (2 ^ 64 - 2048))
    have hlog : (n * (2 ^ 64 - 2048)).log2 ≤ n.log2 + 64 := by
      have : (n * (2 ^ 64 - 2048)).log2 < n.log2 + 65 := by
        rw [Nat.log2_lt (by omega)]
        rw [show n.log2 + 65 = n.log2 + 1 + 64 by omega, Nat.pow_add]
        omega
      omega
    have hp : 2 ^ ((n * (2 ^ 64 - 2048)).log2 - 52) ≤ 2 ^ (n.log2 + 12) :=
      Nat.pow_le_pow_right (by omega) (by omega)
    rw [Nat.pow_add] at hp
    omega
  · have he : n = 2 ^ n.log2 := by omega
    generalize n.log2 = L at he
    subst he
    rw [rnd_two_pow L (by omega) (by decide +kernel)]
    have : rnd (2 ^ 64 - 2048) = 2 ^ 64 - 2048 := by decide +kernel
    rw [this]
    exact Nat.mul_lt_mul_of_pos_left (by omega) (Nat.pow_pos (by omega))

theorem rnd_two_pow_self (k : Nat) : rnd (2 ^ k) = 2 ^ k := by
  unfold rnd
  rw [Nat.log2_two_pow]
  have : 2 ^ k % 2 ^ (k - 52) = 0 := Nat.mod_eq_zero_of_dvd (Nat.pow_dvd_pow 2 (by omega))
  rw [this, rne_zero _ _ (Nat.pow_pos (by omega))]
  exact Nat.div_mul_cancel (Nat.pow_dvd_pow 2 (by omega))

/-- A number below `2^53`, times a power of two, is representable. -/
theorem rnd_shift {n : Nat} (hn : 0 < n) (hn' : n < 2 ^ 53) : rnd (n * 2 ^ 64) = n * 2 ^ 64 := by
  unfold rnd
  have hl : (n * 2 ^ 64).log2 ≤ 52 + 64 := by
    have : (n * 2 ^ 64).log2 < 53 + 64 := by
      rw [Nat.log2_lt (by omega), Nat.pow_add]
      exact Nat.mul_lt_mul_of_pos_right hn' (by omega)
    omega
  generalize (n * 2 ^ 64).log2 = L at hl
  have hdv : 2 ^ (L - 52) ∣ n * 2 ^ 64 :=
    Nat.dvd_trans (Nat.pow_dvd_pow 2 (by omega)) (Nat.dvd_mul_left _ _)
  rw [Nat.mod_eq_zero_of_dvd hdv, rne_zero _ _ (Nat.pow_pos (by omega))]
  exact Nat.div_mul_cancel hdv

/-- For the last 1024 hash values the "bucket number" is the number of buckets: one past the end. -/
theorem bktD_bad {n h : Nat} (hn : 0 < n) (hn' : n < 2 ^ 53) (h1 : 2 ^ 64 - 1024 ≤ h) (h2 : h < 2 ^ 64) :
    bktD n h = n := by
  have e : rnd h = 2 ^ 64 := by
    have l1 : rnd (2 ^ 64 - 1024) ≤ rnd h := rnd_mono h1
    have l2 : rnd h ≤ rnd (2 ^ 64) := rnd_mono (by omega)
    have l3 : rnd (2 ^ 64 - 1024) = 2 ^ 64 := by decide +kernel
    rw [rnd_two_pow_self] at l2
    omega
  unfold bktD
  rw [e, rnd_small hn', rnd_shift hn hn', Nat.mul_div_cancel _ (by omega)]

end Verif.HashMap
