import Verif.Utils.Model

/-!
# C92: helpers that check, hash, swap and round
-/
namespace Stxxl.Utils

variable {α : Type}

/-! ## Specification -/

/-- `comp` is a strict weak ordering. -/
structure StrictWeak (comp : α → α → Bool) : Prop where
  irrefl : ∀ a : α, comp a a = false
  trans : ∀ a b c : α, comp a b = true → comp b c = true → comp a c = true
  /-- being neither before nor after each other is transitive -/
  incomp : ∀ a b c : α, comp a b = false → comp b a = false → comp b c = false → comp c b = false → comp a c = false ∧ comp c a = false

/-- No element is greater than its parent in the binary tree. -/
def HeapOrdered (comp : α → α → Bool) (l : List α) : Prop :=
  ∀ (i : Nat) (p c : α), 0 < i → l[(i - 1) / 2]? = some p → l[i]? = some c → comp p c = false

/-- No element comes before an earlier one. -/
def Sorted (comp : α → α → Bool) (l : List α) : Prop := l.Pairwise fun a b => comp b a = false

/-! ## Proofs -/

theorem StrictWeak.le_trans {comp : α → α → Bool} (h : StrictWeak comp) {a b c : α} (h1 : comp b a = false) (h2 : comp c b = false) :
    comp c a = false := by
  rcases hca : comp c a with _ | _
  · rfl
  · exfalso
    rcases hab : comp a b with _ | _
    · rcases hbc : comp b c with _ | _
      · have := (h.incomp a b c hab h1 hbc h2).2
        rw [this] at hca; simp at hca
      · have := h.trans b c a hbc hca
        rw [this] at h1; simp at h1
    · have := h.trans c a b hca hab
      rw [this] at h2; simp at h2

theorem isHeapLoop_spec (comp : α → α → Bool) (l : List α) : ∀ (k child : Nat), 0 < child → child + k = l.length →
    ∃ b : Bool, isHeapLoop comp l k child ((child - 1) / 2) child = some b ∧
      (b = true ↔ ∀ (i : Nat) (p c : α), child ≤ i → l[(i - 1) / 2]? = some p → l[i]? = some c → comp p c = false)
  | 0, child, h0, hk => by
    refine ⟨true, rfl, ?_⟩
    simp only [true_iff]
    intro i p c hi _ hc
    have := (List.getElem?_eq_some_iff.1 hc).1
    omega
  | k + 1, child, h0, hk => by
    have hp : (child - 1) / 2 < l.length := by omega
    have hc : child < l.length := by omega
    simp only [isHeapLoop, List.getElem?_eq_getElem hp, List.getElem?_eq_getElem hc]
    by_cases hcmp : comp l[(child - 1) / 2] l[child] = true
    · rw [if_pos hcmp]
      refine ⟨false, rfl, ?_⟩
      simp only [Bool.false_eq_true, false_iff]
      intro h
      have := h child _ _ (Nat.le_refl _) (List.getElem?_eq_getElem hp) (List.getElem?_eq_getElem hc)
      rw [this] at hcmp
      simp at hcmp
    · rw [if_neg hcmp]
      have e : (if child % 2 = 0 then (child - 1) / 2 + 1 else (child - 1) / 2) = (child + 1 - 1) / 2 := by split <;> omega
      rw [e]
      obtain ⟨b, h1, h2⟩ := isHeapLoop_spec comp l k (child + 1) (by omega) (by omega)
      refine ⟨b, h1, h2.trans ⟨fun h i p c hi hpi hci => ?_, fun h i p c hi => h i p c (by omega)⟩⟩
      by_cases hic : i = child
      · subst hic
        rw [List.getElem?_eq_getElem hp, Option.some.injEq] at hpi
        rw [List.getElem?_eq_getElem hc, Option.some.injEq] at hci
        subst hpi hci
        simpa using hcmp
      · exact h i p c (by omega) hpi hci

theorem isSortedLoop_spec (comp : α → α → Bool) (l : List α) : ∀ (k first : Nat), first + 1 + k = l.length →
    ∃ b : Bool, isSortedLoop comp l k first (first + 1) = some b ∧
      (b = true ↔ ∀ (i : Nat) (x y : α), first ≤ i → l[i]? = some x → l[i + 1]? = some y → comp y x = false)
  | 0, first, hk => by
    refine ⟨true, rfl, ?_⟩
    simp only [true_iff]
    intro i x y hi _ hy
    have := (List.getElem?_eq_some_iff.1 hy).1
    omega
  | k + 1, first, hk => by
    have hp : first < l.length := by omega
    have hc : first + 1 < l.length := by omega
    simp only [isSortedLoop, List.getElem?_eq_getElem hp, List.getElem?_eq_getElem hc]
    by_cases hcmp : comp l[first + 1] l[first] = true
    · rw [if_pos hcmp]
      refine ⟨false, rfl, ?_⟩
      simp only [Bool.false_eq_true, false_iff]
      intro h
      have := h first _ _ (Nat.le_refl _) (List.getElem?_eq_getElem hp) (List.getElem?_eq_getElem hc)
      rw [this] at hcmp
      simp at hcmp
    · rw [if_neg hcmp]
      obtain ⟨b, h1, h2⟩ := isSortedLoop_spec comp l k (first + 1) (by omega)
      refine ⟨b, h1, h2.trans ⟨fun h i x y hi hx hy => ?_, fun h i x y hi => h i x y (by omega)⟩⟩
      by_cases hic : i = first
      · subst hic
        rw [List.getElem?_eq_getElem hp, Option.some.injEq] at hx
        rw [List.getElem?_eq_getElem hc, Option.some.injEq] at hy
        subst hx hy
        simpa using hcmp
      · exact h i x y (by omega) hx hy

/-- An odd factor has an inverse, so multiplication by it is injective. -/
theorem mul_inj {m c : BitVec 64} (h : m * c = 1#64) {x y : BitVec 64} (e : x * m = y * m) : x = y := by
  have := congrArg (· * c) e
  simpa [BitVec.mul_assoc, h] using this

theorem xorshift_inj (s : Nat) (hs : 0 < s) {x y : BitVec 64} (e : x ^^^ (x >>> s) = y ^^^ (y >>> s)) : x = y := by
  -- equal bits from the top down
  have key : ∀ (n i : Nat), 64 ≤ i + n → x.getLsbD i = y.getLsbD i := by
    intro n
    induction n with
    | zero =>
      intro i hi
      rw [BitVec.getLsbD_of_ge x i (by omega), BitVec.getLsbD_of_ge y i (by omega)]
    | succ n ih =>
      intro i hi
      have h1 := congrArg (fun v => v.getLsbD i) e
      simp only [BitVec.getLsbD_xor, BitVec.getLsbD_ushiftRight] at h1
      rw [ih (s + i) (by omega)] at h1
      simpa using h1
  exact BitVec.eq_of_getLsbD_eq fun i _ => key 64 i (by omega)

theorem shl_eq_mul (x : BitVec 64) (s : Nat) : x <<< s = x * BitVec.ofNat 64 (2 ^ s) := by
  rw [BitVec.shiftLeft_eq_mul_twoPow]
  congr 1
  apply BitVec.eq_of_toNat_eq
  simp [BitVec.toNat_twoPow]

theorem add_not_shl (x : BitVec 64) (s : Nat) : x + ~~~(x <<< s) = x * (1#64 - BitVec.ofNat 64 (2 ^ s)) - 1#64 := by
  rw [BitVec.not_eq_neg_add, shl_eq_mul, BitVec.mul_sub, BitVec.mul_one]
  generalize x * BitVec.ofNat 64 (2 ^ s) = z
  rw [BitVec.sub_eq_add_neg, BitVec.sub_eq_add_neg, BitVec.sub_eq_add_neg]
  ac_rfl

theorem mask_eq {power : Nat} (hp : power < 64) : (1 <<< power) % W = 2 ^ power := by
  rw [Nat.one_shiftLeft]
  exact Nat.mod_eq_of_lt (Nat.pow_lt_pow_right (by omega) hp)

theorem and_not_mask {n power : Nat} (hn : n < W) (hp : power < 64) : n &&& (W - 1 - (2 ^ power - 1)) = n / 2 ^ power * 2 ^ power := by
  have h1 : W - 1 - (2 ^ power - 1) = 2 ^ power * (2 ^ (64 - power) - 1) := by
    have h2 : 2 ^ power * 2 ^ (64 - power) = W := by
      rw [← Nat.pow_add, W]
      congr 1; omega
    have h3 : 0 < 2 ^ power := Nat.two_pow_pos _
    rw [Nat.mul_sub, h2, Nat.mul_one]
    omega
  rw [h1]
  apply Nat.eq_of_testBit_eq
  intro i
  rw [Nat.testBit_and, Nat.testBit_two_pow_mul, Nat.mul_comm (n / 2 ^ power), Nat.testBit_two_pow_mul, Nat.testBit_two_pow_sub_one,
    Nat.testBit_div_two_pow]
  by_cases hi : power ≤ i
  · have e : i - power + power = i := by omega
    rw [e]
    by_cases h64 : i < 64
    · have : i - power < 64 - power := by omega
      simp [hi, this]
    · have : n.testBit i = false := by
        apply Nat.testBit_lt_two_pow
        exact Nat.lt_of_lt_of_le hn (Nat.pow_le_pow_right (by omega) (by omega))
      simp [this]
  · simp [hi]

/-! ## Theorems -/

/-- `is_heap` reads only inside the range and says whether no element is greater than its parent; for a strict weak ordering the first element of
a heap is then not less than any other. -/
theorem C92_is_heap (comp : α → α → Bool) (l : List α) :
    (∃ b : Bool, isHeap comp l = some b ∧ (b = true ↔ HeapOrdered comp l)) ∧
    (StrictWeak comp → isHeap comp l = some true → ∀ x y : α, l[0]? = some x → y ∈ l → comp x y = false) := by
  have h1 : ∃ b : Bool, isHeap comp l = some b ∧ (b = true ↔ HeapOrdered comp l) := by
    simp only [isHeap]
    split
    · rename_i h0
      refine ⟨true, rfl, ?_⟩
      simp only [true_iff]
      intro i p c _ _ hc
      have := (List.getElem?_eq_some_iff.1 hc).1
      omega
    · obtain ⟨b, h1, h2⟩ := isHeapLoop_spec comp l (l.length - 1) 1 (by omega) (by omega)
      exact ⟨b, h1, h2⟩
  refine ⟨h1, fun hsw ht x y hx hy => ?_⟩
  obtain ⟨b, hb, hiff⟩ := h1
  rw [ht, Option.some.injEq] at hb
  have ho := hiff.1 hb.symm
  obtain ⟨i, hi, rfl⟩ := List.mem_iff_getElem.1 hy
  clear hy
  induction i using Nat.strongRecOn with
  | ind i ih =>
    by_cases h0 : i = 0
    · subst h0
      rw [List.getElem?_eq_getElem hi, Option.some.injEq] at hx
      subst hx
      exact hsw.irrefl _
    · have hp : (i - 1) / 2 < l.length := by omega
      have h2 := ih ((i - 1) / 2) (by omega) hp
      have h3 := ho i _ _ (by omega) (List.getElem?_eq_getElem hp) (List.getElem?_eq_getElem hi)
      exact hsw.le_trans h3 h2

/-- `is_sorted` reads only inside the range and, for a strict weak ordering, says whether the range is sorted. -/
theorem C92_is_sorted (comp : α → α → Bool) (l : List α) :
    ∃ b : Bool, isSorted comp l = some b ∧ (StrictWeak comp → (b = true ↔ Sorted comp l)) := by
  simp only [isSorted]
  split
  · rename_i h0
    have : l = [] := List.length_eq_zero_iff.1 h0
    subst this
    exact ⟨true, rfl, fun _ => by simp [Sorted]⟩
  · obtain ⟨b, h1, h2⟩ := isSortedLoop_spec comp l (l.length - 1) 0 (by omega)
    refine ⟨b, h1, fun hsw => h2.trans ⟨fun h => ?_, fun h i x y _ hx hy => ?_⟩⟩
    · refine List.pairwise_iff_getElem.2 ?_
      intro i j hi hj hij
      have main : ∀ (d : Nat) (hd : i + d < l.length), comp l[i + d] l[i] = false := by
        intro d
        induction d with
        | zero => intro hd; exact hsw.irrefl _
        | succ d ih =>
          intro hd
          have h3 := h (i + d) _ _ (by omega) (List.getElem?_eq_getElem (by omega)) (List.getElem?_eq_getElem (i := i + d + 1) (by omega))
          exact hsw.le_trans (ih (by omega)) h3
      have e : i + (j - i) = j := by omega
      have := main (j - i) (by omega)
      simpa only [e] using this
    · obtain ⟨hi, rfl⟩ := List.getElem?_eq_some_iff.1 hx
      obtain ⟨hj, rfl⟩ := List.getElem?_eq_some_iff.1 hy
      exact List.pairwise_iff_getElem.1 h i (i + 1) hi hj (by omega)

/-- `longhash1` has no collisions: different 64-bit keys have different hashes. -/
theorem C92_longhash1_no_collisions (x y : BitVec 64) (h : longhash1 x = longhash1 y) : x = y := by
  simp only [longhash1] at h
  have add9 : ∀ z : BitVec 64, z + z <<< 3 = z * 9#64 := by
    intro z
    rw [shl_eq_mul]
    have : (9#64 : BitVec 64) = 1#64 + BitVec.ofNat 64 (2 ^ 3) := by decide
    rw [this, BitVec.mul_add, BitVec.mul_one]
  have sub_inj : ∀ a b : BitVec 64, a - 1#64 = b - 1#64 → a = b := by
    intro a b hab
    have := congrArg (· + 1#64) hab
    simpa [BitVec.sub_add_cancel] using this
  have step : ∀ (s : Nat) (c : BitVec 64), (1#64 - BitVec.ofNat 64 (2 ^ s)) * c = 1#64 → ∀ a b : BitVec 64,
      a + ~~~(a <<< s) = b + ~~~(b <<< s) → a = b := by
    intro s c hc a b hab
    rw [add_not_shl, add_not_shl] at hab
    exact mul_inj hc (sub_inj _ _ hab)
  refine step 32 0x100000001#64 (by decide +kernel) x y ?_
  refine xorshift_inj 22 (by omega) ?_
  refine step 13 0x10008004002001#64 (by decide +kernel) _ _ ?_
  refine xorshift_inj 8 (by omega) ?_
  refine mul_inj (m := 9#64) (c := 0x8e38e38e38e38e39#64) (by decide +kernel) ?_
  rw [← add9, ← add9]
  refine xorshift_inj 15 (by omega) ?_
  refine step 27 0x40000008000001#64 (by decide +kernel) _ _ ?_
  exact xorshift_inj 31 (by omega) h

/-- `swap_1D_arrays` exchanges the first `size` elements and leaves the rest; it reads outside only if an array is shorter. -/
theorem C92_swap_arrays (size : Nat) (a b : List α) (ha : size ≤ a.length) (hb : size ≤ b.length) :
    swapArrays size 0 a b = some (b.take size ++ a.drop size, a.take size ++ b.drop size) := by
  have key : ∀ (k i : Nat) (a b : List α), i + k ≤ a.length → i + k ≤ b.length →
      ∃ a' b' : List α, swapArrays k i a b = some (a', b') ∧
        (∀ j : Nat, a'[j]? = if i ≤ j ∧ j < i + k then b[j]? else a[j]?) ∧ (∀ j : Nat, b'[j]? = if i ≤ j ∧ j < i + k then a[j]? else b[j]?) := by
    intro k
    induction k with
    | zero =>
      intro i a b _ _
      refine ⟨a, b, rfl, fun j => ?_, fun j => ?_⟩ <;> rw [if_neg (by omega)]
    | succ k ih =>
      intro i a b ha hb
      have hia : i < a.length := by omega
      have hib : i < b.length := by omega
      simp only [swapArrays, List.getElem?_eq_getElem hia, List.getElem?_eq_getElem hib]
      obtain ⟨a', b', h1, h2, h3⟩ := ih (i + 1) (a.set i b[i]) (b.set i a[i]) (by simp; omega) (by simp; omega)
      refine ⟨a', b', h1, fun j => ?_, fun j => ?_⟩
      · rw [h2]
        by_cases hj : j = i
        · subst hj
          rw [if_neg (by omega), if_pos (by omega), List.getElem?_set_self hia, List.getElem?_eq_getElem hib]
        · rw [List.getElem?_set_ne (Ne.symm hj), List.getElem?_set_ne (Ne.symm hj)]
          by_cases hr : i + 1 ≤ j ∧ j < i + 1 + k
          · rw [if_pos hr, if_pos (by omega)]
          · rw [if_neg hr, if_neg (by omega)]
      · rw [h3]
        by_cases hj : j = i
        · subst hj
          rw [if_neg (by omega), if_pos (by omega), List.getElem?_set_self hib, List.getElem?_eq_getElem hia]
        · rw [List.getElem?_set_ne (Ne.symm hj), List.getElem?_set_ne (Ne.symm hj)]
          by_cases hr : i + 1 ≤ j ∧ j < i + 1 + k
          · rw [if_pos hr, if_pos (by omega)]
          · rw [if_neg hr, if_neg (by omega)]
  obtain ⟨a', b', h1, h2, h3⟩ := key size 0 a b (by omega) (by omega)
  rw [h1]
  congr 1
  refine Prod.ext ?_ ?_
  · apply List.ext_getElem?
    intro j
    rw [h2 j, List.getElem?_append, List.length_take, Nat.min_eq_left hb]
    by_cases hj : j < size
    · rw [if_pos (by omega), if_pos hj, List.getElem?_take_of_lt hj]
    · rw [if_neg (by omega), if_neg hj, List.getElem?_drop]
      congr 1; omega
  · apply List.ext_getElem?
    intro j
    rw [h3 j, List.getElem?_append, List.length_take, Nat.min_eq_left ha]
    by_cases hj : j < size
    · rw [if_pos (by omega), if_pos hj, List.getElem?_take_of_lt hj]
    · rw [if_neg (by omega), if_neg hj, List.getElem?_drop]
      congr 1; omega

/-- `round_up_to_power_of_two(n, power)` is the least multiple of `2^power` that is at least `n`, if that fits in 64 bits; else it is 0. -/
theorem C92_round_up (n power : Nat) (hn : n < W) (hp : power < 64) :
    ∃ r : Nat, roundUp n power = some r ∧
      ((∃ m : Nat, n ≤ 2 ^ power * m ∧ 2 ^ power * m < W) →
        n ≤ r ∧ 2 ^ power ∣ r ∧ ∀ m : Nat, n ≤ 2 ^ power * m → r ≤ 2 ^ power * m) ∧
      ((¬ ∃ m : Nat, n ≤ 2 ^ power * m ∧ 2 ^ power * m < W) → r = 0) := by
  have hpos : 0 < 2 ^ power := Nat.two_pow_pos _
  have hdm := Nat.div_add_mod n (2 ^ power)
  have hml := Nat.mod_lt n hpos
  have hW : ∃ q : Nat, W = 2 ^ power * q := ⟨2 ^ (64 - power), by rw [← Nat.pow_add, W]; congr 1; omega⟩
  obtain ⟨q, hq⟩ := hW
  simp only [roundUp, if_pos hp, mask_eq hp, and_not_mask hn hp, Nat.and_two_pow_sub_one_eq_mod]
  -- a multiple that is at least n, when n is none
  have least : n % 2 ^ power ≠ 0 → ∀ m : Nat, n ≤ 2 ^ power * m → 2 ^ power * (n / 2 ^ power + 1) ≤ 2 ^ power * m := by
    intro h0 m hm
    refine Nat.mul_le_mul_left _ ?_
    apply Classical.byContradiction
    intro hlt
    have : 2 ^ power * m ≤ 2 ^ power * (n / 2 ^ power) := Nat.mul_le_mul_left _ (by omega)
    omega
  have em : n / 2 ^ power * 2 ^ power + 2 ^ power = 2 ^ power * (n / 2 ^ power + 1) := by
    rw [Nat.mul_add, Nat.mul_one, Nat.mul_comm]
  split
  · rename_i h0
    rw [em]
    have hle : 2 ^ power * (n / 2 ^ power + 1) ≤ W := by
      have := least h0 q (by omega)
      omega
    refine ⟨_, rfl, ?_, ?_⟩
    · rintro ⟨m, hm1, hm2⟩
      have hlt : 2 ^ power * (n / 2 ^ power + 1) < W := Nat.lt_of_le_of_lt (least h0 m hm1) hm2
      rw [Nat.mod_eq_of_lt hlt]
      refine ⟨?_, ⟨_, rfl⟩, least h0⟩
      rw [Nat.mul_add]; omega
    · intro hno
      have : 2 ^ power * (n / 2 ^ power + 1) = W := by
        apply Classical.byContradiction
        intro hne
        refine hno ⟨n / 2 ^ power + 1, ?_, by omega⟩
        rw [Nat.mul_add]; omega
      rw [this, Nat.mod_self]
  · rename_i h0
    have h0' : n % 2 ^ power = 0 := by simpa using h0
    refine ⟨n, rfl, fun _ => ⟨Nat.le_refl _, Nat.dvd_of_mod_eq_zero h0', fun m hm => hm⟩, fun hno => ?_⟩
    exact absurd ⟨n / 2 ^ power, by omega, by omega⟩ hno

/-! ## Non-vacuity -/

theorem lt_strictWeak : StrictWeak (fun a b : Nat => decide (a < b)) :=
  ⟨by simp, by simp only [decide_eq_true_eq]; omega, by simp only [decide_eq_false_iff_not]; omega⟩

example : isHeap (fun a b : Nat => decide (a < b)) [9, 7, 8, 1, 7, 3] = some true ∧
    isHeap (fun a b : Nat => decide (a < b)) [9, 7, 8, 1, 10, 3] = some false ∧
    isSorted (fun a b : Nat => decide (a < b)) [1, 1, 4] = some true ∧ isSorted (fun a b : Nat => decide (a < b)) [1, 4, 3] = some false ∧
    roundUp 48 4 = some 48 ∧ roundUp 49 4 = some 64 ∧ roundUp (W - 1) 4 = some 0 := by decide +kernel

end Stxxl.Utils
