import Verif.BlockIndex.Model
/-!
# C87: block indices and element iterators
-/
namespace Stxxl.BlockIndex

/-! ## Specification -/

/-- The position after an operation on a plain number; `none` if it does not stay in `0 … 2^64 - 1`. -/
def Op.move (p : Nat) : Op → Option Nat
  | .assign q => if q < 2 ^ 64 then some q else none
  | .inc => if p + 1 < 2 ^ 64 then some (p + 1) else none
  | .dec => if 0 < p then some (p - 1) else none
  | .add k => if p + k < 2 ^ 64 then some (p + k) else none
  | .sub k => if k ≤ p then some (p - k) else none
  | .shr k => some (p / 2 ^ k)

/-- The position after a history. -/
def moves (p : Nat) : List Op → Option Nat
  | [] => some p
  | o :: os =>
    match o.move p with
    | none => none
    | some q => moves q os

/-! ## Proofs -/

theorem addW_eq {a b : Nat} (h : a + b < 2 ^ 64) : addW a b = a + b := Nat.mod_eq_of_lt h

theorem subW_eq {a b : Nat} (ha : a < 2 ^ 64) (h : b ≤ a) : subW a b = a - b := by
  unfold subW W
  rw [Nat.mod_eq_of_lt (by omega : b < 2 ^ 64)]
  rw [show a + (2 ^ 64 - b) = (a - b) + 2 ^ 64 by omega, Nat.add_mod_right]
  exact Nat.mod_eq_of_lt (by omega)

theorem mulW_eq {a b : Nat} (h : a * b < 2 ^ 64) : mulW a b = a * b := Nat.mod_eq_of_lt h

theorem move_lt {p q : Nat} (hp : p < 2 ^ 64) {o : Op} (h : o.move p = some q) : q < 2 ^ 64 := by
  cases o <;> simp only [Op.move] at h
  case shr k =>
    have := Nat.div_le_self p (2 ^ k)
    injection h with h; omega
  all_goals (split at h <;> first | (injection h with h; omega) | cases h)

/-- Quotient and remainder of the next number. -/
theorem succ_div_mod {m p : Nat} (hm : 0 < m) :
    (p % m + 1 = m → (p + 1) / m = p / m + 1 ∧ (p + 1) % m = 0) ∧ (p % m + 1 ≠ m → (p + 1) / m = p / m ∧ (p + 1) % m = p % m + 1) := by
  have h1 := Nat.div_add_mod p m
  have h2 := Nat.mod_lt p hm
  constructor
  · intro h
    have e : p + 1 = m * (p / m + 1) := by rw [Nat.mul_add, Nat.mul_one]; omega
    rw [e]
    exact ⟨Nat.mul_div_cancel_left _ hm, Nat.mul_mod_right _ _⟩
  · intro h
    have e : p + 1 = m * (p / m) + (p % m + 1) := by omega
    rw [e]
    constructor
    · rw [Nat.mul_add_div hm, Nat.div_eq_of_lt (show p % m + 1 < m by omega)]; rfl
    · rw [Nat.mul_add_mod, Nat.mod_eq_of_lt (show p % m + 1 < m by omega)]

theorem pred_div_mod {m p : Nat} (hm : 0 < m) (hp : 0 < p) :
    (p % m = 0 → (p - 1) / m + 1 = p / m ∧ (p - 1) % m = m - 1) ∧ (p % m ≠ 0 → (p - 1) / m = p / m ∧ (p - 1) % m + 1 = p % m) := by
  obtain ⟨q, rfl⟩ : ∃ q, p = q + 1 := ⟨p - 1, by omega⟩
  rw [Nat.add_sub_cancel]
  have h := succ_div_mod (p := q) hm
  have h2 := Nat.mod_lt q hm
  by_cases hq : q % m + 1 = m
  · obtain ⟨a, b⟩ := h.1 hq
    exact ⟨fun _ => ⟨a.symm, by omega⟩, fun c => absurd b c⟩
  · obtain ⟨a, b⟩ := h.2 hq
    exact ⟨fun c => by omega, fun _ => ⟨a.symm, b.symm⟩⟩

theorem idx_step {m p q : Nat} (hm : 0 < m) (hm64 : m < 2 ^ 64) (hp : p < 2 ^ 64) {o : Op} (h : o.move p = some q) :
    (Idx.set m p).step m o = Idx.set m q := by
  have hlt := Nat.mod_lt p hm
  have hd := Nat.div_le_self p m
  cases o with
  | assign k =>
    simp only [Op.move] at h
    split at h
    · injection h with h; subst h; rfl
    · cases h
  | inc =>
    simp only [Op.move] at h
    split at h
    · rename_i hb
      injection h with h; subst h
      show (if addW (p % m) 1 = m then (⟨addW p 1, addW (p / m) 1, 0⟩ : Idx) else ⟨addW p 1, p / m, addW (p % m) 1⟩) =
        ⟨p + 1, (p + 1) / m, (p + 1) % m⟩
      rw [addW_eq (a := p % m) (by omega), addW_eq hb, addW_eq (a := p / m) (by omega)]
      by_cases hc : p % m + 1 = m
      · obtain ⟨a, b⟩ := (succ_div_mod hm).1 hc
        rw [if_pos hc, a, b]
      · obtain ⟨a, b⟩ := (succ_div_mod hm).2 hc
        rw [if_neg hc, a, b]
    · cases h
  | dec =>
    simp only [Op.move] at h
    split at h
    · rename_i hb
      injection h with h; subst h
      show (if p % m = 0 then (⟨subW p 1, subW (p / m) 1, subW m 1⟩ : Idx) else ⟨subW p 1, p / m, subW (p % m) 1⟩) =
        ⟨p - 1, (p - 1) / m, (p - 1) % m⟩
      rw [subW_eq hp (by omega)]
      by_cases hc : p % m = 0
      · obtain ⟨a, b⟩ := (pred_div_mod hm hb).1 hc
        rw [if_pos hc, subW_eq hm64 hm, b, subW_eq (a := p / m) (by omega) (by rw [← a]; exact Nat.le_add_left 1 _), ← a]
        rfl
      · obtain ⟨a, b⟩ := (pred_div_mod hm hb).2 hc
        rw [if_neg hc, subW_eq (a := p % m) (by omega) (by omega), a, ← b]
        rfl
    · cases h
  | add k =>
    simp only [Op.move] at h
    split at h
    · rename_i hb
      injection h with h; subst h
      simp only [Idx.step]
      rw [show (Idx.set m p).pos = p from rfl, addW_eq hb]
    · cases h
  | sub k =>
    simp only [Op.move] at h
    split at h
    · rename_i hb
      injection h with h; subst h
      simp only [Idx.step]
      rw [show (Idx.set m p).pos = p from rfl, subW_eq hp hb]
    · cases h
  | shr k =>
    simp only [Op.move] at h
    injection h with h; subst h
    simp only [Idx.step]
    rw [show (Idx.set m p).pos = p from rfl, Nat.shiftRight_eq_div_pow]

/-- **C87.** `blocked_index`: after every history that stays in range, the block and the offset are quotient and remainder of the position,
and the position is what the operations say. -/
theorem C87_blocked_index {m : Nat} (hm : 0 < m) (hm64 : m < 2 ^ 64) : ∀ (ops : List Op) (p q : Nat), p < 2 ^ 64 → moves p ops = some q →
    let x := ops.foldl (Idx.step m) (Idx.set m p)
    x.pos = q ∧ x.block = q / m ∧ x.offset = q % m := by
  intro ops
  induction ops with
  | nil => intro p q _ h; injection h with h; subst h; exact ⟨rfl, rfl, rfl⟩
  | cons o os ih =>
    intro p q hp h
    rw [moves] at h
    cases ho : o.move p with
    | none => rw [ho] at h; cases h
    | some p' =>
      rw [ho] at h
      rw [List.foldl_cons, idx_step hm hm64 hp ho]
      exact ih p' q (move_lt hp ho) h

/-- **C87.** The constructor from block and offset. -/
theorem C87_of_block {m b o : Nat} (ho : o < m) (hb : b * m + o < 2 ^ 64) : Idx.ofBlock m b o = Idx.set m (b * m + o) := by
  unfold Idx.ofBlock Idx.set
  rw [mulW_eq (by omega), addW_eq hb]
  have e : b * m + o = m * b + o := by rw [Nat.mul_comm]
  rw [e, Nat.mul_add_div (by omega), Nat.div_eq_of_lt ho, Nat.mul_add_mod, Nat.mod_eq_of_lt ho]
  rfl

/-- What `double_blocked_index` should hold at position `p`. -/
def at2 (m2 m1 p : Nat) : Idx2 := ⟨p, p / m1 / m2, p / m1 % m2, p % m1⟩

theorem set2 {m2 m1 p : Nat} (h1 : 0 < m1) (hmm : m1 * m2 < 2 ^ 64) (hp : p < 2 ^ 64) : Idx2.set m2 m1 p = at2 m2 m1 p := by
  unfold Idx2.set at2
  simp only
  rw [mulW_eq hmm]
  have a := Nat.div_add_mod p (m1 * m2)
  have e1 : p / (m1 * m2) = p / m1 / m2 := (Nat.div_div_eq_div_mul p m1 m2).symm
  have le : p / (m1 * m2) * (m1 * m2) ≤ p := Nat.div_mul_le_self _ _
  have e2 : p - p / (m1 * m2) * (m1 * m2) = p % (m1 * m2) := by rw [Nat.mul_comm]; omega
  have hr : p % (m1 * m2) ≤ p := Nat.mod_le _ _
  rw [mulW_eq (by omega), subW_eq hp le, e2]
  have le2 : p % (m1 * m2) / m1 * m1 ≤ p % (m1 * m2) := Nat.div_mul_le_self _ _
  rw [mulW_eq (by omega), subW_eq (by omega) le2]
  have e3 : p % (m1 * m2) / m1 = p / m1 % m2 := Nat.mod_mul_right_div_self p m1 m2
  have e4 : p % (m1 * m2) - p % (m1 * m2) / m1 * m1 = p % m1 := by
    have b := Nat.div_add_mod (p % (m1 * m2)) m1
    rw [Nat.mod_mul_right_mod] at b
    rw [Nat.mul_comm (p % (m1 * m2) / m1) m1]
    omega
  rw [e4, e3, e1]

theorem idx2_step {m2 m1 p q : Nat} (h1 : 0 < m1) (h2 : 0 < m2) (hmm : m1 * m2 < 2 ^ 64) (hp : p < 2 ^ 64) {o : Op} (h : o.move p = some q) :
    (at2 m2 m1 p).step m2 m1 o = at2 m2 m1 q := by
  have hq := move_lt hp h
  have hm1 : m1 ≤ m1 * m2 := Nat.le_mul_of_pos_right _ h2
  have hm2 : m2 ≤ m1 * m2 := Nat.le_mul_of_pos_left _ h1
  have hlt := Nat.mod_lt p h1
  have hlt2 := Nat.mod_lt (p / m1) h2
  have hd := Nat.div_le_self p m1
  have hd2 := Nat.div_le_self (p / m1) m2
  cases o with
  | assign k =>
    simp only [Op.move] at h
    split at h
    · injection h with h; subst h
      exact set2 h1 hmm hq
    · cases h
  | inc =>
    simp only [Op.move] at h
    split at h
    · rename_i hb
      injection h with h; subst h
      show (if addW (p % m1) 1 = m1 then
          if addW (p / m1 % m2) 1 = m2 then (⟨addW p 1, addW (p / m1 / m2) 1, 0, 0⟩ : Idx2)
          else ⟨addW p 1, p / m1 / m2, addW (p / m1 % m2) 1, 0⟩
        else ⟨addW p 1, p / m1 / m2, p / m1 % m2, addW (p % m1) 1⟩) = ⟨p + 1, (p + 1) / m1 / m2, (p + 1) / m1 % m2, (p + 1) % m1⟩
      rw [addW_eq (a := p % m1) (by omega), addW_eq hb]
      by_cases hc : p % m1 + 1 = m1
      · obtain ⟨a, b⟩ := (succ_div_mod h1).1 hc
        rw [if_pos hc, a, b, addW_eq (a := p / m1 % m2) (by omega)]
        by_cases hc2 : p / m1 % m2 + 1 = m2
        · obtain ⟨c, d⟩ := (succ_div_mod h2).1 hc2
          rw [if_pos hc2, c, d, addW_eq (a := p / m1 / m2) (by omega)]
        · obtain ⟨c, d⟩ := (succ_div_mod h2).2 hc2
          rw [if_neg hc2, c, d]
      · obtain ⟨a, b⟩ := (succ_div_mod h1).2 hc
        rw [if_neg hc, a, b]
    · cases h
  | dec =>
    simp only [Op.move] at h
    split at h
    · rename_i hb
      injection h with h; subst h
      show (if p % m1 = 0 then
          if p / m1 % m2 = 0 then (⟨subW p 1, subW (p / m1 / m2) 1, subW m2 1, subW m1 1⟩ : Idx2)
          else ⟨subW p 1, p / m1 / m2, subW (p / m1 % m2) 1, subW m1 1⟩
        else ⟨subW p 1, p / m1 / m2, p / m1 % m2, subW (p % m1) 1⟩) = ⟨p - 1, (p - 1) / m1 / m2, (p - 1) / m1 % m2, (p - 1) % m1⟩
      rw [subW_eq hp (by omega)]
      by_cases hc : p % m1 = 0
      · obtain ⟨a, b⟩ := (pred_div_mod h1 hb).1 hc
        rw [if_pos hc, subW_eq (a := m1) (by omega) h1, b]
        have hpos : 0 < p / m1 := by rw [← a]; exact Nat.succ_pos _
        have e : (p - 1) / m1 = p / m1 - 1 := by rw [← a]; rfl
        by_cases hc2 : p / m1 % m2 = 0
        · obtain ⟨c, d⟩ := (pred_div_mod h2 hpos).1 hc2
          rw [if_pos hc2, subW_eq (a := p / m1 / m2) (by omega) (by rw [← c]; exact Nat.le_add_left 1 _), subW_eq (a := m2) (by omega) h2, e, d, ← c]
          rfl
        · obtain ⟨c, d⟩ := (pred_div_mod h2 hpos).2 hc2
          rw [if_neg hc2, subW_eq (a := p / m1 % m2) (by omega) (by omega), e, c, ← d]
          rfl
      · obtain ⟨a, b⟩ := (pred_div_mod h1 hb).2 hc
        rw [if_neg hc, subW_eq (a := p % m1) (by omega) (by omega), a, ← b]
        rfl
    · cases h
  | add k =>
    simp only [Op.move] at h
    split at h
    · rename_i hb
      injection h with h; subst h
      simp only [Idx2.step]
      rw [show (at2 m2 m1 p).pos = p from rfl, addW_eq hb, set2 h1 hmm hq]
    · cases h
  | sub k =>
    simp only [Op.move] at h
    split at h
    · rename_i hb
      injection h with h; subst h
      simp only [Idx2.step]
      rw [show (at2 m2 m1 p).pos = p from rfl, subW_eq hp hb, set2 h1 hmm hq]
    · cases h
  | shr k =>
    simp only [Op.move] at h
    injection h with h; subst h
    simp only [Idx2.step]
    rw [show (at2 m2 m1 p).pos = p from rfl, Nat.shiftRight_eq_div_pow, set2 h1 hmm hq]

/-- **C87.** `double_blocked_index`, the position of vector iterators: after every history that stays in range, page, block in the page and
offset in the block are those of the position. -/
theorem C87_double_blocked_index {m2 m1 : Nat} (h1 : 0 < m1) (h2 : 0 < m2) (hmm : m1 * m2 < 2 ^ 64) : ∀ (ops : List Op) (p q : Nat),
    p < 2 ^ 64 → moves p ops = some q →
    let x := ops.foldl (Idx2.step m2 m1) (Idx2.set m2 m1 p)
    x.pos = q ∧ x.block2 = q / (m1 * m2) ∧ x.block1 = q / m1 % m2 ∧ x.offset = q % m1 ∧
      x.block2 * (m1 * m2) + x.block1 * m1 + x.offset = q := by
  intro ops
  suffices H : ∀ (p q : Nat), p < 2 ^ 64 → moves p ops = some q → ops.foldl (Idx2.step m2 m1) (at2 m2 m1 p) = at2 m2 m1 q by
    intro p q hp h
    simp only
    rw [set2 h1 hmm hp, H p q hp h]
    refine ⟨rfl, Nat.div_div_eq_div_mul q m1 m2, rfl, rfl, ?_⟩
    show q / m1 / m2 * (m1 * m2) + q / m1 % m2 * m1 + q % m1 = q
    have a := Nat.div_add_mod q m1
    have b := Nat.div_add_mod (q / m1) m2
    have e : q / m1 / m2 * (m1 * m2) + q / m1 % m2 * m1 = m1 * (m2 * (q / m1 / m2) + q / m1 % m2) := by
      rw [Nat.mul_add, Nat.mul_comm (q / m1 / m2), Nat.mul_assoc, Nat.mul_comm (q / m1 % m2)]
    rw [e, b, a]
  induction ops with
  | nil => intro p q _ h; injection h with h; subst h; rfl
  | cons o os ih =>
    intro p q hp h
    rw [moves] at h
    cases ho : o.move p with
    | none => rw [ho] at h; cases h
    | some p' =>
      rw [ho] at h
      rw [List.foldl_cons, idx2_step h1 h2 hmm hp ho]
      exact ih p' q (move_lt hp ho) h

/-- **C87.** The constructor from page, block and offset. -/
theorem C87_of_blocks {m2 m1 b2 b1 o : Nat} (ho : o < m1) (hb1 : b1 < m2) (hb : b2 * (m1 * m2) + b1 * m1 + o < 2 ^ 64)
    (hmm : m1 * m2 < 2 ^ 64) : Idx2.ofBlocks m2 m1 b2 b1 o = Idx2.set m2 m1 (b2 * (m1 * m2) + b1 * m1 + o) := by
  rw [set2 (by omega) hmm hb]
  unfold Idx2.ofBlocks at2
  rw [mulW_eq hmm, mulW_eq (by omega), mulW_eq (by omega), addW_eq (a := b2 * (m1 * m2)) (b := b1 * m1) (by omega), addW_eq hb]
  have e : b2 * (m1 * m2) + b1 * m1 + o = m1 * (m2 * b2 + b1) + o := by
    rw [Nat.mul_add, Nat.mul_comm b2, Nat.mul_assoc, Nat.mul_comm b1]
  have e1 : (m1 * (m2 * b2 + b1) + o) / m1 = m2 * b2 + b1 := by
    rw [Nat.mul_add_div (by omega), Nat.div_eq_of_lt ho]; rfl
  rw [e, e1, Nat.mul_add_mod m2 b2 b1, Nat.mod_eq_of_lt hb1, Nat.mul_add_div (by omega), Nat.div_eq_of_lt hb1,
    Nat.mul_add_mod m1 _ o, Nat.mod_eq_of_lt ho]
  rfl

theorem iter_step {m p q : Nat} (hm : 0 < m) (hm64 : m < 2 ^ 64) (hp : p < 2 ^ 64) {o : Op} (h : o.move p = some q) :
    (Iter.set m p).step m o = Iter.set m q := by
  have hlt := Nat.mod_lt p hm
  cases o with
  | assign k =>
    simp only [Op.move] at h
    split at h
    · injection h with h; subst h; rfl
    · cases h
  | inc =>
    simp only [Op.move] at h
    split at h
    · rename_i hb
      injection h with h; subst h
      show (if addW (p % m) 1 = m then (⟨addW p 1, 0, ((p / m : Nat) : Int) + 1, ((p / m : Nat) : Int) + 1⟩ : Iter)
        else ⟨addW p 1, addW (p % m) 1, (p / m : Nat), (p / m : Nat)⟩) = ⟨p + 1, (p + 1) % m, ((p + 1) / m : Nat), ((p + 1) / m : Nat)⟩
      rw [addW_eq (a := p % m) (by omega), addW_eq hb]
      by_cases hc : p % m + 1 = m
      · obtain ⟨a, b⟩ := (succ_div_mod hm).1 hc
        rw [if_pos hc, a, b]
        rfl
      · obtain ⟨a, b⟩ := (succ_div_mod hm).2 hc
        rw [if_neg hc, a, b]
    · cases h
  | dec =>
    simp only [Op.move] at h
    split at h
    · rename_i hb
      injection h with h; subst h
      show (if p % m = 0 then (⟨subW p 1, subW m 1, ((p / m : Nat) : Int) - 1, ((p / m : Nat) : Int) - 1⟩ : Iter)
        else ⟨subW p 1, subW (p % m) 1, (p / m : Nat), (p / m : Nat)⟩) = ⟨p - 1, (p - 1) % m, ((p - 1) / m : Nat), ((p - 1) / m : Nat)⟩
      rw [subW_eq hp (by omega)]
      by_cases hc : p % m = 0
      · obtain ⟨a, b⟩ := (pred_div_mod hm hb).1 hc
        rw [if_pos hc, subW_eq hm64 hm, b, show ((p / m : Nat) : Int) - 1 = (((p - 1) / m : Nat) : Int) by omega]
      · obtain ⟨a, b⟩ := (pred_div_mod hm hb).2 hc
        rw [if_neg hc, subW_eq (a := p % m) (by omega) (by omega), a, ← b]
        rfl
    · cases h
  | add k =>
    simp only [Op.move] at h
    split at h
    · rename_i hb
      injection h with h; subst h
      simp only [Iter.step]
      rw [show (Iter.set m p).pos = p from rfl, addW_eq hb]
    · cases h
  | sub k =>
    simp only [Op.move] at h
    split at h
    · rename_i hb
      injection h with h; subst h
      simp only [Iter.step]
      rw [show (Iter.set m p).pos = p from rfl, subW_eq hp hb]
    · cases h
  | shr k =>
    simp only [Op.move] at h
    injection h with h; subst h
    simp only [Iter.step]
    rw [show (Iter.set m p).pos = p from rfl, Nat.shiftRight_eq_div_pow]

variable {α : Type}

/-- Blocks of `m` elements, seen as one sequence. -/
theorem flatten_get {m : Nat} (hm : 0 < m) : ∀ (blocks : List (List α)), (∀ b ∈ blocks, b.length = m) → ∀ p,
    (blocks[p / m]?).bind (·[p % m]?) = blocks.flatten[p]? := by
  intro blocks
  induction blocks with
  | nil => intro _ p; simp
  | cons b bs ih =>
    intro h p
    have hb := h b (List.mem_cons_self ..)
    rw [List.flatten_cons]
    by_cases hp : p < m
    · rw [Nat.div_eq_of_lt hp, Nat.mod_eq_of_lt hp, List.getElem?_append_left (by omega)]
      rfl
    · have := ih (fun b hb => h b (List.mem_cons_of_mem _ hb)) (p - m)
      rw [List.getElem?_append_right (by omega), hb, ← this]
      have e1 : p / m = (p - m) / m + 1 := by rw [Nat.div_eq_sub_div hm (by omega)]
      have e2 : p % m = (p - m) % m := Nat.mod_eq_sub_mod (by omega)
      rw [e1, e2]
      rfl

/-- **C87.** The element iterator over an array of blocks with `m` elements each: after every history that stays in range, it refers to the
element of that number (and to none behind the last). -/
theorem C87_element_iterator {m : Nat} (hm : 0 < m) (hm64 : m < 2 ^ 64) {blocks : List (List α)} (hb : ∀ b ∈ blocks, b.length = m) :
    ∀ (ops : List Op) (p q : Nat), p < 2 ^ 64 → moves p ops = some q →
      (ops.foldl (Iter.step m) (Iter.set m p)).pos = q ∧ (ops.foldl (Iter.step m) (Iter.set m p)).deref blocks = blocks.flatten[q]? := by
  intro ops
  induction ops with
  | nil =>
    intro p q _ h; injection h with h; subst h
    refine ⟨rfl, ?_⟩
    show (if ((p / m : Nat) : Int) < 0 then none else (blocks[((p / m : Nat) : Int).toNat]?).bind (·[p % m]?)) = _
    rw [if_neg (Int.not_lt.2 (Int.natCast_nonneg _)), Int.toNat_natCast, flatten_get hm blocks hb]
  | cons o os ih =>
    intro p q hp h
    rw [moves] at h
    cases ho : o.move p with
    | none => rw [ho] at h; cases h
    | some p' =>
      rw [ho] at h
      rw [List.foldl_cons, iter_step hm hm64 hp ho]
      exact ih p' q (move_lt hp ho) h

/-- **C87.** Comparisons and distance of two iterators, with any histories, are those of the positions. -/
theorem C87_compare {m : Nat} (hm : 0 < m) (hm64 : m < 2 ^ 64) {ops ops' : List Op} {p p' q q' : Nat} (hp : p < 2 ^ 64) (hp' : p' < 2 ^ 64)
    (h : moves p ops = some q) (h' : moves p' ops' = some q') :
    let x := ops.foldl (Iter.step m) (Iter.set m p)
    let y := ops'.foldl (Iter.step m) (Iter.set m p')
    (x.eq y = true ↔ q = q') ∧ (x.lt y = true ↔ q < q') ∧ (q' ≤ q → x.dist y = q - q') := by
  have a := (C87_element_iterator (α := Unit) (blocks := []) hm hm64 (by simp) ops p q hp h).1
  have b := (C87_element_iterator (α := Unit) (blocks := []) hm hm64 (by simp) ops' p' q' hp' h').1
  have hq : q < 2 ^ 64 := by
    clear a h' b hp'
    induction ops generalizing p with
    | nil => injection h with h; omega
    | cons o os ih =>
      rw [moves] at h
      cases ho : o.move p with
      | none => rw [ho] at h; cases h
      | some p' => rw [ho] at h; exact ih (move_lt hp ho) h
  simp only [Iter.eq, Iter.lt, Iter.dist, a, b, beq_iff_eq, decide_eq_true_eq, true_and]
  exact fun hle => subW_eq hq hle

/-- **C87.** `operator[]` of the element iterator counts from the beginning of the array, not from the iterator: `it[n]` is `*(it + n)` only
at the beginning. -/
theorem C87_subscript_from_beginning {m : Nat} (hm : 0 < m) {blocks : List (List α)} (hb : ∀ b ∈ blocks, b.length = m) (x : Iter) (n : Nat) :
    x.index blocks m n = blocks.flatten[n]? := by
  show (if ((n / m : Nat) : Int) < 0 then none else (blocks[((n / m : Nat) : Int).toNat]?).bind (·[n % m]?)) = _
  rw [if_neg (Int.not_lt.2 (Int.natCast_nonneg _)), Int.toNat_natCast, flatten_get hm blocks hb]

theorem C87_subscript_wrong :
    let x := Iter.step 2 (Iter.set 2 0) .inc
    x.index [[10, 11], [12, 13]] 2 1 = some 11 ∧ (x.step 2 (.add 1)).deref [[10, 11], [12, 13]] = some 12 := by decide

/-! Non-vacuity -/
def exOps : List Op := [.add 7, .inc, .inc, .dec, .sub 3, .inc]

example : moves 0 exOps = some 6 := by decide
example : exOps.foldl (Iter.step 3) (Iter.set 3 0) = ⟨6, 0, 2, 2⟩ := by decide
example : (exOps.foldl (Iter.step 3) (Iter.set 3 0)).deref [[0, 1, 2], [3, 4, 5], [6, 7, 8]] = some 6 := by decide
example : exOps.foldl (Idx2.step 2 3) (Idx2.set 2 3 0) = ⟨6, 1, 0, 0⟩ := by decide
example : (exOps ++ [Op.dec]).foldl (Idx2.step 2 3) (Idx2.set 2 3 0) = ⟨5, 0, 1, 2⟩ := by decide

end Stxxl.BlockIndex
