import Verif.ParseUnits.Model
import Mathlib.Tactic.SplitIfs
import Mathlib.Tactic.Common
import Mathlib.Data.List.TakeWhile

/-!
# C38: size strings

Specification: a size string is `white-space sign? digits spaces unit spaces`. A unit is empty (the default unit applies), or `b`,
or a power letter, optionally followed by `i` (powers of 1024 instead of 1000), optionally followed by `b`; upper and lower case
mean the same.
-/

namespace Stxxl.ParseUnits

/-- The power letters. -/
def letterPow (c : Char) : Option Nat :=
  match c with
  | 'k' | 'K' => some 1
  | 'm' | 'M' => some 2
  | 'g' | 'G' => some 3
  | 't' | 'T' => some 4
  | 'p' | 'P' => some 5
  | _ => none

/-- The multiplier named by the caller's default unit: lower case decimal, upper case binary. -/
def defMult (c : Char) : Nat :=
  match c with
  | 'k' => 1000
  | 'm' => 1000 ^ 2
  | 'g' => 1000 ^ 3
  | 't' => 1000 ^ 4
  | 'p' => 1000 ^ 5
  | 'K' => 1024
  | 'M' => 1024 ^ 2
  | 'G' => 1024 ^ 3
  | 'T' => 1024 ^ 4
  | 'P' => 1024 ^ 5
  | _ => 1

/-- `UnitMult d u m`: the unit string `u` multiplies by `m` when the default unit is `d`. -/
inductive UnitMult (d : Char) : List Char → Nat → Prop
  | dflt : UnitMult d [] (defMult d)
  | byte (b : Char) (hb : b = 'b' ∨ b = 'B') : UnitMult d [b] 1
  | si (c : Char) (k : Nat) (hc : letterPow c = some k) : UnitMult d [c] (1000 ^ k)
  | siB (c b : Char) (k : Nat) (hc : letterPow c = some k) (hb : b = 'b' ∨ b = 'B') : UnitMult d [c, b] (1000 ^ k)
  | iec (c i : Char) (k : Nat) (hc : letterPow c = some k) (hi : i = 'i' ∨ i = 'I') : UnitMult d [c, i] (1024 ^ k)
  | iecB (c i b : Char) (k : Nat) (hc : letterPow c = some k) (hi : i = 'i' ∨ i = 'I') (hb : b = 'b' ∨ b = 'B') :
      UnitMult d [c, i, b] (1024 ^ k)

/-- The number denoted by the digits: the first digit is the most significant one. -/
def num : List Char → Nat
  | [] => 0
  | c :: cs => (c.toNat - 48) * 10 ^ cs.length + num cs

theorem digitsVal_aux : ∀ (ds : List Char) (v : Nat),
    ds.foldl (fun v c => v * 10 + (c.toNat - '0'.toNat)) v = v * 10 ^ ds.length + num ds := by
  intro ds
  induction ds with
  | nil => intro v; simp [num]
  | cons c cs ih =>
    intro v
    rw [List.foldl_cons, ih]
    simp only [num, List.length_cons, Nat.pow_succ]
    have : '0'.toNat = 48 := by decide
    rw [this, Nat.add_mul, Nat.mul_assoc, Nat.mul_comm 10, Nat.add_assoc]

theorem digitsVal_eq (ds : List Char) : digitsVal ds = num ds := by
  unfold digitsVal; rw [digitsVal_aux]; simp

theorem mulPow_eq (base : Nat) : ∀ (p s : Nat), s < W → mulPow base p s = s * base ^ p % W := by
  intro p
  induction p with
  | zero => intro s hs; simp [mulPow, Nat.mod_eq_of_lt hs]
  | succ p ih =>
    intro s hs
    have hW : 0 < W := by unfold W; exact Nat.two_pow_pos 64
    rw [mulPow, ih _ (Nat.mod_lt _ hW), Nat.pow_succ, Nat.mod_mul_mod, Nat.mul_assoc, Nat.mul_comm base]

theorem dropWhile_append {p : Char → Bool} : ∀ {a b : List Char}, (∀ c ∈ a, p c = true) → (∀ c, b.head? = some c → p c = false) →
    (a ++ b).dropWhile p = b ∧ (a ++ b).takeWhile p = a := by
  intro a
  induction a with
  | nil =>
    intro b _ hb
    cases b with
    | nil => simp
    | cons c r => simp [hb c rfl]
  | cons x a ih =>
    intro b ha hb
    have h1 := ha x (by simp)
    have := @ih b (fun c hc => ha c (by simp [hc])) hb
    simp [h1, this]

theorem letterPow_some {c : Char} {k : Nat} (h : letterPow c = some k) :
    powerOf [c] = (k, []) ∧ 0 < k ∧ c ≠ ' ' ∧ c ≠ '\x00' ∧ isDigit c = false ∧ c ≠ '\x00' ∧ isSpace c = false := by
  unfold letterPow at h
  split at h <;> simp at h <;> subst h <;> decide

theorem powerOf_cons {c : Char} {k : Nat} {r : List Char} (h : letterPow c = some k) : powerOf (c :: r) = (k, r) := by
  unfold letterPow at h
  split at h <;> simp at h <;> subst h <;> simp [powerOf]

theorem powerOf_not {c : Char} {r : List Char} (h : letterPow c = none) : powerOf (c :: r) = (0, c :: r) := by
  unfold powerOf
  have : ∀ d, letterPow d ≠ none → c ≠ d := by rintro d hd rfl; exact hd h
  simp [this 'k' (by decide), this 'K' (by decide), this 'm' (by decide), this 'M' (by decide), this 'g' (by decide),
    this 'G' (by decide), this 't' (by decide), this 'T' (by decide), this 'p' (by decide), this 'P' (by decide)]

theorem defUnit_eq (d : Char) : (defUnit d).1 ^ (defUnit d).2 = defMult d := by
  unfold defUnit
  split_ifs <;> first | (subst_vars; decide) | skip
  unfold defMult
  split <;> simp_all

/-- The unit part: power, base and byte indicator followed by spaces. -/
theorem unit_spec {d : Char} {u : List Char} {m : Nat} (h : UnitMult d u m) {sp : List Char} (hsp : ∀ c ∈ sp, c = ' ') :
    let p := powerOf (u ++ sp)
    let b := baseOf p.1 p.2
    let w := byteOf d b.1 p.1 b.2
    w.2.2 = sp ∧ w.1 ^ w.2.1 = m := by
  have hcase : sp = [] ∨ ∃ r, sp = ' ' :: r := by
    cases sp with
    | nil => exact Or.inl rfl
    | cons c r => right; exact ⟨r, by rw [hsp c (by simp)]⟩
  cases h with
  | dflt =>
    rcases hcase with rfl | ⟨r, rfl⟩
    · simp [powerOf, baseOf, byteOf, defUnit_eq]
    · simp [powerOf, baseOf, byteOf, defUnit_eq]
  | byte b hb =>
    rcases hb with rfl | rfl <;> simp [powerOf, baseOf, byteOf]
  | si c k hc =>
    have h1 := powerOf_cons (r := sp) hc
    have hk := (letterPow_some hc).2.1
    dsimp only
    rw [List.cons_append, List.nil_append, h1]
    rcases hcase with rfl | ⟨r, rfl⟩
    · have : k ≠ 0 := by omega
      simp [baseOf, byteOf, this]
    · have : k ≠ 0 := by omega
      simp [baseOf, byteOf, this]
  | siB c b k hc hb =>
    have h1 := powerOf_cons (r := b :: sp) hc
    have hk := (letterPow_some hc).2.1
    dsimp only
    rw [show [c, b] ++ sp = c :: b :: sp from rfl, h1]
    rcases hb with rfl | rfl <;> simp [baseOf, byteOf]
  | iec c i k hc hi =>
    have h1 := powerOf_cons (r := i :: sp) hc
    have hk := (letterPow_some hc).2.1
    have hk' : k ≠ 0 := by omega
    dsimp only
    rw [show [c, i] ++ sp = c :: i :: sp from rfl, h1]
    rcases hcase with rfl | ⟨r, rfl⟩
    · rcases hi with rfl | rfl <;> simp [baseOf, byteOf, hk']
    · rcases hi with rfl | rfl <;> simp [baseOf, byteOf, hk']
  | iecB c i b k hc hi hb =>
    have h1 := powerOf_cons (r := i :: b :: sp) hc
    have hk := (letterPow_some hc).2.1
    have hk' : k ≠ 0 := by omega
    dsimp only
    rw [show [c, i, b] ++ sp = c :: i :: b :: sp from rfl, h1]
    rcases hi with rfl | rfl <;> rcases hb with rfl | rfl <;> simp [baseOf, byteOf, hk']

/-- Conversely, whatever the code consumes is a unit. -/
theorem unit_complete (d : Char) (s : List Char) :
    let p := powerOf s
    let b := baseOf p.1 p.2
    let w := byteOf d b.1 p.1 b.2
    ∃ u m, s = u ++ w.2.2 ∧ UnitMult d u m ∧ w.1 ^ w.2.1 = m := by
  cases s with
  | nil => exact ⟨[], defMult d, rfl, .dflt, by simp [powerOf, baseOf, byteOf, defUnit_eq]⟩
  | cons c r =>
    cases hc : letterPow c with
    | none =>
      rw [powerOf_not hc]
      by_cases hb : c = 'b' ∨ c = 'B'
      · exact ⟨[c], 1, by simp [baseOf, byteOf, hb], .byte c hb, by simp [baseOf, byteOf, hb]⟩
      · exact ⟨[], defMult d, by simp [baseOf, byteOf, hb], .dflt, by simp [baseOf, byteOf, hb, defUnit_eq]⟩
    | some k =>
      have hk := (letterPow_some hc).2.1
      have hk' : k ≠ 0 := by omega
      rw [powerOf_cons hc]
      cases r with
      | nil => exact ⟨[c], 1000 ^ k, by simp [baseOf, byteOf, hk'], .si c k hc, by simp [baseOf, byteOf, hk']⟩
      | cons i r =>
        by_cases hi : i = 'i' ∨ i = 'I'
        · cases r with
          | nil => exact ⟨[c, i], 1024 ^ k, by simp [baseOf, byteOf, hk', hi], .iec c i k hc hi, by simp [baseOf, byteOf, hk', hi]⟩
          | cons b r =>
            by_cases hb : b = 'b' ∨ b = 'B'
            · exact ⟨[c, i, b], 1024 ^ k, by simp [baseOf, byteOf, hi, hb, hk'], .iecB c i b k hc hi hb, by simp [baseOf, byteOf, hk', hi, hb]⟩
            · exact ⟨[c, i], 1024 ^ k, by simp [baseOf, byteOf, hi, hb, hk'], .iec c i k hc hi, by simp [baseOf, byteOf, hk', hi, hb]⟩
        · by_cases hb : i = 'b' ∨ i = 'B'
          · exact ⟨[c, i], 1000 ^ k, by simp [baseOf, byteOf, hi, hb, hk'], .siB c i k hc hb, by simp [baseOf, byteOf, hk', hi, hb]⟩
          · exact ⟨[c], 1000 ^ k, by simp [baseOf, byteOf, hi, hb, hk'], .si c k hc, by simp [baseOf, byteOf, hk', hi, hb]⟩

/-- The string has no NUL character. -/
def NoNul (s : List Char) : Prop := ∀ c ∈ s, c ≠ '\x00'

theorem unit_chars {d : Char} {u : List Char} {m : Nat} (h : UnitMult d u m) :
    ∀ c ∈ u, c ≠ ' ' ∧ isDigit c = false ∧ c ≠ '\x00' := by
  have hb' : ∀ b, b = 'b' ∨ b = 'B' → b ≠ ' ' ∧ isDigit b = false ∧ b ≠ '\x00' := by
    rintro b (rfl | rfl) <;> decide
  have hi' : ∀ b, b = 'i' ∨ b = 'I' → b ≠ ' ' ∧ isDigit b = false ∧ b ≠ '\x00' := by
    rintro b (rfl | rfl) <;> decide
  have hl : ∀ c k, letterPow c = some k → c ≠ ' ' ∧ isDigit c = false ∧ c ≠ '\x00' := by
    intro c k h
    have := letterPow_some h
    exact ⟨this.2.2.1, this.2.2.2.2.1, this.2.2.2.1⟩
  cases h with
  | dflt => simp
  | byte b hb => intro c hc; simp at hc; subst hc; exact hb' _ hb
  | si c k hc => intro x hx; simp at hx; subst hx; exact hl _ _ hc
  | siB c b k hc hb => intro x hx; simp at hx; rcases hx with rfl | rfl; exacts [hl _ _ hc, hb' _ hb]
  | iec c i k hc hi => intro x hx; simp at hx; rcases hx with rfl | rfl; exacts [hl _ _ hc, hi' _ hi]
  | iecB c i b k hc hi hb => intro x hx; simp at hx; rcases hx with rfl | rfl | rfl; exacts [hl _ _ hc, hi' _ hi, hb' _ hb]

theorem takeWhile_noNul {s : List Char} (h : NoNul s) : s.takeWhile (· ≠ '\x00') = s := by
  rw [List.takeWhile_eq_self_iff]
  intro c hc
  simpa using h c hc

theorem skipSpaces_append {sp r : List Char} (hsp : ∀ c ∈ sp, c = ' ') (hr : ∀ c, r.head? = some c → c ≠ ' ') :
    skipSpaces (sp ++ r) = r :=
  (dropWhile_append (p := fun c => decide (c = ' ')) (by intro c hc; simp [hsp c hc]) (by intro c hc; simp [hr c hc])).1

theorem skipSpaces_all {sp : List Char} (hsp : ∀ c ∈ sp, c = ' ') : skipSpaces sp = [] := by
  have := skipSpaces_append hsp (r := []) (by simp)
  simpa using this

/-- The value of a number written with sign `neg` and digits `ds`, as the C library computes it: saturation, and negation
modulo `2^64`. -/
def signedVal (neg : Bool) (n : Nat) : Nat := if n ≥ 2 ^ 64 then 2 ^ 64 - 1 else if neg then (2 ^ 64 - n) % 2 ^ 64 else n

/-- A sign and whether it is negative. -/
inductive Sign : List Char → Bool → Prop
  | none : Sign [] false
  | plus : Sign ['+'] false
  | minus : Sign ['-'] true

theorem sign_spec {sg : List Char} {neg : Bool} (h : Sign sg neg) {r : List Char} (hr : ∀ c, r.head? = some c → isDigit c = true) :
    sign (sg ++ r) = (neg, r) := by
  cases h with
  | none =>
    simp only [List.nil_append]
    unfold sign
    split
    · exact absurd (hr _ rfl) (by decide)
    · exact absurd (hr _ rfl) (by decide)
    · rfl
  | plus => rfl
  | minus => rfl

theorem digit_not_space {c : Char} (h : isDigit c = true) : isSpace c = false := by
  unfold isDigit at h
  have h0 : '0'.toNat = 48 := by decide
  have h9 : '9'.toNat = 57 := by decide
  simp only [h0, h9, Bool.and_eq_true, decide_eq_true_eq] at h
  have : ∀ d : Char, d.toNat < 48 → c ≠ d := by rintro d hd rfl; omega
  unfold isSpace
  simp [this ' ' (by decide), this '\t' (by decide), this '\n' (by decide), this '\x0b' (by decide), this '\x0c' (by decide),
    this '\r' (by decide)]

theorem strtoul_spec {ws sg ds r : List Char} {neg : Bool} (hws : ∀ c ∈ ws, isSpace c = true) (hsg : Sign sg neg)
    (hds : ∀ c ∈ ds, isDigit c = true) (hne : ds ≠ []) (hr : ∀ c, r.head? = some c → isDigit c = false) :
    strtoul (ws ++ (sg ++ (ds ++ r))) = (signedVal neg (num ds), r) := by
  obtain ⟨x, ds', rfl⟩ : ∃ x ds', ds = x :: ds' := by
    cases ds with
    | nil => exact absurd rfl hne
    | cons x ds' => exact ⟨x, ds', rfl⟩
  have h1 : (ws ++ (sg ++ ((x :: ds') ++ r))).dropWhile isSpace = sg ++ ((x :: ds') ++ r) := by
    refine (dropWhile_append hws ?_).1
    intro c hc
    cases hsg with
    | none =>
      simp only [List.nil_append, List.cons_append, List.head?_cons, Option.some.injEq] at hc
      subst hc; exact digit_not_space (hds _ (by simp))
    | plus => simp at hc; subst hc; decide
    | minus => simp at hc; subst hc; decide
  have h2 := sign_spec hsg (r := (x :: ds') ++ r) (by
    intro c hc
    simp only [List.cons_append, List.head?_cons, Option.some.injEq] at hc
    subst hc; exact hds _ (by simp))
  have h3 := dropWhile_append hds hr
  unfold strtoul
  rw [h1, h2]
  dsimp only
  rw [h3.1, h3.2, if_neg hne, digitsVal_eq]
  rfl

theorem signedVal_lt (neg : Bool) (n : Nat) : signedVal neg n < W := by
  have hW : W = 18446744073709551616 := by decide
  unfold signedVal
  rw [show (2 : Nat) ^ 64 = W from rfl, hW]
  split_ifs <;> omega

/-- **C38, value.** A size string is accepted and gives its number times its multiplier (modulo `2^64`). -/
theorem C38_value {d : Char} {ws sg ds sp u sp' : List Char} {neg : Bool} {m : Nat}
    (hws : ∀ c ∈ ws, isSpace c = true) (hsg : Sign sg neg) (hds : ∀ c ∈ ds, isDigit c = true) (hne : ds ≠ [])
    (hsp : ∀ c ∈ sp, c = ' ') (hu : UnitMult d u m) (hsp' : ∀ c ∈ sp', c = ' ') :
    parse (ws ++ (sg ++ (ds ++ (sp ++ (u ++ sp'))))) d = (signedVal neg (num ds) * m % 2 ^ 64, true) := by
  have huc := unit_chars hu
  have hsp0 : ∀ c, c = ' ' → c ≠ '\x00' ∧ isDigit c = false := by rintro c rfl; decide
  have hnn : NoNul (ws ++ (sg ++ (ds ++ (sp ++ (u ++ sp'))))) := by
    intro c hc
    simp only [List.mem_append] at hc
    rcases hc with hc | hc | hc | hc | hc | hc
    · rintro rfl; have := hws _ hc; exact absurd this (by decide)
    · cases hsg <;> simp at hc <;> subst hc <;> decide
    · rintro rfl; have := hds _ hc; exact absurd this (by decide)
    · exact (hsp0 _ (hsp _ hc)).1
    · exact (huc _ hc).2.2
    · exact (hsp0 _ (hsp' _ hc)).1
  have hr : ∀ c, (sp ++ (u ++ sp')).head? = some c → isDigit c = false := by
    intro c hc
    have : c ∈ sp ++ (u ++ sp') := List.mem_of_head? hc
    simp only [List.mem_append] at this
    rcases this with h | h | h
    · exact (hsp0 _ (hsp _ h)).2
    · exact (huc _ h).2.1
    · exact (hsp0 _ (hsp' _ h)).2
  have h1 := strtoul_spec hws hsg hds hne hr
  unfold parse
  dsimp only
  rw [takeWhile_noNul hnn, h1]
  dsimp only
  by_cases hu0 : u = []
  · subst hu0
    rw [List.nil_append, skipSpaces_all (by intro c hc; simp at hc; rcases hc with h | h; exacts [hsp _ h, hsp' _ h])]
    have := unit_spec hu (sp := []) (by simp)
    dsimp only at this
    rw [List.append_nil] at this
    rw [this.1, mulPow_eq _ _ _ (signedVal_lt _ _), this.2]
    simp [skipSpaces]; rfl
  · rw [skipSpaces_append hsp (by
      intro c hc
      cases u with
      | nil => exact absurd rfl hu0
      | cons x u => simp at hc; subst hc; exact (huc _ (by simp)).1)]
    have := unit_spec hu hsp'
    dsimp only at this
    rw [this.1, mulPow_eq _ _ _ (signedVal_lt _ _), this.2, skipSpaces_all hsp']
    simp; rfl

/-- **C38, value, the usual case**: no sign, and the result fits: it is exactly the number times the multiplier. -/
theorem C38_exact {d : Char} {ws ds sp u sp' : List Char} {m : Nat}
    (hws : ∀ c ∈ ws, isSpace c = true) (hds : ∀ c ∈ ds, isDigit c = true) (hne : ds ≠ [])
    (hsp : ∀ c ∈ sp, c = ' ') (hu : UnitMult d u m) (hsp' : ∀ c ∈ sp', c = ' ')
    (hn : num ds < 2 ^ 64) (hfit : num ds * m < 2 ^ 64) :
    parse (ws ++ (ds ++ (sp ++ (u ++ sp')))) d = (num ds * m, true) := by
  have := C38_value hws Sign.none hds hne hsp hu hsp'
  rw [List.nil_append] at this
  rw [this]
  unfold signedVal
  rw [if_neg (by omega)]
  simp only [Bool.false_eq_true, if_false]
  rw [Nat.mod_eq_of_lt hfit]

theorem skip_split (s : List Char) : ∃ sp, (∀ c ∈ sp, c = ' ') ∧ s = sp ++ skipSpaces s := by
  refine ⟨s.takeWhile (· = ' '), ?_, ?_⟩
  · intro c hc
    have := List.mem_takeWhile_imp hc
    simpa using this
  · exact (List.takeWhile_append_dropWhile).symm

theorem sign_split (s : List Char) : ∃ sg, Sign sg (sign s).1 ∧ s = sg ++ (sign s).2 := by
  unfold sign
  split
  · exact ⟨['-'], .minus, rfl⟩
  · exact ⟨['+'], .plus, rfl⟩
  · exact ⟨[], .none, rfl⟩

/-- **C38, rejection.** Only size strings are accepted, except that the number may be missing altogether
(then the result is 0). -/
theorem C38_accepts_only {d : Char} {s : List Char} {v : Nat} (hnn : NoNul s) (h : parse s d = (v, true)) :
    (∃ ws sg ds sp u sp' neg m, s = ws ++ (sg ++ (ds ++ (sp ++ (u ++ sp')))) ∧ (∀ c ∈ ws, isSpace c = true) ∧ Sign sg neg ∧
      (∀ c ∈ ds, isDigit c = true) ∧ ds ≠ [] ∧ (∀ c ∈ sp, c = ' ') ∧ UnitMult d u m ∧ (∀ c ∈ sp', c = ' ') ∧
      v = signedVal neg (num ds) * m % 2 ^ 64) ∨
    (∃ sp u sp' m, s = sp ++ (u ++ sp') ∧ (∀ c ∈ sp, c = ' ') ∧ UnitMult d u m ∧ (∀ c ∈ sp', c = ' ') ∧ v = 0) := by
  unfold parse at h
  rw [takeWhile_noNul hnn] at h
  dsimp only at h
  simp only [Prod.mk.injEq, decide_eq_true_eq] at h
  obtain ⟨hv, hend⟩ := h
  obtain ⟨sp, hsp, hs1⟩ := skip_split (strtoul s).2
  have huc := unit_complete d (skipSpaces (strtoul s).2)
  dsimp only at huc
  obtain ⟨u, m, hs2, hu, hm⟩ := huc
  generalize hw : byteOf d (baseOf (powerOf (skipSpaces (strtoul s).2)).1 (powerOf (skipSpaces (strtoul s).2)).2).1
    (powerOf (skipSpaces (strtoul s).2)).1
    (baseOf (powerOf (skipSpaces (strtoul s).2)).1 (powerOf (skipSpaces (strtoul s).2)).2).2 = w at *
  have hsp' : ∀ c ∈ w.2.2, c = ' ' := by
    obtain ⟨sp', h1, h2⟩ := skip_split w.2.2
    rw [hend, List.append_nil] at h2
    rw [h2]; exact h1
  by_cases hd : (sign (s.dropWhile isSpace)).2.takeWhile isDigit = []
  · right
    have hst : strtoul s = (0, s) := by unfold strtoul; simp only [hd, if_true]
    rw [hst] at hs1 hs2 hv
    refine ⟨sp, u, w.2.2, m, ?_, hsp, hu, hsp', ?_⟩
    · exact hs1.trans (by rw [← hs2])
    · rw [← hv]
      rw [mulPow_eq _ _ _ (show (0, s).1 < W by show 0 < W; decide)]; simp
  · left
    obtain ⟨sg, hsg, hsgs⟩ := sign_split (s.dropWhile isSpace)
    refine ⟨s.takeWhile isSpace, sg, _, sp, u, w.2.2, _, m, ?_, ?_, hsg, ?_, hd, hsp, hu, hsp', ?_⟩
    · have h3 : (strtoul s).2 = (sign (s.dropWhile isSpace)).2.dropWhile isDigit := by
        unfold strtoul; simp only [hd, if_false]
      rw [← hs2, ← hs1, h3, List.takeWhile_append_dropWhile, ← hsgs, List.takeWhile_append_dropWhile]
    · intro c hc; exact List.mem_takeWhile_imp hc
    · intro c hc; exact List.mem_takeWhile_imp hc
    · have h3 : (strtoul s).1 = signedVal (sign (s.dropWhile isSpace)).1 (num ((sign (s.dropWhile isSpace)).2.takeWhile isDigit)) := by
        unfold strtoul; simp only [hd, if_false, digitsVal_eq]; rfl
      rw [← hv, h3, mulPow_eq _ _ _ (signedVal_lt _ _), hm]; rfl

/-- **C38, what is not rejected.** A string without any number is accepted as 0, a negative number wraps around, and so does a
product that does not fit. -/
theorem C38_accepts_malformed :
    parse [] 'M' = (0, true) ∧ parse "GiB".toList ' ' = (0, true) ∧ parse "-1".toList ' ' = (2 ^ 64 - 1, true) ∧
    parse "16384 PiB".toList ' ' = (0, true) := by
  decide +kernel

/-! Concrete cases, and the documentation's examples. -/
example : parse "343KB".toList ' ' = (343000, true) := by decide +kernel
example : parse "  44 GiB  ".toList ' ' = (44 * 1024 ^ 3, true) := by decide +kernel
example : parse "10".toList 'M' = (10 * 1024 ^ 2, true) := by decide +kernel
example : parse "10 xB".toList 'M' = (10 * 1024 ^ 2, false) := by decide +kernel
example : (∀ c ∈ "  ".toList, isSpace c = true) ∧ (∀ c ∈ "44".toList, isDigit c = true) ∧
    UnitMult ' ' ['G', 'i', 'B'] (1024 ^ 3) ∧ num "44".toList = 44 :=
  ⟨by decide, by decide, .iecB _ _ _ 3 rfl (Or.inl rfl) (Or.inr rfl), by decide⟩

end Stxxl.ParseUnits
