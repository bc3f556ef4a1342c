import Verif.Config.Model
import Verif.ParseUnits.Props

/-! Lemmas for `Verif.Config.Props`: splitting and numbers. -/

namespace Stxxl.Config

open Stxxl.ParseUnits

theorem cut_none {sep : Char} : ∀ {s : Str}, sep ∉ s → cut sep s = none
  | [], _ => rfl
  | c :: s, h => by
    have h1 : c ≠ sep := fun e => h (by simp [e])
    have h2 : sep ∉ s := fun e => h (by simp [e])
    simp [cut, h1, cut_none h2]

theorem cut_some {sep : Char} : ∀ {a : Str} (b : Str), sep ∉ a → cut sep (a ++ sep :: b) = some (a, b)
  | [], b, _ => by simp [cut]
  | c :: a, b, h => by
    have h1 : c ≠ sep := fun e => h (by simp [e])
    have h2 : sep ∉ a := fun e => h (by simp [e])
    simp [cut, h1, cut_some b h2]

theorem split_eq {k v : Str} (h : '=' ∉ k) : split (k ++ '=' :: v) '=' 2 2 = [k, v] := by
  unfold split
  have : splitGo '=' (2 - 1) (k ++ '=' :: v) = [k, v] := by
    show splitGo '=' 1 _ = _
    simp [splitGo, cut_some v h]
  rw [if_neg (by simp), this]; rfl

/-- Words preceded by one space each. -/
def body (ts : List Str) : Str := ts.flatMap (fun t => ' ' :: t)

theorem splitGo_body : ∀ (ts : List Str) (t : Str) (k : Nat), ts.length ≤ k → ' ' ∉ t → (∀ u ∈ ts, ' ' ∉ u) →
    splitGo ' ' k (t ++ body ts) = t :: ts
  | [], t, k, _, ht, _ => by
    cases k <;> simp [splitGo, body, cut_none ht]
  | u :: us, t, 0, hk, _, _ => by simp at hk
  | u :: us, t, k + 1, hk, ht, hu => by
    have : t ++ body (u :: us) = t ++ ' ' :: (u ++ body us) := by simp [body]
    rw [this]
    simp only [splitGo, cut_some _ ht]
    rw [splitGo_body us u k (by simpa using hk) (hu u (by simp)) (fun x hx => hu x (by simp [hx]))]

theorem applyAll_append (c : DiskConfig) : ∀ (xs ys : List Str), applyAll c (xs ++ ys) = (applyAll c xs).bind (applyAll · ys) := by
  intro xs
  induction xs generalizing c with
  | nil => intro ys; rfl
  | cons x xs ih =>
    intro ys
    simp only [List.cons_append, applyAll]
    cases h : applyParam c x with
    | ok c' => simp only [Res.bind]; exact ih c' ys
    | runtimeError => rfl
    | outOfRange => rfl

theorem ofNat_digit {n : Nat} (h : n < 10) : (Char.ofNat (48 + n)).toNat = 48 + n := by
  have : n = 0 ∨ n = 1 ∨ n = 2 ∨ n = 3 ∨ n = 4 ∨ n = 5 ∨ n = 6 ∨ n = 7 ∨ n = 8 ∨ n = 9 := by omega
  rcases this with h | h | h | h | h | h | h | h | h | h <;> subst h <;> decide

theorem isDigit_digit {n : Nat} (h : n < 10) : isDigit (Char.ofNat (48 + n)) = true := by
  have : n = 0 ∨ n = 1 ∨ n = 2 ∨ n = 3 ∨ n = 4 ∨ n = 5 ∨ n = 6 ∨ n = 7 ∨ n = 8 ∨ n = 9 := by omega
  rcases this with h | h | h | h | h | h | h | h | h | h <;> subst h <;> decide

theorem decGo_digits : ∀ (f n : Nat), ∀ c ∈ decGo f n, isDigit c = true
  | 0, n => by simp [decGo]
  | f + 1, n => by
    intro c hc
    rw [decGo] at hc
    split at hc
    · rename_i h; simp at hc; subst hc; exact isDigit_digit h
    · simp only [List.mem_append, List.mem_singleton] at hc
      rcases hc with hc | hc
      · exact decGo_digits f (n / 10) c hc
      · subst hc; exact isDigit_digit (by omega)

theorem decGo_val : ∀ (f n : Nat), n < f → digitsVal (decGo f n) = n
  | 0, n, h => by omega
  | f + 1, n, h => by
    rw [decGo]
    have h0 : '0'.toNat = 48 := by decide
    split
    · rename_i hn
      simp [digitsVal, ofNat_digit hn, h0]
    · rename_i hn
      have ih := decGo_val f (n / 10) (by omega)
      unfold digitsVal at ih ⊢
      rw [List.foldl_append, ih]
      simp only [List.foldl_cons, List.foldl_nil, ofNat_digit (show n % 10 < 10 by omega), h0]
      omega

theorem dec_ne (n : Nat) : dec n ≠ [] := by
  unfold dec; rw [decGo]; split <;> simp

theorem digit_facts {c : Char} (h : isDigit c = true) : c ≠ ' ' ∧ c ≠ '\x00' ∧ c ≠ '=' := by
  refine ⟨?_, ?_, ?_⟩ <;> rintro rfl <;> revert h <;> decide

theorem number_signed {sg ds : Str} {neg : Bool} (hsg : Sign sg neg) (hds : ∀ c ∈ ds, isDigit c = true) (hne : ds ≠ []) :
    number (sg ++ ds) = some (signedVal neg (num ds)) := by
  have hn : NoNul (sg ++ ds) := by
    intro c hc
    simp only [List.mem_append] at hc
    rcases hc with hc | hc
    · cases hsg <;> simp at hc <;> subst hc <;> decide
    · exact (digit_facts (hds c hc)).2.1
  unfold number
  rw [takeWhile_noNul hn]
  have := strtoul_spec (ws := []) (r := []) (by simp) hsg hds hne (by simp)
  simp only [List.nil_append, List.append_nil] at this
  rw [this]; rfl

theorem number_dec {n : Nat} (h : n < 2 ^ 64) : number (dec n) = some n := by
  have := number_signed (sg := []) (ds := dec n) .none (decGo_digits _ _) (dec_ne n)
  rw [List.nil_append, ← digitsVal_eq, dec, decGo_val _ _ (by omega)] at this
  rw [dec, this, signedVal, if_neg (by omega)]; rfl

theorem number_decInt {q : Int} (h1 : -(2 ^ 31) ≤ q) (h2 : q < 2 ^ 31) : ∃ v, number (decInt q) = some v ∧ toInt v = q := by
  cases q with
  | ofNat n =>
    simp only [Int.ofNat_eq_natCast] at *
    refine ⟨n, number_dec (by omega), ?_⟩
    unfold toInt
    have : n % 2 ^ 32 = n := Nat.mod_eq_of_lt (by omega)
    simp only [this]
    rw [if_pos (by omega)]
  | negSucc n =>
    have hn : n < 2 ^ 31 := by omega
    have := number_signed (sg := ['-']) (ds := dec (n + 1)) .minus (decGo_digits _ _) (dec_ne _)
    rw [← digitsVal_eq, dec, decGo_val _ _ (by omega)] at this
    refine ⟨_, this, ?_⟩
    rw [signedVal, if_neg (by omega), if_pos rfl]
    have h3 : (2 ^ 64 - (n + 1)) % 2 ^ 64 % 2 ^ 32 = 2 ^ 32 - (n + 1) := by omega
    unfold toInt
    simp only [h3]
    rw [if_neg (by omega)]
    omega

theorem decInt_chars (q : Int) : ∀ c ∈ decInt q, c ≠ ' ' ∧ c ≠ '=' := by
  intro c hc
  have hd : ∀ n, c ∈ dec n → c ≠ ' ' ∧ c ≠ '=' := fun n h =>
    ⟨(digit_facts (decGo_digits _ _ c h)).1, (digit_facts (decGo_digits _ _ c h)).2.2⟩
  cases q with
  | ofNat n => exact hd n hc
  | negSucc n =>
    simp only [decInt, List.mem_cons] at hc
    rcases hc with rfl | hc
    · decide
    · exact hd _ hc

end Stxxl.Config
