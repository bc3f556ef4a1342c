import Verif.StatsData.Model
import Mathlib.Tactic.Linarith
import Mathlib.Tactic.Ring
import Mathlib.Tactic.NormNum
import Mathlib.Algebra.Order.Field.Basic
import Mathlib.Algebra.Order.Field.Rat

/-!
# C99: differences of statistics, printing of sizes
-/
namespace Stxxl.StatsData

/-! ## Specification -/

/-- The factor that an ending stands for. -/
def siFactor : List (String × Rat) :=
  [("", 1), ("k", 1000), ("M", 1000 ^ 2), ("G", 1000 ^ 3), ("T", 1000 ^ 4), ("P", 1000 ^ 5), ("E", 1000 ^ 6)]
def iecFactor : List (String × Rat) :=
  [("", 1), ("Ki", 1024), ("Mi", 1024 ^ 2), ("Gi", 1024 ^ 3), ("Ti", 1024 ^ 4), ("Pi", 1024 ^ 5), ("Ei", 1024 ^ 6)]

/-! ## Proofs -/

theorem scaleLoop_ok (rnd : Rat → Rat) (m : Rat) (hm : 0 < m) (hr : ∀ x : Rat, 1 ≤ x → 0 ≤ rnd x ∧ rnd x ≤ 3 / 2 * x) :
    ∀ (j : Nat) (v : Rat) (s k : Nat), j < k → 0 ≤ v → v < m * (2 * m / 3) ^ j →
      ∃ (v' : Rat) (s' : Nat), scaleLoop rnd m k v s = some (v', s') ∧ s' ≤ s + j ∧ 0 ≤ v' ∧ v' < m
  | 0, v, s, 0, hk, _, _ => by omega
  | 0, v, s, k + 1, _, h0, hv => by
    have : v < m := by simpa using hv
    exact ⟨v, s, by simp only [scaleLoop]; rw [if_neg (by linarith)], by omega, h0, this⟩
  | j + 1, v, s, 0, hk, _, _ => by omega
  | j + 1, v, s, k + 1, hk, h0, hv => by
    simp only [scaleLoop]
    by_cases h : v ≥ m
    · rw [if_pos h]
      have hd : 1 ≤ v / m := (le_div_iff₀ hm).2 (by linarith)
      obtain ⟨r1, r2⟩ := hr _ hd
      have hlt : rnd (v / m) < m * (2 * m / 3) ^ j := by
        refine lt_of_le_of_lt r2 ?_
        have e : m * (2 * m / 3) ^ (j + 1) = 2 / 3 * (m * (2 * m / 3) ^ j) * m := by rw [pow_succ]; ring
        rw [e] at hv
        have := (div_lt_iff₀ hm).2 hv
        linarith
      obtain ⟨v', s', h1, h2, h3⟩ := scaleLoop_ok rnd m hm hr j _ (s + 1) k (by omega) r1 hlt
      exact ⟨v', s', h1, by omega, h3⟩
    · rw [if_neg h]
      exact ⟨v, s, rfl, by omega, h0, not_le.1 h⟩

theorem scaleLoop_exact (m : Rat) (hm : 0 < m) : ∀ (k : Nat) (v : Rat) (s : Nat) (v' : Rat) (s' : Nat),
    scaleLoop (fun x => x) m k v s = some (v', s') → s ≤ s' ∧ v = v' * m ^ (s' - s) ∧ (s < s' → 1 ≤ v')
  | 0, v, s, v', s', h => by simp [scaleLoop] at h
  | k + 1, v, s, v', s', h => by
    simp only [scaleLoop] at h
    split at h
    · rename_i hv
      obtain ⟨h1, h2, h3⟩ := scaleLoop_exact m hm k _ _ _ _ h
      have e : s' - s = s' - (s + 1) + 1 := by omega
      refine ⟨by omega, ?_, fun _ => ?_⟩
      · rw [e, pow_succ, ← mul_assoc, ← h2]
        rw [div_mul_cancel₀ _ hm.ne']
      · by_cases hs : s + 1 < s'
        · exact h3 hs
        · have : s' = s + 1 := by omega
          subst this
          have e2 : v / m = v' := by simpa using h2
          rw [← e2, le_div_iff₀ hm]
          linarith
    · simp only [Option.some.injEq, Prod.mk.injEq] at h
      obtain ⟨rfl, rfl⟩ := h
      exact ⟨le_refl _, by simp, fun h => absurd h (by omega)⟩

/-! ## Theorems -/

/-- Differences of snapshots add up: what happened between `a` and `b`, and between `b` and `c`, is what happened between `a` and `c`; adding a
difference to the earlier snapshot gives the later one; nothing happens between a snapshot and itself. -/
theorem C99_differences (a b c : Data) :
    (b.sub a).add (c.sub b) = c.sub a ∧ (b.sub a).add a = b ∧ a.sub a = Data.zero ∧ a.add b = b.add a ∧ Data.zero.add a = a := by
  have bv : ∀ x y z : BitVec 32, y - x + (z - y) = z - x := by
    intro x y z
    apply BitVec.eq_of_toNat_eq
    simp only [BitVec.toNat_add, BitVec.toNat_sub]
    omega
  refine ⟨?_, ?_, ?_, ?_, ?_⟩
  · simp only [Data.add, Data.sub, bv, Data.mk.injEq]
    refine ⟨trivial, trivial, ?_, ?_, trivial, trivial, ?_, ?_, ?_, ?_, ?_, ?_, ?_, ?_, ?_, ?_, ?_⟩ <;> ring
  · cases b
    simp [Data.add, Data.sub, BitVec.sub_add_cancel]
  · simp [Data.sub, Data.zero]
  · simp only [Data.add, Data.mk.injEq]
    refine ⟨BitVec.add_comm _ _, BitVec.add_comm _ _, ?_, ?_, BitVec.add_comm _ _, BitVec.add_comm _ _, ?_, ?_, ?_, ?_, ?_, ?_, ?_, ?_, ?_, ?_, ?_⟩ <;> ring
  · simp [Data.add, Data.zero]

/-- A number of operations is right across a wrap-around of the 32-bit counter, if fewer than 2^32 operations happened in between; every other
entry is the difference. -/
theorem C99_counters (a b : Data) (n k : Nat) (ha : a.reads = BitVec.ofNat 32 n) (hb : b.reads = BitVec.ofNat 32 (n + k)) (hk : k < 2 ^ 32) :
    (b.sub a).reads.toNat = k ∧ (b.sub a).volumeRead = b.volumeRead - a.volumeRead ∧ (b.sub a).volumeWritten = b.volumeWritten - a.volumeWritten ∧
    (b.sub a).pIos = b.pIos - a.pIos ∧ (b.sub a).tWait = b.tWait - a.tWait ∧ (b.sub a).elapsed = b.elapsed - a.elapsed := by
  refine ⟨?_, rfl, rfl, rfl, rfl, rfl⟩
  simp only [Data.sub, ha, hb, BitVec.toNat_sub, BitVec.toNat_ofNat]
  omega

/-- Printing a size ends and never reads outside of the table of endings, for every 64-bit number and however divisions are rounded (by at most half
of the result); the number printed is less than the multiplier. -/
theorem C99_format_safe (rnd : Rat → Rat) (hr : ∀ x : Rat, 1 ≤ x → 0 ≤ rnd x ∧ rnd x ≤ 3 / 2 * x) (d : Rat) (h0 : 0 ≤ d) (hd : d ≤ 2 ^ 64)
    (k : Nat) (hk : 6 < k) :
    (∃ (x : Rat) (e : String), formatSI rnd k d = some (x, e) ∧ 0 ≤ x ∧ x < 1000) ∧
    (∃ (x : Rat) (e : String), formatIEC rnd k d = some (x, e) ∧ 0 ≤ x ∧ x < 1024) := by
  constructor
  · obtain ⟨v, s, h1, h2, h3, h4⟩ := scaleLoop_ok rnd 1000 (by norm_num) hr 6 d 0 k hk h0 (lt_of_le_of_lt hd (by norm_num))
    have hs : s < siEndings.length := by simp [siEndings]; omega
    exact ⟨v, siEndings[s], by simp only [formatSI, format, h1, List.getElem?_eq_getElem hs], h3, h4⟩
  · obtain ⟨v, s, h1, h2, h3, h4⟩ := scaleLoop_ok rnd 1024 (by norm_num) hr 6 d 0 k hk h0 (lt_of_le_of_lt hd (by norm_num))
    have hs : s < iecEndings.length := by simp [iecEndings]; omega
    exact ⟨v, iecEndings[s], by simp only [formatIEC, format, h1, List.getElem?_eq_getElem hs], h3, h4⟩

theorem format_exact (m : Rat) (hm : 0 < m) (endings : List String) (k : Nat) (d x : Rat) (e : String)
    (h : format (fun x => x) m endings k d = some (x, e)) :
    ∃ s : Nat, endings[s]? = some e ∧ d = x * m ^ s ∧ (0 < s → 1 ≤ x) := by
  simp only [format] at h
  split at h
  · rename_i x' s hs
    split at h
    · rename_i e' he
      simp only [Option.some.injEq, Prod.mk.injEq] at h
      obtain ⟨rfl, rfl⟩ := h
      obtain ⟨_, h2, h3⟩ := scaleLoop_exact m hm k d 0 _ _ hs
      exact ⟨s, he, h2, h3⟩
    · simp at h
  · simp at h

/-- With exact divisions (which those by 1024 are) the number printed times what the ending stands for is the size, and the number is at least 1
unless there is no ending. -/
theorem C99_format_value (k : Nat) (d x : Rat) (e : String) :
    (formatSI (fun x => x) k d = some (x, e) → ∃ f : Rat, (e, f) ∈ siFactor ∧ d = x * f ∧ (e ≠ "" → 1 ≤ x)) ∧
    (formatIEC (fun x => x) k d = some (x, e) → ∃ f : Rat, (e, f) ∈ iecFactor ∧ d = x * f ∧ (e ≠ "" → 1 ≤ x)) := by
  constructor
  · intro h
    obtain ⟨s, h1, h2, h3⟩ := format_exact 1000 (by norm_num) _ k d x e h
    refine ⟨1000 ^ s, ?_, h2, fun he => h3 ?_⟩
    · rcases s with _ | _ | _ | _ | _ | _ | _ | s <;> simp [siEndings] at h1 <;> subst h1 <;> simp [siFactor]
    · rcases s with _ | s
      · simp [siEndings] at h1; exact absurd h1 he
      · omega
  · intro h
    obtain ⟨s, h1, h2, h3⟩ := format_exact 1024 (by norm_num) _ k d x e h
    refine ⟨1024 ^ s, ?_, h2, fun he => h3 ?_⟩
    · rcases s with _ | _ | _ | _ | _ | _ | _ | s <;> simp [iecEndings] at h1 <;> subst h1 <;> simp [iecFactor]
    · rcases s with _ | s
      · simp [iecEndings] at h1; exact absurd h1 he
      · omega

/-! ## Non-vacuity -/

example : formatIEC (fun x => x) 7 (3 * 2 ^ 30) = some (3, "Gi") ∧ formatSI (fun x => x) 7 (2 ^ 64) = some (2 ^ 64 / 10 ^ 18, "E") := by decide +kernel

end Stxxl.StatsData
