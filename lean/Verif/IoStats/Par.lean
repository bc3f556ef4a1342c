import Verif.IoStats.Inv
import Mathlib.Data.Int.Interval
import Mathlib.Order.Interval.Finset.Basic
import Mathlib.Algebra.Order.BigOperators.Group.Finset

/-! The parallel times, when sections are executed in the order of their times. -/

namespace Stxxl.IoStats

open Finset

/-- Every section is executed at a time that is not before the time of the section executed before it (`t` is the time of the last
section). Sections that are not possible do not count. -/
def TimeOrdered (ops : List Op) : Int → St → List (Nat × Bool) → Prop
  | _, _, [] => True
  | t, st, (i, fin) :: es =>
    match ops[i]? with
    | none => TimeOrdered ops t st es
    | some op =>
      if fin = false then
        if st.sS i < 2 then t ≤ op.s ∧ TimeOrdered ops op.s (step ops st i fin) es else TimeOrdered ops t st es
      else if st.fS i < 3 ∧ (op.racy = true ∨ st.sS i = 2) then t ≤ op.f ∧ TimeOrdered ops op.f (step ops st i fin) es
      else TimeOrdered ops t st es

/-- Has the group been updated by the start (finish) of operation `i`? -/
def Started (ops : List Op) (st : St) (x : Idx) (i : Nat) : Prop :=
  ∃ op k, ops[i]? = some op ∧ ofs op.kind x = some k ∧ k < st.sS i
def Finished (ops : List Op) (st : St) (x : Idx) (i : Nat) : Prop :=
  ∃ op k, ops[i]? = some op ∧ ofs op.kind x = some k ∧ k + 1 < st.fS i

/-- Time slot `[u, u+1)` is covered by an operation of the group, as far as known. -/
def Cov (ops : List Op) (st : St) (x : Idx) (u : Int) : Prop :=
  ∃ i op, ops[i]? = some op ∧ Started ops st x i ∧ op.s ≤ u ∧ (Finished ops st x i → u < op.f)

open Classical in
/-- Number of covered time slots before `b`. -/
noncomputable def covered (P : Int → Prop) (b : Int) : Int := ((Ico (0 : Int) b).filter P).card

theorem covered_step {A B : Int → Prop} {b n : Int} {c : Prop} [Decidable c] (h0 : 0 ≤ b) (hn : b ≤ n)
    (h1 : ∀ u, 0 ≤ u → u < b → (B u ↔ A u)) (h2 : ∀ u, b ≤ u → u < n → (B u ↔ c)) :
    covered B n = covered A b + (if c then n - b else 0) := by
  classical
  unfold covered
  rw [← Ico_union_Ico_eq_Ico h0 hn, filter_union, card_union_of_disjoint]
  · have e1 : (Ico 0 b).filter B = (Ico 0 b).filter A := by
      refine filter_congr ?_
      intro u hu
      exact h1 u (mem_Ico.mp hu).1 (mem_Ico.mp hu).2
    have e2 : (Ico b n).filter B = if c then Ico b n else ∅ := by
      split
      · rename_i hc
        refine filter_true_of_mem ?_
        intro u hu; exact (h2 u (mem_Ico.mp hu).1 (mem_Ico.mp hu).2).mpr hc
      · rename_i hc
        refine filter_false_of_mem ?_
        intro u hu hB; exact hc ((h2 u (mem_Ico.mp hu).1 (mem_Ico.mp hu).2).mp hB)
    have e1' : ((Ico 0 b).filter B).card = ((Ico 0 b).filter A).card := by rw [e1]
    have e2' : ((Ico b n).filter B).card = (if c then Ico b n else ∅).card := by rw [e2]
    push_cast
    convert congrArg₂ (fun (p q : Nat) => (p : Int) + q) e1' e2' using 2
    split
    · rw [Int.card_Ico]; omega
    · simp
  · refine disjoint_filter_filter ?_
    rw [Finset.disjoint_left]
    intro u hu hv
    have := (mem_Ico.mp hu).2; have := (mem_Ico.mp hv).1; omega

/-- Invariant for time-ordered runs: `now` is the time of the last section. -/
structure PInv (ops : List Op) (st : St) (now : Int) : Prop where
  now0 : 0 ≤ now
  stages : ∀ i op, ops[i]? = some op → 0 < st.fS i → st.sS i = 2
  begin0 : ∀ x, 0 ≤ (st.m x).begin_ ∧ (st.m x).begin_ ≤ now
  started : ∀ x i op, ops[i]? = some op → Started ops st x i → op.s ≤ (st.m x).begin_
  finished : ∀ x i op, ops[i]? = some op → Finished ops st x i → op.f ≤ (st.m x).begin_
  active : ∀ x, (st.m x).acc ≠ 0 ↔ ∃ i, Started ops st x i ∧ ¬ Finished ops st x i
  p : ∀ x, (st.m x).p = covered (Cov ops st x) (st.m x).begin_

theorem ofs_lt {k : Kind} {x : Idx} {n : Nat} (h : ofs k x = some n) : n < 2 := by
  unfold ofs at h
  split at h <;> simp at h <;> omega

theorem finished_started {ops : List Op} {st : St} {now : Int} (P : PInv ops st now) {x : Idx} {i : Nat} (h : Finished ops st x i) :
    Started ops st x i := by
  obtain ⟨op, k, h1, h2, h3⟩ := h
  exact ⟨op, k, h1, h2, by rw [P.stages i op h1 (by omega)]; exact ofs_lt h2⟩

/-- Number of operations that are active in the group. -/
theorem acc_ne_zero {ops : List Op} {st : St} (I : Inv ops st) (hs : ∀ i op, ops[i]? = some op → 0 < st.fS i → st.sS i = 2) (x : Idx) :
    (st.m x).acc ≠ 0 ↔ ∃ i, Started ops st x i ∧ ¬ Finished ops st x i := by
  rw [I.acc x]
  unfold tot
  have hnn : ∀ i ∈ range ops.length, (0 : Int) ≤ (match ops[i]? with
      | some op => stIn x op (st.sS i) (st.fS i) - finIn x op (st.sS i) (st.fS i)
      | none => 0) := by
    intro i _
    cases h : ops[i]? with
    | none => simp
    | some op =>
      dsimp only
      unfold stIn finIn
      cases ho : ofs op.kind x with
      | none => simp
      | some k =>
        have hk := ofs_lt ho
        dsimp only
        by_cases hf : k + 1 < st.fS i
        · have := hs i op h (by omega)
          rw [if_pos hf, if_pos (by omega)]; simp
        · rw [if_neg hf]; split <;> simp
  refine (not_congr (sum_eq_zero_iff_of_nonneg hnn)).trans ?_
  constructor
  · intro h
    push Not at h
    obtain ⟨i, hi, hne⟩ := h
    refine ⟨i, ?_⟩
    cases ho : ops[i]? with
    | none => rw [ho] at hne; simp at hne
    | some op =>
      rw [ho] at hne
      dsimp only at hne
      unfold stIn finIn at hne
      cases hk : ofs op.kind x with
      | none => rw [hk] at hne; simp at hne
      | some k =>
        rw [hk] at hne
        dsimp only at hne
        by_cases h1 : k < st.sS i
        · by_cases h2 : k + 1 < st.fS i
          · rw [if_pos h1, if_pos h2] at hne; simp at hne
          · refine ⟨⟨op, k, ho, hk, h1⟩, ?_⟩
            rintro ⟨op', k', e1, e2, e3⟩
            rw [ho] at e1; simp only [Option.some.injEq] at e1; subst e1
            rw [hk] at e2; simp only [Option.some.injEq] at e2; subst e2
            exact h2 e3
        · by_cases h2 : k + 1 < st.fS i
          · have := hs i op ho (by omega); have := ofs_lt hk; omega
          · rw [if_neg h1, if_neg h2] at hne; simp at hne
  · rintro ⟨i, ⟨op, k, h1, h2, h3⟩, h4⟩ hall
    have hi : i < ops.length := by
      by_contra hn
      rw [List.getElem?_eq_none (by omega)] at h1; simp at h1
    have := hall i (mem_range.mpr hi)
    have hnf : ¬ k + 1 < st.fS i := fun e => h4 ⟨op, k, h1, h2, e⟩
    rw [h1] at this
    simp [stIn, finIn, h2, h3, hnf] at this

theorem pinv_start {ops : List Op} {st : St} {i : Nat} {op : Op} {now : Int} (I : Inv ops st) (P : PInv ops st now)
    (h : ops[i]? = some op) (hk : st.sS i < 2) (ht : now ≤ op.s) : PInv ops (startSec op i (st.sS i) st) op.s := by
  have I' := inv_start I h hk
  have hS : (startSec op i (st.sS i) st).sS = Function.update st.sS i (st.sS i + 1) := rfl
  have hF : (startSec op i (st.sS i) st).fS = st.fS := by
    unfold startSec countStart; dsimp only; split
    · split <;> rfl
    · rfl
  have hm : ∀ x, (startSec op i (st.sS i) st).m x =
      if ofs op.kind x = some (st.sS i) then (st.m x).start op.s else st.m x := fun x => rfl
  have hf0 : st.fS i = 0 := by
    by_contra hn
    have := P.stages i op h (by omega); omega
  have hst : ∀ j op', ops[j]? = some op' → 0 < (startSec op i (st.sS i) st).fS j → (startSec op i (st.sS i) st).sS j = 2 := by
    intro j op' hj hf
    rw [hF] at hf
    have hji : j ≠ i := by rintro rfl; omega
    rw [hS, Function.update_of_ne hji]; exact P.stages j op' hj hf
  have hfin : ∀ x j, Finished ops (startSec op i (st.sS i) st) x j ↔ Finished ops st x j := by
    intro x j; unfold Finished; rw [hF]
  have hstd : ∀ x j, Started ops (startSec op i (st.sS i) st) x j ↔
      (Started ops st x j ∨ (j = i ∧ ofs op.kind x = some (st.sS i))) := by
    intro x j
    unfold Started
    rw [hS]
    by_cases hji : j = i
    · subst hji
      rw [Function.update_self]
      constructor
      · rintro ⟨o, k, h1, h2, h3⟩
        rw [h] at h1; simp only [Option.some.injEq] at h1; subst h1
        by_cases hlt : k < st.sS j
        · exact Or.inl ⟨op, k, h, h2, hlt⟩
        · exact Or.inr ⟨rfl, by rw [h2]; congr 1; omega⟩
      · rintro (⟨o, k, h1, h2, h3⟩ | ⟨_, h2⟩)
        · exact ⟨o, k, h1, h2, by omega⟩
        · exact ⟨op, _, h, h2, by omega⟩
    · rw [Function.update_of_ne hji]
      simp [hji]
  refine ⟨by have := P.now0; omega, hst, ?_, ?_, ?_, acc_ne_zero I' hst, ?_⟩
  · intro x
    rw [hm]
    have := P.begin0 x; have := P.now0
    split
    · simp only [Meter.start]; omega
    · omega
  · intro x j op' hj hsj
    rw [hm]
    have hb := P.begin0 x
    rcases (hstd x j).mp hsj with h1 | ⟨rfl, h2⟩
    · have := P.started x j op' hj h1
      split
      · simp only [Meter.start]; omega
      · exact this
    · rw [h] at hj; simp only [Option.some.injEq] at hj; subst hj
      rw [if_pos h2]; simp [Meter.start]
  · intro x j op' hj hfj
    have := P.finished x j op' hj ((hfin x j).mp hfj)
    have hb := P.begin0 x
    rw [hm]
    split
    · simp only [Meter.start]; omega
    · exact this
  · intro x
    rw [hm]
    by_cases hx : ofs op.kind x = some (st.sS i)
    · rw [if_pos hx]
      have hb := P.begin0 x
      simp only [Meter.start]
      rw [P.p x]
      refine (covered_step hb.1 (by omega) ?_ ?_).symm
      · intro u hu0 hub
        constructor
        · rintro ⟨j, o, h1, h2, h3, h4⟩
          rcases (hstd x j).mp h2 with h2' | ⟨rfl, _⟩
          · exact ⟨j, o, h1, h2', h3, fun hf => h4 ((hfin x j).mpr hf)⟩
          · rw [h] at h1; simp only [Option.some.injEq] at h1; subst h1
            omega
        · rintro ⟨j, o, h1, h2, h3, h4⟩
          exact ⟨j, o, h1, (hstd x j).mpr (Or.inl h2), h3, fun hf => h4 ((hfin x j).mp hf)⟩
      · intro u hub hun
        rw [P.active x]
        constructor
        · rintro ⟨j, o, h1, h2, h3, h4⟩
          rcases (hstd x j).mp h2 with h2' | ⟨rfl, _⟩
          · refine ⟨j, h2', fun hf => ?_⟩
            have := P.finished x j o h1 hf
            have := h4 ((hfin x j).mpr hf)
            omega
          · rw [h] at h1; simp only [Option.some.injEq] at h1; subst h1
            omega
        · rintro ⟨j, h2, h4⟩
          obtain ⟨o, k, h1, _⟩ := id h2
          have := P.started x j o h1 h2
          exact ⟨j, o, h1, (hstd x j).mpr (Or.inl h2), by omega, fun hf => absurd ((hfin x j).mp hf) h4⟩
    · rw [if_neg hx, P.p x]
      congr 1
      funext u
      refine propext ?_
      constructor
      · rintro ⟨j, o, h1, h2, h3, h4⟩
        exact ⟨j, o, h1, (hstd x j).mpr (Or.inl h2), h3, fun hf => h4 ((hfin x j).mp hf)⟩
      · rintro ⟨j, o, h1, h2, h3, h4⟩
        rcases (hstd x j).mp h2 with h2' | ⟨_, h5⟩
        · exact ⟨j, o, h1, h2', h3, fun hf => h4 ((hfin x j).mpr hf)⟩
        · exact absurd h5 hx

theorem pinv_finish {ops : List Op} {st : St} {i : Nat} {op : Op} {now : Int} (I : Inv ops st) (P : PInv ops st now)
    (h : ops[i]? = some op) (hk : st.fS i < 3) (hs2 : st.sS i = 2) (ht : now ≤ op.f) :
    PInv ops (finishSec op i (st.fS i) st) op.f := by
  have I' := inv_finish I h
  have hF : (finishSec op i (st.fS i) st).fS = Function.update st.fS i (st.fS i + 1) := rfl
  have hS : (finishSec op i (st.fS i) st).sS = st.sS := by
    unfold finishSec countCancel; dsimp only; split
    · split <;> rfl
    · rfl
  have hm : ∀ x, (finishSec op i (st.fS i) st).m x =
      if 0 < st.fS i ∧ ofs op.kind x = some (st.fS i - 1) then (st.m x).finish op.f else st.m x := fun x => rfl
  have hst : ∀ j op', ops[j]? = some op' → 0 < (finishSec op i (st.fS i) st).fS j → (finishSec op i (st.fS i) st).sS j = 2 := by
    intro j op' hj hf
    rw [hS]
    by_cases hji : j = i
    · rw [hji]; exact hs2
    · rw [hF, Function.update_of_ne hji] at hf; exact P.stages j op' hj hf
  have hstd : ∀ x j, Started ops (finishSec op i (st.fS i) st) x j ↔ Started ops st x j := by
    intro x j; unfold Started; rw [hS]
  have hfin : ∀ x j, Finished ops (finishSec op i (st.fS i) st) x j ↔
      (Finished ops st x j ∨ (j = i ∧ 0 < st.fS i ∧ ofs op.kind x = some (st.fS i - 1))) := by
    intro x j
    unfold Finished
    rw [hF]
    by_cases hji : j = i
    · subst hji
      rw [Function.update_self]
      constructor
      · rintro ⟨o, k, h1, h2, h3⟩
        rw [h] at h1; simp only [Option.some.injEq] at h1; subst h1
        by_cases hlt : k + 1 < st.fS j
        · exact Or.inl ⟨op, k, h, h2, hlt⟩
        · exact Or.inr ⟨rfl, by omega, by rw [h2]; congr 1; omega⟩
      · rintro (⟨o, k, h1, h2, h3⟩ | ⟨_, h2, h3⟩)
        · exact ⟨o, k, h1, h2, by omega⟩
        · exact ⟨op, _, h, h3, by omega⟩
    · rw [Function.update_of_ne hji]
      simp [hji]
  refine ⟨by have := P.now0; omega, hst, ?_, ?_, ?_, acc_ne_zero I' hst, ?_⟩
  · intro x
    rw [hm]
    have := P.begin0 x; have := P.now0
    split
    · simp only [Meter.finish]; omega
    · omega
  · intro x j op' hj hsj
    rw [hm]
    have hb := P.begin0 x
    have := P.started x j op' hj ((hstd x j).mp hsj)
    split
    · simp only [Meter.finish]; omega
    · exact this
  · intro x j op' hj hfj
    have hb := P.begin0 x
    rw [hm]
    rcases (hfin x j).mp hfj with h1 | ⟨rfl, h2⟩
    · have := P.finished x j op' hj h1
      split
      · simp only [Meter.finish]; omega
      · exact this
    · rw [h] at hj; simp only [Option.some.injEq] at hj; subst hj
      rw [if_pos h2]; simp [Meter.finish]
  · intro x
    rw [hm]
    by_cases hx : 0 < st.fS i ∧ ofs op.kind x = some (st.fS i - 1)
    · rw [if_pos hx]
      have hb := P.begin0 x
      simp only [Meter.finish]
      rw [P.p x]
      refine (covered_step hb.1 (by omega) ?_ ?_).symm
      · intro u hu0 hub
        constructor
        · rintro ⟨j, o, h1, h2, h3, h4⟩
          exact ⟨j, o, h1, (hstd x j).mp h2, h3, fun hf => h4 ((hfin x j).mpr (Or.inl hf))⟩
        · rintro ⟨j, o, h1, h2, h3, h4⟩
          refine ⟨j, o, h1, (hstd x j).mpr h2, h3, fun hf => ?_⟩
          rcases (hfin x j).mp hf with hf' | ⟨rfl, _⟩
          · exact h4 hf'
          · rw [h] at h1; simp only [Option.some.injEq] at h1; subst h1
            omega
      · intro u hub hun
        rw [P.active x]
        constructor
        · rintro ⟨j, o, h1, h2, h3, h4⟩
          refine ⟨j, (hstd x j).mp h2, fun hf => ?_⟩
          have := P.finished x j o h1 hf
          have := h4 ((hfin x j).mpr (Or.inl hf))
          omega
        · rintro ⟨j, h2, h4⟩
          obtain ⟨o, k, h1, _⟩ := id h2
          have := P.started x j o h1 h2
          refine ⟨j, o, h1, (hstd x j).mpr h2, by omega, fun hf => ?_⟩
          rcases (hfin x j).mp hf with hf' | ⟨rfl, _⟩
          · exact absurd hf' h4
          · rw [h] at h1; simp only [Option.some.injEq] at h1; subst h1
            omega
    · rw [if_neg hx, P.p x]
      congr 1
      funext u
      refine propext ?_
      constructor
      · rintro ⟨j, o, h1, h2, h3, h4⟩
        refine ⟨j, o, h1, (hstd x j).mpr h2, h3, fun hf => ?_⟩
        rcases (hfin x j).mp hf with hf' | ⟨_, h5⟩
        · exact h4 hf'
        · exact absurd h5 hx
      · rintro ⟨j, o, h1, h2, h3, h4⟩
        exact ⟨j, o, h1, (hstd x j).mp h2, h3, fun hf => h4 ((hfin x j).mpr (Or.inl hf))⟩

theorem pinv_init (ops : List Op) : PInv ops St.init 0 := by
  have hst : ∀ i op, ops[i]? = some op → 0 < St.init.fS i → St.init.sS i = 2 := by
    intro i op _ h; simp [St.init] at h
  have hn : ∀ x i, ¬ Started ops St.init x i := by
    rintro x i ⟨op, k, _, _, h⟩; simp [St.init] at h
  refine ⟨Int.le_refl _, hst, ?_, ?_, ?_, acc_ne_zero (inv_init ops) hst, ?_⟩
  · intro x; simp [St.init, Meter.init]
  · intro x i op _ h; exact absurd h (hn x i)
  · rintro x i op _ ⟨o, k, _, _, h⟩; simp [St.init] at h
  · intro x
    show (0 : Int) = covered _ 0
    unfold covered
    rw [Ico_self, filter_empty, card_empty]; rfl

theorem pinv_run {ops : List Op} (hna : ∀ op ∈ ops, op.racy = false) : ∀ (es : List (Nat × Bool)) (st : St) (now : Int), Inv ops st →
    PInv ops st now → TimeOrdered ops now st es → ∃ now', PInv ops (run ops st es) now' := by
  intro es
  induction es with
  | nil => intro st now _ P _; exact ⟨now, P⟩
  | cons e es ih =>
    intro st now I P hT
    obtain ⟨i, fin⟩ := e
    rw [run]
    rw [TimeOrdered] at hT
    cases h : ops[i]? with
    | none =>
      simp only [h] at hT
      have : step ops st i fin = st := by simp [step, h]
      rw [this]
      exact ih st now I P hT
    | some op =>
      simp only [h] at hT
      have hr := hna op (List.mem_of_getElem? h)
      cases fin with
      | false =>
        simp only [if_true] at hT
        by_cases hk : st.sS i < 2
        · rw [if_pos hk] at hT
          have hs : step ops st i false = startSec op i (st.sS i) st := by simp [step, h, hk]
          rw [hs] at hT ⊢
          exact ih _ _ (inv_start I h hk) (pinv_start I P h hk hT.1) hT.2
        · rw [if_neg hk] at hT
          have hs : step ops st i false = st := by simp [step, h, hk]
          rw [hs]; exact ih st now I P hT
      | true =>
        simp only [reduceCtorEq, if_false] at hT
        by_cases hk : st.fS i < 3 ∧ (op.racy = true ∨ st.sS i = 2)
        · rw [if_pos hk] at hT
          have hs : step ops st i true = finishSec op i (st.fS i) st := by
            simp only [step, h, reduceCtorEq, if_false]; rw [if_pos hk]
          rw [hs] at hT ⊢
          have h2 : st.sS i = 2 := by
            rcases hk.2 with h' | h'
            · rw [hr] at h'; simp at h'
            · exact h'
          exact ih _ _ (inv_finish I h) (pinv_finish I P h hk.1 h2 hT.1) hT.2
        · rw [if_neg hk] at hT
          have hs : step ops st i true = st := by
            simp only [step, h, reduceCtorEq, if_false]; rw [if_neg hk]
          rw [hs]; exact ih st now I P hT

end Stxxl.IoStats
