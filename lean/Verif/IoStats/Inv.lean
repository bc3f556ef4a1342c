import Verif.IoStats.Model
import Mathlib.Algebra.BigOperators.Fin
import Mathlib.Algebra.BigOperators.Group.Finset.Basic
import Mathlib.Algebra.BigOperators.Ring.Finset
import Mathlib.Tactic.Ring
import Mathlib.Tactic.Common

/-! Sums over the operations, and the invariant of the counters and serial times. -/

namespace Stxxl.IoStats

open Finset

/-- Sum over the operations of a contribution that depends on the progress of their calls. -/
def tot (ops : List Op) (sS fS : Nat → Nat) (g : Op → Nat → Nat → Int) : Int :=
  ∑ i ∈ range ops.length, (match ops[i]? with
    | some op => g op (sS i) (fS i)
    | none => 0)

theorem tot_upd {ops : List Op} {sS fS sS' fS' : Nat → Nat} {i : Nat} {op : Op} (g : Op → Nat → Nat → Int)
    (h : ops[i]? = some op) (hs : ∀ j, j ≠ i → sS' j = sS j) (hf : ∀ j, j ≠ i → fS' j = fS j) :
    tot ops sS' fS' g = tot ops sS fS g + (g op (sS' i) (fS' i) - g op (sS i) (fS i)) := by
  have hi : i < ops.length := by
    by_contra hn
    rw [List.getElem?_eq_none (by omega)] at h; simp at h
  unfold tot
  rw [← add_sum_erase _ _ (mem_range.mpr hi), ← add_sum_erase (range ops.length) _ (mem_range.mpr hi)]
  have he : ∑ j ∈ (range ops.length).erase i, (match ops[j]? with
      | some op => g op (sS' j) (fS' j)
      | none => 0) = ∑ j ∈ (range ops.length).erase i, (match ops[j]? with
      | some op => g op (sS j) (fS j)
      | none => 0) := by
    refine sum_congr rfl ?_
    intro j hj
    have := (mem_erase.mp hj).1
    rw [hs j this, hf j this]
  rw [he]
  simp only [h]
  ring

theorem tot_zero (ops : List Op) (g : Op → Nat → Nat → Int) (hg : ∀ op, g op 0 0 = 0) :
    tot ops (fun _ => 0) (fun _ => 0) g = 0 := by
  unfold tot
  refine sum_eq_zero ?_
  intro i _
  split
  · exact hg _
  · rfl

theorem tot_complete {ops : List Op} {st : St} (h : Complete ops st) (g : Op → Nat → Nat → Int) :
    tot ops st.sS st.fS g = (ops.map (fun op => g op 2 3)).sum := by
  unfold tot
  have : ∀ i ∈ range ops.length, (match ops[i]? with
      | some op => g op (st.sS i) (st.fS i)
      | none => 0) = (match ops[i]? with
      | some op => g op 2 3
      | none => 0) := by
    intro i hi
    obtain ⟨h1, h2⟩ := h i (mem_range.mp hi)
    rw [h1, h2]
  rw [sum_congr rfl this]
  clear this h
  induction ops using List.reverseRecOn with
  | nil => simp
  | append_singleton xs x ih =>
    rw [List.length_append, List.length_singleton, sum_range_succ]
    rw [List.map_append, List.sum_append, ← ih]
    congr 1
    · refine sum_congr rfl ?_
      intro i hi
      rw [List.getElem?_append_left (mem_range.mp hi)]
    · simp

/-- Has the group been updated by the start (finish) call? -/
def stIn (x : Idx) (op : Op) (a _b : Nat) : Int :=
  match ofs op.kind x with
  | some k => if k < a then 1 else 0
  | none => 0
def finIn (x : Idx) (op : Op) (_a b : Nat) : Int :=
  match ofs op.kind x with
  | some k => if k + 1 < b then 1 else 0
  | none => 0

/-- Contribution of a read to the number of reads, and of bytes; the same for writes. -/
def cCount (write : Bool) (op : Op) (a b : Nat) : Int :=
  match op.kind with
  | .io w _ cancel _ => if w = write then (if 0 < a then 1 else 0) - (if cancel = true ∧ 0 < b then 1 else 0) else 0
  | .wait _ => 0
def cVol (write : Bool) (op : Op) (a b : Nat) : Int :=
  match op.kind with
  | .io w size cancel _ =>
    if w = write then (if 0 < a then (size : Int) else 0) - (if cancel = true ∧ 0 < b then (size : Int) else 0) else 0
  | .wait _ => 0

/-- The invariant of every run. -/
structure Inv (ops : List Op) (st : St) : Prop where
  acc : ∀ x, (st.m x).acc = tot ops st.sS st.fS (fun op a b => stIn x op a b - finIn x op a b)
  t : ∀ x, (st.m x).t = tot ops st.sS st.fS (fun op a b => finIn x op a b * op.f - stIn x op a b * op.s) +
    (st.m x).acc * (st.m x).begin_
  reads : (st.reads : Int) = tot ops st.sS st.fS (cCount false) % 2 ^ 32
  writes : (st.writes : Int) = tot ops st.sS st.fS (cCount true) % 2 ^ 32
  volR : st.volR = tot ops st.sS st.fS (cVol false)
  volW : st.volW = tot ops st.sS st.fS (cVol true)

theorem inv_init (ops : List Op) : Inv ops St.init := by
  have h0 : ∀ x op, stIn x op 0 0 = 0 ∧ finIn x op 0 0 = 0 := by
    intro x op
    unfold stIn finIn
    split <;> simp
  have hc : ∀ w op, cCount w op 0 0 = 0 ∧ cVol w op 0 0 = 0 := by
    intro w op
    unfold cCount cVol
    split <;> simp
  constructor
  · intro x; rw [show St.init.sS = fun _ => 0 from rfl, show St.init.fS = fun _ => 0 from rfl,
      tot_zero _ _ (by intro op; simp [h0])]; rfl
  · intro x; rw [show St.init.sS = fun _ => 0 from rfl, show St.init.fS = fun _ => 0 from rfl,
      tot_zero _ _ (by intro op; simp [h0])]; rfl
  · rw [show St.init.sS = fun _ => 0 from rfl, show St.init.fS = fun _ => 0 from rfl, tot_zero _ _ (by intro op; simp [hc])]; rfl
  · rw [show St.init.sS = fun _ => 0 from rfl, show St.init.fS = fun _ => 0 from rfl, tot_zero _ _ (by intro op; simp [hc])]; rfl
  · rw [show St.init.sS = fun _ => 0 from rfl, show St.init.fS = fun _ => 0 from rfl, tot_zero _ _ (by intro op; simp [hc])]; rfl
  · rw [show St.init.sS = fun _ => 0 from rfl, show St.init.fS = fun _ => 0 from rfl, tot_zero _ _ (by intro op; simp [hc])]; rfl

theorem inc_cast (n : Nat) (z : Int) (h : (n : Int) = z % 2 ^ 32) : ((inc n : Nat) : Int) = (z + 1) % 2 ^ 32 := by
  unfold inc; omega

theorem decr_cast (n : Nat) (z : Int) (h : (n : Int) = z % 2 ^ 32) : ((decr n : Nat) : Int) = (z - 1) % 2 ^ 32 := by
  unfold decr; omega

theorem inv_start {ops : List Op} {st : St} {i : Nat} {op : Op} (I : Inv ops st) (h : ops[i]? = some op) (hk : st.sS i < 2) :
    Inv ops (startSec op i (st.sS i) st) := by
  have hS : (startSec op i (st.sS i) st).sS = Function.update st.sS i (st.sS i + 1) := rfl
  have hF : (startSec op i (st.sS i) st).fS = st.fS := by
    unfold startSec countStart; dsimp only; split
    · split <;> rfl
    · rfl
  have hu : ∀ g, tot ops (startSec op i (st.sS i) st).sS (startSec op i (st.sS i) st).fS g =
      tot ops st.sS st.fS g + (g op (st.sS i + 1) (st.fS i) - g op (st.sS i) (st.fS i)) := by
    intro g
    rw [tot_upd g h (sS := st.sS) (fS := st.fS) (by intro j hj; rw [hS, Function.update_of_ne hj]) (by intro j _; rw [hF])]
    rw [hS, hF, Function.update_self]
  have hm : ∀ x, (startSec op i (st.sS i) st).m x =
      if ofs op.kind x = some (st.sS i) then (st.m x).start op.s else st.m x := fun x => rfl
  constructor
  · intro x
    rw [hu, hm, ← I.acc x]
    by_cases hx : ofs op.kind x = some (st.sS i)
    · rw [if_pos hx]
      simp [stIn, finIn, hx, Meter.start]
    · rw [if_neg hx]
      have : stIn x op (st.sS i + 1) (st.fS i) = stIn x op (st.sS i) (st.fS i) := by
        unfold stIn
        cases ho : ofs op.kind x with
        | none => rfl
        | some k =>
          have : k ≠ st.sS i := fun e => hx (by rw [ho, e])
          simp only
          by_cases hlt : k < st.sS i
          · rw [if_pos hlt, if_pos (by omega)]
          · rw [if_neg hlt, if_neg (by omega)]
      simp only [this, finIn]; ring
  · intro x
    rw [hu, hm]
    by_cases hx : ofs op.kind x = some (st.sS i)
    · rw [if_pos hx]
      have ht := I.t x
      simp only [Meter.start, stIn, finIn, hx] at *
      rw [ht]
      simp
      ring
    · rw [if_neg hx]
      have : stIn x op (st.sS i + 1) (st.fS i) = stIn x op (st.sS i) (st.fS i) := by
        unfold stIn
        cases ho : ofs op.kind x with
        | none => rfl
        | some k =>
          have : k ≠ st.sS i := fun e => hx (by rw [ho, e])
          simp only
          by_cases hlt : k < st.sS i
          · rw [if_pos hlt, if_pos (by omega)]
          · rw [if_neg hlt, if_neg (by omega)]
      have ht := I.t x
      simp only [this, finIn] at *
      rw [ht]; ring
  · rw [hu]
    have hr := I.reads
    unfold startSec countStart cCount at *
    dsimp only
    by_cases h0 : st.sS i = 0
    · cases hkind : op.kind with
      | wait b => simpa [h0, hkind] using hr
      | io w size c a =>
        cases w with
        | false =>
          have e := inc_cast _ _ hr
          simp [h0, e]
        | true => simpa [h0, hkind] using hr
    · have h1 : 0 < st.sS i := by omega
      rw [if_neg h0]
      cases hkind : op.kind with
      | wait b => simpa [hkind] using hr
      | io w size c a => simpa [hkind, h1] using hr
  · rw [hu]
    have hr := I.writes
    unfold startSec countStart cCount at *
    dsimp only
    by_cases h0 : st.sS i = 0
    · cases hkind : op.kind with
      | wait b => simpa [h0, hkind] using hr
      | io w size c a =>
        cases w with
        | true =>
          have e := inc_cast _ _ hr
          simp [h0, e]
        | false => simpa [h0, hkind] using hr
    · have h1 : 0 < st.sS i := by omega
      rw [if_neg h0]
      cases hkind : op.kind with
      | wait b => simpa [hkind] using hr
      | io w size c a => simpa [hkind, h1] using hr
  · rw [hu]
    have hr := I.volR
    unfold startSec countStart cVol at *
    dsimp only
    by_cases h0 : st.sS i = 0
    · cases hkind : op.kind with
      | wait b => simpa [h0, hkind] using hr
      | io w size c a => cases w <;> simp [h0, hr]
    · have h1 : 0 < st.sS i := by omega
      rw [if_neg h0]
      cases hkind : op.kind with
      | wait b => simpa [hkind] using hr
      | io w size c a => simpa [hkind, h1] using hr
  · rw [hu]
    have hr := I.volW
    unfold startSec countStart cVol at *
    dsimp only
    by_cases h0 : st.sS i = 0
    · cases hkind : op.kind with
      | wait b => simpa [h0, hkind] using hr
      | io w size c a => cases w <;> simp [h0, hr]
    · have h1 : 0 < st.sS i := by omega
      rw [if_neg h0]
      cases hkind : op.kind with
      | wait b => simpa [hkind] using hr
      | io w size c a => simpa [hkind, h1] using hr

theorem finIn_step {x : Idx} {op : Op} {a b : Nat} (hx : ¬ (0 < b ∧ ofs op.kind x = some (b - 1))) :
    finIn x op a (b + 1) = finIn x op a b := by
  unfold finIn
  cases ho : ofs op.kind x with
  | none => rfl
  | some k =>
    have hkb : k + 1 ≠ b := by
      rintro rfl
      exact hx ⟨by omega, by simpa using ho⟩
    simp only
    by_cases hlt : k + 1 < b
    · rw [if_pos hlt, if_pos (by omega)]
    · rw [if_neg hlt, if_neg (by omega)]

theorem inv_finish {ops : List Op} {st : St} {i : Nat} {op : Op} (I : Inv ops st) (h : ops[i]? = some op) :
    Inv ops (finishSec op i (st.fS i) st) := by
  have hF : (finishSec op i (st.fS i) st).fS = Function.update st.fS i (st.fS i + 1) := rfl
  have hS : (finishSec op i (st.fS i) st).sS = st.sS := by
    unfold finishSec countCancel; dsimp only; split
    · split <;> rfl
    · rfl
  have hu : ∀ g, tot ops (finishSec op i (st.fS i) st).sS (finishSec op i (st.fS i) st).fS g =
      tot ops st.sS st.fS g + (g op (st.sS i) (st.fS i + 1) - g op (st.sS i) (st.fS i)) := by
    intro g
    rw [tot_upd g h (sS := st.sS) (fS := st.fS) (by intro j _; rw [hS]) (by intro j hj; rw [hF, Function.update_of_ne hj])]
    rw [hS, hF, Function.update_self]
  have hm : ∀ x, (finishSec op i (st.fS i) st).m x =
      if 0 < st.fS i ∧ ofs op.kind x = some (st.fS i - 1) then (st.m x).finish op.f else st.m x := fun x => rfl
  have hfin : ∀ x, (0 < st.fS i ∧ ofs op.kind x = some (st.fS i - 1)) →
      finIn x op (st.sS i) (st.fS i + 1) = 1 ∧ finIn x op (st.sS i) (st.fS i) = 0 := by
    intro x hx
    unfold finIn
    rw [hx.2]
    simp only
    rw [if_pos (by omega), if_neg (by omega)]; exact ⟨rfl, rfl⟩
  have hst : ∀ x, stIn x op (st.sS i) (st.fS i + 1) = stIn x op (st.sS i) (st.fS i) := fun x => rfl
  constructor
  · intro x
    rw [hu, hm, ← I.acc x]
    by_cases hx : 0 < st.fS i ∧ ofs op.kind x = some (st.fS i - 1)
    · rw [if_pos hx]
      simp only [hfin x hx, hst, Meter.finish]; ring
    · rw [if_neg hx]
      simp only [finIn_step hx, hst]; ring
  · intro x
    rw [hu, hm]
    have ht := I.t x
    by_cases hx : 0 < st.fS i ∧ ofs op.kind x = some (st.fS i - 1)
    · rw [if_pos hx]
      simp only [hfin x hx, hst, Meter.finish]
      rw [ht]; ring
    · rw [if_neg hx]
      simp only [finIn_step hx, hst]
      rw [ht]; ring
  · rw [hu]
    have hr := I.reads
    unfold finishSec countCancel cCount at *
    dsimp only
    by_cases h0 : st.fS i = 0
    · cases hkind : op.kind with
      | wait b => simpa [h0, hkind] using hr
      | io w size c a =>
        cases w <;> cases c
        · simpa [h0, hkind] using hr
        · have e := decr_cast _ _ hr
          simp [h0, e]; ring_nf
        · simpa [h0, hkind] using hr
        · simpa [h0, hkind] using hr
    · have h1 : 0 < st.fS i := by omega
      rw [if_neg h0]
      cases hkind : op.kind with
      | wait b => simpa [hkind] using hr
      | io w size c a => simpa [hkind, h1] using hr
  · rw [hu]
    have hr := I.writes
    unfold finishSec countCancel cCount at *
    dsimp only
    by_cases h0 : st.fS i = 0
    · cases hkind : op.kind with
      | wait b => simpa [h0, hkind] using hr
      | io w size c a =>
        cases w <;> cases c
        · simpa [h0, hkind] using hr
        · simpa [h0, hkind] using hr
        · simpa [h0, hkind] using hr
        · have e := decr_cast _ _ hr
          simp [h0, e]; ring_nf
    · have h1 : 0 < st.fS i := by omega
      rw [if_neg h0]
      cases hkind : op.kind with
      | wait b => simpa [hkind] using hr
      | io w size c a => simpa [hkind, h1] using hr
  · rw [hu]
    have hr := I.volR
    unfold finishSec countCancel cVol at *
    dsimp only
    by_cases h0 : st.fS i = 0
    · cases hkind : op.kind with
      | wait b => simpa [h0, hkind] using hr
      | io w size c a => cases w <;> cases c <;> simp [h0, hr] <;> ring
    · have h1 : 0 < st.fS i := by omega
      rw [if_neg h0]
      cases hkind : op.kind with
      | wait b => simpa [hkind] using hr
      | io w size c a => simpa [hkind, h1] using hr
  · rw [hu]
    have hr := I.volW
    unfold finishSec countCancel cVol at *
    dsimp only
    by_cases h0 : st.fS i = 0
    · cases hkind : op.kind with
      | wait b => simpa [h0, hkind] using hr
      | io w size c a => cases w <;> cases c <;> simp [h0, hr] <;> ring
    · have h1 : 0 < st.fS i := by omega
      rw [if_neg h0]
      cases hkind : op.kind with
      | wait b => simpa [hkind] using hr
      | io w size c a => simpa [hkind, h1] using hr

theorem inv_step {ops : List Op} {st : St} (I : Inv ops st) (i : Nat) (fin : Bool) : Inv ops (step ops st i fin) := by
  unfold step
  cases h : ops[i]? with
  | none => exact I
  | some op =>
    dsimp only
    split
    · split
      · rename_i hk; exact inv_start I h hk
      · exact I
    · split
      · exact inv_finish I h
      · exact I

theorem inv_run {ops : List Op} : ∀ (es : List (Nat × Bool)) (st : St), Inv ops st → Inv ops (run ops st es)
  | [], _, I => I
  | e :: es, _, I => inv_run es _ (inv_step I e.1 e.2)

end Stxxl.IoStats
