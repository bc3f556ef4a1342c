import Verif.IoStats.Par

/-!
# C82: I/O statistics

`ops` are all operations that are timed; `es` is any order in which the sections of their calls are executed. Specification: sums over
the list of operations, and the number of time slots in which some operation was running.
-/

namespace Stxxl.IoStats

open Finset

/-- Which operations belong to a group. -/
def belongs : Idx → Op → Bool
  | .rd, ⟨.io false _ _ _, _, _⟩ => true
  | .wr, ⟨.io true _ _ _, _, _⟩ => true
  | .io, ⟨.io _ _ _ _, _, _⟩ => true
  | .w, ⟨.wait _, _, _⟩ => true
  | .wR, ⟨.wait true, _, _⟩ => true
  | .wW, ⟨.wait false, _, _⟩ => true
  | _, _ => false

theorem belongs_iff (x : Idx) (op : Op) : belongs x op = true ↔ ∃ k, ofs op.kind x = some k := by
  obtain ⟨kind, s, f⟩ := op
  cases kind with
  | io w size c a => cases w <;> cases x <;> simp [belongs, ofs]
  | wait r => cases r <;> cases x <;> simp [belongs, ofs]

theorem sum_map_filter (p : Op → Bool) (g : Op → Int) : ∀ l : List Op,
    (l.map (fun op => if p op then g op else 0)).sum = ((l.filter p).map g).sum
  | [] => rfl
  | a :: l => by
    rw [List.map_cons, List.sum_cons, sum_map_filter p g l]
    cases h : p a <;> simp [h]

theorem complete_in {x : Idx} {op : Op} : stIn x op 2 3 = (if belongs x op then 1 else 0) ∧
    finIn x op 2 3 = (if belongs x op then 1 else 0) := by
  unfold stIn finIn
  cases h : ofs op.kind x with
  | none =>
    have : belongs x op = false := by
      rw [Bool.eq_false_iff]; intro hb
      obtain ⟨k, hk⟩ := (belongs_iff x op).mp hb
      rw [h] at hk; simp at hk
    simp [this]
  | some k =>
    have hb := (belongs_iff x op).mpr ⟨k, h⟩
    have := ofs_lt h
    simp only [hb, if_true]
    rw [if_pos this, if_pos (by omega)]; exact ⟨rfl, rfl⟩

/-- C82, serial times: whatever the order of the sections - even if the order of the mutexes contradicts the times, even if the end of
an operation is recorded before its start - when all calls have returned, the time of each group is the sum of the durations of its
operations, and nothing is counted as running. -/
theorem C82_serial_time (ops : List Op) (es : List (Nat × Bool)) (hc : Complete ops (run ops St.init es)) (x : Idx) :
    ((run ops St.init es).m x).t = ((ops.filter (belongs x)).map (fun op => op.f - op.s)).sum ∧
    ((run ops St.init es).m x).acc = 0 := by
  have I := inv_run es St.init (inv_init ops)
  have hacc : ((run ops St.init es).m x).acc = 0 := by
    rw [I.acc x, tot_complete hc]
    simp only [complete_in, sub_self]
    simp
  refine ⟨?_, hacc⟩
  rw [I.t x, hacc, tot_complete hc, ← sum_map_filter]
  simp only [complete_in, zero_mul, add_zero]
  congr 2
  funext op
  split <;> simp

/-- Sizes of the reads (writes) that were not cancelled. -/
def sizes (ops : List Op) (write : Bool) : List Nat := ops.filterMap (fun op =>
  match op.kind with
  | .io w size false _ => if w = write then some size else none
  | _ => none)

/-- C82, numbers and volumes: when all calls have returned, the number of reads is the number of reads that were not cancelled
(modulo `2^32`), the volume is the sum of their sizes; the same for writes. -/
theorem C82_counts (ops : List Op) (es : List (Nat × Bool)) (hc : Complete ops (run ops St.init es)) :
    (run ops St.init es).reads = (sizes ops false).length % 2 ^ 32 ∧ (run ops St.init es).writes = (sizes ops true).length % 2 ^ 32 ∧
    (run ops St.init es).volR = ((sizes ops false).sum : Nat) ∧ (run ops St.init es).volW = ((sizes ops true).sum : Nat) := by
  have I := inv_run es St.init (inv_init ops)
  have hcount : ∀ (w : Bool) (l : List Op), (l.map (fun op => cCount w op 2 3)).sum = ((sizes l w).length : Int) := by
    intro w l
    induction l with
    | nil => rfl
    | cons a l ih =>
      rw [List.map_cons, List.sum_cons, ih]; unfold sizes; rw [List.filterMap_cons]
      obtain ⟨kind, s, f⟩ := a
      cases kind with
      | wait r => simp [cCount]
      | io w' size c a =>
        cases c <;> by_cases hw : w' = w <;> simp [cCount, hw] <;> omega
  have hvol : ∀ (w : Bool) (l : List Op), (l.map (fun op => cVol w op 2 3)).sum = (((sizes l w).sum : Nat) : Int) := by
    intro w l
    induction l with
    | nil => rfl
    | cons a l ih =>
      rw [List.map_cons, List.sum_cons, ih]; unfold sizes; rw [List.filterMap_cons]
      obtain ⟨kind, s, f⟩ := a
      cases kind with
      | wait r => simp [cVol]
      | io w' size c a =>
        cases c <;> by_cases hw : w' = w <;> simp [cVol, hw]
  refine ⟨?_, ?_, ?_, ?_⟩
  · have := I.reads
    rw [tot_complete hc, hcount] at this
    omega
  · have := I.writes
    rw [tot_complete hc, hcount] at this
    omega
  · rw [I.volR, tot_complete hc, hvol]
  · rw [I.volW, tot_complete hc, hvol]

/-- Some operation of the group is running in the time slot `[u, u+1)`. -/
def Running (ops : List Op) (x : Idx) (u : Int) : Prop := ∃ op ∈ ops, belongs x op = true ∧ op.s ≤ u ∧ u < op.f

theorem covered_congr {A B : Int → Prop} {b : Int} (h : ∀ u, 0 ≤ u → u < b → (A u ↔ B u)) : covered A b = covered B b := by
  classical
  unfold covered
  congr 2
  refine filter_congr ?_
  intro u hu
  exact h u (mem_Ico.mp hu).1 (mem_Ico.mp hu).2

/-- Beyond the last end nothing is covered. -/
theorem covered_ext {A : Int → Prop} {b T : Int} (h0 : 0 ≤ b) (hT : b ≤ T) (h : ∀ u, b ≤ u → ¬ A u) : covered A T = covered A b := by
  have := covered_step (A := A) (B := A) (c := False) h0 hT (fun u _ _ => Iff.rfl) (fun u hu _ => by simp [h u hu])
  simpa using this

/-- C82, parallel times: if the sections are executed in the order of their times (and the end of an operation is recorded after its
start, as with the scoped timers), then when all calls have returned, the parallel time of each group is the length of the time during
which at least one of its operations was running. `T` is any time after all operations. -/
theorem C82_parallel_time (ops : List Op) (es : List (Nat × Bool)) (hsync : ∀ op ∈ ops, op.racy = false)
    (hT : TimeOrdered ops 0 St.init es) (hc : Complete ops (run ops St.init es)) (x : Idx) (T : Int)
    (hT' : 0 ≤ T ∧ ∀ op ∈ ops, op.f ≤ T) :
    ((run ops St.init es).m x).p = covered (Running ops x) T := by
  have I := inv_run es St.init (inv_init ops)
  obtain ⟨now, P⟩ := pinv_run hsync es St.init 0 (inv_init ops) (pinv_init ops) hT
  rw [P.p x]
  have hb := P.begin0 x
  -- all operations of the group are started and finished
  have hsf : ∀ i op, ops[i]? = some op → belongs x op = true →
      Started ops (run ops St.init es) x i ∧ Finished ops (run ops St.init es) x i := by
    intro i op hi hbel
    obtain ⟨k, hk⟩ := (belongs_iff x op).mp hbel
    have hlen : i < ops.length := by
      by_contra hn
      rw [List.getElem?_eq_none (by omega)] at hi; simp at hi
    obtain ⟨h1, h2⟩ := hc i hlen
    have := ofs_lt hk
    exact ⟨⟨op, k, hi, hk, by omega⟩, ⟨op, k, hi, hk, by omega⟩⟩
  have heq : ∀ u, Cov ops (run ops St.init es) x u ↔ Running ops x u := by
    intro u
    constructor
    · rintro ⟨i, op, h1, h2, h3, h4⟩
      obtain ⟨op', k, e1, e2, _⟩ := id h2
      rw [h1] at e1; simp only [Option.some.injEq] at e1; subst e1
      have hbel := (belongs_iff x op).mpr ⟨k, e2⟩
      exact ⟨op, List.mem_of_getElem? h1, hbel, h3, h4 (hsf i op h1 hbel).2⟩
    · rintro ⟨op, h1, h2, h3, h4⟩
      obtain ⟨i, hi⟩ := List.getElem?_of_mem h1
      exact ⟨i, op, hi, (hsf i op hi h2).1, h3, fun _ => h4⟩
  have hlast : ∀ u, ((run ops St.init es).m x).begin_ ≤ u → ¬ Running ops x u := by
    rintro u hu ⟨op, h1, h2, h3, h4⟩
    obtain ⟨i, hi⟩ := List.getElem?_of_mem h1
    have := P.finished x i op hi (hsf i op hi h2).2
    omega
  rw [covered_congr (B := Running ops x) (fun u _ _ => heq u)]
  rcases le_total ((run ops St.init es).m x).begin_ T with h | h
  · exact (covered_ext hb.1 h (fun u hu => hlast u hu)).symm
  · refine covered_ext hT'.1 h ?_
    rintro u hu ⟨op, h1, h2, h3, h4⟩
    have := hT'.2 op h1
    omega

theorem covered_le {A B : Int → Prop} {T : Int} (h : ∀ u, A u → B u) : covered A T ≤ covered B T := by
  classical
  unfold covered
  have : ((Ico (0 : Int) T).filter A).card ≤ ((Ico (0 : Int) T).filter B).card := by
    refine card_le_card ?_
    intro u hu
    rw [mem_filter] at hu ⊢
    exact ⟨hu.1, h u hu.2⟩
  exact_mod_cast this

theorem covered_or {A B C : Int → Prop} {T : Int} (h : ∀ u, C u → A u ∨ B u) : covered C T ≤ covered A T + covered B T := by
  classical
  unfold covered
  have : ((Ico (0 : Int) T).filter C).card ≤ ((Ico (0 : Int) T).filter A).card + ((Ico (0 : Int) T).filter B).card := by
    refine (card_le_card ?_).trans (card_union_le _ _)
    intro u hu
    rw [mem_filter] at hu
    rw [mem_union, mem_filter, mem_filter]
    rcases h u hu.2 with h' | h'
    · exact Or.inl ⟨hu.1, h'⟩
    · exact Or.inr ⟨hu.1, h'⟩
  exact_mod_cast this

theorem covered_interval {A : Int → Prop} {T s f : Int} (hsf : s ≤ f) (h : ∀ u, A u → s ≤ u ∧ u < f) : covered A T ≤ f - s := by
  classical
  unfold covered
  refine le_trans (Int.ofNat_le.mpr (card_le_card (t := Ico s f) ?_)) ?_
  · intro u hu
    rw [mem_filter] at hu
    exact mem_Ico.mpr (h u hu.2)
  · rw [Int.card_Ico]; omega

theorem covered_serial (x : Idx) (T : Int) : ∀ ops : List Op, (∀ op ∈ ops, op.s ≤ op.f) →
    covered (Running ops x) T ≤ ((ops.filter (belongs x)).map (fun op => op.f - op.s)).sum
  | [], _ => by
    classical
    have : covered (Running [] x) T = 0 := by
      unfold covered
      rw [filter_false_of_mem (by rintro u _ ⟨op, h, _⟩; simp at h)]; rfl
    simp [this]
  | a :: ops, h => by
    classical
    have ih := covered_serial x T ops (fun op ho => h op (by simp [ho]))
    have hone : covered (fun u => a.s ≤ u ∧ u < a.f) T ≤ a.f - a.s := covered_interval (h a (by simp)) (fun u hu => hu)
    cases hb : belongs x a with
    | false =>
      rw [List.filter_cons_of_neg (by simp [hb])]
      refine le_trans (covered_le ?_) ih
      rintro u ⟨op, h1, h2, h3⟩
      rcases List.mem_cons.mp h1 with rfl | h1
      · rw [hb] at h2; simp at h2
      · exact ⟨op, h1, h2, h3⟩
    | true =>
      rw [List.filter_cons_of_pos hb, List.map_cons, List.sum_cons]
      refine le_trans (covered_or (A := fun u => a.s ≤ u ∧ u < a.f) (B := Running ops x) ?_) (add_le_add hone ih)
      rintro u ⟨op, h1, h2, h3⟩
      rcases List.mem_cons.mp h1 with rfl | h1
      · exact Or.inl h3
      · exact Or.inr ⟨op, h1, h2, h3⟩

/-- C82, relations between the times, under the conditions of `C82_parallel_time`: parallel time is not negative and at most serial time;
the parallel I/O time is at least the parallel read and write time and at most their sum. -/
theorem C82_relations (ops : List Op) (es : List (Nat × Bool)) (hsync : ∀ op ∈ ops, op.racy = false)
    (hdur : ∀ op ∈ ops, op.s ≤ op.f) (hT : TimeOrdered ops 0 St.init es) (hc : Complete ops (run ops St.init es)) :
    let st := run ops St.init es
    (∀ x, 0 ≤ (st.m x).p ∧ (st.m x).p ≤ (st.m x).t) ∧
    (st.m .rd).p ≤ (st.m .io).p ∧ (st.m .wr).p ≤ (st.m .io).p ∧ (st.m .io).p ≤ (st.m .rd).p + (st.m .wr).p := by
  intro st
  obtain ⟨T, hT0, hTf⟩ : ∃ T : Int, 0 ≤ T ∧ ∀ op ∈ ops, op.f ≤ T := by
    clear hsync hdur hT hc st
    induction ops with
    | nil => exact ⟨0, by omega, by simp⟩
    | cons a l ih =>
      obtain ⟨T, h1, h2⟩ := ih
      refine ⟨max T a.f, by omega, ?_⟩
      intro op ho
      rcases List.mem_cons.mp ho with rfl | ho
      · omega
      · have := h2 op ho; omega
  have hp := fun x => C82_parallel_time ops es hsync hT hc x T ⟨hT0, hTf⟩
  have ht := fun x => (C82_serial_time ops es hc x).1
  refine ⟨?_, ?_, ?_, ?_⟩
  · intro x
    constructor
    · rw [hp x]; unfold covered; exact Int.natCast_nonneg _
    · rw [hp x, ht x]; exact covered_serial x T ops hdur
  · rw [hp, hp]
    refine covered_le ?_
    rintro u ⟨op, h1, h2, h3⟩
    refine ⟨op, h1, ?_, h3⟩
    obtain ⟨kind, s, f⟩ := op
    cases kind with
    | io w size c a => rfl
    | wait r => cases r <;> simp [belongs] at h2
  · rw [hp, hp]
    refine covered_le ?_
    rintro u ⟨op, h1, h2, h3⟩
    refine ⟨op, h1, ?_, h3⟩
    obtain ⟨kind, s, f⟩ := op
    cases kind with
    | io w size c a => rfl
    | wait r => cases r <;> simp [belongs] at h2
  · rw [hp, hp, hp]
    refine covered_or ?_
    rintro u ⟨op, h1, h2, h3⟩
    obtain ⟨kind, s, f⟩ := op
    cases kind with
    | io w size c a =>
      cases w
      · exact Or.inl ⟨_, h1, rfl, h3⟩
      · exact Or.inr ⟨_, h1, rfl, h3⟩
    | wait r => cases r <;> simp [belongs] at h2

/-! ## A concrete run, and what goes wrong otherwise -/

/-- A read `[2, 9)` of 10 bytes, a write `[4, 6)` of 20 bytes and a cancelled read `[5, 12)`. -/
def demo : List Op :=
  [⟨.io false 10 false false, 2, 9⟩, ⟨.io true 20 false false, 4, 6⟩, ⟨.io false 30 true false, 5, 12⟩]

/-- In the order of the times. -/
def demoRun : List (Nat × Bool) :=
  [(0, false), (0, false), (1, false), (1, false), (2, false), (2, false), (1, true), (1, true), (1, true), (0, true), (0, true), (0, true),
   (2, true), (2, true), (2, true)]

example : Complete demo (run demo St.init demoRun) ∧ (∀ op ∈ demo, op.racy = false) := by
  constructor
  · intro i hi
    have : i = 0 ∨ i = 1 ∨ i = 2 := by simp [demo] at hi; omega
    rcases this with rfl | rfl | rfl <;> decide
  · decide

example : TimeOrdered demo 0 St.init demoRun := by
  unfold demoRun
  repeat (first | trivial | (rw [TimeOrdered]; simp only [demo, List.getElem?_cons_zero, List.getElem?_cons_succ]; simp [step, startSec,
    finishSec, countStart, countCancel, St.init, demo]))

example : let st := run demo St.init demoRun
    (st.reads, st.writes, st.volR, st.volW) = (1, 1, 10, 20) ∧
    ((st.m .rd).t, (st.m .rd).p, (st.m .wr).t, (st.m .io).p) = (14, 10, 2, 10) := by decide

/-- C82, parallel time, mutex order against time order (refuted): two reads `[5, 30)` and `[10, 20)`; the first thread reads the clock
(5) but gets the mutex after the second thread (10). The parallel time is 20 instead of 25, and in between it is negative. The serial
time is right. -/
theorem C82_parallel_time_out_of_order :
    let ops : List Op := [⟨.io false 1 false false, 5, 30⟩, ⟨.io false 1 false false, 10, 20⟩]
    let es := [(1, false), (0, false), (0, false), (1, false), (1, true), (1, true), (1, true), (0, true), (0, true), (0, true)]
    ((run ops St.init es).m .rd).p = 20 ∧ ((run ops St.init es).m .rd).t = 35 ∧
    ((run ops St.init (es.take 2)).m .rd).p = -5 := by decide

/-- C82, parallel time with `linuxaio` (refuted): the waiting thread records the end (9) before the posting thread records the start (2).
The parallel time of a single read is *minus* its duration; the serial time is right. -/
theorem C82_linuxaio_negative :
    let ops : List Op := [⟨.io false 1 false true, 2, 9⟩]
    let es := [(0, true), (0, true), (0, true), (0, false), (0, false)]
    ((run ops St.init es).m .rd).p = -7 ∧ ((run ops St.init es).m .rd).t = 7 ∧ ((run ops St.init es).m .io).p = -7 := by decide

/-- C82, `reset` while an operation is running (refuted): a read runs from 100 to 200 and the statistics are reset at time 190; afterwards
the read time is the whole duration 100, more than the time since the reset. -/
theorem C82_reset_counts_time_before :
    ((Meter.init.start 100).reset.finish 200).t = 100 ∧ ((Meter.init.start 100).reset.finish 200).p = 100 := by decide

/-- C82, `reset` when nothing is running: from then on exactly the new operations are counted (the group behaves like a new one). -/
theorem C82_reset_idle (m : Meter) (h : m.acc = 0) (now : Int) : m.reset.start now = Meter.init.start now := by
  simp [Meter.reset, Meter.start, Meter.init, h]

end Stxxl.IoStats
