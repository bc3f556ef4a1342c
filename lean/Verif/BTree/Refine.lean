/-
Every call of the interface does what the specification says.
-/
import Verif.BTree.Sim
import Batteries.Tactic.PermuteGoals

namespace BTree
open Spec (Op Out Cur curOf)
variable {K V : Type} [LinearOrder K]

/-- What a call may do when the specification says `σ → σ'` with output `o`: do it, or (an insertion that
makes the tree too high for the node cache) throw, with the element inserted. -/
def Refines (c : Cfg K) (R : List Nat) (s : St K V) (σ σ' : Spec.M K V) (op : Op K V) (o : Out K V)
    (r : Res (St K V) (Out K V)) : Prop :=
  (∃ s', r = .ok s' o ∧ Sim c R s' σ') ∨
    (∃ s' x, r = .thrown s' ∧ op.inserts = some x ∧ Sim c R s' ⟨Spec.ins σ.m x, σ.cur⟩ ∧ c.cap < s'.h + 1 ∧ s'.h ≠ s.h)

theorem curRel_at {Ls : List (Blk K V)} {w : W} {id : Nat} {k : K} {x : Cur K} (h : CurRel Ls w id x) (hx : x = .at_ k) :
    Pts Ls w id k := by subst hx; exact h

theorem sim_erase {c : Cfg K} {R : List Nat} {s s' : St K V} {σ : Spec.M K V} (h : Sim c R s σ) (hI' : Inv c R s')
    {k : K} {r : Nat} (hk : Keeps (fun k' => k' ≠ k) none s.leaves s'.leaves s.w s'.w)
    (he : ErsEnts k (ents s.leaves) (ents s'.leaves) r) :
    Sim c R s' ⟨σ.m.filter (fun e => decide (e.1 ≠ k)), Spec.kill (fun k' => decide (k' = k)) σ.cur⟩ ∧
      r = (if (Spec.lookup σ.m k).isSome then 1 else 0) := by
  obtain ⟨e1, e2⟩ := ersEnts_spec h.inv.sorted he
  rw [← h.m] at e1 e2
  refine ⟨⟨hI', e1.symm, ?_⟩, e2⟩
  refine sim_kill h.cur ?_
  intro i x hx hr
  exact curRel_keeps hk (by simp) (fun k' hk' => by simpa using hx k' hk') hr

theorem find_lt_none {m : List (K × V)} {k : K} (h : m.find? (fun e => decide (k ≤ e.1)) = none) :
    m.find? (fun e => decide (k < e.1)) = none := by
  rw [List.find?_eq_none] at h ⊢
  intro e he
  have := h e he
  simp only [decide_eq_true_eq] at this ⊢
  exact fun hh => this (le_of_lt hh)

theorem find_lt_some {m : List (K × V)} {k : K} {e : K × V} (h : m.find? (fun e => decide (k ≤ e.1)) = some e) (hlt : k < e.1) :
    m.find? (fun e => decide (k < e.1)) = some e := by
  rw [List.find?_eq_some_iff_append] at h ⊢
  obtain ⟨h1, A, B, h2, h3⟩ := h
  refine ⟨by simpa using hlt, A, B, h2, ?_⟩
  intro a ha
  have := h3 a ha
  simp only [Bool.not_eq_true', decide_eq_false_iff_not] at this ⊢
  exact fun hh => this (le_of_lt hh)

theorem step_sim {c : Cfg K} (hc : c.Ok) {pick : List Nat → Nat} (hpick : ∀ L, pick L ∉ L) {R : List Nat} {s : St K V}
    {σ σ' : Spec.M K V} (h : Sim c R s σ) {op : Op K V} {o : Out K V} (hstep : Spec.step c.mx σ op = some (σ', o)) :
    Refines c R s σ σ' op o (step c pick s op) := by
  have hso := h.inv.sorted
  cases op with
  | insert x r =>
    simp only [Spec.step] at hstep
    split_ifs at hstep with hx
    simp only [Option.some.injEq, Prod.mk.injEq] at hstep
    obtain ⟨rfl, rfl⟩ := hstep
    obtain ⟨s', h1, h2, h3⟩ := insert_sim hc hpick h x hx
    simp only [step]
    rcases h1 with ⟨_, e⟩ | ⟨t, e⟩
    · rw [e]
      left
      obtain ⟨q, hq⟩ := curRel_its h2.inv (by simp) (show CurRel s'.leaves s'.w 1 (.at_ x.1) from h3)
      dsimp only
      rw [copyIt_ok hq]
      refine ⟨_, rfl, h2.inv.reg (by simp) q, h2.m, ?_⟩
      intro i
      by_cases hi : i = r
      · subst hi
        simp only [Spec.set, if_true]
        exact curRel_copy (Ls := s'.leaves) (x := .at_ x.1) (by simp) hq h3
      · simp only [Spec.set, if_neg hi]
        exact curRel_reg (by simp) (by simpa using hi) (h2.cur i)
    · rw [e]; exact Or.inr ⟨s', x, rfl, rfl, h2, t.2, t.1⟩
  | index k d =>
    simp only [Spec.step] at hstep
    split_ifs at hstep with hx
    simp only [Option.some.injEq, Prod.mk.injEq] at hstep
    obtain ⟨rfl, rfl⟩ := hstep
    obtain ⟨s', h1, h2, h3⟩ := insert_sim hc hpick h (k, d) hx
    simp only [step]
    rcases h1 with ⟨_, e⟩ | ⟨t, e⟩
    · rw [e]
      left
      obtain ⟨v, hd, hm⟩ := deref_ok h2.inv.lf h3
      dsimp only
      rw [hd]
      refine ⟨s', ?_, h2⟩
      congr 2
      dsimp only at hm ⊢
      rw [← h2.m] at hm
      dsimp only [Spec.ins] at hm
      cases hl : Spec.lookup σ.m k with
      | none =>
        rw [hl] at hm
        simp only [List.mem_append, List.mem_filter, List.mem_cons] at hm
        rcases hm with ⟨_, hh⟩ | hh | ⟨_, hh⟩
        · exact absurd (of_decide_eq_true hh) (lt_irrefl _)
        · simp at hh; simp [hh]
        · exact absurd (of_decide_eq_true hh) (lt_irrefl _)
      | some e' =>
        rw [hl] at hm
        dsimp only at hm
        rw [h.m] at hl hm
        rw [lookup_some hso hm] at hl
        cases hl; rfl
    · rw [e]; exact Or.inr ⟨s', (k, d), rfl, rfl, h2, t.2, t.1⟩
  | indexSet k d v =>
    simp only [Spec.step] at hstep
    split_ifs at hstep with hx
    simp only [Option.some.injEq, Prod.mk.injEq] at hstep
    obtain ⟨rfl, rfl⟩ := hstep
    obtain ⟨s', h1, h2, h3⟩ := insert_sim hc hpick h (k, d) hx
    simp only [step]
    rcases h1 with ⟨_, e⟩ | ⟨t, e⟩
    · rw [e]
      left
      obtain ⟨s'', a1, a2, a3, a4, a5, a6⟩ := assign_ok h2.inv v h3
      dsimp only
      rw [a1]
      refine ⟨s'', rfl, a2, ?_, ?_⟩
      · rw [a5]; show Spec.put _ _ _ = Spec.put _ _ _; rw [← h2.m]
      · intro i
        have hi := h2.cur i
        dsimp only at hi ⊢
        cases hx : σ.cur i with
        | sing => trivial
        | at_ k' => rw [hx] at hi; exact a6 _ _ hi
        | fin => rw [hx] at hi; show s''.w.its _ = s''.w.its _; rw [a3]; exact hi
    · rw [e]; exact Or.inr ⟨s', (k, d), rfl, rfl, h2, t.2, t.1⟩
  | erase k =>
    dsimp only [Spec.step] at hstep
    by_cases hx : k ≤ c.mx
    swap
    · rw [if_neg hx] at hstep; simp at hstep
    rw [if_pos hx] at hstep
    simp only [Option.some.injEq, Prod.mk.injEq] at hstep
    obtain ⟨rfl, rfl⟩ := hstep
    obtain ⟨s', r, h1, h2, h3, h4⟩ := erase_ok hc h.inv k hx
    obtain ⟨e1, e2⟩ := sim_erase h h2 h3 h4
    left
    simp only [step]
    rw [h1]
    exact ⟨s', by rw [← e2], e1⟩
  | eraseIt i =>
    simp only [Spec.step] at hstep
    have hi := h.cur i
    cases hx : σ.cur i with
    | sing => rw [hx] at hstep; simp at hstep
    | fin => rw [hx] at hstep; simp at hstep
    | at_ k =>
      rw [hx] at hstep hi
      simp only [Option.some.injEq, Prod.mk.injEq] at hstep
      obtain ⟨rfl, rfl⟩ := hstep
      obtain ⟨s', h1, h2, h3, h4⟩ := eraseIt_ok hc h.inv hi
      obtain ⟨e1, e2⟩ := sim_erase h h2 h3 h4
      left
      simp only [step]
      rw [h1]
      exact ⟨s', rfl, e1⟩
  | eraseRange i j =>
    simp only [Spec.step] at hstep
    split_ifs at hstep with hok hcl
    · -- everything
      simp only [Option.some.injEq, Prod.mk.injEq] at hstep
      obtain ⟨rfl, rfl⟩ := hstep
      obtain ⟨hc1, hc2⟩ := hcl
      obtain ⟨q1, hq1⟩ := curRel_its h.inv (by rw [hc1]; exact curOf_ne) (h.cur i)
      have S1 := h.temp (t := 1) (by decide) (by decide) q1
      obtain ⟨q2, hq2⟩ := curRel_its S1.inv (by rw [hc2]; simp) (S1.cur j)
      have S2 := S1.temp (t := 2) (by decide) (by decide) q2
      obtain ⟨q3, b1, b2⟩ := begin_ok hc S2.inv 3
      have S3 := S2.temp (t := 3) (by decide) (by decide) q3
      left
      simp only [step]
      rw [copyIt_ok hq1]
      dsimp only [Option.bind_some]
      rw [copyIt_ok hq2]
      dsimp only [Option.bind_some]
      unfold eraseRange
      rw [b1]
      dsimp only
      have c1 : CurRel s.leaves (((s.w.reg 1 q1).reg 2 q2).reg 3 q3) 1 (curOf σ.m.head?) := by
        refine curRel_reg (by decide) (by decide) (curRel_reg (by decide) (by decide) ?_)
        rw [← hc1]
        exact curRel_copy (by decide) hq1 (h.cur i)
      have c3 : CurRel s.leaves (((s.w.reg 1 q1).reg 2 q2).reg 3 q3) 3 (curOf σ.m.head?) := by
        rw [h.m]; exact posAt_cur (by decide) b2
      have c2 : CurRel s.leaves (((s.w.reg 1 q1).reg 2 q2).reg 3 q3) 2 .fin := by
        refine curRel_reg (by decide) (by decide) ?_
        rw [← hc2]
        exact curRel_copy (by decide) hq2 (S1.cur j)
      rw [if_pos ⟨(curRel_eq S3.inv curOf_ne curOf_ne c1 c3).mpr rfl, c2⟩]
      obtain ⟨d1, d2⟩ := clear_ok hc hpick S3.inv
      exact ⟨_, rfl, d1, d2.symm, fun _ => trivial⟩
    · simp only [Option.some.injEq, Prod.mk.injEq] at hstep
      obtain ⟨rfl, rfl⟩ := hstep
      have hni : σ.cur i ≠ .sing := by intro hh; rw [hh] at hok; cases hx : σ.cur j <;> rw [hx] at hok <;> simp [Spec.okRange] at hok
      have hnj : σ.cur j ≠ .sing := by intro hh; rw [hh] at hok; cases hx : σ.cur i <;> rw [hx] at hok <;> simp [Spec.okRange] at hok
      obtain ⟨q1, hq1⟩ := curRel_its h.inv hni (h.cur i)
      have S1 := h.temp (t := 1) (by decide) (by decide) q1
      obtain ⟨q2, hq2⟩ := curRel_its S1.inv hnj (S1.cur j)
      have S2 := S1.temp (t := 2) (by decide) (by decide) q2
      obtain ⟨q3, b1, b2⟩ := begin_ok hc S2.inv 3
      have S3 := S2.temp (t := 3) (by decide) (by decide) q3
      have hm := h.m
      obtain ⟨P, G, Q, r1, r2, r3, r4, r5, r6⟩ := range_split (m := σ.m) (by rw [hm]; exact hso) hok
        (fun k hk => h.cur_mem hk) (fun k hk => h.cur_mem hk)
      left
      simp only [step]
      rw [copyIt_ok hq1]
      dsimp only [Option.bind_some]
      rw [copyIt_ok hq2]
      dsimp only [Option.bind_some]
      unfold eraseRange
      rw [b1]
      dsimp only
      have c1 : CurRel s.leaves (((s.w.reg 1 q1).reg 2 q2).reg 3 q3) 1 (σ.cur i) := by
        refine curRel_reg (by decide) (by decide) (curRel_reg (by decide) (by decide) ?_)
        exact curRel_copy (by decide) hq1 (h.cur i)
      have c3 : CurRel s.leaves (((s.w.reg 1 q1).reg 2 q2).reg 3 q3) 3 (curOf σ.m.head?) := by
        rw [h.m]; exact posAt_cur (by decide) b2
      have c2 : CurRel s.leaves (((s.w.reg 1 q1).reg 2 q2).reg 3 q3) 2 (σ.cur j) := by
        refine curRel_reg (by decide) (by decide) ?_
        exact curRel_copy (by decide) hq2 (S1.cur j)
      have c0 : CurRel s.leaves (((s.w.reg 1 q1).reg 2 q2).reg 3 q3) 0 .fin := rfl
      rw [if_neg (by
        rintro ⟨x1, x2⟩
        exact hcl ⟨(curRel_eq S3.inv hni curOf_ne c1 c3).mp x1, (curRel_eq S3.inv hnj (by simp) c2 c0).mp x2⟩)]
      obtain ⟨s', l1, l2, l3, l4⟩ := eraseLoop_ok hc (a := 1) (b := 2) (t := 4) (by decide) (by decide) (by decide) (by decide)
        (by decide) (s.size + 1) _ P G Q S3.inv (by rw [← r1, h.m]; rfl) (by rw [← r2]; exact c1) (by rw [← r3]; exact c2)
        (by
          have := h.inv.size
          rw [this, ← hm, r1]
          simp only [List.length_append]; omega)
      have hsz : ({ s with w := (s.w.reg 1 q1).reg 2 q2 } : St K V).size + 1 = s.size + 1 := rfl
      rw [l1]
      refine ⟨s', rfl, l2, ?_, ?_⟩
      · rw [l3]
        dsimp only
        rw [r1, List.filter_append, List.filter_append,
          List.filter_eq_self.mpr (fun e he => by simp [r4 e he]), List.filter_eq_nil_iff.mpr (fun e he => by simp [r5 e he]),
          List.filter_eq_self.mpr (fun e he => by simp [r6 e he])]
        rfl
      · refine sim_kill S3.cur ?_
        intro i' x hx hr
        refine l4 (cv i') x (by simp only [cv]; omega) (by simp only [cv]; omega) ?_ hr
        intro k hk e he hh
        have := hx k hk
        rw [← hh, r5 e he] at this
        simp at this
  | find k r =>
    simp only [Spec.step] at hstep
    split_ifs at hstep with hx
    simp only [Option.some.injEq, Prod.mk.injEq] at hstep
    obtain ⟨rfl, rfl⟩ := hstep
    obtain ⟨q, e, hp⟩ := find_ok hc h.inv hx (cv r)
    left
    simp only [step]
    rw [e]
    exact ⟨_, rfl, by rw [h.m]; have := h.reg (r := r) hp; rw [h.m] at this; exact this⟩
  | count k =>
    dsimp only [Spec.step] at hstep
    by_cases hx : k ≤ c.mx
    swap
    · rw [if_neg hx] at hstep; simp at hstep
    · rw [if_pos hx] at hstep
      simp only [Option.some.injEq, Prod.mk.injEq] at hstep
      obtain ⟨rfl, rfl⟩ := hstep
      obtain ⟨q, e, hp⟩ := find_ok hc h.inv hx 1
      left
      simp only [step]
      rw [e]
      have S1 := h.temp (t := 1) (by decide) (by decide) q
      refine ⟨_, ?_, S1⟩
      dsimp only
      congr 2
      have c1 : CurRel s.leaves (s.w.reg 1 q) 1 (curOf (Spec.lookup σ.m k)) := by
        rw [h.m]; exact posAt_cur (by decide) hp
      have c0 : CurRel s.leaves (s.w.reg 1 q) 0 .fin := rfl
      have := curRel_eq S1.inv curOf_ne (by simp) c1 c0
      dsimp only at this
      cases hl : Spec.lookup σ.m k with
      | none => rw [hl] at this; rw [if_pos (this.mpr rfl)]; rfl
      | some e => rw [hl] at this; rw [if_neg (fun hh => by simpa [curOf] using this.mp hh)]; simp
  | lower k r =>
    simp only [Spec.step] at hstep
    split_ifs at hstep with hx
    simp only [Option.some.injEq, Prod.mk.injEq] at hstep
    obtain ⟨rfl, rfl⟩ := hstep
    obtain ⟨q, e, hp⟩ := lowerBound_ok hc h.inv hx (cv r)
    left
    simp only [step]
    rw [e]
    exact ⟨_, rfl, by have := h.reg (r := r) hp; rw [h.m] at this ⊢; exact this⟩
  | upper k r =>
    simp only [Spec.step] at hstep
    split_ifs at hstep with hx
    simp only [Option.some.injEq, Prod.mk.injEq] at hstep
    obtain ⟨rfl, rfl⟩ := hstep
    obtain ⟨q, e, hp⟩ := upperBound_ok hc h.inv hx (cv r)
    left
    simp only [step]
    rw [e]
    exact ⟨_, rfl, by have := h.reg (r := r) hp; rw [h.m] at this ⊢; exact this⟩
  | equalRange k r r' =>
    simp only [Spec.step] at hstep
    split_ifs at hstep with hx
    simp only [Option.some.injEq, Prod.mk.injEq] at hstep
    obtain ⟨rfl, rfl⟩ := hstep
    obtain ⟨hx, hrr⟩ := hx
    obtain ⟨q, e, hp⟩ := lowerBound_ok hc h.inv hx (cv r)
    have S1 := h.reg (r := r) hp
    have hm := h.m
    left
    simp only [step]
    unfold equalRange
    rw [e]
    dsimp only
    have hq : (s.w.reg (cv r) q).its (cv r) = some q := reg_its _ _ _
    have c1 : CurRel s.leaves (s.w.reg (cv r) q) (cv r) (curOf ((ents s.leaves).find? (fun e => decide (k ≤ e.1)))) := posAt_cur (by simp) hp
    have c0 : CurRel s.leaves (s.w.reg (cv r) q) 0 .fin := rfl
    have hset : ∀ x y : Cur K, ∀ i, i ≠ r' → Spec.set (Spec.set σ.cur r x) r' y i = Spec.set σ.cur r x i := by
      intro x y i hi; simp only [Spec.set, if_neg hi]
    have hcopy : ∀ x : Cur K, CurRel s.leaves (s.w.reg (cv r) q) (cv r) x →
        Sim c R { s with w := (s.w.reg (cv r) q).reg (cv r') q }
          ⟨σ.m, Spec.set (Spec.set σ.cur r (curOf ((ents s.leaves).find? (fun e => decide (k ≤ e.1))))) r' x⟩ := by
      intro x hx'
      refine ⟨S1.inv.reg (by simp) q, hm, ?_⟩
      intro i
      by_cases hi : i = r'
      · subst hi
        simp only [Spec.set, if_true]
        exact curRel_copy (Ls := s.leaves) (by simp) hq hx'
      · dsimp only
        rw [hset _ _ i hi]
        exact curRel_reg (by simp) (by simpa using hi) (S1.cur i)
    cases hf : (ents s.leaves).find? (fun e => decide (k ≤ e.1)) with
    | none =>
      rw [hf] at c1 hcopy
      have c1' : (s.w.reg (cv r) q).its (cv r) = (s.w.reg (cv r) q).its 0 := c1
      rw [if_pos c1', copyIt_ok hq, hm, hf, find_lt_none hf]
      exact ⟨_, rfl, by rw [← hm]; exact hcopy .fin c1⟩
    | some e =>
      rw [hf] at c1 hcopy
      have c1' : Pts s.leaves (s.w.reg (cv r) q) (cv r) e.1 := c1
      rw [if_neg (pts_ne_end S1.inv c1')]
      obtain ⟨v, d1, d2⟩ := deref_ok S1.inv.lf c1'
      rw [d1]
      dsimp only
      by_cases hlt : k < e.1
      · rw [hc.lt, decide_eq_true hlt, if_pos rfl, copyIt_ok hq, hm, hf, find_lt_some hf hlt]
        exact ⟨_, rfl, by rw [← hm]; exact hcopy (.at_ e.1) c1⟩
      · have hek : e.1 = k := by
          have := List.find?_some hf
          simp only [decide_eq_true_eq] at this
          exact le_antisymm (not_lt.mp hlt) this
        rw [hc.lt, decide_eq_false hlt, if_neg (by simp), copyIt_ok hq]
        have S2 := hcopy (.at_ e.1) c1
        have h2 := S2.cur r'
        simp only [Spec.set, if_true] at h2
        obtain ⟨q', j1, j2⟩ := incr_ok hc S2.inv h2
        have S3 := S2.reg (r := r') j2
        dsimp only
        rw [j1]
        refine ⟨_, rfl, ?_⟩
        have hss : ∀ x y z : Cur K, Spec.set (Spec.set (Spec.set σ.cur r x) r' y) r' z = Spec.set (Spec.set σ.cur r x) r' z := by
          intro x y z; funext i; simp only [Spec.set]; split_ifs <;> rfl
        dsimp only at S3
        rw [hss, hek] at S3
        rw [hm] at S3 ⊢
        rw [hf]
        have e3 : (curOf (some e) : Cur K) = .at_ k := by rw [← hek]; rfl
        rw [e3] at S3 ⊢
        exact S3
  | begin_ r =>
    simp only [Spec.step, Option.some.injEq, Prod.mk.injEq] at hstep
    obtain ⟨rfl, rfl⟩ := hstep
    obtain ⟨q, e, hp⟩ := begin_ok hc h.inv (cv r)
    left
    simp only [step]
    rw [e]
    exact ⟨_, rfl, by have := h.reg (r := r) hp; rw [h.m] at this ⊢; exact this⟩
  | end_ r =>
    simp only [Spec.step, Option.some.injEq, Prod.mk.injEq] at hstep
    obtain ⟨rfl, rfl⟩ := hstep
    obtain ⟨l, l1, l2⟩ := h.inv.lf.fin
    left
    simp only [step, end_]
    rw [l2]
    exact ⟨_, rfl, h.reg (r := r) (o := none) l2⟩
  | copy i r =>
    simp only [Spec.step] at hstep
    have hne : σ.cur i ≠ .sing := by intro hh; rw [hh] at hstep; simp at hstep
    have hst : σ' = ⟨σ.m, Spec.set σ.cur r (σ.cur i)⟩ ∧ o = .unit := by
      cases hx : σ.cur i with
      | sing => exact absurd hx hne
      | at_ k => rw [hx] at hstep; simp at hstep; exact ⟨hstep.1.symm, hstep.2.symm⟩
      | fin => rw [hx] at hstep; simp at hstep; exact ⟨hstep.1.symm, hstep.2.symm⟩
    obtain ⟨rfl, rfl⟩ := hst
    obtain ⟨q, hq⟩ := curRel_its h.inv hne (h.cur i)
    left
    simp only [step]
    rw [copyIt_ok hq]
    refine ⟨_, rfl, h.inv.reg (by simp) q, h.m, ?_⟩
    intro i'
    by_cases hi : i' = r
    · subst hi
      simp only [Spec.set, if_true]
      exact curRel_copy (Ls := s.leaves) (by simp) hq (h.cur i)
    · simp only [Spec.set, if_neg hi]
      exact curRel_reg (by simp) (by simpa using hi) (h.cur i')
  | incr i =>
    simp only [Spec.step] at hstep
    have hi := h.cur i
    cases hx : σ.cur i with
    | sing => rw [hx] at hstep; simp at hstep
    | fin => rw [hx] at hstep; simp at hstep
    | at_ k =>
      rw [hx] at hstep hi
      simp only [Option.some.injEq, Prod.mk.injEq] at hstep
      obtain ⟨rfl, rfl⟩ := hstep
      obtain ⟨q, e, hp⟩ := incr_ok hc h.inv hi
      left
      simp only [step]
      rw [e]
      exact ⟨_, rfl, by have := h.reg (r := i) hp; rw [h.m] at this ⊢; exact this⟩
  | decr i =>
    simp only [Spec.step] at hstep
    have hi := h.cur i
    cases hx : σ.cur i with
    | sing => rw [hx] at hstep; simp at hstep
    | fin =>
      rw [hx] at hstep hi
      dsimp only at hstep
      cases hl : σ.m.getLast? with
      | none => rw [hl] at hstep; simp at hstep
      | some e =>
        rw [hl] at hstep
        simp only [Option.some.injEq, Prod.mk.injEq] at hstep
        obtain ⟨rfl, rfl⟩ := hstep
        rw [h.m] at hl
        obtain ⟨q, e', hp⟩ := decr_end_ok hc h.inv hi hl
        left
        simp only [step]
        rw [e']
        exact ⟨_, rfl, h.reg (r := i) hp⟩
    | at_ k =>
      rw [hx] at hstep hi
      dsimp only at hstep
      cases hl : (σ.m.filter (fun e => decide (e.1 < k))).getLast? with
      | none => rw [hl] at hstep; simp at hstep
      | some e =>
        rw [hl] at hstep
        simp only [Option.some.injEq, Prod.mk.injEq] at hstep
        obtain ⟨rfl, rfl⟩ := hstep
        rw [h.m] at hl
        obtain ⟨q, e', hp⟩ := decr_ok hc h.inv hi hl
        left
        simp only [step]
        rw [e']
        exact ⟨_, rfl, h.reg (r := i) hp⟩
  | deref i =>
    simp only [Spec.step] at hstep
    have hi := h.cur i
    cases hx : σ.cur i with
    | sing => rw [hx] at hstep; simp at hstep
    | fin => rw [hx] at hstep; simp at hstep
    | at_ k =>
      rw [hx] at hstep hi
      obtain ⟨v, d1, d2⟩ := deref_ok h.inv.lf hi
      dsimp only at hstep
      rw [h.m, lookup_some hso d2] at hstep
      simp only [Option.map_some, Option.some.injEq, Prod.mk.injEq] at hstep
      obtain ⟨rfl, rfl⟩ := hstep
      left
      simp only [step]
      rw [d1]
      exact ⟨s, rfl, h⟩
  | assign i v =>
    simp only [Spec.step] at hstep
    have hi := h.cur i
    cases hx : σ.cur i with
    | sing => rw [hx] at hstep; simp at hstep
    | fin => rw [hx] at hstep; simp at hstep
    | at_ k =>
      rw [hx] at hstep hi
      simp only [Option.some.injEq, Prod.mk.injEq] at hstep
      obtain ⟨rfl, rfl⟩ := hstep
      obtain ⟨s'', a1, a2, a3, a4, a5, a6⟩ := assign_ok h.inv v hi
      left
      simp only [step]
      rw [a1]
      refine ⟨s'', rfl, a2, ?_, ?_⟩
      · rw [a5]; show Spec.put _ _ _ = Spec.put _ _ _; rw [← h.m]
      · intro i'
        have hi' := h.cur i'
        dsimp only
        cases hx' : σ.cur i' with
        | sing => trivial
        | at_ k' => rw [hx'] at hi'; exact a6 _ _ hi'
        | fin => rw [hx'] at hi'; show s''.w.its _ = s''.w.its _; rw [a3]; exact hi'
  | eq i j =>
    simp only [Spec.step] at hstep
    split_ifs at hstep with hx
    simp only [Option.some.injEq, Prod.mk.injEq] at hstep
    obtain ⟨rfl, rfl⟩ := hstep
    left
    refine ⟨s, ?_, h⟩
    simp only [step, eqIt]
    congr 2
    have := curRel_eq h.inv hx.1 hx.2 (h.cur i) (h.cur j)
    by_cases hh : σ.cur i = σ.cur j
    · rw [decide_eq_true hh, this.mpr hh]; simp
    · rw [decide_eq_false hh]; simpa using fun h' => hh (this.mp h')
  | size =>
    simp only [Spec.step, Option.some.injEq, Prod.mk.injEq] at hstep
    obtain ⟨rfl, rfl⟩ := hstep
    exact Or.inl ⟨s, by simp only [step]; rw [h.inv.size, h.m], h⟩
  | clear =>
    simp only [Spec.step, Option.some.injEq, Prod.mk.injEq] at hstep
    obtain ⟨rfl, rfl⟩ := hstep
    obtain ⟨d1, d2⟩ := clear_ok hc hpick h.inv
    exact Or.inl ⟨_, rfl, d1, d2.symm, fun _ => trivial⟩

end BTree
