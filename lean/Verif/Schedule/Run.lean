import Verif.Schedule.Inv

/-! The simulation runs to completion. -/

namespace Stxxl.Schedule

variable {disk : Nat → Nat} {L D m : Nat}

/-- State inside a round; the queue of disk `x` (if given) may be waiting without an event. -/
structure Mid (disk : Nat → Nat) (L D m : Nat) (x : Option Nat) (s : Sim) : Prop where
  inv : Inv disk L D m s
  ts : ∀ e ∈ s.ev, e.1 ≤ s.old + 1
  bz : ∀ d, s.busy d = true → ∃ b, (s.old + 1, b) ∈ s.ev ∧ disk b = d
  qe : ∀ d, some d ≠ x → s.qs d ≠ [] → ∃ e ∈ s.ev, disk e.2 = d

/-- State at the head of the main loop. -/
structure Head (disk : Nat → Nat) (L D m : Nat) (s : Sim) : Prop where
  inv : Inv disk L D m s
  cap : (fed L s).card ≤ m
  ts : ∀ e ∈ s.ev, e.1 ≤ s.old + 1
  bz : (∀ e ∈ s.ev, e.1 ≠ s.old) ∨ ∀ d, s.busy d = true → ∃ b, (s.old + 1, b) ∈ s.ev ∧ disk b = d
  qe : ∀ d, s.qs d ≠ [] → ∃ e ∈ s.ev, disk e.2 = d
  go : s.i ≠ 0 → s.ev ≠ []

theorem mid_record {s : Sim} (h : Head disk L D m s) (e : Nat × Nat) (he : e ∈ s.ev) (hmin : ∀ e' ∈ s.ev, e.1 ≤ e'.1) :
    Mid disk L D m (some (disk e.2)) (record s e.1 e.2 (s.ev.erase e)) := by
  have h1 := h.ts e he
  have h2 := (h.inv.evb e he).2.2.2
  refine ⟨(h.inv.record e he hmin h.cap).1, ?_, ?_, ?_⟩
  · intro e' he'
    have he' : e' ∈ s.ev := List.mem_of_mem_erase he'
    have := h.ts e' he'
    show e'.1 ≤ e.1 + 1
    omega
  · intro d hd
    show ∃ b, (e.1 + 1, b) ∈ s.ev.erase e ∧ _
    have hd : (if s.old ≠ e.1 then fun _ => false else s.busy) d = true := hd
    by_cases hoe : s.old = e.1
    · rw [if_neg (by simpa using hoe)] at hd
      rcases h.bz with hb | hb
      · exact absurd hoe.symm (hb e he)
      · obtain ⟨b, hb1, hb2⟩ := hb d hd
        refine ⟨b, ?_, hb2⟩
        rw [← hoe]
        refine (List.mem_erase_of_ne ?_).mpr hb1
        intro hc; have := congrArg Prod.fst hc; simp only at this; omega
    · rw [if_pos hoe] at hd; simp at hd
  · intro d hd hq
    obtain ⟨e', he', hd'⟩ := h.qe d hq
    refine ⟨e', (List.mem_erase_of_ne ?_).mpr he', hd'⟩
    rintro rfl; exact hd (by rw [hd'])

theorem fed_feed {s : Sim} {c : Nat} (hi : s.i ≠ 0) (h : (fed L s).card + 1 ≤ c) (s' : Sim) (h1 : s'.i = s.i - 1) (h2 : s'.o = s.o) :
    (fed L s').card ≤ c := by
  have : fed L s' ⊆ insert (s.i - 1) (fed L s) := by
    intro x hx
    rw [mem_fed, h1, h2] at hx
    rw [Finset.mem_insert, mem_fed]
    by_cases hxi : x = s.i - 1
    · exact Or.inl hxi
    · exact Or.inr ⟨hx.1, by omega, hx.2.2⟩
  have := Finset.card_le_card this
  have := Finset.card_insert_le (s.i - 1) (fed L s)
  omega

theorem fed_same {s s' : Sim} (h1 : s'.i = s.i) (h2 : s'.o = s.o) : fed L s' = fed L s := by
  ext x; rw [mem_fed, mem_fed, h1, h2]

theorem mid_startQ {s : Sim} {x : Option Nat} (h : Mid disk L D m x s) (d j : Nat) (rest : List Nat) (hq : s.qs d = j :: rest) :
    Mid disk L D m x { s with ev := (s.old + 1, j) :: s.ev, qs := upd s.qs d rest, busy := upd s.busy d true } := by
  have hj := h.inv.qb d j (by rw [hq]; simp)
  refine ⟨h.inv.startQ _ d j rest hq (by omega) _, ?_, ?_, ?_⟩
  · intro e he
    rcases List.mem_cons.mp he with rfl | he
    · exact Nat.le_refl _
    · exact h.ts e he
  · intro d' hd'
    show ∃ b, (s.old + 1, b) ∈ (s.old + 1, j) :: s.ev ∧ _
    by_cases hdd : d' = d
    · exact ⟨j, by simp, by rw [hdd]; exact hj.1⟩
    · have hd' : upd s.busy d true d' = true := hd'
      rw [upd_ne _ _ hdd] at hd'
      obtain ⟨b, hb1, hb2⟩ := h.bz d' hd'
      exact ⟨b, List.mem_cons_of_mem _ hb1, hb2⟩
  · intro d' hx hq'
    show ∃ e ∈ (s.old + 1, j) :: s.ev, _
    have hq' : upd s.qs d rest d' ≠ [] := hq'
    by_cases hdd : d' = d
    · exact ⟨_, List.mem_cons_self, by rw [hdd]; exact hj.1⟩
    · rw [upd_ne _ _ hdd] at hq'
      obtain ⟨e, he, hd⟩ := h.qe d' hx hq'
      exact ⟨e, List.mem_cons_of_mem _ he, hd⟩

theorem mid_letIn {s : Sim} {x : Option Nat} (h : Mid disk L D m x s) (hc : (fed L s).card + 1 ≤ m) :
    Mid disk L D m x (letIn disk s s.old) ∧ (fed L (letIn disk s s.old)).card ≤ m ∧ (letIn disk s s.old).o = s.o ∧
      (letIn disk s s.old).old = s.old ∧ ((letIn disk s s.old).i ≠ 0 → (letIn disk s s.old).ev ≠ []) := by
  unfold letIn
  by_cases hi : s.i = 0
  · rw [if_pos hi]; exact ⟨h, by omega, rfl, rfl, fun hh => absurd hi hh⟩
  rw [if_neg hi]
  dsimp only
  by_cases hb : s.busy (disk (s.i - 1)) = true
  · rw [if_pos hb]
    obtain ⟨b, hb1, hb2⟩ := h.bz _ hb
    refine ⟨⟨h.inv.feedQ hi, h.ts, h.bz, ?_⟩, fed_feed hi hc _ rfl rfl, rfl, rfl, fun _ => List.ne_nil_of_mem hb1⟩
    intro d hx hq
    have hq : upd s.qs (disk (s.i - 1)) _ d ≠ [] := hq
    by_cases hd : d = disk (s.i - 1)
    · exact ⟨_, hb1, by rw [hd]; exact hb2⟩
    · rw [upd_ne _ _ hd] at hq; exact h.qe d hx hq
  · rw [if_neg hb]
    cases hq : s.qs (disk (s.i - 1)) with
    | cons j rest =>
      dsimp only
      refine ⟨mid_startQ h _ j rest hq, ?_, rfl, rfl, fun _ => by simp⟩
      exact Nat.le_of_succ_le (show (fed L s).card + 1 ≤ m from hc)
    | nil =>
      dsimp only
      refine ⟨⟨h.inv.feedE hi _ (by omega) _, ?_, ?_, ?_⟩, fed_feed hi hc _ rfl rfl, rfl, rfl, fun _ => by simp⟩
      · intro e he
        rcases List.mem_cons.mp he with rfl | he
        · exact Nat.le_refl _
        · exact h.ts e he
      · intro d' hd'
        show ∃ b, (s.old + 1, b) ∈ (s.old + 1, s.i - 1) :: s.ev ∧ _
        by_cases hdd : d' = disk (s.i - 1)
        · exact ⟨s.i - 1, by simp, hdd.symm⟩
        · have hd' : upd s.busy (disk (s.i - 1)) true d' = true := hd'
          rw [upd_ne _ _ hdd] at hd'
          obtain ⟨b, hb1, hb2⟩ := h.bz d' hd'
          exact ⟨b, List.mem_cons_of_mem _ hb1, hb2⟩
      · intro d' hx hq'
        obtain ⟨e, he, hd⟩ := h.qe d' hx hq'
        exact ⟨e, List.mem_cons_of_mem _ he, hd⟩

theorem mid_next {s : Sim} {b : Nat} (h : Mid disk L D m (some (disk b)) s) (hc : (fed L s).card ≤ m) (hg : s.i ≠ 0 → s.ev ≠ []) :
    Head disk L D m (next disk s s.old b) ∧ (next disk s s.old b).o = s.o := by
  unfold next
  dsimp only
  by_cases hb : s.busy (disk b) = true
  · rw [if_pos hb]
    refine ⟨⟨h.inv, hc, h.ts, Or.inr h.bz, ?_, hg⟩, rfl⟩
    intro d hq
    by_cases hd : d = disk b
    · obtain ⟨b', h1, h2⟩ := h.bz _ hb
      exact ⟨_, h1, by rw [hd]; exact h2⟩
    · exact h.qe d (by simpa using hd) hq
  · rw [if_neg hb]
    cases hq : s.qs (disk b) with
    | nil =>
      dsimp only
      refine ⟨⟨h.inv, hc, h.ts, Or.inr h.bz, ?_, hg⟩, rfl⟩
      intro d hq'
      by_cases hd : d = disk b
      · rw [hd] at hq'; exact absurd hq hq'
      · exact h.qe d (by simpa using hd) hq'
    | cons j rest =>
      dsimp only
      have h1 := mid_startQ h _ j rest hq
      have hj := h.inv.qb _ j (by rw [hq]; simp)
      refine ⟨⟨h1.inv, ?_, h1.ts, Or.inr h1.bz, ?_, fun _ => by simp⟩, rfl⟩
      · show (fed L s).card ≤ m; exact hc
      · intro d hq'
        by_cases hd : d = disk b
        · exact ⟨_, List.mem_cons_self, by rw [hd]; exact hj.1⟩
        · exact h1.qe d (by simpa using hd) hq'

/-- The loop ends with every block written. -/
theorem loop_ok (ch : Nat → Nat) : ∀ (fuel : Nat) (s : Sim), Head disk L D m s → (undone L s).card ≤ fuel →
    ∃ s', loop disk ch fuel s = some s' ∧ Head disk L D m s' ∧ s'.ev = []
  | fuel, s, h, hf => by
    unfold loop
    by_cases hev : s.ev = []
    · rw [if_pos hev]; exact ⟨s, rfl, h, hev⟩
    · rw [if_neg hev]
      obtain ⟨e, hp, he, hmin⟩ := popMin_spec (ch (fuel - 1)) s.ev hev
      have hr := h.inv.record e he hmin h.cap
      cases fuel with
      | zero => omega
      | succ fuel =>
        have hp : popMin (ch fuel) s.ev = some (e, s.ev.erase e) := hp
        dsimp only
        rw [hp]
        dsimp only
        have hm := mid_record h e he hmin
        have ha := mid_letIn hm hr.2.1
        have hold : (record s e.1 e.2 (s.ev.erase e)).old = e.1 := rfl
        rw [hold] at ha
        obtain ⟨a1, a2, a3, a4, a5⟩ := ha
        have hn := mid_next a1 a2 a5
        rw [a4] at hn
        apply loop_ok ch fuel _ hn.1
        have : undone L (next disk (letIn disk (record s e.1 e.2 (s.ev.erase e)) e.1) e.1 e.2) = undone L (record s e.1 e.2 (s.ev.erase e)) := by
          ext x; rw [mem_undone, mem_undone, hn.2, a3]
        rw [this]; omega

theorem fill_ok : ∀ (n : Nat) (s : Sim), Inv disk L D m s → (fed L s).card + n ≤ m →
    Inv disk L D m (fill disk n s) ∧ (fed L (fill disk n s)).card ≤ m ∧ (fill disk n s).ev = s.ev ∧ (fill disk n s).old = s.old ∧
      (fill disk n s).busy = s.busy ∧ ((0 < n ∧ s.i ≠ 0) ∨ (∃ d, s.qs d ≠ []) → ∃ d, (fill disk n s).qs d ≠ [])
  | 0, s, h, hc => ⟨h, hc, rfl, rfl, rfl, by simp [fill]⟩
  | n + 1, s, h, hc => by
    unfold fill
    by_cases hi : s.i = 0
    · rw [if_pos hi]; exact ⟨h, by omega, rfl, rfl, rfl, by simp [hi]⟩
    · rw [if_neg hi]
      have := fill_ok n _ (h.feedQ hi) (by
        have := fed_feed (L := L) (s := s) (c := m - n) hi (by omega) { s with qs := upd s.qs (disk (s.i - 1)) (s.qs (disk (s.i - 1)) ++ [s.i - 1]), i := s.i - 1 } rfl rfl
        omega)
      refine ⟨this.1, this.2.1, this.2.2.1, this.2.2.2.1, this.2.2.2.2.1, fun _ => this.2.2.2.2.2 (Or.inr ⟨disk (s.i - 1), ?_⟩)⟩
      show upd _ _ _ _ ≠ _
      rw [upd_same]; simp

theorem start_ok : ∀ (n : Nat) (s : Sim), Inv disk L D m s → s.ev = [] → s.old = 0 →
    Inv disk L D m (start n s) ∧ (start n s).i = s.i ∧ (start n s).o = s.o ∧ (start n s).old = 0 ∧ (∀ e ∈ (start n s).ev, e.1 = 1) ∧
      (∀ d, n ≤ d → (start n s).qs d = s.qs d) ∧
      (∀ d, d < n → s.qs d ≠ [] → ∃ e ∈ (start n s).ev, disk e.2 = d) ∧
      (∀ d, (start n s).qs d ≠ [] → s.qs d ≠ [])
  | 0, s, h, he, ho => ⟨h, rfl, rfl, ho, by simp [start, he], fun _ _ => rfl, by simp, fun _ h => h⟩
  | n + 1, s, h, he, ho => by
    obtain ⟨i1, i2, i3, i4, i5, i6, i7, i8⟩ := start_ok n s h he ho
    unfold start
    dsimp only
    generalize hS : start n s = S at *
    cases hq : S.qs n with
    | nil =>
      dsimp only
      refine ⟨i1, i2, i3, i4, i5, fun d hd => i6 d (by omega), ?_, i8⟩
      intro d hd hqd
      by_cases hdn : d = n
      · subst hdn; rw [i6 d (Nat.le_refl _)] at hq; exact absurd hq hqd
      · exact i7 d (by omega) hqd
    | cons j rest =>
      dsimp only
      have hj := i1.qb n j (by rw [hq]; simp)
      refine ⟨i1.startQ 1 n j rest hq (by omega) S.busy, i2, i3, i4, ?_, ?_, ?_, ?_⟩
      · intro e he
        rcases List.mem_cons.mp he with rfl | he
        · rfl
        · exact i5 e he
      · intro d hd
        show upd _ _ _ _ = _
        rw [upd_ne _ _ (by omega)]; exact i6 d (by omega)
      · intro d hd hqd
        by_cases hdn : d = n
        · exact ⟨_, List.mem_cons_self, by rw [hdn]; exact hj.1⟩
        · obtain ⟨e, he, h2⟩ := i7 d (by omega) hqd
          exact ⟨e, List.mem_cons_of_mem _ he, h2⟩
      · intro d hd
        have hd : upd _ _ _ _ ≠ _ := hd
        by_cases hdn : d = n
        · subst hdn; rw [← i6 d (Nat.le_refl _), hq]; simp
        · rw [upd_ne _ _ hdn] at hd; exact i8 d hd

theorem simulate_ok (junk : Nat → Bool) (ch : Nat → Nat) (hm : 1 ≤ m) (hD : ∀ b < L, disk b ≤ D) :
    ∃ o, simulate disk junk ch L m D = some o ∧ (∀ x < L, ∃ t, o x = some t) ∧ ∀ k t, o k = some t → (later L o k t).card + 1 ≤ m := by
  have h0 : Inv disk L D m ⟨[], fun _ => [], L, 0, junk, fun _ => none⟩ := by
    constructor <;> simp

  have hf0 : (fed L ⟨[], fun _ => [], L, 0, junk, fun _ => none⟩).card = 0 := by
    rw [Finset.card_eq_zero]; ext x; rw [mem_fed]; simp
  obtain ⟨f1, f2, f3, f4, f5, f6⟩ := fill_ok m _ h0 (by omega)
  unfold simulate
  dsimp only
  generalize hF : fill disk m ⟨[], fun _ => [], L, 0, junk, fun _ => none⟩ = F at *
  obtain ⟨s1, s2, s3, s4, s5, s6, s7, s8⟩ := start_ok (D + 1) F f1 f3 f4
  generalize hS : start (D + 1) F = S at *
  have hq : ∀ d, F.qs d ≠ [] → ∃ e ∈ S.ev, disk e.2 = d := by
    intro d hd
    refine s7 d ?_ hd
    obtain ⟨x, hx⟩ := List.exists_mem_of_ne_nil _ hd
    have := f1.qb d x hx
    have := hD x this.2.1
    omega
  have hH : Head disk L D m S := by
    refine ⟨s1, ?_, ?_, Or.inl ?_, fun d hd => hq d (s8 d hd), ?_⟩
    · rw [fed_same s2 s3]; exact f2
    · intro e he; rw [s5 e he]; omega
    · intro e he; rw [s5 e he, s4]; omega
    · intro hi
      rw [s2] at hi
      have hL : L ≠ 0 := by have := f1.iL; omega
      obtain ⟨d, hd⟩ := f6 (Or.inl ⟨hm, hL⟩)
      obtain ⟨e, he, -⟩ := hq d hd
      exact List.ne_nil_of_mem he
  have hu : (undone L S).card ≤ L := by
    have := Finset.card_filter_le (Finset.range L) (fun x => S.o x = none)
    rw [Finset.card_range] at this; exact this
  obtain ⟨s', hl, h', hev⟩ := loop_ok ch L S hH hu
  rw [hl]
  dsimp only
  have hi : s'.i = 0 := by
    rcases Nat.eq_zero_or_pos s'.i with h | h
    · exact h
    · exact absurd hev (h'.go (by omega))
  have hqs : ∀ d, s'.qs d = [] := by
    intro d
    cases hc : s'.qs d with
    | nil => rfl
    | cons a l =>
      obtain ⟨e, he, -⟩ := h'.qe d (by rw [hc]; simp)
      rw [hev] at he; simp at he
  rw [if_pos ⟨hi, fun j _ => hqs j⟩]
  refine ⟨_, rfl, ?_, h'.inv.ahead⟩
  intro x hx
  cases ho : s'.o x with
  | some t => exact ⟨t, rfl⟩
  | none =>
    rcases h'.inv.und x hx ho (by omega) with h1 | h1
    · rw [hev] at h1; simp at h1
    · rw [hqs] at h1; simp at h1

end Stxxl.Schedule
