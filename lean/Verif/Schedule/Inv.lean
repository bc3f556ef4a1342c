import Verif.Schedule.Model
import Mathlib.Data.Finset.Card
import Mathlib.Data.Finset.Range
import Mathlib.Data.List.Perm.Basic
import Mathlib.Tactic.SplitIfs

/-! Invariant of the write simulation. -/

namespace Stxxl.Schedule

/-- Blocks fed to the simulation and not yet written. -/
def fed (L : Nat) (s : Sim) : Finset Nat := (Finset.range L).filter (fun x => s.i ≤ x ∧ s.o x = none)

/-- Blocks not yet written. -/
def undone (L : Nat) (s : Sim) : Finset Nat := (Finset.range L).filter (fun x => s.o x = none)

/-- Blocks above `k` not written by time `t`. -/
def later (L : Nat) (o : Nat → Option Nat) (k t : Nat) : Finset Nat :=
  (Finset.range L).filter (fun x => k < x ∧ ∀ t', o x = some t' → t < t')

structure Inv (disk : Nat → Nat) (L D m : Nat) (s : Sim) : Prop where
  iL : s.i ≤ L
  evb : ∀ e ∈ s.ev, e.2 < L ∧ s.i ≤ e.2 ∧ s.o e.2 = none ∧ s.old ≤ e.1
  evnd : (s.ev.map Prod.snd).Nodup
  qb : ∀ d, ∀ x ∈ s.qs d, disk x = d ∧ x < L ∧ s.i ≤ x ∧ s.o x = none ∧ x ∉ s.ev.map Prod.snd
  qnd : ∀ d, (s.qs d).Nodup
  fresh : ∀ x < s.i, s.o x = none
  done : ∀ x t, s.o x = some t → x < L ∧ t ≤ s.old
  und : ∀ x < L, s.o x = none → s.i ≤ x → x ∈ s.ev.map Prod.snd ∨ x ∈ s.qs (disk x)
  ahead : ∀ k t, s.o k = some t → (later L s.o k t).card + 1 ≤ m

theorem upd_same {β} (f : Nat → β) (k : Nat) (v : β) : upd f k v k = v := by simp [upd]
theorem upd_ne {β} (f : Nat → β) {k x : Nat} (v : β) (h : x ≠ k) : upd f k v x = f x := by simp [upd, h]

variable {disk : Nat → Nat} {L D m : Nat}

theorem mem_fed {s : Sim} {x : Nat} : x ∈ fed L s ↔ x < L ∧ s.i ≤ x ∧ s.o x = none := by simp [fed]
theorem mem_undone {s : Sim} {x : Nat} : x ∈ undone L s ↔ x < L ∧ s.o x = none := by simp [undone]

/-- Feeding the next block to its queue. -/
theorem Inv.feedQ {s : Sim} (h : Inv disk L D m s) (hi : s.i ≠ 0) :
    Inv disk L D m { s with qs := upd s.qs (disk (s.i - 1)) (s.qs (disk (s.i - 1)) ++ [s.i - 1]), i := s.i - 1 } := by
  have hiL := h.iL
  have hn : s.i - 1 ∉ s.ev.map Prod.snd := by
    intro hm
    obtain ⟨e, he, hx⟩ := List.mem_map.mp hm
    have := (h.evb e he).2.1; omega
  constructor
  · show s.i - 1 ≤ L; omega
  · intro e he; have := h.evb e he; exact ⟨this.1, by show s.i - 1 ≤ _; omega, this.2.2⟩
  · exact h.evnd
  · intro d x hx
    show _ ∧ _ ∧ s.i - 1 ≤ x ∧ _
    by_cases hd : d = disk (s.i - 1)
    · subst hd
      simp only [upd_same, List.mem_append, List.mem_singleton] at hx
      rcases hx with hx | rfl
      · have := h.qb _ x hx; exact ⟨this.1, this.2.1, by omega, this.2.2.2⟩
      · exact ⟨rfl, by omega, Nat.le_refl _, h.fresh _ (by omega), hn⟩
    · simp only [upd_ne _ _ hd] at hx
      have := h.qb _ x hx; exact ⟨this.1, this.2.1, by omega, this.2.2.2⟩
  · intro d
    show List.Nodup (upd _ _ _ d)
    by_cases hd : d = disk (s.i - 1)
    · subst hd
      rw [upd_same, List.nodup_append]
      refine ⟨h.qnd _, by simp, ?_⟩
      intro a ha b hb
      simp at hb; have := (h.qb _ a ha).2.2.1; omega
    · rw [upd_ne _ _ hd]; exact h.qnd d
  · intro x hx; have hx : x < s.i - 1 := hx; exact h.fresh x (by omega)
  · exact h.done
  · intro x hxL hx hi'
    have hi' : s.i - 1 ≤ x := hi'
    show _ ∨ x ∈ upd _ _ _ _
    by_cases hxi : x = s.i - 1
    · subst hxi; right; simp [upd_same]
    · rcases h.und x hxL hx (by omega) with h1 | h1
      · exact Or.inl h1
      · right
        by_cases hd : disk x = disk (s.i - 1)
        · rw [hd, upd_same]; rw [hd] at h1; simp [h1]
        · rw [upd_ne _ _ hd]; exact h1
  · exact h.ahead

/-- Feeding the next block directly to its disk. -/
theorem Inv.feedE {s : Sim} (h : Inv disk L D m s) (hi : s.i ≠ 0) (t : Nat) (ht : s.old ≤ t) (bz : Nat → Bool) :
    Inv disk L D m { s with ev := (t, s.i - 1) :: s.ev, i := s.i - 1, busy := bz } := by
  have hiL := h.iL
  have hn : s.i - 1 ∉ s.ev.map Prod.snd := by
    intro hm
    obtain ⟨e, he, hx⟩ := List.mem_map.mp hm
    have := (h.evb e he).2.1; omega
  constructor
  · show s.i - 1 ≤ L; omega
  · intro e he
    show _ ∧ s.i - 1 ≤ _ ∧ _
    rcases List.mem_cons.mp he with rfl | he
    · exact ⟨by show s.i - 1 < L; omega, Nat.le_refl _, h.fresh _ (by show s.i - 1 < _; omega), ht⟩
    · have := h.evb e he; exact ⟨this.1, by omega, this.2.2⟩
  · show ((s.i - 1) :: s.ev.map Prod.snd).Nodup
    exact List.nodup_cons.mpr ⟨hn, h.evnd⟩
  · intro d x hx
    show _ ∧ _ ∧ s.i - 1 ≤ x ∧ _ ∧ x ∉ (s.i - 1) :: _
    have := h.qb _ x hx
    refine ⟨this.1, this.2.1, by omega, this.2.2.2.1, ?_⟩
    rw [List.mem_cons]; rintro (h1 | h1)
    · omega
    · exact this.2.2.2.2 h1
  · exact h.qnd
  · intro x hx; have hx : x < s.i - 1 := hx; exact h.fresh x (by omega)
  · exact h.done
  · intro x hxL hx hi'
    have hi' : s.i - 1 ≤ x := hi'
    show x ∈ (s.i - 1) :: _ ∨ _
    by_cases hxi : x = s.i - 1
    · subst hxi; left; simp
    · rcases h.und x hxL hx (by omega) with h1 | h1
      · exact Or.inl (List.mem_cons_of_mem _ h1)
      · exact Or.inr h1
  · exact h.ahead

/-- Moving the head of a queue to its disk. -/
theorem Inv.startQ {s : Sim} (h : Inv disk L D m s) (t d j : Nat) (rest : List Nat) (hq : s.qs d = j :: rest) (ht : s.old ≤ t)
    (bz : Nat → Bool) :
    Inv disk L D m { s with ev := (t, j) :: s.ev, qs := upd s.qs d rest, busy := bz } := by
  have hj := h.qb d j (by rw [hq]; simp)
  have hnd := h.qnd d
  rw [hq] at hnd
  have hjn := (List.nodup_cons.mp hnd).1
  constructor
  · exact h.iL
  · intro e he
    rcases List.mem_cons.mp he with rfl | he
    · exact ⟨hj.2.1, hj.2.2.1, hj.2.2.2.1, ht⟩
    · exact h.evb e he
  · show (j :: s.ev.map Prod.snd).Nodup
    exact List.nodup_cons.mpr ⟨hj.2.2.2.2, h.evnd⟩
  · intro d' x hx
    show _ ∧ _ ∧ _ ∧ _ ∧ x ∉ j :: _
    have hx' : x ∈ s.qs d' ∧ x ≠ j := by
      by_cases hd : d' = d
      · subst hd; simp only [upd_same] at hx
        refine ⟨by rw [hq]; exact List.mem_cons_of_mem _ hx, ?_⟩
        rintro rfl; exact hjn hx
      · simp only [upd_ne _ _ hd] at hx
        refine ⟨hx, ?_⟩
        rintro rfl
        exact hd ((h.qb _ _ hx).1.symm.trans hj.1)
    have := h.qb _ x hx'.1
    refine ⟨this.1, this.2.1, this.2.2.1, this.2.2.2.1, ?_⟩
    rw [List.mem_cons]; rintro (h1 | h1)
    · exact hx'.2 h1
    · exact this.2.2.2.2 h1
  · intro d'
    show List.Nodup (upd _ _ _ d')
    by_cases hd : d' = d
    · subst hd; rw [upd_same]; exact (List.nodup_cons.mp hnd).2
    · rw [upd_ne _ _ hd]; exact h.qnd d'
  · exact h.fresh
  · exact h.done
  · intro x hxL hx hi'
    show x ∈ j :: _ ∨ x ∈ upd _ _ _ _
    rcases h.und x hxL hx hi' with h1 | h1
    · exact Or.inl (List.mem_cons_of_mem _ h1)
    · by_cases hd : disk x = d
      · rw [hd, hq] at h1
        rcases List.mem_cons.mp h1 with rfl | h1
        · left; simp
        · right; rw [hd, upd_same]; exact h1
      · right; rw [upd_ne _ _ hd]; exact h1
  · exact h.ahead

theorem minTs_le : ∀ (ev : List (Nat × Nat)), ∀ e ∈ ev, minTs ev ≤ e.1
  | [], e, h => by simp at h
  | [a], e, h => by simp at h; subst h; exact Nat.le_refl _
  | a :: b :: es, e, h => by
    rw [minTs]
    · rcases List.mem_cons.mp h with rfl | h
      · exact Nat.min_le_left _ _
      · exact Nat.le_trans (Nat.min_le_right _ _) (minTs_le _ e h)
    · simp

theorem minTs_mem : ∀ (ev : List (Nat × Nat)), ev ≠ [] → ∃ e ∈ ev, e.1 = minTs ev
  | [], h => absurd rfl h
  | [a], h => ⟨a, by simp, rfl⟩
  | a :: b :: es, _ => by
    obtain ⟨e, he, h1⟩ := minTs_mem (b :: es) (by simp)
    rw [minTs]
    · by_cases hc : a.1 ≤ minTs (b :: es)
      · exact ⟨a, by simp, by omega⟩
      · exact ⟨e, List.mem_cons_of_mem _ he, by omega⟩
    · simp

theorem popMin_spec (c : Nat) (ev : List (Nat × Nat)) (h : ev ≠ []) :
    ∃ e, popMin c ev = some (e, ev.erase e) ∧ e ∈ ev ∧ ∀ e' ∈ ev, e.1 ≤ e'.1 := by
  obtain ⟨e0, h0, h1⟩ := minTs_mem ev h
  have hlen : 0 < (ev.filter (fun e => decide (e.1 = minTs ev))).length := by
    apply List.length_pos_of_mem (a := e0); simp [h0, h1]
  have hlt : c % (ev.filter (fun e => decide (e.1 = minTs ev))).length < (ev.filter (fun e => decide (e.1 = minTs ev))).length := Nat.mod_lt _ hlen
  refine ⟨(ev.filter (fun e => decide (e.1 = minTs ev)))[c % _]'hlt, ?_, ?_, ?_⟩
  · rw [popMin]; simp only [List.getElem?_eq_getElem hlt]
  · exact (List.mem_filter.mp (List.getElem_mem hlt)).1
  · have := (List.mem_filter.mp (List.getElem_mem hlt)).2
    simp only [decide_eq_true_eq] at this
    intro e' he'
    rw [this]; exact minTs_le _ _ he'

/-- Writing a block. -/
theorem Inv.record {s : Sim} (h : Inv disk L D m s) (e : Nat × Nat) (he : e ∈ s.ev) (hmin : ∀ e' ∈ s.ev, e.1 ≤ e'.1)
    (hcap : (fed L s).card ≤ m) :
    Inv disk L D m (record s e.1 e.2 (s.ev.erase e)) ∧ (fed L (record s e.1 e.2 (s.ev.erase e))).card + 1 ≤ m ∧
      (undone L (record s e.1 e.2 (s.ev.erase e))).card + 1 = (undone L s).card := by
  obtain ⟨t, b⟩ := e
  have hb := h.evb _ he
  have hp : s.ev.Perm ((t, b) :: s.ev.erase (t, b)) := List.perm_cons_erase he
  have hpm : (s.ev.map Prod.snd).Perm (b :: (s.ev.erase (t, b)).map Prod.snd) := hp.map Prod.snd
  have hnd := hpm.nodup_iff.mp h.evnd
  have hbn := (List.nodup_cons.mp hnd).1
  dsimp only at hb
  have hfed : (fed L (Schedule.record s t b (s.ev.erase (t, b)))) = (fed L s).erase b := by
    ext x
    rw [Finset.mem_erase, mem_fed, mem_fed]
    show _ ∧ s.i ≤ x ∧ upd _ _ _ _ = _ ↔ _
    by_cases hx : x = b
    · subst hx; simp [upd_same]
    · simp [hx, upd_ne]
  have hbf : b ∈ fed L s := by simp [fed, hb.1, hb.2.1, hb.2.2.1]
  have hund : (undone L (Schedule.record s t b (s.ev.erase (t, b)))) = (undone L s).erase b := by
    ext x
    rw [Finset.mem_erase, mem_undone, mem_undone]
    show _ ∧ upd _ _ _ _ = _ ↔ _
    by_cases hx : x = b
    · subst hx; simp [upd_same]
    · simp [hx, upd_ne]
  have hbu : b ∈ undone L s := by simp [undone, hb.1, hb.2.2.1]
  have hfc : ((fed L s).erase b).card + 1 = (fed L s).card := Finset.card_erase_add_one hbf
  refine ⟨?_, by dsimp only; rw [hfed]; omega, by dsimp only; rw [hund]; exact Finset.card_erase_add_one hbu⟩
  have hne : ∀ x ∈ (s.ev.erase (t, b)).map Prod.snd, x ≠ b := fun x hx hxb => hbn (hxb ▸ hx)
  constructor
  · exact h.iL
  · intro e' he'
    have he' : e' ∈ s.ev.erase (t, b) := he'
    have h1 := h.evb e' (List.mem_of_mem_erase he')
    refine ⟨h1.1, h1.2.1, ?_, hmin e' (List.mem_of_mem_erase he')⟩
    show upd _ _ _ _ = _
    rw [upd_ne _ _ (hne _ (List.mem_map_of_mem he'))]; exact h1.2.2.1
  · exact (List.nodup_cons.mp hnd).2
  · intro d x hx
    have h1 := h.qb d x hx
    have hxb : x ≠ b := by
      rintro rfl; exact h1.2.2.2.2 (hpm.mem_iff.mpr (by simp))
    refine ⟨h1.1, h1.2.1, h1.2.2.1, ?_, ?_⟩
    · show upd _ _ _ _ = _
      rw [upd_ne _ _ hxb]; exact h1.2.2.2.1
    · intro hc; exact h1.2.2.2.2 (hpm.mem_iff.mpr (List.mem_cons_of_mem _ hc))
  · exact h.qnd
  · intro x hx
    have hx : x < s.i := hx
    show upd _ _ _ _ = _
    rw [upd_ne _ _ (by omega)]; exact h.fresh x hx
  · intro x t' hx
    have hx : upd s.o b (some t) x = some t' := hx
    show _ ∧ t' ≤ t
    by_cases hxb : x = b
    · subst hxb; rw [upd_same] at hx; cases hx; exact ⟨hb.1, Nat.le_refl _⟩
    · rw [upd_ne _ _ hxb] at hx; have := h.done x t' hx; exact ⟨this.1, by omega⟩
  · intro x hxL hx hi'
    have hx : upd s.o b (some t) x = none := hx
    have hxb : x ≠ b := by rintro rfl; rw [upd_same] at hx; cases hx
    rw [upd_ne _ _ hxb] at hx
    rcases h.und x hxL hx hi' with h1 | h1
    · left
      rcases List.mem_cons.mp (hpm.mem_iff.mp h1) with h2 | h2
      · exact absurd h2 hxb
      · exact h2
    · exact Or.inr h1
  · intro k t' hk
    have hk : upd s.o b (some t) k = some t' := hk
    show (later L (upd s.o b (some t)) k t').card + 1 ≤ m
    by_cases hkb : k = b
    · subst hkb; rw [upd_same] at hk; cases hk
      have : later L (upd s.o k (some t)) k t ⊆ (fed L s).erase k := by
        intro x hx
        simp only [later, Finset.mem_filter, Finset.mem_range] at hx
        obtain ⟨hxL, hkx, hx⟩ := hx
        have hxk : x ≠ k := by omega
        rw [upd_ne _ _ hxk] at hx
        simp only [fed, Finset.mem_erase, Finset.mem_filter, Finset.mem_range]
        refine ⟨hxk, hxL, by omega, ?_⟩
        cases ho : s.o x with
        | none => rfl
        | some t' =>
          have h1 := hx t' ho
          have h2 := (h.done x t' ho).2
          omega
      have := Finset.card_le_card this
      omega
    · rw [upd_ne _ _ hkb] at hk
      have h1 := h.ahead k t' hk
      have : later L (upd s.o b (some t)) k t' ⊆ later L s.o k t' := by
        intro x hx
        simp only [later, Finset.mem_filter, Finset.mem_range] at hx ⊢
        refine ⟨hx.1, hx.2.1, ?_⟩
        intro t2 h2
        by_cases hxb : x = b
        · subst hxb; rw [hb.2.2.1] at h2; cases h2
        · exact hx.2.2 t2 (by rw [upd_ne _ _ hxb]; exact h2)
      have := Finset.card_le_card this
      omega

end Stxxl.Schedule
