import Verif.KSort.Model
import Verif.Sort.Own
import Mathlib.Tactic.SplitIfs

/-!
# The small sorts and the logarithms
-/

namespace Stxxl.KSort

variable {α : Type} {lt : α → α → Bool}

theorem klt_swo (key : α → Nat) : SWO (klt key) where
  asymm := by intro a b; simp [klt]; omega
  negtrans := by intro a b c; simp [klt]; omega

theorem SWO.le_trans (h : SWO lt) {a b c : α} (h1 : lt b a = false) (h2 : lt c b = false) : lt c a = false :=
  h.negtrans c b a h2 h1

theorem sort2_spec (h : SWO lt) (a b : α) :
    lt (sort2 lt a b).2 (sort2 lt a b).1 = false ∧ [(sort2 lt a b).1, (sort2 lt a b).2].Perm [a, b] := by
  unfold sort2
  split_ifs with h1
  · exact ⟨h.asymm _ _ h1, List.Perm.swap _ _ _⟩
  · exact ⟨by simpa using h1, List.Perm.refl _⟩

theorem sort3_spec (h : SWO lt) (a b c : α) : Sorted lt (sort3 lt a b c) ∧ (sort3 lt a b c).Perm [a, b, c] := by
  classical
  have as := h.asymm
  have nt := h.negtrans
  constructor
  · unfold sort3 Sorted
    split_ifs <;> simp only [List.pairwise_cons, List.mem_cons, List.not_mem_nil, or_false, forall_eq_or_imp, forall_eq,
      IsEmpty.forall_iff, implies_true, List.Pairwise.nil, and_true] <;> grind
  · unfold sort3
    clear as nt
    split_ifs <;> (rw [List.perm_iff_count]; intro x; simp only [List.count_cons, List.count_nil] <;> omega)

theorem sort4_spec (h : SWO lt) (a b c d : α) : Sorted lt (sort4 lt a b c d) ∧ (sort4 lt a b c d).Perm [a, b, c, d] := by
  have as := h.asymm
  have nt := h.negtrans
  obtain ⟨p1, p2⟩ := sort2_spec h a b
  obtain ⟨q1, q2⟩ := sort2_spec h c d
  unfold sort4
  generalize sort2 lt a b = r at *
  generalize sort2 lt c d = s at *
  obtain ⟨a', b'⟩ := r
  obtain ⟨c', d'⟩ := s
  dsimp only at *
  have hp : [a', b', c', d'].Perm [a, b, c, d] := p2.append q2
  constructor
  · unfold Sorted
    split_ifs <;> simp only [List.pairwise_cons, List.mem_cons, List.not_mem_nil, or_false, forall_eq_or_imp, forall_eq,
      IsEmpty.forall_iff, implies_true, List.Pairwise.nil, and_true] <;> grind
  · refine List.Perm.trans ?_ hp
    classical
    split_ifs <;> (rw [List.perm_iff_count]; intro x; simp only [List.count_cons, List.count_nil] <;> omega)

/-- Reversed sorted list. -/
def RSorted (lt : α → α → Bool) (l : List α) : Prop := l.Pairwise fun a b => lt a b = false

theorem rsorted_reverse {l : List α} : RSorted lt l ↔ Sorted lt l.reverse := by
  simp [RSorted, Sorted, List.pairwise_reverse]

theorem insRev_spec (h : SWO lt) (t : α) : ∀ (s : List α), RSorted lt s → (∃ a, s.getLast? = some a ∧ lt t a = false) →
    ∃ s', insRev lt t s = some s' ∧ RSorted lt s' ∧ s'.Perm (t :: s) := by
  intro s
  induction s with
  | nil => intro _ ⟨a, h1, _⟩; simp at h1
  | cons x xs ih =>
    intro hs hl
    rw [insRev]
    by_cases hx : lt t x = true
    · rw [if_pos hx]
      cases xs with
      | nil => obtain ⟨a, h1, h2⟩ := hl; simp at h1; subst h1; rw [hx] at h2; exact absurd h2 (by simp)
      | cons y ys =>
        obtain ⟨s', h1, h2, h3⟩ := ih (List.pairwise_cons.1 hs).2 (by simpa using hl)
        refine ⟨x :: s', by rw [h1]; rfl, ?_, ?_⟩
        · refine List.pairwise_cons.2 ⟨?_, h2⟩
          intro z hz
          rcases List.mem_cons.1 (h3.mem_iff.1 hz) with rfl | hz
          · exact h.asymm _ _ hx
          · exact (List.pairwise_cons.1 hs).1 z hz
        · exact (h3.cons x).trans (List.Perm.swap _ _ _)
    · rw [if_neg hx]
      have hx : lt t x = false := by simpa using hx
      refine ⟨_, rfl, ?_, List.Perm.refl _⟩
      refine List.pairwise_cons.2 ⟨?_, hs⟩
      intro z hz
      rcases List.mem_cons.1 hz with rfl | hz
      · exact hx
      · exact h.negtrans _ _ _ hx ((List.pairwise_cons.1 hs).1 z hz)

theorem insStep_spec (h : SWO lt) (t : α) (s : List α) (hne : s ≠ []) (hs : RSorted lt s) :
    ∃ s', insStep lt s t = some s' ∧ RSorted lt s' ∧ s'.Perm (t :: s) ∧ s' ≠ [] := by
  unfold insStep
  obtain ⟨a, ha⟩ : ∃ a, s.getLast? = some a := ⟨s.getLast hne, List.getLast?_eq_some_getLast hne⟩
  rw [ha]
  dsimp only
  by_cases hx : lt t a = true
  · rw [if_pos hx]
    refine ⟨_, rfl, ?_, List.perm_append_singleton _ _, by simp⟩
    rw [RSorted, List.pairwise_append]
    refine ⟨hs, List.pairwise_singleton _ _, ?_⟩
    intro z hz y hy
    simp at hy; subst hy
    obtain ⟨s0, rfl⟩ : ∃ s0, s = s0 ++ [a] := by
      obtain ⟨s0, hs0⟩ := List.getLast?_eq_some_iff.1 ha; exact ⟨s0, hs0⟩
    have h1 : lt a y = false := h.asymm _ _ hx
    rcases List.mem_append.1 hz with hz | hz
    · exact h.negtrans _ _ _ ((List.pairwise_append.1 hs).2.2 z hz a (by simp)) h1
    · simp at hz; subst hz; exact h1
  · rw [if_neg hx]
    obtain ⟨s', h1, h2, h3⟩ := insRev_spec h t s hs ⟨a, ha, by simpa using hx⟩
    exact ⟨s', h1, h2, h3, by intro e; rw [e] at h3; have := h3.length_eq; simp at this⟩

theorem insLoop_spec (h : SWO lt) : ∀ (ts s : List α), s ≠ [] → RSorted lt s →
    ∃ r, insLoop lt s ts = some r ∧ Sorted lt r ∧ r.Perm (s ++ ts) := by
  intro ts
  induction ts with
  | nil => intro s _ hs; exact ⟨_, rfl, rsorted_reverse.1 hs, by simpa using s.reverse_perm⟩
  | cons t ts ih =>
    intro s hne hs
    obtain ⟨s', h1, h2, h3, h4⟩ := insStep_spec h t s hne hs
    obtain ⟨r, r1, r2, r3⟩ := ih s' h4 h2
    refine ⟨r, by simp only [insLoop, h1, r1], r2, r3.trans ?_⟩
    exact (h3.append_right ts).trans (List.perm_middle.symm)

theorem insertionSort_spec (h : SWO lt) (l : List α) : ∃ r, insertionSort lt l = some r ∧ Sorted lt r ∧ r.Perm l := by
  cases l with
  | nil => exact ⟨[], rfl, List.Pairwise.nil, List.Perm.refl _⟩
  | cons x xs => exact insLoop_spec h xs [x] (by simp) (List.pairwise_singleton _ _)

theorem sortSmall_spec (h : SWO lt) {srt : List α → List α} (hs : Srt.SortFn lt srt) (l : List α) :
    ∃ r, sortSmall lt srt l = some r ∧ Sorted lt r ∧ r.Perm l := by
  unfold sortSmall
  split
  · exact ⟨_, rfl, List.Pairwise.nil, List.Perm.refl _⟩
  · exact ⟨_, rfl, List.pairwise_singleton _ _, List.Perm.refl _⟩
  · rename_i a b
    obtain ⟨h1, h2⟩ := sort2_spec h a b
    exact ⟨_, rfl, by simp [Sorted, h1], h2⟩
  · rename_i a b c
    exact ⟨_, rfl, sort3_spec h a b c⟩
  · rename_i a b c d
    exact ⟨_, rfl, sort4_spec h a b c d⟩
  · split_ifs
    · exact insertionSort_spec h l
    · exact ⟨_, rfl, hs.sorted _, hs.perm _⟩

/-! ## Logarithms -/

theorem ilogA_spec : ∀ (n i p : Nat), i ≤ n → (ilogA n i p).1.log2 + (ilogA n i p).2 = i.log2 + p ∧ (ilogA n i p).1 ≤ i := by
  intro n
  induction n with
  | zero => intro i p _; simp [ilogA]
  | succ n ih =>
    intro i p hi
    rw [ilogA]
    split_ifs with h
    · obtain ⟨h1, h2⟩ := ih (i / 256) (p + 8) (by omega)
      refine ⟨?_, by omega⟩
      rw [h1]
      have : i.log2 = (i / 256).log2 + 8 := by
        have e : i / 256 = i / 2 ^ 8 := rfl
        rw [e, Nat.log2_eq_iff (by omega)]
        have hne : i / 2 ^ 8 ≠ 0 := by omega
        have a1 := Nat.log2_self_le hne
        have a2 := (Nat.log2_lt hne).1 (Nat.lt_succ_self _)
        have e2 : (i / 2 ^ 8).log2 + 8 + 1 = (i / 2 ^ 8).log2.succ + 8 := by omega
        rw [e2, Nat.pow_add, Nat.pow_add]
        generalize 2 ^ (i / 2 ^ 8).log2 = u at *
        generalize 2 ^ (i / 2 ^ 8).log2.succ = v at *
        omega
      omega
    · simp

theorem ilogB_spec : ∀ (n i p : Nat), i ≤ n → ilogB n i p = i.log2 + p := by
  intro n
  induction n with
  | zero => intro i p hi; have : i = 0 := by omega
            subst this; simp [ilogB]
  | succ n ih =>
    intro i p hi
    rw [ilogB]
    split_ifs with h
    · rw [ih _ _ (by omega)]
      rw [Nat.log2_def i, if_pos (by omega)]; omega
    · rw [Nat.log2_def i, if_neg (by omega)]; omega

/-- The bit loops compute the logarithm. -/
theorem ilog2Floor_eq (i : Nat) : ilog2Floor i = i.log2 := by
  unfold ilog2Floor
  obtain ⟨h1, h2⟩ := ilogA_spec i i 0 (Nat.le_refl _)
  dsimp only
  rw [ilogB_spec _ _ _ (Nat.le_refl _)]; omega

end Stxxl.KSort
