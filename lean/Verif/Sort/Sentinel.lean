import Verif.Sort.Phase

/-! # The sentinels fill exactly the ends of the sorted sequence -/

namespace Stxxl.Srt

variable {α : Type} {lt : α → α → Bool}

/-- A sorted list splits at a downward closed predicate. -/
theorem sorted_split {l : List α} (h : Sorted lt l) (p : α → Bool)
    (hp : ∀ a b, p b = true → lt b a = false → p a = true) : l = l.filter p ++ l.filter (fun x => !p x) := by
  induction l with
  | nil => rfl
  | cons a l ih =>
    have h2 := List.pairwise_cons.1 h
    have ih := ih h2.2
    cases hpa : p a
    · have hnone : l.filter p = [] := by
        rw [List.filter_eq_nil_iff]
        intro b hb hpb
        have := hp a b hpb (h2.1 b hb)
        rw [hpa] at this; cases this
      have hall : l.filter (fun x => !p x) = l := by
        rw [hnone] at ih; simpa using ih.symm
      rw [List.filter_cons_of_neg (by simp [hpa]), List.filter_cons_of_pos (by simp [hpa]), hnone, hall]; rfl
    · rw [List.filter_cons_of_pos hpa, List.filter_cons_of_neg (by simp [hpa]), List.cons_append, ← ih]

theorem eq_replicate_of_forall {l : List α} {x : α} (h : ∀ y ∈ l, y = x) : l = List.replicate l.length x :=
  List.eq_replicate_iff.2 ⟨rfl, h⟩

/-- `a` copies of the minimum, `b` copies of the maximum and the elements `mid` in between, sorted: the copies are at
the ends and what is between them is a permutation of `mid`. -/
theorem sentinel (hs : SWO lt) {mn mx : α} {a b : Nat} {mid S : List α} (hS : Sorted lt S)
    (hp : S.Perm (List.replicate a mn ++ mid ++ List.replicate b mx)) (hmm : a = 0 ∨ b = 0 ∨ lt mn mx = true)
    (hmin : a ≠ 0 → ∀ x ∈ mid, lt mn x = true ∨ x = mn) (hmax : b ≠ 0 → ∀ x ∈ mid, lt x mx = true ∨ x = mx) :
    ∃ mid', S = List.replicate a mn ++ mid' ++ List.replicate b mx ∧ mid'.Perm mid := by
  have hfront : ∃ S1, S = List.replicate a mn ++ S1 := by
    by_cases ha : a = 0
    · exact ⟨S, by simp [ha]⟩
    have hsp := sorted_split hS (fun x => !lt mn x) (by
      intro x y hy hyx
      simp only [Bool.not_eq_true'] at *
      exact hs.negtrans _ _ _ hy hyx)
    have hall : ∀ y ∈ S.filter (fun x => !lt mn x), y = mn := by
      intro y hy
      rw [List.mem_filter] at hy
      obtain ⟨h1, h2⟩ := hy
      simp only [Bool.not_eq_true'] at h2
      have := hp.subset h1
      simp only [List.mem_append, List.mem_replicate] at this
      rcases this with (⟨_, rfl⟩ | h3) | ⟨h4, rfl⟩
      · rfl
      · rcases hmin ha y h3 with h | h
        · rw [h] at h2; cases h2
        · exact h
      · rcases hmm with h | h | h
        · exact absurd h ha
        · exact absurd h h4
        · rw [h] at h2; cases h2
    have hlen : a ≤ (S.filter (fun x => !lt mn x)).length := by
      rw [(hp.filter _).length_eq, List.filter_append, List.filter_append, List.filter_replicate]
      simp only [hs.irrefl, Bool.not_false, if_true, List.length_append, List.length_replicate]
      omega
    rw [eq_replicate_of_forall hall] at hsp
    obtain ⟨c, hc⟩ := Nat.exists_eq_add_of_le hlen
    rw [hc, List.replicate_add, List.append_assoc] at hsp
    exact ⟨_, hsp⟩
  obtain ⟨S1, rfl⟩ := hfront
  have hp1 : S1.Perm (mid ++ List.replicate b mx) := by
    rw [List.append_assoc] at hp
    exact (List.perm_append_left_iff _).1 hp
  have hS1 : Sorted lt S1 := (List.pairwise_append.1 hS).2.1
  have hback : ∃ S2, S1 = S2 ++ List.replicate b mx := by
    by_cases hb : b = 0
    · exact ⟨S1, by simp [hb]⟩
    have hsp := sorted_split hS1 (fun x => lt x mx) (by
      intro x y hy hyx
      exact hs.lt_of_le_of_lt hyx hy)
    have hall : ∀ y ∈ S1.filter (fun x => !lt x mx), y = mx := by
      intro y hy
      rw [List.mem_filter] at hy
      obtain ⟨h1, h2⟩ := hy
      simp only [Bool.not_eq_true'] at h2
      have := hp1.subset h1
      simp only [List.mem_append, List.mem_replicate] at this
      rcases this with h3 | ⟨h4, rfl⟩
      · rcases hmax hb y h3 with h | h
        · rw [h] at h2; cases h2
        · exact h
      · rfl
    have hlen : b ≤ (S1.filter (fun x => !lt x mx)).length := by
      rw [(hp1.filter _).length_eq, List.filter_append, List.filter_replicate]
      simp only [hs.irrefl, Bool.not_false, if_true, List.length_append, List.length_replicate]
      omega
    rw [eq_replicate_of_forall hall] at hsp
    obtain ⟨c, hc⟩ := Nat.exists_eq_add_of_le' hlen
    rw [hc, List.replicate_add, ← List.append_assoc] at hsp
    exact ⟨_, hsp⟩
  obtain ⟨S2, rfl⟩ := hback
  exact ⟨S2, by rw [List.append_assoc], (List.perm_append_right_iff _).1 hp1⟩

end Stxxl.Srt
