import Verif.MwMerge.Model
import Verif.MwMerge.Spec
import Mathlib.Tactic.Tauto
/-! Step-wise merging: every step takes a best head. It implies the specification. -/
namespace Stxxl.MwMerge
open Spec
variable {α : Type} {lt : α → α → Bool}

/-- No head is less than `x`, and if `st`, no head of an earlier sequence is equivalent to it. -/
def Best (lt : α → α → Bool) (st : Bool) (S : List (List α)) (i : Nat) (x : α) : Prop :=
  ∀ (j : Nat) (y : α) (ys : List α), S[j]? = some (y :: ys) → lt y x = false ∧ (st = true → lt x y = false → i ≤ j)

inductive MergeRun (lt : α → α → Bool) (st : Bool) : List (List α) → List α → List (List α) → Prop
  | nil (S : List (List α)) : MergeRun lt st S [] S
  | cons {S : List (List α)} {i : Nat} {x : α} {xs out : List α} {S' : List (List α)} : S[i]? = some (x :: xs) → Best lt st S i x →
      MergeRun lt st (S.set i xs) out S' → MergeRun lt st S (x :: out) S'

theorem MergeRun.append {st : Bool} {S T U : List (List α)} {o o' : List α} (h : MergeRun lt st S o T) (h' : MergeRun lt st T o' U) :
    MergeRun lt st S (o ++ o') U := by
  induction h with
  | nil S => exact h'
  | cons a b _ ih => exact .cons a b (ih h')

theorem Best.mono {S : List (List α)} {i : Nat} {x : α} {st : Bool} (h : Best lt true S i x) : Best lt st S i x :=
  fun j y ys hj => ⟨(h j y ys hj).1, fun _ => (h j y ys hj).2 rfl⟩

theorem MergeRun.mono {S T : List (List α)} {o : List α} {st : Bool} (h : MergeRun lt true S o T) : MergeRun lt st S o T := by
  induction h with
  | nil S => exact .nil S
  | cons a b _ ih => exact .cons a b.mono ih

/-- All sequences are sorted. -/
def AllSorted (lt : α → α → Bool) (S : List (List α)) : Prop := ∀ s ∈ S, Sorted lt s

theorem AllSorted.set {S : List (List α)} {i : Nat} {x : α} {xs : List α} (h : AllSorted lt S) (hi : S[i]? = some (x :: xs)) :
    AllSorted lt (S.set i xs) := by
  intro s hs
  rcases List.mem_or_eq_of_mem_set hs with h' | rfl
  · exact h s h'
  · exact (List.pairwise_cons.1 (h _ (List.mem_of_getElem? hi))).2

theorem MergeRun.sorted {st : Bool} {S T : List (List α)} {o : List α} (h : MergeRun lt st S o T) (hS : AllSorted lt S) : AllSorted lt T := by
  induction h with
  | nil S => exact hS
  | cons a _ _ ih => exact ih (hS.set a)

theorem flatten_set {S : List (List α)} {i : Nat} {x : α} {xs : List α} (hi : S[i]? = some (x :: xs)) :
    ∃ A B, S.flatten = A ++ x :: (xs ++ B) ∧ (S.set i xs).flatten = A ++ (xs ++ B) ∧ A = (S.take i).flatten := by
  have hlt : i < S.length := by
    rcases Nat.lt_or_ge i S.length with h | h
    · exact h
    · rw [List.getElem?_eq_none h] at hi; simp at hi
  have e : S = S.take i ++ (x :: xs) :: S.drop (i + 1) := by
    have h2 : S[i] = x :: xs := by rw [List.getElem?_eq_getElem hlt] at hi; simpa using hi
    rw [← h2, List.getElem_cons_drop, List.take_append_drop]
  have e2 : S.set i xs = S.take i ++ xs :: S.drop (i + 1) := by
    rw [List.set_eq_take_append_cons_drop, if_pos hlt]
  refine ⟨(S.take i).flatten, (S.drop (i + 1)).flatten, ?_, ?_, rfl⟩
  · conv => lhs; rw [e]
    simp
  · rw [e2]; simp

/-- A best head is not greater than any element. -/
theorem Best.le_all (hw : SWO lt) {st : Bool} {S : List (List α)} {i : Nat} {x : α} (h : Best lt st S i x) (hS : AllSorted lt S) :
    ∀ y ∈ S.flatten, lt y x = false := by
  intro y hy
  obtain ⟨s, hs, hy⟩ := List.mem_flatten.1 hy
  obtain ⟨j, hj⟩ := List.getElem?_of_mem hs
  cases s with
  | nil => simp at hy
  | cons z zs =>
    have h1 := (h j z zs hj).1
    have h2 := List.pairwise_cons.1 (hS _ hs)
    rcases List.mem_cons.1 hy with rfl | hy
    · exact h1
    · exact hw.negtrans _ _ _ (h2.1 y hy) h1

theorem MergeRun.merges (hw : SWO lt) {st : Bool} {S S' : List (List α)} {out : List α} (h : MergeRun lt st S out S')
    (hS : AllSorted lt S) : Merges lt st S out.length out S' := by
  induction h with
  | nil S =>
    exact ⟨rfl, List.Pairwise.nil, rfl, fun i s s' h1 h2 => ⟨[], by rw [h1] at h2; simpa using h2⟩, by simp,
      by simp, fun _ v => by simp⟩
  | @cons S i x xs out S' hi hb hr ih =>
    have hS2 := hS.set hi
    obtain ⟨m1, m2, m3, m4, m5, m6, m7⟩ := ih hS2
    obtain ⟨A, B, f1, f2, f3⟩ := flatten_set hi
    have hall := hb.le_all hw hS
    have hsub : ∀ y ∈ out ++ S'.flatten, lt y x = false := by
      intro y hy
      apply hall
      have := m5.mem_iff.1 hy
      rw [f2] at this; rw [f1]
      simp only [List.mem_append, List.mem_cons] at this ⊢
      tauto
    refine ⟨by simp, List.pairwise_cons.2 ⟨fun y hy => hsub y (by simp [hy]), m2⟩, by rw [m3]; simp, ?_, ?_, ?_, ?_⟩
    · intro j s s' h1 h2
      by_cases hij : i = j
      · subst hij
        have hlt : i < S.length := by
          rcases Nat.lt_or_ge i S.length with h | h
          · exact h
          · rw [List.getElem?_eq_none h] at hi; simp at hi
        obtain ⟨p, hp⟩ := m4 i xs s' (by rw [List.getElem?_set_self hlt]) h2
        rw [hi] at h1
        have := Option.some.inj h1
        exact ⟨x :: p, by rw [← this, hp]; rfl⟩
      · exact m4 j s s' (by rw [List.getElem?_set_ne hij]; exact h1) h2
    · rw [f1]
      rw [f2] at m5
      show List.Perm (x :: (out ++ S'.flatten)) _
      exact (m5.cons x).trans List.perm_middle.symm
    · intro z hz y hy
      rcases List.mem_cons.1 hz with rfl | hz
      · exact hsub y (by simp [hy])
      · exact m6 z hz y hy
    · intro hst v
      have h7 := m7 hst v
      rw [f2] at h7
      rw [f1, List.filter_cons]
      by_cases hx : equiv lt v x = true
      · rw [if_pos hx]
        have hA : A.filter (equiv lt v) = [] := by
          rw [List.filter_eq_nil_iff]
          intro a ha hav
          rw [f3] at ha
          obtain ⟨s, hs, has⟩ := List.mem_flatten.1 ha
          obtain ⟨j, hj⟩ := List.getElem?_of_mem hs
          have hji : j < i := by
            rcases Nat.lt_or_ge j i with h | h
            · exact h
            · rw [List.getElem?_eq_none (by simp; omega)] at hj; simp at hj
          rw [List.getElem?_take_of_lt hji] at hj
          cases s with
          | nil => simp at has
          | cons y ys =>
            obtain ⟨b1, b2⟩ := hb j y ys hj
            have hsort := List.pairwise_cons.1 (hS _ (List.mem_of_getElem? hj))
            unfold equiv at hx hav
            simp only [Bool.and_eq_true, Bool.not_eq_true'] at hx hav
            have hya : lt a y = false := by
              rcases List.mem_cons.1 has with rfl | h
              · exact hw.irrefl _
              · exact hsort.1 a h
            have hax : lt x a = false := hw.negtrans _ _ _ hx.2 hav.1
            have := b2 hst (hw.negtrans _ _ _ hax hya)
            omega
        rw [List.filter_append, hA] at h7 ⊢
        rw [List.filter_cons, if_pos hx]
        simpa using h7
      · rw [if_neg hx]
        rw [h7]; simp [List.filter_append, List.filter_cons, hx]
end Stxxl.MwMerge
