import Verif.MwMerge.Tree
import Verif.MwMerge.Bubble
/-! The switch `sequential_multiway_merge`. -/
namespace Stxxl.MwMerge
open Spec
variable {α : Type} {lt : α → α → Bool}

/-- When is the sequential merge correct? `AlgoOk` lists the combinations of algorithm, stability and number of sequences. -/
def AlgoOk (stable : Bool) (algo : Algo) (k : Nat) : Prop :=
  k ≤ 3 ∨ algo = .bubble ∨ algo = .loserTree ∨ (5 ≤ k ∧ stable = false)

theorem sequential_run (hw : SWO lt) (kind : Kind) (stable : Bool) (algo : Algo) (junk1 : Nat → Nat) (junk2 : Nat → Node α)
    {S : List (List α)} {n : Nat} (hS : AllSorted lt S) (hok : AlgoOk stable algo S.length) (hlen : S.length ≤ 2 ^ 64)
    (hne : 5 ≤ S.length → algo ≠ .bubble → S.flatten ≠ []) (hn : n ≤ S.flatten.length) :
    ∃ o S', sequential lt kind stable algo junk1 junk2 S n = some (o, S') ∧ o.length = n ∧ MergeRun lt stable S o S' ∧
      (S.length ≤ 4 → MergeRun lt true S o S') := by
  have h4 : S.length ≤ 4 → (∃ o S', sequential lt kind stable algo junk1 junk2 S n = some (o, S') ∧ o.length = n ∧ MergeRun lt true S o S') →
      ∃ o S', sequential lt kind stable algo junk1 junk2 S n = some (o, S') ∧ o.length = n ∧ MergeRun lt stable S o S' ∧
      (S.length ≤ 4 → MergeRun lt true S o S') := by
    rintro _ ⟨o, S', a, b, c⟩
    exact ⟨o, S', a, b, c.mono, fun _ => c⟩
  match S with
  | [] =>
    refine h4 (by simp) ⟨[], [], rfl, ?_, .nil _⟩
    simp at hn; simp [hn]
  | [s] =>
    refine h4 (by simp) ?_
    simp only [List.flatten_cons, List.flatten_nil, List.append_nil] at hn
    refine ⟨s.take n, [s.drop n], ?_, by simp [hn], ?_⟩
    · show (if n ≤ s.length then some (s.take n, [s.drop n]) else none) = _
      rw [if_pos hn]
    · have := copy_run hw 0 n [s] (by simp) (by simpa [hd] using hn) (by
        intro l y ys hl
        cases l with
        | zero => rfl
        | succ l => simp at hl)
      simpa [hd] using this
  | [s, t] =>
    refine h4 (by simp) ?_
    have := merge2_run hw (S := [s, t]) (i := 0) (j := 1) (n := n) (by omega) (by simp) (by simpa [hd] using hn) (by
      intro l y ys hl
      match l with
      | 0 => left; rfl
      | 1 => right; rfl
      | l + 2 => simp at hl)
    exact this
  | [s, t, u] =>
    refine h4 (by simp) ?_
    simp only [sequential, List.length_cons, List.length_nil]
    by_cases hc : (if algo = .sentinel then Algo.combined else algo) = .combined
    · rw [if_pos hc]; exact combined3_run hw rfl hS hn
    · rw [if_neg hc]; exact merge3_run hw rfl hn
  | [s, t, u, v] =>
    refine h4 (by simp) ?_
    simp only [sequential, List.length_cons, List.length_nil]
    have h : algo = .bubble ∨ algo = .loserTree := by
      rcases hok with h | h | h | h
      · simp at h
      · exact .inl h
      · exact .inr h
      · have := h.1; simp at this
    rw [if_neg (by rcases h with rfl | rfl <;> simp)]
    exact merge4_run hw rfl hn
  | s :: t :: u :: v :: w :: R =>
    have hk5 : 5 ≤ (s :: t :: u :: v :: w :: R).length := by simp
    have key : ∃ o S', sequential lt kind stable algo junk1 junk2 (s :: t :: u :: v :: w :: R) n = some (o, S') ∧ o.length = n ∧
        MergeRun lt stable (s :: t :: u :: v :: w :: R) o S' := by
      simp only [sequential, List.length_cons]
      cases algo with
      | bubble => exact bubble_run hw junk1 hn
      | loserTree => exact loserTree_run hw junk2 hlen (hne hk5 (by simp)) hn
      | combined =>
        have : stable = false := by
          rcases hok with h | h | h | h
          · simp at h
          · cases h
          · cases h
          · exact h.2
        subst this
        exact combinedTree_run hw kind junk2 hlen hS (hne hk5 (by simp)) hn
      | sentinel =>
        have : stable = false := by
          rcases hok with h | h | h | h
          · simp at h
          · cases h
          · cases h
          · exact h.2
        subst this
        exact combinedTree_run hw kind junk2 hlen hS (hne hk5 (by simp)) hn
    obtain ⟨o, S', a, b, c⟩ := key
    refine ⟨o, S', a, b, c, fun h => ?_⟩
    simp at h

end Stxxl.MwMerge
