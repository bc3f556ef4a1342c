import Verif.MwMerge.ParProof
/-!
# C63-C66: multi-way merging
-/
namespace Stxxl.MwMerge
open Spec
variable {α : Type} {lt : α → α → Bool}

/-! ### C63: `sequential_multiway_merge` with `BUBBLE` or `LOSER_TREE` -/

/-- **C63.** For any number of sorted sequences, any comparator that is a strict weak order and any number `n` of elements up to the
total, the sequential merge with `LOSER_TREE` (the default) or `BUBBLE` performs no undefined operation and merges the `n` smallest
elements; if `Stable`, equivalent elements keep the order of the sequences. For five or more sequences some sequence must be non-empty
(with `LOSER_TREE`). Holds for all contents of the uninitialised memory. -/
theorem C63_sequential_merge (hw : SWO lt) (kind : Kind) (stable : Bool) {algo : Algo} (halgo : algo = .bubble ∨ algo = .loserTree)
    (junk1 : Nat → Nat) (junk2 : Nat → Node α) {S : List (List α)} {n : Nat} (hS : ∀ s ∈ S, Sorted lt s) (hk : S.length ≤ 2 ^ 64)
    (hne : S.flatten ≠ [] ∨ S.length ≤ 4 ∨ algo = .bubble) (hn : n ≤ S.flatten.length) :
    ∃ out S', sequential lt kind stable algo junk1 junk2 S n = some (out, S') ∧ Merges lt stable S n out S' := by
  obtain ⟨o, S', h1, h2, h3, _⟩ := sequential_run hw kind stable algo junk1 junk2 (n := n) hS
    (by rcases halgo with h | h <;> simp [AlgoOk, h]) hk
    (fun h5 hb => by
      rcases hne with h | h | h
      · exact h
      · omega
      · exact absurd h hb) hn
  have := h3.merges hw hS
  rw [h2] at this
  exact ⟨o, S', h1, this⟩

/-- **C63.** With at most four sequences the merge is stable even if it was not asked for. -/
theorem C63_few_sequences_stable (hw : SWO lt) (kind : Kind) (stable : Bool) {algo : Algo} (halgo : algo = .bubble ∨ algo = .loserTree)
    (junk1 : Nat → Nat) (junk2 : Nat → Node α) {S : List (List α)} {n : Nat} (hS : ∀ s ∈ S, Sorted lt s) (hk : S.length ≤ 4)
    (hn : n ≤ S.flatten.length) :
    ∃ out S', sequential lt kind stable algo junk1 junk2 S n = some (out, S') ∧ Merges lt true S n out S' := by
  obtain ⟨o, S', h1, h2, _, h4⟩ := sequential_run hw kind stable algo junk1 junk2 (n := n) hS
    (by rcases halgo with h | h <;> simp [AlgoOk, h]) (by omega) (fun h5 _ => by omega) hn
  have := (h4 hk).merges hw hS
  rw [h2] at this
  exact ⟨o, S', h1, this⟩

/-! ### C64: `LOSER_TREE_COMBINED` -/

/-- **C64.** `LOSER_TREE_COMBINED` (and `LOSER_TREE_SENTINEL`, which means the same for sequences without sentinels) merges without
checks as long as no sequence can run empty, and with checks afterwards. For up to three sequences, and for five or more without
`Stable`, it performs no undefined operation, in particular never reads behind the end of a sequence, and merges the `n` smallest. -/
theorem C64_combined_merge (hw : SWO lt) (kind : Kind) (stable : Bool) {algo : Algo} (halgo : algo = .combined ∨ algo = .sentinel)
    (junk1 : Nat → Nat) (junk2 : Nat → Node α) {S : List (List α)} {n : Nat} (hS : ∀ s ∈ S, Sorted lt s) (hk : S.length ≤ 2 ^ 64)
    (hok : S.length ≤ 3 ∨ (5 ≤ S.length ∧ stable = false ∧ S.flatten ≠ [])) (hn : n ≤ S.flatten.length) :
    ∃ out S', sequential lt kind stable algo junk1 junk2 S n = some (out, S') ∧ Merges lt stable S n out S' := by
  obtain ⟨o, S', h1, h2, h3, _⟩ := sequential_run hw kind stable algo junk1 junk2 (n := n) hS
    (by
      rcases hok with h | h
      · exact .inl h
      · exact .inr (.inr (.inr ⟨h.1, h.2.1⟩))) hk
    (fun h5 _ => by
      rcases hok with h | h
      · omega
      · exact h.2.2) hn
  have := h3.merges hw hS
  rw [h2] at this
  exact ⟨o, S', h1, this⟩

/-! Concrete cases meet the hypotheses of C63 and C64. -/
namespace Ex

def nlt : Nat → Nat → Bool := fun a b => decide (a < b)
theorem nlt_swo : SWO nlt := ⟨fun a b h => by simp [nlt] at h ⊢; omega, fun a b c h1 h2 => by simp [nlt] at h1 h2 ⊢; omega⟩
def plt : Nat × Nat → Nat × Nat → Bool := fun a b => decide (a.1 < b.1)
theorem plt_swo : SWO plt := ⟨fun a b h => by simp [plt] at h ⊢; omega, fun a b c h1 h2 => by simp [plt] at h1 h2 ⊢; omega⟩

def five : List (List (Nat × Nat)) := [[(1, 0), (4, 0)], [(1, 1)], [], [(0, 3), (1, 3), (9, 3)], [(2, 4)]]
def jn1 : Nat → Nat := fun i => i
def jn2 : Nat → Node (Nat × Nat) := fun i => ⟨false, i, (i, i)⟩
def jm2 : Nat → Node Nat := fun i => ⟨false, i, i⟩

example : ∃ out S', sequential plt .pointer true .loserTree jn1 jn2 five 4 = some (out, S') ∧ Merges plt true five 4 out S' :=
  C63_sequential_merge plt_swo .pointer true (.inr rfl) jn1 jn2 (by simp only [Sorted]; decide) (by decide) (.inl (by decide)) (by decide)

example : sequential plt .pointer true .loserTree jn1 jn2 five 4 =
    some ([(0, 3), (1, 0), (1, 1), (1, 3)], [[(4, 0)], [], [], [(9, 3)], [(2, 4)]]) := by decide +kernel

example : sequential plt .pointer true .bubble jn1 jn2 five 4 =
    some ([(0, 3), (1, 0), (1, 1), (1, 3)], [[(4, 0)], [], [], [(9, 3)], [(2, 4)]]) := by decide +kernel

def four : List (List (Nat × Nat)) := [[(1, 0), (4, 0)], [(1, 1)], [], [(0, 3), (1, 3), (9, 3)]]

example : ∃ out S', sequential plt .copy false .loserTree jn1 jn2 four 5 = some (out, S') ∧ Merges plt true four 5 out S' :=
  C63_few_sequences_stable plt_swo .copy false (.inr rfl) jn1 jn2 (by simp only [Sorted]; decide) (by decide) (by decide)

def three : List (List (Nat × Nat)) := [[(1, 0), (4, 0)], [(1, 1), (5, 1)], [(0, 3), (1, 3), (9, 3)]]

example : ∃ out S', sequential plt .copy true .combined jn1 jn2 three 6 = some (out, S') ∧ Merges plt true three 6 out S' :=
  C64_combined_merge plt_swo .copy true (.inl rfl) jn1 jn2 (by simp only [Sorted]; decide) (by decide) (.inl (by decide)) (by decide)

example : ∃ out S', sequential plt .copy false .sentinel jn1 jn2 five 6 = some (out, S') ∧ Merges plt false five 6 out S' :=
  C64_combined_merge plt_swo .copy false (.inr rfl) jn1 jn2 (by simp only [Sorted]; decide) (by decide) (.inr (by decide)) (by decide)

example : sequential nlt .copy false .combined jn1 jm2 [[1, 4], [2, 3], [0, 5], [3, 3], [8, 8]] 7 =
    some ([0, 1, 2, 3, 3, 3, 4], [[], [], [5], [], [8, 8]]) := by decide +kernel

end Ex

/-! ### C65: where the merge fails -/

/-- **C65.** With `LOSER_TREE_COMBINED` and four sequences, the unguarded phase outputs also the last element of a sequence and then
reads behind its end. Four one-element sequences suffice, and so do two-element sequences. -/
theorem C65_combined_four_reads_past_end :
    (∀ s ∈ [[1], [2], [3], [4]], Sorted Ex.nlt s) ∧
    (∀ kind stable junk1 junk2, sequential Ex.nlt kind stable .combined junk1 junk2 [[1], [2], [3], [4]] 1 = none) ∧
    (∀ kind stable junk1 junk2, sequential Ex.nlt kind stable .combined junk1 junk2 [[1, 2], [3, 4], [5, 6], [7, 8]] 2 = none) := by
  refine ⟨by simp only [Sorted]; decide, ?_, ?_⟩
  · intro kind stable junk1 junk2; rfl
  · intro kind stable junk1 junk2; rfl

/-- **C65.** With `LOSER_TREE_COMBINED`, `Stable`, eight sequences, the same happens in the loser tree: one element is wanted, and
behind the end of its sequence is read. -/
theorem C65_combined_stable_reads_past_end :
    sequential Ex.nlt .pointer true .combined Ex.jn1 Ex.jm2 [[1], [2], [3], [4], [5], [6], [7], [8]] 1 = none ∧
    sequential Ex.nlt .copy true .combined Ex.jn1 Ex.jm2 [[1], [2], [3], [4], [5], [6], [7], [8]] 1 = none := by
  decide +kernel

/-- **C65.** With `LOSER_TREE_COMBINED` and `Stable` on integers (the copying tree), the output is not even sorted: the two smallest
elements are 1 and 2, the merge delivers 1 and 10. -/
theorem C65_combined_stable_copy_wrong :
    (∀ s ∈ [[1, 10, 20], [2, 11, 30], [25], [25], [25]], Sorted Ex.nlt s) ∧
    sequential Ex.nlt .copy true .combined Ex.jn1 Ex.jm2 [[1, 10, 20], [2, 11, 30], [25], [25], [25]] 2 =
      some ([1, 10], [[20], [2, 11, 30], [25], [25], [25]]) := by
  refine ⟨by simp only [Sorted]; decide, by decide +kernel⟩

/-- **C65.** With `LOSER_TREE_COMBINED`, `Stable` and a number of sequences that is not a power of two, one of the filling leaves
(source −1) wins a tie and the merge uses −1 as the number of a sequence. With three more sequences behind them the same elements are
merged correctly. -/
theorem C65_combined_stable_virtual_leaf_wins :
    (∀ s ∈ [[1, 1], [0, 3], [4], [4], [4]], Sorted Ex.nlt s) ∧
    sequential Ex.nlt .pointer true .combined Ex.jn1 Ex.jm2 [[1, 1], [0, 3], [4], [4], [4]] 2 = none ∧
    sequential Ex.nlt .pointer true .combined Ex.jn1 Ex.jm2 [[1, 1], [0, 3], [4], [4], [4], [4], [4], [4]] 2 =
      some ([0, 1], [[1], [3], [4], [4], [4], [4], [4], [4]]) := by
  refine ⟨by simp only [Sorted]; decide, by decide +kernel, by decide +kernel⟩

/-- **C65.** Five or more sequences which are all empty: the loser tree dereferences a null pointer although nothing is to be merged. -/
theorem C65_all_empty_null_dereference (lt : α → α → Bool) (kind : Kind) (stable : Bool) (junk1 : Nat → Nat) (junk2 : Nat → Node α)
    {S : List (List α)} (h5 : 5 ≤ S.length) (he : S.flatten = []) : sequential lt kind stable .loserTree junk1 junk2 S 0 = none := by
  match S with
  | [] | [_] | [_, _] | [_, _, _] | [_, _, _, _] => simp at h5
  | s :: t :: u :: v :: w :: R =>
    show loserTree lt stable junk2 (s :: t :: u :: v :: w :: R) 0 = none
    unfold loserTree
    rw [he]

/-! ### C66: the parallel merge -/

/-- **C66.** `multiway_merge` and `multiway_merge_stable` with `LOSER_TREE` or `BUBBLE`, whether or not they decide to work in parallel
(with exact splitting, the default): no undefined operation is performed, and in whatever order the threads' writes happen, afterwards
the output holds the `n` smallest elements in sorted order, nothing else is overwritten, and the sequences are advanced accordingly.
In parallel this needs at least as many elements as threads, more than one thread unless everything is merged, and that elements of
different sequences are never equivalent, or else that there are only two threads and everything is merged. -/
theorem C66_multiway_merge (hw : SWO lt) (kind : Kind) (stable : Bool) (c : Settings) (halgo : c.algo = .bubble ∨ c.algo = .loserTree)
    (junk1 : Nat → Nat → Nat) (junk2 : Nat → Nat → Node α) {S : List (List α)} {n : Nat} (hS : ∀ s ∈ S, Sorted lt s)
    (hk : S.length ≤ 2 ^ 64) (hlen : ∀ s ∈ S, s.length < 2 ^ 64) (hne : S.flatten ≠ []) (hn : n ≤ S.flatten.length)
    (hpar : c.goParallel S.length n = true → 0 < c.threads ∧ c.threads ≤ n ∧ (c.threads = 1 → S.flatten.length = n) ∧
      (Untied lt S ∨ (c.threads ≤ 2 ∧ S.flatten.length = n))) :
    ∃ ws out S', multiwayMerge lt kind stable c junk1 junk2 S n = some (ws, S') ∧
      Merges lt (stable && !c.goParallel S.length n) S n out S' ∧
      ∀ (order : List (α × Nat)) (mem : Nat → Option α), order.Perm ws → store mem order = written mem n out := by
  have hSne : S.isEmpty = false := by
    cases S with
    | nil => simp at hne
    | cons _ _ => rfl
  by_cases hg : c.goParallel S.length n = true
  · obtain ⟨h1, h2, h3, h4⟩ := hpar hg
    obtain ⟨out, S', p1, p2⟩ := parallel_run hw kind stable c.algo junk1 junk2 (num := c.threads) hS
      (by rcases halgo with h | h <;> simp [AlgoOk, h]) hk hlen hn h1 h2 h4 h3
    refine ⟨out.zipIdx, out, S', ?_, ?_, ?_⟩
    · unfold multiwayMerge
      rw [if_neg (by simp [hSne]), if_pos hg, p1]
    · rw [hg]; simpa using p2
    · intro order mem ho
      have := store_zipIdx (mem := mem) ho
      rwa [p2.length] at this
  · obtain ⟨out, S', p1, p2⟩ := C63_sequential_merge hw kind stable halgo (junk1 0) (junk2 0) hS hk (.inl hne) hn
    refine ⟨out.zipIdx, out, S', ?_, ?_, ?_⟩
    · unfold multiwayMerge
      rw [if_neg (by simp [hSne]), if_neg hg, p1]
    · have : c.goParallel S.length n = false := by simpa using hg
      rw [this]; simpa using p2
    · intro order mem ho
      have := store_zipIdx (mem := mem) ho
      rwa [p2.length] at this

namespace Ex

def set4 : Settings := { threads := 3, minimalN := 3 }
def jp1 : Nat → Nat → Nat := fun _ i => i
def jp2 : Nat → Nat → Node Nat := fun _ i => ⟨false, i, i⟩
def jq2 : Nat → Nat → Node (Nat × Nat) := fun _ i => ⟨false, i, (i, i)⟩
def par4 : List (List Nat) := [[1, 1, 4], [2], [], [0, 3, 9], [5, 5], [7]]

example : set4.goParallel par4.length 8 = true := by decide

example : ∃ ws out S', multiwayMerge nlt .copy false set4 jp1 jp2 par4 8 = some (ws, S') ∧ Merges nlt false par4 8 out S' ∧
    ∀ (order : List (Nat × Nat)) (mem : Nat → Option Nat), order.Perm ws → store mem order = written mem 8 out :=
  C66_multiway_merge nlt_swo .copy false set4 (.inr rfl) jp1 jp2 (by simp only [Sorted]; decide) (by decide) (by decide) (by decide)
    (by decide) (fun _ => ⟨by decide, by decide, by decide, .inl (by unfold Untied; decide)⟩)

example : multiwayMerge nlt .copy false set4 jp1 jp2 par4 8 =
    some ([(0, 0), (1, 1), (1, 2), (2, 3), (3, 4), (4, 5), (5, 6), (5, 7)], [[], [], [], [9], [], [7]]) := by decide +kernel

end Ex

/-- **C66.** With ties between sequences the boundaries for increasing ranks need not be ordered: of these three sequences the boundary
for rank 2 takes the first sequence, the boundary for rank 3 does not. A thread then gets a sequence that ends before it begins, and
the parallel merge fails. -/
theorem C66_ties_cross_boundaries :
    (∀ s ∈ [[1], [1, 1], [0]], Sorted Ex.nlt s) ∧
    MultiSeq.partition Ex.nlt [[1], [1, 1], [0]] 2 = some [1, 0, 1] ∧
    MultiSeq.partition Ex.nlt [[1], [1, 1], [0]] 3 = some [0, 2, 1] ∧
    parallel Ex.nlt .copy false .loserTree Ex.jp1 Ex.jp2 4 [[1], [1, 1], [0]] 4 = none := by
  refine ⟨by simp only [Sorted]; decide, by decide +kernel, by decide +kernel, by decide +kernel⟩

/-- **C66.** `multiway_merge_stable` is not stable in parallel: all of `(1,0)`, `(1,1)`, `(1,2)` are equivalent and `(1,0)` comes from the
first sequence, but it is output last. -/
theorem C66_parallel_not_stable :
    (∀ s ∈ [[(1, 0)], [(1, 1), (1, 2)], [(0, 5), (9, 6)]], Sorted Ex.plt s) ∧
    multiwayMerge Ex.plt .pointer true { threads := 2, minimalN := 2 } Ex.jp1 Ex.jq2 [[(1, 0)], [(1, 1), (1, 2)], [(0, 5), (9, 6)]] 5 =
      some ([((0, 5), 0), ((1, 1), 1), ((1, 2), 2), ((1, 0), 3), ((9, 6), 4)], [[], [], []]) := by
  refine ⟨by simp only [Sorted]; decide, by decide +kernel⟩

/-- **C66.** `parallel_multiway_merge` with one thread (`force_parallel`), if not everything is to be merged: the last boundary is never
computed, but used. -/
theorem C66_one_thread_uses_uncomputed_boundary (lt : α → α → Bool) (kind : Kind) (stable : Bool) (algo : Algo)
    (junk1 : Nat → Nat → Nat) (junk2 : Nat → Nat → Node α) {S : List (List α)} {n : Nat} (hne : S.flatten ≠ [])
    (hn : n < S.flatten.length) : parallel lt kind stable algo junk1 junk2 1 S n = none := by
  have ht : total (S.filter fun s => !s.isEmpty) = S.flatten.length := by rw [total_flatten, flatten_filter]
  have hpos : 0 < S.flatten.length := List.length_pos_iff.2 hne
  unfold parallel
  dsimp only
  have hm : Nat.min 1 (total (S.filter fun s => !s.isEmpty)) = 1 := Nat.min_eq_left (by omega)
  rw [if_neg (by omega), hm, if_neg (by omega)]
  unfold cuts
  dsimp only
  simp only [Nat.sub_self, List.range_zero, List.map_nil, collect]
  rw [if_neg (by omega), if_pos trivial]

/-- **C66.** Fewer elements than threads (possible if `multiway_merge_minimal_n` was lowered) and five sequences: a thread gets only
empty sequences and its loser tree dereferences a null pointer. -/
theorem C66_more_threads_than_elements :
    multiwayMerge Ex.nlt .copy false { threads := 4, minimalN := 2 } Ex.jp1 Ex.jp2 [[1], [2], [3], [4], [5]] 2 = none := by
  decide +kernel

end Stxxl.MwMerge
