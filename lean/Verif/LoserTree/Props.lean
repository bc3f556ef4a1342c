import Verif.LoserTree.Stable

/-!
# C24: the loser tree merges sorted runs

`allElems runs` is the union of the runs; `Sorted lt` (Common/Order) says that no later element is less than an earlier
one. Equivalent elements may be different, and the comparator is any strict weak ordering.
-/

namespace Stxxl.LT

variable {α : Type} {lt : α → α → Bool}

/-- The elements of one run, in order. -/
def runElems (run : List (Block α)) : List α := run.flatMap Block.elems

/-- The elements of all runs. -/
def allElems (runs : List (List (Block α))) : List α := runs.flatMap runElems

/-- What the caller provides: at least one run, no empty run, every run sorted. -/
structure RunsOk (lt : α → α → Bool) (runs : List (List (Block α))) : Prop where
  ne : runs ≠ []
  run_ne : ∀ run ∈ runs, run ≠ []
  sorted : ∀ run ∈ runs, Sorted lt (runElems run)

theorem sorted_elems {run : List (Block α)} (h : Sorted lt (runElems run)) {b : Block α} (hb : b ∈ run) :
    Sorted lt b.elems := by
  obtain ⟨i, hi, rfl⟩ := List.getElem_of_mem hb
  unfold Sorted runElems at h
  rw [List.pairwise_flatMap] at h
  exact h.1 _ hb

theorem allLe_of_sorted {run : List (Block α)} (h : Sorted lt (runElems run)) :
    run.Pairwise fun a b => AllLe lt a.elems b.elems := by
  unfold Sorted runElems at h
  rw [List.pairwise_flatMap] at h
  refine h.2.imp ?_
  intro a b hab x hx y hy
  exact hab x hx y hy

/-- The consumption sequence is what the loser tree needs. -/
theorem consume_ok (hs : SWO lt) {runs : List (List (Block α))} (h : RunsOk lt runs) :
    ∃ T : List (Nat × List α), T.map (·.2) = (consumeSeq lt runs).map Block.elems ∧ SeqOk lt runs.length T ∧
      runs.length ≤ T.length := by
  exact consume_gen hs (fun b => b.1) Block.elems h.run_ne (fun _ _ _ _ => rfl)
    (fun run hr b hb => sorted_elems (h.sorted run hr) hb) (fun run hr => allLe_of_sorted (h.sorted run hr))

theorem consume_perm (lt : α → α → Bool) (runs : List (List (Block α))) :
    ((consumeSeq lt runs).map Block.elems).flatten.Perm (allElems runs) := by
  have h1 : (consumeSeq lt runs).Perm runs.flatten := List.mergeSort_perm _ _
  have h2 := (h1.map Block.elems).flatten
  refine h2.trans ?_
  unfold allElems runElems
  rw [← List.flatMap_def]
  have : ∀ rs : List (List (Block α)), rs.flatten.flatMap Block.elems = rs.flatMap fun run => run.flatMap Block.elems := by
    intro rs
    induction rs with
    | nil => rfl
    | cons r rs ih => simp [List.flatMap_append, ih]
  rw [this]

/-- **C24.** For every strict weak ordering, every number `≥ 1` of non-empty sorted runs, and every chunking of the
output into `multi_merge` calls asking for no more elements than there are: the calls fill their buffers, the
concatenation of the buffers is sorted, and the rest of the elements are all not less than those already output. -/
theorem C24_prefix (hs : SWO lt) (runs : List (List (Block α))) (h : RunsOk lt runs) (chunks : List Nat)
    (hc : chunks.sum ≤ (allElems runs).length) :
    ∃ outs rest, mergeRuns lt runs chunks = some outs ∧ outs.map List.length = chunks ∧ Sorted lt outs.flatten ∧
      (outs.flatten ++ rest).Perm (allElems runs) ∧ ∀ x ∈ outs.flatten, ∀ y ∈ rest, lt y x = false := by
  obtain ⟨T, hT, hok, hlen⟩ := consume_ok hs h
  obtain ⟨s, a1, a2, a3⟩ := init_spec hs (List.length_pos_of_ne_nil h.ne) hok hlen
  rw [hT] at a1 a3
  have hp := a3.trans (consume_perm lt runs)
  obtain ⟨xss, s', b1, b2, _, b4, b5, b6⟩ := mergeCalls_spec hs chunks a2 (by rw [hp.length_eq]; exact hc)
  refine ⟨xss, rem runs.length s'.cur s'.seq, ?_, b2, b4, b5.trans hp, b6⟩
  unfold mergeRuns
  rw [a1]
  show (mergeCalls lt chunks s).map (·.1) = _
  rw [b1]; rfl

/-- **C24.** Asking for exactly all elements gives a sorted permutation of the union of the runs. -/
theorem C24_loser_tree_merges (hs : SWO lt) (runs : List (List (Block α))) (h : RunsOk lt runs) (chunks : List Nat)
    (hc : chunks.sum = (allElems runs).length) :
    ∃ outs, mergeRuns lt runs chunks = some outs ∧ outs.map List.length = chunks ∧ Sorted lt outs.flatten ∧
      outs.flatten.Perm (allElems runs) := by
  obtain ⟨outs, rest, h1, h2, h3, h4, _⟩ := C24_prefix hs runs h chunks (by omega)
  refine ⟨outs, h1, h2, h3, ?_⟩
  have hl := h4.length_eq
  rw [List.length_append, List.length_flatten, h2] at hl
  have : rest = [] := List.length_eq_zero_iff.1 (by omega)
  simpa [this] using h4

/-- **C24.** The unrolled merges and the loop of `multi_merge_k` are the same function on every state the client can
reach: replacing one by the other changes no output and no state. -/
theorem C24_unrolled_eq_loop (hs : SWO lt) (runs : List (List (Block α))) (h : RunsOk lt runs) (chunks : List Nat)
    (n : Nat) (hc : chunks.sum + n ≤ (allElems runs).length) :
    ∃ s0 outs s, init lt runs.length ((consumeSeq lt runs).map Block.elems) = some s0 ∧
      mergeCalls lt chunks s0 = some (outs, s) ∧
      outLoop (stepU lt) n s (s.entry 0) = outLoop (stepK lt) n s (s.entry 0) ∧
      (outLoop (stepK lt) n s (s.entry 0)).isSome := by
  obtain ⟨T, hT, hok, hlen⟩ := consume_ok hs h
  obtain ⟨s, a1, a2, a3⟩ := init_spec hs (List.length_pos_of_ne_nil h.ne) hok hlen
  rw [hT] at a1 a3
  have hp := a3.trans (consume_perm lt runs)
  obtain ⟨xss, s', b1, b2, b3, b4, b5, b6⟩ := mergeCalls_spec hs chunks a2 (by rw [hp.length_eq]; omega)
  refine ⟨s, xss, s', a1, b1, ?_⟩
  have hlen2 := b5.length_eq
  rw [List.length_append, List.length_flatten, b2, hp.length_eq] at hlen2
  obtain ⟨xs, s2, w2, c1, c2, _⟩ := outLoop_spec hs (r := runs.length) (stepU lt) s'.logK (by
    intro s w _ I hne
    obtain ⟨x, s1, w1, d1, d2, _⟩ := step_spec hs I hne
    rw [d1, d2]) n s' (s'.entry 0) rfl b3 (by omega)
  rw [c1, c2]
  exact ⟨rfl, rfl⟩

/-- **C24.** Array bounds: between calls, the winner and every recorded loser are indices of cursors (`< k`), and at
least the `nruns` cursors exist (`nruns ≤ k`). So `entry[(winner + k) >> t]`, `t ≥ 1`, and `current[…]` are in range. -/
theorem C24_indices_in_range (hs : SWO lt) (runs : List (List (Block α))) (h : RunsOk lt runs) (chunks : List Nat)
    (hc : chunks.sum ≤ (allElems runs).length) :
    ∃ s0 outs s, init lt runs.length ((consumeSeq lt runs).map Block.elems) = some s0 ∧
      mergeCalls lt chunks s0 = some (outs, s) ∧ runs.length ≤ s.k ∧ s.entry 0 < s.k ∧
      ∀ m, 1 ≤ m → m < s.k → s.entry m < s.k := by
  obtain ⟨T, hT, hok, hlen⟩ := consume_ok hs h
  obtain ⟨s, a1, a2, a3⟩ := init_spec hs (List.length_pos_of_ne_nil h.ne) hok hlen
  rw [hT] at a1 a3
  have hp := a3.trans (consume_perm lt runs)
  obtain ⟨xss, s', b1, b2, b3, b4, b5, b6⟩ := mergeCalls_spec hs chunks a2 (by rw [hp.length_eq]; omega)
  refine ⟨s, xss, s', a1, b1, b3.rk, b3.w_lt, ?_⟩
  intro m h1 h2
  unfold State.k at *
  have hl := Nat.log2_self_le (n := m) (by omega)
  have hu := Nat.lt_log2_self (n := m)
  have hlog : Nat.log2 m < s'.logK := (Nat.pow_lt_pow_iff_right (by decide)).1 (Nat.lt_of_le_of_lt hl h2)
  have hb : Below s'.logK 1 m := by
    refine ⟨Nat.log2 m, hlog, ?_⟩
    have := Nat.div_lt_iff_lt_mul (x := m) (y := 2) (Nat.pos_of_ne_zero (n := 2 ^ Nat.log2 m) (by simp))
    have h3 : m / 2 ^ Nat.log2 m < 2 := this.2 (by rw [Nat.pow_succ] at hu; omega)
    have := Nat.div_pos hl (Nat.pos_of_ne_zero (by simp))
    omega
  have := b3.tree.entry_leaf m hb
  unfold State.k at this
  have hp : 0 < 2 ^ s'.logK := Nat.pos_of_ne_zero (by simp)
  rw [Nat.add_div_right _ hp] at this
  have h0 : s'.entry m / 2 ^ s'.logK = 0 := by omega
  exact (Nat.div_eq_zero_iff.1 h0).resolve_left (by omega)

/-- There is no emptiness check: asking for one element more than there are reads through an empty cursor. -/
theorem C24_beyond_end_is_undefined (hs : SWO lt) (runs : List (List (Block α))) (h : RunsOk lt runs) :
    mergeRuns lt runs [(allElems runs).length, 1] = none := by
  obtain ⟨T, hT, hok, hlen⟩ := consume_ok hs h
  obtain ⟨s, a1, a2, a3⟩ := init_spec hs (List.length_pos_of_ne_nil h.ne) hok hlen
  rw [hT] at a1 a3
  have hp := a3.trans (consume_perm lt runs)
  obtain ⟨xs, s', b1, b2, b3, b4, b5, b6⟩ := multiMerge_spec hs (n := (allElems runs).length) a2 (by rw [hp.length_eq])
  have hl := b5.length_eq
  rw [List.length_append, b2, hp.length_eq] at hl
  have hrem : rem runs.length s'.cur s'.seq = [] := List.length_eq_zero_iff.1 (by omega)
  obtain ⟨T', tag, orig, hT', P⟩ := b3.pinv
  have hcur : ∀ j, s'.cur j = [] := by
    intro j
    by_cases hj : j < runs.length
    · have h1 : s'.cur j ∈ (List.range runs.length).map s'.cur := List.mem_map.2 ⟨j, List.mem_range.2 hj, rfl⟩
      unfold rem at hrem
      have h2 := (List.append_eq_nil_iff.1 hrem).1
      exact List.flatten_eq_nil_iff.1 h2 _ h1
    · exact P.inf j (by omega)
  have hadv : ∀ w, advance s'.cur s'.seq w = none := by
    intro w; unfold advance; rw [hcur]
  have hnone : multiMerge lt s' 1 = none := by
    unfold multiMerge
    split
    · simp [outLoop, step0, hadv]
    · have : outLoop (if s'.logK ≤ 10 then stepU lt else stepK lt) 1 s' (s'.entry 0) = none := by
        split <;> simp [outLoop, stepU, stepK, hadv]
      rw [this]
  unfold mergeRuns
  rw [a1]
  show (mergeCalls lt _ s).map (·.1) = none
  simp [mergeCalls, b1, hnone]

/-- The stability of the sort that makes the consumption sequence matters: here the two blocks of a single sorted run
have equal first elements, and delivering them in the other order (as an unstable sort may) gives unsorted output. -/
theorem C24_unstable_consumption_order_fails :
    let lt := fun a b : Nat => decide (a < b)
    let run : List (Block Nat) := [(1, [1]), (1, [2])]
    Sorted lt (runElems run) ∧
    ((init lt 1 [[1, 2], [1, 1]]).bind fun s => (mergeCalls lt [4] s).map (·.1)) = some [[1, 2, 1, 1]] := by
  refine ⟨?_, by decide⟩
  simp [Sorted, runElems, Block.elems]

/-- Non-vacuity: three runs (padded to four cursors), blocks of two elements, ties between runs, compared by first
component only, so that equivalent elements are distinct. -/
example : RunsOk (fun a b : Nat × Nat => decide (a.1 < b.1))
    [[((1, 0), [(3, 0)]), ((3, 1), [(9, 0)])], [((2, 0), [(2, 1)])], [((3, 2), [(3, 3)]), ((4, 0), [(5, 0)])]] := by
  refine ⟨by simp, by simp, ?_⟩
  simp [Sorted, runElems, Block.elems]

example : mergeRuns (fun a b : Nat => decide (a < b))
    [[(1, [3]), (3, [9])], [(2, [2])], [(3, [3]), (4, [5])]] [3, 0, 4, 3]
    = some [[1, 2, 2], [], [3, 3, 3, 3], [4, 5, 9]] := by
  have : consumeSeq (fun a b : Nat => decide (a < b)) [[(1, [3]), (3, [9])], [(2, [2])], [(3, [3]), (4, [5])]]
      = [(1, [3]), (2, [2]), (3, [9]), (3, [3]), (4, [5])] := by
    simp [consumeSeq, List.mergeSort, List.MergeSort.Internal.splitInTwo, List.merge]
  unfold mergeRuns
  rw [this]
  decide

end Stxxl.LT
