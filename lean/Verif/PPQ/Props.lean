import Verif.PPQ.Hist
import Verif.PPQ.Total
import Verif.MwMerge.Props
/-! Theorems about `parallel_priority_queue` (C70–C72). -/
namespace Stxxl.PPQ
open MwMerge.Spec MwMerge
variable {α : Type}

theorem flatten_nil {β γ : Type} (f : β → List γ) (h : β) (hf : f h = []) (n : Nat) : ((List.replicate n h).map f).flatten = [] := by
  induction n with
  | zero => rfl
  | succ n ih => rw [List.replicate_succ, List.map_cons, List.flatten_cons, hf, ih]; rfl

theorem init_sim {c : Cfg α} (hc : CfgOk c) : Sim c ⟨[], .normal, none⟩ (init c) := by
  have h1 : ords (init c).heaps = [] := flatten_nil _ _ rfl _
  have h2 : pends (init c).heaps = [] := flatten_nil _ _ rfl _
  have h3 : List.replicate c.numHeaps (none : Option α) = (List.replicate c.numHeaps (⟨[], []⟩ : Hp α)).map fun _ => none := by
    simp
  refine ⟨⟨⟨?_, ?_, ?_, ?_⟩, ⟨⟨?_, rfl⟩, ⟨?_, rfl, ?_, ?_⟩, ?_⟩, ?_⟩, ?_, fun _ => ⟨h2, by simp⟩, by simp⟩
  · intro h hh
    simp only [init, List.mem_replicate] at hh
    rw [hh.2]; exact List.Pairwise.nil
  · rw [h1]; rfl
  · simp [init]
  · simp only [init]
    rw [h3, argmin_nones hc.swo]; rfl
  · intro a ha; simp [init] at ha
  · intro a ha; simp [init] at ha
  · intro i; simp only [init, List.getElem?_nil, Option.bind_none]
    match i with
    | 0 | 1 | 2 | 3 => rfl
    | i + 4 => rfl
  · simp [init]
  · exact List.Pairwise.nil
  · intro h; simp [init] at h
  · unfold elems arrays
    rw [h1, h2]; exact List.Perm.refl _

/-- **C70.** For every history of calls in which no undefined operation is performed, whatever the number of insertion heaps, their
capacity, the size of the extract buffer, of blocks and of the read pool, whenever the memory limit makes the queue spill arrays to disk
or merge arrays on disk, and whichever blocks have arrived when they are polled: as long as the calls are allowed, the results are those of a
priority queue. `top` returns an element before which there is no other, `pop` removes that element, `size` is the number of elements,
`bulk_pop` and `bulk_pop_limit` deliver the first elements of the queue in sorted order and remove exactly these, `limit_top` returns the
limit exactly if no element is before it. -/
theorem C70_priority_queue {c : Cfg α} (hc : CfgOk c) {hist : List (Op α × Oracle)} {outs : List (Op α × Out α)} {s : S α}
    (h : run c hist (init c) = some (outs, s)) : Matches c.lt ⟨[], .normal, none⟩ outs := by
  have key : ∀ (hist : List (Op α × Oracle)) (q : Q α) (s0 s : S α) (outs : List (Op α × Out α)), Sim c q s0 →
      run c hist s0 = some (outs, s) → Matches c.lt q outs := by
    intro hist
    induction hist with
    | nil =>
      intro q s0 s outs _ h
      simp only [run, Option.some.injEq, Prod.mk.injEq] at h
      rw [← h.1]; trivial
    | cons a l ih =>
      obtain ⟨op, o⟩ := a
      intro q s0 s outs hS h
      rw [run] at h
      cases h1 : exec c o op s0 with
      | none => rw [h1] at h; simp at h
      | some r =>
        obtain ⟨out, s1⟩ := r
        rw [h1] at h
        dsimp only at h
        cases h2 : run c l s1 with
        | none => rw [h2] at h; simp at h
        | some r2 =>
          obtain ⟨outs', s2⟩ := r2
          rw [h2] at h
          simp only [Option.some.injEq, Prod.mk.injEq] at h
          rw [← h.1]
          intro hL
          obtain ⟨q', hq, hS'⟩ := step_sim hc o hS hL h1
          exact ⟨q', hq, ih q' s1 s2 outs' hS' h2⟩
  exact key hist _ _ _ _ (init_sim hc) h

/-- `multiway_merge` as it is compiled without parallel mode (C63). -/
def seqMerge (lt : α → α → Bool) (junk1 : Nat → Nat) (junk2 : Nat → Node α) (Q : List (List α)) (n : Nat) : Option (List α × List (List α)) :=
  if Q.length ≤ 2 ^ 64 then sequential lt .pointer false .loserTree junk1 junk2 Q n else none

/-- The assumption on the merge holds for the one of the library. -/
theorem C70_library_merge {lt : α → α → Bool} (hw : SWO lt) (junk1 : Nat → Nat) (junk2 : Nat → Node α) (Q : List (List α)) (n : Nat)
    (out : List α) (Q' : List (List α)) (hQ : ∀ q ∈ Q, Sorted lt q) (hn : n ≤ Q.flatten.length)
    (h : seqMerge lt junk1 junk2 Q n = some (out, Q')) : Merges lt false Q n out Q' := by
  unfold seqMerge at h
  split_ifs at h with hl
  by_cases hne : Q.flatten ≠ [] ∨ Q.length ≤ 4
  · obtain ⟨o, S', h1, h2⟩ := C63_sequential_merge hw .pointer false (algo := .loserTree) (Or.inr rfl) junk1 junk2 hQ hl
      (by rcases hne with h | h; exacts [Or.inl h, Or.inr (Or.inl h)]) hn
    rw [h1] at h
    simp only [Option.some.injEq, Prod.mk.injEq] at h
    rw [← h.1, ← h.2]; exact h2
  · simp only [not_or, not_not, Nat.not_le] at hne
    have : n = 0 := by rw [hne.1] at hn; simpa using hn
    rw [this, C65_all_empty_null_dereference lt .pointer false junk1 junk2 (by omega) hne.1] at h
    simp at h

/-! ### Concrete queues -/

namespace Ex
def nlt (a b : Nat) : Bool := decide (a < b)
theorem nltSWO : SWO nlt := by
  constructor <;> (intros; simp_all [nlt]) <;> omega
def mmN : List (List Nat) → Nat → Option (List Nat × List (List Nat)) := seqMerge nlt (fun _ => 0) (fun _ => ⟨false, 0, 0⟩)

/-- One insertion heap for 2 elements, extract buffer for 5, 2 items per block. -/
def cfg : Cfg Nat :=
  { lt := nlt, mm := mmN, numHeaps := 1, heapCap := 2, ebLimit := 5, B := 2, readBlocks := fun n => 3 * n / 2, maxIL := 64, maxEL := 64
    asserts := false, junk := false }
theorem cfgOk : CfgOk cfg := ⟨nltSWO, by decide, C70_library_merge nltSWO _ _⟩

/-- Enough memory, or not. -/
def o (m : Bool) : Oracle := ⟨fun _ => m, false, fun _ => true, fun _ => true, fun _ => 0, fun _ _ => 1, 20, 0⟩
def P (l : List Nat) (m : Bool) : List (Op Nat × Oracle) := l.map fun x => (.push x 0, o m)
def C (l : List (Op Nat)) : List (Op Nat × Oracle) := l.map fun x => (x, o true)
def outs (l : List (Op Nat × Oracle)) : Option (List (Out Nat)) := (run cfg l (init cfg)).map fun r => r.1.map (·.2)
def U (n : Nat) : List (Out Nat) := List.replicate n .unit

/-- A history with an external array of three blocks, all elements come out in order. -/
def hist1 : List (Op Nat × Oracle) :=
  P [6, 2, 3, 4, 5, 1] true ++ P [7] false ++ C [.top, .pop, .top, .pop, .top, .pop, .top, .pop, .size, .top, .pop, .top, .pop, .top, .pop, .size]

example : outs hist1 = some (U 7 ++ [.val 1, .unit, .val 2, .unit, .val 3, .unit, .val 4, .unit, .num 3, .val 5, .unit, .val 6, .unit, .val 7,
    .unit, .num 0]) := by decide +kernel
example : ((run cfg (P [6, 2, 3, 4, 5, 1] true ++ P [7] false) (init cfg)).map fun r => r.2.eas.map (·.data)) = some [[2, 3, 4, 6]] := by
  decide +kernel

/-- Bulk operations and a limit. -/
def hist2 : List (Op Nat × Oracle) :=
  C [.bulkPushBegin, .bulkPush 4 0, .bulkPush 9 0, .bulkPush 1 0, .bulkPush 7 0, .bulkPushEnd, .bulkPop 2, .push 2 0, .push 3 0,
    .bulkPopLimit 4 none, .size, .limitBegin 8, .limitTop, .limitPush 8 0, .limitPop, .limitTop]

example : outs hist2 = some (U 6 ++ [.list [1, 4], .unit, .unit, .listFlag [2, 3] true, .num 2, .unit, .val 7, .unit, .unit, .val 8]) := by
  decide +kernel
end Ex

/-! ### C71: what goes wrong -/

/-- **C71.** The tree of minima keeps players of internal arrays that are gone. Two internal arrays are emptied into the extract buffer by
`top`; when the next internal array is made, it is compared with an array that does not exist. -/
theorem C71_new_array_compared_with_deleted_one :
    Ex.outs (Ex.P [5, 4, 3, 2, 1] true ++ Ex.C [.top] ++ Ex.P [7] true) = some (Ex.U 5 ++ [.val 1, .unit]) ∧
    Ex.outs (Ex.P [5, 4, 3, 2, 1] true ++ Ex.C [.top] ++ Ex.P [7, 8] true) = none := by
  decide +kernel

/-- **C71.** If the first block of an external array and the block behind it begin with equivalent elements, and that second block has
not been read, no element can be extracted: `top` of a queue with seven elements fails. -/
theorem C71_top_fails_with_equal_elements :
    Ex.outs (Ex.P [5, 5, 5, 5, 5, 5] true ++ Ex.P [6] false ++ Ex.C [.size]) = some (Ex.U 7 ++ [.num 7]) ∧
    Ex.outs (Ex.P [5, 5, 5, 5, 5, 5] true ++ Ex.P [6] false ++ Ex.C [.top]) = none := by
  decide +kernel

/-- **C71.** `bulk_pop(out, 0)` removes elements: all three. -/
theorem C71_bulk_pop_zero_removes :
    Ex.outs (Ex.P [1, 2, 3] true ++ Ex.C [.bulkPop 0, .size]) = some (Ex.U 3 ++ [.list [1, 2, 3], .num 0]) := by
  decide +kernel

/-- **C71.** `bulk_pop(out, 4)` on a queue with seven elements may deliver only two. -/
theorem C71_bulk_pop_delivers_fewer :
    Ex.outs (Ex.P [1, 2, 3, 4, 5, 6] true ++ Ex.P [7] false ++ Ex.C [.bulkPop 4, .size]) = some (Ex.U 7 ++ [.list [1, 2], .num 5]) := by
  decide +kernel

/-- **C71.** When all elements before the limit have been popped, `limit_end` compares the element behind the end of the extract
buffer. -/
theorem C71_limit_end_reads_behind_buffer :
    Ex.outs (Ex.P [1, 2, 3] true ++ Ex.C [.limitBegin 3, .limitTop, .limitPush 4 0, .limitPop, .limitTop, .limitPop, .limitTop]) =
      some (Ex.U 4 ++ [.val 1, .unit, .unit, .val 2, .unit, .val 3]) ∧
    (∀ junk, (run { Ex.cfg with junk := junk } (Ex.P [1, 2, 3] true ++ Ex.C [.limitBegin 3, .limitTop, .limitPush 4 0, .limitPop, .limitTop,
      .limitPop, .limitTop]) (init Ex.cfg)).map (fun r => r.2.oob) = some false) ∧
    (∀ junk, (run { Ex.cfg with junk := junk } (Ex.P [1, 2, 3] true ++ Ex.C [.limitBegin 3, .limitTop, .limitPush 4 0, .limitPop, .limitTop,
      .limitPop, .limitTop, .limitEnd]) (init Ex.cfg)).map (fun r => r.2.oob) = some true) := by
  decide +kernel

/-- **C71.** If memory runs out during `limit_push`, the extract buffer is written to an external array, whose blocks are not requested
before the end of the bulk phase: the next `limit_top` has nothing to return although two elements before the limit are in the queue. -/
theorem C71_limit_top_fails_after_spill :
    let l := Ex.P [9, 9, 1, 2] true ++ Ex.C [.limitBegin 5, .limitTop, .limitPush 5 0] ++
      [(.limitPush 6 0, Ex.o false), (.limitPush 7 0, Ex.o false), (.limitPush 8 0, Ex.o false)]
    Ex.outs l = some (Ex.U 5 ++ [.val 1] ++ Ex.U 4) ∧
    Ex.outs (l ++ Ex.C [.limitTop]) = none ∧
    (run Ex.cfg l (init Ex.cfg)).map (fun r => (r.2.eas.map (·.data), r.2.eb, r.2.lim)) = some ([[1, 2, 9, 9]], [], some 5) := by
  decide +kernel

/-- **C71.** With assertions, every flush of an insertion heap aborts. -/
theorem C71_assertion_fails_on_every_flush {c : Cfg α} (ha : c.asserts = true) (o : Oracle) (x : α) (p : Nat) (s : S α) (h : Hp α)
    (hp : s.heaps[p]? = some h) (hf : c.heapCap ≤ h.ord.length + h.pend.length) : exec c o (.push x p) s = none := by
  have hA : ∀ s' vals, addIA c o 8 s' vals 0 = none := by
    intro s' vals
    rw [addIA]; simp [ha]
  have : push c o x p s = none := by
    unfold push
    rw [hp]; dsimp only
    rw [if_pos hf]
    have : flushHeap c o p s = none := by
      unfold flushHeap
      rw [hp]; dsimp only
      cases flushMem c o 0 s with
      | none => rfl
      | some s1 => dsimp only; rw [hA]
    rw [this]
  simp [exec, this]

/-- **C71.** The fifth external array is one too many for the tree of their minima. -/
theorem C71_fifth_external_array {c : Cfg α} (s : S α) (e : EA α) (h : s.emt.length = 4) (h4 : 4 ≤ s.eas.length) : pushEA c s e = none := by
  unfold pushEA; rw [if_pos (by omega)]

theorem C71_fifth_external_array_reached :
    (run Ex.cfg (Ex.P [0, 1, 2, 3, 4, 5, 6, 7, 8, 9] false) (init Ex.cfg)).map (fun r => (r.2.eas.map (·.data), r.2.emt.length)) =
      some ([[], [0, 1], [2, 3], [4, 5]], 4) ∧
    Ex.outs (Ex.P [0, 1, 2, 3, 4, 5, 6, 7, 8, 9, 10] false) = none := by
  decide +kernel

/-! ### C72: bulk use in main memory -/

/-- **C72.** As long as the memory limit is not reached, histories of `push`, `size`, bulk pushes and `bulk_pop` perform no undefined operation,
and `bulk_pop` delivers exactly as many elements as it was asked for, or all. (Histories of up to `maxIL ^ 8` = 2^48 calls: the levels of internal arrays are numbered up to 7.)
-/
theorem C72_bulk_in_memory {c : Cfg α} (hc : CfgOk c) (hm : MergeTotal c) (ha : c.asserts = false) (hcap : 0 < c.heapCap) (hlim : 0 < c.ebLimit)
    {hist : List (Op α × Oracle)} (ho : ∀ x ∈ hist, ∀ n, x.2.memFree n = true) (hB : BulkHist c.numHeaps false (hist.map (·.1)))
    (hl : hist.length < c.maxIL ^ 8) :
    ∃ outs s, run c hist (init c) = some (outs, s) ∧ outs.map (·.1) = hist.map (·.1) ∧ Served c.lt ⟨[], .normal, none⟩ outs :=
  run_K hc hm ha hcap hlim hist false _ _ 0 ho hB (init_sim hc) ⟨rfl, rfl, by simp [init], by simp [init, weight]⟩ (by omega) rfl

/-- The library's merge is defined whenever it has something to merge (up to 2^64 sequences). -/
theorem C72_library_merge {lt : α → α → Bool} (hw : SWO lt) (junk1 : Nat → Nat) (junk2 : Nat → Node α) (Q : List (List α)) (n : Nat)
    (hQ : ∀ q ∈ Q, Sorted lt q) (hne : Q.flatten ≠ []) (hn : n ≤ Q.flatten.length) (hl : Q.length ≤ 2 ^ 64) :
    ∃ out Q', seqMerge lt junk1 junk2 Q n = some (out, Q') := by
  obtain ⟨o, S', h1, -⟩ := C63_sequential_merge hw .pointer false (algo := .loserTree) (Or.inr rfl) junk1 junk2 hQ hl (Or.inl hne) hn
  exact ⟨o, S', by unfold seqMerge; rw [if_pos hl, h1]⟩

example : MergeTotal Ex.cfg ∧ CfgOk Ex.cfg ∧ 0 < Ex.cfg.heapCap ∧ 0 < Ex.cfg.ebLimit :=
  ⟨⟨fun Q n hQ hne hn hl => C72_library_merge Ex.nltSWO _ _ Q n hQ hne hn hl, by decide, by decide⟩, Ex.cfgOk, by decide, by decide⟩

/-- **C72.** `bulk_pop` in a loop empties the queue in sorted order. -/
example : Ex.outs (Ex.P [8, 3, 5, 1, 9, 2, 7] true ++ Ex.C [.bulkPop 3, .bulkPop 3, .size, .bulkPop 3, .bulkPop 3]) =
    some (Ex.U 7 ++ [.list [1, 2, 3], .list [5, 7, 8], .num 1, .list [9], .list []]) := by decide +kernel
example : BulkHist 1 false ((Ex.P [8, 3, 5, 1, 9, 2, 7] true ++ Ex.C [.bulkPop 3, .bulkPop 3, .size, .bulkPop 3, .bulkPop 3]).map (·.1)) := by
  simp [Ex.P, Ex.C, BulkHist]

/-- **C71.** `bulk_pop_limit` with nothing before the limit and five internal arrays: the merge of nothing dereferences a null pointer
(C65). -/
theorem C71_bulk_pop_limit_of_nothing :
    Ex.outs (Ex.P [8, 3, 5, 1, 9, 2, 7, 4, 6, 10] true ++ Ex.C [.bulkPopLimit 0 none]) = some (Ex.U 10 ++ [.listFlag [] true]) ∧
    Ex.outs (Ex.P [8, 3, 5, 1, 9, 2, 7, 4, 6, 10, 11, 12] true ++ Ex.C [.bulkPopLimit 0 none]) = none := by
  decide +kernel

end Stxxl.PPQ
