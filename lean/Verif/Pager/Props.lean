import Verif.Common.Rand

/-!
# C07: pagers of `stxxl::vector`

Models `/repo/include/stxxl/bits/containers/pager.h`. `history_entry[i]` is an iterator to the list node with value
`i`; since every page has exactly one node, it is represented by the value itself.
-/

namespace Stxxl.Pager

/-- `lru_pager`: `history` (`pager.h:73`) and the length of `history_entry` (`pager.h:74,100-103`). -/
structure Lru where
  history : List Nat
  size : Nat

/-- Constructor, `pager.h:77-81`. -/
def Lru.new (n : Nat) : Lru := ⟨List.range n, n⟩

/-- `kick`, `pager.h:83-86`; `none`: `back()` of an empty list. -/
def Lru.kick (p : Lru) : Option Nat := p.history.getLast?

/-- `hit`, `pager.h:88-92`: `splice` moves the node to the front; `none`: failed assertion. -/
def Lru.hit (p : Lru) (i : Nat) : Option Lru :=
  if i < p.size then some { p with history := i :: p.history.erase i } else none

/-- `random_pager::kick`, `pager.h:48-51`. -/
def randomKick (raw : Raw) (n : Nat) : Nat := rndNumber raw n

/-! ## Specification -/

/-- A run of hits, the latest first. -/
def run (n : Nat) : List Nat → Option Lru
  | [] => some (Lru.new n)
  | i :: is => (run n is).bind (fun p => p.hit i)

/-- Time of the last use of page `i`: the number of the hit (0, 1, …); pages never hit count as used before all hits,
a smaller page number more recently. -/
def lastUse : List Nat → Nat → Int
  | [], i => -(i : Int) - 1
  | h :: hs, i => if h = i then hs.length else lastUse hs i

theorem lastUse_lt (hs : List Nat) (i : Nat) : lastUse hs i < hs.length := by
  induction hs with
  | nil => simp [lastUse]; omega
  | cons h hs ih => simp only [lastUse, List.length_cons]; split <;> omega

theorem run_inv {n : Nat} {hits : List Nat} (h : ∀ i ∈ hits, i < n) :
    ∃ p, run n hits = some p ∧ p.size = n ∧ p.history.Perm (List.range n) ∧
      p.history.Pairwise (fun a b => lastUse hits b < lastUse hits a) := by
  induction hits with
  | nil =>
    refine ⟨Lru.new n, rfl, rfl, .refl _, ?_⟩
    refine List.Pairwise.imp ?_ List.pairwise_lt_range
    intro a b hab; simp [lastUse]; omega
  | cons i hits ih =>
    obtain ⟨p, h1, h2, h3, h4⟩ := ih (fun x hx => h x (by simp [hx]))
    have hi := h i (by simp)
    have hmem : i ∈ p.history := h3.mem_iff.2 (List.mem_range.2 hi)
    refine ⟨{ p with history := i :: p.history.erase i }, by simp [run, h1, Lru.hit, h2, hi], h2, ?_, ?_⟩
    · exact (List.perm_cons_erase hmem).symm.trans h3
    · have hnd : p.history.Nodup := h3.nodup_iff.2 List.nodup_range
      simp only [List.pairwise_cons]
      have hne : ∀ b ∈ p.history.erase i, i ≠ b := by
        intro b hb he; subst he
        exact absurd hb (hnd.not_mem_erase)
      refine ⟨fun b hb => ?_, ?_⟩
      · simp only [lastUse, if_true, hne b hb, if_false]
        exact lastUse_lt _ _
      · refine List.Pairwise.imp_of_mem ?_ (h4.sublist List.erase_sublist)
        intro a b ha hb hab
        simpa [lastUse, hne a ha, hne b hb] using hab

/-- **C07** After any history of hits of valid pages, `kick` returns a valid page whose last use is strictly older than
that of every other page. -/
theorem C07_kick_is_lru {n : Nat} (hn : 0 < n) {hits : List Nat} (h : ∀ i ∈ hits, i < n) :
    ∃ p k, run n hits = some p ∧ p.kick = some k ∧ k < n ∧
      ∀ j, j < n → j ≠ k → lastUse hits k < lastUse hits j := by
  obtain ⟨p, h1, h2, h3, h4⟩ := run_inv h
  have hne : p.history ≠ [] := by
    intro he
    have := h3.length_eq
    simp [he] at this; omega
  refine ⟨p, p.history.getLast hne, h1, List.getLast?_eq_some_getLast hne, ?_, ?_⟩
  · exact List.mem_range.1 (h3.mem_iff.1 (List.getLast_mem hne))
  · intro j hj hjk
    have hmem : j ∈ p.history := h3.mem_iff.2 (List.mem_range.2 hj)
    have hsplit := List.dropLast_concat_getLast hne
    rw [← hsplit] at h4 hmem
    rw [List.mem_append] at hmem
    rcases hmem with hm | hm
    · exact (List.pairwise_append.1 h4).2.2 j hm _ (by simp)
    · simp at hm; exact absurd hm hjk

/-- **C07** a hit moves the page to the front and leaves the relative order of the others unchanged. -/
theorem C07_hit_keeps_order {n : Nat} {hits : List Nat} (h : ∀ i ∈ hits, i < n) {i : Nat} (hi : i < n) :
    ∃ p p', run n hits = some p ∧ p.hit i = some p' ∧ p'.history.head? = some i ∧
      p'.history.filter (· ≠ i) = p.history.filter (· ≠ i) := by
  obtain ⟨p, h1, h2, h3, h4⟩ := run_inv h
  have hnd : p.history.Nodup := h3.nodup_iff.2 List.nodup_range
  refine ⟨p, { p with history := i :: p.history.erase i }, h1, by simp [Lru.hit, h2, hi], rfl, ?_⟩
  simp only [ne_eq, not_true_eq_false, decide_false, Bool.false_eq_true, not_false_eq_true,
    List.filter_cons_of_neg, hnd.erase_eq_filter, List.filter_filter]
  congr 1
  funext x
  by_cases hx : x = i <;> simp [hx]

/-- **C07** the random pager returns a valid page for every generator output. -/
theorem C07_random_kick_valid (raw : Raw) {n : Nat} (hn : 0 < n) : randomKick raw n < n := rndNumber_lt raw hn

/-! Non-vacuity: 4 pages, hits 3,1,3 (chronologically): page 2 is the victim. -/
example : (run 4 [3, 1, 3]).bind Lru.kick = some 2 := by decide
example : ∀ i ∈ [3, 1, 3], i < 4 := by decide

end Stxxl.Pager
