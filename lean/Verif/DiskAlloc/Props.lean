import Verif.DiskAlloc.Spec

/-!
# C01–C04: the disk allocator

`World`, `Event`, `Legal`, `Reachable` (in `Spec.lean`) define the histories; `Overlap a b` says two byte
ranges share a byte.
-/

namespace Stxxl.DiskAlloc

/-- **C01** Live blocks never overlap and lie inside the disk file, after every history (of any number of
threads: events are the atomic locked sections). -/
theorem C01_live_blocks_disjoint {cfg ag w} (h : Reachable cfg ag w) :
    w.live.Pairwise (fun a b => ¬ Overlap a b) ∧
    ∀ l ∈ w.live, 0 < l.2 ∧ 0 ≤ l.1 ∧ l.1 + l.2 ≤ w.st.diskBytes :=
  have hi := reachable_inv h
  ⟨hi.disj, fun l hl => ⟨hi.pos l hl, mem_bounds hi hl⟩⟩

/-- **C02** (accounting) `get_free_bytes` is the size of the free map, `get_used_bytes` is the total size of the
live blocks. -/
theorem C02_accounting {cfg ag w} (h : Reachable cfg ag w) :
    getFreeBytes w.st = (w.st.free.map (·.2)).sum ∧
    getUsedBytes w.st = (w.live.map (·.2)).sum ∧
    getFreeBytes w.st + getUsedBytes w.st = getTotalBytes w.st := by
  have hi := reachable_inv h
  have h1 := hi.bytes
  have h2 := hi.acct
  simp only [total] at h1 h2
  refine ⟨h1, ?_, ?_⟩ <;> simp only [getUsedBytes, getFreeBytes, getTotalBytes] <;> omega

/-- **C02** (coalescing) the free regions are in ascending order and never adjacent: between two of them there is
at least one byte in use. -/
theorem C02_coalesced {cfg ag w} (h : Reachable cfg ag w) :
    w.st.free.Pairwise (fun a b => a.1 + a.2 < b.1) ∧ ∀ r ∈ w.st.free, 0 < r.2 :=
  (reachable_inv h).sep

/-- **C02** (nothing lost) every byte of the disk is in exactly one of: a free region, a live block. -/
theorem C02_partition {cfg ag w} (h : Reachable cfg ag w) (x : Int) :
    ((Covers w.st.free x ∨ Covers w.live x) ↔ (0 ≤ x ∧ x < w.st.diskBytes)) ∧
    ¬ (Covers w.st.free x ∧ Covers w.live x) := by
  have hi := reachable_inv h
  refine ⟨hi.cover x, ?_⟩
  rintro ⟨h1, l, hl, hx⟩
  exact (inRegion_of_covers_overlap hi.sep.2 (hi.pos l hl)).2 (hi.apart l hl) x h1 hx

theorem single_region {m : FreeMap} {d : Int} (hs : Sep m) (hd : 0 < d)
    (hc : ∀ x, Covers m x ↔ 0 ≤ x ∧ x < d) : m = [(0, d)] := by
  cases m with
  | nil => have := (hc 0).2 (by omega); simp at this
  | cons a m =>
    obtain ⟨ha, hm, hlt⟩ := sep_cons.1 hs
    have h1 := (hc a.1).1 ⟨a, by simp, by simp [InRegion]; omega⟩
    have h2 := (hc (a.1 + a.2 - 1)).1 ⟨a, by simp, by simp [InRegion]; omega⟩
    have h0 : a.1 = 0 := by
      obtain ⟨r, hr, hx⟩ := (hc 0).2 (by omega)
      simp only [InRegion] at hx
      rcases List.mem_cons.1 hr with rfl | hr
      · omega
      · have := hlt r hr; omega
    have hend : a.1 + a.2 = d := by
      apply Classical.byContradiction
      intro hne
      obtain ⟨r, hr, hx⟩ := (hc (a.1 + a.2)).2 (by omega)
      simp only [InRegion] at hx
      rcases List.mem_cons.1 hr with rfl | hr
      · omega
      · have := hlt r hr; omega
    have hnil : m = [] := by
      cases m with
      | nil => rfl
      | cons b m =>
        have := hlt b (by simp)
        have hb := hm.2 b (by simp)
        have := (hc b.1).1 ⟨b, by simp, by simp [InRegion]; omega⟩
        omega
    have : a = (0, d) := by ext <;> simp only [] <;> omega
    simp [this, hnil]

/-- **C02** (full recovery) once all blocks are deleted, in whatever order, the free map is the single region
covering the whole file. -/
theorem C02_all_freed {cfg ag w} (h : Reachable cfg ag w) (hl : w.live = []) (hd : 0 < w.st.diskBytes) :
    w.st.free = [(0, w.st.diskBytes)] := by
  have hi := reachable_inv h
  refine single_region hi.sep hd (fun x => ?_)
  have := hi.cover x
  simpa [hl] using this

/-- **C02** (full recovery, effect) … so the next request, of any block sizes summing to at most the file size, is
placed contiguously at the start of the file. -/
theorem C02_all_freed_alloc {cfg ag w} (h : Reachable cfg ag w) (hl : w.live = []) (bs : Int)
    (sizes : List Int) (hne : sizes ≠ []) (hz : ∀ z ∈ sizes, 0 < z)
    (hfit : sizes.sum ≤ w.st.diskBytes) :
    ∃ s', newBlocks w.st bs sizes = (s', .ok (assign 0 sizes)) := by
  have hp := sum_pos hz hne
  have hi := reachable_inv h
  have hf := C02_all_freed h hl (by omega)
  have hb : ¬ w.st.freeBytes < sizes.sum := by
    have := hi.bytes; rw [hf] at this; simp at this; omega
  have hff : firstFit w.st.free sizes.sum = some (0, w.st.diskBytes) := by
    simp [firstFit, hf, hfit]
  refine ⟨(take w.st (0, w.st.diskBytes) sizes).1, ?_⟩
  rw [newBlocks]
  simp only [tryAlloc, hb, if_false, hff]
  simp [take]

/-- **C03** deleting a block that overlaps free space throws (and, being an exception before any update, leaves
the world as it is). -/
theorem C03_double_free_rejected {cfg ag w} (h : Reachable cfg ag w) (b : Region) (hb : 0 < b.2)
    (hov : ∃ r ∈ w.st.free, Overlap r b) :
    deleteBlock w.st b = .error .doubleFree ∧ w.step (.free b) = w := by
  have he : deleteBlock w.st b = .error .doubleFree := addFree_overlap (reachable_inv h).sep hb hov
  exact ⟨he, by simp [World.step, he]⟩

/-- **C03** deleting a block a second time is always detected. -/
theorem C03_second_delete_throws {cfg ag w} (h : Reachable cfg ag w) (b : Region) (hb : b ∈ w.live) :
    ∃ s', deleteBlock w.st b = .ok s' ∧ deleteBlock s' b = .error .doubleFree := by
  have hi := reachable_inv h
  obtain ⟨s', h1, h2⟩ := free_live hi hb
  refine ⟨s', h1, ?_⟩
  have hp := hi.pos b hb
  have hr : Reachable cfg ag (w.step (.free b)) := Reachable.step w (.free b) h ⟨hp, .inl hb⟩
  have hcov : Covers s'.free b.1 := by
    have hadd := addFree_ok (pos := b.1) (size := b.2) hi.sep hp (fun r hr => hi.apart b hb r hr)
    obtain ⟨s'', h1', _, h3, _⟩ := hadd
    have : s'' = s' := by
      have : deleteBlock w.st b = .ok s'' := h1'
      rw [h1] at this; simpa using this.symm
    subst this
    exact (h3 b.1).2 (.inr (by simp [InRegion]; omega))
  obtain ⟨r, hrm, hx⟩ := hcov
  refine addFree_overlap h2.sep hp ⟨r, hrm, ?_⟩
  simp only [InRegion] at hx
  have := h2.sep.2 r hrm
  simp only [Overlap]; omega

/-- **C03** deleting a live block never throws. -/
theorem C03_live_delete_ok {cfg ag w} (h : Reachable cfg ag w) (b : Region) (hb : b ∈ w.live) :
    ∃ s', deleteBlock w.st b = .ok s' := by
  obtain ⟨s', h1, _⟩ := free_live (reachable_inv h) hb
  exact ⟨s', h1⟩

theorem newBlocks_fixed {cfg ag} {bs : Int} (hbs : 0 < bs) :
    ∀ (n : Nat) (w : World), 0 < n → Reachable cfg ag w →
    (newBlocks w.st bs (List.replicate n bs) = (w.st, .error .outOfMemory) ∧
      w.st.autogrow = false ∧ w.st.freeBytes < n * bs) ∨
    (∃ s' blocks, newBlocks w.st bs (List.replicate n bs) = (s', .ok blocks) ∧
      blocks.map (·.2) = List.replicate n bs ∧ Reachable cfg ag ⟨s', w.live ++ blocks⟩ ∧
      w.st.diskBytes ≤ s'.diskBytes) := by
  intro n
  induction n using Nat.strongRecOn with
  | ind n ih =>
    intro w hn hw
    have hi := reachable_inv hw
    have hne : List.replicate n bs ≠ [] := by simp; omega
    have hz : ∀ z ∈ List.replicate n bs, 0 < z := by
      intro z hz; rw [List.mem_replicate] at hz; omega
    have hsum : ∀ k : Nat, (List.replicate k bs).sum = k * bs := by
      intro k
      induction k with
      | zero => simp
      | succ k ihk => rw [List.replicate_succ, List.sum_cons, ihk]; push_cast; rw [Int.add_mul]; omega
    have hlegal : Legal w (.alloc bs (List.replicate n bs)) := ⟨hne, hz⟩
    have hstep := Reachable.step w _ hw hlegal
    rcases tryAlloc_cases hi (bs := bs) hne hz with ⟨h1, h2, h3⟩ | ⟨s', bl, h1, h2, h3, h4, h5⟩ |
      ⟨h1, h2, h3⟩ | ⟨h1, h2, h3⟩
    · left
      rw [newBlocks, h1]
      exact ⟨rfl, h2, by rw [hsum] at h3; exact h3⟩
    · right
      refine ⟨s', bl, ?_, h3, ?_, h5⟩
      · rw [newBlocks, h1]
      · simpa only [World.step, h1] using hstep
    · rw [hsum] at h3
      rw [newBlocks, h1]
      simp only [h2, dif_pos, List.length_replicate, List.take_replicate, List.drop_replicate]
      simp only [List.length_replicate] at h2
      have hmin : min (n / 2) n = n / 2 := by omega
      rw [hmin]
      have hsplit : (n : Int) * bs = (n / 2 : Nat) * bs + (n - n / 2 : Nat) * bs := by
        rw [← Int.add_mul]; congr 1; omega
      have hnn2 : 0 ≤ ((n - n / 2 : Nat) : Int) * bs := Int.mul_nonneg (by omega) (by omega)
      rcases ih (n / 2) (by omega) w (by omega) hw with ⟨_, _, g3⟩ | ⟨s1, b1, g1, g2, g3, g4⟩
      · omega
      · have hi1 := reachable_inv g3
        simp only [g1]
        rcases ih (n - n / 2) (by omega) _ (by omega) g3 with ⟨_, _, k3⟩ | ⟨s2, b2, k1, k2, k3, k4⟩
        · exfalso
          have a0 := hi.acct
          have a1 := hi1.acct
          simp only [total_append] at a1
          have hb1 : total b1 = (n / 2 : Nat) * bs := by simp only [total, g2, hsum]
          simp only [] at k3
          omega
        · right
          simp only [] at k1
          refine ⟨s2, b1 ++ b2, ?_, ?_, ?_, ?_⟩
          · simp [k1]; omega
          · simp only [List.map_append, g2, k2, List.replicate_append_replicate]; congr 1; omega
          · simpa using k3
          · simp only [] at k4; omega
    · exfalso
      rcases h3 with ⟨h3, h4⟩ | ⟨h3, h4⟩
      · rw [hsum] at h3
        simp only [List.length_replicate] at h4
        have : (2 : Int) ≤ n := by omega
        have := Int.mul_le_mul_of_nonneg_right this (by omega : 0 ≤ bs)
        omega
      · rw [hsum] at h3 h4
        simp only [List.length_replicate] at h4
        have : n ≠ 1 := by rintro rfl; simp at h3
        have : (2 : Int) ≤ n := by omega
        have := Int.mul_le_mul_of_nonneg_right this (by omega : 0 ≤ bs)
        omega

/-- **C04** a request for `n ≥ 1` blocks of a fixed positive size always terminates (`newBlocks` is total) and
either throws `bad_ext_alloc` without any change, which happens only with autogrow off and too few free bytes, or
returns `n` blocks of that size, leading to a reachable world in which they are live (hence disjoint, C01). No
assertion can fail. -/
theorem C04_alloc_succeeds {cfg ag w} (h : Reachable cfg ag w) (bs : Int) (hbs : 0 < bs) (n : Nat) (hn : 0 < n) :
    (newBlocks w.st bs (List.replicate n bs) = (w.st, .error .outOfMemory) ∧
      w.st.autogrow = false ∧ w.st.freeBytes < n * bs) ∨
    (∃ s' blocks, newBlocks w.st bs (List.replicate n bs) = (s', .ok blocks) ∧
      blocks.map (·.2) = List.replicate n bs ∧ Reachable cfg ag ⟨s', w.live ++ blocks⟩) := by
  rcases newBlocks_fixed hbs n w hn h with h | ⟨s, b, h1, h2, h3, _⟩
  · exact .inl h
  · exact .inr ⟨s, b, h1, h2, h3⟩

/-- **C04**, success side: enough free bytes, or autogrow, is sufficient, however fragmented the disk is. -/
theorem C04_enough_space {cfg ag w} (h : Reachable cfg ag w) (bs : Int) (hbs : 0 < bs) (n : Nat) (hn : 0 < n)
    (hok : w.st.autogrow = true ∨ n * bs ≤ w.st.freeBytes) :
    ∃ s' blocks, newBlocks w.st bs (List.replicate n bs) = (s', .ok blocks) ∧
      blocks.map (·.2) = List.replicate n bs ∧ Reachable cfg ag ⟨s', w.live ++ blocks⟩ := by
  rcases C04_alloc_succeeds h bs hbs n hn with ⟨_, h2, h3⟩ | h
  · rcases hok with hok | hok
    · simp [h2] at hok
    · omega
  · exact h

/-! ### Non-vacuity -/

/-- A reachable fragmented world: 10 bytes, two blocks of 4 allocated, the first one freed. -/
def exWorld : World := ⟨{ free := [(0, 4), (8, 2)], freeBytes := 6, diskBytes := 10, autogrow := false }, [(4, 4)]⟩

theorem exWorld_reachable : Reachable 10 false exWorld := by
  have h0 : Reachable 10 false ⟨{ free := [(0, 10)], freeBytes := 10, diskBytes := 10, autogrow := false }, []⟩ :=
    Reachable.init _ (by decide) (by rfl)
  have h1 := Reachable.step _ (.alloc 4 [4, 4]) h0 ⟨by decide, by decide⟩
  have h2 := Reachable.step _ (.free (0, 4)) h1 ⟨by decide, .inl (by decide)⟩
  exact h2

example : exWorld.live ≠ [] ∧ exWorld.st.free.length = 2 := by decide
/-- double free of the freed block is a legal event, and of a partly free range too -/
example : Legal exWorld (.free (0, 4)) ∧ ∃ r ∈ exWorld.st.free, Overlap r (3, 2) :=
  ⟨⟨by decide, .inr ⟨(0, 4), by decide, by decide⟩⟩, ⟨(0, 4), by decide, by decide⟩⟩
/-- six free bytes serve three blocks of two bytes although they are not contiguous -/
example : (3 : Nat) * (2 : Int) ≤ exWorld.st.freeBytes ∧ firstFit exWorld.st.free 6 = none := by decide

/-! ### Disagreements found (the code violates the wish, with witnesses)

`C04` is stated for the fixed-size block ids the containers use. It is *false* for `BID<0>` (variable size): on a
fragmented disk with enough free bytes a single block request runs into `assert(requested_size > BlockSize);
assert(end - begin > 1)`; in release builds the function recurses on itself forever. -/
theorem C04_variable_size_counterexample :
    Reachable 10 false exWorld ∧ (6 : Int) ≤ exWorld.st.freeBytes ∧
    newBlocks exWorld.st 0 [6] = (exWorld.st, .error .assertFailed) := by
  refine ⟨exWorld_reachable, by decide, ?_⟩
  rw [newBlocks]; rfl

/-- With autogrow *off* the file can still grow: a fragmented disk with 6 free bytes (4+2) and autogrow off serves a
5-byte block by extending the file from 10 to 15 bytes (`disk_allocator.h:194-211`). -/
theorem C04_grows_without_autogrow :
    Reachable 10 false exWorld ∧ exWorld.st.autogrow = false ∧
    (newBlocks exWorld.st 5 [5]).1.diskBytes = 15 := by
  refine ⟨exWorld_reachable, rfl, ?_⟩
  rw [newBlocks]; rfl

end Stxxl.DiskAlloc
