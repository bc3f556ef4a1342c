import Verif.ExtVector.Spec

/-!
# C08–C10: the external vector

`Op`, `step`, `absStep`, `Legal`, `Reach` are in `Spec.lean`.
-/

namespace Stxxl.ExtVector

variable {α : Type} {B P : Nat}

/-- **C08** Every legal call on every reachable vector succeeds (no failed assertion, no access outside the page
table, cache or block list), whichever slot the pager evicts; and it changes the abstract array as specified. -/
theorem C08_no_failure (hB : 0 < B) (hP : 0 < P) {sh} {s : Sys α} {abs} (h : Reach B P sh s abs) (op : Op α)
    (hl : Legal B P sh s op) :
    ∃ s' r, step B P s op = some (s', r) ∧ Reach B P sh s' (absStep B abs op) := by
  obtain ⟨s', r, h1, _⟩ := step_ok (reach_inv hB hP h) op hl
  exact ⟨s', r, h1, .step s s' abs op r h hl h1⟩

/-- **C08** A read of element `i` returns the value last written to element `i`. -/
theorem C08_read (hB : 0 < B) (hP : 0 < P) {sh} {s : Sys α} {abs} (h : Reach B P sh s abs) {i victim : Nat} {v : α}
    (hv : abs[i]? = some (some v)) (hvic : victim < s.vec.npages) :
    (∃ s', step B P s (.readConst i victim) = some (s', some v)) ∧
    (∃ s', step B P s (.readMut i victim) = some (s', some v)) := by
  have hi := (reach_inv hB hP h).inv
  obtain ⟨s1, r1, a1, _, _, a4⟩ := constElement_inv hi (hi.idx hv) hvic
  obtain ⟨s2, r2, b1, _, _, b4⟩ := elementRead_inv hi (hi.idx hv) hvic
  refine ⟨⟨s1, ?_⟩, ⟨s2, ?_⟩⟩
  · simp [step, a1, a4 v hv]
  · simp [step, b1, b4 v hv]

/-- **C08** `size()` is the length of the abstract array and never exceeds `capacity()`. -/
theorem C08_size (hB : 0 < B) (hP : 0 < P) {sh} {s : Sys α} {abs} (h : Reach B P sh s abs) :
    s.vec.size = abs.length ∧ s.vec.size ≤ capacity B s.vec :=
  have hi := (reach_inv hB hP h).inv
  ⟨hi.len.symm, hi.cap⟩

/-- **C08** An access to one vector never touches a block of another one: a step of the vector changes only blocks on
its own block list (old or new). -/
theorem C08_frame (hB : 0 < B) (hP : 0 < P) {sh} {s : Sys α} {abs} (h : Reach B P sh s abs) (i : Nat) (x : α)
    (victim : Nat) (hi : i < s.vec.size) (hvic : victim < s.vec.npages) {s' r}
    (hs : step B P s (.write i x victim) = some (s', r)) (b : Nat) (hb : b ∉ s.vec.bids) : s'.disk b = s.disk b := by
  obtain ⟨s2, h1, _, h3⟩ := elementWrite_inv (reach_inv hB hP h).inv x hi hvic
  simp [step, h1] at hs
  rw [← hs.1]; exact h3.disk b hb

/-- What `flush` guarantees about the disk. -/
theorem flush_disk (hB : 0 < B) (hP : 0 < P) {sh} {s : Sys α} {abs} (h : Reach B P sh s abs) :
    ∃ s', flush P s = some s' ∧ Same s s' ∧
      ∀ (i : Nat) v, abs[i]? = some (some v) → ∃ b, s.vec.bids[i / B]? = some b ∧ s'.disk b (i % B) = v := by
  have hw := reach_inv hB hP h
  obtain ⟨s', h1, h2, h3, h4⟩ := flush_inv hw.inv
  refine ⟨s', h1, h3, fun i v hv => ?_⟩
  have hk := h2.lt_cap (h2.idx hv)
  have hb := List.getElem?_eq_getElem hk
  refine ⟨_, by rw [← h3.bids]; exact hb, ?_⟩
  obtain ⟨st, c1, c2, _, c4⟩ := h2.content i v hv
  have hst : st = .valid := by
    cases st with
    | valid => rfl
    | uninit => exact absurd rfl c2
    | dirty => obtain ⟨⟨t, ht⟩, _⟩ := h2.dirtyC _ c1; exact absurd ht (h4 _ t)
  exact c4 hst _ hb

/-- **C09** After `flush()` block `i / B` of the vector holds, at offset `i % B`, the current value of element `i`; and no
page is dirty any more, so every block may be updated externally. -/
theorem C09_flush_complete (hB : 0 < B) (hP : 0 < P) {sh} {s : Sys α} {abs} (h : Reach B P sh s abs) :
    ∃ s', step B P s .flush = some (s', none) ∧ s'.vec.bids = s.vec.bids ∧
      (∀ (i : Nat) v, abs[i]? = some (some v) → ∃ b, s'.vec.bids[i / B]? = some b ∧ s'.disk b (i % B) = v) ∧
      (∀ (k : Nat) c, k < s'.vec.bids.length → Legal B P sh s' (.external k c)) := by
  obtain ⟨s', h1, h2, h3⟩ := flush_disk hB hP h
  refine ⟨s', by simp [step, h1], h2.bids, by rw [h2.bids]; exact h3, fun k c hk => ⟨hk, fun hd => ?_⟩⟩
  obtain ⟨s2, g1, g2, _, g4⟩ := flush_inv (reach_inv hB hP h).inv
  rw [h1] at g1; cases g1
  obtain ⟨⟨t, ht⟩, _⟩ := g2.dirtyC _ hd
  exact g4 _ t ht

/-- **C09** The destructor leaves the disk complete. -/
theorem C09_destructor_complete (hB : 0 < B) (hP : 0 < P) {sh} {s : Sys α} {abs} (h : Reach B P sh s abs) :
    ∃ s', destroy B P s = some s' ∧
      (∀ (i : Nat) v, abs[i]? = some (some v) → ∃ b, s.vec.bids[i / B]? = some b ∧ s'.disk b (i % B) = v) ∧
      (s.vec.fromFile = true → s'.fileBlocks = divCeil s.vec.size B) := by
  obtain ⟨s', h1, h2, h3⟩ := flush_disk hB hP h
  unfold destroy
  rw [h1]
  simp only [Option.map_some]
  refine ⟨_, rfl, fun i v hv => ?_, fun hff => ?_⟩
  · obtain ⟨b, hb, hd⟩ := h3 i v hv
    refine ⟨b, hb, ?_⟩
    split <;> exact hd
  · rw [if_pos (by rw [h2.fromFile]; exact hff)]
    simp [h2.size]

/-- **C09** The destructor of a vector that never used `resize(n, true)` gives every block it got back to the block
manager. -/
theorem C09_destructor_no_leak (hB : 0 < B) (hP : 0 < P) {s : Sys α} {abs} (h : Reach B P false s abs)
    (hff : s.vec.fromFile = false) : ∃ s', destroy B P s = some s' ∧ s'.owned = [] := by
  obtain ⟨s', h1, h2, h3⟩ := flush_disk hB hP h
  unfold destroy
  rw [h1]
  simp only [Option.map_some]
  refine ⟨_, rfl, ?_⟩
  rw [if_neg (by rw [h2.fromFile]; simp [hff])]
  simp only [release, h2.owned, h2.bids, List.filter_eq_nil_iff]
  intro b hb
  simpa using (reach_inv hB hP h).own' rfl hff b hb

/-- **C09** A second vector opened on the same file after a flush reads the same data, whatever its cache size and
pager. -/
theorem C09_reopen_file (hB : 0 < B) (hP : 0 < P) {sh} {s : Sys α} {abs} (h : Reach B P sh s abs)
    (hff : s.vec.fromFile = true) {s' : Sys α} (hfl : flush P s = some s')
    (npages : Nat) (hnp : 0 < npages) (s2p cache) (i : Nat) (v : α) (hv : abs[i]? = some (some v)) (victim : Nat)
    (hvic : victim < npages) :
    ∃ t, step B P (newFromFile B P s'.vec.size npages s2p cache s'.disk) (.readConst i victim) = some (t, some v) := by
  have hw := reach_inv hB hP h
  obtain ⟨s1, h1, h2, h3⟩ := flush_disk hB hP h
  rw [h1] at hfl; cases hfl
  have hr : Reach B P sh _ _ := Reach.file (B := B) (P := P) (shrink := sh) s'.vec.size npages s2p cache s'.disk hnp
  obtain ⟨b, hb, hd⟩ := h3 i v hv
  have hlt := hw.inv.idx hv
  have hbe : b = i / B := by
    have e := hw.ids hff
    rw [e] at hb
    obtain ⟨hh, he⟩ := List.getElem?_eq_some_iff.1 hb
    simp at he; exact he.symm
  refine (C08_read hB hP hr (i := i) (v := v) (victim := victim) ?_ hvic).1
  rw [List.getElem?_map, List.getElem?_range (by rw [h2.size]; exact hlt)]
  simp [← hd, hbe]

/-- **C09** The same for a vector given the blocks with `set_content` (as a stream or an algorithm would). -/
theorem C09_reopen_blocks (hB : 0 < B) (hP : 0 < P) {sh} {s : Sys α} {abs} (h : Reach B P sh s abs)
    {s' : Sys α} (hfl : flush P s = some s')
    (npages : Nat) (hnp : 0 < npages) (s2p cache) (i : Nat) (v : α) (hv : abs[i]? = some (some v)) (victim : Nat)
    (hvic : victim < npages) :
    ∃ t, step B P (setContent B P (newVec B P 0 npages [] s2p cache s'.disk)
        (s'.vec.bids.take (divCeil s'.vec.size B)) s'.vec.size) (.readConst i victim) = some (t, some v) := by
  have hw := reach_inv hB hP h
  obtain ⟨s1, h1, h2, h3⟩ := flush_disk hB hP h
  rw [h1] at hfl; cases hfl
  have hle : divCeil s'.vec.size B ≤ s'.vec.bids.length := by
    rw [divCeil_le_iff hB, h2.size, h2.bids]; exact hw.inv.cap
  have hr : Reach B P sh _ _ := Reach.content (B := B) (P := P) (shrink := sh) s'.vec.size npages
    (s'.vec.bids.take (divCeil s'.vec.size B)) s2p cache s'.disk hnp
    (by rw [List.length_take]; omega) ((h2.bids ▸ hw.inv.nod).sublist (List.take_sublist _ _))
  obtain ⟨b, hb, hd⟩ := h3 i v hv
  have hlt := hw.inv.idx hv
  refine (C08_read hB hP hr (i := i) (v := v) (victim := victim) ?_ hvic).1
  rw [List.getElem?_map, List.getElem?_range (by rw [h2.size]; exact hlt)]
  have hk : i / B < divCeil s'.vec.size B := by
    rw [lt_divCeil_iff hB, h2.size]; have := Nat.div_mul_le_self i B; omega
  simp [List.getElem?_take, hk, h2.bids, hb, hd]

/-! ## C10 -/

/-- **C10** (first half of the property) after `resize(n, true)` the first `n` elements read back unchanged. The second
half, "returns the blocks no longer needed to the block manager", holds for vectors bound to a file
(`C10_shrink_file`) but is false for vectors using the block manager (`C10_shrink_releases_nothing`). -/
theorem C10_shrink_keeps_partial (hB : 0 < B) (hP : 0 < P) {s : Sys α} {abs} (h : Reach B P true s abs) {n : Nat}
    {fresh : List Nat} (hl : Legal B P true s (.resizeShrink n fresh)) {i victim : Nat} {v : α}
    (hv : abs[i]? = some (some v)) (hin : i < n) (hvic : victim < s.vec.npages) :
    ∃ s' t, step B P s (.resizeShrink n fresh) = some (s', none) ∧ s'.vec.size = n ∧
      step B P s' (.readConst i victim) = some (t, some v) := by
  obtain ⟨s', r, h1, h2⟩ := C08_no_failure hB hP h _ hl
  have hr : r = none := by simp [step] at h1; exact h1.2.symm
  subst hr
  have hn : s'.vec.npages = s.vec.npages := by
    have hw := reach_inv hB hP h
    obtain ⟨_, h4, _⟩ := resizeShrink_inv hw.inv hl.2.1 hl.2.2 hw.ids
    simp [step] at h1; rw [← h1]; exact h4
  have hg : (absStep B abs (.resizeShrink n fresh : Op α))[i]? = some (some v) := by
    have hlt : i < abs.length := (List.getElem?_eq_some_iff.1 hv).1
    simp only [absStep]
    rw [List.getElem?_append_left (by simp; omega), List.getElem?_take, if_pos hin, hv]
  obtain ⟨⟨t, ht⟩, _⟩ := C08_read hB hP h2 hg (victim := victim) (by rw [hn]; exact hvic)
  refine ⟨s', t, h1, ?_, ht⟩
  have := (C08_size hB hP h2).1
  rw [this]; simp [absStep]; omega

/-- **C10** A file-backed vector truncates its file to the blocks needed. -/
theorem C10_shrink_file {s : Sys α} {n : Nat} {fresh : List Nat} (hff : s.vec.fromFile = true)
    (hlt : divCeil n B < s.vec.bids.length) :
    (resizeShrink B P s n fresh).fileBlocks = divCeil n B ∧
      (resizeShrink B P s n fresh).vec.bids.length = divCeil n B := by
  unfold resizeShrink
  have : ¬ divCeil n B > s.vec.bids.length := by omega
  simp only [this, if_false, hlt, if_true, hff]
  exact ⟨trivial, by simp; omega⟩

/-- **C10** (negation) `resize(n, true)` on a vector that got its blocks from the block manager gives **no** block back
(`vector.h:1152` deletes the empty range `[begin()+old_bids_size, end())`), but forgets the ids of the blocks beyond
the new size: each of them stays allocated, and the vector can no longer release it. -/
theorem C10_shrink_releases_nothing (hB : 0 < B) (hP : 0 < P) {sh} {s : Sys α} {abs} (h : Reach B P sh s abs)
    (hff : s.vec.fromFile = false) {n : Nat} {fresh : List Nat} (hlt : divCeil n B < s.vec.bids.length) :
    (resizeShrink B P s n fresh).owned = s.owned ∧
    ∀ (k b : Nat), divCeil n B ≤ k → s.vec.bids[k]? = some b →
      b ∈ (resizeShrink B P s n fresh).owned ∧ b ∉ (resizeShrink B P s n fresh).vec.bids := by
  have hw := reach_inv hB hP h
  unfold resizeShrink
  have : ¬ divCeil n B > s.vec.bids.length := by omega
  simp only [this, if_false, hlt, if_true, hff, Bool.false_eq_true]
  have he : release s.owned (s.vec.bids.drop s.vec.bids.length) = s.owned := by
    simp [release, List.filter_eq_self]
  rw [he]
  refine ⟨rfl, fun k b hk hb => ⟨hw.own hff b (List.mem_of_getElem? hb), fun hm => ?_⟩⟩
  obtain ⟨j, hj⟩ := List.mem_iff_getElem?.1 hm
  rw [List.getElem?_take] at hj
  split at hj
  · have := nodup_get_inj hw.inv.nod hj hb; omega
  · simp at hj

/-! ### Concrete histories -/

/-- A vector of 5 elements, 2 elements per block, 1 block per page, 1 page of cache. -/
def exVec : Sys Nat := newVec 2 1 5 1 [7, 3, 9] (fun _ => 0) (fun _ _ => 0) (fun _ _ => 0)

theorem exVec_reach (sh : Bool) : Reach 2 1 sh exVec (List.replicate 5 none) :=
  .new 5 1 [7, 3, 9] _ _ _ (by decide) (by decide) (by decide)

/-- The hypotheses of the theorems above are met by a history with an eviction: write element 0, then element 4 (page
0 is evicted), then grow, and read element 0 back. -/
example : ∃ s abs, Reach 2 1 false s abs ∧ abs[0]? = some (some 11) ∧ abs[6]? = some (some 33) ∧
    s.vec.bids = [7, 3, 9, 4] ∧ s.disk 7 0 = 11 := by
  have h0 := exVec_reach false
  obtain ⟨s1, r1, e1, h1⟩ : ∃ s1 r1, step 2 1 exVec (.write 0 11 0) = some (s1, r1) ∧
      Reach 2 1 false s1 (absStep 2 (List.replicate 5 none) (.write 0 11 0)) :=
    C08_no_failure (by decide) (by decide) h0 (.write 0 11 0) ⟨by decide, by decide⟩
  cases e1
  obtain ⟨s2, r2, e2, h2⟩ := C08_no_failure (by decide) (by decide) h1 (.write 4 22 0) ⟨by decide, by decide⟩
  cases e2
  obtain ⟨s3, r3, e3, h3⟩ := C08_no_failure (by decide) (by decide) h2 (.resize 6 [4])
    ⟨by unfold FreshIds; decide, by simp⟩
  cases e3
  obtain ⟨s4, r4, e4, h4⟩ := C08_no_failure (by decide) (by decide) h3 (.pushBack 33 0 [4])
    ⟨by decide, by unfold FreshIds; decide, by simp⟩
  cases e4
  exact ⟨_, _, h4, by decide, by decide, by decide, by decide⟩

/-- The leak happens: shrinking the vector above to 1 element keeps blocks 3 and 9 allocated, though unreachable. -/
example : Legal 2 1 true exVec (.resizeShrink 1 []) ∧ (resizeShrink 2 1 exVec 1 []).vec.bids = [7] ∧
    (resizeShrink 2 1 exVec 1 []).owned = [7, 3, 9] := by
  refine ⟨⟨rfl, ?_, ?_⟩, by decide, by decide⟩
  · unfold FreshIds; decide
  · unfold NoCut; decide

/-- **C10** (negation) Growing a vector again after `resize(n, true)` can leave a stale slot: this history — write the last
element, shrink to 1 element, resize to 3, read element 0 — accesses the page table out of bounds
(`m_page_to_slot[old_page_no]` with `old_page_no` ≥ `m_page_to_slot.size()`), although every call respects the
documented preconditions. -/
theorem C10_grow_after_shrink_ub :
    ∃ s1 s2 s3 : Sys Nat,
      step 2 1 exVec (.write 4 22 0) = some (s1, none) ∧ 4 < exVec.vec.size ∧
      step 2 1 s1 (.resizeShrink 1 []) = some (s2, none) ∧
      step 2 1 s2 (.resize 3 [5]) = some (s3, none) ∧ FreshIds 2 s2 3 [5] ∧
      0 < s3.vec.size ∧ step 2 1 s3 (.readConst 0 0) = none := by
  refine ⟨_, _, _, rfl, by decide, rfl, rfl, ?_, by decide, rfl⟩
  unfold FreshIds; decide

end Stxxl.ExtVector
