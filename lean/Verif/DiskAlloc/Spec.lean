import Verif.DiskAlloc.Lemmas

/-!
# Specification side of the disk allocator: histories

A *world* is the allocator together with the list of blocks that users currently hold. The list is not kept by
the code: it is defined by the history alone (returned blocks are added, successfully deleted ones removed).
One event is one mutex-protected section, so sequences of events are exactly the interleavings of any number of
threads calling `new_blocks` / `delete_block`.
-/

namespace Stxxl.DiskAlloc

structure World where
  st : State
  live : List Region

inductive Event where
  /-- one locked section of `new_blocks<blockSize>` for blocks of the given sizes -/
  | alloc (blockSize : Int) (sizes : List Int)
  /-- `delete_block` of the block at `b.1` with size `b.2` -/
  | free (b : Region)

/-- Effect of an event on the world. A throwing call leaves the world alone. -/
def World.step (w : World) : Event → World
  | .alloc bs sizes =>
    match tryAlloc w.st bs sizes with
    | .error _ => w
    | .ok (s, .done blocks) => ⟨s, w.live ++ blocks⟩
    | .ok (s, .split) => ⟨s, w.live⟩
  | .free b =>
    match deleteBlock w.st b with
    | .error _ => w
    | .ok s => ⟨s, w.live.erase b⟩

/-- What callers must respect: requests are non-empty with positive block sizes; a deleted block has positive
size and is a live one, or one that (also partly) lies in free space (the "double free" mistake the code claims
to detect). -/
def Legal (w : World) : Event → Prop
  | .alloc _ sizes => sizes ≠ [] ∧ ∀ z ∈ sizes, 0 < z
  | .free b => 0 < b.2 ∧ (b ∈ w.live ∨ ∃ r ∈ w.st.free, Overlap r b)

/-- Worlds reachable from a freshly configured disk of `cfg ≥ 0` bytes. -/
inductive Reachable (cfg : Int) (autogrow : Bool) : World → Prop where
  | init (s : State) : 0 ≤ cfg → init cfg autogrow = .ok s → Reachable cfg autogrow ⟨s, []⟩
  | step (w : World) (e : Event) :
      Reachable cfg autogrow w → Legal w e → Reachable cfg autogrow (w.step e)

/-- The invariant. -/
structure Inv (w : World) : Prop where
  sep : Sep w.st.free
  bytes : w.st.freeBytes = total w.st.free
  acct : w.st.freeBytes + total w.live = w.st.diskBytes
  disk : 0 ≤ w.st.diskBytes
  cover : ∀ x, (Covers w.st.free x ∨ Covers w.live x) ↔ (0 ≤ x ∧ x < w.st.diskBytes)
  disj : w.live.Pairwise (fun a b => ¬ Overlap a b)
  pos : ∀ l ∈ w.live, 0 < l.2
  apart : ∀ l ∈ w.live, ∀ r ∈ w.st.free, ¬ Overlap r l

theorem overlap_comm {a b : Region} : Overlap a b ↔ Overlap b a := by
  simp only [Overlap]; omega

theorem total_pos {m : List Region} (h : ∀ a ∈ m, 0 < a.2) : 0 ≤ total m := by
  induction m with
  | nil => simp
  | cons a m ih =>
    have := h a (by simp)
    have := ih (fun x hx => h x (by simp [hx]))
    simp; omega

theorem le_total {m : List Region} (h : ∀ a ∈ m, 0 < a.2) {a : Region} (ha : a ∈ m) : a.2 ≤ total m := by
  induction m with
  | nil => simp at ha
  | cons b m ih =>
    have h1 := h b (by simp)
    have h2 := total_pos (fun x hx => h x (List.mem_cons_of_mem _ hx))
    rcases List.mem_cons.1 ha with rfl | ha
    · simp; omega
    · have := ih (fun x hx => h x (by simp [hx])) ha
      simp; omega

theorem mem_bounds {w : World} (h : Inv w) {l : Region} (hl : l ∈ w.live) :
    0 ≤ l.1 ∧ l.1 + l.2 ≤ w.st.diskBytes := by
  have hp := h.pos l hl
  have h1 := (h.cover l.1).1 (.inr ⟨l, hl, by simp [InRegion]; omega⟩)
  have h2 := (h.cover (l.1 + l.2 - 1)).1 (.inr ⟨l, hl, by simp [InRegion]; omega⟩)
  omega

theorem free_bounds {w : World} (h : Inv w) {l : Region} (hl : l ∈ w.st.free) :
    0 ≤ l.1 ∧ l.1 + l.2 ≤ w.st.diskBytes := by
  have hp := h.sep.2 l hl
  have h1 := (h.cover l.1).1 (.inl ⟨l, hl, by simp [InRegion]; omega⟩)
  have h2 := (h.cover (l.1 + l.2 - 1)).1 (.inl ⟨l, hl, by simp [InRegion]; omega⟩)
  omega

theorem inRegion_of_covers_overlap {m : List Region} {b : Region} (hm : ∀ a ∈ m, 0 < a.2) (hb : 0 < b.2) :
    (∀ x, Covers m x → ¬ InRegion b x) ↔ ∀ r ∈ m, ¬ Overlap r b := by
  constructor
  · intro h r hr ho
    have h0 := hm r hr
    simp only [Overlap] at ho
    by_cases hc : r.1 ≤ b.1
    · exact h b.1 ⟨r, hr, by simp [InRegion]; omega⟩ (by simp [InRegion]; omega)
    · exact h r.1 ⟨r, hr, by simp [InRegion]; omega⟩ (by simp [InRegion]; omega)
  · rintro h x ⟨r, hr, hx⟩ hbx
    apply h r hr
    simp only [InRegion] at hx hbx
    simp only [Overlap]; omega

theorem grow_ok {w : World} (h : Inv w) {e : Int} (he : 0 < e) :
    ∃ s', growFile w.st e = .ok s' ∧ Inv ⟨s', w.live⟩ ∧ s'.diskBytes = w.st.diskBytes + e ∧
      s'.freeBytes = w.st.freeBytes + e ∧ s'.autogrow = w.st.autogrow ∧
      ∃ r ∈ s'.free, e ≤ r.2 := by
  have hno : ∀ r ∈ w.st.free, ¬ Overlap r (w.st.diskBytes, e) := by
    intro r hr
    have := free_bounds h hr
    simp only [Overlap]; omega
  obtain ⟨s', h1, h2, h3, h4, h5, h6, h7⟩ := addFree_ok h.sep he hno
  have hdisk := h.disk
  refine ⟨{ s' with diskBytes := w.st.diskBytes + e }, ?_, ?_, rfl, h4, h7, ?_⟩
  · have : ¬ e = 0 := by omega
    simp [growFile, this, h1]
  · refine ⟨h2, ?_, ?_, ?_, ?_, h.disj, h.pos, ?_⟩
    · have := h.bytes; simp only []; omega
    · have := h.acct; simp only []; omega
    · simp only []; omega
    · intro x
      have := h.cover x
      simp only [h3 x, InRegion]
      by_cases hl : Covers w.live x <;> by_cases hf : Covers w.st.free x <;>
        simp only [hl, hf, true_or, or_true, false_or, or_false, true_iff, false_iff] at this ⊢ <;>
        omega
    · intro l hl
      rw [← inRegion_of_covers_overlap h2.2 (h.pos l hl)]
      intro x hx hlx
      have hb := mem_bounds h hl
      rcases (h3 x).1 hx with hx | hx
      · exact (inRegion_of_covers_overlap h.sep.2 (h.pos l hl)).2 (h.apart l hl) x hx hlx
      · simp only [InRegion] at hx hlx; omega
  · -- the region containing the first new byte contains the whole new area
    have hc := (h3 w.st.diskBytes).2 (.inr (by simp [InRegion]; omega))
    obtain ⟨r, hr, hrx⟩ := hc
    refine ⟨r, hr, ?_⟩
    simp only [InRegion] at hrx
    apply Classical.byContradiction
    intro hlt
    -- byte just after r is covered, contradicting separation
    have hy : InRegion (w.st.diskBytes, e) (r.1 + r.2) := by simp only [InRegion]; omega
    obtain ⟨r2, hr2, hx2⟩ := (h3 (r.1 + r.2)).2 (.inr hy)
    simp only [InRegion] at hx2
    have hpw := h2.1
    by_cases hEq : r2 = r
    · subst hEq; omega
    · rw [List.pairwise_iff_getElem] at hpw
      obtain ⟨i, hi, rfl⟩ := List.getElem_of_mem hr
      obtain ⟨j, hj, rfl⟩ := List.getElem_of_mem hr2
      rcases Nat.lt_trichotomy i j with hij | hij | hij
      · have := hpw i j hi hj hij; omega
      · subst hij; simp at hEq
      · have := hpw j i hj hi hij
        have := h2.2 _ hr
        omega

theorem init_inv {cfg : Int} {ag : Bool} {s : State} (hc : 0 ≤ cfg) (h : init cfg ag = .ok s) :
    Inv ⟨s, []⟩ := by
  have h0 : Inv ⟨{ free := [], freeBytes := 0, diskBytes := 0, autogrow := ag }, []⟩ := by
    refine ⟨by simp, by simp, by simp, by simp, ?_, by simp, by simp, by simp⟩
    intro x
    simp only [covers_nil, or_self, false_iff]; omega
  unfold init at h
  by_cases hz : cfg = 0
  · subst hz
    simp [growFile] at h
    subst h; exact h0
  · obtain ⟨s', h1, h2, _⟩ := grow_ok h0 (e := cfg) (by omega)
    rw [h1] at h; cases h; exact h2

theorem total_assign (p : Int) (sizes : List Int) : total (assign p sizes) = sizes.sum := by
  induction sizes generalizing p with
  | nil => simp [assign]
  | cons z zs ih => simp [assign, ih]

theorem assign_sizes (p : Int) (sizes : List Int) : (assign p sizes).map (·.2) = sizes := by
  induction sizes generalizing p with
  | nil => simp [assign]
  | cons z zs ih => simp [assign, ih]

theorem sum_nonneg {zs : List Int} (h : ∀ z ∈ zs, 0 < z) : 0 ≤ zs.sum := by
  induction zs with
  | nil => simp
  | cons z zs ih =>
    have := h z (by simp)
    have := ih (fun x hx => h x (by simp [hx]))
    simp; omega

theorem sum_pos {zs : List Int} (h : ∀ z ∈ zs, 0 < z) (hne : zs ≠ []) : 0 < zs.sum := by
  cases zs with
  | nil => simp at hne
  | cons z zs =>
    have := h z (by simp)
    have := sum_nonneg (fun x hx => h x (List.mem_cons_of_mem _ hx))
    simp; omega

theorem assign_props {sizes : List Int} (p : Int) (h : ∀ z ∈ sizes, 0 < z) :
    (∀ l ∈ assign p sizes, 0 < l.2 ∧ p ≤ l.1 ∧ l.1 + l.2 ≤ p + sizes.sum) ∧
    (assign p sizes).Pairwise (fun a b => ¬ Overlap a b) ∧
    (∀ x, Covers (assign p sizes) x ↔ p ≤ x ∧ x < p + sizes.sum) := by
  induction sizes generalizing p with
  | nil =>
    simp only [assign, covers_nil, List.sum_nil]
    exact ⟨by simp, by simp, fun x => ⟨fun h => h.elim, fun h => by omega⟩⟩
  | cons z zs ih =>
    have hz := h z (by simp)
    have hzs := sum_nonneg (fun x hx => h x (List.mem_cons_of_mem _ hx))
    obtain ⟨h1, h2, h3⟩ := ih (p + z) (fun x hx => h x (by simp [hx]))
    refine ⟨?_, ?_, ?_⟩
    · simp only [assign, List.mem_cons, List.sum_cons]
      rintro l (rfl | hl)
      · simp only []; omega
      · have := h1 l hl; omega
    · simp only [assign, List.pairwise_cons]
      refine ⟨fun l hl => ?_, h2⟩
      have := h1 l hl
      simp only [Overlap]; omega
    · intro x
      simp only [assign, covers_cons, h3, InRegion, List.sum_cons]
      omega

theorem take_inv {w : World} (h : Inv w) {r : Region} (hr : r ∈ w.st.free) {sizes : List Int}
    (hz : ∀ z ∈ sizes, 0 < z) (hfit : sizes.sum ≤ r.2) :
    Inv ⟨(take w.st r sizes).1, w.live ++ (take w.st r sizes).2⟩ := by
  obtain ⟨a, b, hab⟩ := List.append_of_mem hr
  have hsep := h.sep
  rw [hab] at hsep
  obtain ⟨sa, srb, sx⟩ := sep_append.1 hsep
  obtain ⟨rp, sb, hrb⟩ := sep_cons.1 srb
  have hnn := sum_nonneg hz
  obtain ⟨p1, p2, p3⟩ := assign_props r.1 hz
  have hfree : ∃ mid, (take w.st r sizes).1.free = a ++ mid ++ b ∧ Sep (a ++ mid ++ b) ∧
      total mid = r.2 - sizes.sum ∧
      (∀ x, Covers mid x ↔ r.1 + sizes.sum ≤ x ∧ x < r.1 + r.2) := by
    have he : mapErase w.st.free r.1 = a ++ b := by rw [hab]; exact mapErase_mid hsep
    by_cases hlt : r.2 > sizes.sum
    · have e2 : mapSet (a ++ b) (r.1 + sizes.sum) (r.2 - sizes.sum) =
          a ++ (r.1 + sizes.sum, r.2 - sizes.sum) :: b :=
        mapSet_mid (fun x hx => by have := sx x hx r (by simp); have := sa.2 x hx; omega)
          (fun x hx => by have := hrb x hx; omega)
      refine ⟨[(r.1 + sizes.sum, r.2 - sizes.sum)], ?_, ?_, ?_, ?_⟩
      · simp [take, he, hlt, e2]
      · simp only [List.append_assoc, List.singleton_append]
        rw [sep_append, sep_cons]
        refine ⟨sa, ⟨by simp only []; omega, sb, ?_⟩, ?_⟩
        · intro y hy; have := hrb y hy; simp only []; omega
        · intro x hx y hy
          have := sx x hx r (by simp)
          rcases List.mem_cons.1 hy with rfl | hy
          · simp only []; omega
          · have := hrb y hy; omega
      · simp
      · intro x; simp [InRegion]; omega
    · refine ⟨[], ?_, ?_, ?_, ?_⟩
      · simp [take, he, hlt]
      · simp only [List.append_nil]
        rw [sep_append]
        exact ⟨sa, sb, fun x hx y hy => by
          have := sx x hx r (by simp); have := hrb y hy; omega⟩
      · simp; omega
      · intro x; simp; omega
  obtain ⟨mid, hf, hs', ht, hc⟩ := hfree
  have hcov0 : ∀ x, Covers w.st.free x ↔ Covers a x ∨ InRegion r x ∨ Covers b x := by
    intro x; rw [hab]; simp
  have hbk : (take w.st r sizes).2 = assign r.1 sizes := rfl
  have hfb : (take w.st r sizes).1.freeBytes = w.st.freeBytes - sizes.sum := rfl
  have hdb : (take w.st r sizes).1.diskBytes = w.st.diskBytes := rfl
  have hbytes := h.bytes
  have hacct := h.acct
  refine ⟨by simp only [hf]; exact hs', ?_, ?_, h.disk, ?_, ?_, ?_, ?_⟩
  · simp only [hf, hfb]; rw [hab] at hbytes; simp at hbytes ⊢; omega
  · simp only [hfb, hbk, total_append, total_assign, hdb]; omega
  · intro x
    have := h.cover x
    rw [hcov0] at this
    simp only [hf, hbk, covers_append, hdb, p3, hc, ← this, InRegion]
    by_cases h1 : Covers a x <;> by_cases h2 : Covers b x <;> by_cases h3 : Covers w.live x <;>
      simp only [h1, h2, h3, true_or, or_true, false_or, or_false] <;> omega
  · rw [hbk, List.pairwise_append]
    refine ⟨h.disj, p2, fun l hl y hy => ?_⟩
    have h1 := h.apart l hl r hr
    have h2 := p1 y hy
    simp only [Overlap] at h1 ⊢; omega
  · intro l hl
    rw [hbk, List.mem_append] at hl
    rcases hl with hl | hl
    · exact h.pos l hl
    · exact (p1 l hl).1
  · intro l hl
    have hlp : 0 < l.2 := by
      rw [hbk, List.mem_append] at hl
      rcases hl with hl | hl
      · exact h.pos l hl
      · exact (p1 l hl).1
    simp only [hf]
    rw [← inRegion_of_covers_overlap hs'.2 hlp]
    intro x hx hlx
    rw [hbk, List.mem_append] at hl
    rcases hl with hl | hl
    · have := (inRegion_of_covers_overlap h.sep.2 hlp).2 (h.apart l hl) x
      apply this _ hlx
      rw [hcov0]
      simp only [covers_append, hc, InRegion] at hx ⊢
      rcases hx with (hx | hx) | hx
      · exact .inl hx
      · exact .inr (.inl (by omega))
      · exact .inr (.inr hx)
    · have h1 := p1 l hl
      simp only [covers_append, hc] at hx
      simp only [InRegion] at hlx
      rcases hx with (hx | hx) | hx
      · obtain ⟨y, hy, hyx⟩ := hx
        have := sx y hy r (by simp)
        simp only [InRegion] at hyx; omega
      · omega
      · obtain ⟨y, hy, hyx⟩ := hx
        have := hrb y hy
        simp only [InRegion] at hyx; omega

theorem firstFit_some {m : FreeMap} {req : Int} {r : Region} (h : firstFit m req = some r) :
    r ∈ m ∧ req ≤ r.2 := by
  unfold firstFit at h
  exact ⟨List.mem_of_find?_eq_some h, by have := List.find?_some h; simpa using this⟩

theorem firstFit_none {m : FreeMap} {req : Int} (h : firstFit m req = none) :
    ∀ r ∈ m, r.2 < req := by
  unfold firstFit at h
  rw [List.find?_eq_none] at h
  intro r hr; have := h r hr; simp at this; omega

/-- Everything one locked section of `new_blocks` can do. -/
theorem tryAlloc_cases {w : World} (h : Inv w) {bs : Int} {sizes : List Int} (hne : sizes ≠ [])
    (hz : ∀ z ∈ sizes, 0 < z) :
    (tryAlloc w.st bs sizes = .error .outOfMemory ∧ w.st.autogrow = false ∧
        w.st.freeBytes < sizes.sum) ∨
    (∃ s' blocks, tryAlloc w.st bs sizes = .ok (s', .done blocks) ∧ Inv ⟨s', w.live ++ blocks⟩ ∧
        blocks.map (·.2) = sizes ∧ s'.autogrow = w.st.autogrow ∧
        w.st.diskBytes ≤ s'.diskBytes) ∨
    (tryAlloc w.st bs sizes = .ok (w.st, .split) ∧ sizes.length > 1 ∧ sizes.sum ≤ w.st.freeBytes) ∨
    (tryAlloc w.st bs sizes = .error .assertFailed ∧ (∀ r ∈ w.st.free, r.2 < sizes.sum) ∧
        (sizes.sum = bs ∧ sizes.length ≠ 1 ∨
         sizes.sum ≠ bs ∧ (¬ sizes.sum > bs ∨ ¬ sizes.length > 1))) := by
  have hpos := sum_pos hz hne
  unfold tryAlloc
  by_cases hlow : w.st.freeBytes < sizes.sum
  · by_cases hag : w.st.autogrow = true
    · obtain ⟨s1, g1, g2, g3, g4, g5, r, hr, hrl⟩ := grow_ok h hpos
      simp only [hlow, if_true, hag, Bool.not_true, Bool.false_eq_true, if_false, g1]
      have hff : ∃ r', firstFit s1.free sizes.sum = some r' := by
        cases hf : firstFit s1.free sizes.sum with
        | some r' => exact ⟨r', rfl⟩
        | none => have := firstFit_none hf r hr; omega
      obtain ⟨r', hr'⟩ := hff
      simp only [hr']
      have hm := firstFit_some hr'
      right; left
      exact ⟨_, _, rfl, take_inv g2 hm.1 hz hm.2, by simp [take, assign_sizes], by simp [take, g5, hag],
        by simp only [take]; omega⟩
    · left
      simp only [Bool.not_eq_true] at hag
      simp [hlow, hag]
  · simp only [hlow, if_false]
    cases hf : firstFit w.st.free sizes.sum with
    | some r =>
      have hm := firstFit_some hf
      right; left
      exact ⟨_, _, rfl, take_inv h hm.1 hz hm.2, by simp [take, assign_sizes], by simp [take],
        by simp [take]⟩
    | none =>
      have hn := firstFit_none hf
      by_cases hbs : sizes.sum = bs
      · by_cases hlen : sizes.length = 1
        · obtain ⟨s1, g1, g2, g3, g4, g5, r, hr, hrl⟩ := grow_ok h hpos
          have hff : ∃ r', firstFit s1.free sizes.sum = some r' := by
            cases hf : firstFit s1.free sizes.sum with
            | some r' => exact ⟨r', rfl⟩
            | none => have := firstFit_none hf r hr; omega
          obtain ⟨r', hr'⟩ := hff
          have hm := firstFit_some hr'
          right; left
          refine ⟨(take s1 r' sizes).1, (take s1 r' sizes).2, ?_, take_inv g2 hm.1 hz hm.2,
            by simp [take, assign_sizes], by simp [take, g5], by simp only [take]; omega⟩
          rw [← hbs]
          simp only [hlen, g1, hr', if_true, ne_eq, not_true_eq_false, if_false]
        · right; right; right
          simp [hbs, hlen]
          intro a b hab; have := hn _ hab; simpa [hbs] using this
      · simp only [hbs, if_false]
        by_cases hsp : ¬ (sizes.sum > bs) ∨ ¬ (sizes.length > 1)
        · right; right; right
          rw [if_pos hsp]
          exact ⟨rfl, hn, .inr ⟨hbs, hsp⟩⟩
        · right; right; left
          rw [if_neg hsp]
          exact ⟨rfl, by omega, by omega⟩

theorem pairwise_erase {α} [BEq α] [LawfulBEq α] {R : α → α → Prop} {l : List α} {a : α}
    (h : l.Pairwise R) : (l.erase a).Pairwise R :=
  h.sublist List.erase_sublist

theorem total_erase {l : List Region} {b : Region} (h : b ∈ l) : total (l.erase b) + b.2 = total l := by
  induction l with
  | nil => simp at h
  | cons a l ih =>
    by_cases hab : a = b
    · subst hab; simp; omega
    · rw [List.erase_cons_tail (by simpa using hab)]
      have := ih (by simpa [Ne.symm hab] using h)
      simp; omega

/-- Freeing a live block. -/
theorem free_live {w : World} (h : Inv w) {b : Region} (hb : b ∈ w.live) :
    ∃ s', deleteBlock w.st b = .ok s' ∧ Inv ⟨s', w.live.erase b⟩ := by
  have hbp := h.pos b hb
  obtain ⟨s', h1, h2, h3, h4, h5, h6, h7⟩ := addFree_ok (pos := b.1) (size := b.2) h.sep hbp
    (fun r hr => h.apart b hb r hr)
  refine ⟨s', h1, ?_⟩
  have hperm := List.perm_cons_erase hb
  have hdis : ∀ l ∈ w.live.erase b, ¬ Overlap b l := by
    have : (b :: w.live.erase b).Pairwise (fun a c => ¬ Overlap a c) :=
      (hperm.pairwise_iff (fun {x y} hxy => by rwa [overlap_comm])).1 h.disj
    exact fun l hl => (List.pairwise_cons.1 this).1 l hl
  have hcl : ∀ x, Covers w.live x ↔ InRegion b x ∨ Covers (w.live.erase b) x := by
    intro x
    rw [← covers_cons]
    simp only [Covers]
    constructor
    · rintro ⟨r, hr, hx⟩; exact ⟨r, hperm.mem_iff.1 hr, hx⟩
    · rintro ⟨r, hr, hx⟩; exact ⟨r, hperm.mem_iff.2 hr, hx⟩
  have hbytes := h.bytes
  have hacct := h.acct
  have hte := total_erase hb
  refine ⟨h2, ?_, ?_, ?_, ?_, pairwise_erase h.disj, fun l hl => h.pos l (List.mem_of_mem_erase hl), ?_⟩
  · simp only []; omega
  · simp only []; omega
  · simp only [h6]; exact h.disk
  · intro x
    simp only [h3, h6, ← h.cover x, hcl x]
    grind
  · intro l hl
    have hlm := List.mem_of_mem_erase hl
    simp only []
    rw [← inRegion_of_covers_overlap h2.2 (h.pos l hlm)]
    intro x hx hlx
    rcases (h3 x).1 hx with hx | hx
    · exact (inRegion_of_covers_overlap h.sep.2 (h.pos l hlm)).2 (h.apart l hlm) x hx hlx
    · have := hdis l hl
      simp only [Overlap] at this
      simp only [InRegion] at hx hlx; omega

theorem step_inv {w : World} (h : Inv w) {e : Event} (hl : Legal w e) : Inv (w.step e) := by
  cases e with
  | alloc bs sizes =>
    obtain ⟨hne, hz⟩ := hl
    rcases tryAlloc_cases h (bs := bs) hne hz with ⟨h1, _⟩ | ⟨s', bl, h1, h2, _⟩ | ⟨h1, _⟩ | ⟨h1, _⟩ <;>
      simp only [World.step, h1]
    · exact h
    · exact h2
    · exact h
    · exact h
  | free b =>
    obtain ⟨hp, hb⟩ := hl
    by_cases hlive : b ∈ w.live
    · obtain ⟨s', h1, h2⟩ := free_live h hlive
      simp only [World.step, h1]; exact h2
    · rcases hb with hb | hb
      · exact absurd hb hlive
      · have : deleteBlock w.st b = .error .doubleFree := addFree_overlap h.sep hp hb
        simp only [World.step, this]; exact h

theorem reachable_inv {cfg ag w} (h : Reachable cfg ag w) : Inv w := by
  induction h with
  | init s hc hi => exact init_inv hc hi
  | step w e _ hl ih => exact step_inv ih hl

end Stxxl.DiskAlloc
