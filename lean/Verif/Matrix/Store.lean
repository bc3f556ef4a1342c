import Verif.Matrix.Block
import Mathlib.Data.List.Nodup
import Mathlib.Tactic.ByContra

/-!
# Allocation and release of blocks
-/

namespace Stxxl.Mat

variable {R : Type} [CommRing R]

/-- The block is allocated. -/
def St.live (s : St R) (i : Nat) : Prop := i < s.next ∧ i ∉ s.free

/-- Free and unknown blocks are uninitialized. -/
structure St.Wf (s : St R) : Prop where
  nodup : s.free.Nodup
  lt : ∀ i ∈ s.free, i < s.next
  none : ∀ i, ¬ s.live i → s.blk i = none

theorem alloc_spec {s : St R} (h : s.Wf) :
    s.alloc.2.Wf ∧ ¬ s.live s.alloc.1 ∧ (∀ j, s.alloc.2.live j ↔ s.live j ∨ j = s.alloc.1) ∧ s.alloc.2.blk = s.blk := by
  rcases hf : s.free with _ | ⟨i, rest⟩
  · have e : s.alloc = (s.next, { s with next := s.next + 1 }) := by simp [St.alloc, hf]
    rw [e]
    refine ⟨⟨by simp [hf], by simp [hf], ?_⟩, ?_, ?_, rfl⟩
    · intro j hj
      apply h.none
      intro hl; apply hj
      simp only [St.live, hf] at hl ⊢
      exact ⟨by omega, by simp⟩
    · simp [St.live]
    · intro j
      simp only [St.live, hf, List.not_mem_nil, not_false_eq_true, and_true]; omega
  · have e : s.alloc = (i, { s with free := rest }) := by simp [St.alloc, hf]
    have hn := h.nodup; rw [hf] at hn
    have hlt := h.lt; rw [hf] at hlt
    rw [e]
    refine ⟨⟨(List.nodup_cons.1 hn).2, fun j hj => hlt j (List.mem_cons_of_mem _ hj), ?_⟩, ?_, ?_, rfl⟩
    · intro j hj
      apply h.none
      intro hl; apply hj
      simp only [St.live, hf] at hl ⊢
      exact ⟨hl.1, fun hm => hl.2 (List.mem_cons_of_mem _ hm)⟩
    · simp [St.live, hf]
    · intro j
      simp only [St.live, hf, List.mem_cons, not_or]
      constructor
      · rintro ⟨h1, h2⟩
        by_cases hji : j = i
        · exact Or.inr hji
        · exact Or.inl ⟨h1, hji, h2⟩
      · rintro (⟨h1, _, h3⟩ | rfl)
        · exact ⟨h1, h3⟩
        · exact ⟨hlt _ (by simp), (List.nodup_cons.1 hn).1⟩

theorem release_spec {s : St R} (h : s.Wf) {i : Nat} (hi : s.live i) :
    (s.release i).Wf ∧ (∀ j, (s.release i).live j ↔ s.live j ∧ j ≠ i) ∧
      ∀ j, (s.release i).blk j = if j = i then none else s.blk j := by
  have hmem : ∀ j, j ∈ (s.release i).free ↔ j = i ∨ j ∈ s.free := by
    intro j; simp [St.release, List.mem_orderedInsert]
  have hlive : ∀ j, (s.release i).live j ↔ s.live j ∧ j ≠ i := by
    intro j
    have hnx : (s.release i).next = s.next := rfl
    simp only [St.live, hmem, hnx, not_or]; tauto
  have hblk : ∀ j, (s.release i).blk j = if j = i then none else s.blk j := fun j => rfl
  refine ⟨⟨?_, ?_, ?_⟩, hlive, hblk⟩
  · have hp : (s.release i).free.Perm (i :: s.free) := List.perm_orderedInsert _ _ _
    exact hp.nodup_iff.2 (List.nodup_cons.2 ⟨hi.2, h.nodup⟩)
  · intro j hj
    rcases (hmem j).1 hj with rfl | hj
    · exact hi.1
    · exact h.lt j hj
  · intro j hj
    rw [hblk]
    by_cases hji : j = i
    · simp [hji]
    · rw [if_neg hji]; apply h.none; intro hl; exact hj ((hlive j).2 ⟨hl, hji⟩)

theorem releases_spec (l : List Nat) : ∀ {s : St R}, s.Wf → (∀ i ∈ l, s.live i) → l.Nodup →
    (l.foldl St.release s).Wf ∧ (∀ j, (l.foldl St.release s).live j ↔ s.live j ∧ j ∉ l) ∧
      ∀ j, j ∉ l → (l.foldl St.release s).blk j = s.blk j := by
  induction l with
  | nil => intro s h _ _; exact ⟨h, by simp, by simp⟩
  | cons i l ih =>
    intro s h hl hn
    obtain ⟨w1, l1, b1⟩ := release_spec h (hl i (by simp))
    have hn' := List.nodup_cons.1 hn
    obtain ⟨w2, l2, b2⟩ := ih w1 (fun j hj => (l1 j).2 ⟨hl j (List.mem_cons_of_mem _ hj), fun e => hn'.1 (e ▸ hj)⟩) hn'.2
    refine ⟨w2, ?_, ?_⟩
    · intro j; rw [List.foldl_cons, l2, l1, List.mem_cons]; tauto
    · intro j hj
      rw [List.mem_cons, not_or] at hj
      rw [List.foldl_cons, b2 j hj.2, b1, if_neg hj.1]

theorem destroyAll_eq (ms : List SBM) : ∀ s : St R, destroyAll s ms = (ms.flatMap SBM.own).foldl St.release s := by
  induction ms with
  | nil => intro s; rfl
  | cons m ms ih =>
    intro s
    rw [List.flatMap_cons, List.foldl_append, ← ih]; rfl

/-- The blocks newly allocated by the loops of the constructors. -/
def freshOf (l : List (Option Nat)) (ids : List Nat) : List Nat :=
  ((l.zip ids).filter fun p => p.1.isNone).map Prod.snd

theorem allocCells_spec (l : List (Option Nat)) : ∀ {s : St R}, s.Wf →
    (allocCells l s).2.Wf ∧ (allocCells l s).2.blk = s.blk ∧ (allocCells l s).1.length = l.length ∧
    (∀ k i : Nat, l[k]? = some (some i) → (allocCells l s).1[k]? = some i) ∧
    (∀ j, (allocCells l s).2.live j ↔ s.live j ∨ j ∈ freshOf l (allocCells l s).1) ∧
    (freshOf l (allocCells l s).1).Nodup ∧ ∀ j ∈ freshOf l (allocCells l s).1, ¬ s.live j := by
  induction l with
  | nil => intro s h; exact ⟨h, rfl, rfl, by simp, by simp [allocCells, freshOf], by simp [freshOf], by simp [freshOf]⟩
  | cons o l ih =>
    intro s h
    cases o with
    | some i =>
      obtain ⟨a1, a2, a3, a4, a5, a6, a7⟩ := ih h
      have e : freshOf (some i :: l) (allocCells (some i :: l) s).1 = freshOf l (allocCells l s).1 := by
        simp [allocCells, freshOf]
      rw [e]
      refine ⟨a1, a2, by simp [allocCells, a3], ?_, a5, a6, a7⟩
      intro k j hk
      cases k with
      | zero => simpa [allocCells] using hk
      | succ k => simpa [allocCells] using a4 k j (by simpa using hk)
    | none =>
      obtain ⟨b1, b2, b3, b4⟩ := alloc_spec h
      obtain ⟨a1, a2, a3, a4, a5, a6, a7⟩ := ih b1
      have e : freshOf (none :: l) (allocCells (none :: l) s).1 = s.alloc.1 :: freshOf l (allocCells l s.alloc.2).1 := by
        simp [allocCells, freshOf]
      rw [e]
      refine ⟨a1, a2.trans b4, by simp [allocCells, a3], ?_, ?_, ?_, ?_⟩
      · intro k j hk
        cases k with
        | zero => simp at hk
        | succ k => simpa [allocCells] using a4 k j (by simpa using hk)
      · intro j
        have := a5 j
        have e2 : (allocCells (none :: l) s).2 = (allocCells l s.alloc.2).2 := rfl
        rw [e2, this, b3, List.mem_cons]; tauto
      · refine List.nodup_cons.2 ⟨fun hm => a7 _ hm ((b3 _).2 (Or.inr rfl)), a6⟩
      · intro j hj
        rcases List.mem_cons.1 hj with rfl | hj
        · exact b2
        · intro hl; exact a7 j hj ((b3 j).2 (Or.inl hl))

/-! ### Positions -/

theorem pos_div {w r c : Nat} (hc : c < w) : (r * w + c) / w = r := by
  rw [Nat.add_comm, Nat.add_mul_div_right _ _ (by omega), Nat.div_eq_of_lt hc]; omega

theorem pos_mod {w r c : Nat} (hc : c < w) : (r * w + c) % w = c := by
  rw [Nat.add_comm, Nat.add_mul_mod_self_right, Nat.mod_eq_of_lt hc]

theorem pos_lt {h w r c : Nat} (hr : r < h) (hc : c < w) : r * w + c < h * w := by
  have : (r + 1) * w ≤ h * w := Nat.mul_le_mul_right _ hr
  rw [Nat.add_mul] at this; omega

theorem pos_eta {h w k : Nat} (hk : k < h * w) : k / w < h ∧ k % w < w ∧ k / w * w + k % w = k := by
  have hw : 0 < w := by
    rcases Nat.eq_zero_or_pos w with rfl | h
    · simp at hk
    · exact h
  exact ⟨(Nat.div_lt_iff_lt_mul hw).2 hk, Nat.mod_lt _ hw, Nat.div_add_mod' k w⟩

theorem mem_own {m : SBM} {i : Nat} :
    i ∈ m.own ↔ ∃ r c, r < m.h ∧ c < m.w ∧ ¬ (r < m.hs ∧ c < m.ws) ∧ m.block r c = i := by
  simp only [SBM.own, List.mem_map, List.mem_filter, List.mem_range, decide_eq_true_eq]
  constructor
  · rintro ⟨k, ⟨hk, hn⟩, rfl⟩
    obtain ⟨h1, h2, h3⟩ := pos_eta hk
    exact ⟨k / m.w, k % m.w, h1, h2, hn, by simp [SBM.block, h3]⟩
  · rintro ⟨r, c, hr, hc, hn, rfl⟩
    exact ⟨r * m.w + c, ⟨pos_lt hr hc, by rw [pos_div hc, pos_mod hc]; exact hn⟩, rfl⟩

/-- Different positions have different blocks. -/
def Inj (m : SBM) : Prop :=
  ∀ r c r' c', r < m.h → c < m.w → r' < m.h → c' < m.w → m.block r c = m.block r' c' → r = r' ∧ c = c'

/-- All blocks of the matrix are allocated. -/
def Owned (s : St R) (m : SBM) : Prop := ∀ r c, r < m.h → c < m.w → s.live (m.block r c)

/-- What a constructor does: new blocks for the positions outside the corner `hs × ws`. -/
structure Added (s s' : St R) (q : SBM) : Prop where
  wf : s'.Wf
  blk : s'.blk = s.blk
  live : ∀ j, s'.live j ↔ s.live j ∨ j ∈ q.own
  nodup : q.own.Nodup
  fresh : ∀ j ∈ q.own, ¬ s.live j
  injOwn : ∀ r c r' c', r < q.h → c < q.w → r' < q.h → c' < q.w → ¬ (r < q.hs ∧ c < q.ws) → ¬ (r' < q.hs ∧ c' < q.ws) →
    q.block r c = q.block r' c' → r = r' ∧ c = c'
  len : q.blocks.length = q.h * q.w

theorem getD_of_getElem? {l : List Nat} {k i : Nat} (h : l[k]? = some i) : l.getD k 0 = i := by
  simp [List.getD, h]

theorem freshOf_own (l : List (Option Nat)) (ids : List Nat) (q : SBM) (hl : l.length = q.h * q.w) (hb : q.blocks = ids)
    (hlen : ids.length = l.length)
    (hn : ∀ k, k < q.h * q.w → (l[k]? = some none ↔ ¬ (k / q.w < q.hs ∧ k % q.w < q.ws))) : freshOf l ids = q.own := by
  unfold freshOf SBM.own
  have e : l.zip ids = (List.range (q.h * q.w)).map fun k => ((l.getD k none), ids.getD k 0) := by
    apply List.ext_getElem
    · simp [hl, hlen]
    · intro k h1 h2
      have hk : k < q.h * q.w := by simpa using h2
      have a1 : k < l.length := by omega
      have a2 : k < ids.length := by omega
      simp [List.getD_eq_getElem?_getD, a1, a2]
  rw [e, List.filter_map, List.map_map, hb]
  have : (List.range (q.h * q.w)).filter ((fun p : Option Nat × Nat => p.1.isNone) ∘ fun k => ((l.getD k none), ids.getD k 0)) =
      (List.range (q.h * q.w)).filter fun k => decide (¬ (k / q.w < q.hs ∧ k % q.w < q.ws)) := by
    apply List.filter_congr
    intro k hk
    have hk' : k < q.h * q.w := by simpa using hk
    have hkl : k < l.length := by omega
    have := hn k hk'
    simp only [Function.comp, List.getD_eq_getElem?_getD]
    rw [Bool.eq_iff_iff, decide_eq_true_eq, ← this]
    cases hx : l[k] <;> simp [List.getElem?_eq_getElem hkl, hx]
  rw [this]
  rfl

theorem nodup_map_inj {l : List Nat} {f : Nat → Nat} (h : (l.map f).Nodup) {a b : Nat} (ha : a ∈ l) (hb : b ∈ l) (e : f a = f b) : a = b :=
  List.inj_on_of_nodup_map h ha hb e

theorem injOwn_of_nodup {q : SBM} (h : q.own.Nodup) : ∀ r c r' c', r < q.h → c < q.w → r' < q.h → c' < q.w → ¬ (r < q.hs ∧ c < q.ws) →
    ¬ (r' < q.hs ∧ c' < q.ws) → q.block r c = q.block r' c' → r = r' ∧ c = c' := by
  intro r c r' c' hr hc hr' hc' n1 n2 e
  have := nodup_map_inj h (a := r * q.w + c) (b := r' * q.w + c')
    (List.mem_filter.2 ⟨List.mem_range.2 (pos_lt hr hc), by rw [pos_div hc, pos_mod hc]; exact decide_eq_true n1⟩)
    (List.mem_filter.2 ⟨List.mem_range.2 (pos_lt hr' hc'), by rw [pos_div hc', pos_mod hc']; exact decide_eq_true n2⟩) e
  constructor
  · have h1 := congrArg (· / q.w) this; rwa [pos_div hc, pos_div hc'] at h1
  · have h1 := congrArg (· % q.w) this; rwa [pos_mod hc, pos_mod hc'] at h1

theorem newSbm_added {s : St R} (hs : s.Wf) (h w : Nat) (tr : Bool) : Added s (newSbm s h w tr).2 (newSbm s h w tr).1 := by
  obtain ⟨a1, a2, a3, a4, a5, a6, a7⟩ := allocCells_spec (List.replicate (h * w) none) hs
  have e : freshOf (List.replicate (h * w) none) (allocCells (List.replicate (h * w) none) s).1 = (newSbm s h w tr).1.own := by
    apply freshOf_own
    · simp [newSbm]
    · rfl
    · exact a3
    · intro k hk
      have hk' : k < h * w := hk
      simp [newSbm, hk']
  rw [e] at a5 a6 a7
  exact ⟨a1, a2, a5, a6, a7, injOwn_of_nodup a6, by simpa [newSbm] using a3⟩

theorem sub_added {s : St R} (hs : s.Wf) (m : SBM) (h w fr fc : Nat) : Added s (sub s m h w fr fc).2 (sub s m h w fr fc).1 := by
  obtain ⟨a1, a2, a3, a4, a5, a6, a7⟩ := allocCells_spec (subCells m h w fr fc) hs
  have hlen : (subCells m h w fr fc).length = h * w := by simp [subCells]
  have e : freshOf (subCells m h w fr fc) (allocCells (subCells m h w fr fc) s).1 = (sub s m h w fr fc).1.own := by
    apply freshOf_own
    · simpa [sub] using hlen
    · rfl
    · exact a3
    · intro k hk
      have hk' : k < h * w := hk
      have e1 : (subCells m h w fr fc)[k]? = some (if k / w < min (m.h - fr) h ∧ k % w < min (m.w - fc) w then
          some (m.block (k / w + fr) (k % w + fc)) else none) := by
        simp [subCells, hk']
      rw [e1]
      simp [sub]
  rw [e] at a5 a6 a7
  exact ⟨a1, a2, a5, a6, a7, injOwn_of_nodup a6, by simpa [sub, hlen] using a3⟩

theorem sub_block {s : St R} (hs : s.Wf) (m : SBM) (h w fr fc : Nat) {r c : Nat} (hr : r < min (m.h - fr) h) (hc : c < min (m.w - fc) w) :
    (sub s m h w fr fc).1.block r c = m.block (r + fr) (c + fc) := by
  obtain ⟨a1, a2, a3, a4, a5, a6, a7⟩ := allocCells_spec (subCells m h w fr fc) hs
  have hcw : c < w := by omega
  have hrh : r < h := by omega
  have hk : r * w + c < h * w := pos_lt hrh hcw
  have := a4 (r * w + c) (m.block (r + fr) (c + fc)) (by
    simp only [subCells, List.getElem?_map, List.getElem?_range hk, Option.map_some, pos_div hcw, pos_mod hcw]
    rw [if_pos ⟨hr, hc⟩])
  exact getD_of_getElem? this

end Stxxl.Mat
