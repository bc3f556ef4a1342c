import Verif.PPQ.Model
import Verif.MwMerge.Spec
import Mathlib.Tactic.SplitIfs
import Mathlib.Tactic.ByContra
/-! Lists, sorting, winner trees and external arrays: basic facts. -/
namespace Stxxl.PPQ
open MwMerge.Spec
variable {α : Type}

/-- What is assumed about the parameters: the comparison is a strict weak ordering, a block has room for an item, and the multiway merge
merges (C63, C66). -/
structure CfgOk (c : Cfg α) : Prop where
  swo : SWO c.lt
  posB : 0 < c.B
  merges : ∀ (Q : List (List α)) (n : Nat) (out : List α) (Q' : List (List α)), (∀ q ∈ Q, Sorted c.lt q) → n ≤ Q.flatten.length →
    c.mm Q n = some (out, Q') → Merges c.lt false Q n out Q'

/-! ### Winner trees -/

theorem argminFrom_some {lt : α → α → Bool} (hw : SWO lt) : ∀ (l : List (Option α)) (i j : Nat) (x : α),
    argminFrom lt i l = some (j, x) → i ≤ j ∧ l[j - i]? = some (some x) ∧ ∀ y, some y ∈ l → lt y x = false := by
  intro l
  induction l with
  | nil => intro i j x h; simp [argminFrom] at h
  | cons a l ih =>
    intro i j x h
    cases a with
    | none =>
      obtain ⟨h1, h2, h3⟩ := ih (i + 1) j x h
      refine ⟨by omega, ?_, ?_⟩
      · rw [show j - i = (j - (i + 1)) + 1 from by omega, List.getElem?_cons_succ]; exact h2
      · intro y hy; simp at hy; exact h3 y hy
    | some a =>
      rw [argminFrom] at h
      cases hr : argminFrom lt (i + 1) l with
      | none =>
        rw [hr] at h
        simp only [Option.some.injEq, Prod.mk.injEq] at h
        obtain ⟨rfl, rfl⟩ := h
        refine ⟨Nat.le_refl _, by simp, ?_⟩
        intro y hy
        simp only [List.mem_cons, Option.some.injEq] at hy
        rcases hy with rfl | hy
        · exact hw.irrefl _
        · exact absurd hr (by
            clear ih
            induction l generalizing i with
            | nil => simp at hy
            | cons b l ih2 =>
              cases b with
              | none => simp at hy; rw [argminFrom] at hr; exact fun _ => ih2 (i + 1) hr hy hr
              | some b =>
                rw [argminFrom] at hr
                cases h5 : argminFrom lt (i + 1 + 1) l with
                | none => rw [h5] at hr; simp at hr
                | some p => rw [h5] at hr; obtain ⟨p1, p2⟩ := p; simp only at hr; split at hr <;> simp at hr)
      | some p =>
        obtain ⟨k, b⟩ := p
        rw [hr] at h
        simp only at h
        obtain ⟨h1, h2, h3⟩ := ih (i + 1) k b hr
        split at h <;> rename_i hlt
        · simp only [Option.some.injEq, Prod.mk.injEq] at h
          obtain ⟨rfl, rfl⟩ := h
          refine ⟨Nat.le_refl _, by simp, ?_⟩
          intro y hy
          simp only [List.mem_cons, Option.some.injEq] at hy
          rcases hy with rfl | hy
          · exact hw.irrefl _
          · exact hw.negtrans _ _ _ (h3 y hy) (hw.asymm _ _ hlt)
        · simp only [Option.some.injEq, Prod.mk.injEq] at h
          obtain ⟨rfl, rfl⟩ := h
          refine ⟨by omega, ?_, ?_⟩
          · rw [show k - i = (k - (i + 1)) + 1 from by omega, List.getElem?_cons_succ]; exact h2
          · intro y hy
            simp only [List.mem_cons, Option.some.injEq] at hy
            rcases hy with rfl | hy
            · simpa using hlt
            · exact h3 y hy

theorem argminFrom_none {lt : α → α → Bool} : ∀ (l : List (Option α)) (i : Nat), argminFrom lt i l = none → ∀ y ∈ l, y = none := by
  intro l
  induction l with
  | nil => intro i _ y hy; simp at hy
  | cons a l ih =>
    intro i h y hy
    cases a with
    | none =>
      simp only [List.mem_cons] at hy
      rcases hy with rfl | hy
      · rfl
      · exact ih (i + 1) h y hy
    | some a =>
      rw [argminFrom] at h
      cases hr : argminFrom lt (i + 1) l with
      | none => rw [hr] at h; simp at h
      | some p => rw [hr] at h; obtain ⟨k, b⟩ := p; simp only at h; split at h <;> simp at h

theorem argmin_some {lt : α → α → Bool} (hw : SWO lt) {l : List (Option α)} {j : Nat} {x : α} (h : argmin lt l = some (j, x)) :
    l[j]? = some (some x) ∧ ∀ y, some y ∈ l → lt y x = false := by
  obtain ⟨_, h2, h3⟩ := argminFrom_some hw l 0 j x h
  exact ⟨by simpa using h2, h3⟩

theorem argmin_none {lt : α → α → Bool} {l : List (Option α)} (h : argmin lt l = none) : ∀ y ∈ l, y = none := argminFrom_none l 0 h

theorem argmin_isSome {lt : α → α → Bool} {l : List (Option α)} {y : α} (h : some y ∈ l) : ∃ j x, argmin lt l = some (j, x) := by
  cases ha : argmin lt l with
  | none => exact absurd (argmin_none ha _ h) (by simp)
  | some p => exact ⟨p.1, p.2, rfl⟩

/-! ### Sorted lists -/

theorem sorted_nil {lt : α → α → Bool} : Sorted lt ([] : List α) := List.Pairwise.nil

theorem sorted_cons {lt : α → α → Bool} {x : α} {l : List α} : Sorted lt (x :: l) ↔ (∀ y ∈ l, lt y x = false) ∧ Sorted lt l :=
  List.pairwise_cons

theorem sorted_append {lt : α → α → Bool} {l r : List α} :
    Sorted lt (l ++ r) ↔ Sorted lt l ∧ Sorted lt r ∧ ∀ x ∈ l, ∀ y ∈ r, lt y x = false := List.pairwise_append

theorem sorted_drop {lt : α → α → Bool} {l : List α} (h : Sorted lt l) (n : Nat) : Sorted lt (l.drop n) :=
  List.Pairwise.sublist (List.drop_sublist n l) h

theorem sorted_take {lt : α → α → Bool} {l : List α} (h : Sorted lt l) (n : Nat) : Sorted lt (l.take n) :=
  List.Pairwise.sublist (List.take_sublist n l) h

theorem insertSorted_perm (lt : α → α → Bool) (x : α) : ∀ l : List α, List.Perm (insertSorted lt x l) (x :: l) := by
  intro l
  induction l with
  | nil => exact List.Perm.refl _
  | cons y l ih =>
    rw [insertSorted]
    split
    · exact List.Perm.refl _
    · exact (ih.cons y).trans (List.Perm.swap x y l)

theorem insertSorted_sorted {lt : α → α → Bool} (hw : SWO lt) (x : α) : ∀ l : List α, Sorted lt l → Sorted lt (insertSorted lt x l) := by
  intro l
  induction l with
  | nil => intro _; exact List.pairwise_singleton _ _
  | cons y l ih =>
    intro h
    rw [sorted_cons] at h
    rw [insertSorted]
    split <;> rename_i hxy
    · refine sorted_cons.2 ⟨?_, sorted_cons.2 h⟩
      intro z hz
      simp only [List.mem_cons] at hz
      rcases hz with rfl | hz
      · exact hw.asymm _ _ hxy
      · exact hw.negtrans _ _ _ (h.1 z hz) (hw.asymm _ _ hxy)
    · refine sorted_cons.2 ⟨?_, ih h.2⟩
      intro z hz
      have := (insertSorted_perm lt x l).mem_iff.1 hz
      simp only [List.mem_cons] at this
      rcases this with rfl | hz
      · simpa using hxy
      · exact h.1 z hz

theorem insertSorted_head (lt : α → α → Bool) (x : α) (l : List α) :
    (insertSorted lt x l).head? = if (l.head?.map fun y => lt x y).getD true then some x else l.head? := by
  cases l with
  | nil => simp [insertSorted]
  | cons y l => rw [insertSorted]; by_cases h : lt x y = true <;> simp [h]

theorem foldl_insert_perm (lt : α → α → Bool) : ∀ (l acc : List α),
    List.Perm (l.foldl (fun acc x => insertSorted lt x acc) acc) (acc ++ l) := by
  intro l
  induction l with
  | nil => intro acc; simp
  | cons x l ih =>
    intro acc
    refine (ih _).trans ?_
    refine ((insertSorted_perm lt x acc).append_right l).trans ?_
    simpa using (List.perm_middle (a := x) (l₁ := acc) (l₂ := l)).symm

theorem foldl_insert_sorted {lt : α → α → Bool} (hw : SWO lt) : ∀ (l acc : List α), Sorted lt acc →
    Sorted lt (l.foldl (fun acc x => insertSorted lt x acc) acc) := by
  intro l
  induction l with
  | nil => intro acc h; exact h
  | cons x l ih => intro acc h; exact ih _ (insertSorted_sorted hw x acc h)

theorem sortList_perm (lt : α → α → Bool) (l : List α) : List.Perm (sortList lt l) l := by
  simpa [sortList] using foldl_insert_perm lt l []

theorem sortList_sorted {lt : α → α → Bool} (hw : SWO lt) (l : List α) : Sorted lt (sortList lt l) :=
  foldl_insert_sorted hw l [] sorted_nil

theorem total_flatten (Q : List (List α)) : total Q = Q.flatten.length := by simp [total, List.length_flatten]

/-- The part of a sorted list that is not below `v` is not before `v`. -/
theorem dropWhile_ge {lt : α → α → Bool} (hw : SWO lt) (v : α) : ∀ l : List α, Sorted lt l →
    ∀ y ∈ l.dropWhile (fun x => lt x v), lt y v = false := by
  intro l
  induction l with
  | nil => intro _ y hy; simp at hy
  | cons a l ih =>
    intro h y hy
    rw [sorted_cons] at h
    rw [List.dropWhile_cons] at hy
    split at hy <;> rename_i hav
    · exact ih h.2 y hy
    · simp only [List.mem_cons] at hy
      rcases hy with rfl | hy
      · simpa using hav
      · exact hw.negtrans _ _ _ (h.1 y hy) (by simpa using hav)

theorem takeWhile_lt {p : α → Bool} : ∀ (l : List α), ∀ y ∈ l.takeWhile p, p y = true := by
  intro l
  induction l with
  | nil => intro y hy; simp at hy
  | cons a l ih =>
    intro y hy
    rw [List.takeWhile_cons] at hy
    split at hy <;> rename_i h
    · simp only [List.mem_cons] at hy
      rcases hy with rfl | hy
      · exact h
      · exact ih y hy
    · simp at hy

/-! ### External arrays -/

structure EAok (c : Cfg α) (e : EA α) : Prop where
  sorted : Sorted c.lt e.data
  le : e.idx ≤ e.endIdx
  len : e.endIdx ≤ e.data.length
  bnd : e.endIdx = e.data.length ∨ c.B ∣ e.endIdx

theorem blocksOf_mul {B k : Nat} (hB : 0 < B) : EA.blocksOf B (k * B) = k := by
  unfold EA.blocksOf
  rw [show k * B + B - 1 = (B - 1) + B * k from by rw [Nat.mul_comm]; omega, Nat.add_mul_div_left _ _ hB,
    Nat.div_eq_of_lt (by omega)]; omega

theorem le_blocksOf {B : Nat} (hB : 0 < B) (n : Nat) : n ≤ EA.blocksOf B n * B := by
  unfold EA.blocksOf
  have h1 := Nat.div_add_mod (n + B - 1) B
  have h2 := Nat.mod_lt (n + B - 1) hB
  rw [Nat.mul_comm] at h1
  omega

theorem blocksOf_mono {B m n : Nat} (h : m ≤ n) : EA.blocksOf B m ≤ EA.blocksOf B n := Nat.div_le_div_right (by omega)

/-- The minimum of the next block is the first item that is not loaded. -/
theorem nextMin_eq {c : Cfg α} (hB : 0 < c.B) {e : EA α} (h : EAok c e) : e.nextMin c.B = e.data[e.endIdx]? := by
  unfold EA.nextMin EA.endBlk EA.nb
  rcases h.bnd with hb | ⟨k, hk⟩
  · rw [hb, if_neg (by omega), List.getElem?_eq_none (Nat.le_refl _)]
  · rw [hk, Nat.mul_comm, blocksOf_mul hB]
    split <;> rename_i hlt
    · rfl
    · have h1 := le_blocksOf hB e.data.length
      have : EA.blocksOf c.B e.data.length * c.B ≤ k * c.B := Nat.mul_le_mul_right _ (by omega)
      rw [List.getElem?_eq_none (by omega)]

theorem rest_split {c : Cfg α} {e : EA α} (h : EAok c e) : e.rest = e.loaded ++ e.data.drop e.endIdx := by
  unfold EA.rest EA.loaded
  conv => lhs; rw [← List.take_append_drop e.endIdx e.data]
  rw [List.drop_append_of_le_length (by rw [List.length_take]; have := h.le; have := h.len; omega)]

theorem loaded_sorted {c : Cfg α} {e : EA α} (h : EAok c e) : Sorted c.lt e.loaded := sorted_drop (sorted_take h.sorted _) _

theorem rest_sorted {c : Cfg α} {e : EA α} (h : EAok c e) : Sorted c.lt e.rest := sorted_drop h.sorted _

theorem rest_length (e : EA α) : e.rest.length = e.data.length - e.idx := List.length_drop

theorem isEmpty_iff (e : EA α) : e.isEmpty = true ↔ e.rest = [] := by
  rw [← List.length_eq_zero_iff, rest_length]; simp [EA.isEmpty]

/-- `v` is a limit below which everything in the array is loaded. -/
def LimitOk (c : Cfg α) (v : Option α) (e : EA α) : Prop :=
  match v with
  | none => e.nextMin c.B = none
  | some v => ∀ u, e.nextMin c.B = some u → c.lt u v = false

/-- `v` is not after `l`. -/
def AtLeast (c : Cfg α) (v : Option α) (y : α) : Prop :=
  match v with
  | none => False
  | some v => c.lt y v = false

/-- What is below the limit is a prefix of the array, and what is left is not below the limit. -/
theorem below_split {c : Cfg α} (hc : CfgOk c) {v : Option α} {e : EA α} (h : EAok c e) (hl : LimitOk c v e) :
    ∃ r, e.rest = below c.lt v e.loaded ++ r ∧ ∀ y ∈ r, AtLeast c v y := by
  rw [rest_split h]
  cases v with
  | none =>
    have : e.data.drop e.endIdx = [] := by
      have := nextMin_eq hc.posB h
      rw [LimitOk] at hl
      rw [hl] at this
      exact List.drop_eq_nil_iff.2 (List.getElem?_eq_none_iff.1 this.symm)
    rw [this]
    exact ⟨[], rfl, by simp⟩
  | some v =>
    refine ⟨e.loaded.dropWhile (fun x => c.lt x v) ++ e.data.drop e.endIdx, ?_, ?_⟩
    · rw [below, ← List.append_assoc, List.takeWhile_append_dropWhile]
    · intro y hy
      rw [List.mem_append] at hy
      rcases hy with hy | hy
      · exact dropWhile_ge hc.swo v _ (loaded_sorted h) y hy
      · have hs := sorted_drop h.sorted e.endIdx
        cases hd : e.data.drop e.endIdx with
        | nil => rw [hd] at hy; simp at hy
        | cons a l =>
          have ha : e.nextMin c.B = some a := by
            rw [nextMin_eq hc.posB h, ← List.head?_drop, hd]; rfl
          rw [hd] at hs hy
          rw [sorted_cons] at hs
          have h1 := hl a ha
          simp only [List.mem_cons] at hy
          rcases hy with rfl | hy
          · exact h1
          · exact hc.swo.negtrans _ _ _ (hs.1 y hy) h1

theorem below_split_list {c : Cfg α} (hc : CfgOk c) {v : Option α} {l : List α} (h : Sorted c.lt l) :
    ∃ r, l = below c.lt v l ++ r ∧ ∀ y ∈ r, AtLeast c v y := by
  cases v with
  | none => exact ⟨[], by simp [below], by simp⟩
  | some v => exact ⟨l.dropWhile (fun x => c.lt x v), by rw [below, List.takeWhile_append_dropWhile], dropWhile_ge hc.swo v l h⟩

theorem below_lt {lt : α → α → Bool} {v : α} {l : List α} : ∀ y ∈ below lt (some v) l, lt y v = true := by
  intro y hy
  exact takeWhile_lt (p := fun x => lt x v) l y hy

theorem below_sorted {lt : α → α → Bool} {v : Option α} {l : List α} (h : Sorted lt l) : Sorted lt (below lt v l) := by
  cases v with
  | none => exact h
  | some v => exact List.Pairwise.sublist (List.takeWhile_sublist _) h

theorem remove_rest (B : Nat) (e : EA α) (n : Nat) : (e.remove B n).1.rest = e.rest.drop n := by
  unfold EA.remove
  split <;> rename_i h
  · rw [h]; rfl
  · show List.drop (e.idx + n) e.data = _
    rw [EA.rest, List.drop_drop]

theorem remove_ok {c : Cfg α} {e : EA α} (h : EAok c e) {n : Nat} (hn : n ≤ e.loaded.length) : EAok c (e.remove c.B n).1 := by
  unfold EA.remove
  have hl : e.loaded.length = e.endIdx - e.idx := by
    rw [EA.loaded, List.length_drop, List.length_take, Nat.min_eq_left h.len]
  split
  · exact h
  · refine ⟨h.sorted, ?_, h.len, h.bnd⟩
    show e.idx + n ≤ e.endIdx
    have := h.le; omega

theorem remove_nextMin (B : Nat) (e : EA α) (n : Nat) : (e.remove B n).1.nextMin B = e.nextMin B := by
  unfold EA.remove
  split
  · rfl
  · rfl

theorem load_ok {c : Cfg α} {e : EA α} (h : EAok c e) {k : Nat} (hk : e.endIdx ≤ min e.data.length (k * c.B)) :
    EAok c { e with endIdx := min e.data.length (k * c.B) } := by
  refine ⟨h.sorted, ?_, Nat.min_le_left _ _, ?_⟩
  · exact Nat.le_trans h.le hk
  · by_cases hb : e.data.length ≤ k * c.B
    · left; exact Nat.min_eq_left hb
    · right
      show c.B ∣ min e.data.length (k * c.B)
      rw [Nat.min_eq_right (by omega)]
      exact Nat.dvd_mul_left _ _

theorem endIdx_le {c : Cfg α} (hB : 0 < c.B) {e : EA α} (h : EAok c e) (k : Nat) :
    e.endIdx ≤ min e.data.length ((e.endBlk c.B + k) * c.B) := by
  have h1 := le_blocksOf hB e.endIdx
  have h2 : EA.blocksOf c.B e.endIdx * c.B ≤ (EA.blocksOf c.B e.endIdx + k) * c.B := Nat.mul_le_mul_right _ (by omega)
  have := h.len
  unfold EA.endBlk
  exact Nat.le_min.2 ⟨this, by omega⟩

theorem waitNext_ok {c : Cfg α} (hB : 0 < c.B) {e : EA α} (h : EAok c e) (k : Nat) : EAok c (e.waitNext c.B k) :=
  load_ok h (endIdx_le hB h _)

end Stxxl.PPQ
