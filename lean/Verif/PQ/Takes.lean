import Verif.PQ.Spec

/-! # Merging: taking a best element again and again from a family of sorted sequences -/

namespace Stxxl.PQ
open Stxxl.LT (upd)

variable {α : Type} {C : Cmp α}

/-- Sorted by non-increasing priority. -/
def Desc (C : Cmp α) (l : List α) : Prop := l.Pairwise fun a b => C.less a b = false

/-- Every element of `xs` may come before every element of `ys`. -/
def GeAll (C : Cmp α) (xs ys : List α) : Prop := ∀ x ∈ xs, ∀ y ∈ ys, C.less x y = false

theorem upd_same {β : Type} (f : Nat → β) (i : Nat) (x : β) : upd f i x i = x := by simp [upd]

theorem upd_ne {β : Type} (f : Nat → β) {i j : Nat} (x : β) (h : j ≠ i) : upd f i x j = f j := by simp [upd, h]

theorem upd_self {β : Type} (f : Nat → β) (i : Nat) : upd f i (f i) = f := by
  funext j; unfold upd; split <;> simp_all

theorem flatMap_congr' {S : List Nat} {e e' : Nat → List α} (h : ∀ j ∈ S, e j = e' j) : S.flatMap e = S.flatMap e' := by
  induction S with
  | nil => rfl
  | cons a S ih =>
    simp only [List.flatMap_cons]
    rw [h a (by simp), ih (fun j hj => h j (by simp [hj]))]

theorem flatMap_upd_perm {S : List Nat} (hS : S.Nodup) {e : Nat → List α} {i : Nat} (hi : i ∈ S) (l : List α) :
    (l ++ S.flatMap e).Perm (e i ++ S.flatMap (upd e i l)) := by
  induction S with
  | nil => cases hi
  | cons a S ih =>
    obtain ⟨h1, h2⟩ := List.nodup_cons.1 hS
    simp only [List.flatMap_cons]
    by_cases hai : a = i
    · subst hai
      rw [upd_same, flatMap_congr' (e := upd e a l) (e' := e) (fun j hj => upd_ne _ _ (by rintro rfl; exact h1 hj))]
      exact List.perm_append_comm_assoc _ _ _
    · have hi' : i ∈ S := by simpa [Ne.symm hai] using hi
      rw [upd_ne _ _ hai]
      have := ih h2 hi'
      refine (List.perm_append_comm_assoc l (e a) _).trans ?_
      refine ((List.Perm.append_left (e a) this)).trans ?_
      exact List.perm_append_comm_assoc _ _ _

/-- `xs` can be obtained by repeatedly taking a best head of the sequences `e i`, `i ∈ S`, leaving `e'`. -/
inductive Takes (C : Cmp α) (S : List Nat) : (Nat → List α) → List α → (Nat → List α) → Prop
  | nil (e) : Takes C S e [] e
  | cons {e xs e'} (i : Nat) (x : α) (t : List α) : i ∈ S → e i = x :: t →
      (∀ j ∈ S, ∀ y ∈ (e j).head?, C.less x y = false) → Takes C S (upd e i t) xs e' → Takes C S e (x :: xs) e'

theorem Desc.head (hC : C.Ok) {l : List α} (h : Desc C l) {x y z : α} (hy : y ∈ l.head?) (hz : z ∈ l)
    (hx : C.less x y = false) : C.less x z = false := by
  cases l with
  | nil => cases hz
  | cons a t =>
    have : a = y := by simpa using hy
    subst this
    rcases List.mem_cons.1 hz with rfl | hz
    · exact hx
    · exact hC.negtrans _ _ _ hx ((List.pairwise_cons.1 h).1 z hz)

structure TakesSpec (C : Cmp α) (S : List Nat) (e : Nat → List α) (xs : List α) (e' : Nat → List α) : Prop where
  desc : Desc C xs
  perm : (S.flatMap e).Perm (xs ++ S.flatMap e')
  ge : GeAll C xs (S.flatMap e')
  suff : ∀ i, (e' i) <:+ (e i)
  frame : ∀ i, i ∉ S → e' i = e i

theorem Takes.spec (hC : C.Ok) {S : List Nat} (hS : S.Nodup) {e e' : Nat → List α} {xs : List α}
    (hd : ∀ i ∈ S, Desc C (e i)) (h : Takes C S e xs e') : TakesSpec C S e xs e' := by
  induction h with
  | nil e => exact ⟨List.Pairwise.nil, by simp, (by intro x hx; cases hx), fun i => List.suffix_refl _, fun _ _ => rfl⟩
  | @cons e xs e' i x t hi hx hb _ ih =>
    have hd' : ∀ j ∈ S, Desc C (upd e i t j) := by
      intro j hj
      by_cases hji : j = i
      · subst hji; rw [upd_same]; have := hd j hj; rw [hx] at this; exact (List.pairwise_cons.1 this).2
      · rw [upd_ne _ _ hji]; exact hd j hj
    have I := ih hd'
    have hall : ∀ z ∈ S.flatMap e, C.less x z = false := by
      intro z hz
      obtain ⟨j, hj, hzj⟩ := List.mem_flatMap.1 hz
      have hne : e j ≠ [] := List.ne_nil_of_mem hzj
      obtain ⟨y, hy⟩ : ∃ y, y ∈ (e j).head? := by
        cases h : e j with
        | nil => exact absurd h hne
        | cons a b => exact ⟨a, by simp⟩
      exact (hd j hj).head hC hy hzj (hb j hj y hy)
    have hperm : (S.flatMap e).Perm (x :: S.flatMap (upd e i t)) := by
      have := flatMap_upd_perm hS hi (e := e) t
      rw [hx] at this
      have h2 : (t ++ S.flatMap e).Perm (t ++ (x :: S.flatMap (upd e i t))) := this.trans (by
        simp only [List.cons_append]; exact List.perm_middle.symm)
      exact (List.perm_append_left_iff t).1 h2
    have hp2 := hperm.trans (List.Perm.cons x I.perm)
    refine ⟨?_, hp2, ?_, ?_, ?_⟩
    · refine List.pairwise_cons.2 ⟨fun y hy => hall y (hp2.mem_iff.2 (by simp [hy])), I.desc⟩
    · intro z hz y hy
      rcases List.mem_cons.1 hz with rfl | hz
      · exact hall y (hp2.mem_iff.2 (by simp only [List.cons_append, List.mem_cons, List.mem_append]; exact Or.inr (Or.inr hy)))
      · exact I.ge z hz y hy
    · intro j
      refine (I.suff j).trans ?_
      by_cases hji : j = i
      · subst hji; rw [upd_same, hx]; exact List.suffix_cons _ _
      · rw [upd_ne _ _ hji]; exact List.suffix_refl _
    · intro j hj
      rw [I.frame j hj, upd_ne _ _ (by rintro rfl; exact hj hi)]

theorem Takes.trans {S : List Nat} {e e' e'' : Nat → List α} {xs ys : List α} (h : Takes C S e xs e')
    (h2 : Takes C S e' ys e'') : Takes C S e (xs ++ ys) e'' := by
  induction h with
  | nil e => exact h2
  | @cons e xs e' i x t hi hx hb _ ih => exact Takes.cons i x t hi hx hb (ih h2)

/-! ## Slots -/

/-- All elements that the sequence still delivers. -/
def Slot.elems (s : Slot α) : List α := s.cur ++ s.bids.flatten

/-- Well-formed sequence: only the end has an empty current block; sorted; only real elements. -/
structure Slot.Ok (C : Cmp α) (s : Slot α) : Prop where
  last : s.cur = [] → s.bids = []
  blocks : ∀ b ∈ s.bids, b ≠ []
  desc : Desc C s.elems
  real : ∀ x ∈ s.elems, C.Real x

theorem Slot.Ok.deref {s : Slot α} (h : s.Ok C) : s.deref C = s.elems.headD C.minv := by
  unfold Slot.deref Slot.elems
  cases hc : s.cur with
  | nil => rw [h.last hc]; rfl
  | cons a t => rfl

theorem Slot.Ok.elems_nil {s : Slot α} (h : s.Ok C) : s.elems = [] ↔ s.cur = [] := by
  unfold Slot.elems
  constructor
  · intro h2; exact (List.append_eq_nil_iff.1 h2).1
  · intro h2; rw [h2, h.last h2]; rfl

theorem Slot.Ok.isEmpty {s : Slot α} (hC : C.Ok) (h : s.Ok C) : s.isEmpty C = true ↔ s.elems = [] := by
  unfold Slot.isEmpty Cmp.isSentinel
  rw [h.deref]
  cases he : s.elems with
  | nil => simp [hC.irrefl]
  | cons a t =>
    have := h.real a (by rw [he]; simp)
    unfold Cmp.Real at this
    simp [this]

theorem Slot.Ok.next {s : Slot α} (h : s.Ok C) {x : α} {t : List α} (he : s.elems = x :: t) :
    ∃ s', s.next = some s' ∧ s'.elems = t ∧ s'.Ok C ∧ s'.alloc = s.alloc := by
  obtain ⟨cur, bids, al⟩ := s
  have hd := h.desc
  have hr := h.real
  rw [he] at hd hr
  have hd' : Desc C t := (List.pairwise_cons.1 hd).2
  have hr' : ∀ y ∈ t, C.Real y := fun y hy => hr y (by simp [hy])
  cases cur with
  | nil =>
    have : bids = [] := h.last rfl
    subst this
    simp [Slot.elems] at he
  | cons a c =>
    have he' : a :: (c ++ bids.flatten) = x :: t := he
    obtain ⟨rfl, ht⟩ := List.cons.inj he'
    cases c with
    | cons b c' =>
      refine ⟨⟨b :: c', bids, al⟩, rfl, ht, ⟨(fun hh => by cases hh), h.blocks, ?_, ?_⟩, rfl⟩
      · show Desc C (b :: c' ++ bids.flatten); rw [ht]; exact hd'
      · show ∀ y ∈ b :: c' ++ bids.flatten, C.Real y; rw [ht]; exact hr'
    | nil =>
      cases bids with
      | nil =>
        have : t = [] := by simpa using ht.symm
        subst this
        exact ⟨⟨[], [], al⟩, rfl, rfl, ⟨fun _ => rfl, by simp, List.Pairwise.nil, by simp [Slot.elems]⟩, rfl⟩
      | cons b bs =>
        have ht2 : b ++ bs.flatten = t := by simpa using ht
        refine ⟨⟨b, bs, al⟩, rfl, ht2, ⟨?_, ?_, ?_, ?_⟩, rfl⟩
        · intro hb; exact absurd hb (h.blocks b (by simp))
        · intro b' hb'; exact h.blocks b' (by simp [hb'])
        · show Desc C (b ++ bs.flatten); rw [ht2]; exact hd'
        · show ∀ y ∈ b ++ bs.flatten, C.Real y; rw [ht2]; exact hr'

/-- The sequences of a family of slots. -/
def seqs (sl : Nat → Slot α) (i : Nat) : List α := (sl i).elems

theorem keys_eq {sl : Nat → Slot α} (h : ∀ i, (sl i).Ok C) (i : Nat) : keys C sl i = (seqs sl i).headD C.minv := (h i).deref

/-- `v i` is a best one. -/
def Wins (C : Cmp α) (S : List Nat) (v : Nat → α) (i : Nat) : Prop := ∀ j ∈ S, C.less (v i) (v j) = false

theorem take_ok (hC : C.Ok) {sl : Nat → Slot α} (h : ∀ i, (sl i).Ok C) {S : List Nat} {i : Nat} (hi : i ∈ S)
    (hw : Wins C S (keys C sl) i) (hne : S.flatMap (seqs sl) ≠ []) :
    ∃ x t sl', take1 C sl i = some (x, sl') ∧ seqs sl i = x :: t ∧ seqs sl' = upd (seqs sl) i t ∧
      (∀ j, (sl' j).Ok C) ∧ (∀ j, (sl' j).alloc = (sl j).alloc) ∧ (∀ j, j ≠ i → sl' j = sl j) ∧
      (∀ j ∈ S, ∀ y ∈ (seqs sl j).head?, C.less x y = false) := by
  have hi0 : seqs sl i ≠ [] := by
    intro he
    apply hne
    rw [List.flatMap_eq_nil_iff]
    intro j hj
    cases hej : seqs sl j with
    | nil => rfl
    | cons a t =>
      have h1 := hw j hj
      rw [keys_eq h, keys_eq h, he, hej] at h1
      have h2 := (h j).real a (by show a ∈ seqs sl j; rw [hej]; simp)
      have h3 : C.less C.minv a = false := h1
      unfold Cmp.Real at h2
      rw [h2] at h3; cases h3
  obtain ⟨x, t, hx⟩ := List.exists_cons_of_ne_nil hi0
  obtain ⟨s', h1, h2, h3, h4⟩ := (h i).next hx
  refine ⟨x, t, upd sl i s', ?_, hx, ?_, ?_, ?_, ?_, ?_⟩
  · unfold take1; rw [h1]; simp only
    rw [(h i).deref]
    show some (((seqs sl i).headD C.minv), _) = _
    rw [hx]; rfl
  · funext j; unfold seqs; unfold upd; split
    · exact h2
    · rfl
  · intro j; unfold upd; split
    · exact h3
    · exact h j
  · intro j; unfold upd; split
    · next hh => subst hh; exact h4
    · rfl
  · intro j hj; exact upd_ne _ _ hj
  · intro j hj y hy
    have h1 := hw j hj
    rw [keys_eq h, keys_eq h, hx] at h1
    cases hej : seqs sl j with
    | nil => rw [hej] at hy; cases hy
    | cons a b => rw [hej] at hy h1; have : a = y := by simpa using hy
                  subst this; exact h1

/-- What a flat merge of `n` elements from the slots `S` achieves. -/
structure Merged (C : Cmp α) (S : List Nat) (n : Nat) (sl : Nat → Slot α) (xs : List α) (sl' : Nat → Slot α) : Prop where
  takes : Takes C S (seqs sl) xs (seqs sl')
  len : xs.length = n
  ok : ∀ j, (sl' j).Ok C
  alloc : ∀ j, (sl' j).alloc = (sl j).alloc
  frame : ∀ j, j ∉ S → sl' j = sl j

theorem Merged.zero {S : List Nat} {sl : Nat → Slot α} (h : ∀ i, (sl i).Ok C) : Merged C S 0 sl [] sl :=
  ⟨Takes.nil _, rfl, h, fun _ => rfl, fun _ _ => rfl⟩

/-- One step of a merge. -/
theorem Merged.step (hC : C.Ok) {sl : Nat → Slot α} (h : ∀ i, (sl i).Ok C) {S : List Nat} (hS : S.Nodup) {i n : Nat}
    (hi : i ∈ S) (hw : Wins C S (keys C sl) i) (hn : n + 1 ≤ (S.flatMap (seqs sl)).length) :
    ∃ x sl1, take1 C sl i = some (x, sl1) ∧ (∀ j, (sl1 j).Ok C) ∧ n ≤ (S.flatMap (seqs sl1)).length ∧
      (∀ j, j ≠ i → sl1 j = sl j) ∧ seqs sl i = x :: seqs sl1 i ∧
      ∀ xs sl', Merged C S n sl1 xs sl' → Merged C S (n + 1) sl (x :: xs) sl' := by
  obtain ⟨x, t, sl1, h1, h2, h3, h4, h5, h6, h7⟩ := take_ok hC h hi hw (by intro hh; rw [hh] at hn; simp at hn)
  have hp := flatMap_upd_perm hS hi (e := seqs sl) t
  have hl := hp.length_eq
  rw [h2, ← h3] at hl
  simp only [List.length_append, List.length_cons] at hl
  refine ⟨x, sl1, h1, h4, by omega, h6, by rw [h2, h3, upd_same], ?_⟩
  intro xs sl' M
  refine ⟨Takes.cons i x t hi h2 h7 (by rw [← h3]; exact M.takes), by simp [M.len], M.ok, ?_, ?_⟩
  · intro j; rw [M.alloc, h5]
  · intro j hj; rw [M.frame j hj, h6 j (by rintro rfl; exact hj hi)]

theorem merge2_ok (hC : C.Ok) : ∀ (n : Nat) {sl : Nat → Slot α}, (∀ i, (sl i).Ok C) →
    n ≤ ([0, 1].flatMap (seqs sl)).length → ∃ xs sl', merge2 C n sl = some (xs, sl') ∧ Merged C [0, 1] n sl xs sl' := by
  intro n
  induction n with
  | zero => intro sl h _; exact ⟨[], sl, rfl, Merged.zero h⟩
  | succ n ih =>
    intro sl h hn
    have hw : (if C.less (keys C sl 0) (keys C sl 1) then 1 else 0) ∈ [0, 1] ∧
        Wins C [0, 1] (keys C sl) (if C.less (keys C sl 0) (keys C sl 1) then 1 else 0) := by
      split
      · next hc =>
        refine ⟨by simp, ?_⟩
        intro j hj
        rcases List.mem_cons.1 hj with rfl | hj
        · exact hC.asymm _ _ hc
        · rw [List.mem_singleton.1 hj]; exact hC.irrefl _
      · next hc =>
        refine ⟨by simp, ?_⟩
        intro j hj
        rcases List.mem_cons.1 hj with rfl | hj
        · exact hC.irrefl _
        · rw [List.mem_singleton.1 hj]; simpa using hc
    obtain ⟨x, sl1, h1, h2, h3, _, _, h4⟩ := Merged.step hC h (by decide) hw.1 hw.2 hn
    obtain ⟨xs, sl', h5, h6⟩ := ih h2 h3
    refine ⟨x :: xs, sl', ?_, h4 _ _ h6⟩
    unfold merge2; rw [h1]; simp only; rw [h5]

theorem copyN_ok (hC : C.Ok) : ∀ (n : Nat) {sl : Nat → Slot α}, (∀ i, (sl i).Ok C) →
    n ≤ ([0].flatMap (seqs sl)).length → ∃ xs sl', copyN C n sl = some (xs, sl') ∧ Merged C [0] n sl xs sl' := by
  intro n
  induction n with
  | zero => intro sl h _; exact ⟨[], sl, rfl, Merged.zero h⟩
  | succ n ih =>
    intro sl h hn
    obtain ⟨x, sl1, h1, h2, h3, _, _, h4⟩ := Merged.step hC h (S := [0]) (i := 0) (by decide) (by simp)
      (by intro j hj; rw [List.mem_singleton.1 hj]; exact hC.irrefl _) hn
    obtain ⟨xs, sl', h5, h6⟩ := ih h2 h3
    refine ⟨x :: xs, sl', ?_, h4 _ _ h6⟩
    unfold copyN; rw [h1]; simp only; rw [h5]

/-! ### Three and four sources: the label is a non-increasing order of the keys -/

/-- After the best source advanced, all others keep their keys. -/
theorem keys_frame {sl sl1 : Nat → Slot α} {i j : Nat} (h : ∀ j, j ≠ i → sl1 j = sl j) (hj : j ≠ i) :
    keys C sl1 j = keys C sl j := by unfold keys; rw [h j hj]

def Ord3 (C : Cmp α) (v : Nat → α) : Nat × Nat × Nat → Prop
  | (a, b, c) => C.less (v a) (v b) = false ∧ C.less (v b) (v c) = false ∧ [a, b, c].Perm [0, 1, 2]

def Ord4 (C : Cmp α) (v : Nat → α) : Nat × Nat × Nat × Nat → Prop
  | (a, b, c, d) => C.less (v a) (v b) = false ∧ C.less (v b) (v c) = false ∧ C.less (v c) (v d) = false ∧
      [a, b, c, d].Perm [0, 1, 2, 3]

theorem start3_ord (hC : C.Ok) (v : Nat → α) : Ord3 C v (start3 C v) := by
  unfold start3
  have key : ∀ x y, C.less x y = true → C.less y x = false := hC.asymm
  split
  · split
    · exact ⟨by simp_all, by simp_all, by decide⟩
    · split
      · exact ⟨by simp_all, by simp_all, by decide⟩
      · exact ⟨by simp_all, by simp_all, by decide⟩
  · split
    · split
      · exact ⟨by simp_all, by simp_all, by decide⟩
      · exact ⟨by simp_all, by simp_all, by decide⟩
    · exact ⟨by simp_all, by simp_all, by decide⟩

theorem goto3_ord (hC : C.Ok) (v : Nat → α) {a b c : Nat} (h : C.less (v b) (v c) = false)
    (hp : [a, b, c].Perm [0, 1, 2]) : Ord3 C v (goto3 C v a b c) := by
  unfold goto3
  have key : ∀ x y, C.less x y = true → C.less y x = false := hC.asymm
  split
  · exact ⟨by simp_all, by simp_all, hp⟩
  · split
    · exact ⟨by simp_all, by simp_all, (List.Perm.swap a b [c]).trans hp⟩
    · refine ⟨by simp_all, by simp_all, ?_⟩
      exact ((List.Perm.cons b (List.Perm.swap a c [])).trans (List.Perm.swap a b [c])).trans hp

theorem goto4_ord (hC : C.Ok) (v : Nat → α) {a b c d : Nat} (h : C.less (v b) (v c) = false)
    (h' : C.less (v c) (v d) = false)
    (hp : [a, b, c, d].Perm [0, 1, 2, 3]) : Ord4 C v (goto4 C v a b c d) := by
  unfold goto4
  have key : ∀ x y, C.less x y = true → C.less y x = false := hC.asymm
  split
  · split
    · exact ⟨by simp_all, by simp_all, by simp_all, hp⟩
    · exact ⟨by simp_all, by simp_all, by simp_all, (List.Perm.swap a b [c, d]).trans hp⟩
  · split
    · refine ⟨by simp_all, by simp_all, by simp_all, ?_⟩
      exact ((List.Perm.cons b (List.Perm.swap a c [d])).trans (List.Perm.swap a b [c, d])).trans hp
    · refine ⟨by simp_all, by simp_all, by simp_all, ?_⟩
      refine List.Perm.trans ?_ hp
      refine ((List.Perm.cons b (List.Perm.cons c (List.Perm.swap a d []))).trans ?_)
      exact (List.Perm.cons b (List.Perm.swap a c [d])).trans (List.Perm.swap a b [c, d])

theorem exists4 (hC : C.Ok) (v : Nat → α) : ∃ l ∈ labels4, test4 C v l = true := by
  have key : ∀ x y, C.less x y = true → C.less y x = false := hC.asymm
  have ho := start3_ord hC v
  have hcase : start3 C v ∈ [(0, 1, 2), (2, 0, 1), (0, 2, 1), (1, 0, 2), (1, 2, 0), (2, 1, 0)] := by
    unfold start3; repeat' split
    all_goals decide
  generalize start3 C v = l at ho hcase
  obtain ⟨a, b, c⟩ := l
  obtain ⟨h1, h2, _⟩ := ho
  have hmem : (3, a, b, c) ∈ labels4 ∧ (a, 3, b, c) ∈ labels4 ∧ (a, b, 3, c) ∈ labels4 ∧ (a, b, c, 3) ∈ labels4 := by
    simp only [List.mem_cons, List.not_mem_nil, or_false, Prod.mk.injEq] at hcase
    rcases hcase with ⟨rfl, rfl, rfl⟩ | ⟨rfl, rfl, rfl⟩ | ⟨rfl, rfl, rfl⟩ | ⟨rfl, rfl, rfl⟩ | ⟨rfl, rfl, rfl⟩ | ⟨rfl, rfl, rfl⟩ <;>
      decide
  cases ha : C.less (v 3) (v a) with
  | false => exact ⟨_, hmem.1, by simp [test4, ha, h1, h2]⟩
  | true =>
    cases hb : C.less (v 3) (v b) with
    | false => exact ⟨_, hmem.2.1, by simp [test4, key _ _ ha, hb, h2]⟩
    | true =>
      cases hc : C.less (v 3) (v c) with
      | false => exact ⟨_, hmem.2.2.1, by simp [test4, key _ _ hb, hc, h1]⟩
      | true => exact ⟨_, hmem.2.2.2, by simp [test4, key _ _ hc, h1, h2]⟩

theorem start4_ord (hC : C.Ok) (v : Nat → α) : Ord4 C v (start4 C v) := by
  unfold start4
  obtain ⟨l, hl, ht⟩ := exists4 hC v
  cases hf : labels4.find? (test4 C v) with
  | none => exact absurd ht (by simpa using List.find?_eq_none.1 hf l hl)
  | some r =>
    have h1 := List.find?_some hf
    have h2 := List.mem_of_find?_eq_some hf
    have h3 : ∀ r ∈ labels4, [r.1, r.2.1, r.2.2.1, r.2.2.2].Perm [0, 1, 2, 3] := by decide
    obtain ⟨a, b, c, d⟩ := r
    simp only [test4, Bool.and_eq_true, Bool.not_eq_true'] at h1
    exact ⟨h1.1.1, h1.1.2, h1.2, h3 _ h2⟩

theorem merge3Loop_ok (hC : C.Ok) : ∀ (n : Nat) (l : Nat × Nat × Nat) {sl : Nat → Slot α}, (∀ i, (sl i).Ok C) →
    Ord3 C (keys C sl) l → n ≤ ([0, 1, 2].flatMap (seqs sl)).length →
    ∃ xs sl', merge3Loop C n l sl = some (xs, sl') ∧ Merged C [0, 1, 2] n sl xs sl' := by
  intro n
  induction n with
  | zero => intro l sl h _ _; exact ⟨[], sl, rfl, Merged.zero h⟩
  | succ n ih =>
    rintro ⟨a, b, c⟩ sl h ⟨o1, o2, op⟩ hn
    have hmem : ∀ j, j ∈ [0, 1, 2] ↔ j = a ∨ j = b ∨ j = c := by
      intro j; rw [← op.mem_iff]; simp
    have hnd : [a, b, c].Nodup := op.nodup_iff.2 (by decide)
    simp only [List.nodup_cons, List.mem_cons, List.not_mem_nil, or_false, not_or] at hnd
    have hw : Wins C [0, 1, 2] (keys C sl) a := by
      intro j hj
      rcases (hmem j).1 hj with rfl | rfl | rfl
      · exact hC.irrefl _
      · exact o1
      · exact hC.negtrans _ _ _ o1 o2
    obtain ⟨x, sl1, h1, h2, h3, h4, _, h5⟩ := Merged.step hC h (by decide) ((hmem a).2 (Or.inl rfl)) hw hn
    obtain ⟨xs, sl', h6, h7⟩ := ih (goto3 C (keys C sl1) a b c) h2
      (goto3_ord hC _ (by rw [keys_frame h4 (Ne.symm hnd.1.1), keys_frame h4 (Ne.symm hnd.1.2)]; exact o2) op) h3
    refine ⟨x :: xs, sl', ?_, h5 _ _ h7⟩
    unfold merge3Loop; rw [h1]; simp only; rw [h6]

theorem merge4Loop_ok (hC : C.Ok) : ∀ (n : Nat) (l : Nat × Nat × Nat × Nat) {sl : Nat → Slot α}, (∀ i, (sl i).Ok C) →
    Ord4 C (keys C sl) l → n ≤ ([0, 1, 2, 3].flatMap (seqs sl)).length →
    ∃ xs sl', merge4Loop C n l sl = some (xs, sl') ∧ Merged C [0, 1, 2, 3] n sl xs sl' := by
  intro n
  induction n with
  | zero => intro l sl h _ _; exact ⟨[], sl, rfl, Merged.zero h⟩
  | succ n ih =>
    rintro ⟨a, b, c, d⟩ sl h ⟨o1, o2, o3, op⟩ hn
    have hmem : ∀ j, j ∈ [0, 1, 2, 3] ↔ j = a ∨ j = b ∨ j = c ∨ j = d := by
      intro j; rw [← op.mem_iff]; simp
    have hnd : [a, b, c, d].Nodup := op.nodup_iff.2 (by decide)
    simp only [List.nodup_cons, List.mem_cons, List.not_mem_nil, or_false, not_or] at hnd
    have hw : Wins C [0, 1, 2, 3] (keys C sl) a := by
      intro j hj
      rcases (hmem j).1 hj with rfl | rfl | rfl | rfl
      · exact hC.irrefl _
      · exact o1
      · exact hC.negtrans _ _ _ o1 o2
      · exact hC.negtrans _ _ _ (hC.negtrans _ _ _ o1 o2) o3
    obtain ⟨x, sl1, h1, h2, h3, h4, _, h5⟩ := Merged.step hC h (by decide) ((hmem a).2 (Or.inl rfl)) hw hn
    have hb := keys_frame (C := C) h4 (Ne.symm hnd.1.1)
    have hc := keys_frame (C := C) h4 (Ne.symm hnd.1.2.1)
    have hd := keys_frame (C := C) h4 (Ne.symm hnd.1.2.2)
    obtain ⟨xs, sl', h6, h7⟩ := ih (goto4 C (keys C sl1) a b c d) h2
      (goto4_ord hC _ (by rw [hb, hc]; exact o2) (by rw [hc, hd]; exact o3) op) h3
    refine ⟨x :: xs, sl', ?_, h5 _ _ h7⟩
    unfold merge4Loop; rw [h1]; simp only; rw [h6]

theorem merge3_ok (hC : C.Ok) (n : Nat) {sl : Nat → Slot α} (h : ∀ i, (sl i).Ok C)
    (hn : n ≤ ([0, 1, 2].flatMap (seqs sl)).length) :
    ∃ xs sl', merge3 C n sl = some (xs, sl') ∧ Merged C [0, 1, 2] n sl xs sl' :=
  merge3Loop_ok hC n _ h (start3_ord hC _) hn

theorem merge4_ok (hC : C.Ok) (n : Nat) {sl : Nat → Slot α} (h : ∀ i, (sl i).Ok C)
    (hn : n ≤ ([0, 1, 2, 3].flatMap (seqs sl)).length) :
    ∃ xs sl', merge4 C n sl = some (xs, sl') ∧ Merged C [0, 1, 2, 3] n sl xs sl' :=
  merge4Loop_ok hC n _ h (start4_ord hC _) hn

end Stxxl.PQ
