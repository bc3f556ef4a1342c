import Verif.MwMerge.Unguarded
/-! `multiway_merge_bubble`. -/
namespace Stxxl.MwMerge
open Spec
variable {α : Type} {lt : α → α → Bool}

theorem beforeSWO (hw : SWO lt) (stable : Bool) : SWO (before lt stable) := by
  cases stable
  · exact ⟨fun a b h => hw.asymm _ _ h, fun a b c h1 h2 => hw.negtrans _ _ _ h1 h2⟩
  · refine ⟨?_, ?_⟩
    · intro a b h
      simp only [before, if_true, Bool.or_eq_true, Bool.and_eq_true, Bool.not_eq_true', decide_eq_true_eq, Bool.or_eq_false_iff,
        Bool.and_eq_false_iff, Bool.not_eq_false', decide_eq_false_iff_not] at h ⊢
      rcases h with h | ⟨h1, h2⟩
      · exact ⟨hw.asymm _ _ h, .inl h⟩
      · exact ⟨h1, .inr (by omega)⟩
    · intro a b c h1 h2
      simp only [before, if_true, Bool.or_eq_false_iff, Bool.and_eq_false_iff, Bool.not_eq_false', decide_eq_false_iff_not] at h1 h2 ⊢
      refine ⟨hw.negtrans _ _ _ h1.1 h2.1, ?_⟩
      rcases h1.2 with h | h
      · exact .inl (hw.lt_of_le_of_lt h2.1 h)
      · rcases h2.2 with h' | h'
        · exact .inl (hw.lt_of_lt_of_le h' h1.1)
        · exact .inr (by omega)

theorem pass_spec (hw : SWO lt) (st : Bool) : ∀ (l : List (α × Nat)), List.Perm (pass lt st l) l ∧
    ∀ h t, pass lt st l = h :: t → ∀ z ∈ t, before lt st z h = false := by
  have W := beforeSWO hw st
  intro l
  induction l with
  | nil => exact ⟨.refl _, fun h t e => by simp [pass] at e⟩
  | cons x l ih =>
    unfold pass
    cases hp : pass lt st l with
    | nil =>
      rw [hp] at ih
      have : l = [] := by simpa using ih.1
      subst this
      exact ⟨.refl _, fun h t e => by simp at e; obtain ⟨_, rfl⟩ := e; simp⟩
    | cons y l' =>
      rw [hp] at ih
      have hy := ih.2 y l' rfl
      dsimp only
      by_cases hb : before lt st y x = true
      · rw [if_pos hb]
        refine ⟨(List.Perm.swap x y l').trans (ih.1.cons x), ?_⟩
        intro h t e z hz
        injection e with e1 e2
        subst e1; subst e2
        rcases List.mem_cons.1 hz with rfl | hz
        · exact W.asymm _ _ hb
        · exact hy z hz
      · rw [if_neg hb]
        refine ⟨ih.1.cons x, ?_⟩
        intro h t e z hz
        injection e with e1 e2
        subst e1; subst e2
        have hb' : before lt st y x = false := by simpa using hb
        rcases List.mem_cons.1 hz with rfl | hz
        · exact hb'
        · exact W.negtrans _ _ _ (hy z hz) hb'

/-- The entries are in order. -/
def EntSorted (lt : α → α → Bool) (st : Bool) (e : List (α × Nat)) : Prop := e.Pairwise fun p q => before lt st q p = false

theorem bubbleSort_spec (hw : SWO lt) (st : Bool) : ∀ (f : Nat) (l : List (α × Nat)), l.length ≤ f →
    List.Perm (bubbleSort lt st f l) l ∧ EntSorted lt st (bubbleSort lt st f l) := by
  intro f
  induction f with
  | zero =>
    intro l hl
    have : l = [] := by simpa using hl
    subst this
    exact ⟨.refl _, List.Pairwise.nil⟩
  | succ f ih =>
    intro l hl
    obtain ⟨p1, p2⟩ := pass_spec hw st l
    unfold bubbleSort
    cases hp : pass lt st l with
    | nil =>
      rw [hp] at p1
      exact ⟨p1, List.Pairwise.nil⟩
    | cons y l' =>
      rw [hp] at p1
      have hlen := p1.length_eq
      obtain ⟨i1, i2⟩ := ih l' (by simp at hlen; omega)
      refine ⟨(i1.cons y).trans p1, List.pairwise_cons.2 ⟨?_, i2⟩⟩
      intro z hz
      exact p2 y l' hp z (i1.mem_iff.1 hz)

theorem sink_spec (hw : SWO lt) (st : Bool) : ∀ (e : List (α × Nat)), EntSorted lt st e.tail →
    List.Perm (sink lt st e) e ∧ EntSorted lt st (sink lt st e) := by
  have W := beforeSWO hw st
  have key : ∀ (l : List (α × Nat)) (x : α × Nat), EntSorted lt st l →
      List.Perm (sinkFrom lt st x l) (x :: l) ∧ EntSorted lt st (sinkFrom lt st x l) := by
    intro l
    induction l with
    | nil => intro x _; exact ⟨.refl _, List.pairwise_singleton ..⟩
    | cons y l ih =>
      intro x hs
      obtain ⟨h1, h2⟩ := List.pairwise_cons.1 hs
      unfold sinkFrom
      by_cases hb : before lt st y x = true
      · rw [if_pos hb]
        obtain ⟨i1, i2⟩ := ih x h2
        refine ⟨(i1.cons y).trans (List.Perm.swap x y l), List.pairwise_cons.2 ⟨?_, i2⟩⟩
        intro z hz
        rcases List.mem_cons.1 (i1.mem_iff.1 hz) with rfl | hz
        · exact W.asymm _ _ hb
        · exact h1 z hz
      · rw [if_neg hb]
        have hb' : before lt st y x = false := by simpa using hb
        refine ⟨.refl _, List.pairwise_cons.2 ⟨?_, hs⟩⟩
        intro z hz
        rcases List.mem_cons.1 hz with rfl | hz
        · exact hb'
        · exact W.negtrans _ _ _ (h1 z hz) hb'
  intro e h
  cases e with
  | nil => exact ⟨.refl _, List.Pairwise.nil⟩
  | cons x l => exact key l x h

/-- The entries are the first elements of the non-empty sequences. -/
structure EOK (S : List (List α)) (e : List (α × Nat)) : Prop where
  nodup : (e.map Prod.snd).Nodup
  mem : ∀ p ∈ e, ∃ xs, S[p.2]? = some (p.1 :: xs)
  all : ∀ (i : Nat) (x : α) (xs : List α), S[i]? = some (x :: xs) → (x, i) ∈ e

theorem EOK.perm {S : List (List α)} {e e' : List (α × Nat)} (h : EOK S e) (hp : List.Perm e' e) : EOK S e' :=
  ⟨(hp.map Prod.snd).nodup_iff.2 h.nodup, fun p hpe => h.mem p (hp.mem_iff.1 hpe), fun i x xs hi => hp.mem_iff.2 (h.all i x xs hi)⟩

theorem entries_lt : ∀ (S : List (List α)) (o : Nat), (∀ p ∈ (S.mapIdx fun i s => entry (i + o) s).flatten, o ≤ p.2) ∧
    ((S.mapIdx fun i s => entry (i + o) s).flatten.map Prod.snd).Pairwise (· < ·) := by
  intro S
  induction S with
  | nil => intro o; simp
  | cons s S ih =>
    intro o
    obtain ⟨i1, i2⟩ := ih (o + 1)
    have e : (List.mapIdx (fun i s => entry (i + 1 + o) s) S) = List.mapIdx (fun i s => entry (i + (o + 1)) s) S := by
      congr 1; funext i s; congr 1; omega
    rw [List.mapIdx_cons, e, List.flatten_cons, List.map_append, List.pairwise_append]
    have h0 : ∀ p ∈ entry (0 + o) s, p.2 = o := by
      intro p hp
      cases s with
      | nil => simp [entry] at hp
      | cons x xs => simp [entry] at hp; rw [hp]
    refine ⟨?_, ?_, i2, ?_⟩
    · intro p hp
      rcases List.mem_append.1 hp with h | h
      · rw [h0 p h]; exact Nat.le_refl _
      · have := i1 p h; omega
    · cases s <;> simp [entry]
    · intro a ha b hb
      obtain ⟨p, hp, rfl⟩ := List.mem_map.1 ha
      obtain ⟨q, hq, rfl⟩ := List.mem_map.1 hb
      have := h0 p hp
      have := i1 q hq
      omega

theorem entries_ok (S : List (List α)) : EOK S (entries S) := by
  refine ⟨?_, ?_, ?_⟩
  · have := (entries_lt S 0).2
    simp only [Nat.add_zero] at this
    exact this.imp (fun h => by omega)
  · intro p hp
    obtain ⟨l, hl, hpl⟩ := List.mem_flatten.1 hp
    obtain ⟨j, hj, rfl⟩ := List.mem_mapIdx.1 hl
    cases hs : S[j] with
    | nil => rw [hs] at hpl; simp [entry] at hpl
    | cons x xs =>
      rw [hs] at hpl
      simp [entry] at hpl
      subst hpl
      exact ⟨xs, by rw [List.getElem?_eq_getElem hj, hs]⟩
  · intro i x xs hi
    apply List.mem_flatten.2
    have hl := lt_length hi
    refine ⟨entry i S[i], List.mem_mapIdx.2 ⟨i, hl, rfl⟩, ?_⟩
    rw [List.getElem?_eq_getElem hl] at hi
    rw [Option.some.inj hi]
    simp [entry]

theorem EOK.best {S : List (List α)} {st : Bool} {x : α} {s : Nat} {l : List (α × Nat)} (hw : SWO lt) (h : EOK S ((x, s) :: l))
    (ho : ∀ z ∈ l, before lt st z (x, s) = false) : Best lt st S s x := by
  intro j y ys hj
  rcases List.mem_cons.1 (h.all j y ys hj) with h' | h'
  · injection h' with h1 h2
    subst h1; subst h2
    exact ⟨hw.irrefl _, fun _ _ => Nat.le_refl _⟩
  · have hb := ho _ h'
    unfold before at hb
    cases st
    · simp only [Bool.false_eq_true, if_false] at hb
      exact ⟨hb, fun h => by cases h⟩
    · simp only [if_true, Bool.or_eq_false_iff, Bool.and_eq_false_iff, Bool.not_eq_false', decide_eq_false_iff_not] at hb
      refine ⟨hb.1, fun _ hxy => ?_⟩
      rcases hb.2 with h3 | h3
      · rw [h3] at hxy; cases hxy
      · omega

/-- Whether the loop condition must be strict. -/
def strictFor (st : Bool) (s : Nat) (l : List (α × Nat)) (j : Nat) : Bool :=
  st && !decide (s < src1 j l)

theorem mayTake_iff (hw : SWO lt) {st : Bool} {x : α} {s j : Nat} {l : List (α × Nat)} (hnd : s ∉ l.map Prod.snd) (hl : EntSorted lt st l) :
    mayTake lt (strictFor st s l j) x l = true ↔ ∀ z ∈ l, before lt st z (x, s) = false := by
  have W := beforeSWO hw st
  cases l with
  | nil => simp [mayTake]
  | cons y l =>
    have h1 : mayTake lt (strictFor st s (y :: l) j) x (y :: l) = true ↔ before lt st y (x, s) = false := by
      have hne : y.2 ≠ s := fun e => hnd (by simp [e])
      unfold mayTake strictFor before src1
      cases st
      · simp
      · simp only [Bool.true_and, if_true, Bool.or_eq_false_iff, Bool.and_eq_false_iff, Bool.not_eq_false', decide_eq_false_iff_not,
          Bool.not_eq_true', decide_eq_false_iff_not]
        by_cases hlt : s < y.2
        · simp only [hlt, not_true_eq_false, if_false, Bool.not_eq_true']
          constructor
          · intro h; exact ⟨h, .inr (by omega)⟩
          · intro h; exact h.1
        · simp only [hlt, not_false_eq_true, if_true]
          constructor
          · intro h; exact ⟨hw.asymm _ _ h, .inl h⟩
          · intro h
            rcases h.2 with h | h
            · exact h
            · omega
    rw [h1]
    constructor
    · intro h z hz
      rcases List.mem_cons.1 hz with rfl | hz
      · exact h
      · exact W.negtrans _ _ _ ((List.pairwise_cons.1 hl).1 z hz) h
    · intro h; exact h y (by simp)

theorem inner_spec (hw : SWO lt) {st : Bool} {s j : Nat} {l : List (α × Nat)} (hl : EntSorted lt st l) :
    ∀ (n : Nat) (x : α) (S : List (List α)), EOK S ((x, s) :: l) →
    ∃ o e S' n', inner lt (strictFor st s l j) s l n x S = some (o, e, S', n') ∧ o.length + n' = n ∧ MergeRun lt st S o S' ∧ EOK S' e ∧
      EntSorted lt st e.tail ∧ (0 < n → (∀ z ∈ l, before lt st z (x, s) = false) → o ≠ []) := by
  intro n
  induction n with
  | zero =>
    intro x S hE
    exact ⟨[], (x, s) :: l, S, 0, rfl, rfl, .nil S, hE, hl, fun h => by omega⟩
  | succ n ih =>
    intro x S hE
    have hnd : s ∉ l.map Prod.snd := by
      have := hE.nodup
      simp only [List.map_cons, List.nodup_cons] at this
      exact this.1
    unfold inner
    by_cases hm : mayTake lt (strictFor st s l j) x l = true
    · rw [if_pos hm]
      have hall := (mayTake_iff hw hnd hl).1 hm
      obtain ⟨xs, hs⟩ := hE.mem (x, s) (by simp)
      have hb := hE.best hw hall
      rw [hd_some hs]
      dsimp only
      have hothers : ∀ (i : Nat) (y : α) (ys : List α), i ≠ s → S[i]? = some (y :: ys) → (y, i) ∈ l := by
        intro i y ys hi hy
        rcases List.mem_cons.1 (hE.all i y ys hy) with h | h
        · injection h with h1 h2; exact absurd h2 hi
        · exact h
      have hmem : ∀ p ∈ l, ∃ ys, (S.set s xs)[p.2]? = some (p.1 :: ys) := by
        intro p hp
        obtain ⟨ys, hy⟩ := hE.mem p (by simp [hp])
        refine ⟨ys, ?_⟩
        rw [List.getElem?_set_ne]
        · exact hy
        · rintro rfl; exact hnd (List.mem_map.2 ⟨p, hp, rfl⟩)
      cases xs with
      | nil =>
        refine ⟨[x], l, _, n, rfl, by simp; omega, .cons hs hb (.nil _), ?_, hl.sublist (List.tail_sublist l), fun _ _ => by simp⟩
        refine ⟨?_, hmem, ?_⟩
        · have := hE.nodup
          simp only [List.map_cons, List.nodup_cons] at this
          exact this.2
        · intro i y ys hi
          by_cases his : s = i
          · subst his; rw [List.getElem?_set_self (lt_length hs)] at hi; simp at hi
          · rw [List.getElem?_set_ne his] at hi
            exact hothers i y ys (Ne.symm his) hi
      | cons x' xs' =>
        have hE' : EOK (S.set s (x' :: xs')) ((x', s) :: l) := by
          refine ⟨hE.nodup, ?_, ?_⟩
          · intro p hp
            rcases List.mem_cons.1 hp with rfl | hp
            · exact ⟨xs', List.getElem?_set_self (lt_length hs)⟩
            · exact hmem p hp
          · intro i y ys hi
            by_cases his : s = i
            · subst his
              rw [List.getElem?_set_self (lt_length hs)] at hi
              have := Option.some.inj hi
              injection this with h1 h2
              subst h1; simp
            · rw [List.getElem?_set_ne his] at hi
              exact List.mem_cons_of_mem _ (hothers i y ys (Ne.symm his) hi)
        obtain ⟨o, e, S', n', r1, r2, r3, r4, r5, _⟩ := ih x' _ hE'
        dsimp only
        rw [r1]
        exact ⟨x :: o, e, S', n', rfl, by simp; omega, .cons hs hb r3, r4, r5, fun _ _ => by simp⟩
    · rw [if_neg hm]
      refine ⟨[], _, S, n + 1, rfl, by simp, .nil S, hE, hl, fun _ h => ?_⟩
      exact absurd ((mayTake_iff hw hnd hl).2 h) hm

theorem outer_spec (hw : SWO lt) {st : Bool} (junk : Nat → Nat) : ∀ (f n : Nat) (e : List (α × Nat)) (S : List (List α)), n ≤ f →
    EOK S e → EntSorted lt st e → n ≤ S.flatten.length →
    ∃ o S', outer lt st junk f n e S = some (o, S') ∧ o.length = n ∧ MergeRun lt st S o S' := by
  intro f
  induction f with
  | zero =>
    intro n e S hn hE hs ht
    have : n = 0 := by omega
    subst this
    exact ⟨[], S, by cases e <;> simp [outer], rfl, .nil S⟩
  | succ f ih =>
    intro n e S hn hE hs ht
    cases n with
    | zero => exact ⟨[], S, by cases e <;> simp [outer], rfl, .nil S⟩
    | succ n =>
      cases e with
      | nil =>
        exfalso
        have : S.flatten = [] := by
          rw [List.flatten_eq_nil_iff]
          intro s hs
          obtain ⟨j, hj⟩ := List.getElem?_of_mem hs
          cases s with
          | nil => rfl
          | cons y ys => exact absurd (hE.all j y ys hj) (by simp)
        rw [this] at ht; simp at ht
      | cons x l =>
        obtain ⟨h1, h2⟩ := List.pairwise_cons.1 hs
        obtain ⟨o, e', S', n', r1, r2, r3, r4, r5, r6⟩ := inner_spec hw (s := x.2) (j := junk n) h2 (n + 1) x.1 S hE
        have hpos : o ≠ [] := r6 (by omega) h1
        have hpos' : 0 < o.length := List.length_pos_iff.2 hpos
        obtain ⟨s1, s2⟩ := sink_spec hw st e' r5
        obtain ⟨c1, _⟩ := r3.count
        obtain ⟨o', S'', q1, q2, q3⟩ := ih n' (sink lt st e') S' (by omega) (r4.perm s1) s2 (by omega)
        refine ⟨o ++ o', S'', ?_, by rw [List.length_append]; omega, r3.append q3⟩
        unfold outer
        unfold strictFor at r1
        rw [r1]
        dsimp only
        rw [q1]; rfl

theorem bubble_run (hw : SWO lt) {st : Bool} (junk : Nat → Nat) {S : List (List α)} {n : Nat} (hn : n ≤ S.flatten.length) :
    ∃ o S', bubble lt st junk S n = some (o, S') ∧ o.length = n ∧ MergeRun lt st S o S' := by
  unfold bubble
  obtain ⟨p, q⟩ := bubbleSort_spec hw st (entries S).length (entries S) (Nat.le_refl _)
  exact outer_spec hw junk n n _ S (Nat.le_refl _) ((entries_ok S).perm p) q hn

end Stxxl.MwMerge
