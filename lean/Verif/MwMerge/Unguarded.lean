import Verif.MwMerge.Small
import Mathlib.Tactic.ByContra
/-! `prepare_unguarded`, and merging three sequences without checks for the end. -/
namespace Stxxl.MwMerge
open Spec
variable {α : Type} {lt : α → α → Bool}

/-- The element `x` of sequence `s` lies before the splitting point. -/
def below (lt : α → α → Bool) (stable : Bool) (min : α) (m s : Nat) (x : α) : Bool :=
  if stable && decide (s ≤ m) then !lt min x else lt x min

/-- The number of elements before the splitting points. -/
def cnt (lt : α → α → Bool) (stable : Bool) (min : α) (m : Nat) (S : List (List α)) : Nat :=
  (S.mapIdx fun s l => l.countP fun x => below lt stable min m s x).sum

theorem sum_mapIdx_set {β : Type} : ∀ (S : List β) (f : Nat → β → Nat) (i : Nat) (s t : β), S[i]? = some s →
    ((S.set i t).mapIdx f).sum + f i s = (S.mapIdx f).sum + f i t := by
  intro S
  induction S with
  | nil => intro f i s t h; simp at h
  | cons a S ih =>
    intro f i s t h
    cases i with
    | zero =>
      simp only [List.getElem?_cons_zero, Option.some.injEq] at h
      subst h
      simp [List.mapIdx_cons]; omega
    | succ i =>
      simp only [List.getElem?_cons_succ] at h
      have := ih (fun i => f (i + 1)) i s t h
      simp only [List.set_cons_succ, List.mapIdx_cons, List.sum_cons] at this ⊢
      omega

theorem overhang_sum : ∀ (S : List (List α)) (f g : Nat → List α → Nat), (∀ s l, f s l + g s l = l.length) →
    (S.mapIdx f).sum + (S.mapIdx g).sum = total S := by
  intro S
  induction S with
  | nil => intro f g _; rfl
  | cons a S ih =>
    intro f g h
    have h1 := ih (fun i => f (i + 1)) (fun i => g (i + 1)) (fun s l => h (s + 1) l)
    have h2 := h 0 a
    unfold total at h1 ⊢
    simp only [List.mapIdx_cons, List.sum_cons, List.map_cons] at h1 ⊢
    omega

theorem total_flatten (S : List (List α)) : total S = S.flatten.length := by rw [List.length_flatten]; rfl

/-- What `prepare_unguarded` establishes about `min` and `min_sequence`. -/
structure MinOk (lt : α → α → Bool) (S : List (List α)) (min : α) (m : Nat) : Prop where
  lt_len : m < S.length
  last : (hd S m).getLast? = some min
  all : ∀ (j : Nat) (l : List α), S[j]? = some l → ∃ z, l.getLast? = some z ∧ lt z min = false ∧ (j < m → lt min z = true)

theorem hd_append_lt {S T : List (List α)} {i : Nat} (h : i < S.length) : hd (S ++ T) i = hd S i := by
  unfold hd; rw [List.getElem?_append_left h]

theorem minLast_spec (hw : SWO lt) : ∀ (ls pre : List (List α)) (min : α) (m : Nat), MinOk lt pre min m →
    (∃ t, minLast lt pre.length ls min m = .inl t ∧ (pre ++ ls)[t]? = some []) ∨
    (∃ min' m', minLast lt pre.length ls min m = .inr (min', m') ∧ MinOk lt (pre ++ ls) min' m') := by
  intro ls
  induction ls with
  | nil => intro pre min m h; exact .inr ⟨min, m, rfl, by simpa using h⟩
  | cons l ls ih =>
    intro pre min m h
    unfold minLast
    cases hl : l.getLast? with
    | none =>
      left
      have : l = [] := by simpa using hl
      exact ⟨pre.length, rfl, by simp [this]⟩
    | some v =>
      dsimp only
      have e1 : pre ++ l :: ls = (pre ++ [l]) ++ ls := by simp
      have e2 : pre.length + 1 = (pre ++ [l]).length := by simp
      rw [e1, e2]
      by_cases hv : lt v min = true
      · rw [if_pos hv]
        apply ih
        refine ⟨by simp, by simp [hd, hl], ?_⟩
        intro j l' hj
        rcases Nat.lt_or_ge j pre.length with h1 | h1
        · rw [List.getElem?_append_left h1] at hj
          obtain ⟨z, z1, z2, _⟩ := h.all j l' hj
          exact ⟨z, z1, hw.asymm _ _ (hw.lt_of_lt_of_le hv z2), fun _ => hw.lt_of_lt_of_le hv z2⟩
        · rw [List.getElem?_append_right h1] at hj
          have : j - pre.length = 0 := by
            have := lt_length hj; simp at this; omega
          rw [this] at hj
          simp only [List.getElem?_cons_zero, Option.some.injEq] at hj
          subst hj
          exact ⟨v, hl, hw.irrefl _, fun _ => by omega⟩
      · rw [if_neg hv]
        apply ih
        have hml := h.lt_len
        refine ⟨by simp; omega, by rw [hd_append_lt hml]; exact h.last, ?_⟩
        intro j l' hj
        rcases Nat.lt_or_ge j pre.length with h1 | h1
        · rw [List.getElem?_append_left h1] at hj
          exact h.all j l' hj
        · rw [List.getElem?_append_right h1] at hj
          have : j - pre.length = 0 := by
            have := lt_length hj; simp at this; omega
          rw [this] at hj
          simp only [List.getElem?_cons_zero, Option.some.injEq] at hj
          subst hj
          exact ⟨v, hl, by simpa using hv, fun _ => by omega⟩

theorem prepare_spec (hw : SWO lt) (stable : Bool) {S : List (List α)} (hne : S ≠ []) :
    (∃ t, prepare lt stable S = (t, none) ∧ S[t]? = some []) ∨
    (∃ min m ov, prepare lt stable S = (m, some ov) ∧ MinOk lt S min m ∧ total S - ov = cnt lt stable min m S) := by
  cases S with
  | nil => exact absurd rfl hne
  | cons l ls =>
    cases hl : l.getLast? with
    | none =>
      left
      have : l = [] := by simpa using hl
      exact ⟨0, by simp only [prepare, hl], by simp [this]⟩
    | some v =>
      have h0 : MinOk lt [l] v 0 := by
        refine ⟨by simp, by simp [hd, hl], ?_⟩
        intro j l' hj
        have : j = 0 := by have := lt_length hj; simp at this; omega
        subst this
        simp only [List.getElem?_cons_zero, Option.some.injEq] at hj
        subst hj
        exact ⟨v, hl, hw.irrefl _, fun h => by omega⟩
      rcases minLast_spec hw ls [l] v 0 h0 with ⟨t, h1, h2⟩ | ⟨min, m, h1, h2⟩
      · left
        have h1' : minLast lt 1 ls v 0 = .inl t := h1
        exact ⟨t, by simp only [prepare, hl, h1'], h2⟩
      · right
        have h1' : minLast lt 1 ls v 0 = .inr (min, m) := h1
        refine ⟨min, m, _, by simp only [prepare, hl, h1']; rfl, h2, ?_⟩
        have := overhang_sum (l :: ls) (fun s l => overhangOf lt stable min m s l)
          (fun s l => l.countP fun x => below lt stable min m s x) (by
            intro s l
            unfold overhangOf below
            have := List.countP_le_length (p := fun x => if stable && decide (s ≤ m) then !lt min x else lt x min) (l := l)
            omega)
        unfold cnt
        omega

/-- The state of the unguarded stable merge: the sequences other than `m` keep an element after the splitting point. -/
structure U (lt : α → α → Bool) (min : α) (m : Nat) (S : List (List α)) : Prop where
  sorted : AllSorted lt S
  lt_len : m < S.length
  others : ∀ (s : Nat) (l : List α), S[s]? = some l → s ≠ m → ∃ z, l.getLast? = some z ∧ below lt true min m s z = false
  own : ∀ x ∈ hd S m, below lt true min m m x = true
  last : hd S m ≠ [] → (hd S m).getLast? = some min
  done : hd S m = [] → cnt lt true min m S = 0

theorem sum_zero {l : List Nat} (h : ∀ x ∈ l, x = 0) : l.sum = 0 := by
  induction l with
  | nil => rfl
  | cons a l ih =>
    rw [List.sum_cons, h a (by simp), ih (fun x hx => h x (by simp [hx]))]

theorem cnt_zero {stable : Bool} {min : α} {m : Nat} {S : List (List α)}
    (h : ∀ (j : Nat) (l : List α) (y : α), S[j]? = some l → y ∈ l → below lt stable min m j y = false) : cnt lt stable min m S = 0 := by
  unfold cnt
  apply sum_zero
  intro x hx
  obtain ⟨j, hj, rfl⟩ := List.mem_mapIdx.1 hx
  rw [List.countP_eq_zero]
  intro y hy
  rw [h j S[j] y (List.getElem?_eq_getElem hj) hy]; simp

theorem cnt_pos {stable : Bool} {min : α} {m : Nat} {S : List (List α)} (h : 0 < cnt lt stable min m S) :
    ∃ (j : Nat) (l : List α) (y : α), S[j]? = some l ∧ y ∈ l ∧ below lt stable min m j y = true := by
  by_contra hc
  have : cnt lt stable min m S = 0 := by
    apply cnt_zero
    intro j l y hj hy
    cases hb : below lt stable min m j y
    · rfl
    · exact absurd ⟨j, l, y, hj, hy, hb⟩ hc
  omega

theorem below_mono (hw : SWO lt) {stable : Bool} {min : α} {m j : Nat} {y z : α} (h : below lt stable min m j y = true) (hz : lt y z = false) :
    below lt stable min m j z = true := by
  unfold below at *
  split at h
  · rename_i hc
    rw [if_pos hc]
    simp only [Bool.not_eq_true'] at h ⊢
    exact hw.negtrans _ _ _ h hz
  · rename_i hc
    rw [if_neg hc]
    exact hw.lt_of_le_of_lt hz h

theorem cnt_step {stable : Bool} {min : α} {m : Nat} {S : List (List α)} {a : Nat} {x : α} {xs : List α} (h : S[a]? = some (x :: xs))
    (hb : below lt stable min m a x = true) : cnt lt stable min m (S.set a xs) + 1 = cnt lt stable min m S := by
  have := sum_mapIdx_set S (fun s l => l.countP fun x => below lt stable min m s x) a (x :: xs) xs h
  simp only [List.countP_cons, hb, if_true] at this
  unfold cnt
  omega

/-- A best head is before the splitting point as long as anything is. -/
theorem best_below (hw : SWO lt) {stable : Bool} {min : α} {m : Nat} {S : List (List α)} {a : Nat} {x : α} (hS : AllSorted lt S)
    (hb : Best lt stable S a x) (hc : 0 < cnt lt stable min m S) : below lt stable min m a x = true := by
  obtain ⟨j, l, y, hj, hy, hbl⟩ := cnt_pos hc
  cases l with
  | nil => simp at hy
  | cons z zs =>
    have hz : lt y z = false := by
      rcases List.mem_cons.1 hy with rfl | h
      · exact hw.irrefl _
      · exact (List.pairwise_cons.1 (hS _ (List.mem_of_getElem? hj))).1 y h
    have hbz := below_mono hw hbl hz
    obtain ⟨b1, b2⟩ := hb j z zs hj
    cases hxz : lt x z
    · cases hst : stable
      · rw [hst] at hbz
        unfold below at hbz ⊢
        simp only [Bool.false_and, Bool.false_eq_true, if_false] at hbz ⊢
        exact hw.lt_of_le_of_lt b1 hbz
      · have hle := b2 hst hxz
        rw [hst] at hbz
        unfold below at hbz ⊢
        simp only [Bool.true_and, decide_eq_true_eq] at hbz ⊢
        by_cases hjm : j ≤ m
        · rw [if_pos hjm] at hbz
          rw [if_pos (by omega)]
          simp only [Bool.not_eq_true'] at hbz ⊢
          exact hw.negtrans _ _ _ hbz b1
        · rw [if_neg hjm] at hbz
          have := hw.lt_of_le_of_lt b1 hbz
          split
          · simp only [Bool.not_eq_true']; exact hw.asymm _ _ this
          · exact this
    · have hxm : lt x min = true := by
        unfold below at hbz
        split at hbz
        · simp only [Bool.not_eq_true'] at hbz
          exact hw.lt_of_lt_of_le hxz hbz
        · exact hw.trans hxz hbz
      unfold below
      split
      · simp only [Bool.not_eq_true']; exact hw.asymm _ _ hxm
      · exact hxm

theorem MinOk.toU (hw : SWO lt) {S : List (List α)} {min : α} {m : Nat} (h : MinOk lt S min m) (hS : AllSorted lt S) : U lt min m S := by
  refine ⟨hS, h.lt_len, ?_, ?_, fun _ => h.last, fun h0 => by have := h.last; rw [h0] at this; simp at this⟩
  · intro s l hs hsm
    obtain ⟨z, z1, z2, z3⟩ := h.all s l hs
    refine ⟨z, z1, ?_⟩
    unfold below
    simp only [Bool.true_and, decide_eq_true_eq]
    split
    · rw [z3 (by omega)]; rfl
    · exact z2
  · intro x hx
    unfold below
    simp only [Nat.le_refl, decide_true, Bool.and_self, if_true, Bool.not_eq_true']
    have hl := h.last
    obtain ⟨p, hp⟩ := List.getLast?_eq_some_iff.1 hl
    rw [hp] at hx
    have hs := hS _ (List.mem_of_getElem? (getElem?_hd h.lt_len))
    rw [hp] at hs
    rcases List.mem_append.1 hx with h1 | h1
    · exact (List.pairwise_append.1 hs).2.2 x h1 min (by simp)
    · simp at h1; subst h1; exact hw.irrefl _

theorem U.step (hw : SWO lt) {S : List (List α)} {min : α} {m a : Nat} {x : α} {xs : List α} (h : U lt min m S)
    (hi : S[a]? = some (x :: xs)) (hb : Best lt true S a x) (hc : 0 < cnt lt true min m S) :
    U lt min m (S.set a xs) ∧ cnt lt true min m (S.set a xs) + 1 = cnt lt true min m S := by
  have hbx := best_below hw h.sorted hb hc
  have hstep := cnt_step hi hbx
  refine ⟨⟨h.sorted.set hi, by simpa using h.lt_len, ?_, ?_, ?_, ?_⟩, hstep⟩
  · intro s l hs hsm
    by_cases hsa : a = s
    · subst hsa
      rw [List.getElem?_set_self (lt_length hi)] at hs
      simp only [Option.some.injEq] at hs
      subst hs
      obtain ⟨z, z1, z2⟩ := h.others a _ hi hsm
      cases xs with
      | nil =>
        simp only [List.getLast?_singleton, Option.some.injEq] at z1
        subst z1
        rw [hbx] at z2; cases z2
      | cons y ys => exact ⟨z, by rw [List.getLast?_cons_cons] at z1; exact z1, z2⟩
    · rw [List.getElem?_set_ne hsa] at hs
      exact h.others s l hs hsm
  · intro y hy
    by_cases ha : a = m
    · subst ha
      rw [hd_set_self (lt_length hi)] at hy
      exact h.own y (by rw [hd_some hi]; simp [hy])
    · rw [hd_set_ne ha] at hy
      exact h.own y hy
  · intro hne
    by_cases ha : a = m
    · subst ha
      rw [hd_set_self (lt_length hi)] at hne ⊢
      have := h.last (by rw [hd_some hi]; simp)
      rw [hd_some hi] at this
      cases xs with
      | nil => exact absurd rfl hne
      | cons y ys => rw [List.getLast?_cons_cons] at this; exact this
    · rw [hd_set_ne ha] at hne ⊢
      exact h.last hne
  · intro he
    by_cases ha : a = m
    · subst ha
      rw [hd_set_self (lt_length hi)] at he
      subst he
      have hx : x = min := by
        have := h.last (by rw [hd_some hi]; simp)
        rw [hd_some hi] at this; simpa using this
      subst hx
      apply cnt_zero
      intro j l y hj hy
      cases hbl : below lt true x a j y
      · rfl
      · exfalso
        by_cases hja : a = j
        · subst hja
          rw [List.getElem?_set_self (lt_length hi)] at hj
          simp only [Option.some.injEq] at hj
          subst hj; simp at hy
        · rw [List.getElem?_set_ne hja] at hj
          cases l with
          | nil => simp at hy
          | cons z zs =>
            have hz : lt y z = false := by
              rcases List.mem_cons.1 hy with rfl | h'
              · exact hw.irrefl _
              · exact (List.pairwise_cons.1 (h.sorted _ (List.mem_of_getElem? hj))).1 y h'
            have hbz := below_mono hw hbl hz
            obtain ⟨b1, b2⟩ := hb j z zs hj
            unfold below at hbz
            simp only [Bool.true_and, decide_eq_true_eq] at hbz
            split at hbz
            · simp only [Bool.not_eq_true'] at hbz
              have := b2 rfl hbz
              omega
            · rw [b1] at hbz; cases hbz
    · rw [hd_set_ne ha] at he
      have := h.done he
      omega

theorem U.nonempty {S : List (List α)} {min : α} {m : Nat} (h : U lt min m S) (hc : 0 < cnt lt true min m S) {i : Nat} (hi : i < S.length) :
    hd S i ≠ [] := by
  by_cases him : i = m
  · subst him
    intro h0
    have := h.done h0
    omega
  · obtain ⟨z, hz, _⟩ := h.others i _ (getElem?_hd hi) him
    intro h0
    rw [h0] at hz; simp at hz

theorem U.finished {S : List (List α)} {min : α} {m : Nat} (h : U lt min m S) (hc : cnt lt true min m S = 0) : hd S m = [] := by
  cases hh : hd S m with
  | nil => rfl
  | cons x xs =>
    have hb := h.own x (by rw [hh]; simp)
    have := cnt_step (hd_eq.1 hh) hb
    omega

theorem unguarded_eq {o : Op} {a b : List α} (ha : a ≠ []) (hb : b ≠ []) : unguarded lt o a b = guarded lt o a b := by
  cases a with
  | nil => exact absurd rfl ha
  | cons x xs =>
    cases b with
    | nil => exact absurd rfl hb
    | cons y ys => cases o <;> rfl

theorem run3_unguarded (hw : SWO lt) {min : α} {m : Nat} : ∀ (n : Nat) (a b c : Nat) (S : List (List α)), S.length = 3 → LabelOk lt S [a, b, c] →
    U lt min m S → n ≤ cnt lt true min m S →
    ∃ o S', run3 (unguarded lt) n (a, b, c) S = some (o, S') ∧ o.length = n ∧ MergeRun lt true S o S' ∧ U lt min m S' ∧
      cnt lt true min m S' + n = cnt lt true min m S ∧ S'.length = 3 := by
  intro n
  induction n with
  | zero => intro a b c S hl _ hU _; exact ⟨[], S, rfl, rfl, .nil S, hU, rfl, hl⟩
  | succ n ih =>
    intro a b c S hl hL hU hn
    obtain ⟨b1, b2⟩ := hL.best hw
    have hpos : 0 < cnt lt true min m S := by omega
    have ha := hL.lt3 (i := a) (by simp)
    cases hh : hd S a with
    | nil => exact absurd hh (hU.nonempty hpos ha)
    | cons x xs =>
      have hi := hd_eq.1 hh
      have hl' : (S.set a xs).length = 3 := by simpa using hl
      obtain ⟨hU', hcnt⟩ := hU.step hw hi (b2 x xs hh) hpos
      unfold run3
      rw [hh]
      dsimp only
      suffices hsuf : ∃ o S', (if n = 0 then some ([], S.set a xs)
          else
            match table3 (a, b, c) with
            | none => none
            | some (c0, c1) =>
              iff' (unguarded lt c0 (hd (S.set a xs) a) (hd (S.set a xs) b)) (run3 (unguarded lt) n (a, b, c) (S.set a xs)) <|
              iff' (unguarded lt c1 (hd (S.set a xs) a) (hd (S.set a xs) c)) (run3 (unguarded lt) n (b, a, c) (S.set a xs)) <|
              run3 (unguarded lt) n (b, c, a) (S.set a xs)) = some (o, S') ∧ o.length = n ∧ MergeRun lt true (S.set a xs) o S' ∧ U lt min m S' ∧
            cnt lt true min m S' + n = cnt lt true min m (S.set a xs) ∧ S'.length = 3 by
        obtain ⟨o, S', r1, r2, r3, r4, r5, r6⟩ := hsuf
        refine ⟨x :: o, S', ?_, by simp [r2], .cons hi (b2 x xs hh) r3, r4, by omega, r6⟩
        exact congrArg (Res.push x) r1
      by_cases hn0 : n = 0
      · rw [if_pos hn0]; exact ⟨[], _, rfl, by simp [hn0], .nil _, hU', by omega, hl'⟩
      · rw [if_neg hn0]
        have hnd := hL.nodup
        simp only [List.nodup_cons, List.mem_cons, List.not_mem_nil, or_false, not_or, not_false_eq_true, List.nodup_nil, and_true] at hnd
        have hb := hL.lt3 (i := b) (by simp)
        have hc := hL.lt3 (i := c) (by simp)
        rw [hl] at ha hb hc
        have hpos' : 0 < cnt lt true min m (S.set a xs) := by omega
        have na := hU'.nonempty hpos' (i := a) (by omega)
        have nb := hU'.nonempty hpos' (i := b) (by omega)
        have nc := hU'.nonempty hpos' (i := c) (by omega)
        rw [table3_eq a b c ha hb hc hnd.1.1 hnd.1.2 hnd.2]
        dsimp only
        rw [unguarded_eq na nb, unguarded_eq na nc]
        have hstep := hL.step hw xs
        rw [guarded_opFor, guarded_opFor, iff'_some, iff'_some]
        simp only [ins] at hstep
        by_cases h1 : prec lt (S.set a xs) a b = true
        · rw [if_pos h1] at hstep ⊢
          exact ih a b c _ hl' hstep hU' (by omega)
        · rw [if_neg h1] at hstep ⊢
          by_cases h2 : prec lt (S.set a xs) a c = true
          · rw [if_pos h2] at hstep ⊢
            exact ih b a c _ hl' hstep hU' (by omega)
          · rw [if_neg h2] at hstep ⊢
            exact ih b c a _ hl' hstep hU' (by omega)

theorem start3_unguarded {S : List (List α)} (h : ∀ i, i < 3 → hd S i ≠ []) : start3 (unguarded lt) S = start3 (guarded lt) S := by
  unfold start3
  rw [unguarded_eq (h 0 (by decide)) (h 1 (by decide)), unguarded_eq (h 1 (by decide)) (h 2 (by decide)),
    unguarded_eq (h 2 (by decide)) (h 0 (by decide)), unguarded_eq (h 0 (by decide)) (h 2 (by decide))]

theorem merge3_unguarded (hw : SWO lt) {min : α} {m n : Nat} {S : List (List α)} (hl : S.length = 3) (hU : U lt min m S)
    (hn : n ≤ cnt lt true min m S) :
    ∃ o S', merge3 (unguarded lt) S n = some (o, S') ∧ o.length = n ∧ MergeRun lt true S o S' ∧ U lt min m S' ∧
      cnt lt true min m S' + n = cnt lt true min m S ∧ S'.length = 3 := by
  unfold merge3
  by_cases h0 : n = 0
  · rw [if_pos h0]; exact ⟨[], S, rfl, by simp [h0], .nil S, hU, by omega, hl⟩
  · rw [if_neg h0]
    obtain ⟨a, b, c, h1, h2⟩ := start3_label hw hl
    rw [start3_unguarded (fun i hi => hU.nonempty (by omega) (by omega)), h1]
    exact run3_unguarded hw n a b c S hl h2 hU hn

theorem MergeRun.count {st : Bool} {S T : List (List α)} {o : List α} (h : MergeRun lt st S o T) :
    o.length + T.flatten.length = S.flatten.length ∧ T.length = S.length := by
  induction h with
  | nil S => simp
  | cons a b c ih =>
    have := length_step a
    rw [List.length_set] at ih
    exact ⟨by rw [this]; simp only [List.length_cons]; omega, ih.2⟩

theorem length3 {S : List (List α)} (hl : S.length = 3) : S.flatten.length = (hd S 0).length + (hd S 1).length + (hd S 2).length := by
  match S, hl with
  | [a, b, c], _ => simp [hd]; omega

theorem others3_run (hw : SWO lt) {S : List (List α)} {m n : Nat} (hl : S.length = 3) (hm : m < 3) (he : n = 0 ∨ hd S m = [])
    (hn : n ≤ S.flatten.length) :
    ∃ i j, others3 m = some (i, j) ∧ ∃ o S', merge2 lt S i j n = some (o, S') ∧ o.length = n ∧ MergeRun lt true S o S' := by
  have hzero : n = 0 → ∀ i j, merge2 lt S i j n = some ([], S) := by
    intro h0 i j
    subst h0
    have : mergeAdv lt 0 (hd S i) (hd S j) = some ([], hd S i, hd S j) := by
      cases hd S i <;> cases hd S j <;> simp [mergeAdv]
    unfold merge2
    rw [this]
    dsimp only
    rw [set_hd, set_hd]
  have h3 := length3 hl
  have hoth : hd S m = [] → ∀ (l : Nat) (y : α) (ys : List α), S[l]? = some (y :: ys) → l < 3 ∧ l ≠ m := by
    intro h0 l y ys h'
    refine ⟨by have := lt_length h'; omega, ?_⟩
    rintro rfl
    rw [hd_some h'] at h0; simp at h0
  match m, hm with
  | 0, _ =>
    refine ⟨1, 2, rfl, ?_⟩
    rcases he with he | he
    · exact ⟨[], S, hzero he 1 2, by simp [he], .nil S⟩
    · exact merge2_run hw (by decide) (by omega) (by rw [he] at h3; simp only [List.length_nil] at h3; omega)
        (fun l y ys h' => by have := hoth he l y ys h'; omega)
  | 1, _ =>
    refine ⟨0, 2, rfl, ?_⟩
    rcases he with he | he
    · exact ⟨[], S, hzero he 0 2, by simp [he], .nil S⟩
    · exact merge2_run hw (by decide) (by omega) (by rw [he] at h3; simp only [List.length_nil] at h3; omega)
        (fun l y ys h' => by have := hoth he l y ys h'; omega)
  | 2, _ =>
    refine ⟨0, 1, rfl, ?_⟩
    rcases he with he | he
    · exact ⟨[], S, hzero he 0 1, by simp [he], .nil S⟩
    · exact merge2_run hw (by decide) (by omega) (by rw [he] at h3; simp only [List.length_nil] at h3; omega)
        (fun l y ys h' => by have := hoth he l y ys h'; omega)

theorem combined3_run (hw : SWO lt) {S : List (List α)} {n : Nat} (hl : S.length = 3) (hS : AllSorted lt S) (hn : n ≤ S.flatten.length) :
    ∃ o S', combined3 lt S n = some (o, S') ∧ o.length = n ∧ MergeRun lt true S o S' := by
  have hne : S ≠ [] := by intro h; rw [h] at hl; simp at hl
  unfold combined3
  rcases prepare_spec hw true hne with ⟨t, h1, h2⟩ | ⟨min, m, ov, h1, h2, h3⟩
  · rw [h1]
    dsimp only
    obtain ⟨i, j, e1, o, S', e2, e3, e4⟩ := others3_run hw (m := t) hl (by have := lt_length h2; omega) (.inr (hd_some h2)) hn
    rw [e1]
    dsimp only
    rw [List.length_nil, Nat.sub_zero, e2]
    exact ⟨o, S', rfl, e3, e4⟩
  · rw [h1]
    dsimp only
    rw [h3]
    obtain ⟨o, S', e1, e2, e3, e4, e5, e6⟩ := merge3_unguarded hw (n := Nat.min n (cnt lt true min m S)) hl (h2.toU hw hS) (Nat.min_le_right ..)
    rw [e1]
    obtain ⟨c1, _⟩ := e3.count
    have hmin : Nat.min n (cnt lt true min m S) = n ∨ cnt lt true min m S' = 0 := by
      rcases Nat.le_total n (cnt lt true min m S) with h | h
      · exact .inl (Nat.min_eq_left h)
      · right
        have := Nat.min_eq_right h
        have h4 : Nat.min n (cnt lt true min m S) = cnt lt true min m S := this
        omega
    obtain ⟨i, j, f1, o', S'', f2, f3, f4⟩ := others3_run hw (S := S') (m := m) (n := n - o.length) e6 (by have := h2.lt_len; omega) (by
      rcases hmin with h | h
      · left; omega
      · right; exact e4.finished h) (by omega)
    rw [f1]
    dsimp only
    rw [f2]
    have hle : Nat.min n (cnt lt true min m S) ≤ n := Nat.min_le_left ..
    exact ⟨o ++ o', S'', rfl, by rw [List.length_append, f3]; omega, e3.append f4⟩

end Stxxl.MwMerge
