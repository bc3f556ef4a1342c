import Verif.MwMerge.Run
import Mathlib.Tactic.SplitIfs
/-! Merging two, three and four sequences. -/
namespace Stxxl.MwMerge
open Spec
variable {α : Type} {lt : α → α → Bool}

theorem hd_eq {S : List (List α)} {i : Nat} {x : α} {xs : List α} : hd S i = x :: xs ↔ S[i]? = some (x :: xs) := by
  unfold hd
  cases h : S[i]? <;> simp

theorem hd_some {S : List (List α)} {i : Nat} {s : List α} (h : S[i]? = some s) : hd S i = s := by unfold hd; rw [h]; rfl

theorem lt_length {S : List (List α)} {i : Nat} {s : List α} (h : S[i]? = some s) : i < S.length := by
  rcases Nat.lt_or_ge i S.length with h' | h'
  · exact h'
  · rw [List.getElem?_eq_none h'] at h; simp at h

theorem hd_set_self {S : List (List α)} {i : Nat} {s : List α} (h : i < S.length) : hd (S.set i s) i = s := by
  unfold hd; rw [List.getElem?_set_self h]; rfl

theorem hd_set_ne {S : List (List α)} {i j : Nat} {s : List α} (h : i ≠ j) : hd (S.set i s) j = hd S j := by
  unfold hd; rw [List.getElem?_set_ne h]

theorem getElem?_hd {S : List (List α)} {i : Nat} (h : i < S.length) : S[i]? = some (hd S i) := by
  unfold hd; rw [List.getElem?_eq_getElem h]; rfl

theorem set_hd {S : List (List α)} {i : Nat} : S.set i (hd S i) = S := by
  apply List.ext_getElem?
  intro j
  by_cases hij : i = j
  · subst hij
    by_cases h : i < S.length
    · rw [List.getElem?_set_self h, getElem?_hd h]
    · rw [List.getElem?_eq_none (by simp; omega), List.getElem?_eq_none (by omega)]
  · rw [List.getElem?_set_ne hij]

/-- Only one sequence is left: it is copied. -/
theorem copy_run (hw : SWO lt) (j : Nat) : ∀ (n : Nat) (S : List (List α)), j < S.length → n ≤ (hd S j).length →
    (∀ (l : Nat) (y : α) (ys : List α), S[l]? = some (y :: ys) → l = j) →
    MergeRun lt true S ((hd S j).take n) (S.set j ((hd S j).drop n)) := by
  intro n
  induction n with
  | zero => intro S _ _ _; simp only [List.take_zero, List.drop_zero]; rw [set_hd]; exact .nil S
  | succ n ih =>
    intro S hj hn ho
    cases hh : hd S j with
    | nil => rw [hh] at hn; simp at hn
    | cons x xs =>
      have hsj := hd_eq.1 hh
      rw [List.take_succ_cons, List.drop_succ_cons]
      have h2 : hd (S.set j xs) j = xs := hd_set_self hj
      have := ih (S.set j xs) (by simpa using hj) (by rw [h2]; rw [hh] at hn; simpa using hn) (by
        intro l y ys hl
        by_cases hlj : l = j
        · exact hlj
        · rw [List.getElem?_set_ne (by omega)] at hl; exact ho l y ys hl)
      rw [h2, List.set_set] at this
      refine .cons hsj ?_ this
      intro l y ys hl
      have := ho l y ys hl
      subst this
      rw [hsj] at hl
      have h3 := Option.some.inj hl
      injection h3 with h3 h4
      subst h3
      exact ⟨hw.irrefl _, fun _ _ => Nat.le_refl _⟩

theorem set_same {S : List (List α)} {i : Nat} {a : List α} (h : S[i]? = some a) : S.set i a = S := by
  conv => rhs; rw [← set_hd (S := S) (i := i), hd_some h]

theorem set_tail_heads {S : List (List α)} {i : Nat} {x : α} {xs : List α} (P : Nat → Prop) (hi : S[i]? = some (x :: xs))
    (ho : ∀ (l : Nat) (y : α) (ys : List α), S[l]? = some (y :: ys) → P l) :
    ∀ (l : Nat) (y : α) (ys : List α), (S.set i xs)[l]? = some (y :: ys) → P l := by
  intro l y ys hl
  by_cases hli : l = i
  · subst hli; exact ho _ _ _ hi
  · rw [List.getElem?_set_ne (by omega)] at hl; exact ho l y ys hl

theorem mergeAdv_run (hw : SWO lt) (i j : Nat) (hij : i < j) : ∀ (n : Nat) (a b : List α) (S : List (List α)), S[i]? = some a →
    S[j]? = some b → n ≤ a.length + b.length →
    (∀ (l : Nat) (y : α) (ys : List α), S[l]? = some (y :: ys) → l = i ∨ l = j) →
    ∃ o a' b', mergeAdv lt n a b = some (o, a', b') ∧ o.length = n ∧ MergeRun lt true S o ((S.set i a').set j b') := by
  intro n
  induction n with
  | zero =>
    intro a b S hi hj hn ho
    have : mergeAdv lt 0 a b = some ([], a, b) := by cases a <;> cases b <;> simp [mergeAdv]
    refine ⟨_, _, _, this, rfl, ?_⟩
    rw [set_same hi, set_same hj]; exact .nil S
  | succ n ih =>
    intro a b S hi hj hn ho
    cases a with
    | nil =>
      have hn' : n + 1 ≤ b.length := by simpa using hn
      unfold mergeAdv
      rw [if_pos hn']
      refine ⟨_, _, _, rfl, by simp [hn'], ?_⟩
      have := copy_run hw j (n + 1) S (lt_length hj) (by rw [hd_some hj]; exact hn') (by
        intro l y ys hl
        rcases ho l y ys hl with rfl | rfl
        · rw [hi] at hl; simp at hl
        · rfl)
      rw [hd_some hj] at this
      rw [set_same hi]; exact this
    | cons x a =>
      cases b with
      | nil =>
        have hn' : n + 1 ≤ (x :: a).length := by simpa using hn
        unfold mergeAdv
        rw [if_pos hn']
        refine ⟨_, _, _, rfl, by rw [List.length_take]; omega, ?_⟩
        have := copy_run hw i (n + 1) S (lt_length hi) (by rw [hd_some hi]; exact hn') (by
          intro l y ys hl
          rcases ho l y ys hl with rfl | rfl
          · rfl
          · rw [hj] at hl; simp at hl)
        rw [hd_some hi] at this
        rw [set_same (S := S.set i _) (by rw [List.getElem?_set_ne (by omega)]; exact hj)]; exact this
      | cons y b =>
        unfold mergeAdv
        by_cases hc : lt y x = true
        · rw [if_pos hc]
          obtain ⟨o, a', b', h1, h2, h3⟩ := ih (x :: a) b (S.set j b) (by rw [List.getElem?_set_ne (by omega)]; exact hi)
            (List.getElem?_set_self (lt_length hj)) (by simp at hn ⊢; omega) (set_tail_heads _ hj ho)
          refine ⟨_, _, _, by rw [h1], by simp [h2], ?_⟩
          rw [List.set_comm _ _ (by omega), List.set_set, List.set_comm _ _ (by omega)] at h3
          refine .cons hj ?_ h3
          intro l z zs hl
          rcases ho l z zs hl with rfl | rfl
          · rw [hi] at hl
            have h5 := Option.some.inj hl
            injection h5 with h5 h6
            subst h5
            exact ⟨hw.asymm _ _ hc, fun _ h => by rw [hc] at h; cases h⟩
          · rw [hj] at hl
            have h5 := Option.some.inj hl
            injection h5 with h5 h6
            subst h5
            exact ⟨hw.irrefl _, fun _ _ => Nat.le_refl _⟩
        · rw [if_neg hc]
          have hc : lt y x = false := by simpa using hc
          obtain ⟨o, a', b', h1, h2, h3⟩ := ih a (y :: b) (S.set i a) (List.getElem?_set_self (lt_length hi))
            (by rw [List.getElem?_set_ne (by omega)]; exact hj) (by simp at hn ⊢; omega) (set_tail_heads _ hi ho)
          refine ⟨_, _, _, by rw [h1], by simp [h2], ?_⟩
          rw [List.set_set] at h3
          refine .cons hi ?_ h3
          intro l z zs hl
          rcases ho l z zs hl with rfl | rfl
          · rw [hi] at hl
            have h5 := Option.some.inj hl
            injection h5 with h5 h6
            subst h5
            exact ⟨hw.irrefl _, fun _ _ => Nat.le_refl _⟩
          · rw [hj] at hl
            have h5 := Option.some.inj hl
            injection h5 with h5 h6
            subst h5
            exact ⟨hc, fun _ _ => by omega⟩

theorem merge2_run (hw : SWO lt) {S : List (List α)} {i j n : Nat} (hij : i < j) (hj : j < S.length)
    (hn : n ≤ (hd S i).length + (hd S j).length)
    (ho : ∀ (l : Nat) (y : α) (ys : List α), S[l]? = some (y :: ys) → l = i ∨ l = j) :
    ∃ o S', merge2 lt S i j n = some (o, S') ∧ o.length = n ∧ MergeRun lt true S o S' := by
  obtain ⟨o, a, b, h1, h2, h3⟩ := mergeAdv_run hw i j hij n (hd S i) (hd S j) S (getElem?_hd (by omega)) (getElem?_hd hj) hn ho
  exact ⟨o, _, by unfold merge2; rw [h1], h2, h3⟩

/-! ### Labels -/

/-- Sequence `i` comes before sequence `j`, as the guarded iterators decide it. -/
def prec (lt : α → α → Bool) (S : List (List α)) (i j : Nat) : Bool :=
  (guarded lt (if i < j then .le else .lt) (hd S i) (hd S j)).getD false

theorem guarded_some (o : Op) (a b : List α) : ∃ r, guarded lt o a b = some r := by
  cases o <;> cases a <;> cases b <;> exact ⟨_, rfl⟩

theorem prec_eq {S : List (List α)} {i j : Nat} : guarded lt (if i < j then .le else .lt) (hd S i) (hd S j) = some (prec lt S i j) := by
  unfold prec
  obtain ⟨r, hr⟩ := guarded_some (lt := lt) (if i < j then .le else .lt) (hd S i) (hd S j)
  rw [hr]; rfl

theorem prec_total {S : List (List α)} {i j : Nat} (hij : i ≠ j) : prec lt S i j = !prec lt S j i := by
  unfold prec
  rcases Nat.lt_or_gt_of_ne hij with h | h
  · rw [if_pos h, if_neg (by omega)]
    cases hd S i <;> cases hd S j <;> simp [guarded]
  · rw [if_neg (by omega), if_pos h]
    cases hd S i <;> cases hd S j <;> simp [guarded]

theorem prec_trans (hw : SWO lt) {S : List (List α)} {i j k : Nat} (hij : i ≠ j) (hjk : j ≠ k) (hik : i ≠ k)
    (h1 : prec lt S i j = true) (h2 : prec lt S j k = true) : prec lt S i k = true := by
  unfold prec at *
  cases ha : hd S i with
  | nil =>
    cases hb : hd S j with
    | nil =>
      cases hc : hd S k with
      | nil =>
        rw [ha, hb] at h1; rw [hb, hc] at h2
        have h1' : ¬ i < j := by intro h; simp [h, guarded] at h1
        have h2' : ¬ j < k := by intro h; simp [h, guarded] at h2
        have : ¬ i < k := by omega
        simp [this, guarded]
      | cons z zs =>
        rw [hb, hc] at h2
        by_cases h : j < k <;> simp [h, guarded] at h2
    | cons y ys =>
      rw [ha, hb] at h1
      by_cases h : i < j <;> simp [h, guarded] at h1
  | cons x xs =>
    cases hb : hd S j with
    | nil =>
      cases hc : hd S k with
      | nil => by_cases h : i < k <;> simp [h, guarded]
      | cons z zs =>
        rw [hb, hc] at h2
        by_cases h : j < k <;> simp [h, guarded] at h2
    | cons y ys =>
      cases hc : hd S k with
      | nil => by_cases h : i < k <;> simp [h, guarded]
      | cons z zs =>
        rw [ha, hb] at h1; rw [hb, hc] at h2
        by_cases hij' : i < j
        · simp only [hij', if_true, guarded, Option.getD_some, Bool.not_eq_true'] at h1
          by_cases hjk' : j < k
          · simp only [hjk', if_true, guarded, Option.getD_some, Bool.not_eq_true'] at h2
            have : i < k := by omega
            simp only [this, if_true, guarded, Option.getD_some, Bool.not_eq_true']
            exact hw.negtrans _ _ _ h2 h1
          · simp only [hjk', if_false, guarded, Option.getD_some] at h2
            have h3 := hw.lt_of_le_of_lt h1 h2
            by_cases h : i < k
            · simp only [h, if_true, guarded, Option.getD_some, Bool.not_eq_true']; exact hw.asymm _ _ h3
            · simp only [h, if_false, guarded, Option.getD_some]; exact h3
        · simp only [hij', if_false, guarded, Option.getD_some] at h1
          have h3 : lt x z = true := by
            by_cases hjk' : j < k
            · simp only [hjk', if_true, guarded, Option.getD_some, Bool.not_eq_true'] at h2
              exact hw.lt_of_lt_of_le h1 h2
            · simp only [hjk', if_false, guarded, Option.getD_some] at h2
              exact hw.trans h1 h2
          by_cases h : i < k
          · simp only [h, if_true, guarded, Option.getD_some, Bool.not_eq_true']; exact hw.asymm _ _ h3
          · simp only [h, if_false, guarded, Option.getD_some]; exact h3

/-- The label lists the sequences in order. -/
structure LabelOk (lt : α → α → Bool) (S : List (List α)) (lab : List Nat) : Prop where
  perm : List.Perm lab (List.range S.length)
  ord : lab.Pairwise fun i j => prec lt S i j = true

theorem LabelOk.nodup {S : List (List α)} {lab : List Nat} (h : LabelOk lt S lab) : lab.Nodup := h.perm.nodup_iff.2 List.nodup_range

/-- The first sequence of the label has a best head; it is empty only if all are. -/
theorem LabelOk.best (hw : SWO lt) {S : List (List α)} {a : Nat} {r : List Nat} (h : LabelOk lt S (a :: r)) :
    (hd S a = [] → S.flatten = []) ∧ ∀ x xs, hd S a = x :: xs → Best lt true S a x := by
  have hord := List.pairwise_cons.1 h.ord
  have hmem : ∀ j, j < S.length → j = a ∨ prec lt S a j = true := by
    intro j hj
    have : j ∈ a :: r := h.perm.mem_iff.2 (by simpa using hj)
    rcases List.mem_cons.1 this with rfl | h'
    · exact .inl rfl
    · exact .inr (hord.1 j h')
  constructor
  · intro ha
    rw [List.flatten_eq_nil_iff]
    intro s hs
    obtain ⟨j, hj⟩ := List.getElem?_of_mem hs
    rcases hmem j (lt_length hj) with rfl | h'
    · rw [← hd_some hj]; exact ha
    · unfold prec at h'
      rw [ha, hd_some hj] at h'
      cases s with
      | nil => rfl
      | cons y ys => by_cases h : a < j <;> simp [h, guarded] at h'
  · intro x xs ha j y ys hj
    rcases hmem j (lt_length hj) with rfl | h'
    · rw [hd_some hj] at ha
      injection ha with h1 h2
      subst h1
      exact ⟨hw.irrefl _, fun _ _ => Nat.le_refl _⟩
    · unfold prec at h'
      rw [ha, hd_some hj] at h'
      by_cases h : a < j
      · simp only [h, if_true, guarded, Option.getD_some, Bool.not_eq_true'] at h'
        exact ⟨h', fun _ _ => by omega⟩
      · simp only [h, if_false, guarded, Option.getD_some] at h'
        exact ⟨hw.asymm _ _ h', fun _ h2 => by rw [h'] at h2; cases h2⟩

/-- Insert a sequence into a label. -/
def ins (lt : α → α → Bool) (S : List (List α)) (a : Nat) : List Nat → List Nat
  | [] => [a]
  | b :: r => if prec lt S a b then a :: b :: r else b :: ins lt S a r

theorem ins_perm (S : List (List α)) (a : Nat) (r : List Nat) : List.Perm (ins lt S a r) (a :: r) := by
  induction r with
  | nil => exact .refl _
  | cons b r ih =>
    unfold ins
    split
    · exact .refl _
    · exact (ih.cons b).trans (List.Perm.swap a b r)

theorem ins_sorted (hw : SWO lt) (S : List (List α)) (a : Nat) (r : List Nat) (hnd : (a :: r).Nodup)
    (h : r.Pairwise fun i j => prec lt S i j = true) : (ins lt S a r).Pairwise fun i j => prec lt S i j = true := by
  induction r with
  | nil => exact List.pairwise_singleton ..
  | cons b r ih =>
    obtain ⟨h1, h2⟩ := List.pairwise_cons.1 h
    have hn := List.nodup_cons.1 hnd
    have hn2 := List.nodup_cons.1 hn.2
    have hab : a ≠ b := fun e => hn.1 (by simp [e])
    unfold ins
    by_cases hc : prec lt S a b = true
    · rw [if_pos hc]
      refine List.pairwise_cons.2 ⟨?_, h⟩
      intro j hj
      rcases List.mem_cons.1 hj with rfl | hj
      · exact hc
      · exact prec_trans hw hab (fun e => hn2.1 (e ▸ hj)) (fun e => hn.1 (by simp [e, hj])) hc (h1 j hj)
    · rw [if_neg hc]
      refine List.pairwise_cons.2 ⟨?_, ih (List.nodup_cons.2 ⟨fun e => hn.1 (by simp [e]), hn2.2⟩) h2⟩
      intro j hj
      rcases List.mem_cons.1 ((ins_perm S a r).mem_iff.1 hj) with rfl | hj
      · have := prec_total (lt := lt) (S := S) hab
        revert hc; rw [this]; simp
      · exact h1 j hj

theorem prec_congr {S T : List (List α)} {i j : Nat} (hi : hd S i = hd T i) (hj : hd S j = hd T j) : prec lt S i j = prec lt T i j := by
  unfold prec; rw [hi, hj]

/-- After the first sequence is advanced it is inserted into the rest of the label. -/
theorem LabelOk.step (hw : SWO lt) {S : List (List α)} {a : Nat} {r : List Nat} (h : LabelOk lt S (a :: r)) (xs : List α) :
    LabelOk lt (S.set a xs) (ins lt (S.set a xs) a r) := by
  have hnd := h.nodup
  refine ⟨?_, ?_⟩
  · rw [List.length_set]; exact (ins_perm _ a r).trans h.perm
  · apply ins_sorted hw _ _ _ hnd
    have := (List.pairwise_cons.1 h.ord).2
    refine List.Pairwise.imp_of_mem ?_ this
    intro i j hi hj hp
    have hn := (List.nodup_cons.1 hnd).1
    rw [prec_congr (hd_set_ne (j := i) (by rintro rfl; exact hn hi)) (hd_set_ne (j := j) (by rintro rfl; exact hn hj))]
    exact hp

theorem length_step {S : List (List α)} {a : Nat} {x : α} {xs : List α} (h : S[a]? = some (x :: xs)) :
    S.flatten.length = (S.set a xs).flatten.length + 1 := by
  obtain ⟨A, B, f1, f2, _⟩ := flatten_set h
  rw [f1, f2]; simp; omega

/-- The operator a case uses for `seq a` against `seq b`. -/
def opFor (a b : Nat) : Op := if a < b then .le else .lt

theorem table3_eq : ∀ (a b c : Nat), a < 3 → b < 3 → c < 3 → a ≠ b → a ≠ c → b ≠ c →
    table3 (a, b, c) = some (opFor a b, opFor a c) := by
  have : ∀ a b c : Fin 3, a ≠ b → a ≠ c → b ≠ c →
    table3 (a.val, b.val, c.val) = some (opFor a.val b.val, opFor a.val c.val) := by decide
  intro a b c ha hb hc h1 h2 h3
  exact this ⟨a, ha⟩ ⟨b, hb⟩ ⟨c, hc⟩ (by simpa using h1) (by simpa using h2) (by simpa using h3)

theorem table4_eq : ∀ (a b c d : Nat), a < 4 → b < 4 → c < 4 → d < 4 → a ≠ b → a ≠ c → a ≠ d → b ≠ c → b ≠ d → c ≠ d →
    table4 (a, b, c, d) = some (opFor a b, opFor a c, opFor a d) := by
  have : ∀ a b c d : Fin 4, a ≠ b → a ≠ c → a ≠ d → b ≠ c → b ≠ d → c ≠ d →
    table4 (a.val, b.val, c.val, d.val) = some (opFor a.val b.val, opFor a.val c.val, opFor a.val d.val) := by decide
  intro a b c d ha hb hc hd h1 h2 h3 h4 h5 h6
  exact this ⟨a, ha⟩ ⟨b, hb⟩ ⟨c, hc⟩ ⟨d, hd⟩ (by simpa using h1) (by simpa using h2) (by simpa using h3) (by simpa using h4)
    (by simpa using h5) (by simpa using h6)

theorem guarded_opFor (S : List (List α)) (a b : Nat) : guarded lt (opFor a b) (hd S a) (hd S b) = some (prec lt S a b) := prec_eq

theorem guarded_lt {S : List (List α)} {a b : Nat} (h : b < a) : guarded lt .lt (hd S a) (hd S b) = some (prec lt S a b) := by
  have := guarded_opFor (lt := lt) S a b
  rwa [opFor, if_neg (by omega)] at this

theorem guarded_le {S : List (List α)} {a b : Nat} (h : a < b) : guarded lt .le (hd S a) (hd S b) = some (prec lt S a b) := by
  have := guarded_opFor (lt := lt) S a b
  rwa [opFor, if_pos h] at this

theorem iff'_some {β : Type} (b : Bool) (A B : Option β) : iff' (some b) A B = if b then A else B := by cases b <;> rfl

theorem LabelOk.lt3 {S : List (List α)} {lab : List Nat} (h : LabelOk lt S lab) {i : Nat} (hi : i ∈ lab) : i < S.length := by
  simpa using h.perm.mem_iff.1 hi

theorem push_ok {st : Bool} {S S1 : List (List α)} {a : Nat} {x : α} {xs : List α} {n : Nat} {r : Res α} (hi : S[a]? = some (x :: xs))
    (hb : Best lt st S a x) (h1 : S1 = S.set a xs)
    (h : ∃ o S', r = some (o, S') ∧ o.length = n ∧ MergeRun lt st S1 o S') :
    ∃ o S', Res.push x r = some (o, S') ∧ o.length = n + 1 ∧ MergeRun lt st S o S' := by
  obtain ⟨o, S', h2, h3, h4⟩ := h
  subst h1; subst h2
  exact ⟨x :: o, S', rfl, by simp [h3], .cons hi hb h4⟩

theorem run3_run (hw : SWO lt) : ∀ (n : Nat) (a b c : Nat) (S : List (List α)), S.length = 3 → LabelOk lt S [a, b, c] →
    n ≤ S.flatten.length → ∃ o S', run3 (guarded lt) n (a, b, c) S = some (o, S') ∧ o.length = n ∧ MergeRun lt true S o S' := by
  intro n
  induction n with
  | zero => intro a b c S _ _ _; exact ⟨[], S, rfl, rfl, .nil S⟩
  | succ n ih =>
    intro a b c S hl hL hn
    obtain ⟨b1, b2⟩ := hL.best hw
    cases hh : hd S a with
    | nil => rw [b1 hh] at hn; simp at hn
    | cons x xs =>
      have hi := hd_eq.1 hh
      have hlen := length_step hi
      have hl' : (S.set a xs).length = 3 := by simpa using hl
      unfold run3
      rw [hh]
      dsimp only
      refine push_ok hi (b2 x xs hh) rfl ?_
      by_cases hn0 : n = 0
      · rw [if_pos hn0]; exact ⟨[], _, rfl, by simp [hn0], .nil _⟩
      · rw [if_neg hn0]
        have hnd := hL.nodup
        simp only [List.nodup_cons, List.mem_cons, List.not_mem_nil, or_false, not_or, not_false_eq_true, List.nodup_nil, and_true] at hnd
        have ha := hL.lt3 (i := a) (by simp)
        have hb := hL.lt3 (i := b) (by simp)
        have hc := hL.lt3 (i := c) (by simp)
        rw [hl] at ha hb hc
        rw [table3_eq a b c ha hb hc hnd.1.1 hnd.1.2 hnd.2]
        dsimp only
        have hstep := hL.step hw xs
        rw [guarded_opFor, guarded_opFor, iff'_some, iff'_some]
        simp only [ins] at hstep
        by_cases h1 : prec lt (S.set a xs) a b = true
        · rw [if_pos h1] at hstep ⊢
          exact ih a b c _ hl' hstep (by omega)
        · rw [if_neg h1] at hstep ⊢
          by_cases h2 : prec lt (S.set a xs) a c = true
          · rw [if_pos h2] at hstep ⊢
            exact ih b a c _ hl' hstep (by omega)
          · rw [if_neg h2] at hstep ⊢
            exact ih b c a _ hl' hstep (by omega)

theorem run4_run (hw : SWO lt) : ∀ (n : Nat) (a b c d : Nat) (S : List (List α)), S.length = 4 → LabelOk lt S [a, b, c, d] →
    n ≤ S.flatten.length → ∃ o S', run4 (guarded lt) n (a, b, c, d) S = some (o, S') ∧ o.length = n ∧ MergeRun lt true S o S' := by
  intro n
  induction n with
  | zero => intro a b c d S _ _ _; exact ⟨[], S, rfl, rfl, .nil S⟩
  | succ n ih =>
    intro a b c d S hl hL hn
    obtain ⟨b1, b2⟩ := hL.best hw
    cases hh : hd S a with
    | nil => rw [b1 hh] at hn; simp at hn
    | cons x xs =>
      have hi := hd_eq.1 hh
      have hlen := length_step hi
      have hl' : (S.set a xs).length = 4 := by simpa using hl
      unfold run4
      rw [hh]
      dsimp only
      refine push_ok hi (b2 x xs hh) rfl ?_
      have hnd := hL.nodup
      simp only [List.nodup_cons, List.mem_cons, List.not_mem_nil, or_false, not_or, not_false_eq_true, List.nodup_nil, and_true] at hnd
      have ha := hL.lt3 (i := a) (by simp)
      have hb := hL.lt3 (i := b) (by simp)
      have hc := hL.lt3 (i := c) (by simp)
      have hd' := hL.lt3 (i := d) (by simp)
      rw [hl] at ha hb hc hd'
      rw [table4_eq a b c d ha hb hc hd' hnd.1.1 hnd.1.2.1 hnd.1.2.2 hnd.2.1.1 hnd.2.1.2 hnd.2.2]
      dsimp only
      have hstep := hL.step hw xs
      rw [guarded_opFor, guarded_opFor, guarded_opFor, iff'_some, iff'_some, iff'_some]
      simp only [ins] at hstep
      by_cases h1 : prec lt (S.set a xs) a b = true
      · rw [if_pos h1] at hstep ⊢
        exact ih a b c d _ hl' hstep (by omega)
      · rw [if_neg h1] at hstep ⊢
        by_cases h2 : prec lt (S.set a xs) a c = true
        · rw [if_pos h2] at hstep ⊢
          exact ih b a c d _ hl' hstep (by omega)
        · rw [if_neg h2] at hstep ⊢
          by_cases h3 : prec lt (S.set a xs) a d = true
          · rw [if_pos h3] at hstep ⊢
            exact ih b c a d _ hl' hstep (by omega)
          · rw [if_neg h3] at hstep ⊢
            exact ih b c d a _ hl' hstep (by omega)

theorem prec_flip {S : List (List α)} {i j : Nat} (hij : i ≠ j) (h : ¬ prec lt S i j = true) : prec lt S j i = true := by
  have := prec_total (lt := lt) (S := S) hij
  rw [this] at h; simpa using h

/-- The chosen label on the first three sequences. -/
theorem start3_ord (hw : SWO lt) (S : List (List α)) : ∃ a b c, start3 (guarded lt) S = some (a, b, c) ∧
    List.Perm [a, b, c] [0, 1, 2] ∧ [a, b, c].Pairwise fun i j => prec lt S i j = true := by
  unfold start3
  rw [guarded_le (by decide), guarded_le (by decide), guarded_lt (by decide), guarded_le (by decide)]
  simp only [iff'_some]
  by_cases h01 : prec lt S 0 1 = true
  · rw [if_pos h01]
    by_cases h12 : prec lt S 1 2 = true
    · rw [if_pos h12]
      have := prec_trans hw (by decide) (by decide) (by decide) h01 h12
      exact ⟨0, 1, 2, rfl, by decide, by simp [*]⟩
    · rw [if_neg h12]
      have h21 := prec_flip (by decide) h12
      by_cases h20 : prec lt S 2 0 = true
      · rw [if_pos h20]
        exact ⟨2, 0, 1, rfl, by decide, by simp [*]⟩
      · rw [if_neg h20]
        have h02 := prec_flip (by decide) h20
        exact ⟨0, 2, 1, rfl, by decide, by simp [*]⟩
  · rw [if_neg h01]
    have h10 := prec_flip (by decide) h01
    by_cases h12 : prec lt S 1 2 = true
    · rw [if_pos h12]
      by_cases h02 : prec lt S 0 2 = true
      · rw [if_pos h02]
        exact ⟨1, 0, 2, rfl, by decide, by simp [*]⟩
      · rw [if_neg h02]
        have h20 := prec_flip (by decide) h02
        exact ⟨1, 2, 0, rfl, by decide, by simp [*]⟩
    · rw [if_neg h12]
      have h21 := prec_flip (by decide) h12
      have := prec_trans hw (by decide) (by decide) (by decide) h21 h10
      exact ⟨2, 1, 0, rfl, by decide, by simp [*]⟩

theorem start3_label (hw : SWO lt) {S : List (List α)} (hl : S.length = 3) :
    ∃ a b c, start3 (guarded lt) S = some (a, b, c) ∧ LabelOk lt S [a, b, c] := by
  obtain ⟨a, b, c, h1, h2, h3⟩ := start3_ord hw S
  exact ⟨a, b, c, h1, by rw [hl]; exact h2, h3⟩

/-- The decision for the fourth sequence is its insertion from the front. -/
theorem decision_eq (hw : SWO lt) (S : List (List α)) (a b c : Nat) (ha : a < 3) (hb : b < 3) (hc : c < 3) :
    ∃ p q r s, decision (guarded lt) S a b c 3 = some (p, q, r, s) ∧ ins lt S 3 [a, b, c] = [p, q, r, s] := by
  unfold decision
  rw [guarded_lt ha, guarded_lt hb, guarded_lt hc]
  simp only [iff'_some, ins]
  by_cases h1 : prec lt S 3 a = true
  · rw [if_pos h1, if_pos h1]; exact ⟨_, _, _, _, rfl, rfl⟩
  · rw [if_neg h1, if_neg h1]
    by_cases h2 : prec lt S 3 b = true
    · rw [if_pos h2, if_pos h2]; exact ⟨_, _, _, _, rfl, rfl⟩
    · rw [if_neg h2, if_neg h2]
      by_cases h3 : prec lt S 3 c = true
      · rw [if_pos h3, if_pos h3]; exact ⟨_, _, _, _, rfl, rfl⟩
      · rw [if_neg h3, if_neg h3]; exact ⟨_, _, _, _, rfl, rfl⟩

theorem start4_eq (S : List (List α)) : start4 (guarded lt) S =
    (start3 (guarded lt) S).bind fun l => decision (guarded lt) S l.1 l.2.1 l.2.2 3 := by
  unfold start4 start3
  rw [guarded_le (by decide), guarded_le (by decide), guarded_lt (by decide), guarded_le (by decide)]
  simp only [iff'_some]
  split_ifs <;> rfl

theorem start4_label (hw : SWO lt) {S : List (List α)} (hl : S.length = 4) :
    ∃ a b c d, start4 (guarded lt) S = some (a, b, c, d) ∧ LabelOk lt S [a, b, c, d] := by
  obtain ⟨a, b, c, h1, h2, h3⟩ := start3_ord hw S
  have hm : ∀ x ∈ [a, b, c], x < 3 := fun x hx => by
    have := h2.mem_iff.1 hx
    simp at this; omega
  obtain ⟨p, q, r, s, d1, d2⟩ := decision_eq hw S a b c (hm a (by simp)) (hm b (by simp)) (hm c (by simp))
  refine ⟨p, q, r, s, by rw [start4_eq, h1]; exact d1, ?_, ?_⟩
  · rw [hl, ← d2]
    refine (ins_perm S 3 [a, b, c]).trans ?_
    exact (h2.cons 3).trans (by decide)
  · rw [← d2]
    refine ins_sorted hw _ _ _ ?_ h3
    refine List.nodup_cons.2 ⟨fun h => by have := hm 3 h; omega, h2.nodup_iff.2 (by decide)⟩

theorem merge3_run (hw : SWO lt) {S : List (List α)} {n : Nat} (hl : S.length = 3) (hn : n ≤ S.flatten.length) :
    ∃ o S', merge3 (guarded lt) S n = some (o, S') ∧ o.length = n ∧ MergeRun lt true S o S' := by
  unfold merge3
  by_cases h0 : n = 0
  · rw [if_pos h0]; exact ⟨[], S, rfl, by simp [h0], .nil S⟩
  · rw [if_neg h0]
    obtain ⟨a, b, c, h1, h2⟩ := start3_label hw hl
    rw [h1]
    exact run3_run hw n a b c S hl h2 hn

theorem merge4_run (hw : SWO lt) {S : List (List α)} {n : Nat} (hl : S.length = 4) (hn : n ≤ S.flatten.length) :
    ∃ o S', merge4 (guarded lt) S n = some (o, S') ∧ o.length = n ∧ MergeRun lt true S o S' := by
  unfold merge4
  by_cases h0 : n = 0
  · rw [if_pos h0]; exact ⟨[], S, rfl, by simp [h0], .nil S⟩
  · rw [if_neg h0]
    obtain ⟨a, b, c, d, h1, h2⟩ := start4_label hw hl
    rw [h1]
    exact run4_run hw n a b c d S hl h2 hn

end Stxxl.MwMerge
