import Verif.PQ.QSpace

/-! # Emptying the insert heap -/

namespace Stxxl.PQ
open Stxxl.LT (upd Below)

variable {α : Type} {C : Cmp α} {c : Cfg}

/-- Two sequences as a family. -/
def two (a b : List α) (i : Nat) : List α := if i = 0 then a else if i = 1 then b else []

theorem two_upd0 (a b t : List α) : upd (two a b) 0 t = two t b := by
  funext i; unfold two upd; by_cases h : i = 0 <;> simp [h]

theorem two_upd1 (a b t : List α) : upd (two a b) 1 t = two a t := by
  funext i; unfold two upd
  by_cases h : i = 0
  · simp [h]
  · by_cases h1 : i = 1 <;> simp [h, h1]

theorem takes_left {a b xs : List α} {e' : Nat → List α} {x : α} {t : List α} (ha : a = x :: t) (hb : ∀ y ∈ b.head?, C.less x y = false)
    (hirr : C.less x x = false) (h : Takes C [0, 1] (two t b) xs e') : Takes C [0, 1] (two a b) (x :: xs) e' := by
  refine .cons 0 x t (by simp) (by simp [two, ha]) ?_ (by rw [two_upd0]; exact h)
  intro j hj y hy
  simp only [List.mem_cons, List.not_mem_nil, or_false] at hj
  rcases hj with rfl | rfl
  · have : y = x := by simpa [two, ha] using hy.symm
    rw [this]; exact hirr
  · exact hb y (by simpa [two] using hy)

theorem takes_right {a b xs : List α} {e' : Nat → List α} {x : α} {t : List α} (hb : b = x :: t) (ha : ∀ y ∈ a.head?, C.less x y = false)
    (hirr : C.less x x = false) (h : Takes C [0, 1] (two a t) xs e') : Takes C [0, 1] (two a b) (x :: xs) e' := by
  refine .cons 1 x t (by simp) (by simp [two, hb]) ?_ (by rw [two_upd1]; exact h)
  intro j hj y hy
  simp only [List.mem_cons, List.not_mem_nil, or_false] at hj
  rcases hj with rfl | rfl
  · exact ha y (by simpa [two] using hy)
  · have : y = x := by simpa [two, hb] using hy.symm
    rw [this]; exact hirr

theorem irr (hC : C.Ok) (x : α) : C.less x x = false := by
  cases h : C.less x x with
  | false => rfl
  | true => have := hC.asymm x x h; rw [h] at this; cases this

/-- What the comparison of the current elements of two arrays with sentinels decides. -/
theorem cmp_cases (hC : C.Ok) {A B : List α} (hA : ∀ x ∈ A, C.Real x) (hB : ∀ x ∈ B, C.Real x) {p0 p1 : Nat} (h0 : p0 ≤ A.length)
    (h1 : p1 ≤ B.length) (hn : p0 < A.length ∨ p1 < B.length) :
    ∃ a b, (A ++ [C.minv])[p0]? = some a ∧ (B ++ [C.minv])[p1]? = some b ∧
      (C.less a b = true → p1 < B.length ∧ B.drop p1 = b :: B.drop (p1 + 1) ∧ ∀ y ∈ (A.drop p0).head?, C.less b y = false) ∧
      (C.less a b = false → p0 < A.length ∧ A.drop p0 = a :: A.drop (p0 + 1) ∧ ∀ y ∈ (B.drop p1).head?, C.less a y = false) := by
  have rd : ∀ (L : List α) (q : Nat), q ≤ L.length →
      ∃ z, (L ++ [C.minv])[q]? = some z ∧ ((q < L.length ∧ L.drop q = z :: L.drop (q + 1) ∧ z ∈ L) ∨ (q = L.length ∧ z = C.minv ∧ L.drop q = [])) := by
    intro L q hq
    by_cases hlt : q < L.length
    · refine ⟨L[q], ?_, Or.inl ⟨hlt, List.drop_eq_getElem_cons hlt, List.getElem_mem _⟩⟩
      rw [List.getElem?_append_left hlt, List.getElem?_eq_getElem hlt]
    · have : q = L.length := by omega
      refine ⟨C.minv, ?_, Or.inr ⟨this, rfl, List.drop_eq_nil_of_le (by omega)⟩⟩
      rw [List.getElem?_append_right (by omega), this]; simp
  obtain ⟨a, ea, ha⟩ := rd A p0 h0
  obtain ⟨b, eb, hb⟩ := rd B p1 h1
  refine ⟨a, b, ea, eb, ?_, ?_⟩
  · intro hlt
    rcases hb with ⟨b1, b2, b3⟩ | ⟨b1, b2, b3⟩
    · refine ⟨b1, b2, ?_⟩
      intro y hy
      rcases ha with ⟨a1, a2, a3⟩ | ⟨a1, a2, a3⟩
      · rw [a2] at hy; simp at hy; subst hy
        exact hC.asymm _ _ hlt
      · rw [a3] at hy; cases hy
    · exfalso
      rcases ha with ⟨a1, a2, a3⟩ | ⟨a1, a2, a3⟩
      · have := hC.asymm _ _ (hA a a3); rw [b2] at hlt; rw [hlt] at this; cases this
      · omega
  · intro hge
    rcases ha with ⟨a1, a2, a3⟩ | ⟨a1, a2, a3⟩
    · refine ⟨a1, a2, ?_⟩
      intro y hy
      rcases hb with ⟨b1, b2, b3⟩ | ⟨b1, b2, b3⟩
      · rw [b2] at hy; simp at hy; subst hy; exact hge
      · rw [b3] at hy; cases hy
    · exfalso
      rcases hb with ⟨b1, b2, b3⟩ | ⟨b1, b2, b3⟩
      · have := hB b b3; unfold Cmp.Real at this; rw [a2, this] at hge; cases hge
      · omega

theorem mergeRead_ok (hC : C.Ok) {A B : List α} (hA : ∀ x ∈ A, C.Real x) (hB : ∀ x ∈ B, C.Real x) : ∀ (n p0 p1 : Nat), p0 ≤ A.length →
    p1 ≤ B.length → n ≤ (A.length - p0) + (B.length - p1) →
    ∃ xs q0 q1, mergeRead C (A ++ [C.minv]) (B ++ [C.minv]) n p0 p1 = some (xs, q0, q1) ∧ q0 ≤ A.length ∧ q1 ≤ B.length ∧ xs.length = n ∧
      q0 + q1 = p0 + p1 + n ∧ Takes C [0, 1] (two (A.drop p0) (B.drop p1)) xs (two (A.drop q0) (B.drop q1))
  | 0, p0, p1, h0, h1, _ => ⟨[], p0, p1, rfl, h0, h1, rfl, by omega, .nil _⟩
  | n + 1, p0, p1, h0, h1, hn => by
    obtain ⟨a, b, ea, eb, hlt, hge⟩ := cmp_cases hC hA hB h0 h1 (by omega)
    cases hab : C.less a b with
    | true =>
      obtain ⟨g1, g2, g3⟩ := hlt hab
      obtain ⟨xs, q0, q1, e, r0, r1, rl, rs, T⟩ := mergeRead_ok hC hA hB n p0 (p1 + 1) h0 (by omega) (by omega)
      exact ⟨b :: xs, q0, q1, by simp only [mergeRead, ea, eb, hab, if_true, e], r0, r1, by simp [rl], by omega,
        takes_right g2 g3 (irr hC b) T⟩
    | false =>
      obtain ⟨g1, g2, g3⟩ := hge hab
      obtain ⟨xs, q0, q1, e, r0, r1, rl, rs, T⟩ := mergeRead_ok hC hA hB n (p0 + 1) p1 (by omega) h1 (by omega)
      exact ⟨a :: xs, q0, q1, by simp only [mergeRead, ea, eb, hab, Bool.false_eq_true, if_false, e], r0, r1, by simp [rl], by omega,
        takes_left g2 g3 (irr hC a) T⟩

/-- The in-place merge never overtakes its input. -/
theorem mergeWrite_ok (hC : C.Ok) {A B : List α} (hA : ∀ x ∈ A, C.Real x) (hB : ∀ x ∈ B, C.Real x) : ∀ (n p0 p1 w : Nat) (s : List α),
    p0 ≤ A.length → p1 ≤ B.length → s.length = B.length + 1 → s.drop p1 = (B ++ [C.minv]).drop p1 → w + (A.length - p0) = p1 →
    w + n = B.length →
    ∃ xs, mergeWrite C (A ++ [C.minv]) n p0 p1 w s = some (s.take w ++ xs ++ [C.minv]) ∧ xs.length = n ∧
      Takes C [0, 1] (two (A.drop p0) (B.drop p1)) xs (two [] [])
  | 0, p0, p1, w, s, h0, h1, hl, hd, hw, hn => by
    have e1 : p1 = B.length := by omega
    have e0 : p0 = A.length := by omega
    have ew : w = B.length := by omega
    refine ⟨[], ?_, rfl, ?_⟩
    · simp only [mergeWrite, List.append_nil]
      congr 1
      have h2 : s.drop B.length = [C.minv] := by rw [e1] at hd; rw [hd]; simp
      rw [ew, ← h2]; exact (List.take_append_drop _ _).symm
    · rw [e0, e1, List.drop_length, List.drop_length]; exact .nil _
  | n + 1, p0, p1, w, s, h0, h1, hl, hd, hw, hn => by
    obtain ⟨a, b, ea, eb, hlt, hge⟩ := cmp_cases hC hA hB h0 h1 (by omega)
    have eb' : s[p1]? = some b := by
      have : (s.drop p1)[0]? = some b := by rw [hd, List.getElem?_drop]; simpa using eb
      rwa [List.getElem?_drop, Nat.add_zero] at this
    have hset : ∀ z, (s.set w z).take (w + 1) = s.take w ++ [z] := by
      intro z
      rw [List.take_succ, List.take_set_of_le (Nat.le_refl _)]
      simp [List.getElem?_set, show w < s.length by omega]
    cases hab : C.less a b with
    | true =>
      obtain ⟨g1, g2, g3⟩ := hlt hab
      obtain ⟨xs, e, el, T⟩ := mergeWrite_ok hC hA hB n p0 (p1 + 1) (w + 1) (s.set w b) h0 (by omega) (by simp [hl])
        (by rw [List.drop_set_of_lt (by omega)]
            have := congrArg (List.drop 1) hd
            rwa [List.drop_drop, List.drop_drop] at this) (by omega) (by omega)
      refine ⟨b :: xs, ?_, by simp [el], takes_right g2 g3 (irr hC b) T⟩
      simp only [mergeWrite, ea, eb', hab, if_true]
      rw [if_neg (by omega), e, hset]; simp
    | false =>
      obtain ⟨g1, g2, g3⟩ := hge hab
      obtain ⟨xs, e, el, T⟩ := mergeWrite_ok hC hA hB n (p0 + 1) p1 (w + 1) (s.set w a) (by omega) h1 (by simp [hl])
        (by rw [List.drop_set_of_lt (by omega)]; exact hd) (by omega) (by omega)
      refine ⟨a :: xs, ?_, by simp [el], takes_left g2 g3 (irr hC a) T⟩
      simp only [mergeWrite, ea, eb', hab, Bool.false_eq_true, if_false]
      rw [if_neg (by omega), e, hset]; simp

/-- The best `|P|` elements are not below what `|P|` elements are not below. -/
theorem best_ge (hC : C.Ok) {P Q A R : List α} (hd : Desc C (P ++ Q)) (hp : (P ++ Q).Perm (A ++ R)) (hl : P.length = A.length) {y : α}
    (hy : ∀ x ∈ A, C.less x y = false) : ∀ x ∈ P, C.less x y = false := by
  intro x hx
  by_contra hxy
  have hxy : C.less x y = true := by simpa using hxy
  have hQ : ∀ q ∈ Q, C.less q y = true := by
    intro q hq
    have h1 := (List.pairwise_append.1 hd).2.2 x hx q hq
    by_contra hc
    have hc : C.less q y = false := by simpa using hc
    have := hC.negtrans x q y h1 hc
    rw [hxy] at this; cases this
  have hcount := hp.countP_eq (fun z => !C.less z y)
  rw [List.countP_append, List.countP_append] at hcount
  have c1 : Q.countP (fun z => !C.less z y) = 0 := by
    rw [List.countP_eq_zero]; intro q hq; simp [hQ q hq]
  have c2 : A.countP (fun z => !C.less z y) = A.length := by
    rw [List.countP_eq_length]; intro z hz; simp [hy z hz]
  have c3 : P.countP (fun z => !C.less z y) ≠ P.length := by
    intro e
    have := (List.countP_eq_length.1 e) x hx
    simp [hxy] at this
  have c4 := List.countP_le_length (l := P) (p := fun z => !C.less z y)
  omega

/-- A sorted permutation of the sentinel and real elements has the sentinel at the end. -/
theorem last_min (hC : C.Ok) {l hs : List α} (hd : Desc C l) (hp : l.Perm (C.minv :: hs)) (hr : ∀ x ∈ hs, C.Real x) :
    ∃ B, l = B ++ [C.minv] ∧ B.Perm hs := by
  have hne : l ≠ [] := by intro e; rw [e] at hp; have := hp.length_eq; simp at this
  obtain ⟨B, z, rfl⟩ : ∃ B z, l = B ++ [z] := ⟨l.dropLast, l.getLast hne, (List.dropLast_append_getLast hne).symm⟩
  have hz : z = C.minv := by
    have hmem : z ∈ C.minv :: hs := hp.mem_iff.1 (by simp)
    rcases List.mem_cons.1 hmem with h | h
    · exact h
    · have hzr := hr z h
      have hm : C.minv ∈ B ++ [z] := hp.mem_iff.2 (by simp)
      rcases List.mem_append.1 hm with h2 | h2
      · have := (List.pairwise_append.1 hd).2.2 _ h2 z (by simp)
        unfold Cmp.Real at hzr; rw [hzr] at this; cases this
      · simp at h2; exact h2.symm
  subst hz
  refine ⟨B, rfl, ?_⟩
  have : (C.minv :: B).Perm (C.minv :: hs) := (List.perm_append_singleton _ _).symm.trans hp
  exact this.cons_inv

end Stxxl.PQ
