import Verif.MultiSeq.Inv
import Verif.MultiSeq.Spec
/-!
# C60 - C62: splitting sorted sequences at a global rank
-/
namespace Stxxl.MultiSeq
open Spec
variable {α : Type} {lt : α → α → Bool} {S : List (List α)}

/-! ### From the arrays to the parts -/

theorem mem_leftPart {A : Arr} {x : α} (h : x ∈ leftPart S ((List.range S.length).map A.a)) :
    ∃ i p, p < A.a i ∧ rd S i p = some x := by
  unfold leftPart at h
  obtain ⟨t, ht, hx⟩ := List.mem_flatten.1 h
  obtain ⟨i, hi⟩ := List.mem_iff_getElem?.1 ht
  rw [List.getElem?_zipWith] at hi
  by_cases hl : i < S.length
  · have hs : S[i]? = some S[i] := List.getElem?_eq_getElem hl
    rw [List.getElem?_map, List.getElem?_range hl, hs] at hi
    simp only [Option.map_some, Option.some.injEq] at hi
    subst hi
    obtain ⟨p, hp⟩ := List.mem_iff_getElem?.1 hx
    rw [List.getElem?_take] at hp
    split at hp
    · exact ⟨i, p, by assumption, by unfold rd; rw [hs]; exact hp⟩
    · cases hp
  · rw [List.getElem?_eq_none (l := S) (by omega)] at hi; cases hi

theorem mem_rightPart {A : Arr} {x : α} : x ∈ rightPart S ((List.range S.length).map A.a) ↔
    ∃ i q, A.a i ≤ q ∧ rd S i q = some x := by
  constructor
  · intro h
    unfold rightPart at h
    obtain ⟨t, ht, hx⟩ := List.mem_flatten.1 h
    obtain ⟨i, hi⟩ := List.mem_iff_getElem?.1 ht
    rw [List.getElem?_zipWith] at hi
    by_cases hl : i < S.length
    · have hs : S[i]? = some S[i] := List.getElem?_eq_getElem hl
      rw [List.getElem?_map, List.getElem?_range hl, hs] at hi
      simp only [Option.map_some, Option.some.injEq] at hi
      subst hi
      obtain ⟨p, hp⟩ := List.mem_iff_getElem?.1 hx
      rw [List.getElem?_drop] at hp
      exact ⟨i, A.a i + p, by omega, by unfold rd; rw [hs]; exact hp⟩
    · rw [List.getElem?_eq_none (l := S) (by omega)] at hi; cases hi
  · rintro ⟨i, q, hq, hx⟩
    obtain ⟨hi, _⟩ := rd_lt hx
    obtain ⟨s, hs, hxq⟩ := rd_some hx
    unfold rightPart
    refine List.mem_flatten.2 ⟨s.drop (A.a i), ?_, ?_⟩
    · refine List.mem_iff_getElem?.2 ⟨i, ?_⟩
      rw [List.getElem?_zipWith, List.getElem?_map, List.getElem?_range hi, hs]; rfl
    · refine List.mem_iff_getElem?.2 ⟨q - A.a i, ?_⟩
      rw [List.getElem?_drop, show A.a i + (q - A.a i) = q by omega]; exact hxq

theorem parts_perm : ∀ (S : List (List α)) (offs : List Nat), offs.length = S.length →
    List.Perm (leftPart S offs ++ rightPart S offs) S.flatten := by
  intro S
  induction S with
  | nil => intro offs _; simp [leftPart, rightPart]
  | cons s S ih =>
    intro offs h
    cases offs with
    | nil => cases h
    | cons k offs =>
      have := ih offs (by simpa using h)
      unfold leftPart rightPart at *
      simp only [List.zipWith_cons_cons, List.flatten_cons]
      refine List.Perm.trans ?_ (List.Perm.append_left s this)
      have h2 : s ++ ((List.zipWith (fun s k => List.take k s) S offs).flatten ++ (List.zipWith (fun s k => List.drop k s) S offs).flatten)
        = (s.take k ++ s.drop k) ++ ((List.zipWith (fun s k => List.take k s) S offs).flatten ++ (List.zipWith (fun s k => List.drop k s) S offs).flatten) := by
        rw [List.take_append_drop]
      rw [h2]
      classical
      exact List.perm_iff_count.2 fun x => by simp only [List.count_append]; omega

theorem leftPart_length : ∀ (S : List (List α)) (offs : List Nat), Points S offs → (leftPart S offs).length = offs.sum := by
  intro S
  induction S with
  | nil => intro offs h; have := h.1; simp at this; subst this; rfl
  | cons s S ih =>
    intro offs h
    cases offs with
    | nil => have := h.1; cases this
    | cons k offs =>
      have := ih offs ⟨by simpa using h.1, fun i t l ht hl => h.2 (i + 1) t l ht hl⟩
      unfold leftPart at *
      simp only [List.zipWith_cons_cons, List.flatten_cons, List.length_append, List.sum_cons, List.length_take]
      have := h.2 0 s k rfl rfl
      rw [Nat.min_eq_left this]; omega

theorem points_of_inv {A : Arr} (I : Inv lt S 1 A) : Points S ((List.range S.length).map A.a) := by
  refine ⟨by simp, ?_⟩
  intro i s k hs hk
  have hi := (List.getElem?_eq_some_iff.1 hs).1
  rw [List.getElem?_map, List.getElem?_range hi] at hk
  simp only [Option.map_some, Option.some.injEq] at hk
  subst hk
  have := I.le i hi
  rw [slen_eq hs] at this; exact this

/-- No element of the right part is less than one of the left part. -/
theorem order_of_inv (hw : SWO lt) (hS : ∀ s ∈ S, Sorted lt s) {A : Arr} (I : Inv lt S 1 A) {x y : α}
    (hx : x ∈ leftPart S ((List.range S.length).map A.a)) (hy : y ∈ rightPart S ((List.range S.length).map A.a)) :
    lt y x = false := by
  obtain ⟨i, p, hp, hx⟩ := mem_leftPart hx
  obtain ⟨j, q, hq, hy⟩ := mem_rightPart.1 hy
  obtain ⟨hi, hpl⟩ := rd_lt hx
  obtain ⟨hj, hql⟩ := rd_lt hy
  have hle := I.le i hi
  have hb := I.bb j hj
  obtain ⟨u, hu⟩ := rd_ex (S := S) (i := i) (k := A.a i - 1) (by omega)
  obtain ⟨v, hv⟩ := rd_ex (S := S) (i := j) (k := A.b j) (by omega)
  have h1 := I.ord i j u v hi hj (by omega) hu hv
  have h2 := rd_sorted hw hS hx hu (by omega)
  have h3 := rd_sorted hw hS hv hy (by omega)
  exact hw.negtrans _ _ _ (hw.negtrans _ _ _ h3 h1) h2

/-! ### C60: `multiseq_partition` -/

/-- **C60.** For every list of non-empty sorted sequences (any comparator that is a strict weak order, any lengths below 2^64) and
every rank up to the total number of elements, `multiseq_partition` performs no undefined operation and returns one splitting
point in every sequence such that exactly `rank` elements lie before the points, all elements are either before or after, and no
element after a point is less than an element before one. -/
theorem C60_partition (hw : SWO lt) {rank : Nat} (hS : ∀ s ∈ S, Sorted lt s) (hne : ∀ s ∈ S, s ≠ [])
    (hlen : ∀ s ∈ S, s.length < 2 ^ 64) (hr : rank ≤ (S.map List.length).sum) :
    ∃ offs, partition lt S rank = some offs ∧ Points S offs ∧ (leftPart S offs).length = rank ∧
      List.Perm (leftPart S offs ++ rightPart S offs) S.flatten ∧
      ∀ x ∈ leftPart S offs, ∀ y ∈ rightPart S offs, lt y x = false := by
  unfold partition
  by_cases h : rank = total S
  · rw [if_pos h]
    have hP : Points S (S.map List.length) := by
      refine ⟨by simp, ?_⟩
      intro i s k hs hk
      rw [List.getElem?_map, hs] at hk
      simp only [Option.map_some, Option.some.injEq] at hk
      omega
    refine ⟨_, rfl, hP, by rw [leftPart_length S _ hP, h]; rfl, parts_perm S _ hP.1, ?_⟩
    intro x _ y hy
    exfalso
    have h0 : rightPart S (S.map List.length) = [] := by
      have : ∀ S : List (List α), rightPart S (S.map List.length) = [] := by
        intro S
        induction S with
        | nil => rfl
        | cons s S ih =>
          unfold rightPart at *
          rw [List.map_cons, List.zipWith_cons_cons, List.flatten_cons, ih, List.drop_length]; rfl
      exact this S
    rw [h0] at hy; cases hy
  · have hr' : rank < total S := by unfold total at *; omega
    rw [if_neg h, if_neg (by omega)]
    obtain ⟨A, h1, I, h3⟩ := split_spec hw (rear := true) hS hne hlen hr'
    rw [h1]
    have hP := points_of_inv I
    refine ⟨_, rfl, hP, by rw [leftPart_length S _ hP, h3], parts_perm S _ hP.1, ?_⟩
    intro x hx y hy
    exact order_of_inv hw hS I hx hy

/-- The hypotheses hold and the result is not trivial: three sequences of different lengths, with equal elements. -/
example : partition (fun a b : Nat => decide (a < b)) [[1, 4, 4, 9], [2], [3, 4, 8]] 4 = some [2, 1, 1] := by decide +kernel

/-! ### C61: `multiseq_selection` -/

theorem lowerBound_eq (hw : SWO lt) {s : List α} (hs : Sorted lt s) (v : α) :
    lowerBound lt s v = s.countP fun x => lt x v := by
  unfold lowerBound
  induction s with
  | nil => rfl
  | cons x s ih =>
    have h := List.pairwise_cons.1 hs
    rw [List.takeWhile_cons]
    cases hx : lt x v with
    | true => simp [hx, ih h.2]
    | false =>
      rw [List.countP_cons_of_neg (by simp [hx])]
      have : s.countP (fun x => lt x v) = 0 := by
        rw [List.countP_eq_zero]
        intro y hy
        have := hw.negtrans _ _ _ (h.1 y hy) hx
        simp [this]
      rw [this]; rfl

theorem sum_sub (f g : Nat → Nat) : ∀ (l : List Nat),
    (l.map fun i => ((f i : Int) - (g i : Int))).sum = ((l.map f).sum : Int) - ((l.map g).sum : Int) := by
  intro l
  induction l with
  | nil => rfl
  | cons i l ih => simp only [List.map_cons, List.sum_cons, ih]; omega

theorem sum_lower (hw : SWO lt) (hS : ∀ s ∈ S, Sorted lt s) (v : α) :
    ((List.range S.length).map fun i => lowerBound lt (S[i]?.getD []) v).sum = S.flatten.countP fun x => lt x v := by
  have h1 : ((List.range S.length).map fun i => lowerBound lt (S[i]?.getD []) v) = S.map fun s => lowerBound lt s v := by
    apply List.ext_getElem?
    intro i
    simp only [List.getElem?_map]
    by_cases hi : i < S.length
    · rw [List.getElem?_range hi, List.getElem?_eq_getElem hi]; simp [List.getElem?_eq_getElem hi]
    · rw [List.getElem?_eq_none (by simp; omega), List.getElem?_eq_none (by omega)]; rfl
  rw [h1]
  clear h1
  induction S with
  | nil => rfl
  | cons s S ih =>
    simp only [List.map_cons, List.sum_cons, List.flatten_cons, List.countP_append]
    rw [ih (fun t ht => hS t (List.mem_cons_of_mem _ ht)), lowerBound_eq hw (hS s (List.mem_cons_self ..))]

theorem countP_split {l : List α} {v : α} (h : ∀ x ∈ l, lt v x = false) :
    l.length = (l.countP fun x => lt x v) + l.countP fun x => equiv lt x v := by
  induction l with
  | nil => rfl
  | cons x l ih =>
    have := ih (fun y hy => h y (List.mem_cons_of_mem _ hy))
    have hx := h x (List.mem_cons_self ..)
    rw [List.countP_cons, List.countP_cons, List.length_cons]
    cases hlt : lt x v <;> simp [equiv, hlt, hx] at this ⊢ <;> omega

/-- **C61.** For every list of non-empty sorted sequences and every rank below the total number of elements, `multiseq_selection`
performs no undefined operation, and returns an element `v` of the sequences and an offset such that the elements less than `v`
plus the offset make exactly `rank`, and the offset is smaller than the number of elements equivalent to `v`. -/
theorem C61_selection (hw : SWO lt) {rank : Nat} (hS : ∀ s ∈ S, Sorted lt s) (hne : ∀ s ∈ S, s ≠ [])
    (hlen : ∀ s ∈ S, s.length < 2 ^ 64) (hr : rank < (S.map List.length).sum) :
    ∃ v off, selection lt S rank = some (.found v (off : Nat)) ∧ v ∈ S.flatten ∧
      (S.flatten.countP fun x => lt x v) + off = rank ∧ off < S.flatten.countP fun x => equiv lt x v := by
  have hr' : rank < total S := hr
  unfold selection
  have hl0 : S.length ≠ 0 := by
    intro h
    have := List.length_eq_zero_iff.1 h
    subst this; simp [total] at hr'
  rw [if_neg (by omega)]
  obtain ⟨A, h1, I, h3⟩ := split_spec hw (rear := false) hS hne hlen hr'
  rw [h1]
  dsimp only
  obtain ⟨ml, m1, m2, _, m4⟩ := maxLeft_spec hw (rear := false) (S := S) (A := A) (List.range S.length) none
    (fun i hi => I.le i (List.mem_range.1 hi))
  obtain ⟨mr, n1, n2, _, n4⟩ := minRight_spec hw (S := S) (A := A) (List.range S.length) none
  rw [m1, n1]
  have hP := points_of_inv I
  have hlen' := leftPart_length S _ hP
  rw [h3] at hlen'
  have hperm := parts_perm S _ hP.1
  -- the right part is not empty
  have hright : ∃ y, y ∈ rightPart S ((List.range S.length).map A.a) := by
    have h := hperm.length_eq
    rw [List.length_append, hlen', List.length_flatten] at h
    have : (S.map List.length).sum = total S := rfl
    obtain ⟨y, hy⟩ := List.exists_mem_of_length_pos (l := rightPart S ((List.range S.length).map A.a)) (by omega)
    exact ⟨y, hy⟩
  -- every element of the right part has a smaller right neighbour
  have hnb : ∀ y ∈ rightPart S ((List.range S.length).map A.a), ∃ i w, i < S.length ∧ rd S i (A.b i) = some w ∧ lt y w = false := by
    intro y hy
    obtain ⟨i, q, hq, hyq⟩ := mem_rightPart.1 hy
    obtain ⟨hi, hql⟩ := rd_lt hyq
    have hb := I.bb i hi
    obtain ⟨w, hwr⟩ := rd_ex (S := S) (i := i) (k := A.b i) (by omega)
    exact ⟨i, w, hi, hwr, rd_sorted hw hS hwr hyq (by omega)⟩
  obtain ⟨v, hmr⟩ : ∃ v, mr = some v := by
    obtain ⟨y, hy⟩ := hright
    obtain ⟨i, w, hi, hwr, _⟩ := hnb y hy
    obtain ⟨v, hv, _⟩ := n2 i (List.mem_range.2 hi) w hwr
    exact ⟨v, hv⟩
  subst hmr
  dsimp only
  have hvR : v ∈ rightPart S ((List.range S.length).map A.a) := by
    rcases n4 v rfl with h | ⟨i, hi, h⟩
    · cases h
    · have := I.bb i (List.mem_range.1 hi)
      exact mem_rightPart.2 ⟨i, A.b i, by omega, h⟩
  have hmin : ∀ y ∈ rightPart S ((List.range S.length).map A.a), lt y v = false := by
    intro y hy
    obtain ⟨i, w, hi, hwr, hyw⟩ := hnb y hy
    obtain ⟨v', hv', hwv⟩ := n2 i (List.mem_range.2 hi) w hwr
    injection hv' with hv'; subst hv'
    exact hw.negtrans _ _ _ hyw hwv
  have hleft : ∀ x ∈ leftPart S ((List.range S.length).map A.a), lt v x = false :=
    fun x hx => order_of_inv hw hS I hx hvR
  -- counting
  have hless : (S.flatten.countP fun x => lt x v) = (leftPart S ((List.range S.length).map A.a)).countP fun x => lt x v := by
    rw [← hperm.countP_eq, List.countP_append]
    have : (rightPart S ((List.range S.length).map A.a)).countP (fun x => lt x v) = 0 := by
      rw [List.countP_eq_zero]; intro y hy; simp [hmin y hy]
    omega
  have heq : (leftPart S ((List.range S.length).map A.a)).countP (fun x => equiv lt x v) <
      S.flatten.countP fun x => equiv lt x v := by
    rw [← hperm.countP_eq, List.countP_append]
    have : 0 < (rightPart S ((List.range S.length).map A.a)).countP (fun x => equiv lt x v) := by
      rw [List.countP_pos_iff]; exact ⟨v, hvR, by simp [equiv, hw.irrefl v]⟩
    omega
  have hsplit := countP_split hleft
  rw [hlen'] at hsplit
  refine ⟨v, (leftPart S ((List.range S.length).map A.a)).countP fun x => equiv lt x v, ?_,
    hperm.mem_iff.1 (List.mem_append_right _ hvR), by omega, heq⟩
  -- the computed offset
  have hoff : selOffset lt S A ml v = ((leftPart S ((List.range S.length).map A.a)).countP fun x => equiv lt x v : Nat) := by
    unfold selOffset
    dsimp only
    cases ml with
    | none =>
      have h0 : rank = 0 := by
        rcases Nat.eq_zero_or_pos rank with h | h
        · exact h
        · exfalso
          obtain ⟨i, hi, ha⟩ := sum_pos (m := S.length) (g := A.a) (by rw [h3]; exact h)
          obtain ⟨x, hx⟩ := rd_ex (S := S) (i := i) (k := A.a i - 1) (by have := I.le i hi; omega)
          obtain ⟨w, hww, _⟩ := m2 i (List.mem_range.2 hi) ha x hx
          cases hww
      dsimp only; omega
    | some w =>
      dsimp only
      have hvw : lt v w = false := by
        rcases m4 w rfl with h | ⟨i, hi, ha, hrd⟩
        · cases h
        · obtain ⟨j, q, hq, hvq⟩ := mem_rightPart.1 hvR
          obtain ⟨hj, hql⟩ := rd_lt hvq
          have hb := I.bb j hj
          obtain ⟨u, hu⟩ := rd_ex (S := S) (i := j) (k := A.b j) (by omega)
          exact hw.negtrans _ _ _ (rd_sorted hw hS hu hvq (by omega)) (I.ord i j w u (List.mem_range.1 hi) hj ha hrd hu)
      rw [if_neg (by simp [hvw]), sum_sub A.a (fun i => lowerBound lt (S[i]?.getD []) v), h3, sum_lower hw hS]
      omega
  rw [hoff]

/-- **C61.** The same in terms of the merged sequence: in every sorted arrangement `l` of all elements, the element at position
`rank` is equivalent to the returned value, and the offset is the number of equivalent elements before that position. -/
theorem C61_selection_rank (hw : SWO lt) {rank : Nat} (hS : ∀ s ∈ S, Sorted lt s) (hne : ∀ s ∈ S, s ≠ [])
    (hlen : ∀ s ∈ S, s.length < 2 ^ 64) (hr : rank < (S.map List.length).sum)
    {l : List α} (hl : List.Perm l S.flatten) (hls : Sorted lt l) :
    ∃ v x off, selection lt S rank = some (.found v (off : Nat)) ∧ l[rank]? = some x ∧ equiv lt x v = true ∧
      off = (l.take rank).countP fun y => equiv lt y v := by
  obtain ⟨v, off, h1, _, h3, h4⟩ := C61_selection hw hS hne hlen hr
  have hlr : rank < l.length := by rw [hl.length_eq, List.length_flatten]; exact hr
  have e1 : l.take rank ++ l.drop rank = l := List.take_append_drop ..
  have hdrop : l.drop rank = l[rank] :: l.drop (rank + 1) := List.drop_eq_getElem_cons hlr
  have hsort : Sorted lt (l.take rank ++ l.drop rank) := by rw [e1]; exact hls
  obtain ⟨hs1, hs2, hs3⟩ := List.pairwise_append.1 hsort
  have hbefore : ∀ y ∈ l.take rank, lt l[rank] y = false := fun y hy => hs3 y hy _ (by rw [hdrop]; exact List.mem_cons_self ..)
  have hafter : ∀ y ∈ l.drop rank, lt y l[rank] = false := by
    intro y hy
    rw [hdrop] at hy hs2
    rcases List.mem_cons.1 hy with h | h
    · rw [h]; exact hw.irrefl _
    · exact (List.pairwise_cons.1 hs2).1 y h
  have hc : ∀ p : α → Bool, S.flatten.countP p = (l.take rank).countP p + (l.drop rank).countP p := by
    intro p; rw [← hl.countP_eq, ← List.countP_append, e1]
  have htake : (l.take rank).length = rank := by rw [List.length_take]; omega
  have hx1 : lt l[rank] v = false := by
    cases h : lt l[rank] v with
    | false => rfl
    | true =>
      exfalso
      have ha : (l.take rank).countP (fun x => lt x v) = (l.take rank).length :=
        List.countP_eq_length.2 fun y hy => hw.lt_of_le_of_lt (hbefore y hy) h
      have hb : 0 < (l.drop rank).countP (fun x => lt x v) := by
        rw [List.countP_pos_iff]; exact ⟨_, by rw [hdrop]; exact List.mem_cons_self .., h⟩
      have := hc fun x => lt x v
      omega
  have hx2 : lt v l[rank] = false := by
    cases h : lt v l[rank] with
    | false => rfl
    | true =>
      exfalso
      have hz : ∀ y ∈ l.drop rank, lt v y = true := fun y hy => hw.lt_of_lt_of_le h (hafter y hy)
      have ha : (l.drop rank).countP (fun x => lt x v) = 0 := by
        rw [List.countP_eq_zero]; intro y hy; simp [hw.asymm _ _ (hz y hy)]
      have hb : (l.drop rank).countP (fun x => equiv lt x v) = 0 := by
        rw [List.countP_eq_zero]; intro y hy; simp [equiv, hz y hy]
      have h5 := hc fun x => lt x v
      have h6 := hc fun x => equiv lt x v
      have h7 : (l.take rank).countP (fun x => lt x v) + (l.take rank).countP (fun x => equiv lt x v) ≤ rank := by
        have : ∀ t : List α, t.countP (fun x => lt x v) + t.countP (fun x => equiv lt x v) ≤ t.length := by
          intro t
          induction t with
          | nil => simp
          | cons z t ih =>
            rw [List.countP_cons, List.countP_cons, List.length_cons]
            cases hz1 : lt z v <;> simp [equiv, hz1] at ih ⊢ <;> (try split) <;> omega
        have := this (l.take rank)
        omega
      omega
  refine ⟨v, l[rank], off, h1, List.getElem?_eq_getElem hlr, by simp [equiv, hx1, hx2], ?_⟩
  have hsp := countP_split (lt := lt) (v := v) (l := l.take rank) (fun y hy => hw.negtrans _ _ _ hx2 (hbefore y hy))
  have hz : (l.drop rank).countP (fun x => lt x v) = 0 := by
    rw [List.countP_eq_zero]; intro y hy; simp [hw.negtrans _ _ _ (hafter y hy) hx1]
  have := hc fun x => lt x v
  omega

/-- Outside the legal ranks the call throws. -/
theorem C61_selection_throws {rank : Nat} (hr : (S.map List.length).sum ≤ rank) : selection lt S rank = some .thrown := by
  unfold selection
  rw [if_pos (by unfold total; omega)]

/-- Four equivalent elements are spread over three sequences; rank 4 is the third of them. -/
example : ∃ v off, selection (fun a b : Nat => decide (a < b)) [[1, 4, 4, 9], [2, 4], [4, 8]] 4 = some (.found v off) ∧ v = 4 ∧ off = 2 :=
  ⟨4, 2, by decide +kernel, rfl, rfl⟩

/-! ### C62: the documented tie rule does not hold -/

/-- **C62.** The documentation (multiseq_selection.h:85-90) promises that of several equal elements across the split the ones on the
left side come from sequences with smaller number. It is false: for `[2]`, `[2]`, `[0,2]` and rank 3 the split is `[1, 0, 2]`, which
puts the `2` of the third sequence to the left and the `2` of the second one to the right. -/
theorem C62_not_stable : ∃ (S : List (List Nat)) (rank : Nat) (offs : List Nat),
    (∀ s ∈ S, Sorted (fun a b => decide (a < b)) s ∧ s ≠ [] ∧ s.length < 2 ^ 64) ∧ rank ≤ (S.map List.length).sum ∧
      partition (fun a b => decide (a < b)) S rank = some offs ∧ ¬ StableSplit (fun a b => decide (a < b)) S offs := by
  refine ⟨[[2], [2], [0, 2]], 3, [1, 0, 2], ?_, by decide, by decide +kernel, ?_⟩
  · intro s hs
    simp only [List.mem_cons, List.not_mem_nil, or_false] at hs
    rcases hs with rfl | rfl | rfl <;> refine ⟨by unfold Sorted; simp, by simp, by simp⟩
  · intro h
    have := h 2 1 1 0 2 0 [0, 2] [2] 2 2 rfl rfl rfl rfl (by decide) rfl (by decide) rfl (by decide)
    omega

end Stxxl.MultiSeq
