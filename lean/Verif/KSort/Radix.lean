import Verif.KSort.Small

/-!
# Counting, distribution and the sorts built from them
-/

namespace Stxxl.KSort

variable {α : Type} {lt : α → α → Bool}

/-- The array `[c 0, …, c (K-1)]`. -/
def tab {β : Type} (K : Nat) (c : Nat → β) : List β := (List.range' 0 K).map c

theorem tab_length {β : Type} (K : Nat) (c : Nat → β) : (tab K c).length = K := by simp [tab]

theorem tab_get {β : Type} {K : Nat} (c : Nat → β) {i : Nat} (h : i < K) : (tab K c)[i]? = some (c i) := by
  simp [tab, h]

theorem tab_set {β : Type} {K : Nat} (c : Nat → β) {i : Nat} (h : i < K) (v : β) :
    (tab K c).set i v = tab K (fun j => if j = i then v else c j) := by
  apply List.ext_getElem?
  intro j
  by_cases hj : j < K
  · rw [tab_get _ hj, List.getElem?_set]
    by_cases e : i = j
    · subst e; simp [tab_length, h]
    · rw [if_neg e, tab_get _ hj, if_neg (fun x => e x.symm)]
  · rw [List.getElem?_eq_none (by rw [List.length_set, tab_length]; omega), List.getElem?_eq_none (by rw [tab_length]; omega)]

theorem tab_congr {β : Type} {K : Nat} {c c' : Nat → β} (h : ∀ j, j < K → c j = c' j) : tab K c = tab K c' := by
  apply List.map_congr_left
  intro a ha
  rw [List.mem_range'_1] at ha
  exact h a (by omega)

theorem tab_zero (K : Nat) : List.replicate K 0 = tab K (fun _ => 0) := by
  apply List.ext_getElem?
  intro j
  by_cases hj : j < K
  · rw [tab_get _ hj]; simp [hj]
  · rw [List.getElem?_eq_none (by simp; omega), List.getElem?_eq_none (by rw [tab_length]; omega)]

/-- The elements of bucket `j`, in order. -/
def bk (f : α → Nat) (j : Nat) (l : List α) : List α := l.filter (fun x => f x == j)

theorem bk_cons (f : α → Nat) (j : Nat) (x : α) (l : List α) : bk f j (x :: l) = if f x = j then x :: bk f j l else bk f j l := by
  unfold bk; rw [List.filter_cons]; simp only [beq_iff_eq]

theorem bk_append (f : α → Nat) (j : Nat) (l m : List α) : bk f j (l ++ m) = bk f j l ++ bk f j m := List.filter_append ..

theorem mem_bk {f : α → Nat} {j : Nat} {l : List α} {x : α} : x ∈ bk f j l ↔ x ∈ l ∧ f x = j := by simp [bk]

/-- `idx` puts every element of `l` into one of `K` buckets, as `f` says. -/
def Idx (idx : α → Option Nat) (f : α → Nat) (K : Nat) (l : List α) : Prop := ∀ x ∈ l, idx x = some (f x) ∧ f x < K

theorem count_spec {idx : α → Option Nat} {f : α → Nat} {K : Nat} : ∀ (l : List α) (c : Nat → Nat), Idx idx f K l →
    count idx l (tab K c) = some (tab K fun j => c j + (bk f j l).length) := by
  intro l
  induction l with
  | nil => intro c _; simp [count, bk]
  | cons x xs ih =>
    intro c h
    obtain ⟨h1, h2⟩ := h x (by simp)
    simp only [count, h1, inc, tab_get c h2, tab_set c h2]
    rw [ih _ (fun y hy => h y (by simp [hy]))]
    congr 1
    apply tab_congr
    intro j _
    rw [bk_cons]
    by_cases e : f x = j
    · subst e; simp; omega
    · rw [if_neg e, if_neg (fun h : j = f x => e h.symm)]

/-- Sum of the first `j` counts. -/
def psum (n : Nat → Nat) : Nat → Nat
  | 0 => 0
  | j + 1 => psum n j + n j

theorem psum_mono (n : Nat → Nat) {i j : Nat} (h : i ≤ j) : psum n i ≤ psum n j := by
  induction h with
  | refl => exact Nat.le_refl _
  | step _ ih => exact Nat.le_trans ih (Nat.le_add_right _ _)

theorem psum_lt (n : Nat → Nat) {i j : Nat} (h : i < j) : psum n i + n i ≤ psum n j := psum_mono n (i := i + 1) h

theorem prefixSum_range (n : Nat → Nat) : ∀ (m k : Nat), prefixSum (psum n k) ((List.range' k m).map n) = (List.range' k m).map (psum n) := by
  intro m
  induction m with
  | zero => intro k; rfl
  | succ m ih => intro k; rw [List.range'_succ, List.map_cons, List.map_cons, prefixSum]; congr 1; exact ih (k + 1)

theorem prefixSum_spec (n : Nat → Nat) (K : Nat) : prefixSum 0 (tab K n) = tab K (psum n) := prefixSum_range n K 0

theorem tab_succ {β : Type} (K : Nat) (c : Nat → β) : tab (K + 1) c = tab K c ++ [c K] := by
  unfold tab; rw [List.range'_concat]; simp

theorem psum_total {f : α → Nat} {K : Nat} : ∀ (l : List α), (∀ x ∈ l, f x < K) → psum (fun j => (bk f j l).length) K = l.length := by
  intro l
  induction l with
  | nil =>
    intro _
    have : ∀ K, psum (fun j => (bk f j ([] : List α)).length) K = 0 := by
      intro K; induction K with
      | zero => rfl
      | succ K ih => rw [psum, ih]; rfl
    exact this K
  | cons x xs ih =>
    intro h
    have key : ∀ J, psum (fun j => (bk f j (x :: xs)).length) J = psum (fun j => (bk f j xs).length) J + if f x < J then 1 else 0 := by
      intro J
      induction J with
      | zero => rfl
      | succ J ihJ =>
        rw [psum, ihJ, psum, bk_cons]
        by_cases e : f x = J
        · simp [e]; omega
        · have : (f x < J + 1) ↔ f x < J := by omega
          simp only [if_neg e, this]; omega
    rw [key, ih (fun y hy => h y (by simp [hy])), if_pos (h x (by simp))]; rfl

theorem classify_spec {idx : α → Option Nat} {f : α → Nat} {K : Nat} (a : List α) (ha : Idx idx f K a) :
    ∀ (xs p b : List α), a = p ++ xs → b.length = a.length →
    (∀ j, j < K → ∀ t, t < (bk f j p).length → b[psum (fun j => (bk f j a).length) j + t]? = (bk f j p)[t]?) →
    ∃ b', classify idx xs b (tab K fun j => psum (fun j => (bk f j a).length) j + (bk f j p).length) =
        some (b', tab K fun j => psum (fun j => (bk f j a).length) (j + 1)) ∧ b'.length = a.length ∧
      ∀ j, j < K → ∀ t, t < (bk f j a).length → b'[psum (fun j => (bk f j a).length) j + t]? = (bk f j a)[t]? := by
  intro xs
  induction xs with
  | nil =>
    intro p b hp hb hi
    rw [List.append_nil] at hp
    subst hp
    exact ⟨b, by rw [classify]; rfl, hb, hi⟩
  | cons x xs ih =>
    intro p b hp hb hi
    have hx : x ∈ a := by rw [hp]; simp
    obtain ⟨h1, h2⟩ := ha x hx
    have hlt : psum (fun j => (bk f j a).length) (f x) + (bk f (f x) p).length < b.length := by
      have e1 := psum_total (f := f) (K := K) a (fun y hy => (ha y hy).2)
      have e2 := psum_lt (fun j => (bk f j a).length) h2
      have e3 : (bk f (f x) a).length = (bk f (f x) p).length + (bk f (f x) (x :: xs)).length := by
        conv => lhs; rw [hp]
        rw [bk_append, List.length_append]
      rw [bk_cons, if_pos rfl] at e3
      simp only [List.length_cons] at e3 e2
      omega
    simp only [classify, h1, tab_get _ h2, tab_set _ h2, if_pos hlt]
    have hbk : ∀ j, bk f j (p ++ [x]) = if f x = j then bk f j p ++ [x] else bk f j p := by
      intro j; rw [bk_append, bk_cons]; split <;> simp [bk]
    have ht : (tab K fun j => if j = f x then psum (fun j => (bk f j a).length) (f x) + (bk f (f x) p).length + 1
        else psum (fun j => (bk f j a).length) j + (bk f j p).length) =
        tab K fun j => psum (fun j => (bk f j a).length) j + (bk f j (p ++ [x])).length := by
      apply tab_congr
      intro j _
      rw [hbk]
      by_cases e : f x = j
      · subst e; simp; omega
      · rw [if_neg (fun h => e h.symm), if_neg e]
    rw [ht]
    refine ih (p ++ [x]) _ (by simp [hp]) (by simp [hb]) ?_
    intro j hj t htt
    rw [hbk] at htt ⊢
    have e3 : ∀ j, (bk f j a).length = (bk f j p).length + (bk f j (x :: xs)).length := by
      intro j
      conv => lhs; rw [hp]
      rw [bk_append, List.length_append]
    have e3x := e3 (f x)
    rw [bk_cons, if_pos rfl, List.length_cons] at e3x
    by_cases e : f x = j
    · subst e
      rw [if_pos rfl] at htt ⊢
      rw [List.length_append, List.length_singleton] at htt
      by_cases e2 : t = (bk f (f x) p).length
      · subst e2
        rw [List.getElem?_set_self hlt]; simp
      · rw [List.getElem?_set_ne (by omega), hi _ hj t (by omega), List.getElem?_append_left (by omega)]
    · rw [if_neg e] at htt ⊢
      rw [List.getElem?_set_ne, hi _ hj t htt]
      have e3j := e3 j
      rcases Nat.lt_or_gt_of_ne e with hlt2 | hgt
      · have := psum_lt (fun j => (bk f j a).length) hlt2
        omega
      · have := psum_lt (fun j => (bk f j a).length) hgt
        omega

theorem flatten_tab_length (F : Nat → List α) : ∀ K, (tab K F).flatten.length = psum (fun j => (F j).length) K := by
  intro K
  induction K with
  | zero => rfl
  | succ K ih => rw [tab_succ, List.flatten_append, List.length_append, ih]; simp [psum]

theorem take_of_segs (F : Nat → List α) (b : List α) (K : Nat) (hb : b.length = psum (fun j => (F j).length) K)
    (h : ∀ j, j < K → ∀ t, t < (F j).length → b[psum (fun j => (F j).length) j + t]? = (F j)[t]?) :
    ∀ k, k ≤ K → b.take (psum (fun j => (F j).length) k) = (tab k F).flatten := by
  intro k
  induction k with
  | zero => intro _; rfl
  | succ k ih =>
    intro hk
    rw [tab_succ, List.flatten_append, ← ih (by omega)]
    apply List.ext_getElem?
    intro i
    have hle := psum_mono (fun j => (F j).length) (i := k + 1) (j := K) hk
    rw [psum] at hle ⊢
    by_cases h1 : i < psum (fun j => (F j).length) k
    · rw [List.getElem?_append_left (by rw [List.length_take]; omega), List.getElem?_take_of_lt (by omega), List.getElem?_take_of_lt h1]
    · rw [List.getElem?_append_right (by rw [List.length_take]; omega), List.length_take]
      have e : min (psum (fun j => (F j).length) k) b.length = psum (fun j => (F j).length) k := by omega
      rw [e]
      simp only [List.flatten_cons, List.flatten_nil, List.append_nil]
      by_cases h2 : i < psum (fun j => (F j).length) k + (F k).length
      · rw [List.getElem?_take_of_lt h2]
        have := h k (by omega) (i - psum (fun j => (F j).length) k) (by omega)
        rw [← this]; congr 1; omega
      · rw [List.getElem?_eq_none (by rw [List.length_take]; omega), List.getElem?_eq_none (by omega)]

/-- Ends of consecutive segments, the first starting at `c`. -/
def ends : Nat → List (List α) → List Nat
  | _, [] => []
  | c, l :: L => (c + l.length) :: ends (c + l.length) L

theorem ends_range (F : Nat → List α) : ∀ (m k : Nat), ends (psum (fun j => (F j).length) k) ((List.range' k m).map F) =
    (List.range' k m).map fun j => psum (fun j => (F j).length) (j + 1) := by
  intro m
  induction m with
  | zero => intro k; rfl
  | succ m ih => intro k; rw [List.range'_succ, List.map_cons, List.map_cons, ends]; congr 1; exact ih (k + 1)

/-- Counting and distributing puts the buckets one after the other, each in the old order. -/
theorem distribute_spec {idx : α → Option Nat} {f : α → Nat} {K : Nat} {a junk : List α} (ha : Idx idx f K a)
    (hj : junk.length = a.length) : ∃ bucket, count idx a (List.replicate K 0) = some bucket ∧
      classify idx a junk (prefixSum 0 bucket) = some ((tab K fun j => bk f j a).flatten, ends 0 (tab K fun j => bk f j a)) := by
  refine ⟨tab K fun j => 0 + (bk f j a).length, ?_, ?_⟩
  · rw [tab_zero]; exact count_spec a _ ha
  · have e : (tab K fun j => 0 + (bk f j a).length) = tab K fun j => (bk f j a).length := tab_congr fun j _ => Nat.zero_add _
    rw [e, prefixSum_spec]
    obtain ⟨b', h1, h2, h3⟩ := classify_spec a ha a [] junk rfl hj (by intro j _ t ht; simp [bk] at ht)
    have e2 : (tab K fun j => psum (fun j => (bk f j a).length) j + (bk f j ([] : List α)).length) =
        tab K (psum fun j => (bk f j a).length) := tab_congr fun j _ => by simp [bk]
    rw [e2] at h1
    rw [h1]
    have htot := psum_total (f := f) (K := K) a (fun y hy => (ha y hy).2)
    have := take_of_segs (fun j => bk f j a) b' K (by rw [h2, htot]) h3 K (Nat.le_refl _)
    rw [htot, ← h2, List.take_length] at this
    rw [this]
    exact congrArg (fun z => some (_, z)) (ends_range (fun j => bk f j a) K 0).symm

theorem flatten_bk_perm {f : α → Nat} {K : Nat} (a : List α) (h : ∀ x ∈ a, f x < K) : (tab K fun j => bk f j a).flatten.Perm a := by
  classical
  rw [List.perm_iff_count]
  intro x
  have key : ∀ J, ((tab J fun j => bk f j a).flatten).count x = if f x < J then a.count x else 0 := by
    intro J
    induction J with
    | zero => simp [tab]
    | succ J ih =>
      rw [tab_succ, List.flatten_append, List.count_append, ih]
      simp only [List.flatten_cons, List.flatten_nil, List.append_nil]
      have hc : (bk f J a).count x = if f x = J then a.count x else 0 := by
        split
        · rename_i e; exact List.count_filter (by simp [e])
        · rename_i e; rw [List.count_eq_zero]; intro hm; exact e (mem_bk.1 hm).2
      rw [hc]
      by_cases e : f x = J
      · simp [e]
      · have : (f x < J + 1) ↔ f x < J := by omega
        simp only [if_neg e, this, Nat.add_zero]
  rw [key]
  by_cases hx : x ∈ a
  · rw [if_pos (h x hx)]
  · rw [List.count_eq_zero_of_not_mem hx]; simp

/-- `S` consists of the segments of `L`, each sorted. -/
def SegSorted (lt : α → α → Bool) (S L : List (List α)) : Prop := List.Forall₂ (fun s l => Sorted lt s ∧ s.Perm l) S L

theorem SegSorted.perm {S L : List (List α)} (h : SegSorted lt S L) : S.flatten.Perm L.flatten := by
  induction h with
  | nil => exact List.Perm.refl _
  | cons h _ ih => exact h.2.append ih

/-- Later segments hold no smaller elements. -/
def SegOrd (lt : α → α → Bool) (L : List (List α)) : Prop := L.Pairwise fun l m => ∀ x ∈ l, ∀ y ∈ m, lt y x = false

theorem SegSorted.sorted {S L : List (List α)} (h : SegSorted lt S L) (ho : SegOrd lt L) : Sorted lt S.flatten := by
  induction h with
  | nil => exact List.Pairwise.nil
  | cons h hr ih =>
    rename_i s l S L
    obtain ⟨h1, h2⟩ := List.pairwise_cons.1 ho
    rw [List.flatten_cons]
    refine List.pairwise_append.2 ⟨h.1, ih h2, ?_⟩
    intro x hx y hy
    have hy : y ∈ L.flatten := (SegSorted.perm hr).mem_iff.1 hy
    obtain ⟨m, hm, hym⟩ := List.mem_flatten.1 hy
    exact h1 m hm x (h.2.mem_iff.1 hx) y hym

theorem segOrd_tab {f : α → Nat} {K : Nat} {a : List α} (h : ∀ x ∈ a, ∀ y ∈ a, f x < f y → lt y x = false) :
    SegOrd lt (tab K fun j => bk f j a) := by
  unfold SegOrd tab
  rw [List.pairwise_map]
  refine List.Pairwise.imp ?_ (List.pairwise_lt_range' (s := 0) (n := K))
  intro i j hij x hx y hy
  have hx := mem_bk.1 hx
  have hy := mem_bk.1 hy
  exact h x hx.1 y hy.1 (by omega)

theorem cleanup_spec (h : SWO lt) {srt : List α → List α} (hs : Srt.SortFn lt srt) : ∀ (L : List (List α)) (pre : List α),
    ∃ S, SegSorted lt S L ∧ cleanup lt srt (pre ++ L.flatten) pre.length (ends pre.length L) = some (pre ++ S.flatten) := by
  intro L
  induction L with
  | nil => intro pre; exact ⟨[], List.Forall₂.nil, rfl⟩
  | cons l L ih =>
    intro pre
    obtain ⟨s, h1, h2, h3⟩ := sortSmall_spec h hs l
    obtain ⟨S, hS, hc⟩ := ih (pre ++ s)
    refine ⟨s :: S, List.Forall₂.cons ⟨h2, h3⟩ hS, ?_⟩
    rw [ends, cleanup]
    have e1 : ((pre ++ (l :: L).flatten).take (pre.length + l.length)).drop pre.length = l := by
      simp [List.take_append]
    rw [e1, h1]
    dsimp only
    have e2 : (pre ++ (l :: L).flatten).take pre.length = pre := by simp
    have e3 : (pre ++ (l :: L).flatten).drop (pre.length + l.length) = L.flatten := by
      simp
    rw [e2, e3]
    have e4 : (pre ++ s).length = pre.length + l.length := by rw [List.length_append, h3.length_eq]
    rw [e4] at hc
    rw [hc]; simp

theorem l1sort_spec (h : SWO lt) {srt : List α → List α} (hs : Srt.SortFn lt srt) {idx : α → Option Nat} {f : α → Nat} {K : Nat}
    {a b : List α} (ha : Idx idx f K a) (hm : ∀ x ∈ a, ∀ y ∈ a, f x < f y → lt y x = false) (hb : b.length = a.length) :
    ∃ r, l1sort lt srt idx K a b = some r ∧ Sorted lt r ∧ r.Perm a := by
  obtain ⟨bucket, h1, h2⟩ := distribute_spec ha hb
  obtain ⟨S, hS, hc⟩ := cleanup_spec h hs (tab K fun j => bk f j a) []
  refine ⟨S.flatten, ?_, hS.sorted (segOrd_tab hm), hS.perm.trans (flatten_bk_perm a fun x hx => (ha x hx).2)⟩
  unfold l1sort
  rw [h1]
  dsimp only
  rw [h2]
  exact hc

theorem buckets_spec {srt : List α → List α} {idx2 : Nat → α → Option Nat} {k2 : Nat} {refs1 : List α} :
    ∀ (L : List (List α)) (i : Nat) (pre : List α), (pre ++ L.flatten).length = refs1.length →
    (∀ t l, L[t]? = some l → ∀ b : List α, b.length = l.length →
      ∃ r, l1sort lt srt (idx2 (i + t)) k2 l b = some r ∧ Sorted lt r ∧ r.Perm l) →
    ∃ S, SegSorted lt S L ∧ buckets lt srt idx2 k2 refs1 (pre ++ L.flatten) i pre.length (ends pre.length L) = some S.flatten := by
  intro L
  induction L with
  | nil => intro i pre _ _; exact ⟨[], List.Forall₂.nil, rfl⟩
  | cons l L ih =>
    intro i pre hlen hl
    rw [ends, buckets]
    have e1 : ((pre ++ (l :: L).flatten).take (pre.length + l.length)).drop pre.length = l := by
      simp [List.take_append]
    rw [e1]
    simp only [List.flatten_cons, List.length_append] at hlen
    obtain ⟨r, h1, h2, h3⟩ := hl 0 l (by simp) ((refs1.take (pre.length + l.length)).drop pre.length)
      (by rw [List.length_drop, List.length_take]; omega)
    rw [Nat.add_zero] at h1
    rw [h1]
    obtain ⟨S, hS, hc⟩ := ih (i + 1) (pre ++ l) (by simp only [List.length_append]; omega)
      (fun t m hm b hb => by have := hl (t + 1) m (by simpa using hm) b hb; rwa [show i + (t + 1) = i + 1 + t by omega] at this)
    refine ⟨r :: S, List.Forall₂.cons ⟨h2, h3⟩ hS, ?_⟩
    rw [List.length_append] at hc
    rw [List.flatten_cons, ← List.append_assoc]
    dsimp only
    rw [hc]; rfl

/-- The parameters make all shifts defined. -/
structure RP.Good (P : RP) (m2 : Nat) : Prop where
  k1 : 1 ≤ P.logK1 m2
  s1 : 0 ≤ P.shift1 m2
  k2 : 0 ≤ P.logK2 m2
  s2 : 0 ≤ P.shift2 m2

theorem runSort_spec {P : RP} {m2 : Nat} (G : P.Good m2) {key : α → Nat} {srt : List α → List α} (hs : Srt.SortFn (klt key) srt)
    {l junk : List α} (hk : ∀ x ∈ l, key x < 2 ^ P.w) (hj : junk.length = l.length) :
    ∃ r, runSort P key srt m2 junk l = some r ∧ Sorted (klt key) r ∧ r.Perm l := by
  obtain ⟨g1, g2, g3, g4⟩ := G
  obtain ⟨a1, ha1⟩ : ∃ n, P.logK1 m2 = n := ⟨_, rfl⟩
  obtain ⟨a2, ha2⟩ := Int.eq_ofNat_of_zero_le g3
  obtain ⟨s1, hs1⟩ := Int.eq_ofNat_of_zero_le g2
  obtain ⟨s2, hs2⟩ := Int.eq_ofNat_of_zero_le g4
  have hw1 : P.w = a1 + s1 := by unfold RP.shift1 at hs1; omega
  have hw2 : s1 = a2 + s2 := by unfold RP.shift2 at hs2; omega
  have hneg : ¬ P.logK2 m2 < 0 := by omega
  unfold runSort
  rw [if_neg hneg, ha2, hs1, hs2, ha1]
  simp only [Int.toNat_natCast]
  have hidx1 : Idx (fun x => bidx P.w 0 (s1 : Int) (key x)) (fun x => key x / 2 ^ s1) (2 ^ a1) l := by
    intro x hx
    have hkx := hk x hx
    have : ((0 : Int) ≤ (s1 : Int) ∧ (s1 : Int) < (P.w : Int)) := by omega
    refine ⟨?_, ?_⟩
    · simp only [bidx, if_pos this, Int.toNat_natCast]
      rw [Nat.sub_zero, Nat.add_mod_right, Nat.mod_eq_of_lt hkx]
    · rw [Nat.div_lt_iff_lt_mul (Nat.two_pow_pos _), ← Nat.pow_add, ← hw1]; exact hkx
  obtain ⟨bucket, h1, h2⟩ := distribute_spec hidx1 hj
  rw [h1]
  dsimp only
  rw [h2]
  dsimp only
  have hperm := flatten_bk_perm (f := fun x => key x / 2 ^ s1) l (fun x hx => (hidx1 x hx).2)
  obtain ⟨S, hS, hb⟩ := buckets_spec (lt := klt key) (srt := srt)
    (idx2 := fun i x => bidx P.w (2 ^ s1 * i % 2 ^ P.w) (s2 : Int) (key x)) (k2 := 2 ^ a2) (refs1 := l)
    (tab (2 ^ a1) fun j => bk (fun x => key x / 2 ^ s1) j l) 0 [] (by simpa using hperm.length_eq) (by
      intro t m hm b hbl
      have ht : t < 2 ^ a1 := by
        have := (List.getElem?_eq_some_iff.1 hm).1; rwa [tab_length] at this
      rw [tab_get _ ht] at hm
      cases hm
      refine l1sort_spec (f := fun x => (key x - 2 ^ s1 * t) / 2 ^ s2) (klt_swo key) hs ?_ ?_ hbl
      · intro x hx
        obtain ⟨hx1, hx2⟩ := mem_bk.1 hx
        have hkx := hk x hx1
        have hp1 := Nat.two_pow_pos s1
        have hd : key x = 2 ^ s1 * t + key x % 2 ^ s1 := by rw [← hx2]; exact (Nat.div_add_mod _ _).symm
        have hm : key x % 2 ^ s1 < 2 ^ s1 := Nat.mod_lt _ hp1
        have hsh : ((0 : Int) ≤ (s2 : Int) ∧ (s2 : Int) < (P.w : Int)) := by omega
        refine ⟨?_, ?_⟩
        · simp only [bidx, if_pos hsh, Int.toNat_natCast, Nat.zero_add]
          rw [Nat.mod_eq_of_lt (show 2 ^ s1 * t < 2 ^ P.w by omega)]
          have e : key x + 2 ^ P.w - 2 ^ s1 * t = (key x - 2 ^ s1 * t) + 2 ^ P.w := by omega
          rw [e, Nat.add_mod_right, Nat.mod_eq_of_lt (by omega)]
        · dsimp only
          rw [Nat.div_lt_iff_lt_mul (Nat.two_pow_pos _), ← Nat.pow_add, ← hw2]; omega
      · intro x _ y _ hlt
        unfold klt
        simp only [decide_eq_false_iff_not]
        intro hc
        have := Nat.div_le_div_right (c := 2 ^ s2) (show key y - 2 ^ s1 * t ≤ key x - 2 ^ s1 * t by omega)
        omega)
  refine ⟨S.flatten, hb, hS.sorted (segOrd_tab ?_), hS.perm.trans hperm⟩
  intro x _ y _ hlt
  unfold klt
  simp only [decide_eq_false_iff_not]
  intro hc
  have := Nat.div_le_div_right (c := 2 ^ s1) (show key y ≤ key x by omega)
  omega

end Stxxl.KSort
