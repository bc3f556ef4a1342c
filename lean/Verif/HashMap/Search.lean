import Verif.HashMap.Model
import Mathlib.Tactic.SplitIfs
import Mathlib.Data.List.Basic

/-! # Key order, buffer lists, search in external memory -/
namespace Verif.HashMap
variable {K V : Type} {P : Params K V}

/-- What the user has to supply: positive sizes, a strict total order on keys, a bucket function
that is monotone in the hash value and stays below the number of buckets. -/
structure Params.OK (P : Params K V) : Prop where
  ss : 0 < P.SS
  bs : 0 < P.BS
  incr : 0 < P.incr
  irrefl : ∀ a, P.cmp a a = false
  trans : ∀ a b c, P.cmp a b = true → P.cmp b c = true → P.cmp a c = true
  tri : ∀ a b, P.cmp a b = false → P.cmp b a = false → a = b
  mono : ∀ n h h', h ≤ h' → P.bk n h ≤ P.bk n h'
  range : ∀ n k, 0 < n → P.bk n (P.hash k) < n

namespace Params.OK
variable (ok : P.OK)
include ok

theorem bb : 0 < P.BB := Nat.mul_pos ok.bs ok.ss

theorem lt_irrefl (a : K) : P.lt a a = false := by simp [Params.lt, ok.irrefl]

theorem lt_trans {a b c : K} (h1 : P.lt a b = true) (h2 : P.lt b c = true) : P.lt a c = true := by
  simp only [Params.lt, Bool.or_eq_true, decide_eq_true_eq, Bool.and_eq_true] at *
  rcases h1 with h1 | ⟨h1, h1'⟩ <;> rcases h2 with h2 | ⟨h2, h2'⟩
  · left; omega
  · left; omega
  · left; omega
  · right; exact ⟨by omega, ok.trans _ _ _ h1' h2'⟩

theorem lt_asymm {a b : K} (h1 : P.lt a b = true) : P.lt b a = false := by
  cases h : P.lt b a with
  | false => rfl
  | true => have := ok.lt_trans h1 h; rw [ok.lt_irrefl] at this; cases this

theorem lt_tri (a b : K) : P.lt a b = true ∨ a = b ∨ P.lt b a = true := by
  simp only [Params.lt, Bool.or_eq_true, decide_eq_true_eq, Bool.and_eq_true]
  rcases Nat.lt_trichotomy (P.hash a) (P.hash b) with h | h | h
  · exact Or.inl (Or.inl h)
  · cases h1 : P.cmp a b with
    | true => exact Or.inl (Or.inr ⟨h, rfl⟩)
    | false =>
      cases h2 : P.cmp b a with
      | true => exact Or.inr (Or.inr (Or.inr ⟨h.symm, rfl⟩))
      | false => exact Or.inr (Or.inl (ok.tri _ _ h1 h2))
  · exact Or.inr (Or.inr (Or.inl h))

theorem eqv_iff (a b : K) : P.eqv a b = true ↔ a = b := by
  simp only [Params.eqv, Bool.and_eq_true, Bool.not_eq_true']
  constructor
  · rintro ⟨h1, h2⟩; exact ok.tri _ _ h1 h2
  · rintro rfl; exact ⟨ok.irrefl _, ok.irrefl _⟩

theorem leq_iff (a b : K) : P.leq a b = true ↔ P.lt a b = true ∨ a = b := by
  simp only [Params.leq, Bool.not_eq_true']
  constructor
  · intro h
    rcases ok.lt_tri a b with h1 | h1 | h1
    · exact Or.inl h1
    · exact Or.inr h1
    · rw [h] at h1; cases h1
  · rintro (h | rfl)
    · exact ok.lt_asymm h
    · exact ok.lt_irrefl _

theorem leq_false_iff (a b : K) : P.leq a b = false ↔ P.lt b a = true := by
  simp [Params.leq]

theorem lt_ne {a b : K} (h : P.lt a b = true) : a ≠ b := by
  rintro rfl; rw [ok.lt_irrefl] at h; cases h

theorem lt_leq {a b : K} (h : P.lt a b = true) : P.leq a b = true := (ok.leq_iff _ _).2 (Or.inl h)

/-- Smaller keys are in smaller buckets. -/
theorem bkt_mono (n : Nat) {a b : K} (h : P.lt a b = true) : P.bktNum n a ≤ P.bktNum n b := by
  apply ok.mono
  simp only [Params.lt, Bool.or_eq_true, decide_eq_true_eq, Bool.and_eq_true] at h
  omega

theorem lt_of_bkt (n : Nat) {a b : K} (h : P.bktNum n a < P.bktNum n b) : P.lt a b = true := by
  rcases ok.lt_tri a b with h1 | h1 | h1
  · exact h1
  · subst h1; omega
  · have := ok.bkt_mono n h1; omega

end Params.OK

/-- Buffer list in strictly increasing key order. -/
def SortedN (P : Params K V) (l : List (Node K V)) : Prop :=
  l.Pairwise fun a b => P.lt a.key b.key = true

/-- Values in strictly increasing key order. -/
def SortedV (P : Params K V) (l : List (K × V)) : Prop :=
  l.Pairwise fun a b => P.lt a.1 b.1 = true

section internal
variable (ok : P.OK)
include ok

/-- `findInt` splits a sorted list: everything up to the result is `≤ k`, everything behind `> k`. -/
theorem findInt_split (k : K) (l : List (Node K V)) (hs : SortedN P l) :
    ∀ old : Option (Node K V), ∃ l1 l2, l = l1 ++ l2 ∧ (∀ n ∈ l1, P.leq n.key k = true) ∧
      (∀ n ∈ l2, P.lt k n.key = true) ∧ findInt P k old l = l1.getLast?.or old := by
  induction l with
  | nil => intro old; exact ⟨[], [], rfl, by simp, by simp, by simp [findInt]⟩
  | cons n ns ih =>
    intro old
    unfold SortedN at hs
    rw [List.pairwise_cons] at hs
    by_cases h : P.leq n.key k = true
    · obtain ⟨l1, l2, e, h1, h2, h3⟩ := ih hs.2 (some n)
      refine ⟨n :: l1, l2, by rw [e]; rfl, ?_, h2, ?_⟩
      · intro x hx
        rcases List.mem_cons.1 hx with rfl | hx
        · exact h
        · exact h1 _ hx
      · rw [findInt, if_pos h, h3]
        cases hl : l1 with
        | nil => simp
        | cons a as =>
          rw [List.getLast?_cons_cons]
          rw [List.getLast?_cons]
          simp
    · refine ⟨[], n :: ns, rfl, by simp, ?_, ?_⟩
      · have h' : P.lt k n.key = true := by
          rw [Bool.not_eq_true] at h; exact (ok.leq_false_iff _ _).1 h
        intro x hx
        rcases List.mem_cons.1 hx with rfl | hx
        · exact h'
        · exact ok.lt_trans h' (hs.1 _ hx)
      · rw [findInt, if_neg h]; simp

/-- The outcome of `_find_key_internal`: either the node with the key, or its place. -/
theorem findInt_cases (k : K) (l : List (Node K V)) (hs : SortedN P l) :
    (∃ n, findInt P k none l = some n ∧ n ∈ l ∧ n.key = k) ∨
    (∃ l1 l2, l = l1 ++ l2 ∧ (∀ n ∈ l1, P.lt n.key k = true) ∧ (∀ n ∈ l2, P.lt k n.key = true) ∧
      findInt P k none l = l1.getLast?) := by
  obtain ⟨l1, l2, e, h1, h2, h3⟩ := findInt_split ok k l hs none
  rw [Option.or_none] at h3
  rcases List.eq_nil_or_concat l1 with hl | ⟨l1', n, hl⟩
  · right
    subst hl
    exact ⟨[], l2, e, by simp, h2, h3⟩
  · rw [hl] at e h1 h3
    rw [List.concat_eq_append] at e h1 h3
    rw [List.getLast?_concat] at h3
    by_cases hk : n.key = k
    · left
      exact ⟨n, h3, by rw [e]; simp, hk⟩
    · right
      refine ⟨l1' ++ [n], l2, e, ?_, h2, by rw [h3, List.getLast?_concat]⟩
      have hn : P.lt n.key k = true := by
        rcases (ok.leq_iff _ _).1 (h1 n (by simp)) with h | h
        · exact h
        · exact absurd h hk
      intro x hx
      rcases List.mem_append.1 hx with hx | hx
      · rw [e] at hs
        unfold SortedN at hs
        rw [List.append_assoc, List.pairwise_append] at hs
        exact ok.lt_trans (hs.2.2 x hx n (by simp)) hn
      · simp only [List.mem_singleton] at hx; subst hx; exact hn

omit ok in
theorem linkAfter_split (x n : Node K V) (l1 l2 : List (Node K V))
    (ha : ∀ y ∈ l1, y.addr ≠ n.addr) :
    linkAfter n.addr x (l1 ++ n :: l2) = l1 ++ n :: x :: l2 := by
  induction l1 with
  | nil => simp [linkAfter]
  | cons y ys ih =>
    simp only [List.cons_append, linkAfter]
    rw [if_neg (ha y (by simp)), ih (fun z hz => ha z (by simp [hz]))]

omit ok in
/-- Linking behind the last node of `l1`. -/
theorem link_split (x : Node K V) (l1 l2 : List (Node K V))
    (ha : ((l1 ++ l2).map (·.addr)).Nodup) :
    link l1.getLast? x (l1 ++ l2) = l1 ++ x :: l2 := by
  rcases List.eq_nil_or_concat l1 with hl | ⟨l1', n, hl⟩
  · subst hl; rfl
  · subst hl
    rw [List.concat_eq_append] at *
    rw [List.getLast?_concat]
    simp only [link]
    rw [List.append_assoc, List.append_assoc]
    apply linkAfter_split
    intro y hy e
    rw [List.append_assoc, List.map_append, List.nodup_append] at ha
    exact ha.2.2 _ (List.mem_map_of_mem hy) _ (List.mem_map_of_mem (f := (·.addr))
      (show n ∈ [n] ++ l2 by simp)) e

end internal

/-! ## External values -/

/-- The `c` values from position `p` on. -/
def extL (mem : Nat → K × V) : Nat → Nat → List (K × V)
  | _, 0 => []
  | p, c + 1 => mem p :: extL mem (p + 1) c

theorem extL_length (mem : Nat → K × V) (p c : Nat) : (extL mem p c).length = c := by
  induction c generalizing p with
  | zero => rfl
  | succ c ih => simp [extL, ih]

theorem extL_getElem (mem : Nat → K × V) (p c i : Nat) (h : i < (extL mem p c).length) :
    (extL mem p c)[i] = mem (p + i) := by
  induction c generalizing p i with
  | zero => simp [extL] at h
  | succ c ih =>
    cases i with
    | zero => simp [extL]
    | succ i =>
      simp only [extL, List.getElem_cons_succ]
      rw [ih]
      congr 1; omega

theorem mem_extL {mem : Nat → K × V} {p c : Nat} {x : K × V} :
    x ∈ extL mem p c ↔ ∃ i, i < c ∧ mem (p + i) = x := by
  rw [List.mem_iff_getElem]
  constructor
  · rintro ⟨i, h, e⟩
    rw [extL_getElem] at e
    rw [extL_length] at h
    exact ⟨i, h, e⟩
  · rintro ⟨i, h, e⟩
    exact ⟨i, by rw [extL_length]; exact h, by rw [extL_getElem]; exact e⟩

theorem extL_congr {m m' : Nat → K × V} {p c : Nat} (h : ∀ i, i < c → m (p + i) = m' (p + i)) :
    extL m p c = extL m' p c := by
  induction c generalizing p with
  | zero => rfl
  | succ c ih =>
    simp only [extL]
    rw [show m p = m' p from h 0 (by omega)]
    congr 1
    apply ih
    intro i hi
    have := h (i + 1) (by omega)
    rw [show p + 1 + i = p + (i + 1) by omega]; exact this

theorem sortedV_extL {mem : Nat → K × V} {p c : Nat} :
    SortedV P (extL mem p c) ↔
      ∀ i j, i < j → j < c → P.lt (mem (p + i)).1 (mem (p + j)).1 = true := by
  unfold SortedV
  rw [List.pairwise_iff_getElem]
  simp only [extL_length, extL_getElem]
  constructor
  · intro h i j hij hj; exact h i j (by omega) hj hij
  · intro h i j _ hj hij; exact h i j hij hj

/-- First position of a bucket. -/
def bstart (P : Params K V) (b : Bucket K V) : Nat := b.iBlock * P.BB + b.iSub * P.SS

/-- The external values of a bucket. -/
def bext (P : Params K V) (mem : Nat → K × V) (b : Bucket K V) : List (K × V) :=
  extL mem (bstart P b) b.nExt

theorem subPos_eq (hbs : 0 < P.BS) (b : Bucket K V) (j : Nat) :
    subPos P b j = bstart P b + j * P.SS := by
  unfold subPos bstart Params.BB
  have h := Nat.div_add_mod (b.iSub + j) P.BS
  generalize (b.iSub + j) / P.BS = q at *
  generalize (b.iSub + j) % P.BS = r at *
  have : (P.BS * q + r) * P.SS = (b.iSub + j) * P.SS := by rw [h]
  rw [Nat.add_mul, Nat.add_mul, Nat.mul_assoc] at this
  rw [Nat.add_mul]
  have e : q * (P.BS * P.SS) = P.BS * (q * P.SS) := by
    rw [← Nat.mul_assoc, Nat.mul_comm q, Nat.mul_assoc]
  omega

section external
variable (ok : P.OK)
include ok

/-- Binary search finds the last position `≤ k`. -/
theorem binSearch_spec (f : Nat → K) (k : K) (nv : Nat)
    (hs : ∀ i j, i < j → j < nv → P.lt (f i) (f j) = true) :
    ∀ fuel lo hi, hi - lo ≤ fuel → lo < hi → hi ≤ nv →
      (lo = 0 ∨ P.leq (f lo) k = true) → (hi = nv ∨ P.lt k (f hi) = true) →
      ∃ q, binSearch P f k fuel lo hi = q ∧ q < nv ∧ (q = 0 ∨ P.leq (f q) k = true) ∧
        (q + 1 = nv ∨ P.lt k (f (q + 1)) = true) := by
  intro fuel
  induction fuel with
  | zero => intro lo hi h1 h2; omega
  | succ fuel ih =>
    intro lo hi h1 h2 h3 h4 h5
    rw [binSearch]
    by_cases h : lo + 1 = hi
    · rw [if_pos h]
      exact ⟨lo, rfl, by omega, h4, by rw [h]; exact h5⟩
    · rw [if_neg h]
      dsimp only
      by_cases hm : P.leq (f ((lo + hi) / 2)) k = true
      · rw [if_pos hm]
        exact ih _ _ (by omega) (by omega) h3 (Or.inr hm) h5
      · rw [if_neg hm]
        refine ih _ _ (by omega) (by omega) (by omega) h4 (Or.inr ?_)
        rw [Bool.not_eq_true] at hm
        exact (ok.leq_false_iff _ _).1 hm

/-- A bucket's subblocks: number and sizes. -/
theorem nSub_spec (n : Nat) : (nSub P n - 1) * P.SS ≤ n ∧ n ≤ nSub P n * P.SS ∧
    (0 < n → 0 < nSub P n ∧ (nSub P n - 1) * P.SS < n) ∧ (n = 0 → nSub P n = 0) := by
  unfold nSub
  have h := Nat.div_add_mod n P.SS
  have h2 := Nat.mod_lt n ok.ss
  have hc : P.SS * (n / P.SS) = n / P.SS * P.SS := Nat.mul_comm _ _
  rw [hc] at h
  generalize n / P.SS = q at *
  generalize hr : n % P.SS = r at *
  by_cases h0 : r = 0
  · subst h0
    simp only [ne_eq, not_true_eq_false, if_false, Nat.add_zero]
    rw [Nat.sub_mul]
    have hss := ok.ss
    refine ⟨by omega, by omega, ?_, ?_⟩
    · intro hn
      have : 0 < q := by
        rcases Nat.eq_zero_or_pos q with hq | hq
        · subst hq; simp at h; omega
        · exact hq
      omega
    · intro hn
      rcases Nat.eq_zero_or_pos q with hq | hq
      · exact hq
      · have := Nat.mul_pos hq ok.ss; omega
  · simp only [ne_eq, h0, not_false_eq_true, if_true]
    rw [Nat.add_sub_cancel, Nat.add_mul]
    refine ⟨by omega, by omega, fun _ => by omega, fun hn => by omega⟩

theorem findExtGo_spec (mem : Nat → K × V) (b : Bucket K V) (k : K)
    (hs : SortedV P (bext P mem b)) :
    ∀ todo j, j + todo = nSub P b.nExt →
      (∀ i, i < j * P.SS → i < b.nExt → P.lt (mem (bstart P b + i)).1 k = true) →
      (∃ i, i < b.nExt ∧ (mem (bstart P b + i)).1 = k ∧
        findExtGo P mem b k todo j = (i, mem (bstart P b + i))) ∨
      ((∀ i, i < b.nExt → (mem (bstart P b + i)).1 ≠ k) ∧
        findExtGo P mem b k todo j = (b.nExt, (P.dk, P.dv))) := by
  have hs' := sortedV_extL.1 hs
  obtain ⟨n1, n2, n3, n4⟩ := nSub_spec ok b.nExt
  intro todo
  induction todo with
  | zero =>
    intro j hj hlt
    right
    refine ⟨?_, rfl⟩
    intro i hi
    rw [Nat.add_zero] at hj
    exact ok.lt_ne (hlt i (by rw [hj]; omega) hi)
  | succ todo ih =>
    intro j hj hlt
    have hpos : 0 < b.nExt := by
      rcases Nat.eq_zero_or_pos b.nExt with h | h
      · have := n4 h; omega
      · exact h
    obtain ⟨n5, n6⟩ := n3 hpos
    -- number of values in this subblock
    obtain ⟨nv, hnv⟩ : ∃ nv, nv = if j + 1 < nSub P b.nExt then P.SS else b.nExt - j * P.SS := ⟨_, rfl⟩
    have hss := ok.ss
    have hnv' : 0 < nv ∧ j * P.SS + nv ≤ b.nExt ∧
        (j + 1 < nSub P b.nExt → nv = P.SS) ∧ (j + 1 = nSub P b.nExt → j * P.SS + nv = b.nExt) := by
      rw [hnv]
      by_cases h : j + 1 < nSub P b.nExt
      · rw [if_pos h]
        have : (j + 1) * P.SS ≤ (nSub P b.nExt - 1) * P.SS := Nat.mul_le_mul_right _ (by omega)
        rw [Nat.add_mul] at this
        exact ⟨hss, by omega, fun _ => rfl, fun h' => by omega⟩
      · rw [if_neg h]
        have e : j = nSub P b.nExt - 1 := by omega
        rw [← e] at n6
        exact ⟨by omega, by omega, fun h' => absurd h' h, fun _ => by omega⟩
    obtain ⟨v1, v2, v3, v4⟩ := hnv'
    rw [findExtGo, ← hnv]
    dsimp only
    rw [subPos_eq ok.bs]
    by_cases hlast : P.lt (mem (bstart P b + j * P.SS + (nv - 1))).1 k = true
    · rw [if_pos hlast]
      apply ih (j + 1) (by omega)
      intro i hi hi2
      have hle : i ≤ j * P.SS + (nv - 1) := by
        rw [Nat.add_mul] at hi
        by_cases h : j + 1 < nSub P b.nExt
        · have := v3 h; omega
        · have := v4 (by omega); omega
      rcases Nat.lt_or_ge i (j * P.SS + (nv - 1)) with h | h
      · have := hs' i _ h (by omega)
        rw [← Nat.add_assoc] at this
        exact ok.lt_trans this hlast
      · have : i = j * P.SS + (nv - 1) := by omega
        rw [this, ← Nat.add_assoc]; exact hlast
    · rw [if_neg hlast]
      obtain ⟨q, q1, q2, q3, q4⟩ := binSearch_spec ok
        (fun i => (mem (bstart P b + j * P.SS + i)).1) k nv (by
          intro i i' h1 h2
          have := hs' (j * P.SS + i) (j * P.SS + i') (by omega) (by omega)
          rw [← Nat.add_assoc, ← Nat.add_assoc] at this
          exact this) nv 0 nv (by omega) v1 (Nat.le_refl _) (Or.inl rfl) (Or.inl rfl)
      rw [q1]
      by_cases he : P.eqv (mem (bstart P b + j * P.SS + q)).1 k = true
      · rw [if_pos he]
        left
        refine ⟨j * P.SS + q, by omega, ?_, ?_⟩
        · rw [← Nat.add_assoc]; exact (ok.eqv_iff _ _).1 he
        · rw [← Nat.add_assoc]
      · rw [if_neg he]
        right
        refine ⟨?_, rfl⟩
        rw [ok.eqv_iff] at he
        intro i hi e
        -- compare `i` with `j*SS+q`
        rcases Nat.lt_or_ge i (j * P.SS) with h | h
        · have := ok.lt_ne (hlt i h hi); exact this e
        · rcases Nat.lt_trichotomy i (j * P.SS + q) with h' | h' | h'
          · have l1 := hs' i (j * P.SS + q) h' (by omega)
            rw [e, ← Nat.add_assoc] at l1
            rcases q3 with q3 | q3
            · omega
            · rw [ok.leq_iff] at q3
              rcases q3 with q3 | q3
              · have := ok.lt_asymm l1; rw [q3] at this; cases this
              · exact he q3
          · rw [h', ← Nat.add_assoc] at e; exact he e
          · rcases q4 with q4 | q4
            · -- q is the last one of the subblock, which is not smaller than k
              have hk : P.lt k (mem (bstart P b + j * P.SS + (nv - 1))).1 = true ∨
                  k = (mem (bstart P b + j * P.SS + (nv - 1))).1 := by
                rcases ok.lt_tri (mem (bstart P b + j * P.SS + (nv - 1))).1 k with t | t | t
                · exact absurd t hlast
                · exact Or.inr t.symm
                · exact Or.inl t
              rw [show nv - 1 = q by omega] at hk
              rcases hk with hk | hk
              · have := hs' (j * P.SS + q) i h' hi
                rw [← Nat.add_assoc, e] at this
                have := ok.lt_asymm this
                rw [hk] at this; cases this
              · exact he hk.symm
            · have hq : P.lt k (mem (bstart P b + j * P.SS + (q + 1))).1 = true := q4
              rcases Nat.lt_or_ge (j * P.SS + (q + 1)) i with h2 | h2
              · have := hs' _ i h2 hi
                rw [← Nat.add_assoc, e] at this
                have := ok.lt_asymm this
                rw [hq] at this; cases this
              · have : i = j * P.SS + (q + 1) := by omega
                rw [this, ← Nat.add_assoc] at e
                rw [e, ok.lt_irrefl] at hq; cases hq

/-- `_find_key_external` finds exactly the stored external keys. -/
theorem findExt_spec (mem : Nat → K × V) (b : Bucket K V) (k : K)
    (hs : SortedV P (bext P mem b)) :
    (∃ i, i < b.nExt ∧ (mem (bstart P b + i)).1 = k ∧
      findExt P mem b k = (i, mem (bstart P b + i))) ∨
    ((∀ i, i < b.nExt → (mem (bstart P b + i)).1 ≠ k) ∧
      findExt P mem b k = (b.nExt, (P.dk, P.dv))) :=
  findExtGo_spec ok mem b k hs _ 0 (by omega) (by intro i hi; omega)

end external
end Verif.HashMap
