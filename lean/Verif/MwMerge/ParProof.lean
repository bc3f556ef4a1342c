import Verif.MwMerge.Seq
import Verif.MwMerge.ParModel
import Verif.MultiSeq.Props
import Mathlib.Data.List.Forall2
/-! Proofs about the parallel merge. -/
namespace Stxxl.MwMerge
open Spec
open MultiSeq.Spec (leftPart rightPart Points)
open MultiSeq (partition)
variable {α : Type} {lt : α → α → Bool}

/-! ### `equally_split` -/

theorem splitFrom_length (c sp : Nat) : ∀ f i st, (splitFrom c sp f i st).length = f := by
  intro f
  induction f with
  | zero => intro i st; rfl
  | succ f ih => intro i st; simp [splitFrom, ih]

theorem splitFrom_get (c sp : Nat) : ∀ f i j, j < f →
    (splitFrom c sp f i (i * c + Nat.min i sp))[j]? = some ((i + j) * c + Nat.min (i + j) sp) := by
  intro f
  induction f with
  | zero => intro i j h; omega
  | succ f ih =>
    intro i j h
    cases j with
    | zero => simp [splitFrom]
    | succ j =>
      have := ih (i + 1) j (by omega)
      simp only [splitFrom, List.getElem?_cons_succ]
      rw [show i * c + Nat.min i sp + (if i < sp then c + 1 else c) = (i + 1) * c + Nat.min (i + 1) sp by
        rw [Nat.succ_mul]
        simp only [Nat.min_def]
        split <;> split <;> (try split) <;> omega]
      rw [this, show i + 1 + j = i + (j + 1) by omega]

/-- The rank at which slab `i` begins. -/
def rk (n p i : Nat) : Nat := i * (n / p) + Nat.min i (n % p)

theorem rk_zero (n p : Nat) : rk n p 0 = 0 := by simp [rk]

theorem rk_last {n p : Nat} (hp : 0 < p) : rk n p p = n := by
  unfold rk
  have h1 := Nat.div_add_mod n p
  have h2 := Nat.mod_lt n hp
  have h3 : Nat.min p (n % p) = n % p := Nat.min_eq_right (by omega)
  rw [h3]; exact h1

theorem rk_lt {n p i : Nat} (hp : 0 < p) (hn : p ≤ n) : rk n p i < rk n p (i + 1) := by
  unfold rk
  have h1 : 1 ≤ n / p := (Nat.one_le_div_iff hp).2 hn
  rw [Nat.succ_mul]
  simp only [Nat.min_def]
  split <;> split <;> omega

theorem rk_le {n p i : Nat} : rk n p i ≤ rk n p (i + 1) := by
  unfold rk
  rw [Nat.succ_mul]
  have := Nat.zero_le (n / p)
  generalize n / p = c at *
  simp only [Nat.min_def]
  split <;> split <;> omega

theorem rk_mono {n p i j : Nat} (h : i ≤ j) : rk n p i ≤ rk n p j := by
  induction h with
  | refl => exact Nat.le_refl _
  | step _ ih => exact Nat.le_trans ih rk_le

theorem equallySplit_getD {n p i : Nat} (hp : 0 < p) (hi : i ≤ p) : (equallySplit n p).getD i 0 = rk n p i := by
  unfold equallySplit
  rw [List.getD_eq_getElem?_getD]
  rcases Nat.lt_or_ge i p with h | h
  · rw [List.getElem?_append_left (by rw [splitFrom_length]; exact h)]
    have := splitFrom_get (n / p) (n % p) p 0 i h
    simp only [Nat.zero_mul, Nat.zero_add, Nat.zero_min] at this
    rw [this]; rfl
  · have : i = p := by omega
    subst this
    rw [List.getElem?_append_right (by rw [splitFrom_length]; exact Nat.le_refl _), splitFrom_length, Nat.sub_self, rk_last hp]
    rfl

/-! ### Cutting the sequences -/

/-- A correct boundary for rank `r`. -/
structure Cut (lt : α → α → Bool) (S : List (List α)) (r : Nat) (A : List Nat) : Prop where
  points : List.Forall₂ (fun (s : List α) k => k ≤ s.length) S A
  sum : A.sum = r
  sep : ∀ x ∈ leftPart S A, ∀ y ∈ rightPart S A, lt y x = false

theorem left_length {S : List (List α)} {A : List Nat} (h : List.Forall₂ (fun (s : List α) k => k ≤ s.length) S A) :
    (leftPart S A).length = A.sum := by
  induction h with
  | nil => rfl
  | @cons s k S A h1 _ ih =>
    simp only [leftPart, List.zipWith_cons_cons, List.flatten_cons, List.length_append, List.length_take, List.sum_cons] at ih ⊢
    rw [ih]; omega

theorem forall2_of_points {S : List (List α)} {A : List Nat} (h : Points S A) :
    List.Forall₂ (fun (s : List α) k => k ≤ s.length) S A := by
  rw [List.forall₂_iff_get]
  refine ⟨h.1.symm, ?_⟩
  intro i h1 h2
  exact h.2 i _ _ (by simp [List.getElem?_eq_getElem h1]) (by simp [List.getElem?_eq_getElem h2])

theorem partition_cut (hw : SWO lt) {S : List (List α)} {r : Nat} (hS : AllSorted lt S) (hne : ∀ s ∈ S, s ≠ [])
    (hlen : ∀ s ∈ S, s.length < 2 ^ 64) (hr : r ≤ total S) : ∃ A, partition lt S r = some A ∧ Cut lt S r A := by
  obtain ⟨A, h1, h2, h3, _, h5⟩ := MultiSeq.C60_partition hw hS hne hlen hr
  have := forall2_of_points h2
  exact ⟨A, h1, this, by rw [← left_length this, h3], h5⟩

theorem zero_cut (S : List (List α)) : Cut lt S 0 (S.map fun _ => 0) := by
  have h1 : List.Forall₂ (fun (s : List α) k => k ≤ s.length) S (S.map fun _ => 0) := by
    induction S with
    | nil => exact .nil
    | cons s S ih => exact .cons (Nat.zero_le _) ih
  have h2 : (S.map fun _ => 0).sum = 0 := by
    clear h1
    induction S with
    | nil => rfl
    | cons s S ih => simpa using ih
  refine ⟨h1, h2, ?_⟩
  have := left_length h1
  rw [h2] at this
  rw [List.eq_nil_of_length_eq_zero this]
  simp

theorem full_cut (S : List (List α)) : Cut lt S (total S) (S.map List.length) := by
  refine ⟨?_, rfl, ?_⟩
  · induction S with
    | nil => exact .nil
    | cons s S ih => exact .cons (Nat.le_refl _) ih
  · have : rightPart S (S.map List.length) = [] := by
      induction S with
      | nil => rfl
      | cons s S ih => simpa [rightPart] using ih
    rw [this]; simp

/-- Without ties between the sequences, boundaries for greater ranks lie further right. -/
theorem cut_mono (hw : SWO lt) {S : List (List α)} {r q : Nat} {A B : List Nat} (hu : Untied lt S) (hA : Cut lt S r A) (hB : Cut lt S q B)
    (hrq : r ≤ q) : List.Forall₂ (· ≤ ·) A B := by
  have hlA := hA.points.length_eq
  have hlB := hB.points.length_eq
  rw [List.forall₂_iff_get]
  refine ⟨by omega, ?_⟩
  by_contra hc
  simp only [not_forall, List.get_eq_getElem] at hc
  obtain ⟨i, hiA, hiB, hi⟩ := hc
  have hex : ∃ (j : Nat) (hj : j < A.length) (hj' : j < B.length), A[j] < B[j] := by
    by_contra hn
    simp only [not_exists, Nat.not_lt] at hn
    have hle : ∀ (A B : List Nat), A.length = B.length → (∀ (j : Nat) (hj : j < A.length) (hj' : j < B.length), B[j] ≤ A[j]) →
        B.sum ≤ A.sum ∧ ∀ (i : Nat) (h1 : i < A.length) (h2 : i < B.length), B[i] < A[i] → B.sum < A.sum := by
      intro A
      induction A with
      | nil => intro B hl _; cases B with
        | nil => exact ⟨Nat.le_refl _, fun i h => by simp at h⟩
        | cons b B => simp at hl
      | cons a A ih =>
        intro B hl hj
        cases B with
        | nil => simp at hl
        | cons b B =>
          obtain ⟨h1, h2⟩ := ih B (by simpa using hl) (fun j hj1 hj2 => by
            have := hj (j + 1) (by simpa using hj1) (by simpa using hj2)
            simpa using this)
          have h0 := hj 0 (by simp) (by simp)
          simp only [List.getElem_cons_zero] at h0
          refine ⟨by simp only [List.sum_cons]; omega, ?_⟩
          intro i hi1 hi2 hlt
          simp only [List.sum_cons]
          cases i with
          | zero => simp only [List.getElem_cons_zero] at hlt; omega
          | succ i =>
            have := h2 i (by simpa using hi1) (by simpa using hi2) (by simpa using hlt)
            omega
    have := (hle A B (by omega) hn).2 i hiA hiB (by omega)
    rw [hA.sum, hB.sum] at this
    omega
  obtain ⟨j, hjA, hjB, hj⟩ := hex
  have hij : i ≠ j := by rintro rfl; omega
  have pA := (List.forall₂_iff_get.1 hA.points).2
  have pB := (List.forall₂_iff_get.1 hB.points).2
  simp only [List.get_eq_getElem] at pA pB
  have hiS : i < S.length := by omega
  have hjS : j < S.length := by omega
  have a1 := pA i hiS hiA
  have b1 := pB j hjS hjB
  have mL : ∀ (C : List Nat) (i k : Nat) (h1 : i < S.length) (h2 : i < C.length) (h3 : k < S[i].length), k < C[i] →
      S[i][k] ∈ leftPart S C := by
    intro C i k h1 h2 h3 h4
    unfold leftPart
    refine List.mem_flatten.2 ⟨S[i].take C[i], ?_, ?_⟩
    · have : (List.zipWith (fun (s : List α) k => s.take k) S C)[i]'(by simp; omega) = S[i].take C[i] := by simp
      rw [← this]; exact List.getElem_mem _
    · have : (S[i].take C[i])[k]'(by simp; omega) = S[i][k] := by simp
      rw [← this]; exact List.getElem_mem _
  have mR : ∀ (C : List Nat) (i k : Nat) (h1 : i < S.length) (h2 : i < C.length) (h3 : k < S[i].length), C[i] ≤ k →
      S[i][k] ∈ rightPart S C := by
    intro C i k h1 h2 h3 h4
    unfold rightPart
    refine List.mem_flatten.2 ⟨S[i].drop C[i], ?_, ?_⟩
    · have : (List.zipWith (fun (s : List α) k => s.drop k) S C)[i]'(by simp; omega) = S[i].drop C[i] := by simp
      rw [← this]; exact List.getElem_mem _
    · have : (S[i].drop C[i])[k - C[i]]'(by simp; omega) = S[i][k] := by simp [Nat.add_sub_cancel' h4]
      rw [← this]; exact List.getElem_mem _
  have e1 := hA.sep _ (mL A i B[i] hiS hiA (by omega) (by omega)) _ (mR A j A[j] hjS hjA (by omega) (Nat.le_refl _))
  have e2 := hB.sep _ (mL B j A[j] hjS hjB (by omega) (by omega)) _ (mR B i B[i] hiS hiB (by omega) (Nat.le_refl _))
  have hu' := List.pairwise_iff_getElem.1 hu
  rcases Nat.lt_or_ge i j with h | h
  · have := hu' i j hiS hjS h S[i][B[i]] (List.getElem_mem _) S[j][A[j]] (List.getElem_mem _)
    unfold equiv at this
    rw [e1, e2] at this; simp at this
  · have := hu' j i hjS hiS (by omega) S[j][A[j]] (List.getElem_mem _) S[i][B[i]] (List.getElem_mem _)
    unfold equiv at this
    rw [e1, e2] at this; simp at this

theorem zero_le_cut {S : List (List α)} {q : Nat} {B : List Nat} (hB : Cut lt S q B) : List.Forall₂ (· ≤ ·) (S.map fun _ => 0) B := by
  have := hB.points
  clear hB
  induction this with
  | nil => exact .nil
  | cons _ _ ih => exact .cons (Nat.zero_le _) ih

theorem cut_le_full {S : List (List α)} {q : Nat} {B : List Nat} (hB : Cut lt S q B) : List.Forall₂ (· ≤ ·) B (S.map List.length) := by
  have := hB.points
  clear hB
  induction this with
  | nil => exact .nil
  | cons h _ ih => exact .cons h ih

theorem drop_split {β : Type} (s : List β) {a b : Nat} (h : a ≤ b) : (s.drop a).take (b - a) ++ s.drop b = s.drop a := by
  have := List.take_append_drop (b - a) (s.drop a)
  rwa [List.drop_drop, Nat.add_sub_cancel' h] at this

/-- The chunk between two boundaries. -/
theorem chunk_spec {S : List (List α)} {A B : List Nat} (hA : List.Forall₂ (fun (s : List α) k => k ≤ s.length) S A)
    (hB : List.Forall₂ (fun (s : List α) k => k ≤ s.length) S B) (h : List.Forall₂ (· ≤ ·) A B) :
    ∃ C, chunk S A B = some C ∧ C.length = S.length ∧ (AllSorted lt S → AllSorted lt C) ∧
      List.Perm (C.flatten ++ rightPart S B) (rightPart S A) := by
  induction hA generalizing B with
  | nil => cases h; exact ⟨[], rfl, rfl, fun h => h, by simp [rightPart]⟩
  | @cons s a S A h1 _ ih =>
    cases h with
    | @cons _ b _ B hab hr =>
      cases hB with
      | cons h2 hB =>
        obtain ⟨C, c1, c2, c3, c4⟩ := ih hB hr
        refine ⟨(s.drop a).take (b - a) :: C, ?_, by simp [c2], ?_, ?_⟩
        · show (if a ≤ b then (chunk S A B).map ((s.drop a).take (b - a) :: ·) else none) = _
          rw [if_pos hab, c1]; rfl
        · intro hS t ht
          rcases List.mem_cons.1 ht with rfl | ht
          · exact List.Pairwise.sublist ((List.take_sublist _ _).trans (List.drop_sublist _ _)) (hS s (by simp))
          · exact c3 (fun t ht => hS t (by simp [ht])) t ht
        · simp only [rightPart, List.flatten_cons, List.zipWith_cons_cons] at c4 ⊢
          have hd := drop_split s hab
          classical
          exact List.perm_iff_count.2 fun x => by
            have := List.perm_iff_count.1 c4 x
            have h3 : List.count x ((s.drop a).take (b - a)) + List.count x (s.drop b) = List.count x (s.drop a) := by
              rw [← List.count_append, hd]
            simp only [List.count_append] at this ⊢
            omega

theorem left_right_perm {S : List (List α)} {A : List Nat} (hA : List.Forall₂ (fun (s : List α) k => k ≤ s.length) S A) :
    List.Perm (leftPart S A ++ rightPart S A) S.flatten := by
  induction hA with
  | nil => simp [leftPart, rightPart]
  | @cons s a S A h1 _ ih =>
    simp only [leftPart, rightPart, List.flatten_cons, List.zipWith_cons_cons] at ih ⊢
    conv => rhs; rw [← List.take_append_drop a s]
    classical
    exact List.perm_iff_count.2 fun x => by
      have := List.perm_iff_count.1 ih x
      simp only [List.count_append] at this ⊢
      omega

/-- What is left of the sequences behind a boundary. -/
def drops (S : List (List α)) (A : List Nat) : List (List α) := List.zipWith (fun s k => s.drop k) S A

theorem drops_flatten (S : List (List α)) (A : List Nat) : (drops S A).flatten = rightPart S A := rfl

/-- One more slab. -/
theorem Merges.slab {S : List (List α)} {r q : Nat} {A B : List Nat} {out o : List α} {C : List (List α)}
    (h : Merges lt false S r out (drops S A)) (hB : Cut lt S q B)
    (hC : List.Perm (C.flatten ++ rightPart S B) (rightPart S A)) (ho : List.Perm o C.flatten) (hs : Sorted lt o) :
    Merges lt false S (r + o.length) (out ++ o) (drops S B) := by
  classical
  have hm : ∀ y ∈ o, y ∈ (drops S A).flatten := by
    intro y hy
    rw [drops_flatten]
    exact hC.subset (List.mem_append_left _ (ho.subset hy))
  have hp : List.Perm ((out ++ o) ++ rightPart S B) S.flatten := by
    refine List.perm_iff_count.2 fun x => ?_
    have h1 := List.perm_iff_count.1 h.perm x
    have h2 := List.perm_iff_count.1 hC x
    have h3 := List.perm_iff_count.1 ho x
    rw [drops_flatten] at h1
    simp only [List.count_append] at h1 h2 h3 ⊢
    omega
  have hl : List.Perm (out ++ o) (leftPart S B) := by
    refine List.perm_iff_count.2 fun x => ?_
    have h1 := List.perm_iff_count.1 hp x
    have h2 := List.perm_iff_count.1 (left_right_perm hB.points) x
    simp only [List.count_append] at h1 h2 ⊢
    omega
  refine ⟨by simp [h.length], ?_, ?_, ?_, hp, ?_, by simp⟩
  · exact List.pairwise_append.2 ⟨h.sorted, hs, fun x hx y hy => h.smallest x hx y (hm y hy)⟩
  · have := hB.points.length_eq
    simp [drops]; omega
  · intro i s s' h1 h2
    unfold drops at h2
    rw [List.getElem?_zipWith, h1] at h2
    cases hb : B[i]? with
    | none => rw [hb] at h2; simp at h2
    | some k =>
      rw [hb] at h2
      simp only [Option.some.injEq] at h2
      subst h2
      exact ⟨s.take k, (List.take_append_drop k s).symm⟩
  · intro x hx y hy
    exact hB.sep x (hl.subset hx) y hy

/-! ### The threads -/

theorem chunk_total {C : List (List α)} : total C = C.flatten.length := total_flatten C

theorem right_length {S : List (List α)} {A : List Nat} (hA : List.Forall₂ (fun (s : List α) k => k ≤ s.length) S A) :
    (rightPart S A).length + A.sum = S.flatten.length := by
  have h1 := left_length hA
  have h2 := (left_right_perm hA).length_eq
  simp only [List.length_append] at h2
  omega

theorem Sorted.of_merges {S : List (List α)} {n : Nat} {o : List α} {S' : List (List α)} {st : Bool} (h : Merges lt st S n o S')
    (hn : n = S.flatten.length) : List.Perm o S.flatten := by
  have h1 := h.perm.length_eq
  have h2 := h.length
  simp only [List.length_append] at h1
  have h3 : S'.flatten = [] := List.eq_nil_of_length_eq_zero (by omega)
  have := h.perm
  rwa [h3, List.append_nil] at this

/-- A chain of boundaries: each is correct for its rank and lies right of its predecessor. -/
inductive Chain (lt : α → α → Bool) (S : List (List α)) (n : Nat) : Nat → List Nat → List (List Nat) → Prop
  | last {A : List Nat} : Cut lt S n A → Chain lt S n n A []
  | step {r q : Nat} {A B : List Nat} {cs : List (List Nat)} : Cut lt S r A → List.Forall₂ (· ≤ ·) A B → r < q → q ≤ n →
      Chain lt S n q B cs → Chain lt S n r A (B :: cs)

theorem Chain.cut {S : List (List α)} {n r : Nat} {A : List Nat} {cs : List (List Nat)} (h : Chain lt S n r A cs) : Cut lt S r A := by
  cases h with
  | last h => exact h
  | step h _ _ _ _ => exact h

theorem threads_run (hw : SWO lt) (kind : Kind) (stable : Bool) (algo : Algo) (junk1 : Nat → Nat → Nat) (junk2 : Nat → Nat → Node α)
    {S : List (List α)} {n : Nat} (hS : AllSorted lt S) (hok : AlgoOk stable algo S.length) (hlen : S.length ≤ 2 ^ 64) :
    ∀ (cs : List (List Nat)) (i r : Nat) (A : List Nat) (out : List α), Chain lt S n r A cs → Merges lt false S r out (drops S A) →
    ∃ o, threads lt kind stable algo junk1 junk2 S n i (A :: cs) = some (o.zipIdx r) ∧
      Merges lt false S n (out ++ o) (drops S ((A :: cs).getLastD [])) := by
  intro cs
  induction cs with
  | nil =>
    intro i r A out hc hm
    cases hc with
    | last h => exact ⟨[], rfl, by simpa using hm⟩
  | cons B cs ih =>
    intro i r A out hc hm
    cases hc with
    | @step _ q _ _ _ hA hAB hrq hqn hr =>
      have hB := hr.cut
      obtain ⟨C, c1, c2, c3, c4⟩ := chunk_spec (lt := lt) hA.points hB.points hAB
      have l1 := right_length hA.points
      have l2 := right_length hB.points
      have l3 := c4.length_eq
      rw [hA.sum] at l1
      rw [hB.sum] at l2
      simp only [List.length_append] at l3
      have l4 : C.flatten.length = q - r := by omega
      obtain ⟨o, C', s1, s2, s3, _⟩ := sequential_run hw kind stable algo (junk1 i) (junk2 i) (n := C.flatten.length) (c3 hS)
        (by rw [c2]; exact hok) (by omega) (fun _ _ h => by rw [h] at l4; simp at l4; omega) (Nat.le_refl _)
      have s4 := s3.merges hw (c3 hS)
      have s5 := Sorted.of_merges s4 s2
      have hm2 := Merges.slab hm hB c4 s5 s4.sorted
      rw [show r + o.length = q by omega] at hm2
      obtain ⟨o', t1, t2⟩ := ih (i + 1) q B (out ++ o) hr hm2
      refine ⟨o ++ o', ?_, ?_⟩
      · have : thread lt kind stable algo (junk1 i) (junk2 i) S n A B = some (o.zipIdx r) := by
          unfold thread
          rw [c1]
          dsimp only
          rw [show Nat.min (total C) (n - A.sum) = C.flatten.length by
            rw [chunk_total, hA.sum]; exact Nat.min_eq_left (by omega), s1, hA.sum]
        show (match thread lt kind stable algo (junk1 i) (junk2 i) S n A B with
          | none => none
          | some w => (threads lt kind stable algo junk1 junk2 S n (i + 1) (B :: cs)).map (w ++ ·)) = _
        rw [this]
        dsimp only
        rw [t1]
        simp only [Option.map_some, Option.some.injEq]
        rw [List.zipIdx_append, show r + o.length = q by omega]
      · rw [← List.append_assoc]; simpa using t2

/-! ### The boundaries -/

theorem collect_range {β : Type} (f : Nat → Option β) (P : Nat → β → Prop) : ∀ (m : Nat),
    (∀ s, s < m → ∃ x, f s = some x ∧ P s x) →
    ∃ l, collect ((List.range m).map f) = some l ∧ l.length = m ∧ ∀ (s : Nat) (x : β), l[s]? = some x → P s x := by
  intro m
  induction m generalizing f P with
  | zero => intro _; exact ⟨[], rfl, rfl, by simp⟩
  | succ m ih =>
    intro h
    obtain ⟨x, h1, h2⟩ := h 0 (by omega)
    obtain ⟨l, h3, h4, h5⟩ := ih (fun s => f (s + 1)) (fun s => P (s + 1)) (fun s hs => h (s + 1) (by omega))
    refine ⟨x :: l, ?_, by simp [h4], ?_⟩
    · rw [List.range_succ_eq_map, List.map_cons, List.map_map, h1]
      simp only [collect]
      rw [show f ∘ Nat.succ = fun s => f (s + 1) from rfl, h3]; rfl
    · intro s y hs
      cases s with
      | zero => simp at hs; subst hs; exact h2
      | succ s => exact h5 s y (by simpa using hs)

/-- Boundaries, one after the other, form a chain. -/
theorem chain_of {S : List (List α)} {n : Nat} (R : Nat → Nat) : ∀ (l : List (List Nat)) (A : List Nat) (i : Nat),
    (∀ (s : Nat) (x : List Nat), (A :: l)[s]? = some x → Cut lt S (R (i + s)) x) →
    (∀ (s : Nat) (x y : List Nat), (A :: l)[s]? = some x → (A :: l)[s + 1]? = some y → List.Forall₂ (· ≤ ·) x y) →
    (∀ s, R s < R (s + 1)) → R (i + l.length) = n → Chain lt S n (R i) A l := by
  intro l
  induction l with
  | nil =>
    intro A i h _ _ hn
    have := h 0 A rfl
    simp only [List.length_nil, Nat.add_zero] at hn this
    subst hn
    exact .last this
  | cons B l ih =>
    intro A i h hm hR hn
    have hRm : ∀ a b, a ≤ b → R a ≤ R b := by
      intro a b hab
      induction hab with
      | refl => exact Nat.le_refl _
      | step _ ih => exact Nat.le_trans ih (Nat.le_of_lt (hR _))
    refine .step (q := R (i + 1)) (h 0 A rfl) (hm 0 A B rfl rfl) (hR i) ?_ (ih B (i + 1) ?_ ?_ hR ?_)
    · rw [← hn]; exact hRm _ _ (by simp)
    · intro s x hx
      have := h (s + 1) x (by simpa using hx)
      rwa [show i + (s + 1) = i + 1 + s by omega] at this
    · intro s x y hx hy
      exact hm (s + 1) x y (by simpa using hx) (by simpa using hy)
    · rw [← hn]; congr 1; simp; omega

/-- When are the boundaries ordered? If there are no ties between the sequences, or if there is at most one inner boundary. -/
def Easy (lt : α → α → Bool) (S : List (List α)) (n p : Nat) : Prop := Untied lt S ∨ (p ≤ 2 ∧ total S = n)

theorem cuts_chain (hw : SWO lt) {S : List (List α)} {n p : Nat} (hS : AllSorted lt S) (hne : ∀ s ∈ S, s ≠ [])
    (hlen : ∀ s ∈ S, s.length < 2 ^ 64) (hn : n ≤ total S) (hp : 0 < p) (hpn : p ≤ n) (hE : Easy lt S n p)
    (h1 : p = 1 → total S = n) :
    ∃ A cs, cuts lt S n p = some (A :: cs) ∧ A = S.map (fun _ => 0) ∧ Chain lt S n 0 A cs := by
  obtain ⟨offs, o1, o2, o3⟩ := collect_range (fun s => partition lt S ((equallySplit n p).getD (s + 1) 0))
    (fun s A => Cut lt S (rk n p (s + 1)) A) (p - 1) (by
      intro s hs
      rw [equallySplit_getD hp (by omega)]
      refine partition_cut hw hS hne hlen ?_
      have := rk_mono (n := n) (p := p) (i := s + 1) (j := p) (by omega)
      rw [rk_last hp] at this
      omega)
  have hR : ∀ s, rk n p s < rk n p (s + 1) := fun s => rk_lt hp hpn
  -- assemble, given the last boundary
  have fin : ∀ last, Cut lt S n last → (total S = n → last = S.map List.length) →
      Chain lt S n 0 (S.map fun _ => 0) (offs ++ [last]) := by
    intro last hl hfull
    have hc : ∀ (s : Nat) (x : List Nat), ((S.map fun _ => 0) :: (offs ++ [last]))[s]? = some x → Cut lt S (rk n p (0 + s)) x := by
      intro s x hx
      rw [Nat.zero_add]
      cases s with
      | zero =>
        simp only [List.getElem?_cons_zero, Option.some.injEq] at hx
        subst hx; rw [rk_zero]; exact zero_cut S
      | succ s =>
        rw [List.getElem?_cons_succ] at hx
        rcases Nat.lt_or_ge s offs.length with h | h
        · rw [List.getElem?_append_left h] at hx; exact o3 s x hx
        · rw [List.getElem?_append_right h] at hx
          have h0 : s - offs.length = 0 := by
            by_contra h0
            rw [List.getElem?_eq_none (by simp; omega)] at hx; simp at hx
          rw [h0] at hx
          simp only [List.getElem?_cons_zero, Option.some.injEq] at hx
          subst hx
          rw [show s + 1 = p by omega, rk_last hp]; exact hl
    have := chain_of (lt := lt) (S := S) (n := n) (rk n p) (offs ++ [last]) (S.map fun _ => 0) 0 hc (by
      intro s x y hx hy
      have cx := hc s x hx
      have cy := hc (s + 1) y hy
      rcases hE with hu | ⟨hp2, ht⟩
      · exact cut_mono hw hu cx cy (Nat.le_of_lt (hR _))
      · cases s with
        | zero =>
          simp only [List.getElem?_cons_zero, Option.some.injEq] at hx
          subst hx; exact zero_le_cut cy
        | succ s =>
          have hy' : s + 1 + 1 < ((S.map fun _ => 0) :: (offs ++ [last])).length := by
            by_contra hcc
            rw [List.getElem?_eq_none (by omega)] at hy; simp at hy
          simp only [List.length_cons, List.length_append, List.length_nil] at hy'
          have hs : s = 0 := by omega
          have ho : offs.length = 1 := by omega
          subst hs
          rw [List.getElem?_cons_succ, List.getElem?_append_right (by omega), ho] at hy
          simp only [Nat.zero_add, Nat.sub_self, List.getElem?_cons_zero, Option.some.injEq] at hy
          subst hy
          rw [hfull ht]
          exact cut_le_full cx) hR (by simp; rw [o2, show p - 1 + 1 = p by omega, rk_last hp])
    rwa [rk_zero] at this
  unfold cuts
  dsimp only
  rw [o1]
  dsimp only
  by_cases ht : total S = n
  · rw [if_pos ht]
    exact ⟨_, _, rfl, rfl, fin _ (by rw [← ht]; exact full_cut S) (fun _ => rfl)⟩
  · rw [if_neg ht, if_neg (by intro h; exact ht (h1 (by omega)))]
    obtain ⟨last, l1, l2⟩ := partition_cut hw hS hne hlen hn
    rw [l1]
    exact ⟨_, _, rfl, rfl, fin _ l2 (fun h => absurd h ht)⟩

/-! ### Empty sequences -/

theorem flatten_filter (S : List (List α)) : (S.filter fun s => !s.isEmpty).flatten = S.flatten := by
  induction S with
  | nil => rfl
  | cons s S ih => cases s <;> simp [ih]

theorem advance_spec : ∀ (S : List (List α)) (cs : List Nat), cs.length = (S.filter fun s => !s.isEmpty).length →
    (advance S cs).length = S.length ∧ (advance S cs).flatten = (drops (S.filter fun s => !s.isEmpty) cs).flatten ∧
    ∀ (i : Nat) (s s' : List α), S[i]? = some s → (advance S cs)[i]? = some s' → ∃ p, s = p ++ s' := by
  intro S
  induction S with
  | nil => intro cs h; exact ⟨rfl, by simp [advance, drops], by simp⟩
  | cons s S ih =>
    intro cs h
    cases s with
    | nil =>
      obtain ⟨a, b, c⟩ := ih cs (by simpa using h)
      refine ⟨by simp [advance, a], by simpa [advance] using b, ?_⟩
      intro i s s' h1 h2
      cases i with
      | zero => simp only [advance, List.getElem?_cons_zero, Option.some.injEq] at h1 h2; subst h1 h2; exact ⟨[], rfl⟩
      | succ i => exact c i s s' (by simpa using h1) (by simpa [advance] using h2)
    | cons x xs =>
      cases cs with
      | nil => simp at h
      | cons k cs =>
        obtain ⟨a, b, c⟩ := ih cs (by simpa using h)
        refine ⟨by simp [advance, a], by simp [advance, drops] at b ⊢; rw [b], ?_⟩
        intro i s s' h1 h2
        cases i with
        | zero =>
          simp only [advance, List.getElem?_cons_zero, Option.some.injEq] at h1 h2
          subst h1 h2; exact ⟨_, (List.take_append_drop k _).symm⟩
        | succ i => exact c i s s' (by simpa using h1) (by simpa [advance] using h2)

theorem Merges.reinsert {S : List (List α)} {n : Nat} {out : List α} {cs : List Nat}
    (h : Merges lt false (S.filter fun s => !s.isEmpty) n out (drops (S.filter fun s => !s.isEmpty) cs))
    (hl : cs.length = (S.filter fun s => !s.isEmpty).length) : Merges lt false S n out (advance S cs) := by
  obtain ⟨a, b, c⟩ := advance_spec S cs hl
  refine ⟨h.length, h.sorted, a, c, ?_, ?_, by simp⟩
  · rw [b, ← flatten_filter S]; exact h.perm
  · rw [b]; exact h.smallest

theorem chain_last {S : List (List α)} {n r : Nat} {A : List Nat} {cs : List (List Nat)} (h : Chain lt S n r A cs) :
    ((A :: cs).getLastD []).length = S.length := by
  induction h with
  | last h => exact h.points.length_eq.symm
  | step _ _ _ _ _ ih => simpa using ih

/-! ### All together -/

theorem parallel_run (hw : SWO lt) (kind : Kind) (stable : Bool) (algo : Algo) (junk1 : Nat → Nat → Nat) (junk2 : Nat → Nat → Node α)
    {S : List (List α)} {n num : Nat} (hS : AllSorted lt S) (hok : AlgoOk stable algo (S.filter fun s => !s.isEmpty).length)
    (hlen : S.length ≤ 2 ^ 64) (hlen' : ∀ s ∈ S, s.length < 2 ^ 64) (hn : n ≤ S.flatten.length) (hnum : 0 < num) (hnn : num ≤ n)
    (hE : Untied lt S ∨ (num ≤ 2 ∧ S.flatten.length = n)) (h1 : num = 1 → S.flatten.length = n) :
    ∃ out S', parallel lt kind stable algo junk1 junk2 num S n = some (out.zipIdx, S') ∧ Merges lt false S n out S' := by
  have ht : total (S.filter fun s => !s.isEmpty) = S.flatten.length := by rw [total_flatten, flatten_filter]
  unfold parallel
  dsimp only
  have hmin : Nat.min num (total (S.filter fun s => !s.isEmpty)) = num := by rw [ht]; exact Nat.min_eq_left (by omega)
  rw [if_neg (by omega), hmin, if_neg (by omega)]
  have hS' : AllSorted lt (S.filter fun s => !s.isEmpty) := fun s hs => hS s (List.mem_filter.1 hs).1
  obtain ⟨A, cs, c1, c2, c3⟩ := cuts_chain hw (n := n) (p := num) hS'
    (fun s hs => by have := (List.mem_filter.1 hs).2; rintro rfl; simp at this)
    (fun s hs => hlen' s (List.mem_filter.1 hs).1) (by omega) hnum hnn
    (by
      rcases hE with h | ⟨h, h'⟩
      · exact .inl (List.Pairwise.filter _ h)
      · exact .inr ⟨h, by omega⟩) (fun h => by rw [ht]; exact h1 h)
  rw [c1]
  dsimp only
  have hl : (S.filter fun s => !s.isEmpty).length ≤ S.length := List.length_filter_le _ _
  have h0 : Merges lt false (S.filter fun s => !s.isEmpty) 0 [] (drops (S.filter fun s => !s.isEmpty) A) := by
    have e : drops (S.filter fun s => !s.isEmpty) A = S.filter fun s => !s.isEmpty := by
      rw [c2]
      generalize S.filter (fun s => !s.isEmpty) = T
      induction T with
      | nil => rfl
      | cons t T ih => simpa [drops] using ih
    rw [e]
    exact (MergeRun.nil _).merges hw hS'
  obtain ⟨o, t1, t2⟩ := threads_run hw kind stable algo junk1 junk2 (n := n) hS' hok (by omega) cs 0 0 A [] c3 h0
  rw [t1]
  dsimp only
  exact ⟨o, _, rfl, Merges.reinsert (by simpa using t2) (chain_last c3)⟩

/-! ### Any order of the writes -/

theorem store_not_mem {mem : Nat → Option α} {ws : List (α × Nat)} : ∀ {i : Nat}, i ∉ ws.map Prod.snd → store mem ws i = mem i := by
  induction ws generalizing mem with
  | nil => intro i _; rfl
  | cons w ws ih =>
    intro i hi
    simp only [List.map_cons, List.mem_cons, not_or] at hi
    show store _ ws i = _
    rw [ih hi.2, if_neg hi.1]

theorem store_mem {ws : List (α × Nat)} : ∀ {mem : Nat → Option α} {x : α} {i : Nat}, (ws.map Prod.snd).Nodup → (x, i) ∈ ws →
    store mem ws i = some x := by
  induction ws with
  | nil => intro _ _ _ _ h; simp at h
  | cons w ws ih =>
    intro mem x i hn h
    simp only [List.map_cons, List.nodup_cons] at hn
    rcases List.mem_cons.1 h with rfl | h
    · show store _ ws i = _
      rw [store_not_mem hn.1, if_pos rfl]
    · exact ih hn.2 h

theorem store_zipIdx {mem : Nat → Option α} {out : List α} {ws : List (α × Nat)} (h : List.Perm ws out.zipIdx) :
    store mem ws = written mem out.length out := by
  have hs : (out.zipIdx.map Prod.snd) = List.range out.length := by
    rw [List.zipIdx_map_snd, List.range_eq_range']
  have hn : (ws.map Prod.snd).Nodup := by
    rw [(h.map Prod.snd).nodup_iff, hs]; exact List.nodup_range
  funext i
  unfold written
  by_cases hi : i < out.length
  · rw [if_pos hi, List.getElem?_eq_getElem hi]
    refine store_mem hn (h.symm.subset ?_)
    rw [List.mem_iff_getElem]
    exact ⟨i, by simpa using hi, by simp⟩
  · rw [if_neg hi]
    refine store_not_mem fun hm => ?_
    have := (h.map Prod.snd).subset hm
    rw [hs] at this
    exact hi (List.mem_range.1 this)

end Stxxl.MwMerge
