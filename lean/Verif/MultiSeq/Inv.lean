import Verif.MultiSeq.Basic
/-! The loop invariant of the splitter and its preservation. -/
namespace Stxxl.MultiSeq
variable {α : Type} {lt : α → α → Bool} {S : List (List α)}

/-- At granularity `h` (a power of two): the left parts are multiples of `h`, `b` is the position of the last element of the
next block, and no right neighbour is less than a left neighbour. -/
structure Inv (lt : α → α → Bool) (S : List (List α)) (h : Nat) (A : Arr) : Prop where
  pos : 0 < h
  dvd : ∀ (i : Nat), i < S.length → h ∣ A.a i
  le : ∀ (i : Nat), i < S.length → A.a i ≤ slen S i
  bb : ∀ (i : Nat), i < S.length → A.b i + 1 = A.a i + h
  ord : ∀ (i j : Nat) (x y : α), i < S.length → j < S.length → 0 < A.a i → rd S i (A.a i - 1) = some x →
    rd S j (A.b j) = some y → lt y x = false

theorem le_of_dvd_pos {h a : Nat} (hd : h ∣ a) (hp : 0 < a) : h ≤ a := Nat.le_of_dvd hp hd

/-- `x` is the pq of right neighbours. -/
structure QR (S : List (List α)) (A : Arr) (pq : List (α × Nat)) : Prop where
  snd : ∀ x ∈ pq, rd S x.2 (A.b x.2) = some x.1
  cpl : ∀ (i : Nat) (v : α), rd S i (A.b i) = some v → (v, i) ∈ pq
  nd : (pq.map Prod.snd).Nodup

structure QL (S : List (List α)) (A : Arr) (pq : List (α × Nat)) : Prop where
  snd : ∀ x ∈ pq, 0 < A.a x.2 ∧ rd S x.2 (A.a x.2 - 1) = some x.1
  cpl : ∀ (i : Nat) (v : α), 0 < A.a i → rd S i (A.a i - 1) = some v → (v, i) ∈ pq
  nd : (pq.map Prod.snd).Nodup

theorem leftSize_upd {A : Arr} {n m i v : Nat} {b : Nat → Nat} (hi : i < m) :
    leftSize { a := upd A.a i v, b := b } n m + A.a i / (n + 1) = leftSize A n m + v / (n + 1) := by
  have := sum_upd (fun x => x / (n + 1)) A.a i v m
  rw [if_pos hi, if_pos hi] at this
  exact this

theorem moveLeft_spec (hw : SWO lt) (hS : ∀ s ∈ S, Sorted lt s) {n : Nat} : ∀ (k : Nat) (A : Arr) (pq : List (α × Nat)),
    Inv lt S (n + 1) A → QR S A pq →
    ∃ A', moveLeft lt S n k A pq = some A' ∧ Inv lt S (n + 1) A' ∧
      leftSize A' n S.length ≤ leftSize A n S.length + k ∧
      (leftSize A' n S.length = leftSize A n S.length + k ∨ ∀ i, i < S.length → slen S i ≤ A'.b i) := by
  intro k
  induction k with
  | zero => intro A pq I _; exact ⟨A, rfl, I, by omega, .inl rfl⟩
  | succ k ih =>
    intro A pq I Q
    unfold moveLeft
    cases hp : popBest (lcomp lt) pq with
    | none =>
      refine ⟨A, rfl, I, by omega, .inr ?_⟩
      intro i hi
      rcases Nat.lt_or_ge (A.b i) (slen S i) with h | h
      · obtain ⟨v, hv⟩ := rd_ex h
        have := Q.cpl i v hv
        rw [popBest_none hp] at this; cases this
      · exact h
    | some xr =>
      obtain ⟨x, r⟩ := xr
      obtain ⟨hperm, hbest⟩ := popBest_spec (lcompSWO hw) hp
      have hxmem : x ∈ pq := hperm.mem_iff.1 (List.mem_cons_self ..)
      have hx := Q.snd x hxmem
      obtain ⟨hxm, hxl⟩ := rd_lt hx
      have hnd := (hperm.map Prod.snd).nodup_iff.2 Q.nd
      rw [List.map_cons] at hnd
      obtain ⟨hxr, hnd⟩ := List.nodup_cons.1 hnd
      have hrne : ∀ y ∈ r, y.2 ≠ x.2 := fun y hy h => hxr (h ▸ List.mem_map_of_mem hy)
      have hmin : ∀ (j : Nat) (y : α), rd S j (A.b j) = some y → lt y x.1 = false := by
        intro j y hy
        rcases List.mem_cons.1 (hperm.mem_iff.2 (Q.cpl j y hy)) with h | h
        · rw [← h]; exact hw.irrefl _
        · exact lt_of_not_lcomp (hbest (y, j) h)
      have hbx := I.bb x.2 hxm
      have hmn : Nat.min (A.a x.2 + n + 1) (slen S x.2) = A.a x.2 + n + 1 := by
        apply Nat.min_eq_left; omega
      dsimp only
      rw [hmn]
      have hA'b : ∀ j, upd A.b x.2 (A.b x.2 + n + 1) j = if j = x.2 then A.b x.2 + n + 1 else A.b j := fun _ => rfl
      have hA'a : ∀ j, upd A.a x.2 (A.a x.2 + n + 1) j = if j = x.2 then A.a x.2 + n + 1 else A.a j := fun _ => rfl
      have I' : Inv lt S (n + 1) { a := upd A.a x.2 (A.a x.2 + n + 1), b := upd A.b x.2 (A.b x.2 + n + 1) } := by
        refine ⟨I.pos, ?_, ?_, ?_, ?_⟩
        · intro i hi
          dsimp only; rw [hA'a]; split
          · subst i; rw [Nat.add_assoc]; exact Nat.dvd_add (I.dvd _ hi) (Nat.dvd_refl _)
          · exact I.dvd i hi
        · intro i hi
          dsimp only; rw [hA'a]; split
          · subst i; omega
          · exact I.le i hi
        · intro i hi
          dsimp only; rw [hA'a, hA'b]; split
          · omega
          · exact I.bb i hi
        · intro i j u v hi hj ha hu hv
          dsimp only at ha hu hv
          -- `v` is not less than some old right neighbour of `j`, or is one
          have hv' : ∃ w, rd S j (A.b j) = some w ∧ lt v w = false := by
            rw [hA'b] at hv
            split at hv
            · subst j; exact ⟨x.1, hx, rd_sorted hw hS hx hv (by omega)⟩
            · exact ⟨v, hv, hw.irrefl v⟩
          obtain ⟨w, hw1, hw2⟩ := hv'
          rw [hA'a] at ha hu
          split at hu
          · subst i
            rw [show A.a x.2 + n + 1 - 1 = A.b x.2 by omega, hx] at hu
            injection hu with hu; subst hu
            exact hw.negtrans _ _ _ hw2 (hmin j w hw1)
          · rename_i hne
            rw [if_neg hne] at ha
            exact hw.negtrans _ _ _ hw2 (I.ord i j u w hi hj ha hu hw1)
      have hsz : leftSize { a := upd A.a x.2 (A.a x.2 + n + 1), b := upd A.b x.2 (A.b x.2 + n + 1) } n S.length
          = leftSize A n S.length + 1 := by
        have := leftSize_upd (A := A) (n := n) (m := S.length) (i := x.2) (v := A.a x.2 + n + 1)
          (b := upd A.b x.2 (A.b x.2 + n + 1)) hxm
        rw [show A.a x.2 + n + 1 = A.a x.2 + (n + 1) by omega, Nat.add_div_right _ (by omega)] at this
        rw [show A.a x.2 + n + 1 = A.a x.2 + (n + 1) by omega]
        omega
      have hub : upd A.b x.2 (A.b x.2 + n + 1) x.2 = A.b x.2 + n + 1 := by simp [upd]
      have fin : ∀ pq', QR S { a := upd A.a x.2 (A.a x.2 + n + 1), b := upd A.b x.2 (A.b x.2 + n + 1) } pq' →
          ∃ A', moveLeft lt S n k { a := upd A.a x.2 (A.a x.2 + n + 1), b := upd A.b x.2 (A.b x.2 + n + 1) } pq' = some A' ∧
            Inv lt S (n + 1) A' ∧ leftSize A' n S.length ≤ leftSize A n S.length + (k + 1) ∧
            (leftSize A' n S.length = leftSize A n S.length + (k + 1) ∨ ∀ i, i < S.length → slen S i ≤ A'.b i) := by
        intro pq' Q'
        obtain ⟨A', h1, h2, h3, h4⟩ := ih _ pq' I' Q'
        refine ⟨A', h1, h2, by omega, ?_⟩
        rcases h4 with h | h
        · left; omega
        · exact .inr h
      by_cases hlt : A.b x.2 + n + 1 < slen S x.2
      · rw [if_pos (by rw [hub]; exact hlt)]
        obtain ⟨v, hv⟩ := rd_ex hlt
        rw [hub, hv]
        apply fin
        refine ⟨?_, ?_, ?_⟩
        · intro y hy
          dsimp only; rw [hA'b]
          rcases List.mem_cons.1 hy with hy | hy
          · subst hy; rw [if_pos rfl]; exact hv
          · rw [if_neg (hrne y hy)]
            exact Q.snd y (hperm.mem_iff.1 (List.mem_cons_of_mem _ hy))
        · intro i u hu
          dsimp only at hu; rw [hA'b] at hu
          split at hu
          · subst i; rw [hv] at hu; injection hu with hu; subst hu; exact List.mem_cons_self ..
          · rename_i hne
            rcases List.mem_cons.1 (hperm.mem_iff.2 (Q.cpl i u hu)) with h | h
            · exact absurd (by rw [← h]) hne
            · exact List.mem_cons_of_mem _ h
        · rw [List.map_cons]; exact List.nodup_cons.2 ⟨hxr, hnd⟩
      · rw [if_neg (by rw [hub]; exact hlt)]
        apply fin
        refine ⟨?_, ?_, hnd⟩
        · intro y hy
          dsimp only; rw [hA'b, if_neg (hrne y hy)]
          exact Q.snd y (hperm.mem_iff.1 (List.mem_cons_of_mem _ hy))
        · intro i u hu
          dsimp only at hu; rw [hA'b] at hu
          split at hu
          · subst i; exact absurd (rd_lt hu).2 hlt
          · rename_i hne
            rcases List.mem_cons.1 (hperm.mem_iff.2 (Q.cpl i u hu)) with h | h
            · exact absurd (by rw [← h]) hne
            · exact h

theorem moveRight_spec (hw : SWO lt) (hS : ∀ s ∈ S, Sorted lt s) {n : Nat} : ∀ (k : Nat) (A : Arr) (pq : List (α × Nat)),
    Inv lt S (n + 1) A → QL S A pq → k ≤ leftSize A n S.length →
    ∃ A', moveRight lt S n k A pq = some A' ∧ Inv lt S (n + 1) A' ∧ leftSize A' n S.length + k = leftSize A n S.length := by
  intro k
  induction k with
  | zero => intro A pq I _ _; exact ⟨A, rfl, I, by omega⟩
  | succ k ih =>
    intro A pq I Q hk
    unfold moveRight
    cases hp : popBest (fun p q => lcomp lt q p) pq with
    | none =>
      exfalso
      obtain ⟨i, hi, hg⟩ := sum_pos (m := S.length) (g := fun i => A.a i / (n + 1))
        (by have : leftSize A n S.length = ((List.range S.length).map fun i => A.a i / (n + 1)).sum := rfl
            omega)
      have ha : 0 < A.a i := by
        rcases Nat.eq_zero_or_pos (A.a i) with h | h
        · rw [h] at hg; simp at hg
        · exact h
      obtain ⟨v, hv⟩ := rd_ex (S := S) (i := i) (k := A.a i - 1) (by have := I.le i hi; omega)
      have := Q.cpl i v ha hv
      rw [popBest_none hp] at this; cases this
    | some xr =>
      obtain ⟨x, r⟩ := xr
      obtain ⟨hperm, hbest⟩ := popBest_spec (flipSWO (lcompSWO hw)) hp
      have hxmem : x ∈ pq := hperm.mem_iff.1 (List.mem_cons_self ..)
      obtain ⟨hax, hx⟩ := Q.snd x hxmem
      obtain ⟨hxm, hxl⟩ := rd_lt hx
      have hnd := (hperm.map Prod.snd).nodup_iff.2 Q.nd
      rw [List.map_cons] at hnd
      obtain ⟨hxr, hnd⟩ := List.nodup_cons.1 hnd
      have hrne : ∀ y ∈ r, y.2 ≠ x.2 := fun y hy h => hxr (h ▸ List.mem_map_of_mem hy)
      have hmax : ∀ (j : Nat) (y : α), 0 < A.a j → rd S j (A.a j - 1) = some y → lt x.1 y = false := by
        intro j y hj hy
        rcases List.mem_cons.1 (hperm.mem_iff.2 (Q.cpl j y hj hy)) with h | h
        · rw [← h]; exact hw.irrefl _
        · exact lt_of_not_lcomp (hbest (y, j) h)
      have hbx := I.bb x.2 hxm
      have hge : n + 1 ≤ A.a x.2 := le_of_dvd_pos (I.dvd _ hxm) hax
      dsimp only
      rw [if_neg (by omega)]
      have hA'b : ∀ j, upd A.b x.2 (A.b x.2 - (n + 1)) j = if j = x.2 then A.b x.2 - (n + 1) else A.b j := fun _ => rfl
      have hA'a : ∀ j, upd A.a x.2 (A.a x.2 - (n + 1)) j = if j = x.2 then A.a x.2 - (n + 1) else A.a j := fun _ => rfl
      have I' : Inv lt S (n + 1) { a := upd A.a x.2 (A.a x.2 - (n + 1)), b := upd A.b x.2 (A.b x.2 - (n + 1)) } := by
        refine ⟨I.pos, ?_, ?_, ?_, ?_⟩
        · intro i hi
          dsimp only; rw [hA'a]; split
          · subst i; exact Nat.dvd_sub (I.dvd _ hi) (Nat.dvd_refl _)
          · exact I.dvd i hi
        · intro i hi
          dsimp only; rw [hA'a]; split
          · subst i; have := I.le x.2 hi; omega
          · exact I.le i hi
        · intro i hi
          dsimp only; rw [hA'a, hA'b]; split
          · omega
          · exact I.bb i hi
        · intro i j u v hi hj ha hu hv
          dsimp only at ha hu hv
          -- `u` is not greater than some old left neighbour of `i`
          have hu' : 0 < A.a i ∧ ∃ w, rd S i (A.a i - 1) = some w ∧ lt w u = false := by
            rw [hA'a] at ha hu
            split at hu
            · subst i; exact ⟨hax, x.1, hx, rd_sorted hw hS hu hx (by omega)⟩
            · rename_i hne
              rw [if_neg hne] at ha
              exact ⟨ha, u, hu, hw.irrefl u⟩
          obtain ⟨hai, w, hw1, hw2⟩ := hu'
          rw [hA'b] at hv
          split at hv
          · subst j
            rw [show A.b x.2 - (n + 1) = A.a x.2 - 1 by omega, hx] at hv
            injection hv with hv; subst hv
            exact hw.negtrans _ _ _ (hmax i w hai hw1) hw2
          · exact hw.negtrans _ _ _ (I.ord i j w v hi hj hai hw1 hv) hw2
      have hsz : leftSize { a := upd A.a x.2 (A.a x.2 - (n + 1)), b := upd A.b x.2 (A.b x.2 - (n + 1)) } n S.length + 1
          = leftSize A n S.length := by
        have := leftSize_upd (A := A) (n := n) (m := S.length) (i := x.2) (v := A.a x.2 - (n + 1))
          (b := upd A.b x.2 (A.b x.2 - (n + 1))) hxm
        have h2 : A.a x.2 / (n + 1) = (A.a x.2 - (n + 1)) / (n + 1) + 1 := by
          rw [← Nat.add_div_right _ (show 0 < n + 1 by omega)]
          rw [show A.a x.2 - (n + 1) + (n + 1) = A.a x.2 by omega]
        omega
      have hub : upd A.a x.2 (A.a x.2 - (n + 1)) x.2 = A.a x.2 - (n + 1) := by simp [upd]
      have fin : ∀ pq', QL S { a := upd A.a x.2 (A.a x.2 - (n + 1)), b := upd A.b x.2 (A.b x.2 - (n + 1)) } pq' →
          ∃ A', moveRight lt S n k { a := upd A.a x.2 (A.a x.2 - (n + 1)), b := upd A.b x.2 (A.b x.2 - (n + 1)) } pq' = some A' ∧
            Inv lt S (n + 1) A' ∧ leftSize A' n S.length + (k + 1) = leftSize A n S.length := by
        intro pq' Q'
        obtain ⟨A', h1, h2, h3⟩ := ih _ pq' I' Q' (by omega)
        exact ⟨A', h1, h2, by omega⟩
      by_cases hlt : 0 < A.a x.2 - (n + 1)
      · rw [if_pos (by rw [hub]; exact hlt)]
        obtain ⟨v, hv⟩ := rd_ex (S := S) (i := x.2) (k := A.a x.2 - (n + 1) - 1) (by omega)
        rw [hub, hv]
        apply fin
        refine ⟨?_, ?_, ?_⟩
        · intro y hy
          dsimp only; rw [hA'a]
          rcases List.mem_cons.1 hy with hy | hy
          · subst hy; rw [if_pos rfl]; exact ⟨hlt, hv⟩
          · rw [if_neg (hrne y hy)]
            exact Q.snd y (hperm.mem_iff.1 (List.mem_cons_of_mem _ hy))
        · intro i u hi hu
          dsimp only at hi hu; rw [hA'a] at hi hu
          split at hu
          · subst i; rw [hv] at hu; injection hu with hu; subst hu; exact List.mem_cons_self ..
          · rename_i hne
            rw [if_neg hne] at hi
            rcases List.mem_cons.1 (hperm.mem_iff.2 (Q.cpl i u hi hu)) with h | h
            · exact absurd (by rw [← h]) hne
            · exact List.mem_cons_of_mem _ h
        · rw [List.map_cons]; exact List.nodup_cons.2 ⟨hxr, hnd⟩
      · rw [if_neg (by rw [hub]; exact hlt)]
        apply fin
        refine ⟨?_, ?_, hnd⟩
        · intro y hy
          dsimp only; rw [hA'a, if_neg (hrne y hy)]
          exact Q.snd y (hperm.mem_iff.1 (List.mem_cons_of_mem _ hy))
        · intro i u hi hu
          dsimp only at hi hu; rw [hA'a] at hi hu
          split at hu
          · rename_i he
            rw [if_pos he] at hi; exact absurd hi hlt
          · rename_i hne
            rw [if_neg hne] at hi
            rcases List.mem_cons.1 (hperm.mem_iff.2 (Q.cpl i u hi hu)) with h | h
            · exact absurd (by rw [← h]) hne
            · exact h

theorem fixSkew_spec (hw : SWO lt) (hS : ∀ s ∈ S, Sorted lt s) {n rank : Nat} {A : Arr} (I : Inv lt S (n + 1) A) :
    ∃ A', fixSkew lt S rank n A = some A' ∧ Inv lt S (n + 1) A' ∧
      leftSize A' n S.length ≤ rank / (n + 1) ∧
      (leftSize A' n S.length = rank / (n + 1) ∨ ∀ i, i < S.length → slen S i ≤ A'.b i) := by
  unfold fixSkew
  dsimp only
  split
  · obtain ⟨pq, h1, h2, h3, h4⟩ := pushRights_spec (S := S) (A := A) (List.range S.length) List.nodup_range
    rw [h1]
    obtain ⟨A', g1, g2, g3, g4⟩ := moveLeft_spec hw hS (rank / (n + 1) - leftSize A n S.length) A pq I
      ⟨fun x hx => (h2 x hx).2, fun i v hv => h3 i (List.mem_range.2 (rd_lt hv).1) v hv, h4⟩
    refine ⟨A', g1, g2, by omega, ?_⟩
    rcases g4 with g | g
    · left; omega
    · exact .inr g
  · split
    · obtain ⟨pq, h1, h2, h3, h4⟩ := pushLefts_spec (S := S) (A := A) (List.range S.length) List.nodup_range
        (fun i hi => I.le i (List.mem_range.1 hi))
      rw [h1]
      obtain ⟨A', g1, g2, g3⟩ := moveRight_spec hw hS (leftSize A n S.length - rank / (n + 1)) A pq I
        ⟨fun x hx => (h2 x hx).2, fun i v hi hv => h3 i (List.mem_range.2 (rd_lt hv).1) hi v hv, h4⟩ (Nat.sub_le _ _)
      exact ⟨A', g1, g2, by omega, .inl (by omega)⟩
    · exact ⟨A, rfl, I, by omega, .inl (by omega)⟩

theorem goesLeft_true {lmax : Option α} {i k : Nat} (h : goesLeft lt S lmax i k = true) :
    ∃ w v, lmax = some w ∧ rd S i k = some v ∧ lt v w = true := by
  unfold goesLeft at h
  split at h
  · cases h
  · rename_i w
    split at h
    · split at h
      · cases h
      · rename_i v hv
        exact ⟨w, v, rfl, hv, h⟩
    · cases h

theorem goesLeft_false {lmax : Option α} {i k : Nat} (h : goesLeft lt S lmax i k = false) {w v : α} (hw : lmax = some w)
    (hv : rd S i k = some v) : lt v w = false := by
  subst hw
  unfold goesLeft at h
  dsimp only at h
  rw [if_pos (rd_lt hv).2, hv] at h
  exact h

theorem refineStep_spec (hw : SWO lt) (hS : ∀ s ∈ S, Sorted lt s) {rear : Bool} {n rank : Nat} {A : Arr}
    (I : Inv lt S (2 * (n + 1)) A) :
    ∃ A', refineStep lt rear S rank n A = some A' ∧ Inv lt S (n + 1) A' ∧
      leftSize A' n S.length ≤ rank / (n + 1) ∧
      (leftSize A' n S.length = rank / (n + 1) ∨ ∀ i, i < S.length → slen S i ≤ A'.b i) := by
  unfold refineStep
  obtain ⟨lmax, h1, h2, _, h3⟩ := maxLeft_spec hw (rear := rear) (A := A) (S := S) (List.range S.length) none
    (fun i hi => I.le i (List.mem_range.1 hi))
  rw [h1]
  obtain ⟨A1, g1, _, g2⟩ := midLoop_spec (lt := lt) (S := S) (lmax := lmax) (n := n) (List.range S.length) A List.nodup_range
    (fun i hi => by have := I.bb i (List.mem_range.1 hi); omega)
  dsimp only
  rw [g1]
  refine fixSkew_spec hw hS ?_
  have hmid : ∀ i, i < S.length → (A.b i + A.a i) / 2 = A.a i + n := by
    intro i hi; have := I.bb i hi; omega
  -- the two cases of the loop
  have hcase : ∀ i, i < S.length →
      (∃ w v, lmax = some w ∧ rd S i (A.a i + n) = some v ∧ lt v w = true ∧ A1.a i = A.a i + n + 1 ∧ A1.b i = A.b i) ∨
      ((∀ w v, lmax = some w → rd S i (A.a i + n) = some v → lt v w = false) ∧ A1.a i = A.a i ∧ A1.b i = A.a i + n) := by
    intro i hi
    obtain ⟨c1, c2⟩ := g2 i (List.mem_range.2 hi)
    rw [hmid i hi] at c1 c2
    cases hg : goesLeft lt S lmax i (A.a i + n) with
    | true =>
      left
      obtain ⟨w, v, hw1, hv, hlt⟩ := goesLeft_true hg
      obtain ⟨d1, d2⟩ := c1 hg
      refine ⟨w, v, hw1, hv, hlt, ?_, d2⟩
      rw [d1]; apply Nat.min_eq_left
      have := (rd_lt hv).2
      omega
    | false =>
      right
      obtain ⟨d1, d2⟩ := c2 hg
      refine ⟨fun w v h1 h2 => goesLeft_false hg h1 h2, d1, ?_⟩
      rw [d2]; have := I.bb i hi; omega
  refine ⟨by omega, ?_, ?_, ?_, ?_⟩
  · intro i hi
    have hd : n + 1 ∣ A.a i := Nat.dvd_trans (Nat.dvd_mul_left _ _) (I.dvd i hi)
    rcases hcase i hi with ⟨_, _, _, _, _, h, _⟩ | ⟨_, h, _⟩
    · rw [h, Nat.add_assoc]; exact Nat.dvd_add hd (Nat.dvd_refl _)
    · rw [h]; exact hd
  · intro i hi
    rcases hcase i hi with ⟨_, v, _, hv, _, h, _⟩ | ⟨_, h, _⟩
    · rw [h]; exact (rd_lt hv).2
    · rw [h]; exact I.le i hi
  · intro i hi
    have := I.bb i hi
    rcases hcase i hi with ⟨_, v, _, hv, _, h, h'⟩ | ⟨_, h, h'⟩
    · rw [h, h']; omega
    · rw [h, h']; omega
  · intro i j x y hi hj ha hx hy
    -- every left neighbour is at most `lmax`
    have hxw : ∃ w, lmax = some w ∧ lt w x = false := by
      rcases hcase i hi with ⟨w, v, hw1, hv, hlt, h, _⟩ | ⟨_, h, _⟩
      · refine ⟨w, hw1, ?_⟩
        rw [h, show A.a i + n + 1 - 1 = A.a i + n by omega, hv] at hx
        injection hx with hx; subst hx
        exact hw.asymm _ _ hlt
      · rw [h] at ha hx
        exact h2 i (List.mem_range.2 hi) ha x hx
    obtain ⟨w, hw1, hw2⟩ := hxw
    -- every right neighbour is at least `lmax`
    have hyw : lt y w = false := by
      rcases hcase j hj with ⟨_, _, _, _, _, _, h⟩ | ⟨hno, _, h⟩
      · rw [h] at hy
        rcases h3 w hw1 with h | ⟨t, ht, hat, hrt⟩
        · cases h
        · exact I.ord t j w y (List.mem_range.1 ht) hj hat hrt hy
      · rw [h] at hy
        exact hno w y hw1 hy
    exact hw.negtrans _ _ _ hyw hw2

/-- When all right parts are empty the left size is everything. -/
theorem leftSize_one {A : Arr} : leftSize A 0 S.length = ((List.range S.length).map A.a).sum := by
  unfold leftSize; simp

theorem refine_spec (hw : SWO lt) (hS : ∀ s ∈ S, Sorted lt s) {rear : Bool} {rank : Nat} (hr : rank < total S) :
    ∀ (fuel n k : Nat) (A : Arr), n + 1 = 2 ^ k → n ≤ fuel → Inv lt S (n + 1) A →
      ∃ A', refine lt rear S rank fuel n A = some A' ∧ Inv lt S 1 A' ∧
        ((n = 0 ∧ A' = A) ∨ ((List.range S.length).map A'.a).sum = rank) := by
  intro fuel
  induction fuel with
  | zero =>
    intro n k A hk hf I
    have : n = 0 := by omega
    subst this
    exact ⟨A, rfl, I, .inl ⟨rfl, rfl⟩⟩
  | succ fuel ih =>
    intro n k A hk hf I
    unfold refine
    by_cases hn : n = 0
    · subst hn
      rw [if_pos rfl]
      exact ⟨A, rfl, I, .inl ⟨rfl, rfl⟩⟩
    · rw [if_neg hn]
      cases k with
      | zero => omega
      | succ k =>
        rw [Nat.pow_succ] at hk
        have hp := Nat.two_pow_pos k
        have hn2 : n / 2 + 1 = 2 ^ k := by omega
        obtain ⟨A1, h1, h2, h3, h4⟩ := refineStep_spec hw hS (rear := rear) (n := n / 2) (rank := rank) (A := A)
          (by rw [hn2, show 2 * 2 ^ k = n + 1 by omega]; exact I)
        rw [h1]
        obtain ⟨A2, g1, g2, g3⟩ := ih (n / 2) k A1 hn2 (by omega) h2
        refine ⟨A2, g1, g2, .inr ?_⟩
        rcases g3 with ⟨h0, he⟩ | h
        · subst he
          rw [h0] at h3 h4 h2
          rw [leftSize_one, Nat.zero_add, Nat.div_one] at h3 h4
          rcases h4 with h4 | h4
          · exact h4
          · exfalso
            have : ((List.range S.length).map fun i => slen S i).sum ≤ ((List.range S.length).map A2.a).sum := by
              refine sum_le ?_
              intro i hi
              have := h4 i hi
              have := h2.bb i hi
              omega
            rw [← total_eq] at this
            omega
        · exact h

theorem initial_spec (hw : SWO lt) {rank : Nat} (hne : ∀ s ∈ S, s ≠ []) (hlen : ∀ s ∈ S, s.length < 2 ^ 64)
    (hr : rank < total S) :
    ∃ A k, initial lt S rank = some A ∧ padLen S / 2 + 1 = 2 ^ k ∧ Inv lt S (padLen S / 2 + 1) A ∧
      (padLen S / 2 = 0 → ((List.range S.length).map A.a).sum = rank) := by
  -- sizes
  have hn1 : nmax S < 2 ^ 64 := foldl_max_lt S 0 (by decide) hlen
  obtain ⟨k, hk1, hk2, _⟩ := roundUp_spec (n := nmax S + 1) (by omega) (by omega)
  have htl := total_le (S := S)
  have hn0 : 0 < nmax S := by
    rcases Nat.eq_zero_or_pos (nmax S) with h | h
    · rw [h] at htl; omega
    · exact h
  have hpad : padLen S + 1 = 2 ^ k := by unfold padLen; omega
  obtain ⟨k', rfl⟩ : ∃ k', k = k' + 1 := by
    cases k with
    | zero => simp at hk2; omega
    | succ k => exact ⟨k, rfl⟩
  rw [Nat.pow_succ] at hpad
  have hp := Nat.two_pow_pos k'
  have hhalf : padLen S / 2 + 1 = 2 ^ k' := by omega
  have hdouble : padLen S = 2 * (padLen S / 2) + 1 := by omega
  have hlow : nmax S ≤ padLen S := by unfold padLen; omega
  have hpos : ∀ i, i < S.length → 0 < slen S i := by
    intro i hi
    have hs : S[i]? = some S[i] := List.getElem?_eq_getElem hi
    rw [slen_eq hs]
    exact List.length_pos_iff.2 (hne _ (List.getElem_mem hi))
  -- samples
  obtain ⟨s1, e1, m1, v1⟩ := samplesLong_spec (S := S) (n := padLen S / 2) (List.range S.length)
  obtain ⟨s2, e2, m2⟩ := samplesShort_spec (S := S) (n := padLen S / 2) (List.range S.length)
    (fun i hi => hpos i (List.mem_range.1 hi))
  have hperm : List.Perm ((sortBy lt s1 ++ s2).map Prod.snd) (List.range S.length) := by
    rw [List.map_append]
    refine ((sortBy_perm s1).map Prod.snd |>.append_right _).trans ?_
    rw [m1, m2]
    exact List.filter_append_perm _ _
  have hnd := hperm.nodup_iff.2 List.nodup_range
  have hlenL : (sortBy lt s1 ++ s2).length = S.length := by
    have := hperm.length_eq
    simpa using this
  have hrk : rank / padLen S < S.length := by
    rw [Nat.div_lt_iff_lt_mul (by omega)]
    have := Nat.mul_le_mul_left S.length hlow
    omega
  obtain ⟨A', p, q, h1, h2, h3, h4, h5, h6, h7, h8⟩ := initLeft_spec (S := S) (n := padLen S / 2) (sortBy lt s1 ++ s2)
    (rank / padLen S) { a := fun _ => 0, b := fun _ => padLen S } hnd (by omega) (by intro x _; dsimp only; omega)
  have hval : ∀ x ∈ sortBy lt s1 ++ s2, padLen S / 2 < slen S x.2 → rd S x.2 (padLen S / 2) = some x.1 := by
    intro x hx hl
    rcases List.mem_append.1 hx with hx | hx
    · exact v1 x ((sortBy_perm s1).mem_iff.1 hx)
    · have := List.mem_map_of_mem (f := Prod.snd) hx
      rw [m2, List.mem_filter] at this
      have := this.2
      simp at this; omega
  have hpw : (sortBy lt s1 ++ s2).Pairwise fun x y => padLen S / 2 < slen S y.2 → lt y.1 x.1 = false := by
    have hshort : ∀ y ∈ s2, ¬ padLen S / 2 < slen S y.2 := by
      intro y hy
      have := List.mem_map_of_mem (f := Prod.snd) hy
      rw [m2, List.mem_filter] at this
      have := this.2
      simpa using this
    refine List.pairwise_append.2 ⟨?_, ?_, ?_⟩
    · exact List.Pairwise.imp (fun {a b} h (_ : padLen S / 2 < slen S b.2) => lt_of_not_lcomp h) (sortBy_sorted hw s1)
    · clear e2 m2 hperm hnd hlenL h1 h2 h3 h4 h5 h6 h7 h8 hval
      induction s2 with
      | nil => exact .nil
      | cons z s2 ih =>
        exact .cons (fun y hy h => absurd h (hshort y (List.mem_cons_of_mem _ hy)))
          (ih (fun y hy => hshort y (List.mem_cons_of_mem _ hy)))
    · exact fun a _ b hb h => absurd h (hshort b hb)
  have hmem : ∀ i, i < S.length → i ∈ p.map Prod.snd ∨ i ∈ q.map Prod.snd := by
    intro i hi
    have := hperm.mem_iff.2 (List.mem_range.2 hi)
    rw [h2, List.map_append] at this
    exact List.mem_append.1 this
  have hdisj : ∀ i, i ∈ p.map Prod.snd → i ∈ q.map Prod.snd → False := by
    intro i hip hiq
    rw [h2, List.map_append] at hnd
    exact (List.nodup_append.1 hnd).2.2 i hip i hiq rfl
  have hcase : ∀ i, i < S.length →
      (i ∈ p.map Prod.snd ∧ A'.a i = padLen S / 2 + 1 ∧ A'.b i = padLen S ∧ padLen S / 2 + 1 ≤ slen S i) ∨
      (i ∈ q.map Prod.snd ∧ A'.a i = 0 ∧ A'.b i = padLen S / 2) := by
    intro i hi
    rcases hmem i hi with hm | hm
    · left
      refine ⟨hm, by rw [h6 i hm]; simp, by rw [h7 i (hdisj i hm)], ?_⟩
      obtain ⟨x, hx, rfl⟩ := List.mem_map.1 hm
      exact h3 x hx
    · right
      refine ⟨hm, by rw [h5 i (fun h => hdisj i h hm)], ?_⟩
      rw [h8 i hm]; dsimp only; omega
  refine ⟨A', k', ?_, hhalf, ?_, ?_⟩
  · unfold initial
    dsimp only
    rw [e1, e2]
    exact h1
  · refine ⟨by omega, ?_, ?_, ?_, ?_⟩
    · intro i hi
      rcases hcase i hi with ⟨_, h, _, _⟩ | ⟨_, h, _⟩
      · rw [h]; exact Nat.dvd_refl _
      · rw [h]; exact Nat.dvd_zero _
    · intro i hi
      rcases hcase i hi with ⟨_, h, _, hl⟩ | ⟨_, h, _⟩ <;> omega
    · intro i hi
      rcases hcase i hi with ⟨_, h, h', hl⟩ | ⟨_, h, h'⟩ <;> omega
    · intro i j x y hi hj ha hx hy
      rcases hcase i hi with ⟨hip, hai, _, hli⟩ | ⟨_, h, _⟩
      · rcases hcase j hj with ⟨_, _, hbj, _⟩ | ⟨hjq, _, hbj⟩
        · exfalso
          rw [hbj] at hy
          have := (rd_lt hy).2
          have := slen_le_nmax (S := S) j
          omega
        · obtain ⟨u, hu, rfl⟩ := List.mem_map.1 hip
          obtain ⟨v, hv, rfl⟩ := List.mem_map.1 hjq
          rw [hai, show padLen S / 2 + 1 - 1 = padLen S / 2 by omega] at hx
          rw [hbj] at hy
          have hul := hval u (by rw [h2]; exact List.mem_append_left _ hu) (by omega)
          have hvl := hval v (by rw [h2]; exact List.mem_append_right _ hv) (rd_lt hy).2
          rw [hx] at hul; injection hul with hul
          rw [hy] at hvl; injection hvl with hvl
          subst hul hvl
          rw [h2] at hpw
          exact (List.pairwise_append.1 hpw).2.2 u hu v hv (rd_lt hy).2
      · omega
  · intro h0
    have hl1 : padLen S = 1 := by omega
    have hpl : p.length = rank := by
      rcases h4 with h | ⟨x, hx, h⟩
      · rw [h, hl1, Nat.div_one]
      · exfalso
        have hx2 := hperm.mem_iff.1 (List.mem_map_of_mem (f := Prod.snd) hx)
        have := hpos x.2 (List.mem_range.1 hx2)
        omega
    have hs : ((List.range S.length).map A'.a).sum = (((p ++ q).map Prod.snd).map A'.a).sum := by
      rw [← h2]
      exact ((hperm.map A'.a).sum_nat).symm
    rw [hs, List.map_append, List.map_append, List.sum_append]
    have hp1 : ∀ (l : List Nat), (∀ i ∈ l, A'.a i = 1) → (l.map A'.a).sum = l.length := by
      intro l hl
      induction l with
      | nil => rfl
      | cons z l ih =>
        rw [List.map_cons, List.sum_cons, hl z (List.mem_cons_self ..), ih (fun i hi => hl i (List.mem_cons_of_mem _ hi)),
          List.length_cons]
        omega
    have hq0 : ∀ (l : List Nat), (∀ i ∈ l, A'.a i = 0) → (l.map A'.a).sum = 0 := by
      intro l hl
      induction l with
      | nil => rfl
      | cons z l ih =>
        rw [List.map_cons, List.sum_cons, hl z (List.mem_cons_self ..), ih (fun i hi => hl i (List.mem_cons_of_mem _ hi))]
    rw [hp1 _ (fun i hi => by rw [h6 i hi]; dsimp only; omega),
      hq0 _ (fun i hi => by rw [h5 i (fun h => hdisj i h hi)]), List.length_map, hpl]
    rfl

/-- The final arrays: sum, bounds, order. -/
theorem split_spec (hw : SWO lt) {rear : Bool} {rank : Nat} (hS : ∀ s ∈ S, Sorted lt s) (hne : ∀ s ∈ S, s ≠ [])
    (hlen : ∀ s ∈ S, s.length < 2 ^ 64) (hr : rank < total S) :
    ∃ A, split lt rear S rank = some A ∧ Inv lt S 1 A ∧ ((List.range S.length).map A.a).sum = rank := by
  obtain ⟨A, k, h1, h2, h3, h4⟩ := initial_spec hw hne hlen hr
  obtain ⟨A', g1, g2, g3⟩ := refine_spec hw hS (rear := rear) hr (padLen S / 2) (padLen S / 2) k A h2 (Nat.le_refl _) h3
  refine ⟨A', ?_, g2, ?_⟩
  · unfold split; rw [h1]; exact g1
  · rcases g3 with ⟨h0, he⟩ | h
    · subst he; exact h4 h0
    · exact h

end Stxxl.MultiSeq
