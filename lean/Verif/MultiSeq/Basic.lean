import Verif.MultiSeq.Round
/-! Lemmas about reads, queues, sums and the individual loops of the multi-sequence splitter. -/
namespace Stxxl.MultiSeq
variable {α : Type} {lt : α → α → Bool} {S : List (List α)}

theorem rd_some {i k : Nat} {x : α} (h : rd S i k = some x) : ∃ s, S[i]? = some s ∧ s[k]? = some x := by
  unfold rd at h
  cases hs : S[i]? with
  | none => rw [hs] at h; cases h
  | some s => rw [hs] at h; exact ⟨s, rfl, h⟩

theorem slen_eq {i : Nat} {s : List α} (h : S[i]? = some s) : slen S i = s.length := by
  unfold slen; rw [h]; rfl

theorem rd_lt {i k : Nat} {x : α} (h : rd S i k = some x) : i < S.length ∧ k < slen S i := by
  obtain ⟨s, h1, h2⟩ := rd_some h
  rw [slen_eq h1]
  exact ⟨(List.getElem?_eq_some_iff.1 h1).1, (List.getElem?_eq_some_iff.1 h2).1⟩

theorem lt_len_of_slen {i k : Nat} (h : k < slen S i) : i < S.length := by
  unfold slen at h
  cases hs : S[i]? with
  | none => rw [hs] at h; simp at h
  | some s => exact (List.getElem?_eq_some_iff.1 hs).1

theorem rd_ex {i k : Nat} (h : k < slen S i) : ∃ x, rd S i k = some x := by
  have hi := lt_len_of_slen h
  have hs : S[i]? = some S[i] := List.getElem?_eq_getElem hi
  rw [slen_eq hs] at h
  exact ⟨S[i][k], by unfold rd; rw [hs]; exact List.getElem?_eq_getElem h⟩

theorem rd_sorted (hw : SWO lt) (hS : ∀ s ∈ S, Sorted lt s) {i p q : Nat} {x y : α}
    (hx : rd S i p = some x) (hy : rd S i q = some y) (hpq : p ≤ q) : lt y x = false := by
  obtain ⟨s, hs, hx⟩ := rd_some hx
  obtain ⟨s', hs', hy⟩ := rd_some hy
  rw [hs] at hs'; injection hs' with hs'; subst hs'
  have hsort := hS s (List.mem_of_getElem? hs)
  rcases Nat.lt_or_eq_of_le hpq with h | h
  · obtain ⟨h1, h2⟩ := List.getElem?_eq_some_iff.1 hx
    obtain ⟨h3, h4⟩ := List.getElem?_eq_some_iff.1 hy
    have := List.pairwise_iff_getElem.1 hsort p q h1 h3 h
    rw [h2, h4] at this; exact this
  · subst h; rw [hx] at hy; injection hy with hy; subst hy; exact hw.irrefl _

/-! ### The queue -/

theorem lcompSWO (hw : SWO lt) : SWO (lcomp lt) where
  asymm := by
    intro a b h
    unfold lcomp at *
    have := hw.asymm a.1 b.1
    grind
  negtrans := by
    intro a b c h1 h2
    unfold lcomp at *
    have := hw.negtrans a.1 b.1 c.1
    have := hw.negtrans c.1 b.1 a.1
    have := hw.negtrans b.1 a.1 c.1
    have := hw.negtrans c.1 a.1 b.1
    have := hw.negtrans a.1 c.1 b.1
    have := hw.negtrans b.1 c.1 a.1
    have := hw.asymm a.1 b.1
    have := hw.asymm b.1 c.1
    have := hw.asymm a.1 c.1
    have := hw.asymm b.1 a.1
    have := hw.asymm c.1 b.1
    have := hw.asymm c.1 a.1
    grind

theorem flipSWO {β : Type} {r : β → β → Bool} (hw : SWO r) : SWO (fun p q => r q p) where
  asymm a b h := hw.asymm b a h
  negtrans a b c h1 h2 := hw.negtrans c b a h2 h1

theorem lt_of_not_lcomp {x y : α × Nat} (h : lcomp lt y x = false) : lt y.1 x.1 = false := by
  unfold lcomp at h
  grind

theorem popBest_none {better : α × Nat → α × Nat → Bool} {l : List (α × Nat)} (h : popBest better l = none) : l = [] := by
  cases l with
  | nil => rfl
  | cons x l =>
    unfold popBest at h
    split at h
    · cases h
    · split at h <;> cases h

theorem popBest_spec {better : α × Nat → α × Nat → Bool} (hb : SWO better) :
    ∀ {l : List (α × Nat)} {x : α × Nat} {r : List (α × Nat)}, popBest better l = some (x, r) →
      List.Perm (x :: r) l ∧ ∀ y ∈ r, better y x = false := by
  intro l
  induction l with
  | nil => intro x r h; cases h
  | cons z l ih =>
    intro x r h
    unfold popBest at h
    cases hp : popBest better l with
    | none =>
      rw [hp] at h; injection h with h; injection h with h1 h2
      subst h1 h2
      have := popBest_none hp
      subst this
      exact ⟨.refl _, by simp⟩
    | some yr =>
      obtain ⟨y, r'⟩ := yr
      rw [hp] at h
      dsimp only at h
      obtain ⟨hperm, hbest⟩ := ih hp
      split at h
      · rename_i hyz
        injection h with h; injection h with h1 h2; subst h1 h2
        refine ⟨(List.Perm.swap z y r').trans (hperm.cons z), ?_⟩
        intro w hw
        rcases List.mem_cons.1 hw with h | h
        · subst h; exact hb.asymm _ _ hyz
        · exact hbest w h
      · rename_i hyz
        injection h with h; injection h with h1 h2; subst h1 h2
        refine ⟨hperm.cons z, ?_⟩
        intro w hw
        have hyz : better y z = false := by simpa using hyz
        rcases List.mem_cons.1 hw with h | h
        · subst h; exact hyz
        · exact hb.negtrans _ _ _ (hbest w h) hyz

/-! ### Sorting the samples -/

theorem insertBy_perm (x : α × Nat) (l : List (α × Nat)) : List.Perm (insertBy lt x l) (x :: l) := by
  induction l with
  | nil => exact .refl _
  | cons y l ih =>
    unfold insertBy
    split
    · exact .refl _
    · exact (ih.cons y).trans (List.Perm.swap x y l)

theorem sortBy_perm (l : List (α × Nat)) : List.Perm (sortBy lt l) l := by
  induction l with
  | nil => exact .refl _
  | cons x l ih => exact (insertBy_perm x _).trans (ih.cons x)

theorem insertBy_sorted (hw : SWO lt) (x : α × Nat) (l : List (α × Nat)) (h : Sorted (lcomp lt) l) :
    Sorted (lcomp lt) (insertBy lt x l) := by
  induction l with
  | nil => simp [insertBy, Sorted]
  | cons y l ih =>
    have hL := lcompSWO hw
    unfold insertBy
    have hy := List.pairwise_cons.1 h
    split
    · rename_i hxy
      refine List.pairwise_cons.2 ⟨?_, h⟩
      intro z hz
      rcases List.mem_cons.1 hz with hz | hz
      · subst hz; exact hL.asymm _ _ hxy
      · exact hL.negtrans _ _ _ (hy.1 z hz) (hL.asymm _ _ hxy)
    · rename_i hxy
      refine List.pairwise_cons.2 ⟨?_, ih hy.2⟩
      intro z hz
      rcases List.mem_cons.1 ((insertBy_perm x l).mem_iff.1 hz) with hz | hz
      · subst hz; simpa using hxy
      · exact hy.1 z hz

theorem sortBy_sorted (hw : SWO lt) (l : List (α × Nat)) : Sorted (lcomp lt) (sortBy lt l) := by
  induction l with
  | nil => exact List.Pairwise.nil
  | cons x l ih => exact insertBy_sorted hw x _ ih

/-! ### Sums -/

theorem sum_upd (g : Nat → Nat) (f : Nat → Nat) (i v : Nat) : ∀ (m : Nat),
    ((List.range m).map fun j => g (upd f i v j)).sum + (if i < m then g (f i) else 0) =
      ((List.range m).map fun j => g (f j)).sum + (if i < m then g v else 0) := by
  intro m
  induction m with
  | zero => simp
  | succ m ih =>
    simp only [List.range_succ, List.map_append, List.sum_append, List.map_cons, List.map_nil, List.sum_cons, List.sum_nil]
    have : upd f i v m = if m = i then v else f m := rfl
    rw [this]
    by_cases h : m = i
    · subst h; simp at ih ⊢; omega
    · rw [if_neg h]
      by_cases h2 : i < m
      · rw [if_pos h2, if_pos h2] at ih
        rw [if_pos (by omega), if_pos (by omega)]; omega
      · rw [if_neg h2, if_neg h2] at ih
        rw [if_neg (by omega), if_neg (by omega)]; omega

theorem sum_pos {m : Nat} {g : Nat → Nat} (h : 0 < ((List.range m).map g).sum) : ∃ i, i < m ∧ 0 < g i := by
  induction m with
  | zero => simp at h
  | succ m ih =>
    simp only [List.range_succ, List.map_append, List.sum_append, List.map_cons, List.map_nil, List.sum_cons, List.sum_nil] at h
    by_cases hm : 0 < g m
    · exact ⟨m, by omega, hm⟩
    · obtain ⟨i, hi, hg⟩ := ih (by omega)
      exact ⟨i, by omega, hg⟩

theorem sum_le {m : Nat} {f g : Nat → Nat} (h : ∀ i, i < m → f i ≤ g i) :
    ((List.range m).map f).sum ≤ ((List.range m).map g).sum := by
  induction m with
  | zero => simp
  | succ m ih =>
    simp only [List.range_succ, List.map_append, List.sum_append, List.map_cons, List.map_nil, List.sum_cons, List.sum_nil]
    have := ih (fun i hi => h i (by omega))
    have := h m (by omega)
    omega

theorem sum_congr {m : Nat} {f g : Nat → Nat} (h : ∀ i, i < m → f i = g i) :
    ((List.range m).map f).sum = ((List.range m).map g).sum := by
  have h1 := sum_le (m := m) (f := f) (g := g) (fun i hi => by rw [h i hi]; exact Nat.le_refl _)
  have h2 := sum_le (m := m) (f := g) (g := f) (fun i hi => by rw [h i hi]; exact Nat.le_refl _)
  omega

theorem range_map_slen : (List.range S.length).map (fun i => slen S i) = S.map List.length := by
  apply List.ext_getElem?
  intro i
  simp only [List.getElem?_map]
  by_cases hi : i < S.length
  · rw [List.getElem?_range hi, List.getElem?_eq_getElem hi]
    simp [slen, List.getElem?_eq_getElem hi]
  · rw [List.getElem?_eq_none (by simp; omega), List.getElem?_eq_none (by omega)]; rfl

theorem total_eq : total S = ((List.range S.length).map fun i => slen S i).sum := by
  rw [range_map_slen]; rfl

/-! ### `nmax` -/

theorem foldl_max_ge (S : List (List α)) : ∀ (m : Nat),
    m ≤ S.foldl (fun m s => Nat.max m s.length) m ∧ ∀ s ∈ S, s.length ≤ S.foldl (fun m s => Nat.max m s.length) m := by
  induction S with
  | nil => intro m; simp
  | cons s S ih =>
    intro m
    simp only [List.foldl_cons]
    obtain ⟨h1, h2⟩ := ih (Nat.max m s.length)
    have ha : m ≤ Nat.max m s.length := Nat.le_max_left _ _
    have hb : s.length ≤ Nat.max m s.length := Nat.le_max_right _ _
    refine ⟨by omega, ?_⟩
    intro t ht
    rcases List.mem_cons.1 ht with ht | ht
    · subst ht; omega
    · exact h2 t ht

theorem foldl_max_lt {B : Nat} (S : List (List α)) : ∀ (m : Nat), m < B → (∀ s ∈ S, s.length < B) →
    S.foldl (fun m s => Nat.max m s.length) m < B := by
  induction S with
  | nil => intro m h _; exact h
  | cons s S ih =>
    intro m h hS
    simp only [List.foldl_cons]
    refine ih _ ?_ (fun t ht => hS t (List.mem_cons_of_mem _ ht))
    have := hS s (List.mem_cons_self ..)
    exact Nat.max_lt.2 ⟨h, this⟩

theorem slen_le_nmax (i : Nat) : slen S i ≤ nmax S := by
  by_cases hi : i < S.length
  · have hs : S[i]? = some S[i] := List.getElem?_eq_getElem hi
    rw [slen_eq hs]
    exact (foldl_max_ge S 0).2 _ (List.getElem_mem hi)
  · unfold slen; rw [List.getElem?_eq_none (by omega)]; simp

theorem total_le : total S ≤ S.length * nmax S := by
  rw [total_eq]
  have h := sum_le (m := S.length) (f := fun i => slen S i) (g := fun _ => nmax S) (fun i _ => slen_le_nmax i)
  have hc : ∀ (m c : Nat), ((List.range m).map fun _ => c).sum = m * c := by
    intro m c
    induction m with
    | zero => simp
    | succ m ih =>
      simp only [List.range_succ, List.map_append, List.sum_append, List.map_cons, List.map_nil, List.sum_cons, List.sum_nil]
      rw [ih, Nat.succ_mul]; omega
  have := hc S.length (nmax S)
  omega

/-! ### The loops -/

theorem maxLeft_spec (hw : SWO lt) {rear : Bool} {A : Arr} : ∀ (is : List Nat) (m : Option α),
    (∀ i ∈ is, A.a i ≤ slen S i) →
    ∃ r, maxLeft lt rear S A is m = some r ∧
      (∀ i ∈ is, 0 < A.a i → ∀ x, rd S i (A.a i - 1) = some x → ∃ w, r = some w ∧ lt w x = false) ∧
      (∀ v, m = some v → ∃ w, r = some w ∧ lt w v = false) ∧
      (∀ w, r = some w → m = some w ∨ ∃ i ∈ is, 0 < A.a i ∧ rd S i (A.a i - 1) = some w) := by
  intro is
  induction is with
  | nil =>
    intro m _
    exact ⟨m, rfl, by simp, fun v hv => ⟨v, hv, hw.irrefl v⟩, fun w h => .inl h⟩
  | cons i is ih =>
    intro m hle
    have hle' : ∀ i ∈ is, A.a i ≤ slen S i := fun j hj => hle j (List.mem_cons_of_mem _ hj)
    unfold maxLeft
    by_cases ha : 0 < A.a i
    · rw [if_pos ha]
      obtain ⟨v, hv⟩ := rd_ex (S := S) (i := i) (k := A.a i - 1) (by have := hle i (List.mem_cons_self ..); omega)
      rw [hv]
      -- whatever candidate `c` is chosen, it is not less than `v` nor than the old one
      have key : ∀ c, lt c v = false → (∀ w, m = some w → lt c w = false) → (c = v ∨ m = some c) →
          ∃ r, maxLeft lt rear S A is (some c) = some r ∧
            (∀ j ∈ i :: is, 0 < A.a j → ∀ x, rd S j (A.a j - 1) = some x → ∃ w, r = some w ∧ lt w x = false) ∧
            (∀ v, m = some v → ∃ w, r = some w ∧ lt w v = false) ∧
            (∀ w, r = some w → m = some w ∨ ∃ j ∈ i :: is, 0 < A.a j ∧ rd S j (A.a j - 1) = some w) := by
        intro c hc1 hc2 hc3
        obtain ⟨r, hr, h1, h2, h3⟩ := ih (some c) hle'
        obtain ⟨w, hw1, hw2⟩ := h2 c rfl
        refine ⟨r, hr, ?_, ?_, ?_⟩
        · intro j hj haj x hx
          rcases List.mem_cons.1 hj with hj | hj
          · subst hj; rw [hv] at hx; injection hx with hx; subst hx
            exact ⟨w, hw1, hw.negtrans _ _ _ hw2 hc1⟩
          · exact h1 j hj haj x hx
        · intro u hu
          exact ⟨w, hw1, hw.negtrans _ _ _ hw2 (hc2 u hu)⟩
        · intro w' hw'
          rcases h3 w' hw' with h | ⟨j, hj, h⟩
          · injection h with h; subst h
            rcases hc3 with h | h
            · subst h; exact .inr ⟨i, List.mem_cons_self .., ha, hv⟩
            · exact .inl h
          · exact .inr ⟨j, List.mem_cons_of_mem _ hj, h⟩
      dsimp only
      cases m with
      | none => exact key v (hw.irrefl v) (by simp) (.inl rfl)
      | some w =>
        dsimp only
        by_cases hc : (if rear = true then !lt v w else lt w v) = true
        · rw [if_pos hc]
          refine key v (hw.irrefl v) ?_ (.inl rfl)
          intro w' hw'; injection hw' with hw'; subst hw'
          cases rear
          · exact hw.asymm _ _ (by simpa using hc)
          · simpa using hc
        · rw [if_neg hc]
          refine key w ?_ ?_ (.inr rfl)
          · cases rear
            · simpa using hc
            · exact hw.asymm _ _ (by simpa using hc)
          · intro w' hw'; injection hw' with hw'; subst hw'; exact hw.irrefl _
    · rw [if_neg ha]
      obtain ⟨r, hr, h1, h2, h3⟩ := ih m hle'
      refine ⟨r, hr, ?_, h2, ?_⟩
      · intro j hj haj x hx
        rcases List.mem_cons.1 hj with hj | hj
        · subst hj; omega
        · exact h1 j hj haj x hx
      · intro w hw'
        rcases h3 w hw' with h | ⟨j, hj, h⟩
        · exact .inl h
        · exact .inr ⟨j, List.mem_cons_of_mem _ hj, h⟩

theorem minRight_spec (hw : SWO lt) {A : Arr} : ∀ (is : List Nat) (m : Option α),
    ∃ r, minRight lt S A is m = some r ∧
      (∀ i ∈ is, ∀ x, rd S i (A.b i) = some x → ∃ w, r = some w ∧ lt x w = false) ∧
      (∀ v, m = some v → ∃ w, r = some w ∧ lt v w = false) ∧
      (∀ w, r = some w → m = some w ∨ ∃ i ∈ is, rd S i (A.b i) = some w) := by
  intro is
  induction is with
  | nil =>
    intro m
    exact ⟨m, rfl, by simp, fun v hv => ⟨v, hv, hw.irrefl v⟩, fun w h => .inl h⟩
  | cons i is ih =>
    intro m
    unfold minRight
    by_cases ha : A.b i < slen S i
    · rw [if_pos ha]
      obtain ⟨v, hv⟩ := rd_ex (S := S) (i := i) (k := A.b i) ha
      rw [hv]
      have key : ∀ c, lt v c = false → (∀ w, m = some w → lt w c = false) → (c = v ∨ m = some c) →
          ∃ r, minRight lt S A is (some c) = some r ∧
            (∀ j ∈ i :: is, ∀ x, rd S j (A.b j) = some x → ∃ w, r = some w ∧ lt x w = false) ∧
            (∀ v, m = some v → ∃ w, r = some w ∧ lt v w = false) ∧
            (∀ w, r = some w → m = some w ∨ ∃ j ∈ i :: is, rd S j (A.b j) = some w) := by
        intro c hc1 hc2 hc3
        obtain ⟨r, hr, h1, h2, h3⟩ := ih (some c)
        obtain ⟨w, hw1, hw2⟩ := h2 c rfl
        refine ⟨r, hr, ?_, ?_, ?_⟩
        · intro j hj x hx
          rcases List.mem_cons.1 hj with hj | hj
          · subst hj; rw [hv] at hx; injection hx with hx; subst hx
            exact ⟨w, hw1, hw.negtrans _ _ _ hc1 hw2⟩
          · exact h1 j hj x hx
        · intro u hu
          exact ⟨w, hw1, hw.negtrans _ _ _ (hc2 u hu) hw2⟩
        · intro w' hw'
          rcases h3 w' hw' with h | ⟨j, hj, h⟩
          · injection h with h; subst h
            rcases hc3 with h | h
            · subst h; exact .inr ⟨i, List.mem_cons_self .., hv⟩
            · exact .inl h
          · exact .inr ⟨j, List.mem_cons_of_mem _ hj, h⟩
      dsimp only
      cases m with
      | none => exact key v (hw.irrefl v) (by simp) (.inl rfl)
      | some w =>
        dsimp only
        split
        · rename_i hc
          refine key v (hw.irrefl v) ?_ (.inl rfl)
          intro w' hw'; injection hw' with hw'; subst hw'
          exact hw.asymm _ _ hc
        · rename_i hc
          refine key w (by simpa using hc) ?_ (.inr rfl)
          intro w' hw'; injection hw' with hw'; subst hw'; exact hw.irrefl _
    · rw [if_neg ha]
      obtain ⟨r, hr, h1, h2, h3⟩ := ih m
      refine ⟨r, hr, ?_, h2, ?_⟩
      · intro j hj x hx
        rcases List.mem_cons.1 hj with hj | hj
        · subst hj; exact absurd (rd_lt hx).2 ha
        · exact h1 j hj x hx
      · intro w hw'
        rcases h3 w hw' with h | ⟨j, hj, h⟩
        · exact .inl h
        · exact .inr ⟨j, List.mem_cons_of_mem _ hj, h⟩

theorem midLoop_spec {lmax : Option α} {n : Nat} : ∀ (is : List Nat) (A : Arr), is.Nodup → (∀ i ∈ is, n + 1 ≤ A.b i) →
    ∃ A', midLoop lt S lmax n is A = some A' ∧
      (∀ i, i ∉ is → A'.a i = A.a i ∧ A'.b i = A.b i) ∧
      (∀ i ∈ is, (goesLeft lt S lmax i ((A.b i + A.a i) / 2) = true →
          A'.a i = Nat.min (A.a i + n + 1) (slen S i) ∧ A'.b i = A.b i) ∧
        (goesLeft lt S lmax i ((A.b i + A.a i) / 2) = false → A'.a i = A.a i ∧ A'.b i = A.b i - (n + 1))) := by
  intro is
  induction is with
  | nil => intro A _ _; exact ⟨A, rfl, by simp, by simp⟩
  | cons i is ih =>
    intro A hnd hb
    obtain ⟨hni, hnd⟩ := List.nodup_cons.1 hnd
    unfold midLoop
    have hne : ∀ j ∈ is, j ≠ i := fun j hj h => hni (h ▸ hj)
    by_cases hg : goesLeft lt S lmax i ((A.b i + A.a i) / 2) = true
    · rw [if_pos hg]
      obtain ⟨A', hA, h1, h2⟩ := ih { A with a := upd A.a i (Nat.min (A.a i + n + 1) (slen S i)) } hnd
        (fun j hj => hb j (List.mem_cons_of_mem _ hj))
      refine ⟨A', hA, ?_, ?_⟩
      · intro j hj
        have hji : j ≠ i := fun h => hj (h ▸ List.mem_cons_self ..)
        obtain ⟨h3, h4⟩ := h1 j (fun h => hj (List.mem_cons_of_mem _ h))
        exact ⟨by rw [h3]; simp [upd, hji], h4⟩
      · intro j hj
        rcases List.mem_cons.1 hj with hj | hj
        · subst hj
          obtain ⟨h3, h4⟩ := h1 j hni
          refine ⟨fun _ => ⟨by rw [h3]; simp [upd], h4⟩, fun h => by rw [hg] at h; cases h⟩
        · have := h2 j hj
          simpa [upd, hne j hj] using this
    · rw [if_neg hg, if_neg (by have := hb i (List.mem_cons_self ..); omega)]
      obtain ⟨A', hA, h1, h2⟩ := ih { A with b := upd A.b i (A.b i - (n + 1)) } hnd
        (fun j hj => by simp only [upd, hne j hj, if_false]; exact hb j (List.mem_cons_of_mem _ hj))
      refine ⟨A', hA, ?_, ?_⟩
      · intro j hj
        have hji : j ≠ i := fun h => hj (h ▸ List.mem_cons_self ..)
        obtain ⟨h3, h4⟩ := h1 j (fun h => hj (List.mem_cons_of_mem _ h))
        exact ⟨h3, by rw [h4]; simp [upd, hji]⟩
      · intro j hj
        rcases List.mem_cons.1 hj with hj | hj
        · subst hj
          obtain ⟨h3, h4⟩ := h1 j hni
          refine ⟨fun h => absurd h hg, fun _ => ⟨h3, by rw [h4]; simp [upd]⟩⟩
        · have := h2 j hj
          simpa [upd, hne j hj] using this

theorem pushRights_spec {A : Arr} : ∀ (is : List Nat), is.Nodup →
    ∃ pq, pushRights S A is = some pq ∧ (∀ x ∈ pq, x.2 ∈ is ∧ rd S x.2 (A.b x.2) = some x.1) ∧
      (∀ i ∈ is, ∀ v, rd S i (A.b i) = some v → (v, i) ∈ pq) ∧ (pq.map Prod.snd).Nodup := by
  intro is
  induction is with
  | nil => intro _; exact ⟨[], rfl, by simp, by simp, by simp⟩
  | cons i is ih =>
    intro hnd
    obtain ⟨hni, hnd⟩ := List.nodup_cons.1 hnd
    obtain ⟨pq, hpq, h1, h2, h3⟩ := ih hnd
    unfold pushRights
    by_cases hb : A.b i < slen S i
    · rw [if_pos hb]
      obtain ⟨v, hv⟩ := rd_ex hb
      rw [hv, hpq]
      refine ⟨(v, i) :: pq, rfl, ?_, ?_, ?_⟩
      · intro x hx
        rcases List.mem_cons.1 hx with hx | hx
        · subst hx; exact ⟨List.mem_cons_self .., hv⟩
        · exact ⟨List.mem_cons_of_mem _ (h1 x hx).1, (h1 x hx).2⟩
      · intro j hj u hu
        rcases List.mem_cons.1 hj with hj | hj
        · subst hj; rw [hv] at hu; injection hu with hu; subst hu; exact List.mem_cons_self ..
        · exact List.mem_cons_of_mem _ (h2 j hj u hu)
      · refine List.nodup_cons.2 ⟨?_, h3⟩
        intro hm
        obtain ⟨x, hx, hxi⟩ := List.mem_map.1 hm
        have h := (h1 x hx).1
        rw [hxi] at h; exact hni h
    · rw [if_neg hb]
      refine ⟨pq, hpq, fun x hx => ⟨List.mem_cons_of_mem _ (h1 x hx).1, (h1 x hx).2⟩, ?_, h3⟩
      intro j hj u hu
      rcases List.mem_cons.1 hj with hj | hj
      · subst hj; exact absurd (rd_lt hu).2 hb
      · exact h2 j hj u hu

theorem pushLefts_spec {A : Arr} : ∀ (is : List Nat), is.Nodup → (∀ i ∈ is, A.a i ≤ slen S i) →
    ∃ pq, pushLefts S A is = some pq ∧ (∀ x ∈ pq, x.2 ∈ is ∧ 0 < A.a x.2 ∧ rd S x.2 (A.a x.2 - 1) = some x.1) ∧
      (∀ i ∈ is, 0 < A.a i → ∀ v, rd S i (A.a i - 1) = some v → (v, i) ∈ pq) ∧ (pq.map Prod.snd).Nodup := by
  intro is
  induction is with
  | nil => intro _ _; exact ⟨[], rfl, by simp, by simp, by simp⟩
  | cons i is ih =>
    intro hnd hle
    obtain ⟨hni, hnd⟩ := List.nodup_cons.1 hnd
    obtain ⟨pq, hpq, h1, h2, h3⟩ := ih hnd (fun j hj => hle j (List.mem_cons_of_mem _ hj))
    unfold pushLefts
    by_cases hb : 0 < A.a i
    · rw [if_pos hb]
      obtain ⟨v, hv⟩ := rd_ex (S := S) (i := i) (k := A.a i - 1) (by have := hle i (List.mem_cons_self ..); omega)
      rw [hv, hpq]
      refine ⟨(v, i) :: pq, rfl, ?_, ?_, ?_⟩
      · intro x hx
        rcases List.mem_cons.1 hx with hx | hx
        · subst hx; exact ⟨List.mem_cons_self .., hb, hv⟩
        · exact ⟨List.mem_cons_of_mem _ (h1 x hx).1, (h1 x hx).2⟩
      · intro j hj ha u hu
        rcases List.mem_cons.1 hj with hj | hj
        · subst hj; rw [hv] at hu; injection hu with hu; subst hu; exact List.mem_cons_self ..
        · exact List.mem_cons_of_mem _ (h2 j hj ha u hu)
      · refine List.nodup_cons.2 ⟨?_, h3⟩
        intro hm
        obtain ⟨x, hx, hxi⟩ := List.mem_map.1 hm
        have h := (h1 x hx).1
        rw [hxi] at h; exact hni h
    · rw [if_neg hb]
      refine ⟨pq, hpq, fun x hx => ⟨List.mem_cons_of_mem _ (h1 x hx).1, (h1 x hx).2⟩, ?_, h3⟩
      intro j hj ha u hu
      rcases List.mem_cons.1 hj with hj | hj
      · subst hj; exact absurd ha hb
      · exact h2 j hj ha u hu

/-! ### Samples -/

theorem samplesLong_spec {n : Nat} : ∀ (is : List Nat), ∃ r, samplesLong S n is = some r ∧
    r.map Prod.snd = is.filter (fun i => decide (n < slen S i)) ∧ ∀ x ∈ r, rd S x.2 n = some x.1 := by
  intro is
  induction is with
  | nil => exact ⟨[], rfl, rfl, by simp⟩
  | cons i is ih =>
    obtain ⟨r, hr, h1, h2⟩ := ih
    unfold samplesLong
    by_cases h : n < slen S i
    · rw [if_pos h]
      obtain ⟨v, hv⟩ := rd_ex h
      rw [hv, hr]
      refine ⟨(v, i) :: r, rfl, by simp [h, h1], ?_⟩
      intro x hx
      rcases List.mem_cons.1 hx with hx | hx
      · subst hx; exact hv
      · exact h2 x hx
    · rw [if_neg h]
      exact ⟨r, hr, by simp [h, h1], h2⟩

theorem samplesShort_spec {n : Nat} : ∀ (is : List Nat), (∀ i ∈ is, 0 < slen S i) → ∃ r, samplesShort S n is = some r ∧
    r.map Prod.snd = is.filter (fun i => !decide (n < slen S i)) := by
  intro is
  induction is with
  | nil => intro _; exact ⟨[], rfl, rfl⟩
  | cons i is ih =>
    intro hpos
    obtain ⟨r, hr, h1⟩ := ih (fun j hj => hpos j (List.mem_cons_of_mem _ hj))
    unfold samplesShort
    by_cases h : slen S i ≤ n
    · rw [if_pos h]
      obtain ⟨v, hv⟩ := rd_ex (S := S) (i := i) (k := 0) (hpos i (List.mem_cons_self ..))
      rw [hv, hr]
      exact ⟨(v, i) :: r, rfl, by simp [show ¬ n < slen S i by omega, h1]⟩
    · rw [if_neg h]
      exact ⟨r, hr, by simp [show n < slen S i by omega, h1]⟩

theorem initRight_spec {n : Nat} : ∀ (q : List (α × Nat)) (A : Arr), (q.map Prod.snd).Nodup →
    (∀ x ∈ q, n + 1 ≤ A.b x.2) →
    ∃ A', initRight n q A = some A' ∧ A'.a = A.a ∧ (∀ i, i ∉ q.map Prod.snd → A'.b i = A.b i) ∧
      (∀ i ∈ q.map Prod.snd, A'.b i = A.b i - (n + 1)) := by
  intro q
  induction q with
  | nil => intro A _ _; exact ⟨A, rfl, rfl, by simp, by simp⟩
  | cons x q ih =>
    intro A hnd hb
    rw [List.map_cons] at hnd
    obtain ⟨hni, hnd⟩ := List.nodup_cons.1 hnd
    unfold initRight
    rw [if_neg (by have := hb x (List.mem_cons_self ..); omega)]
    have hne : ∀ i ∈ q.map Prod.snd, i ≠ x.2 := fun i hi h => hni (h ▸ hi)
    obtain ⟨A', hA, h1, h2, h3⟩ := ih { A with b := upd A.b x.2 (A.b x.2 - (n + 1)) } hnd (by
      intro y hy
      have := hne y.2 (List.mem_map_of_mem hy)
      simp only [upd, this, if_false]
      exact hb y (List.mem_cons_of_mem _ hy))
    refine ⟨A', hA, h1, ?_, ?_⟩
    · intro i hi
      rw [List.map_cons, List.mem_cons, not_or] at hi
      rw [h2 i hi.2]; simp [upd, hi.1]
    · intro i hi
      rw [List.map_cons, List.mem_cons] at hi
      rcases hi with hi | hi
      · subst hi; rw [h2 _ hni]; simp [upd]
      · rw [h3 i hi]; simp [upd, hne i hi]

theorem initLeft_spec {n : Nat} : ∀ (l : List (α × Nat)) (k : Nat) (A : Arr), (l.map Prod.snd).Nodup → k ≤ l.length →
    (∀ x ∈ l, n + 1 ≤ A.b x.2) →
    ∃ A' p q, initLeft S n k l A = some A' ∧ l = p ++ q ∧ (∀ x ∈ p, n + 1 ≤ slen S x.2) ∧
      (p.length = k ∨ ∃ x ∈ l, slen S x.2 ≤ n) ∧
      (∀ i, i ∉ p.map Prod.snd → A'.a i = A.a i) ∧ (∀ i ∈ p.map Prod.snd, A'.a i = A.a i + (n + 1)) ∧
      (∀ i, i ∉ q.map Prod.snd → A'.b i = A.b i) ∧ (∀ i ∈ q.map Prod.snd, A'.b i = A.b i - (n + 1)) := by
  intro l
  induction l with
  | nil =>
    intro k A _ hk _
    have : k = 0 := by simpa using hk
    subst this
    exact ⟨A, [], [], rfl, rfl, by simp, .inl rfl, by simp, by simp, by simp, by simp⟩
  | cons x l ih =>
    intro k A hnd hk hb
    have right : ∃ A', initRight n (x :: l) A = some A' ∧ A'.a = A.a ∧
        (∀ i, i ∉ (x :: l).map Prod.snd → A'.b i = A.b i) ∧ (∀ i ∈ (x :: l).map Prod.snd, A'.b i = A.b i - (n + 1)) :=
      initRight_spec (x :: l) A hnd hb
    cases k with
    | zero =>
      obtain ⟨A', h1, h2, h3, h4⟩ := right
      exact ⟨A', [], x :: l, by unfold initLeft; exact h1, rfl, by simp, .inl rfl, by simp [h2], by simp, h3, h4⟩
    | succ k =>
      unfold initLeft
      by_cases hl : n + 1 ≤ slen S x.2
      · rw [if_pos hl]
        rw [List.map_cons] at hnd
        obtain ⟨hni, hnd⟩ := List.nodup_cons.1 hnd
        obtain ⟨A', p, q, h1, h2, h3, h4, h5, h6, h7, h8⟩ := ih k { A with a := upd A.a x.2 (A.a x.2 + (n + 1)) } hnd
          (by simpa using hk) (fun y hy => hb y (List.mem_cons_of_mem _ hy))
        have hnp : x.2 ∉ p.map Prod.snd := by
          intro h; apply hni; rw [h2, List.map_append]; exact List.mem_append_left _ h
        refine ⟨A', x :: p, q, h1, by rw [h2]; rfl, ?_, ?_, ?_, ?_, h7, h8⟩
        · intro y hy
          rcases List.mem_cons.1 hy with hy | hy
          · subst hy; exact hl
          · exact h3 y hy
        · rcases h4 with h | ⟨y, hy, h⟩
          · left; simp [h]
          · exact .inr ⟨y, List.mem_cons_of_mem _ hy, h⟩
        · intro i hi
          rw [List.map_cons, List.mem_cons, not_or] at hi
          rw [h5 i hi.2]; simp [upd, hi.1]
        · intro i hi
          rw [List.map_cons, List.mem_cons] at hi
          rcases hi with hi | hi
          · subst hi; rw [h5 _ hnp]; simp [upd]
          · rw [h6 i hi]
            have : i ≠ x.2 := fun h => hnp (h ▸ hi)
            simp [upd, this]
      · rw [if_neg hl]
        obtain ⟨A', h1, h2, h3, h4⟩ := right
        exact ⟨A', [], x :: l, h1, rfl, by simp, .inr ⟨x, List.mem_cons_self .., by omega⟩, by simp [h2], by simp, h3, h4⟩

end Stxxl.MultiSeq
