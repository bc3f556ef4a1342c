import Verif.LoserTree.Tree
import Mathlib.Data.Fintype.EquivFin
import Mathlib.Data.List.Basic

/-! # Prediction: the smallest remaining element is always in memory -/

namespace Stxxl.LT

variable {α : Type} {lt : α → α → Bool}

/-- Everything in `a` may come before everything in `b`. -/
def AllLe (lt : α → α → Bool) (a b : List α) : Prop := ∀ x ∈ a, ∀ y ∈ b, lt y x = false

/-- The first element of `a` may come before the first of `b`. -/
def HeadLe (lt : α → α → Bool) (a b : List α) : Prop := ∀ x ∈ a.head?, ∀ y ∈ b.head?, lt y x = false

/-- A consumption sequence of blocks tagged with the number of their run. -/
structure SeqOk (lt : α → α → Bool) (r : Nat) (T : List (Nat × List α)) : Prop where
  ne : ∀ b ∈ T, b.2 ≠ []
  sorted : ∀ b ∈ T, Sorted lt b.2
  tag : ∀ b ∈ T, b.1 < r
  trig : T.Pairwise fun a b => HeadLe lt a.2 b.2
  same : T.Pairwise fun a b => a.1 = b.1 → AllLe lt a.2 b.2

/-- Invariant of the cursors: `tag i`, `orig i` are the run and the full contents of the block cursor `i` reads. -/
structure PInv (lt : α → α → Bool) (r : Nat) (cur : Nat → List α) (T : List (Nat × List α))
    (tag : Nat → Nat) (orig : Nat → List α) : Prop where
  seqOk : SeqOk lt r T
  one : 1 ≤ r
  suf : ∀ i, i < r → cur i <:+ orig i
  osorted : ∀ i, i < r → Sorted lt (orig i)
  one' : ∀ i, i < r → orig i ≠ []
  tagLt : ∀ i, i < r → tag i < r
  pair : ∀ i j, i < r → j < r → i ≠ j → tag i = tag j → AllLe lt (orig i) (orig j) ∨ AllLe lt (orig j) (orig i)
  trig : ∀ i, i < r → ∀ b ∈ T, HeadLe lt (orig i) b.2
  same : ∀ i, i < r → ∀ b ∈ T, tag i = b.1 → AllLe lt (orig i) b.2
  full : T ≠ [] → ∀ i, i < r → cur i ≠ []
  inf : ∀ i, r ≤ i → cur i = []

theorem AllLe.headLe {a b : List α} (h : AllLe lt a b) : HeadLe lt a b := by
  intro x hx y hy
  exact h x (List.mem_of_mem_head? hx) y (List.mem_of_mem_head? hy)

theorem head_mem_le (hs : SWO lt) {l : List α} (h : Sorted lt l) {x y : α} (hx : x ∈ l.head?) (hy : y ∈ l) :
    lt y x = false := by
  cases l with
  | nil => simp at hx
  | cons a l =>
    obtain rfl : a = x := by simpa using hx
    rcases List.mem_cons.1 hy with rfl | hy
    · exact hs.irrefl _
    · exact List.rel_of_pairwise_cons h hy

/-- Some loaded cursor shows an element not larger than the trigger of the next block. -/
theorem PInv.some_le (hs : SWO lt) {r : Nat} {cur : Nat → List α} {c : Nat × List α} {T : List (Nat × List α)}
    {tag : Nat → Nat} {orig : Nat → List α} (I : PInv lt r cur (c :: T) tag orig) :
    ∃ i, i < r ∧ HeadLe lt (cur i) c.2 := by
  by_contra hcon
  have hc : c ∈ c :: T := List.mem_cons_self
  obtain ⟨t, ct, hct⟩ : ∃ t ct, c.2 = t :: ct := List.exists_cons_of_ne_nil (I.seqOk.ne c hc)
  have hgt : ∀ i, i < r → ∃ x, x ∈ (cur i).head? ∧ lt t x = true := by
    intro i hi
    obtain ⟨x, xs, hx⟩ := List.exists_cons_of_ne_nil (I.full (by simp) i hi)
    refine ⟨x, by simp [hx], ?_⟩
    cases h : lt t x
    · exfalso
      apply hcon
      refine ⟨i, hi, ?_⟩
      intro a ha b hb
      rw [hx] at ha; rw [hct] at hb
      simp at ha hb
      subst ha hb
      exact h
    · rfl
  have hinj : ∀ i j, i < r → j < r → tag i = tag j → i = j := by
    intro i j hi hj ht
    by_contra hij
    have key : ∀ i j, i < r → j < r → AllLe lt (orig i) (orig j) → False := by
      intro i j hi hj hall
      obtain ⟨x, hx, hlt⟩ := hgt i hi
      obtain ⟨y, ys, hy⟩ := List.exists_cons_of_ne_nil (I.one' j hj)
      have h1 : lt y x = false :=
        hall x ((I.suf i hi).subset (List.mem_of_mem_head? hx)) y (by simp [hy])
      have h2 : lt t y = false := I.trig j hj c hc y (by simp [hy]) t (by simp [hct])
      have := hs.negtrans _ _ _ h2 h1
      rw [hlt] at this; cases this
    rcases I.pair i j hi hj hij ht with h | h
    · exact key i j hi hj h
    · exact key j i hj hi h
  have hsurj : ∃ i, i < r ∧ tag i = c.1 := by
    let f : Fin r → Fin r := fun i => ⟨tag i, I.tagLt i i.2⟩
    have hf : Function.Injective f := by
      intro a b hab
      have : tag a = tag b := congrArg Fin.val hab
      exact Fin.ext (hinj a b a.2 b.2 this)
    obtain ⟨i, hi⟩ := Finite.surjective_of_injective hf ⟨c.1, I.seqOk.tag c hc⟩
    exact ⟨i, i.2, congrArg Fin.val hi⟩
  obtain ⟨i, hi, hti⟩ := hsurj
  obtain ⟨x, hx, hlt⟩ := hgt i hi
  have := I.same i hi c hc hti x ((I.suf i hi).subset (List.mem_of_mem_head? hx)) t (by simp [hct])
  rw [hlt] at this; cases this

/-- The winner among the loaded cursors is minimal among everything that remains. -/
theorem PInv.min_all (hs : SWO lt) {r : Nat} {cur : Nat → List α} {T : List (Nat × List α)}
    {tag : Nat → Nat} {orig : Nat → List α} (I : PInv lt r cur T tag orig) {w : Nat} {x : α} {xs : List α}
    (hw : cur w = x :: xs) (hmin : ∀ j, j < r → cle lt (cur w) (cur j)) :
    (∀ j, ∀ y ∈ cur j, lt y x = false) ∧ (∀ b ∈ T, ∀ y ∈ b.2, lt y x = false) := by
  have h1 : ∀ j, ∀ y ∈ cur j, lt y x = false := by
    intro j y hy
    have hj : j < r := by
      by_contra hj
      rw [I.inf j (by omega)] at hy; simp at hy
    have hm := hmin j hj
    rw [hw] at hm
    obtain ⟨z, zs, hz⟩ := List.exists_cons_of_ne_nil (List.ne_nil_of_mem hy)
    rw [hz] at hm hy
    have hzx : lt z x = false := hm
    have hso : Sorted lt (cur j) := List.Pairwise.sublist (I.suf j hj).sublist (I.osorted j hj)
    rw [hz] at hso
    exact hs.negtrans _ _ _ (head_mem_le hs hso (by simp) hy) hzx
  refine ⟨h1, ?_⟩
  intro b hb y hy
  obtain ⟨c, T', rfl⟩ := List.exists_cons_of_ne_nil (List.ne_nil_of_mem hb)
  obtain ⟨i, hi, hle⟩ := I.some_le hs
  obtain ⟨z, zs, hz⟩ := List.exists_cons_of_ne_nil (I.full (by simp) i hi)
  obtain ⟨t, ts, ht⟩ := List.exists_cons_of_ne_nil (I.seqOk.ne c (by simp))
  have a1 : lt z x = false := h1 i z (by simp [hz])
  have a2 : lt t z = false := hle z (by simp [hz]) t (by simp [ht])
  have a3 : lt y t = false := by
    rcases List.mem_cons.1 hb with rfl | hb'
    · exact head_mem_le hs (I.seqOk.sorted b (by simp)) (by simp [ht]) hy
    · obtain ⟨u, us, hu⟩ := List.exists_cons_of_ne_nil (List.ne_nil_of_mem hy)
      have b1 := head_mem_le (x := u) hs (I.seqOk.sorted b hb) (by simp [hu]) hy
      have b2 : lt u t = false := List.rel_of_pairwise_cons I.seqOk.trig hb' t (by simp [ht]) u (by simp [hu])
      exact hs.negtrans _ _ _ b1 b2
  exact hs.negtrans _ _ _ (hs.negtrans _ _ _ a3 a2) a1

theorem SeqOk.tail {r : Nat} {c : Nat × List α} {T : List (Nat × List α)} (h : SeqOk lt r (c :: T)) : SeqOk lt r T where
  ne b hb := h.ne b (List.mem_cons_of_mem _ hb)
  sorted b hb := h.sorted b (List.mem_cons_of_mem _ hb)
  tag b hb := h.tag b (List.mem_cons_of_mem _ hb)
  trig := h.trig.tail
  same := h.same.tail

/-- All elements not yet output. -/
def rem (r : Nat) (cur : Nat → List α) (seq : List (List α)) : List α :=
  ((List.range r).map cur).flatten ++ seq.flatten

theorem rem_upd {r : Nat} {cur : Nat → List α} {w : Nat} (hw : w < r) (l : List α) :
    (((List.range r).map (upd cur w l)).flatten).Perm (l ++ (((List.range r).erase w).map cur).flatten) := by
  have hp : (List.range r).Perm (w :: (List.range r).erase w) := List.perm_cons_erase (List.mem_range.2 hw)
  refine ((hp.map (upd cur w l)).flatten).trans ?_
  rw [List.map_cons, List.flatten_cons, upd_same]
  have : (((List.range r).erase w).map (upd cur w l)) = ((List.range r).erase w).map cur := by
    apply List.map_congr_left
    intro a ha
    apply upd_ne
    rintro rfl
    exact (List.Nodup.not_mem_erase List.nodup_range) ha
  rw [this]

theorem upd_self (cur : Nat → List α) (w : Nat) : upd cur w (cur w) = cur := by
  funext j; unfold upd; split <;> simp_all

/-- Advancing the winner keeps the invariant and outputs its element. -/
theorem PInv.advance {r : Nat} {cur : Nat → List α} {T : List (Nat × List α)}
    {tag : Nat → Nat} {orig : Nat → List α} (I : PInv lt r cur T tag orig) {w : Nat} {x : α} {xs : List α}
    (hw : cur w = x :: xs) :
    ∃ cur' T' tag' orig', advance cur (T.map (·.2)) w = some (x, cur', T'.map (·.2)) ∧
      PInv lt r cur' T' tag' orig' ∧ (∀ j, j ≠ w → cur' j = cur j) ∧
      (x :: rem r cur' (T'.map (·.2))).Perm (rem r cur (T.map (·.2))) := by
  have hwr : w < r := by
    by_contra h
    rw [I.inf w (by omega)] at hw; simp at hw
  have hperm : ∀ (l : List α) (S : List (List α)), (xs ++ (T.map (·.2)).flatten).Perm (l ++ S.flatten) →
      (x :: rem r (upd cur w l) S).Perm (rem r cur (T.map (·.2))) := by
    intro l S h
    have e1 := rem_upd (cur := cur) hwr l
    have e2 := rem_upd (cur := cur) hwr (cur w)
    rw [upd_self, hw] at e2
    unfold rem
    refine ((e1.append_right _).cons x).trans (List.Perm.trans ?_ (e2.append_right _).symm)
    rw [List.cons_append, List.cons_append]
    refine List.Perm.cons x ?_
    rw [List.append_assoc, List.append_assoc]
    generalize (((List.range r).erase w).map cur).flatten = m
    have h1 : (l ++ (m ++ S.flatten)).Perm (m ++ (l ++ S.flatten)) := by
      rw [← List.append_assoc, ← List.append_assoc]; exact List.perm_append_comm.append_right _
    have h2 : (xs ++ (m ++ (T.map (·.2)).flatten)).Perm (m ++ (xs ++ (T.map (·.2)).flatten)) := by
      rw [← List.append_assoc, ← List.append_assoc]; exact List.perm_append_comm.append_right _
    exact h1.trans ((h.symm.append_left m).trans h2.symm)
  have hsuf : xs <:+ orig w := (List.suffix_cons x xs).trans (hw ▸ I.suf w hwr)
  unfold LT.advance
  rw [hw]
  cases xs with
  | cons y ys =>
    refine ⟨upd cur w (y :: ys), T, tag, orig, rfl, ?_, fun j hj => upd_ne _ _ hj, hperm _ _ (List.Perm.refl _)⟩
    refine { I with suf := ?_, full := ?_, inf := ?_ }
    · intro i hi
      by_cases h : i = w
      · subst h; rw [upd_same]; exact hsuf
      · rw [upd_ne _ _ h]; exact I.suf i hi
    · intro hT i hi
      by_cases h : i = w
      · subst h; rw [upd_same]; simp
      · rw [upd_ne _ _ h]; exact I.full hT i hi
    · intro i hi
      rw [upd_ne _ _ (by omega)]; exact I.inf i hi
  | nil =>
    cases T with
    | nil =>
      refine ⟨upd cur w [], [], tag, orig, rfl, ?_, fun j hj => upd_ne _ _ hj, hperm _ _ (List.Perm.refl _)⟩
      refine { I with suf := ?_, full := ?_, inf := ?_ }
      · intro i hi
        by_cases h : i = w
        · subst h; rw [upd_same]; exact List.nil_suffix
        · rw [upd_ne _ _ h]; exact I.suf i hi
      · intro hT; exact absurd rfl hT
      · intro i hi
        rw [upd_ne _ _ (by omega)]; exact I.inf i hi
    | cons c T =>
      refine ⟨upd cur w c.2, T, upd tag w c.1, upd orig w c.2, rfl, ?_, fun j hj => upd_ne _ _ hj,
        hperm _ _ (by simp)⟩
      have hc : c ∈ c :: T := List.mem_cons_self
      refine ⟨I.seqOk.tail, I.one, ?_, ?_, ?_, ?_, ?_, ?_, ?_, ?_, ?_⟩
      · intro i hi
        by_cases h : i = w
        · subst h; rw [upd_same, upd_same]
        · rw [upd_ne _ _ h, upd_ne _ _ h]; exact I.suf i hi
      · intro i hi
        by_cases h : i = w
        · subst h; rw [upd_same]; exact I.seqOk.sorted c hc
        · rw [upd_ne _ _ h]; exact I.osorted i hi
      · intro i hi
        by_cases h : i = w
        · subst h; rw [upd_same]; exact I.seqOk.ne c hc
        · rw [upd_ne _ _ h]; exact I.one' i hi
      · intro i hi
        by_cases h : i = w
        · subst h; rw [upd_same]; exact I.seqOk.tag c hc
        · rw [upd_ne _ _ h]; exact I.tagLt i hi
      · intro i j hi hj hij ht
        by_cases h : i = w
        · subst h
          rw [upd_same, upd_ne _ _ (Ne.symm hij)] at ht ⊢
          exact Or.inr (I.same j hj c hc ht.symm)
        · by_cases h' : j = w
          · subst h'
            rw [upd_same, upd_ne _ _ h] at ht ⊢
            exact Or.inl (I.same i hi c hc ht)
          · rw [upd_ne _ _ h, upd_ne _ _ h'] at ht ⊢
            exact I.pair i j hi hj hij ht
      · intro i hi b hb
        by_cases h : i = w
        · subst h; rw [upd_same]; exact List.rel_of_pairwise_cons I.seqOk.trig hb
        · rw [upd_ne _ _ h]; exact I.trig i hi b (List.mem_cons_of_mem _ hb)
      · intro i hi b hb
        by_cases h : i = w
        · subst h; rw [upd_same, upd_same]; exact List.rel_of_pairwise_cons I.seqOk.same hb
        · rw [upd_ne _ _ h, upd_ne _ _ h]; exact I.same i hi b (List.mem_cons_of_mem _ hb)
      · intro _ i hi
        by_cases h : i = w
        · subst h; rw [upd_same]; exact I.seqOk.ne c hc
        · rw [upd_ne _ _ h]; exact I.full (by simp) i hi
      · intro i hi
        rw [upd_ne _ _ (by omega)]; exact I.inf i hi

/-- Full invariant of the loser tree with current winner `w`. -/
structure LInv (lt : α → α → Bool) (r : Nat) (s : State α) (w : Nat) : Prop where
  rk : r ≤ s.k
  kr : s.logK = 0 → w = 0 ∧ r = 1
  tree : Tree lt s.entry s.cur s.k s.logK 1 w
  pinv : ∃ T tag orig, s.seq = T.map (·.2) ∧ PInv lt r s.cur T tag orig

theorem LInv.w_lt {r : Nat} {s : State α} {w : Nat} (I : LInv lt r s w) : w < s.k := by
  have h := I.tree.leaf
  unfold State.k at h ⊢
  have hp : 0 < 2 ^ s.logK := Nat.pos_of_ne_zero (by simp)
  rw [Nat.add_div_right _ hp] at h
  have : w / 2 ^ s.logK = 0 := by omega
  exact (Nat.div_eq_zero_iff.1 this).resolve_left (by omega)

theorem LInv.min (hs : SWO lt) {r : Nat} {s : State α} {w : Nat} (I : LInv lt r s w) (j : Nat) (hj : j < r) :
    cle lt (s.cur w) (s.cur j) := by
  apply I.tree.min hs
  have hp : 0 < 2 ^ s.logK := Nat.pos_of_ne_zero (by simp)
  unfold State.k
  rw [Nat.add_div_right _ hp, Nat.div_eq_of_lt (by have := I.rk; unfold State.k at this; omega)]

theorem LInv.ne_nil (hs : SWO lt) {r : Nat} {s : State α} {w : Nat} (I : LInv lt r s w) (h : rem r s.cur s.seq ≠ []) :
    ∃ x xs, s.cur w = x :: xs := by
  apply List.exists_cons_of_ne_nil
  intro hw
  obtain ⟨T, tag, orig, hT, P⟩ := I.pinv
  have hall : ∀ j, s.cur j = [] := by
    intro j
    by_cases hj : j < r
    · have := I.min hs j hj
      rw [hw] at this
      cases hc : s.cur j with
      | nil => rfl
      | cons y ys => rw [hc] at this; exact this.elim
    · exact P.inf j (by omega)
  have hTn : T = [] := by
    by_contra hne
    exact P.full hne 0 P.one (hall 0)
  apply h
  unfold rem
  rw [hT, hTn]
  simp [hall]

/-- The three kinds of iteration all do the same thing. -/
theorem step_spec (hs : SWO lt) {r : Nat} {s : State α} {w : Nat} (I : LInv lt r s w) (h : rem r s.cur s.seq ≠ []) :
    ∃ x s' w', stepK lt s w = some (x, s', w') ∧ stepU lt s w = some (x, s', w') ∧
      (s.logK = 0 → step0 s w = some (x, s', w')) ∧ s'.logK = s.logK ∧ LInv lt r s' w' ∧
      (x :: rem r s'.cur s'.seq).Perm (rem r s.cur s.seq) ∧ (∀ y ∈ rem r s.cur s.seq, lt y x = false) := by
  obtain ⟨x, xs, hw⟩ := I.ne_nil hs h
  obtain ⟨T, tag, orig, hT, P⟩ := I.pinv
  obtain ⟨cur', T', tag', orig', ha, P', hoff, hperm⟩ := P.advance hw
  obtain ⟨m1, m2⟩ := P.min_all hs hw (fun j hj => I.min hs j hj)
  rw [← hT] at ha hperm
  obtain ⟨t1, _, t3⟩ := I.tree.replay hs (by decide) hoff
  have hk : s.k = 2 ^ s.logK := rfl
  have hcl := climb_eq lt cur' s.logK w (hk ▸ I.w_lt) (s.entry, w)
  rw [← hk] at hcl
  refine ⟨x, { s with entry := (pathN lt cur' s.k w s.logK (s.entry, w)).1, cur := cur', seq := T'.map (·.2) },
    (pathN lt cur' s.k w s.logK (s.entry, w)).2, ?_, ?_, ?_, rfl, ?_, hperm, ?_⟩
  · unfold stepK; rw [ha]; dsimp only; rw [hcl]
  · unfold stepU; rw [ha]; dsimp only; rw [t3]
  · intro h0
    obtain ⟨rfl, rfl⟩ := I.kr h0
    unfold step0; rw [ha]; dsimp only
    rw [h0]; rfl
  · refine ⟨I.rk, ?_, t1, T', tag', orig', rfl, P'⟩
    intro h0
    have := I.kr h0
    change s.logK = 0 at h0
    rw [h0]; exact this
  · intro y hy
    unfold rem at hy
    rcases List.mem_append.1 hy with hy | hy
    · obtain ⟨l, hl, hy⟩ := List.mem_flatten.1 hy
      obtain ⟨j, _, rfl⟩ := List.mem_map.1 hl
      exact m1 j y hy
    · obtain ⟨l, hl, hy⟩ := List.mem_flatten.1 hy
      rw [hT] at hl
      obtain ⟨b, hb, rfl⟩ := List.mem_map.1 hl
      exact m2 b hb y hy

/-- What a merge of `n` elements achieves. -/
def Merged (lt : α → α → Bool) (r : Nat) (s s' : State α) (xs : List α) : Prop :=
  Sorted lt xs ∧ (xs ++ rem r s'.cur s'.seq).Perm (rem r s.cur s.seq) ∧
    ∀ x ∈ xs, ∀ y ∈ rem r s'.cur s'.seq, lt y x = false

theorem outLoop_spec (hs : SWO lt) {r : Nat} (step : State α → Nat → Option (α × State α × Nat)) (L : Nat)
    (hstep : ∀ (s : State α) (w : Nat), s.logK = L → LInv lt r s w → rem r s.cur s.seq ≠ [] → step s w = stepK lt s w) :
    ∀ (n : Nat) (s : State α) (w : Nat), s.logK = L → LInv lt r s w → n ≤ (rem r s.cur s.seq).length →
    ∃ xs s' w', outLoop step n s w = some (xs, s', w') ∧ outLoop (stepK lt) n s w = some (xs, s', w') ∧
      xs.length = n ∧ s'.logK = L ∧ LInv lt r s' w' ∧ Merged lt r s s' xs := by
  intro n
  induction n with
  | zero =>
    intro s w hL I _
    exact ⟨[], s, w, rfl, rfl, rfl, hL, I, List.Pairwise.nil, List.Perm.refl _, by simp⟩
  | succ n ih =>
    intro s w hL I hn
    have hne : rem r s.cur s.seq ≠ [] := by intro h; rw [h] at hn; simp at hn
    obtain ⟨x, s1, w1, a1, a2, a3, a4, I1, hp, hm⟩ := step_spec hs I hne
    have hlen := hp.length_eq
    rw [List.length_cons] at hlen
    obtain ⟨xs, s2, w2, b1, b2, b3, b4, I2, c1, c2, c3⟩ := ih s1 w1 (a4.trans hL) I1 (by omega)
    refine ⟨x :: xs, s2, w2, ?_, ?_, by simp [b3], b4, I2, ?_, ?_, ?_⟩
    · simp only [outLoop, hstep s w hL I hne, a1, b1]
    · simp only [outLoop, a1, b2]
    · refine List.Pairwise.cons ?_ c1
      intro y hy
      exact hm y (hp.subset (List.mem_cons_of_mem _ (c2.subset (List.mem_append_left _ hy))))
    · rw [List.cons_append]
      exact (c2.cons x).trans hp
    · intro z hz y hy
      rcases List.mem_cons.1 hz with rfl | hz
      · exact hm y (hp.subset (List.mem_cons_of_mem _ (c2.subset (List.mem_append_right _ hy))))
      · exact c3 z hz y hy

/-- The invariant between calls of `multi_merge`. -/
def Inv (lt : α → α → Bool) (r : Nat) (s : State α) : Prop := LInv lt r s (s.entry 0)

theorem Tree.upd_zero {e : Nat → Nat} {cur : Nat → List α} {k h w x : Nat} (t : Tree lt e cur k h 1 w) :
    Tree lt (upd e 0 x) cur k h 1 w := by
  apply t.frame
  · intro m b
    apply upd_ne
    rintro rfl
    exact not_below_of_lt (by decide) b
  · intro _ _; rfl

theorem multiMerge_spec (hs : SWO lt) {r : Nat} {s : State α} (I : Inv lt r s) {n : Nat}
    (hn : n ≤ (rem r s.cur s.seq).length) :
    ∃ xs s', multiMerge lt s n = some (xs, s') ∧ xs.length = n ∧ Inv lt r s' ∧ Merged lt r s s' xs := by
  unfold multiMerge
  by_cases h0 : s.logK = 0
  · rw [if_pos h0]
    have hw : s.entry 0 = 0 := (I.kr h0).1
    have I' : LInv lt r s 0 := by have h := I; unfold Inv at h; rw [hw] at h; exact h
    -- the step0 loop never changes `entry`
    have hent : ∀ (n : Nat) (s : State α) (w : Nat) xs s' w', outLoop step0 n s w = some (xs, s', w') →
        s'.entry = s.entry ∧ w' = w := by
      intro n
      induction n with
      | zero => intro s w xs s' w' h; simp only [outLoop, Option.some.injEq, Prod.mk.injEq] at h; obtain ⟨_, rfl, rfl⟩ := h; exact ⟨rfl, rfl⟩
      | succ n ih =>
        intro s w xs s' w' h
        simp only [outLoop, step0] at h
        cases ha : advance s.cur s.seq 0 with
        | none => rw [ha] at h; cases h
        | some a =>
          obtain ⟨x, cur, seq⟩ := a
          rw [ha] at h
          dsimp only at h
          cases hb : outLoop step0 n { s with cur := cur, seq := seq } w with
          | none => rw [hb] at h; cases h
          | some b =>
            obtain ⟨ys, t, v⟩ := b
            rw [hb] at h
            simp only [Option.some.injEq, Prod.mk.injEq] at h
            obtain ⟨_, rfl, rfl⟩ := h
            have := ih _ _ _ _ _ hb
            exact this
    obtain ⟨xs, s', w', b1, _, b3, b4, I2, c⟩ := outLoop_spec hs (r := r) step0 0 (by
      intro s w hL I hne
      obtain ⟨x, s1, w1, a1, a2, a3, _⟩ := step_spec hs I hne
      rw [a3 hL, a1]) n s 0 h0 I' hn
    obtain ⟨e1, rfl⟩ := hent _ _ _ _ _ _ b1
    refine ⟨xs, s', by rw [b1], b3, ?_, c⟩
    unfold Inv
    rw [e1, hw]; exact I2
  · rw [if_neg h0]
    obtain ⟨xs, s', w', b1, _, b3, b4, I2, c⟩ := outLoop_spec hs (r := r)
      (if s.logK ≤ 10 then stepU lt else stepK lt) s.logK (by
      intro s2 w hL I hne
      obtain ⟨x, s1, w1, a1, a2, a3, _⟩ := step_spec hs I hne
      split
      · rw [a2, a1]
      · rfl) n s (s.entry 0) rfl I hn
    refine ⟨xs, { s' with entry := upd s'.entry 0 w' }, by rw [b1], b3, ?_, c⟩
    unfold Inv
    dsimp only
    rw [upd_same]
    exact ⟨I2.rk, I2.kr, I2.tree.upd_zero, I2.pinv⟩

theorem Merged.trans {r : Nat} {s s' s'' : State α} {xs ys : List α} (h1 : Merged lt r s s' xs)
    (h2 : Merged lt r s' s'' ys) : Merged lt r s s'' (xs ++ ys) := by
  obtain ⟨a1, a2, a3⟩ := h1
  obtain ⟨b1, b2, b3⟩ := h2
  refine ⟨?_, ?_, ?_⟩
  · unfold Sorted
    rw [List.pairwise_append]
    refine ⟨a1, b1, ?_⟩
    intro x hx y hy
    exact a3 x hx y (b2.subset (List.mem_append_left _ hy))
  · rw [List.append_assoc]
    exact (b2.append_left xs).trans a2
  · intro x hx y hy
    rcases List.mem_append.1 hx with hx | hx
    · exact a3 x hx y (b2.subset (List.mem_append_right _ hy))
    · exact b3 x hx y hy

theorem mergeCalls_spec (hs : SWO lt) {r : Nat} : ∀ (ns : List Nat) {s : State α}, Inv lt r s →
    ns.sum ≤ (rem r s.cur s.seq).length →
    ∃ xss s', mergeCalls lt ns s = some (xss, s') ∧ xss.map List.length = ns ∧ Inv lt r s' ∧
      Merged lt r s s' xss.flatten := by
  intro ns
  induction ns with
  | nil =>
    intro s I _
    exact ⟨[], s, rfl, rfl, I, List.Pairwise.nil, List.Perm.refl _, by simp⟩
  | cons n ns ih =>
    intro s I hn
    rw [List.sum_cons] at hn
    obtain ⟨xs, s1, a1, a2, a3, a4⟩ := multiMerge_spec hs I (n := n) (by omega)
    have := a4.2.1.length_eq
    rw [List.length_append] at this
    obtain ⟨xss, s2, b1, b2, b3, b4⟩ := ih a3 (by omega)
    refine ⟨xs :: xss, s2, ?_, by simp [a2, b2], b3, ?_⟩
    · simp only [mergeCalls, a1, b1]
    · rw [List.flatten_cons]; exact a4.trans b4

theorem le_ilog2Ceil (r : Nat) : r ≤ 2 ^ ilog2Ceil r := by
  unfold ilog2Ceil
  split
  · rename_i h; simpa using h
  · rename_i h
    have := Nat.lt_log2_self (n := r - 1)
    omega

theorem init_spec (hs : SWO lt) {r : Nat} (hr : 1 ≤ r) {T : List (Nat × List α)} (hT : SeqOk lt r T) (hlen : r ≤ T.length) :
    ∃ s, init lt r (T.map (·.2)) = some s ∧ Inv lt r s ∧ (rem r s.cur s.seq).Perm (T.map (·.2)).flatten := by
  have hnl : ¬ (T.map (·.2)).length < r := by simp; omega
  have hget : ∀ i (hi : i < r), (T.map (·.2)).getD i [] = (T[i]'(by omega)).2 := by
    intro i hi
    rw [List.getD_eq_getElem?_getD, List.getElem?_map, List.getElem?_eq_getElem (by omega)]; rfl
  generalize hcur : (fun i => if i < r then (T.map (·.2)).getD i [] else []) = cur
  have hc1 : ∀ i (hi : i < r), cur i = (T[i]'(by omega)).2 := by
    intro i hi; rw [← hcur]; simp only [hi, if_true]; exact hget i hi
  have hc2 : ∀ i, r ≤ i → cur i = [] := by
    intro i hi; rw [← hcur]; simp only [Nat.not_lt.2 hi, if_false]
  have hiw := initWinner_tree hs cur (2 ^ ilog2Ceil r) (ilog2Ceil r) (ilog2Ceil r + 1) 1
    (fun i => i - 2 ^ ilog2Ceil r) (by omega) (by decide) (by simp) (by simp)
  generalize hgw : initWinner lt cur (2 ^ ilog2Ceil r) (ilog2Ceil r + 1) 1 (fun i => i - 2 ^ ilog2Ceil r) = p at hiw
  refine ⟨{ logK := ilog2Ceil r, entry := upd p.2 0 p.1, cur := cur, seq := (T.map (·.2)).drop r }, ?_, ?_, ?_⟩
  · unfold init
    dsimp only
    rw [if_neg hnl, hcur, hgw]
  · unfold Inv
    dsimp only
    rw [upd_same]
    refine ⟨le_ilog2Ceil r, ?_, hiw.1.upd_zero, T.drop r, fun i => if h : i < r then (T[i]'(by omega)).1 else 0, cur, ?_, ?_⟩
    · intro h
      change ilog2Ceil r = 0 at h
      have h1 := hiw.1
      rw [h] at h1
      have h1 : p.1 + 2 ^ 0 = 1 := h1
      have h2 := le_ilog2Ceil r
      rw [h] at h2
      exact ⟨by omega, by omega⟩
    · dsimp only; rw [List.map_drop]
    · have hmem : ∀ i (hi : i < r), T[i]'(by omega) ∈ T := fun i hi => List.getElem_mem _
      have hdrop : ∀ b ∈ T.drop r, b ∈ T := fun b hb => List.mem_of_mem_drop hb
      have hpw : ∀ {R : Nat × List α → Nat × List α → Prop}, T.Pairwise R → ∀ i (hi : i < r), ∀ b ∈ T.drop r,
          R (T[i]'(by omega)) b := by
        intro R hR i hi b hb
        rw [← List.take_append_drop r T, List.pairwise_append] at hR
        apply hR.2.2 _ _ b hb
        rw [List.mem_take_iff_getElem]
        exact ⟨i, by omega, rfl⟩
      refine ⟨?_, hr, ?_, ?_, ?_, ?_, ?_, ?_, ?_, ?_, hc2⟩
      · exact ⟨fun b hb => hT.ne b (hdrop b hb), fun b hb => hT.sorted b (hdrop b hb), fun b hb => hT.tag b (hdrop b hb),
          hT.trig.sublist (List.drop_sublist _ _), hT.same.sublist (List.drop_sublist _ _)⟩
      · intro i _; exact List.suffix_refl _
      · intro i hi; rw [hc1 i hi]; exact hT.sorted _ (hmem i hi)
      · intro i hi; rw [hc1 i hi]; exact hT.ne _ (hmem i hi)
      · intro i hi; simp only [hi, dif_pos]; exact hT.tag _ (hmem i hi)
      · intro i j hi hj hij ht
        simp only [hi, hj, dif_pos] at ht
        rw [hc1 i hi, hc1 j hj]
        rcases Nat.lt_or_gt_of_ne hij with h | h
        · exact Or.inl (List.pairwise_iff_getElem.1 hT.same i j (by omega) (by omega) h ht)
        · exact Or.inr (List.pairwise_iff_getElem.1 hT.same j i (by omega) (by omega) h ht.symm)
      · intro i hi b hb; rw [hc1 i hi]; exact hpw hT.trig i hi b hb
      · intro i hi b hb ht
        simp only [hi, dif_pos] at ht
        rw [hc1 i hi]; exact hpw hT.same i hi b hb ht
      · intro _ i hi; show cur i ≠ []; rw [hc1 i hi]; exact hT.ne _ (hmem i hi)
  · unfold rem
    dsimp only
    have : (List.range r).map cur = (T.map (·.2)).take r := by
      apply List.ext_getElem
      · simp; omega
      · intro i h1 h2
        simp only [List.length_map, List.length_range] at h1
        simp [hc1 i h1]
    rw [this, ← List.flatten_append, List.take_append_drop]

end Stxxl.LT
