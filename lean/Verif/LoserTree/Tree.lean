import Verif.LoserTree.Model

/-! # The tournament invariant of the loser tree, and the equivalence of the two merge loops -/

namespace Stxxl.LT

variable {α : Type} {lt : α → α → Bool}

theorem upd_same {β : Type} (f : Nat → β) (i : Nat) (x : β) : upd f i x i = x := by simp [upd]

theorem upd_ne {β : Type} (f : Nat → β) {i j : Nat} (x : β) (h : j ≠ i) : upd f i x j = f j := by simp [upd, h]

/-- Cursor `a` may be output before cursor `b`. -/
def cle (lt : α → α → Bool) (a b : List α) : Prop :=
  match b with
  | [] => True
  | y :: _ =>
    match a with
    | [] => False
    | x :: _ => lt y x = false

theorem cle_refl (h : SWO lt) (a : List α) : cle lt a a := by
  cases a with
  | nil => trivial
  | cons x xs => exact h.irrefl x

theorem cle_trans (h : SWO lt) {a b c : List α} (h1 : cle lt a b) (h2 : cle lt b c) : cle lt a c := by
  cases c with
  | nil => trivial
  | cons z zs =>
    cases b with
    | nil => exact h2.elim
    | cons y ys =>
      cases a with
      | nil => exact h1.elim
      | cons x xs => exact h.negtrans _ _ _ h2 h1

theorem cle_of_curLess (h : SWO lt) {a b : List α} (h1 : curLess lt a b = true) : cle lt a b := by
  cases b with
  | nil => trivial
  | cons y ys =>
    cases a with
    | nil => simp [curLess] at h1
    | cons x xs => exact h.asymm _ _ h1

theorem cle_of_not_curLess {a b : List α} (h1 : curLess lt a b = false) : cle lt b a := by
  cases b with
  | nil => simp [curLess] at h1
  | cons y ys =>
    cases a with
    | nil => trivial
    | cons x xs => exact h1

/-- Node `n`, of height `h`, has winner `w`, and the losers below it are recorded in `entry`. -/
def Tree (lt : α → α → Bool) (entry : Nat → Nat) (cur : Nat → List α) (k : Nat) : Nat → Nat → Nat → Prop
  | 0, n, w => w + k = n
  | h + 1, n, w => ∃ wl wr, Tree lt entry cur k h (2 * n) wl ∧ Tree lt entry cur k h (2 * n + 1) wr ∧
      ((w = wl ∧ entry n = wr) ∨ (w = wr ∧ entry n = wl)) ∧ cle lt (cur w) (cur (entry n))

/-- `m` is an inner node of the subtree of height `h` below `n`. -/
def Below (h n m : Nat) : Prop := ∃ t, t < h ∧ m / 2 ^ t = n

theorem below_left {h n m : Nat} (b : Below h (2 * n) m) : Below (h + 1) n m := by
  obtain ⟨t, h1, h2⟩ := b
  refine ⟨t + 1, by omega, ?_⟩
  rw [Nat.pow_succ, ← Nat.div_div_eq_div_mul, h2]; omega

theorem below_right {h n m : Nat} (b : Below h (2 * n + 1) m) : Below (h + 1) n m := by
  obtain ⟨t, h1, h2⟩ := b
  refine ⟨t + 1, by omega, ?_⟩
  rw [Nat.pow_succ, ← Nat.div_div_eq_div_mul, h2]; omega

theorem below_self (h n : Nat) : Below (h + 1) n n := ⟨0, by omega, by simp⟩

theorem not_below_of_lt {h n m : Nat} (hm : m < n) : ¬ Below h n m := by
  rintro ⟨t, _, h2⟩
  have := Nat.div_le_self m (2 ^ t)
  omega

theorem below_disjoint {h n m : Nat} (hn : 0 < n) (b1 : Below h (2 * n) m) (b2 : Below h (2 * n + 1) m) : False := by
  obtain ⟨t, h1, h2⟩ := b1
  obtain ⟨u, h3, h4⟩ := b2
  rcases Nat.lt_trichotomy t u with c | c | c
  · obtain ⟨d, rfl⟩ := Nat.exists_eq_add_of_lt c
    rw [Nat.add_assoc, Nat.pow_add, ← Nat.div_div_eq_div_mul, h2, Nat.pow_succ, Nat.mul_comm (2 ^ d),
      ← Nat.div_div_eq_div_mul] at h4
    have := Nat.div_le_self (2 * n / 2) (2 ^ d)
    omega
  · subst c; omega
  · obtain ⟨d, rfl⟩ := Nat.exists_eq_add_of_lt c
    rw [Nat.add_assoc, Nat.pow_add, ← Nat.div_div_eq_div_mul, h4, Nat.pow_succ, Nat.mul_comm (2 ^ d),
      ← Nat.div_div_eq_div_mul] at h2
    have := Nat.div_le_self ((2 * n + 1) / 2) (2 ^ d)
    omega

theorem Tree.leaf {entry : Nat → Nat} {cur : Nat → List α} {k : Nat} : ∀ {h n w : Nat},
    Tree lt entry cur k h n w → (w + k) / 2 ^ h = n := by
  intro h
  induction h with
  | zero => intro n w t; have : w + k = n := t; simp [this]
  | succ h ih =>
    rintro n w ⟨wl, wr, tl, tr, hw, _⟩
    rw [Nat.pow_succ, ← Nat.div_div_eq_div_mul]
    rcases hw with ⟨rfl, _⟩ | ⟨rfl, _⟩
    · rw [ih tl]; omega
    · rw [ih tr]; omega

theorem Tree.min (hs : SWO lt) {entry : Nat → Nat} {cur : Nat → List α} {k : Nat} : ∀ {h n w : Nat},
    Tree lt entry cur k h n w → ∀ j, (j + k) / 2 ^ h = n → cle lt (cur w) (cur j) := by
  intro h
  induction h with
  | zero =>
    intro n w t j hj
    have e : w + k = n := t
    have : j = w := by simp at hj; omega
    subst this; exact cle_refl hs _
  | succ h ih =>
    rintro n w ⟨wl, wr, tl, tr, hw, hc⟩ j hj
    rw [Nat.pow_succ, ← Nat.div_div_eq_div_mul] at hj
    have hl := ih tl j
    have hr := ih tr j
    have hcase : (j + k) / 2 ^ h = 2 * n ∨ (j + k) / 2 ^ h = 2 * n + 1 := by omega
    rcases hw with ⟨rfl, he⟩ | ⟨rfl, he⟩ <;> rw [he] at hc <;> rcases hcase with c | c
    · exact hl c
    · exact cle_trans hs hc (hr c)
    · exact cle_trans hs hc (hl c)
    · exact hr c

theorem Tree.frame {e e' : Nat → Nat} {cur cur' : Nat → List α} {k : Nat} : ∀ {h n w : Nat},
    Tree lt e cur k h n w → (∀ m, Below h n m → e' m = e m) →
    (∀ j, (j + k) / 2 ^ h = n → cur' j = cur j) → Tree lt e' cur' k h n w := by
  intro h
  induction h with
  | zero => intro n w t _ _; exact t
  | succ h ih =>
    rintro n w ⟨wl, wr, tl, tr, hw, hc⟩ he hcur
    have hcl : ∀ j, (j + k) / 2 ^ h = 2 * n → cur' j = cur j := by
      intro j hj; apply hcur; rw [Nat.pow_succ, ← Nat.div_div_eq_div_mul, hj]; omega
    have hcr : ∀ j, (j + k) / 2 ^ h = 2 * n + 1 → cur' j = cur j := by
      intro j hj; apply hcur; rw [Nat.pow_succ, ← Nat.div_div_eq_div_mul, hj]; omega
    have hn := he n (below_self h n)
    refine ⟨wl, wr, ih tl (fun m b => he m (below_left b)) hcl, ih tr (fun m b => he m (below_right b)) hcr, ?_, ?_⟩
    · rw [hn]; exact hw
    · rw [hn]
      have h1 := hcl wl tl.leaf
      have h2 := hcr wr tr.leaf
      rcases hw with ⟨rfl, h3⟩ | ⟨rfl, h3⟩ <;> rw [h3] at hc ⊢ <;> rw [h1, h2] <;> exact hc

/-- Every recorded loser is a leaf below. -/
theorem Tree.entry_leaf {e : Nat → Nat} {cur : Nat → List α} {k : Nat} : ∀ {h n w : Nat}, Tree lt e cur k h n w →
    ∀ m, Below h n m → (e m + k) / 2 ^ h = n := by
  intro h
  induction h with
  | zero => rintro n w _ m ⟨t, ht, _⟩; omega
  | succ h ih =>
    rintro n w ⟨wl, wr, tl, tr, hw, _⟩ m ⟨t, ht, hm⟩
    rw [Nat.pow_succ, ← Nat.div_div_eq_div_mul]
    cases t with
    | zero =>
      have : m = n := by simpa using hm
      subst this
      rcases hw with ⟨_, h2⟩ | ⟨_, h2⟩ <;> rw [h2]
      · rw [tr.leaf]; omega
      · rw [tl.leaf]; omega
    | succ t =>
      rw [Nat.pow_succ, ← Nat.div_div_eq_div_mul] at hm
      have hcase : m / 2 ^ t = 2 * n ∨ m / 2 ^ t = 2 * n + 1 := by omega
      rcases hcase with c | c
      · rw [ih tl m ⟨t, by omega, c⟩]; omega
      · rw [ih tr m ⟨t, by omega, c⟩]; omega

/-- Applying the comparisons of the path from leaf `j` up `h` levels. -/
def pathN (lt : α → α → Bool) (cur : Nat → List α) (k j : Nat) : Nat → (Nat → Nat) × Nat → (Nat → Nat) × Nat
  | 0, p => p
  | h + 1, p => play lt cur ((j + k) / 2 ^ (h + 1)) (pathN lt cur k j h p)

/-- The entries stay consistent when the winner's cursor changes and the path is replayed. -/
theorem Tree.replay (hs : SWO lt) {e : Nat → Nat} {cur cur' : Nat → List α} {k : Nat} : ∀ {h n w : Nat}, 0 < n →
    Tree lt e cur k h n w → (∀ j, j ≠ w → cur' j = cur j) →
    Tree lt (pathN lt cur' k w h (e, w)).1 cur' k h n (pathN lt cur' k w h (e, w)).2 ∧
      (∀ m, ¬ Below h n m → (pathN lt cur' k w h (e, w)).1 m = e m) ∧
      treeSteps lt cur' k ((List.range h).map (· + 1)) (e, w) = pathN lt cur' k w h (e, w) := by
  intro h
  induction h with
  | zero => intro n w _ t _; exact ⟨t, fun _ _ => rfl, rfl⟩
  | succ h ih =>
    intro n w hn t hcur
    have hleaf := t.leaf
    obtain ⟨wl, wr, tl, tr, hw, hc⟩ := t
    have key : ∀ (n1 n2 wo : Nat), (n1 = 2 * n ∧ n2 = 2 * n + 1 ∨ n1 = 2 * n + 1 ∧ n2 = 2 * n) → e n = wo →
        Tree lt e cur k h n1 w → Tree lt e cur k h n2 wo →
        Tree lt (pathN lt cur' k w (h + 1) (e, w)).1 cur' k (h + 1) n (pathN lt cur' k w (h + 1) (e, w)).2 ∧
        (∀ m, ¬ Below (h + 1) n m → (pathN lt cur' k w (h + 1) (e, w)).1 m = e m) ∧
        treeSteps lt cur' k ((List.range (h + 1)).map (· + 1)) (e, w) = pathN lt cur' k w (h + 1) (e, w) := by
      intro n1 n2 wo hcase hen t1 t2
      obtain ⟨i1, i2, i3⟩ := ih (by omega) t1 hcur
      have hts : treeSteps lt cur' k ((List.range (h + 1)).map (· + 1)) (e, w)
          = play lt cur' (((pathN lt cur' k w h (e, w)).2 + k) / 2 ^ (h + 1)) (pathN lt cur' k w h (e, w)) := by
        rw [List.range_succ, List.map_append, ← i3]
        generalize (List.range h).map (· + 1) = ts
        generalize (e, w) = p
        induction ts generalizing p with
        | nil => rfl
        | cons a ts ih => exact ih _
      have hpath : ((pathN lt cur' k w h (e, w)).2 + k) / 2 ^ (h + 1) = n := by
        rw [Nat.pow_succ, ← Nat.div_div_eq_div_mul, i1.leaf]; omega
      have hts' : treeSteps lt cur' k ((List.range (h + 1)).map (· + 1)) (e, w)
          = pathN lt cur' k w (h + 1) (e, w) := by
        rw [hts, hpath]; show _ = play lt cur' _ _; rw [hleaf]
      have hpn : pathN lt cur' k w (h + 1) (e, w) = play lt cur' n (pathN lt cur' k w h (e, w)) := by
        show play lt cur' _ _ = _; rw [hleaf]
      refine ⟨?_, ?_, hts'⟩
      · have t2' : Tree lt (pathN lt cur' k w h (e, w)).1 cur' k h n2 wo := by
          apply t2.frame
          · intro m b
            apply i2
            intro b'
            rcases hcase with ⟨rfl, rfl⟩ | ⟨rfl, rfl⟩
            · exact below_disjoint hn b' b
            · exact below_disjoint hn b b'
          · intro j hj
            apply hcur
            rintro rfl
            have := t1.leaf
            omega
        have hen' : (pathN lt cur' k w h (e, w)).1 n = wo := by
          rw [i2 n (not_below_of_lt (by omega)), hen]
        rw [hpn]
        generalize pathN lt cur' k w h (e, w) = p at *
        have fr : ∀ x v n', (n' = n1 ∨ n' = n2) → Tree lt p.1 cur' k h n' v → Tree lt (upd p.1 n x) cur' k h n' v := by
          intro x v n' hn' t
          apply t.frame
          · intro m b
            apply upd_ne
            rintro rfl
            exact not_below_of_lt (by omega) b
          · intro _ _; rfl
        unfold play
        cases hcl : curLess lt (cur' (p.1 n)) (cur' p.2)
        · simp only [Bool.false_eq_true, if_false]
          have hcc := cle_of_not_curLess hcl
          rcases hcase with ⟨rfl, rfl⟩ | ⟨rfl, rfl⟩
          · exact ⟨p.2, wo, i1, t2', Or.inl ⟨rfl, hen'⟩, hcc⟩
          · exact ⟨wo, p.2, t2', i1, Or.inr ⟨rfl, hen'⟩, hcc⟩
        · simp only [if_true]
          have hcc := cle_of_curLess hs hcl
          rcases hcase with ⟨rfl, rfl⟩ | ⟨rfl, rfl⟩
          · refine ⟨p.2, wo, fr _ _ _ (Or.inl rfl) i1, fr _ _ _ (Or.inr rfl) t2', Or.inr ⟨hen', upd_same _ _ _⟩, ?_⟩
            rw [upd_same]; exact hcc
          · refine ⟨wo, p.2, fr _ _ _ (Or.inr rfl) t2', fr _ _ _ (Or.inl rfl) i1, Or.inl ⟨hen', upd_same _ _ _⟩, ?_⟩
            rw [upd_same]; exact hcc
      · intro m hm
        rw [hpn]
        have hmn : m ≠ n := by rintro rfl; exact hm (below_self h m)
        have h1 : (pathN lt cur' k w h (e, w)).1 m = e m := by
          apply i2
          intro b
          rcases hcase with ⟨rfl, rfl⟩ | ⟨rfl, rfl⟩
          · exact hm (below_left b)
          · exact hm (below_right b)
        unfold play
        split
        · show upd _ _ _ m = _
          rw [upd_ne _ _ hmn, h1]
        · exact h1
    rcases hw with ⟨rfl, h3⟩ | ⟨rfl, h3⟩
    · exact key _ _ _ (Or.inl ⟨rfl, rfl⟩) h3 tl tr
    · exact key _ _ _ (Or.inr ⟨rfl, rfl⟩) h3 tr tl

/-- The loop of `multi_merge_k` visits exactly the path. -/
theorem climb_eq (lt : α → α → Bool) (cur : Nat → List α) (L j : Nat) (hj : j < 2 ^ L) (p : (Nat → Nat) × Nat) :
    climb lt cur (L + 1) ((j + 2 ^ L) / 2) p = pathN lt cur (2 ^ L) j L p := by
  have key : ∀ t, t ≤ L → climb lt cur (t + 1) ((j + 2 ^ L) / 2 ^ (L - t + 1)) (pathN lt cur (2 ^ L) j (L - t) p)
      = pathN lt cur (2 ^ L) j L p := by
    intro t
    induction t with
    | zero =>
      intro _
      have : (j + 2 ^ L) / 2 ^ (L - 0 + 1) = 0 := by
        apply Nat.div_eq_of_lt; rw [Nat.sub_zero, Nat.pow_succ]; omega
      rw [this]; rfl
    | succ t ih =>
      intro ht
      have e1 : L - t = (L - (t + 1)) + 1 := by omega
      have := ih (by omega)
      rw [e1] at this
      rw [← this]
      show (if (j + 2 ^ L) / 2 ^ (L - (t + 1) + 1) = 0 then _ else _) = _
      have hne : (j + 2 ^ L) / 2 ^ (L - (t + 1) + 1) ≠ 0 := by
        have : 2 ^ (L - (t + 1) + 1) ≤ 2 ^ L := Nat.pow_le_pow_right (by decide) (by omega)
        have := Nat.div_pos (a := j + 2 ^ L) (b := 2 ^ (L - (t + 1) + 1)) (by omega) (Nat.pos_of_ne_zero (by simp))
        omega
      rw [if_neg hne, Nat.pow_succ 2 (L - (t + 1) + 1), ← Nat.div_div_eq_div_mul]
      rfl
  have := key L (Nat.le_refl _)
  simpa [pathN] using this

/-- `init_winner` builds the tree. -/
theorem initWinner_tree (hs : SWO lt) (cur : Nat → List α) (k : Nat) : ∀ (h fuel n : Nat) (e : Nat → Nat),
    h < fuel → 0 < n → k ≤ n * 2 ^ h → (n + 1) * 2 ^ h ≤ 2 * k →
    Tree lt (initWinner lt cur k fuel n e).2 cur k h n (initWinner lt cur k fuel n e).1 ∧
      ∀ m, ¬ Below h n m → (initWinner lt cur k fuel n e).2 m = e m := by
  intro h
  induction h with
  | zero =>
    intro fuel n e hf hn h1 h2
    obtain ⟨f, rfl⟩ : ∃ f, fuel = f + 1 := ⟨fuel - 1, by omega⟩
    have : n ≥ k := by simpa using h1
    simp only [initWinner, this, if_true]
    exact ⟨by show n - k + k = n; omega, fun _ _ => trivial⟩
  | succ h ih =>
    intro fuel n e hf hn h1 h2
    obtain ⟨f, rfl⟩ : ∃ f, fuel = f + 1 := ⟨fuel - 1, by omega⟩
    rw [Nat.pow_succ] at h1 h2
    have hp : 0 < 2 ^ h := Nat.pos_of_ne_zero (by simp)
    have hnk : ¬ n ≥ k := by
      intro c
      have : (n + 1) * (2 ^ h * 2) = 2 * ((n + 1) * 2 ^ h) := by rw [← Nat.mul_assoc, Nat.mul_comm]
      have : (n + 1) * 1 ≤ (n + 1) * 2 ^ h := Nat.mul_le_mul_left _ hp
      omega
    have e1 : 2 * n * 2 ^ h = n * (2 ^ h * 2) := by rw [Nat.mul_comm 2 n, Nat.mul_assoc, Nat.mul_comm 2]
    have e2 : (2 * n + 1) * 2 ^ h = n * (2 ^ h * 2) + 2 ^ h := by rw [Nat.add_mul, e1]; omega
    have e3 : (2 * n + 1 + 1) * 2 ^ h = (n + 1) * (2 ^ h * 2) := by
      rw [Nat.add_mul, e2, Nat.add_mul]; omega
    have e4 : (n + 1) * (2 ^ h * 2) = n * (2 ^ h * 2) + 2 ^ h * 2 := by rw [Nat.add_mul]; omega
    obtain ⟨l1, l2⟩ := ih f (2 * n) e (by omega) (by omega) (by omega) (by omega)
    obtain ⟨r1, r2⟩ := ih f (2 * n + 1) (initWinner lt cur k f (2 * n) e).2 (by omega) (by omega) (by omega) (by omega)
    simp only [initWinner, hnk, if_false]
    generalize initWinner lt cur k f (2 * n) e = l at *
    generalize initWinner lt cur k f (2 * n + 1) l.2 = r at *
    have l1' : Tree lt r.2 cur k h (2 * n) l.1 := by
      apply l1.frame
      · intro m b; exact r2 m (fun b' => below_disjoint hn b b')
      · intro _ _; rfl
    have fr : ∀ x v n', (n' = 2 * n ∨ n' = 2 * n + 1) → Tree lt r.2 cur k h n' v → Tree lt (upd r.2 n x) cur k h n' v := by
      intro x v n' hn' t
      apply t.frame
      · intro m b
        apply upd_ne
        rintro rfl
        exact not_below_of_lt (by omega) b
      · intro _ _; rfl
    have hoff : ∀ x m, ¬ Below (h + 1) n m → upd r.2 n x m = e m := by
      intro x m hm
      have hmn : m ≠ n := by rintro rfl; exact hm (below_self h m)
      rw [upd_ne _ _ hmn, r2 m (fun b => hm (below_right b)), l2 m (fun b => hm (below_left b))]
    cases hcl : curLess lt (cur l.1) (cur r.1)
    · simp only [Bool.false_eq_true, if_false]
      refine ⟨⟨l.1, r.1, fr _ _ _ (Or.inl rfl) l1', fr _ _ _ (Or.inr rfl) r1, Or.inr ⟨rfl, upd_same _ _ _⟩, ?_⟩, hoff _⟩
      rw [upd_same]; exact cle_of_not_curLess hcl
    · simp only [if_true]
      refine ⟨⟨l.1, r.1, fr _ _ _ (Or.inl rfl) l1', fr _ _ _ (Or.inr rfl) r1, Or.inl ⟨rfl, upd_same _ _ _⟩, ?_⟩, hoff _⟩
      rw [upd_same]; exact cle_of_curLess hs hcl

end Stxxl.LT
