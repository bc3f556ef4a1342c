import Verif.MwMerge.Model
import Verif.LoserTree.Tree
/-! The tournament invariant of the array-based loser trees, for any order on the players. -/
namespace Stxxl.MwMerge
open LT (Below below_left below_right below_self not_below_of_lt below_disjoint)
variable {α : Type}

theorem upd_same {β : Type} (f : Nat → β) (i : Nat) (x : β) : upd f i x i = x := by simp [upd]

theorem upd_ne {β : Type} (f : Nat → β) {i j : Nat} (x : β) (h : j ≠ i) : upd f i x j = f j := by simp [upd, h]

/-- Node `n`, of height `h`, has winner leaf `w`, and `t` contains the losers below it. -/
def Tour (le : Node α → Node α → Prop) (t : Nat → Node α) (leaf : Nat → Node α) (k : Nat) : Nat → Nat → Nat → Prop
  | 0, n, w => w + k = n
  | h + 1, n, w => ∃ wl wr, Tour le t leaf k h (2 * n) wl ∧ Tour le t leaf k h (2 * n + 1) wr ∧
      ((w = wl ∧ t n = leaf wr) ∨ (w = wr ∧ t n = leaf wl)) ∧ le (leaf w) (t n)

variable {le : Node α → Node α → Prop}

theorem Tour.leafPos {t leaf : Nat → Node α} {k : Nat} : ∀ {h n w : Nat}, Tour le t leaf k h n w → (w + k) / 2 ^ h = n := by
  intro h
  induction h with
  | zero => intro n w t; have : w + k = n := t; simp [this]
  | succ h ih =>
    rintro n w ⟨wl, wr, tl, tr, hw, _⟩
    rw [Nat.pow_succ, ← Nat.div_div_eq_div_mul]
    rcases hw with ⟨rfl, _⟩ | ⟨rfl, _⟩
    · rw [ih tl]; omega
    · rw [ih tr]; omega

theorem Tour.min (hrefl : ∀ a, le a a) (htrans : ∀ a b c, le a b → le b c → le a c) {t leaf : Nat → Node α} {k : Nat} :
    ∀ {h n w : Nat}, Tour le t leaf k h n w → ∀ j, (j + k) / 2 ^ h = n → le (leaf w) (leaf j) := by
  intro h
  induction h with
  | zero =>
    intro n w t j hj
    have e : w + k = n := t
    have : j = w := by simp at hj; omega
    subst this; exact hrefl _
  | succ h ih =>
    rintro n w ⟨wl, wr, tl, tr, hw, hc⟩ j hj
    rw [Nat.pow_succ, ← Nat.div_div_eq_div_mul] at hj
    have hl := ih tl j
    have hr := ih tr j
    have hcase : (j + k) / 2 ^ h = 2 * n ∨ (j + k) / 2 ^ h = 2 * n + 1 := by omega
    rcases hw with ⟨rfl, he⟩ | ⟨rfl, he⟩ <;> rw [he] at hc <;> rcases hcase with c | c
    · exact hl c
    · exact htrans _ _ _ hc (hr c)
    · exact htrans _ _ _ hc (hl c)
    · exact hr c

theorem Tour.frame {t t' leaf leaf' : Nat → Node α} {k : Nat} : ∀ {h n w : Nat},
    Tour le t leaf k h n w → (∀ m, Below h n m → t' m = t m) →
    (∀ j, (j + k) / 2 ^ h = n → leaf' j = leaf j) → Tour le t' leaf' k h n w := by
  intro h
  induction h with
  | zero => intro n w t _ _; exact t
  | succ h ih =>
    rintro n w ⟨wl, wr, tl, tr, hw, hc⟩ he hcur
    have hcl : ∀ j, (j + k) / 2 ^ h = 2 * n → leaf' j = leaf j := by
      intro j hj; apply hcur; rw [Nat.pow_succ, ← Nat.div_div_eq_div_mul, hj]; omega
    have hcr : ∀ j, (j + k) / 2 ^ h = 2 * n + 1 → leaf' j = leaf j := by
      intro j hj; apply hcur; rw [Nat.pow_succ, ← Nat.div_div_eq_div_mul, hj]; omega
    have hn := he n (below_self h n)
    refine ⟨wl, wr, ih tl (fun m b => he m (below_left b)) hcl, ih tr (fun m b => he m (below_right b)) hcr, ?_, ?_⟩
    · rw [hn, hcl wl tl.leafPos, hcr wr tr.leafPos]; exact hw
    · rw [hn]
      have h1 := hcl wl tl.leafPos
      have h2 := hcr wr tr.leafPos
      rcases hw with ⟨rfl, _⟩ | ⟨rfl, _⟩
      · rw [h1]; exact hc
      · rw [h2]; exact hc

/-- One comparison on the way up. -/
def play (promote : Node α → Node α → Bool) (pos : Nat) (p : (Nat → Node α) × Node α) : (Nat → Node α) × Node α :=
  if promote (p.1 pos) p.2 then (upd p.1 pos p.2, p.1 pos) else p

/-- The comparisons on the path from leaf `j`, `h` levels up. -/
def pathN (promote : Node α → Node α → Bool) (k j : Nat) : Nat → (Nat → Node α) × Node α → (Nat → Node α) × Node α
  | 0, p => p
  | h + 1, p => play promote ((j + k) / 2 ^ (h + 1)) (pathN promote k j h p)

/-- The tree stays consistent when the winner's leaf changes and its path is replayed. -/
theorem Tour.replay {promote : Node α → Node α → Bool} (h1 : ∀ p c, promote p c = true → le p c) (h2 : ∀ p c, promote p c = false → le c p)
    {t leaf leaf' : Nat → Node α} {k : Nat} : ∀ {h n w : Nat}, 0 < n → Tour le t leaf k h n w → (∀ j, j ≠ w → leaf' j = leaf j) →
    (∃ w', Tour le (pathN promote k w h (t, leaf' w)).1 leaf' k h n w' ∧ leaf' w' = (pathN promote k w h (t, leaf' w)).2) ∧
      (∀ m, ¬ Below h n m → (pathN promote k w h (t, leaf' w)).1 m = t m) := by
  intro h
  induction h with
  | zero => intro n w _ t _; exact ⟨⟨w, t, rfl⟩, fun _ _ => rfl⟩
  | succ h ih =>
    intro n w hn T hcur
    have hleaf := T.leafPos
    obtain ⟨wl, wr, tl, tr, hw, hc⟩ := T
    have key : ∀ (n1 n2 wo : Nat), (n1 = 2 * n ∧ n2 = 2 * n + 1 ∨ n1 = 2 * n + 1 ∧ n2 = 2 * n) → t n = leaf wo →
        Tour le t leaf k h n1 w → Tour le t leaf k h n2 wo →
        (∃ w', Tour le (pathN promote k w (h + 1) (t, leaf' w)).1 leaf' k (h + 1) n w' ∧
          leaf' w' = (pathN promote k w (h + 1) (t, leaf' w)).2) ∧
        (∀ m, ¬ Below (h + 1) n m → (pathN promote k w (h + 1) (t, leaf' w)).1 m = t m) := by
      intro n1 n2 wo hcase hen t1 t2
      obtain ⟨⟨w1, i1, i1'⟩, i2⟩ := ih (by omega) t1 hcur
      have hpn : pathN promote k w (h + 1) (t, leaf' w) = play promote n (pathN promote k w h (t, leaf' w)) := by
        show play promote _ _ = _; rw [hleaf]
      have hwo : leaf' wo = leaf wo := by
        apply hcur
        rintro rfl
        have e1 := t1.leafPos
        have e2 := t2.leafPos
        omega
      refine ⟨?_, ?_⟩
      · have t2' : Tour le (pathN promote k w h (t, leaf' w)).1 leaf' k h n2 wo := by
          apply t2.frame
          · intro m b
            apply i2
            intro b'
            rcases hcase with ⟨rfl, rfl⟩ | ⟨rfl, rfl⟩
            · exact below_disjoint hn b' b
            · exact below_disjoint hn b b'
          · intro j hj
            apply hcur
            rintro rfl
            have := t1.leafPos
            omega
        have hen' : (pathN promote k w h (t, leaf' w)).1 n = leaf' wo := by
          rw [i2 n (not_below_of_lt (by omega)), hen, hwo]
        rw [hpn]
        generalize pathN promote k w h (t, leaf' w) = p at *
        have fr : ∀ x v n', (n' = n1 ∨ n' = n2) → Tour le p.1 leaf' k h n' v → Tour le (upd p.1 n x) leaf' k h n' v := by
          intro x v n' hn' T
          apply T.frame
          · intro m b
            apply upd_ne
            rintro rfl
            exact not_below_of_lt (by omega) b
          · intro _ _; rfl
        unfold play
        cases hcl : promote (p.1 n) p.2
        · simp only [Bool.false_eq_true, if_false]
          have hcc := h2 _ _ hcl
          rw [← i1'] at hcc
          refine ⟨w1, ?_, i1'⟩
          rcases hcase with ⟨rfl, rfl⟩ | ⟨rfl, rfl⟩
          · exact ⟨w1, wo, i1, t2', Or.inl ⟨rfl, hen'⟩, hcc⟩
          · exact ⟨wo, w1, t2', i1, Or.inr ⟨rfl, hen'⟩, hcc⟩
        · simp only [if_true]
          have hcc := h1 _ _ hcl
          refine ⟨wo, ?_, hen'.symm⟩
          rcases hcase with ⟨rfl, rfl⟩ | ⟨rfl, rfl⟩
          · refine ⟨w1, wo, fr _ _ _ (Or.inl rfl) i1, fr _ _ _ (Or.inr rfl) t2', Or.inr ⟨rfl, by rw [upd_same, i1']⟩, ?_⟩
            rw [upd_same, ← hen']; exact hcc
          · refine ⟨wo, w1, fr _ _ _ (Or.inr rfl) t2', fr _ _ _ (Or.inl rfl) i1, Or.inl ⟨rfl, by rw [upd_same, i1']⟩, ?_⟩
            rw [upd_same, ← hen']; exact hcc
      · intro m hm
        rw [hpn]
        have hmn : m ≠ n := by rintro rfl; exact hm (below_self h m)
        have h1 : (pathN promote k w h (t, leaf' w)).1 m = t m := by
          apply i2
          intro b
          rcases hcase with ⟨rfl, rfl⟩ | ⟨rfl, rfl⟩
          · exact hm (below_left b)
          · exact hm (below_right b)
        unfold play
        split
        · show upd _ _ _ m = _
          rw [upd_ne _ _ hmn, h1]
        · exact h1
    rcases hw with ⟨rfl, h3⟩ | ⟨rfl, h3⟩
    · exact key _ _ _ (Or.inl ⟨rfl, rfl⟩) h3 tl tr
    · exact key _ _ _ (Or.inr ⟨rfl, rfl⟩) h3 tr tl

theorem climb_zero (promote : Node α → Node α → Bool) (f : Nat) (t : Nat → Node α) (c : Node α) : climb promote f 0 t c = (t, c) := by
  cases f <;> simp [climb]

theorem climb_play (promote : Node α → Node α → Bool) (f pos : Nat) (p : (Nat → Node α) × Node α) (h : pos ≠ 0) :
    climb promote (f + 1) pos p.1 p.2 = climb promote f (pos / 2) (play promote pos p).1 (play promote pos p).2 := by
  show (if pos = 0 then _ else _) = _
  rw [if_neg h]
  unfold play
  split <;> rfl

/-- The loop of `delete_min_insert` visits exactly the path. -/
theorem climb_eq (promote : Node α → Node α → Bool) (L j f : Nat) (hj : j < 2 ^ L) (hf : L ≤ f) (p : (Nat → Node α) × Node α) :
    climb promote f ((j + 2 ^ L) / 2) p.1 p.2 = pathN promote (2 ^ L) j L p := by
  have key : ∀ u f, u ≤ L → u ≤ f →
      climb promote f ((j + 2 ^ L) / 2 ^ (L - u + 1)) (pathN promote (2 ^ L) j (L - u) p).1 (pathN promote (2 ^ L) j (L - u) p).2
      = pathN promote (2 ^ L) j L p := by
    intro u
    induction u with
    | zero =>
      intro f _ _
      have : (j + 2 ^ L) / 2 ^ (L - 0 + 1) = 0 := by
        apply Nat.div_eq_of_lt; rw [Nat.sub_zero, Nat.pow_succ]; omega
      rw [this, climb_zero]; rfl
    | succ u ih =>
      intro f hu hf
      obtain ⟨f, rfl⟩ : ∃ g, f = g + 1 := ⟨f - 1, by omega⟩
      have e1 : L - u = (L - (u + 1)) + 1 := by omega
      have := ih f (by omega) (by omega)
      rw [e1] at this
      rw [← this]
      have hne : (j + 2 ^ L) / 2 ^ (L - (u + 1) + 1) ≠ 0 := by
        have : 2 ^ (L - (u + 1) + 1) ≤ 2 ^ L := Nat.pow_le_pow_right (by decide) (by omega)
        have := Nat.div_pos (a := j + 2 ^ L) (b := 2 ^ (L - (u + 1) + 1)) (by omega) (Nat.pos_of_ne_zero (by simp))
        omega
      rw [climb_play _ _ _ _ hne, Nat.pow_succ 2 (L - (u + 1) + 1), ← Nat.div_div_eq_div_mul]
      rfl
  have := key L f (Nat.le_refl _) hf
  simpa [pathN] using this

/-- `init_winner` builds the tree. `leftWins` may use that the left player comes from a smaller leaf. -/
theorem initWinner_tour {leftWins : Node α → Node α → Bool} (leaf : Nat → Node α) (k : Nat)
    (h1 : ∀ i j, i < j → leftWins (leaf i) (leaf j) = true → le (leaf i) (leaf j))
    (h2 : ∀ i j, i < j → leftWins (leaf i) (leaf j) = false → le (leaf j) (leaf i)) : ∀ (h fuel n : Nat) (t : Nat → Node α),
    h < fuel → 0 < n → k ≤ n * 2 ^ h → (n + 1) * 2 ^ h ≤ 2 * k → (∀ i, t (k + i) = leaf i) →
    (∃ w, (initWinner leftWins k fuel n t).1 = k + w ∧ Tour le (initWinner leftWins k fuel n t).2 leaf k h n w ∧
      n * 2 ^ h ≤ k + w ∧ k + w < (n + 1) * 2 ^ h) ∧
      ∀ m, ¬ Below h n m → (initWinner leftWins k fuel n t).2 m = t m := by
  intro h
  induction h with
  | zero =>
    intro fuel n t hf hn h3 h4 ht
    obtain ⟨f, rfl⟩ : ∃ f, fuel = f + 1 := ⟨fuel - 1, by omega⟩
    have : k ≤ n := by simpa using h3
    simp only [initWinner, this, if_true]
    exact ⟨⟨n - k, by omega, by show n - k + k = n; omega, by simp; omega, by simp; omega⟩, fun _ _ => trivial⟩
  | succ h ih =>
    intro fuel n t hf hn h3 h4 ht
    obtain ⟨f, rfl⟩ : ∃ f, fuel = f + 1 := ⟨fuel - 1, by omega⟩
    rw [Nat.pow_succ] at h3 h4
    have hp : 0 < 2 ^ h := Nat.pos_of_ne_zero (by simp)
    have hnk : ¬ k ≤ n := by
      intro c
      have : (n + 1) * (2 ^ h * 2) = 2 * ((n + 1) * 2 ^ h) := by rw [← Nat.mul_assoc, Nat.mul_comm]
      have : (n + 1) * 1 ≤ (n + 1) * 2 ^ h := Nat.mul_le_mul_left _ hp
      omega
    have e1 : 2 * n * 2 ^ h = n * (2 ^ h * 2) := by rw [Nat.mul_comm 2 n, Nat.mul_assoc, Nat.mul_comm 2]
    have e2 : (2 * n + 1) * 2 ^ h = n * (2 ^ h * 2) + 2 ^ h := by rw [Nat.add_mul, e1]; omega
    have e3 : (2 * n + 1 + 1) * 2 ^ h = (n + 1) * (2 ^ h * 2) := by
      rw [Nat.add_mul, e2, Nat.add_mul]; omega
    have e4 : (n + 1) * (2 ^ h * 2) = n * (2 ^ h * 2) + 2 ^ h * 2 := by rw [Nat.add_mul]; omega
    have hbk : ∀ n', 2 * n ≤ n' → (n' + 1) * 2 ^ h ≤ 2 * k → ∀ i, ¬ Below h n' (k + i) := by
      rintro n' _ hle i ⟨u, hu, hm⟩
      have hdm := Nat.div_mul_le_self (k + i) (2 ^ u)
      have hlt := Nat.lt_div_mul_add (a := k + i) (Nat.pos_of_ne_zero (by simp : 2 ^ u ≠ 0))
      rw [hm] at hlt
      have h5 : (n' + 1) * 2 ^ u * 2 ≤ (n' + 1) * 2 ^ h := by
        have : 2 ^ u * 2 ≤ 2 ^ h := by rw [← Nat.pow_succ]; exact Nat.pow_le_pow_right (by decide) (by omega)
        rw [Nat.mul_assoc]; exact Nat.mul_le_mul_left _ this
      have h6 : (n' + 1) * 2 ^ u = n' * 2 ^ u + 2 ^ u := by rw [Nat.add_mul]; omega
      omega
    obtain ⟨⟨wl, l0, l1, l3, l4⟩, l2⟩ := ih f (2 * n) t (by omega) (by omega) (by omega) (by omega) ht
    have ht' : ∀ i, (initWinner leftWins k f (2 * n) t).2 (k + i) = leaf i := fun i => by
      rw [l2 (k + i) (hbk (2 * n) (by omega) (by omega) i), ht i]
    obtain ⟨⟨wr, r0, r1, r3, r4⟩, r2⟩ := ih f (2 * n + 1) (initWinner leftWins k f (2 * n) t).2 (by omega) (by omega) (by omega) (by omega) ht'
    have ht'' : ∀ i, (initWinner leftWins k f (2 * n + 1) (initWinner leftWins k f (2 * n) t).2).2 (k + i) = leaf i := fun i => by
      rw [r2 (k + i) (hbk (2 * n + 1) (by omega) (by omega) i), ht' i]
    simp only [initWinner, hnk, if_false]
    generalize initWinner leftWins k f (2 * n) t = l at *
    generalize initWinner leftWins k f (2 * n + 1) l.2 = r at *
    have l1' : Tour le r.2 leaf k h (2 * n) wl := by
      apply l1.frame
      · intro m b; exact r2 m (fun b' => below_disjoint hn b b')
      · intro _ _; rfl
    have fr : ∀ x v n', (n' = 2 * n ∨ n' = 2 * n + 1) → Tour le r.2 leaf k h n' v → Tour le (upd r.2 n x) leaf k h n' v := by
      intro x v n' hn' T
      apply T.frame
      · intro m b
        apply upd_ne
        rintro rfl
        exact not_below_of_lt (by omega) b
      · intro _ _; rfl
    have hoff : ∀ x m, ¬ Below (h + 1) n m → upd r.2 n x m = t m := by
      intro x m hm
      have hmn : m ≠ n := by rintro rfl; exact hm (below_self h m)
      rw [upd_ne _ _ hmn, r2 m (fun b => hm (below_right b)), l2 m (fun b => hm (below_left b))]
    have hlr : wl < wr := by omega
    have htl : r.2 l.1 = leaf wl := by rw [l0]; exact ht'' wl
    have htr : r.2 r.1 = leaf wr := by rw [r0]; exact ht'' wr
    rw [Nat.pow_succ]
    cases hcl : leftWins (r.2 l.1) (r.2 r.1)
    · simp only [Bool.false_eq_true, if_false]
      rw [htl, htr] at hcl
      refine ⟨⟨wr, r0, ⟨wl, wr, fr _ _ _ (Or.inl rfl) l1', fr _ _ _ (Or.inr rfl) r1, Or.inr ⟨rfl, by rw [upd_same, htl]⟩, ?_⟩,
        by omega, by omega⟩, hoff _⟩
      rw [upd_same, htl]; exact h2 _ _ hlr hcl
    · simp only [if_true]
      rw [htl, htr] at hcl
      refine ⟨⟨wl, l0, ⟨wl, wr, fr _ _ _ (Or.inl rfl) l1', fr _ _ _ (Or.inr rfl) r1, Or.inl ⟨rfl, by rw [upd_same, htr]⟩, ?_⟩,
        by omega, by omega⟩, hoff _⟩
      rw [upd_same, htr]; exact h1 _ _ hlr hcl

end Stxxl.MwMerge
