import Verif.Matrix.Mul

/-!
# Recursive multiplication
-/

namespace Stxxl.Mat

variable {R : Type} [CommRing R] {B : Nat}

/-- The beginning of the recursive algorithms: quarters of the three matrices. -/
theorem setup {s : St R} {A D C : SBM} (hs : s.Wf) (hA : Owned s A) (hD : Owned s D) (hC : Owned s C) (hinj : Inj C)
    (d1 : ∀ r c r' c', r < C.h → c < C.w → r' < A.h → c' < A.w → C.block r c ≠ A.block r' c')
    (d2 : ∀ r c r' c', r < C.h → c < C.w → r' < D.h → c' < D.w → C.block r c ≠ D.block r' c') (n1 n2 m1 m2 l1 l2 : Nat) :
    ∃ qa s1 qd s2 qc s3 tag, genQuarter s A n1 l1 n2 l2 = (qa, s1) ∧ genQuarter s1 D l1 m1 l2 m2 = (qd, s2) ∧
      genQuarter s2 C n1 m1 n2 m2 = (qc, s3) ∧ QOf qa A n1 l1 n2 l2 ∧ QOf qd D l1 m1 l2 m2 ∧ QOf qc C n1 m1 n2 m2 ∧ s3.blk = s.blk ∧
      GoodL B s C tag (qa.ul.own ++ qa.ur.own ++ qa.dl.own ++ qa.dr.own ++ qd.ul.own ++ qd.ur.own ++ qd.dl.own ++ qd.dr.own ++
          qc.ul.own ++ qc.ur.own ++ qc.dl.own ++ qc.dr.own)
        [⟨qa.ul, 0⟩, ⟨qa.ur, 0⟩, ⟨qa.dl, 0⟩, ⟨qa.dr, 0⟩, ⟨qd.ul, 0⟩, ⟨qd.ur, 0⟩, ⟨qd.dl, 0⟩, ⟨qd.dr, 0⟩,
          ⟨qc.ul, 1⟩, ⟨qc.ur, 2⟩, ⟨qc.dl, 3⟩, ⟨qc.dr, 4⟩]
        [window B s A 0 0, window B s A 0 l1, window B s A n1 0, window B s A n1 l1,
          window B s D 0 0, window B s D 0 m1, window B s D l1 0, window B s D l1 m1,
          window B s C 0 0, window B s C 0 m1, window B s C n1 0, window B s C n1 m1] s3 := by
  obtain ⟨tag, t1, t2⟩ := exists_tag hinj (fun r c => if r < n1 then (if c < m1 then 1 else 2) else (if c < m1 then 3 else 4))
  have g0 : GoodL B s C tag [] [] [] s := GoodL.nil hs (fun i _ hi => t2 i hi)
  obtain ⟨qa, s1, tg1, a1, a2, a3, a4, a5⟩ := g0.quarter rfl A hA n1 l1 n2 l2 0 0 0 0
    (fun r c hr hc => by
      have := t2 _ (fun r' c' hr' hc' => d1 r' c' r c hr' hc' hr hc)
      simp [this]) (Or.inl ⟨rfl, rfl, rfl, rfl⟩)
  obtain ⟨qd, s2, tg2, b1, b2, b3, b4, b5⟩ := a5.quarter a2 D hD l1 m1 l2 m2 0 0 0 0
    (fun r c hr hc => by
      have := t2 _ (fun r' c' hr' hc' => d2 r' c' r c hr' hc' hr hc)
      simp [a4 _ (hD r c hr hc), this]) (Or.inl ⟨rfl, rfl, rfl, rfl⟩)
  obtain ⟨qc, s3, tg3, c1, c2, c3, c4, c5⟩ := b5.quarter b2 C hC n1 m1 n2 m2 1 2 3 4
    (fun r c hr hc => by
      have := t1 r c hr hc
      rw [b4 _ (hC r c hr hc), a4 _ (hC r c hr hc), this]
      refine ⟨fun h1 h2 => by simp [h1, h2], fun h1 h2 => ?_, fun h1 h2 => ?_, fun h1 h2 => ?_⟩
      · rw [if_pos h1, if_neg (by omega)]
      · rw [if_neg (by omega), if_pos h2]
      · rw [if_neg (by omega), if_neg (by omega)]) (Or.inr hinj)
  refine ⟨qa, s1, qd, s2, qc, s3, tg3, a1, b1, c1, a3, b3, c3, c2, ?_⟩
  simpa only [List.nil_append, List.cons_append, List.append_assoc] using c5

/-- Read a value off `GoodL`. -/
theorem GoodL.read {s0 s : St R} {C : SBM} {tag : Nat → Nat} {own : List Nat} {Xs : List Reg} {Fs : List (BM B R)}
    (h : GoodL B s0 C tag own Xs Fs s) (k : Nat) {x : Reg} {f : BM B R} (hx : Xs[k]? = some x) (hf : Fs[k]? = some f) {n w : Nat}
    (e1 : x.m.h = n) (e2 : x.m.w = w) :
    ∀ r c, r < n → c < w → V B s x.m r c = f r c := by
  intro r c hr hc
  rw [h.1.val k x hx r c (by omega) (by omega), getD_eq hf]

theorem recMul_ok : ∀ (fuel n m l : Nat), n + m + l ≤ fuel → MulOk (R := R) B true (recMul B fuel) n m l := by
  intro fuel
  induction fuel with
  | zero =>
    intro n m l hf s A D C e1 e2 e3 e4 e5 e6 hs hA hD hC hinj hlen d1 d2
    refine ⟨hs, fun _ => Iff.rfl, fun _ _ _ => rfl, ?_⟩
    intro r c hr; omega
  | succ fuel ih =>
    intro n m l hf s A D C e1 e2 e3 e4 e5 e6 hs hA hD hC hinj hlen d1 d2
    rw [recMul]
    by_cases h0 : C.h * C.w * A.w = 0
    · rw [if_pos h0]
      refine ⟨hs, fun _ => Iff.rfl, fun _ _ _ => rfl, ?_⟩
      intro r c hr hc
      have : l = 0 := by
        have h1 : n ≠ 0 := by omega
        have h2 : m ≠ 0 := by omega
        rw [e1, e2, e4] at h0
        rcases Nat.mul_eq_zero.1 h0 with h | h
        · rcases Nat.mul_eq_zero.1 h with h | h <;> omega
        · exact h
      subst this; simp
    · rw [if_neg h0]
      by_cases h1 : (if C.h = 1 then 1 else 0) + (if C.w = 1 then 1 else 0) + (if A.w = 1 then 1 else 0) ≥ 2
      · rw [if_pos h1]
        exact naive_ok n m l s A D C e1 e2 e3 e4 e5 e6 hs hA hD hC hinj hlen d1 d2
      · rw [if_neg h1]
        rw [e1, e2, e4] at h1
        have hn : n ≠ 0 := by rintro rfl; rw [e1] at h0; simp at h0
        have hm : m ≠ 0 := by rintro rfl; rw [e2] at h0; simp at h0
        have hl : l ≠ 0 := by rintro rfl; rw [e4] at h0; simp at h0
        have hsz : ∀ a b c, (a = n / 2 ∨ a = n - n / 2) → (b = m / 2 ∨ b = m - m / 2) → (c = l / 2 ∨ c = l - l / 2) → a + b + c ≤ fuel := by
          intro a b c ha hb hc
          have : (n ≥ 2 ∧ m ≥ 2) ∨ (n ≥ 2 ∧ l ≥ 2) ∨ (m ≥ 2 ∧ l ≥ 2) := by
            by_cases x1 : n = 1
            · by_cases x2 : m = 1
              · simp [x1, x2] at h1
              · by_cases x3 : l = 1
                · simp [x1, x3] at h1
                · omega
            · by_cases x2 : m = 1
              · by_cases x3 : l = 1
                · simp [x2, x3] at h1
                · omega
              · omega
          omega
        obtain ⟨qa, s1, qd, s2, qc, s3, tag, a1, a2, a3, Qa, Qd, Qc, hb, g0⟩ :=
          setup (B := B) hs hA hD hC hinj d1 d2 (n / 2) (n - n / 2) (m / 2) (m - m / 2) (l / 2) (l - l / 2)
        have q1 : approxQuarter s A = (qa, s1) := by rw [approxQuarter_eq, e3, e4]; exact a1
        have q2 : approxQuarter s1 D = (qd, s2) := by rw [approxQuarter_eq, e5, e6]; exact a2
        have q3 : approxQuarter s2 C = (qc, s3) := by rw [approxQuarter_eq, e1, e2]; exact a3
        simp only [q1, q2, q3, if_true]
        have g1 := g0.mulAdd (ih (n / 2) (m / 2) (l / 2) (hsz _ _ _ (.inl rfl) (.inl rfl) (.inl rfl))) 8 0 4
          (only_of 8 ⟨qc.ul, 1⟩ rfl (by simp) rfl) rfl rfl (by simp) (by simp) rfl rfl rfl Qc.ulh Qc.ulw Qa.ulh Qa.ulw Qd.ulh Qd.ulw
        have g2 := g1.mulAdd (ih (n / 2) (m / 2) (l - l / 2) (hsz _ _ _ (.inl rfl) (.inl rfl) (.inr rfl))) 8 1 6
          (only_of 8 ⟨qc.ul, 1⟩ rfl (by simp) rfl) rfl rfl (by simp) (by simp) rfl rfl rfl Qc.ulh Qc.ulw Qa.urh Qa.urw Qd.dlh Qd.dlw
        have g3 := g2.mulAdd (ih (n / 2) (m - m / 2) (l - l / 2) (hsz _ _ _ (.inl rfl) (.inr rfl) (.inr rfl))) 9 1 7
          (only_of 9 ⟨qc.ur, 2⟩ rfl (by simp) rfl) rfl rfl (by simp) (by simp) rfl rfl rfl Qc.urh Qc.urw Qa.urh Qa.urw Qd.drh Qd.drw
        have g4 := g3.mulAdd (ih (n / 2) (m - m / 2) (l / 2) (hsz _ _ _ (.inl rfl) (.inr rfl) (.inl rfl))) 9 0 5
          (only_of 9 ⟨qc.ur, 2⟩ rfl (by simp) rfl) rfl rfl (by simp) (by simp) rfl rfl rfl Qc.urh Qc.urw Qa.ulh Qa.ulw Qd.urh Qd.urw
        have g5 := g4.mulAdd (ih (n - n / 2) (m - m / 2) (l / 2) (hsz _ _ _ (.inr rfl) (.inr rfl) (.inl rfl))) 11 2 5
          (only_of 11 ⟨qc.dr, 4⟩ rfl (by simp) rfl) rfl rfl (by simp) (by simp) rfl rfl rfl Qc.drh Qc.drw Qa.dlh Qa.dlw Qd.urh Qd.urw
        have g6 := g5.mulAdd (ih (n - n / 2) (m - m / 2) (l - l / 2) (hsz _ _ _ (.inr rfl) (.inr rfl) (.inr rfl))) 11 3 7
          (only_of 11 ⟨qc.dr, 4⟩ rfl (by simp) rfl) rfl rfl (by simp) (by simp) rfl rfl rfl Qc.drh Qc.drw Qa.drh Qa.drw Qd.drh Qd.drw
        have g7 := g6.mulAdd (ih (n - n / 2) (m / 2) (l - l / 2) (hsz _ _ _ (.inr rfl) (.inl rfl) (.inr rfl))) 10 3 6
          (only_of 10 ⟨qc.dl, 3⟩ rfl (by simp) rfl) rfl rfl (by simp) (by simp) rfl rfl rfl Qc.dlh Qc.dlw Qa.drh Qa.drw Qd.dlh Qd.dlw
        have g8 := g7.mulAdd (ih (n - n / 2) (m / 2) (l / 2) (hsz _ _ _ (.inr rfl) (.inl rfl) (.inl rfl))) 10 2 4
          (only_of 10 ⟨qc.dl, 3⟩ rfl (by simp) rfl) rfl rfl (by simp) (by simp) rfl rfl rfl Qc.dlh Qc.dlw Qa.dlh Qa.dlw Qd.ulh Qd.ulw
        obtain ⟨f1, f2, f3, f4⟩ := g8.finish (qc.rev ++ qd.rev ++ qa.rev) (by
          classical
          rw [List.perm_iff_count]; intro x
          simp only [Quarter.rev, List.cons_append, List.nil_append, List.flatMap_cons, List.flatMap_nil, List.count_append,
            List.append_nil]
          omega)
        refine ⟨f1, f2, f3, ?_⟩
        intro r c hr hc
        have hV : V B (destroyAll _ (qc.rev ++ qd.rev ++ qa.rev)) C r c = _ :=
          congrArg (vl B C.tr) (f4 (C.block r c) (hC r c (by omega) (by omega)))
        refine hV.trans ?_
        have hA2 : A.w ≤ l / 2 + (l - l / 2) := by omega
        refine assemble Qc (by omega) (by omega) _ (fun r c => V B s C r c + ∑ t ∈ Finset.range l, V B s A r t * V B s D t c)
          _ _ _ _ (g8.read 8 rfl rfl Qc.ulh Qc.ulw) (g8.read 9 rfl rfl Qc.urh Qc.urw) (g8.read 10 rfl rfl Qc.dlh Qc.dlw)
          (g8.read 11 rfl rfl Qc.drh Qc.drw) ?_ ?_ ?_ ?_ r c (by omega) (by omega)
        · intro r c hr1 hc1 hr2 hc2
          have := quad_mul (B := B) (s := s) A D 0 0 (l / 2) (l - l / 2) hA2 (by omega) (r := r) (c := c) (by omega) (by omega)
          rw [e4] at this
          simp only [Pi.add_apply, Nat.add_zero] at this ⊢
          rw [← this]
          simp only [window, Nat.add_zero]; rw [if_pos ⟨hr2, hc2⟩]; abel
        · intro r c hr1 hc1 hr2 hc2
          have := quad_mul (B := B) (s := s) A D 0 (m / 2) (l / 2) (l - l / 2) hA2 (by omega) (r := r) (c := c) (by omega) (by omega)
          rw [e4] at this
          simp only [Pi.add_apply, Nat.add_zero] at this ⊢
          rw [← this]
          have hw : window B s C 0 (m / 2) r c = V B s C r (c + m / 2) := by unfold window; rw [if_pos ⟨by omega, hc2⟩]; rfl
          rw [hw]; abel
        · intro r c hr1 hc1 hr2 hc2
          have := quad_mul (B := B) (s := s) A D (n / 2) 0 (l / 2) (l - l / 2) hA2 (by omega) (r := r) (c := c) (by omega) (by omega)
          rw [e4] at this
          simp only [Pi.add_apply, Nat.add_zero] at this ⊢
          rw [← this]
          have hw : window B s C (n / 2) 0 r c = V B s C (r + n / 2) c := by unfold window; rw [if_pos ⟨hr2, by omega⟩]; rfl
          rw [hw]; abel
        · intro r c hr1 hc1 hr2 hc2
          have := quad_mul (B := B) (s := s) A D (n / 2) (m / 2) (l / 2) (l - l / 2) hA2 (by omega) (r := r) (c := c) (by omega) (by omega)
          rw [e4] at this
          simp only [Pi.add_apply] at this ⊢
          rw [← this]
          have hw : window B s C (n / 2) (m / 2) r c = V B s C (r + n / 2) (c + m / 2) := by unfold window; rw [if_pos ⟨hr2, hc2⟩]
          rw [hw]; abel

theorem recursiveMul_ok (n m l : Nat) : MulOk (R := R) B true (recursiveMul B) n m l := by
  intro s A D C e1 e2 e3 e4 e5 e6
  exact recMul_ok (C.h + C.w + A.w) n m l (by omega) s A D C e1 e2 e3 e4 e5 e6

end Stxxl.Mat
