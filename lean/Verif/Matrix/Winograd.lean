import Verif.Matrix.Strassen

/-!
# The Strassen-Winograd algorithms are correct
-/

namespace Stxxl.Mat

variable {R : Type} [CommRing R] {B : Nat}
variable {s0 s : St R} {C : SBM} {tag : Nat → Nat} {own : List Nat} {Xs : List Reg}

theorem GoodL.twice {Fs : List (BM B R)} (g : GoodL B s0 C tag own Xs Fs s) (k1 k2 i : Nat) {x1 x2 y : Reg}
    (h1 : Only Xs k1 x1) (h2 : Only Xs k2 x2) (hi : Xs[i]? = some y) (n12 : k1 ≠ k2) (n1 : i ≠ k1) {f1 f2 fi : BM B R}
    (hf1 : Fs[k1]? = some f1) (hf2 : Fs[k2]? = some f2) (hfi : Fs[i]? = some fi) {n w : Nat}
    (e1 : y.m.h = n) (e2 : y.m.w = w) (e3 : x1.m.h = n) (e4 : x1.m.w = w) (e5 : x2.m.h = n) (e6 : x2.m.w = w)
    (t1 : y.m.tr = x1.m.tr) (t2 : y.m.tr = x2.m.tr) :
    GoodL B s0 C tag own Xs ((Fs.set k1 (f1 + fi)).set k2 (f2 + fi)) (twiceNt B .add x1.m x2.m y.m s) := by
  refine g.ofProg y.m.h y.m.w _ (fun u => Function.update (Function.update u k1 (u k1 + u i)) k2 (u k2 + u i)) ?_ ?_ (by simpa using g.2) ?_
  · intro s F r c u hr hc h
    have g1 := h.cell2 .add (fun x => by simp [Op.f2]) h1 hi (by omega) (by omega) (by omega) (by omega) false false
      (Or.inr ⟨rfl, rfl, t1⟩)
    have g2 := g1.cell2 .add (fun x => by simp [Op.f2]) h2 hi (by omega) (by omega) (by omega) (by omega) false false
      (Or.inr ⟨rfl, rfl, t2⟩)
    simp only [Op.m2, Function.update_of_ne n1, Function.update_of_ne n12.symm] at g2
    exact g2
  · intro k x hx
    by_cases a1 : k = k1
    · subst a1
      have : x = x1 := by have := h1.1; rw [hx] at this; exact Option.some.inj this
      subst this; left; omega
    · by_cases a2 : k = k2
      · subst a2
        have : x = x2 := by have := h2.1; rw [hx] at this; exact Option.some.inj this
        subst this; left; omega
      · right; intro u; rw [Function.update_of_ne a2, Function.update_of_ne a1]
  · intro k hk r c
    have l1 : k1 < Fs.length := getElem?_lt hf1
    have l2 : k2 < Fs.length := getElem?_lt hf2
    simp only [List.getD_eq_getElem?_getD]
    by_cases a2 : k = k2
    · subst a2
      rw [Function.update_self, List.getElem?_set_self (by simpa using l2), hf2, hfi]; rfl
    · rw [Function.update_of_ne a2, List.getElem?_set_ne (Ne.symm a2)]
      by_cases a1 : k = k1
      · subst a1
        rw [Function.update_self, List.getElem?_set_self l1, hf1, hfi]; rfl
      · rw [Function.update_of_ne a1, List.getElem?_set_ne (Ne.symm a1)]

/-- End of the algorithms: the quarters of `C` hold the right values and the temporaries are destroyed. -/
theorem swEnd {s sE : St R} {A D C : SBM} {acc : Bool} {n m l n' m' l' : Nat} {Fs : List (BM B R)} {qc : Quarter}
    (hC : Owned s C) (e1 : C.h = n) (e2 : C.w = m) (e3 : A.h = n) (e4 : A.w = l) (e5 : D.h = l) (e6 : D.w = m)
    (en : n' = (n + 1) / 2) (em : m' = (m + 1) / 2) (el : l' = (l + 1) / 2)
    (g : GoodL B s C tag own Xs Fs sE) (Qc : QOf qc C n' m' n' m')
    {f8 f9 f10 f11 : BM B R} (x8 : Xs[8]? = some ⟨qc.ul, 1⟩) (x9 : Xs[9]? = some ⟨qc.ur, 2⟩) (x10 : Xs[10]? = some ⟨qc.dl, 3⟩)
    (x11 : Xs[11]? = some ⟨qc.dr, 4⟩)
    (v8 : Fs[8]? = some f8) (v9 : Fs[9]? = some f9) (v10 : Fs[10]? = some f10) (v11 : Fs[11]? = some f11)
    (w8 : f8 = (if acc then window B s C 0 0 else 0) +
      (mulN l' (window B s A 0 0) (window B s D 0 0) + mulN l' (window B s A 0 l') (window B s D l' 0)))
    (w9 : f9 = (if acc then window B s C 0 m' else 0) +
      (mulN l' (window B s A 0 0) (window B s D 0 m') + mulN l' (window B s A 0 l') (window B s D l' m')))
    (w10 : f10 = (if acc then window B s C n' 0 else 0) +
      (mulN l' (window B s A n' 0) (window B s D 0 0) + mulN l' (window B s A n' l') (window B s D l' 0)))
    (w11 : f11 = (if acc then window B s C n' m' else 0) +
      (mulN l' (window B s A n' 0) (window B s D 0 m') + mulN l' (window B s A n' l') (window B s D l' m')))
    (ms : List SBM) (hp : (ms.flatMap SBM.own).Perm own) :
    (destroyAll sE ms).Wf ∧ (∀ i, (destroyAll sE ms).live i ↔ s.live i) ∧
      (∀ i, s.live i → (∀ r c, r < C.h → c < C.w → C.block r c ≠ i) → (destroyAll sE ms).blk i = s.blk i) ∧
      ∀ r c, r < n → c < m → V B (destroyAll sE ms) C r c =
        (if acc then V B s C r c else 0) + ∑ t ∈ Finset.range l, V B s A r t * V B s D t c := by
  obtain ⟨f1, f2, f3, f4⟩ := g.finish ms hp
  refine ⟨f1, f2, f3, ?_⟩
  intro r c hr hc
  have hV : V B (destroyAll sE ms) C r c = V B sE C r c := congrArg (vl B C.tr) (f4 (C.block r c) (hC r c (by omega) (by omega)))
  refine hV.trans ?_
  have hA2 : A.w ≤ l' + l' := by omega
  have hwin : ∀ fr fc r c, r + fr < C.h → c + fc < C.w →
      (if acc then window B s C fr fc else 0) r c = if acc then V B s C (r + fr) (c + fc) else 0 := by
    intro fr fc r c h1 h2
    cases acc
    · simp
    · simp only [if_true]; unfold window; rw [if_pos ⟨h1, h2⟩]
  refine assemble Qc (by omega) (by omega) sE
    (fun r c => (if acc then V B s C r c else 0) + ∑ t ∈ Finset.range l, V B s A r t * V B s D t c)
    f8 f9 f10 f11 (g.read 8 x8 v8 Qc.ulh Qc.ulw) (g.read 9 x9 v9 Qc.urh Qc.urw) (g.read 10 x10 v10 Qc.dlh Qc.dlw)
    (g.read 11 x11 v11 Qc.drh Qc.drw) ?_ ?_ ?_ ?_ r c (by omega) (by omega)
  · intro r c hr1 hc1 hr2 hc2
    have := quad_mul (B := B) (s := s) A D 0 0 l' l' hA2 (by omega) (r := r) (c := c) (by omega) (by omega)
    rw [e4] at this
    rw [w8]
    simp only [Pi.add_apply] at this ⊢
    rw [hwin _ _ _ _ (by omega) (by omega), this]; rfl
  · intro r c hr1 hc1 hr2 hc2
    have := quad_mul (B := B) (s := s) A D 0 m' l' l' hA2 (by omega) (r := r) (c := c) (by omega) (by omega)
    rw [e4] at this
    rw [w9]
    simp only [Pi.add_apply] at this ⊢
    rw [hwin _ _ _ _ (by omega) (by omega), this]; rfl
  · intro r c hr1 hc1 hr2 hc2
    have := quad_mul (B := B) (s := s) A D n' 0 l' l' hA2 (by omega) (r := r) (c := c) (by omega) (by omega)
    rw [e4] at this
    rw [w10]
    simp only [Pi.add_apply] at this ⊢
    rw [hwin _ _ _ _ (by omega) (by omega), this]; rfl
  · intro r c hr1 hc1 hr2 hc2
    have := quad_mul (B := B) (s := s) A D n' m' l' l' hA2 (by omega) (r := r) (c := c) (by omega) (by omega)
    rw [e4] at this
    rw [w11]
    simp only [Pi.add_apply] at this ⊢
    rw [hwin _ _ _ _ (by omega) (by omega), this]

theorem sw_perm (qa qd qc : Quarter) (ss tt : Four) (px : SBM) :
    ((px :: tt.rev ++ ss.rev ++ qc.rev ++ qd.rev ++ qa.rev).flatMap SBM.own).Perm (regsOwn qa qd qc ss tt ++ px.own) := by
  have h := (List.reverse_perm (qa.rev.reverse ++ qd.rev.reverse ++ qc.rev.reverse ++ ss.rev.reverse ++ tt.rev.reverse ++ [px])).flatMap_right
    SBM.own
  have e1 : (qa.rev.reverse ++ qd.rev.reverse ++ qc.rev.reverse ++ ss.rev.reverse ++ tt.rev.reverse ++ [px]).reverse =
    px :: tt.rev ++ ss.rev ++ qc.rev ++ qd.rev ++ qa.rev := by simp
  rw [e1] at h
  refine h.trans (List.Perm.of_eq ?_)
  unfold regsOwn Quarter.rev Four.rev
  simp

theorem swAdd_ok : ∀ (fuel n m l : Nat), n < fuel → MulOk (R := R) B true (swAdd B fuel) n m l := by
  intro fuel
  induction fuel with
  | zero => intro n m l hf; omega
  | succ fuel ih =>
    intro n m l hf s A D C e1 e2 e3 e4 e5 e6 hs hA hD hC hinj hlen d1 d2
    rw [swAdd]
    by_cases hb : isBase A C = true
    · rw [if_pos hb]
      exact recursiveMul_ok n m l s A D C e1 e2 e3 e4 e5 e6 hs hA hD hC hinj hlen d1 d2
    rw [if_neg hb]
    have hn : 3 < n := by
      have : ¬ C.h ≤ 3 := fun h => hb (by simp [isBase, swBase, h])
      omega
    obtain ⟨n', en⟩ : ∃ n', n' = (n + 1) / 2 := ⟨_, rfl⟩
    obtain ⟨m', em⟩ : ∃ n', n' = (m + 1) / 2 := ⟨_, rfl⟩
    obtain ⟨l', el⟩ : ∃ n', n' = (l + 1) / 2 := ⟨_, rfl⟩
    have ih' := ih n' m' l' (by omega)
    obtain ⟨qa, s1, qd, s2, qc, s3, ss, s4, tt, s5, tg, a1, a2, a3, a4, a5, Qa, Qd, Qc, Fs, Ft, g0⟩ :=
      setupSW (B := B) hs hA hD hC hinj d1 d2 (by omega) (by omega) (by omega) n' m' l' (by omega) (by omega) (by omega) false false
    have q4 : newFour s3 qa.ul.h qa.ul.w false = (ss, s4) := by rw [Qa.ulh, Qa.ulw]; exact a4
    have q5 : newFour s4 qd.ul.h qd.ul.w false = (tt, s5) := by rw [Qd.ulh, Qd.ulw]; exact a5
    simp only [a1, a2, a3, q4, q5, Qc.ulh, Qc.ulw]
    have o12 : Only (regs qa qd qc ss tt) 12 ⟨ss.x1, 5⟩ := only_of 12 _ rfl (by simp) rfl
    have o13 : Only (regs qa qd qc ss tt) 13 ⟨ss.x2, 6⟩ := only_of 13 _ rfl (by simp) rfl
    have o14 : Only (regs qa qd qc ss tt) 14 ⟨ss.x3, 7⟩ := only_of 14 _ rfl (by simp) rfl
    have o15 : Only (regs qa qd qc ss tt) 15 ⟨ss.x4, 8⟩ := only_of 15 _ rfl (by simp) rfl
    have o16 : Only (regs qa qd qc ss tt) 16 ⟨tt.x1, 9⟩ := only_of 16 _ rfl (by simp) rfl
    have o17 : Only (regs qa qd qc ss tt) 17 ⟨tt.x2, 10⟩ := only_of 17 _ rfl (by simp) rfl
    have o18 : Only (regs qa qd qc ss tt) 18 ⟨tt.x3, 11⟩ := only_of 18 _ rfl (by simp) rfl
    have o19 : Only (regs qa qd qc ss tt) 19 ⟨tt.x4, 12⟩ := only_of 19 _ rfl (by simp) rfl
    have g1 := g0.sub3 14 0 2 o14 rfl rfl rfl rfl (by simp [Qa.ulh, Fs.h3]) (by simp [Qa.ulw, Fs.w3]) (by simp [Qa.dlh, Fs.h3]) (by simp [Qa.dlw, Fs.w3])
    simp only [List.set_cons_succ, List.set_cons_zero] at g1
    have g2 := g1.add3 12 2 3 o12 rfl rfl rfl rfl (by simp [Qa.dlh, Fs.h1]) (by simp [Qa.dlw, Fs.w1]) (by simp [Qa.drh, Fs.h1]) (by simp [Qa.drw, Fs.w1])
    simp only [List.set_cons_succ, List.set_cons_zero] at g2
    have g3 := g2.sub3 13 12 0 o13 rfl rfl rfl rfl (by simp [Fs.h1, Fs.h2]) (by simp [Fs.w1, Fs.w2]) (by simp [Qa.ulh, Fs.h2]) (by simp [Qa.ulw, Fs.w2])
    simp only [List.set_cons_succ, List.set_cons_zero] at g3
    have g4 := g3.sub3 15 1 13 o15 rfl rfl rfl rfl (by simp [Qa.urh, Fs.h4]) (by simp [Qa.urw, Fs.w4]) (by simp [Fs.h2, Fs.h4]) (by simp [Fs.w2, Fs.w4])
    simp only [List.set_cons_succ, List.set_cons_zero] at g4
    have g5 := g4.sub3 18 7 5 o18 rfl rfl rfl rfl (by simp [Qd.drh, Ft.h3]) (by simp [Qd.drw, Ft.w3]) (by simp [Qd.urh, Ft.h3]) (by simp [Qd.urw, Ft.w3])
    simp only [List.set_cons_succ, List.set_cons_zero] at g5
    have g6 := g5.sub3 16 5 4 o16 rfl rfl rfl rfl (by simp [Qd.urh, Ft.h1]) (by simp [Qd.urw, Ft.w1]) (by simp [Qd.ulh, Ft.h1]) (by simp [Qd.ulw, Ft.w1])
    simp only [List.set_cons_succ, List.set_cons_zero] at g6
    have g7 := g6.sub3 17 7 16 o17 rfl rfl rfl rfl (by simp [Qd.drh, Ft.h2]) (by simp [Qd.drw, Ft.w2]) (by simp [Ft.h1, Ft.h2]) (by simp [Ft.w1, Ft.w2])
    simp only [List.set_cons_succ, List.set_cons_zero] at g7
    have g8 := g7.sub3 19 6 17 o19 rfl rfl rfl rfl (by simp [Qd.dlh, Ft.h4]) (by simp [Qd.dlw, Ft.w4]) (by simp [Ft.h2, Ft.h4]) (by simp [Ft.w2, Ft.w4])
    simp only [List.set_cons_succ, List.set_cons_zero] at g8
    obtain ⟨px, s6, tg', b1, b2, ⟨ph, pw, pt⟩, g9⟩ := g8.new n' m' false 13
    simp only [b1]
    clear g0 g1 g2 g3 g4 g5 g6 g7 g8
    simp only [List.cons_append, List.nil_append] at g9
    have o8 : Only (regs qa qd qc ss tt ++ [⟨px, 13⟩]) 8 ⟨qc.ul, 1⟩ := only_of 8 _ rfl (by simp) rfl
    have o9 : Only (regs qa qd qc ss tt ++ [⟨px, 13⟩]) 9 ⟨qc.ur, 2⟩ := only_of 9 _ rfl (by simp) rfl
    have o10 : Only (regs qa qd qc ss tt ++ [⟨px, 13⟩]) 10 ⟨qc.dl, 3⟩ := only_of 10 _ rfl (by simp) rfl
    have o11 : Only (regs qa qd qc ss tt ++ [⟨px, 13⟩]) 11 ⟨qc.dr, 4⟩ := only_of 11 _ rfl (by simp) rfl
    have o20 : Only (regs qa qd qc ss tt ++ [⟨px, 13⟩]) 20 ⟨px, 13⟩ := only_of 20 _ rfl (by simp) rfl
    have k1 := g9.mulAdd ih' 8 1 6 o8 rfl rfl (by simp) (by simp) rfl rfl rfl Qc.ulh Qc.ulw Qa.urh Qa.urw Qd.dlh Qd.dlw
    simp only [List.set_cons_succ, List.set_cons_zero] at k1
    have k2 := k1.mulAdd ih' 20 0 4 o20 rfl rfl (by simp) (by simp) rfl rfl rfl ph pw Qa.ulh Qa.ulw Qd.ulh Qd.ulw
    simp only [List.set_cons_succ, List.set_cons_zero] at k2
    have k3 := k2.add2 8 20 o8 rfl rfl rfl (by simp [Qc.ulh, ph]) (by simp [Qc.ulw, pw])
    simp only [List.set_cons_succ, List.set_cons_zero] at k3
    have k4 := k3.mulAdd ih' 20 13 17 o20 rfl rfl (by simp) (by simp) rfl rfl rfl ph pw Fs.h2 Fs.w2 Ft.h2 Ft.w2
    simp only [List.set_cons_succ, List.set_cons_zero] at k4
    have k5 := k4.add2 9 20 o9 rfl rfl rfl (by simp [Qc.urh, ph]) (by simp [Qc.urw, pw])
    simp only [List.set_cons_succ, List.set_cons_zero] at k5
    have k6 := k5.mulAdd ih' 20 14 18 o20 rfl rfl (by simp) (by simp) rfl rfl rfl ph pw Fs.h3 Fs.w3 Ft.h3 Ft.w3
    simp only [List.set_cons_succ, List.set_cons_zero] at k6
    have k7 := k6.add2 10 20 o10 rfl rfl rfl (by simp [Qc.dlh, ph]) (by simp [Qc.dlw, pw])
    simp only [List.set_cons_succ, List.set_cons_zero] at k7
    have k8 := k7.add2 11 20 o11 rfl rfl rfl (by simp [Qc.drh, ph]) (by simp [Qc.drw, pw])
    simp only [List.set_cons_succ, List.set_cons_zero] at k8
    have k9 := k8.zero 20 o20
    simp only [List.set_cons_succ, List.set_cons_zero] at k9
    have k10 := k9.mulAdd ih' 10 3 19 o10 rfl rfl (by simp) (by simp) rfl rfl rfl Qc.dlh Qc.dlw Qa.drh Qa.drw Ft.h4 Ft.w4
    simp only [List.set_cons_succ, List.set_cons_zero] at k10
    have k11 := k10.mulAdd ih' 20 12 16 o20 rfl rfl (by simp) (by simp) rfl rfl rfl ph pw Fs.h1 Fs.w1 Ft.h1 Ft.w1
    simp only [List.set_cons_succ, List.set_cons_zero] at k11
    have k12 := k11.add2 11 20 o11 rfl rfl rfl (by simp [Qc.drh, ph]) (by simp [Qc.drw, pw])
    simp only [List.set_cons_succ, List.set_cons_zero] at k12
    have k13 := k12.add2 9 20 o9 rfl rfl rfl (by simp [Qc.urh, ph]) (by simp [Qc.urw, pw])
    simp only [List.set_cons_succ, List.set_cons_zero] at k13
    have k14 := k13.mulAdd ih' 9 15 7 o9 rfl rfl (by simp) (by simp) rfl rfl rfl Qc.urh Qc.urw Fs.h4 Fs.w4 Qd.drh Qd.drw
    simp only [List.set_cons_succ, List.set_cons_zero] at k14
    clear g9 k1 k2 k3 k4 k5 k6 k7 k8 k9 k10 k11 k12 k13
    refine swEnd (acc := true) (A := A) (D := D) hC e1 e2 e3 e4 e5 e6 en em el k14 Qc rfl rfl rfl rfl rfl rfl rfl rfl
      ?_ ?_ ?_ ?_ _ ?_
    · simp only [if_true]; abel
    · simp only [if_true, mulN_add_left, mulN_sub_left, mulN_add_right, mulN_sub_right]; abel
    · simp only [if_true, mulN_add_left, mulN_sub_left, mulN_add_right, mulN_sub_right]; abel
    · simp only [if_true, mulN_add_left, mulN_sub_left, mulN_add_right, mulN_sub_right]; abel
    · exact sw_perm qa qd qc ss tt px

end Stxxl.Mat
