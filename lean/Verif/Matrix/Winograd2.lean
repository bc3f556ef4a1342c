import Verif.Matrix.Winograd

/-!
# The interleaved and the overwriting Strassen-Winograd algorithms are correct
-/

namespace Stxxl.Mat

variable {R : Type} [CommRing R] {B : Nat}
variable {s0 s : St R} {C : SBM} {tag : Nat → Nat} {own : List Nat} {Xs : List Reg}

theorem swInter_ok : ∀ (fuel n m l : Nat), n < fuel → MulOk (R := R) B true (swInter B fuel) n m l := by
  intro fuel
  induction fuel with
  | zero => intro n m l hf; omega
  | succ fuel ih =>
    intro n m l hf s A D C e1 e2 e3 e4 e5 e6 hs hA hD hC hinj hlen d1 d2
    rw [swInter]
    by_cases hb : isBase A C = true
    · rw [if_pos hb]
      exact recursiveMul_ok n m l s A D C e1 e2 e3 e4 e5 e6 hs hA hD hC hinj hlen d1 d2
    rw [if_neg hb]
    have hn : 3 < n := by
      have : ¬ C.h ≤ 3 := fun h => hb (by simp [isBase, swBase, h])
      omega
    obtain ⟨n', en⟩ : ∃ n', n' = (n + 1) / 2 := ⟨_, rfl⟩
    obtain ⟨m', em⟩ : ∃ n', n' = (m + 1) / 2 := ⟨_, rfl⟩
    obtain ⟨l', el⟩ : ∃ n', n' = (l + 1) / 2 := ⟨_, rfl⟩
    have ih' := ih n' m' l' (by omega)
    obtain ⟨qa, s1, qd, s2, qc, s3, ss, s4, tt, s5, tg, a1, a2, a3, a4, a5, Qa, Qd, Qc, Fs, Ft, g0⟩ :=
      setupSW (B := B) hs hA hD hC hinj d1 d2 (by omega) (by omega) (by omega) n' m' l' (by omega) (by omega) (by omega) A.tr D.tr
    have q4 : newFour s3 qa.ul.h qa.ul.w qa.ul.tr = (ss, s4) := by rw [Qa.ulh, Qa.ulw, Qa.ult]; exact a4
    have q5 : newFour s4 qd.ul.h qd.ul.w qd.ul.tr = (tt, s5) := by rw [Qd.ulh, Qd.ulw, Qd.ult]; exact a5
    simp only [a1, a2, a3, q4, q5, Qc.ulh, Qc.ulw, Qc.ult]
    have g8 := (g0.preA Qa Fs).preB Qd Ft
    obtain ⟨px, s6, tg', b1, b2, ⟨ph, pw, pt⟩, g9⟩ := g8.new n' m' C.tr 13
    simp only [b1]
    clear g0 g8
    simp only [List.cons_append, List.nil_append] at g9
    have o8 : Only (regs qa qd qc ss tt ++ [⟨px, 13⟩]) 8 ⟨qc.ul, 1⟩ := only_of 8 _ rfl (by simp) rfl
    have o9 : Only (regs qa qd qc ss tt ++ [⟨px, 13⟩]) 9 ⟨qc.ur, 2⟩ := only_of 9 _ rfl (by simp) rfl
    have o10 : Only (regs qa qd qc ss tt ++ [⟨px, 13⟩]) 10 ⟨qc.dl, 3⟩ := only_of 10 _ rfl (by simp) rfl
    have o11 : Only (regs qa qd qc ss tt ++ [⟨px, 13⟩]) 11 ⟨qc.dr, 4⟩ := only_of 11 _ rfl (by simp) rfl
    have o20 : Only (regs qa qd qc ss tt ++ [⟨px, 13⟩]) 20 ⟨px, 13⟩ := only_of 20 _ rfl (by simp) rfl
    have o12 : Only (regs qa qd qc ss tt ++ [⟨px, 13⟩]) 12 ⟨ss.x1, 5⟩ := only_of 12 _ rfl (by simp) rfl
    have o13 : Only (regs qa qd qc ss tt ++ [⟨px, 13⟩]) 13 ⟨ss.x2, 6⟩ := only_of 13 _ rfl (by simp) rfl
    have o14 : Only (regs qa qd qc ss tt ++ [⟨px, 13⟩]) 14 ⟨ss.x3, 7⟩ := only_of 14 _ rfl (by simp) rfl
    have o16 : Only (regs qa qd qc ss tt ++ [⟨px, 13⟩]) 16 ⟨tt.x1, 9⟩ := only_of 16 _ rfl (by simp) rfl
    have o17 : Only (regs qa qd qc ss tt ++ [⟨px, 13⟩]) 17 ⟨tt.x2, 10⟩ := only_of 17 _ rfl (by simp) rfl
    have o18 : Only (regs qa qd qc ss tt ++ [⟨px, 13⟩]) 18 ⟨tt.x3, 11⟩ := only_of 18 _ rfl (by simp) rfl
    have o19 : Only (regs qa qd qc ss tt ++ [⟨px, 13⟩]) 19 ⟨tt.x4, 12⟩ := only_of 19 _ rfl (by simp) rfl
    have k1 := g9.mulAdd ih' 8 1 6 o8 rfl rfl (by simp) (by simp) rfl rfl rfl Qc.ulh Qc.ulw Qa.urh Qa.urw Qd.dlh Qd.dlw
    simp only [List.set_cons_succ, List.set_cons_zero] at k1
    have k2 := k1.mulAdd ih' 20 0 4 o20 rfl rfl (by simp) (by simp) rfl rfl rfl ph pw Qa.ulh Qa.ulw Qd.ulh Qd.ulw
    simp only [List.set_cons_succ, List.set_cons_zero] at k2
    have k3 := k2.add2 8 20 o8 rfl rfl rfl (by simp [Qc.ulh, ph]) (by simp [Qc.ulw, pw])
    simp only [List.set_cons_succ, List.set_cons_zero] at k3
    have k4 := k3.mulAdd ih' 20 13 17 o20 rfl rfl (by simp) (by simp) rfl rfl rfl ph pw Fs.h2 Fs.w2 Ft.h2 Ft.w2
    simp only [List.set_cons_succ, List.set_cons_zero] at k4
    have k4a := (k4.zero 13 o13).zero 17 o17
    simp only [List.set_cons_succ, List.set_cons_zero] at k4a
    have k5 := k4a.add2 9 20 o9 rfl rfl rfl (by simp [Qc.urh, ph]) (by simp [Qc.urw, pw])
    simp only [List.set_cons_succ, List.set_cons_zero] at k5
    have k6 := k5.mulAdd ih' 20 14 18 o20 rfl rfl (by simp) (by simp) rfl rfl rfl ph pw Fs.h3 Fs.w3 Ft.h3 Ft.w3
    simp only [List.set_cons_succ, List.set_cons_zero] at k6
    have k6a := (k6.zero 14 o14).zero 18 o18
    simp only [List.set_cons_succ, List.set_cons_zero] at k6a
    have k8 := k6a.twice 10 11 20 o10 o11 rfl (by simp) (by simp) rfl rfl rfl ph pw Qc.dlh Qc.dlw Qc.drh Qc.drw (by simp [Qc.dlt, pt]) (by simp [Qc.drt, pt])
    simp only [List.set_cons_succ, List.set_cons_zero] at k8
    have k9 := k8.zero 20 o20
    simp only [List.set_cons_succ, List.set_cons_zero] at k9
    have k10 := k9.mulAdd ih' 10 3 19 o10 rfl rfl (by simp) (by simp) rfl rfl rfl Qc.dlh Qc.dlw Qa.drh Qa.drw Ft.h4 Ft.w4
    simp only [List.set_cons_succ, List.set_cons_zero] at k10
    have k10a := k10.zero 19 o19
    simp only [List.set_cons_succ, List.set_cons_zero] at k10a
    have k11 := k10a.mulAdd ih' 20 12 16 o20 rfl rfl (by simp) (by simp) rfl rfl rfl ph pw Fs.h1 Fs.w1 Ft.h1 Ft.w1
    simp only [List.set_cons_succ, List.set_cons_zero] at k11
    have k11a := (k11.zero 12 o12).zero 16 o16
    simp only [List.set_cons_succ, List.set_cons_zero] at k11a
    have k13 := k11a.twice 11 9 20 o11 o9 rfl (by simp) (by simp) rfl rfl rfl ph pw Qc.drh Qc.drw Qc.urh Qc.urw (by simp [Qc.drt, pt]) (by simp [Qc.urt, pt])
    simp only [List.set_cons_succ, List.set_cons_zero] at k13
    have k13a := k13.zero 20 o20
    simp only [List.set_cons_succ, List.set_cons_zero] at k13a
    have k14 := k13a.mulAdd ih' 9 15 7 o9 rfl rfl (by simp) (by simp) rfl rfl rfl Qc.urh Qc.urw Fs.h4 Fs.w4 Qd.drh Qd.drw
    simp only [List.set_cons_succ, List.set_cons_zero] at k14
    clear g9 k1 k2 k3 k4 k5 k6 k8 k9 k10 k11 k13 k4a k6a k10a k11a k13a
    refine swEnd (acc := true) (A := A) (D := D) hC e1 e2 e3 e4 e5 e6 en em el k14 Qc rfl rfl rfl rfl rfl rfl rfl rfl
      ?_ ?_ ?_ ?_ _ ?_
    · simp only [if_true]; abel
    · simp only [if_true, mulN_add_left, mulN_sub_left, mulN_add_right, mulN_sub_right]; abel
    · simp only [if_true, mulN_add_left, mulN_sub_left, mulN_add_right, mulN_sub_right]; abel
    · simp only [if_true, mulN_add_left, mulN_sub_left, mulN_add_right, mulN_sub_right]; abel
    · exact sw_perm qa qd qc ss tt px

theorem sw_perm3 (qa qd qc : Quarter) (ss tt : Four) (p1 p3 p5 : SBM) :
    ((p5 :: p3 :: p1 :: tt.rev ++ ss.rev ++ qc.rev ++ qd.rev ++ qa.rev).flatMap SBM.own).Perm
      (regsOwn qa qd qc ss tt ++ p1.own ++ p3.own ++ p5.own) := by
  have h := (List.reverse_perm (qa.rev.reverse ++ qd.rev.reverse ++ qc.rev.reverse ++ ss.rev.reverse ++ tt.rev.reverse ++ [p1, p3, p5])).flatMap_right
    SBM.own
  have e1 : (qa.rev.reverse ++ qd.rev.reverse ++ qc.rev.reverse ++ ss.rev.reverse ++ tt.rev.reverse ++ [p1, p3, p5]).reverse =
    p5 :: p3 :: p1 :: tt.rev ++ ss.rev ++ qc.rev ++ qd.rev ++ qa.rev := by simp
  rw [e1] at h
  refine h.trans (List.Perm.of_eq ?_)
  unfold regsOwn Quarter.rev Four.rev
  simp

section
variable {qa qd qc : Quarter} {ss tt : Four} {n m l n' m' l' : Nat} {ta td tc : Bool} {p1 p3 p5 : SBM}

theorem GoodL.post {a11 a12 a21 a22 b11 b12 b21 b22 c11 c12 c21 c22 x1 x2 x3 x4 y1 y2 y3 y4 z1 z3 z5 : BM B R}
    (g : GoodL B s0 C tag own (regs qa qd qc ss tt ++ [⟨p1, 13⟩, ⟨p3, 14⟩, ⟨p5, 15⟩])
      [a11, a12, a21, a22, b11, b12, b21, b22, c11, c12, c21, c22, x1, x2, x3, x4, y1, y2, y3, y4, z1, z3, z5] s)
    {C' : SBM} (Qc : QOf qc C' n' m' n' m') (h1 : p1.h = n' ∧ p1.w = m' ∧ p1.tr = C'.tr) (h3 : p3.h = n' ∧ p3.w = m' ∧ p3.tr = C'.tr)
    (h5 : p5.h = n' ∧ p5.w = m' ∧ p5.tr = C'.tr) :
    GoodL B s0 C tag own (regs qa qd qc ss tt ++ [⟨p1, 13⟩, ⟨p3, 14⟩, ⟨p5, 15⟩])
      [a11, a12, a21, a22, b11, b12, b21, b22, c11 + z1, c12 + (z1 + c22 + z3), c21 + (z5 + (z1 + c22)), z5 + (z1 + c22) + z3,
        x1, x2, x3, x4, y1, y2, y3, y4, z1 + c22 + z3, z3, z5 + (z1 + c22)] (postAdd B qc.ul qc.ur qc.dl qc.dr p1 p3 p5 s) := by
  have o8 : Only (regs qa qd qc ss tt ++ [⟨p1, 13⟩, ⟨p3, 14⟩, ⟨p5, 15⟩]) 8 ⟨qc.ul, 1⟩ := only_of 8 _ rfl (by simp) rfl
  have o9 : Only (regs qa qd qc ss tt ++ [⟨p1, 13⟩, ⟨p3, 14⟩, ⟨p5, 15⟩]) 9 ⟨qc.ur, 2⟩ := only_of 9 _ rfl (by simp) rfl
  have o10 : Only (regs qa qd qc ss tt ++ [⟨p1, 13⟩, ⟨p3, 14⟩, ⟨p5, 15⟩]) 10 ⟨qc.dl, 3⟩ := only_of 10 _ rfl (by simp) rfl
  have o11 : Only (regs qa qd qc ss tt ++ [⟨p1, 13⟩, ⟨p3, 14⟩, ⟨p5, 15⟩]) 11 ⟨qc.dr, 4⟩ := only_of 11 _ rfl (by simp) rfl
  have o20 : Only (regs qa qd qc ss tt ++ [⟨p1, 13⟩, ⟨p3, 14⟩, ⟨p5, 15⟩]) 20 ⟨p1, 13⟩ := only_of 20 _ rfl (by simp) rfl
  have o22 : Only (regs qa qd qc ss tt ++ [⟨p1, 13⟩, ⟨p3, 14⟩, ⟨p5, 15⟩]) 22 ⟨p5, 15⟩ := only_of 22 _ rfl (by simp) rfl
  obtain ⟨f1, f2, f3, f4, f5, f6, f7, f8, f9, f10, f11, f12, _, _, _, _⟩ := Qc
  obtain ⟨u1, u2, u3⟩ := h1
  obtain ⟨v1, v2, v3⟩ := h3
  obtain ⟨w1, w2, w3⟩ := h5
  have hop : ∀ x : R, (Op.add : Op R).f2 x 0 = x := fun x => by simp [Op.f2]
  refine g.ofProg qc.ul.h qc.ul.w _ (fun u =>
    let u := Function.update u 8 (u 8 + u 20)
    let u := Function.update u 20 (u 20 + u 11)
    let u := Function.update u 22 (u 22 + u 20)
    let u := Function.update u 10 (u 10 + u 22)
    let u := Function.update u 11 (u 22 + u 21)
    let u := Function.update u 20 (u 20 + u 21)
    Function.update u 9 (u 9 + u 20)) ?_ ?_ rfl ?_
  · intro s F r c u hr hc h
    rw [f1] at hr
    rw [f2] at hc
    have k1 := h.cell2 .add hop o8 (i := 20) rfl (f1 ▸ hr) (f2 ▸ hc) (u1 ▸ hr) (u2 ▸ hc) false false (Or.inr ⟨rfl, rfl, by simp [f9, u3]⟩)
    have k2 := k1.cell2 .add hop o20 (i := 11) rfl (u1 ▸ hr) (u2 ▸ hc) (f7 ▸ hr) (f8 ▸ hc) false false (Or.inr ⟨rfl, rfl, by simp [f12, u3]⟩)
    have k3 := k2.cell2 .add hop o22 (i := 20) rfl (w1 ▸ hr) (w2 ▸ hc) (u1 ▸ hr) (u2 ▸ hc) false false (Or.inr ⟨rfl, rfl, by simp [w3, u3]⟩)
    have k4 := k3.cell2 .add hop o10 (i := 22) rfl (f5 ▸ hr) (f6 ▸ hc) (w1 ▸ hr) (w2 ▸ hc) false false (Or.inr ⟨rfl, rfl, by simp [w3, f11]⟩)
    have k5 := k4.cell3 .add o11 (i := 22) (j := 21) rfl rfl (f7 ▸ hr) (f8 ▸ hc) (w1 ▸ hr) (w2 ▸ hc) (v1 ▸ hr) (v2 ▸ hc) false false false
      (Or.inr ⟨rfl, rfl, rfl, by simp [f12, w3], by simp [f12, v3]⟩)
    have k6 := k5.cell2 .add hop o20 (i := 21) rfl (u1 ▸ hr) (u2 ▸ hc) (v1 ▸ hr) (v2 ▸ hc) false false (Or.inr ⟨rfl, rfl, by simp [v3, u3]⟩)
    exact k6.cell2 .add hop o9 (i := 20) rfl (f3 ▸ hr) (f4 ▸ hc) (u1 ▸ hr) (u2 ▸ hc) false false (Or.inr ⟨rfl, rfl, by simp [f10, u3]⟩)
  · intro k x hx
    have hk : k < 23 := getElem?_lt hx
    interval_cases k <;> simp only [regs, List.cons_append, List.nil_append, List.getElem?_cons_succ, List.getElem?_cons_zero, Option.some.injEq] at hx <;> subst hx
    all_goals first
      | (right; intro u; simp [Function.update]; done)
      | (left; constructor <;> simp [*])
  · intro k hk r c
    have hk : k < 23 := hk
    interval_cases k <;> simp [Function.update]

end

theorem swMul_ok : ∀ (fuel n m l : Nat), n < fuel → MulOk (R := R) B false (swMul B fuel) n m l := by
  intro fuel
  induction fuel with
  | zero => intro n m l hf; omega
  | succ fuel ih =>
    intro n m l hf s A D C e1 e2 e3 e4 e5 e6 hs hA hD hC hinj hlen d1 d2
    rw [swMul]
    by_cases hb : isBase A C = true
    · rw [if_pos hb]
      obtain ⟨z1, z2, z3, z4⟩ := setZero_spec (B := B) hlen hs hC
      obtain ⟨r1, r2, r3, r4⟩ := recursiveMul_ok (B := B) n m l (setZero C s) A D C e1 e2 e3 e4 e5 e6 z1 (fun r c hr hc => (z2 _).2 (hA r c hr hc))
        (fun r c hr hc => (z2 _).2 (hD r c hr hc)) (fun r c hr hc => (z2 _).2 (hC r c hr hc)) hinj hlen d1 d2
      refine ⟨r1, fun i => (r2 i).trans (z2 i), fun i hi h => (r3 i ((z2 i).2 hi) h).trans (z3 i h), ?_⟩
      intro r c hr hc
      rw [r4 r c hr hc, if_pos rfl, z4 r c (by omega) (by omega)]
      simp only [Bool.false_eq_true, if_false]
      congr 1
      refine Finset.sum_congr rfl fun t ht => ?_
      have ht := Finset.mem_range.1 ht
      unfold V
      rw [z3 (A.block r t) (fun r' c' hr' hc' => d1 r' c' r t hr' hc' (by omega) (by omega)),
        z3 (D.block t c) (fun r' c' hr' hc' => d2 r' c' t c hr' hc' (by omega) (by omega))]
    rw [if_neg hb]
    have hn : 3 < n := by
      have : ¬ C.h ≤ 3 := fun h => hb (by simp [isBase, swBase, h])
      omega
    obtain ⟨n', en⟩ : ∃ n', n' = (n + 1) / 2 := ⟨_, rfl⟩
    obtain ⟨m', em⟩ : ∃ n', n' = (m + 1) / 2 := ⟨_, rfl⟩
    obtain ⟨l', el⟩ : ∃ n', n' = (l + 1) / 2 := ⟨_, rfl⟩
    have ih' := ih n' m' l' (by omega)
    obtain ⟨qa, s1, qd, s2, qc, s3, ss, s4, tt, s5, tg, a1, a2, a3, a4, a5, Qa, Qd, Qc, Fs, Ft, g0⟩ :=
      setupSW (B := B) hs hA hD hC hinj d1 d2 (by omega) (by omega) (by omega) n' m' l' (by omega) (by omega) (by omega) A.tr D.tr
    have q4 : newFour s3 qa.ul.h qa.ul.w qa.ul.tr = (ss, s4) := by rw [Qa.ulh, Qa.ulw, Qa.ult]; exact a4
    have q5 : newFour s4 qd.ul.h qd.ul.w qd.ul.tr = (tt, s5) := by rw [Qd.ulh, Qd.ulw, Qd.ult]; exact a5
    simp only [a1, a2, a3, q4, q5, Qc.ulh, Qc.ulw, Qc.ult]
    have g8 := (g0.preA Qa Fs).preB Qd Ft
    obtain ⟨p1, s6, tg1, b1, _, hp1, g9⟩ := g8.new n' m' C.tr 13
    obtain ⟨p3, s7, tg2, b2, _, hp3, g10⟩ := g9.new n' m' C.tr 14
    obtain ⟨p5, s8, tg3, b3, _, hp5, g11⟩ := g10.new n' m' C.tr 15
    simp only [b1, b2, b3]
    clear g0 g8 g9 g10
    simp only [List.cons_append, List.nil_append, List.append_assoc] at g11
    have o8 : Only (regs qa qd qc ss tt ++ [⟨p1, 13⟩, ⟨p3, 14⟩, ⟨p5, 15⟩]) 8 ⟨qc.ul, 1⟩ := only_of 8 _ rfl (by simp) rfl
    have o9 : Only (regs qa qd qc ss tt ++ [⟨p1, 13⟩, ⟨p3, 14⟩, ⟨p5, 15⟩]) 9 ⟨qc.ur, 2⟩ := only_of 9 _ rfl (by simp) rfl
    have o10 : Only (regs qa qd qc ss tt ++ [⟨p1, 13⟩, ⟨p3, 14⟩, ⟨p5, 15⟩]) 10 ⟨qc.dl, 3⟩ := only_of 10 _ rfl (by simp) rfl
    have o11 : Only (regs qa qd qc ss tt ++ [⟨p1, 13⟩, ⟨p3, 14⟩, ⟨p5, 15⟩]) 11 ⟨qc.dr, 4⟩ := only_of 11 _ rfl (by simp) rfl
    have o20 : Only (regs qa qd qc ss tt ++ [⟨p1, 13⟩, ⟨p3, 14⟩, ⟨p5, 15⟩]) 20 ⟨p1, 13⟩ := only_of 20 _ rfl (by simp) rfl
    have o21 : Only (regs qa qd qc ss tt ++ [⟨p1, 13⟩, ⟨p3, 14⟩, ⟨p5, 15⟩]) 21 ⟨p3, 14⟩ := only_of 21 _ rfl (by simp) rfl
    have o22 : Only (regs qa qd qc ss tt ++ [⟨p1, 13⟩, ⟨p3, 14⟩, ⟨p5, 15⟩]) 22 ⟨p5, 15⟩ := only_of 22 _ rfl (by simp) rfl
    have k1 := g11.mulSet ih' 20 0 4 o20 rfl rfl (by simp) (by simp) rfl rfl rfl hp1.1 hp1.2.1 Qa.ulh Qa.ulw Qd.ulh Qd.ulw
    simp only [List.set_cons_succ, List.set_cons_zero] at k1
    have k2 := k1.mulSet ih' 8 1 6 o8 rfl rfl (by simp) (by simp) rfl rfl rfl Qc.ulh Qc.ulw Qa.urh Qa.urw Qd.dlh Qd.dlw
    simp only [List.set_cons_succ, List.set_cons_zero] at k2
    have k3 := k2.mulSet ih' 21 12 16 o21 rfl rfl (by simp) (by simp) rfl rfl rfl hp3.1 hp3.2.1 Fs.h1 Fs.w1 Ft.h1 Ft.w1
    simp only [List.set_cons_succ, List.set_cons_zero] at k3
    have k4 := k3.mulSet ih' 11 13 17 o11 rfl rfl (by simp) (by simp) rfl rfl rfl Qc.drh Qc.drw Fs.h2 Fs.w2 Ft.h2 Ft.w2
    simp only [List.set_cons_succ, List.set_cons_zero] at k4
    have k5 := k4.mulSet ih' 22 14 18 o22 rfl rfl (by simp) (by simp) rfl rfl rfl hp5.1 hp5.2.1 Fs.h3 Fs.w3 Ft.h3 Ft.w3
    simp only [List.set_cons_succ, List.set_cons_zero] at k5
    have k6 := k5.mulSet ih' 9 15 7 o9 rfl rfl (by simp) (by simp) rfl rfl rfl Qc.urh Qc.urw Fs.h4 Fs.w4 Qd.drh Qd.drw
    simp only [List.set_cons_succ, List.set_cons_zero] at k6
    have k7 := k6.mulSet ih' 10 3 19 o10 rfl rfl (by simp) (by simp) rfl rfl rfl Qc.dlh Qc.dlw Qa.drh Qa.drw Ft.h4 Ft.w4
    simp only [List.set_cons_succ, List.set_cons_zero] at k7
    have k8 := k7.post Qc hp1 hp3 hp5
    clear g11 k1 k2 k3 k4 k5 k6 k7
    refine swEnd (acc := false) (A := A) (D := D) hC e1 e2 e3 e4 e5 e6 en em el k8 Qc rfl rfl rfl rfl rfl rfl rfl rfl
      ?_ ?_ ?_ ?_ _ ?_
    · simp only [Bool.false_eq_true, if_false]; abel
    · simp only [Bool.false_eq_true, if_false, mulN_add_left, mulN_sub_left, mulN_add_right, mulN_sub_right]; abel
    · simp only [Bool.false_eq_true, if_false, mulN_add_left, mulN_sub_left, mulN_add_right, mulN_sub_right]; abel
    · simp only [Bool.false_eq_true, if_false, mulN_add_left, mulN_sub_left, mulN_add_right, mulN_sub_right]; abel
    · simpa only [List.append_assoc] using sw_perm3 qa qd qc ss tt p1 p3 p5

end Stxxl.Mat
