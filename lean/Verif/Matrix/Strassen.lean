import Verif.Matrix.Rec
import Mathlib.Tactic.IntervalCases

/-!
# Strassen-Winograd multiplication
-/

namespace Stxxl.Mat

variable {R : Type} [CommRing R] {B : Nat}
variable {s0 s : St R} {C : SBM} {tag : Nat → Nat} {own : List Nat} {Xs : List Reg}

/-- Sizes of the four temporaries. -/
structure FOf (x : Four) (h w : Nat) (tr : Bool) : Prop where
  h1 : x.x1.h = h
  w1 : x.x1.w = w
  t1 : x.x1.tr = tr
  h2 : x.x2.h = h
  w2 : x.x2.w = w
  t2 : x.x2.tr = tr
  h3 : x.x3.h = h
  w3 : x.x3.w = w
  t3 : x.x3.tr = tr
  h4 : x.x4.h = h
  w4 : x.x4.w = w
  t4 : x.x4.tr = tr

theorem GoodL.four {Fs : List (BM B R)} (g : GoodL B s0 C tag own Xs Fs s) (h w : Nat) (tr : Bool) (k1 k2 k3 k4 : Nat) :
    ∃ x s' tag', newFour s h w tr = (x, s') ∧ FOf x h w tr ∧
      GoodL B s0 C tag' (own ++ x.x1.own ++ x.x2.own ++ x.x3.own ++ x.x4.own)
        (Xs ++ [⟨x.x1, k1⟩] ++ [⟨x.x2, k2⟩] ++ [⟨x.x3, k3⟩] ++ [⟨x.x4, k4⟩]) (Fs ++ [0] ++ [0] ++ [0] ++ [0]) s' := by
  obtain ⟨x1, s1, t1, a1, a2, a3, a4⟩ := g.new h w tr k1
  obtain ⟨x2, s2, t2, b1, b2, b3, b4⟩ := a4.new h w tr k2
  obtain ⟨x3, s3, t3, c1, c2, c3, c4⟩ := b4.new h w tr k3
  obtain ⟨x4, s4, t4, d1, d2, d3, d4⟩ := c4.new h w tr k4
  refine ⟨⟨x1, x2, x3, x4⟩, s4, t4, ?_, ⟨a3.1, a3.2.1, a3.2.2, b3.1, b3.2.1, b3.2.2, c3.1, c3.2.1, c3.2.2, d3.1, d3.2.1, d3.2.2⟩, d4⟩
  unfold newFour
  rw [a1]; dsimp only; rw [b1]; dsimp only; rw [c1]; dsimp only; rw [d1]

/-- The registers of the Strassen-Winograd algorithms. -/
def regs (qa qd qc : Quarter) (ss tt : Four) : List Reg :=
  [⟨qa.ul, 0⟩, ⟨qa.ur, 0⟩, ⟨qa.dl, 0⟩, ⟨qa.dr, 0⟩, ⟨qd.ul, 0⟩, ⟨qd.ur, 0⟩, ⟨qd.dl, 0⟩, ⟨qd.dr, 0⟩,
    ⟨qc.ul, 1⟩, ⟨qc.ur, 2⟩, ⟨qc.dl, 3⟩, ⟨qc.dr, 4⟩, ⟨ss.x1, 5⟩, ⟨ss.x2, 6⟩, ⟨ss.x3, 7⟩, ⟨ss.x4, 8⟩,
    ⟨tt.x1, 9⟩, ⟨tt.x2, 10⟩, ⟨tt.x3, 11⟩, ⟨tt.x4, 12⟩]

def regsOwn (qa qd qc : Quarter) (ss tt : Four) : List Nat :=
  qa.ul.own ++ qa.ur.own ++ qa.dl.own ++ qa.dr.own ++ qd.ul.own ++ qd.ur.own ++ qd.dl.own ++ qd.dr.own ++
    qc.ul.own ++ qc.ur.own ++ qc.dl.own ++ qc.dr.own ++ ss.x1.own ++ ss.x2.own ++ ss.x3.own ++ ss.x4.own ++
    tt.x1.own ++ tt.x2.own ++ tt.x3.own ++ tt.x4.own

/-- Quarters and temporaries. -/
theorem setupSW {s : St R} {A D C : SBM} (hs : s.Wf) (hA : Owned s A) (hD : Owned s D) (hC : Owned s C) (hinj : Inj C)
    (d1 : ∀ r c r' c', r < C.h → c < C.w → r' < A.h → c' < A.w → C.block r c ≠ A.block r' c')
    (d2 : ∀ r c r' c', r < C.h → c < C.w → r' < D.h → c' < D.w → C.block r c ≠ D.block r' c')
    (hAh : A.h = C.h) (hDh : D.h = A.w) (hDw : D.w = C.w) (n' m' l' : Nat)
    (en : (C.h + 1) / 2 = n') (em : (C.w + 1) / 2 = m') (el : (A.w + 1) / 2 = l') (ta td : Bool) :
    ∃ qa s1 qd s2 qc s3 ss s4 tt s5 tag, padQuarter s A = (qa, s1) ∧ padQuarter s1 D = (qd, s2) ∧ padQuarter s2 C = (qc, s3) ∧
      newFour s3 n' l' ta = (ss, s4) ∧ newFour s4 l' m' td = (tt, s5) ∧
      QOf qa A n' l' n' l' ∧ QOf qd D l' m' l' m' ∧ QOf qc C n' m' n' m' ∧ FOf ss n' l' ta ∧ FOf tt l' m' td ∧
      GoodL B s C tag (regsOwn qa qd qc ss tt) (regs qa qd qc ss tt)
        [window B s A 0 0, window B s A 0 l', window B s A n' 0, window B s A n' l',
          window B s D 0 0, window B s D 0 m', window B s D l' 0, window B s D l' m',
          window B s C 0 0, window B s C 0 m', window B s C n' 0, window B s C n' m', 0, 0, 0, 0, 0, 0, 0, 0] s5 := by
  obtain ⟨qa, s1, qd, s2, qc, s3, tg, a1, a2, a3, Qa, Qd, Qc, _, g0⟩ := setup (B := B) hs hA hD hC hinj d1 d2 n' n' m' m' l' l'
  obtain ⟨ss, s4, tg4, b1, Fs, g1⟩ := g0.four n' l' ta 5 6 7 8
  obtain ⟨tt, s5, tg5, c1, Ft, g2⟩ := g1.four l' m' td 9 10 11 12
  refine ⟨qa, s1, qd, s2, qc, s3, ss, s4, tt, s5, tg5, ?_, ?_, ?_, b1, c1, Qa, Qd, Qc, Fs, Ft, ?_⟩
  · rw [padQuarter_eq, hAh, en, el]; exact a1
  · rw [padQuarter_eq, hDh, hDw, em, el]; exact a2
  · rw [padQuarter_eq, em, en]; exact a3
  · unfold regs regsOwn
    simpa only [List.nil_append, List.cons_append, List.append_assoc] using g2

/-- From a cell program to the list of values. -/
theorem GoodL.ofProg {Fs Fs' : List (BM B R)} (g : GoodL B s0 C tag own Xs Fs s) (n w : Nat) (body : Nat → Nat → St R → St R)
    (G : (Nat → M B R) → Nat → M B R)
    (hb : ∀ s F r c u, r < n → c < w → Good B s0 C tag own Xs s (cellUpd F r c u) →
      Good B s0 C tag own Xs (body r c s) (cellUpd F r c (G u)))
    (hG : ∀ (k : Nat) (x : Reg), Xs[k]? = some x → (x.m.h = n ∧ x.m.w = w) ∨ ∀ u, G u k = u k)
    (hl : Fs'.length = Xs.length)
    (hv : ∀ k, k < Xs.length → ∀ r c, G (fun k => Fs.getD k 0 r c) k = Fs'.getD k 0 r c) :
    GoodL B s0 C tag own Xs Fs' (forCells n w body s) := by
  refine ⟨(Good.prog n w body G hb hG g.1).congr ?_, hl⟩
  intro k x hx r c _ _
  exact hv k (getElem?_lt hx) r c

section
variable {qa qd qc : Quarter} {ss tt : Four} {n m l n' m' l' : Nat} {ta td tc : Bool}

theorem GoodL.preA {a11 a12 a21 a22 b11 b12 b21 b22 c11 c12 c21 c22 x1 x2 x3 x4 y1 y2 y3 y4 : BM B R}
    (g : GoodL B s0 C tag own (regs qa qd qc ss tt)
      [a11, a12, a21, a22, b11, b12, b21, b22, c11, c12, c21, c22, x1, x2, x3, x4, y1, y2, y3, y4] s)
    {A : SBM} (Qa : QOf qa A n' l' n' l') (Fs : FOf ss n' l' A.tr) :
    GoodL B s0 C tag own (regs qa qd qc ss tt)
      [a11, a12, a21, a22, b11, b12, b21, b22, c11, c12, c21, c22, a21 + a22, a21 + a22 - a11, a11 - a21, a12 - (a21 + a22 - a11),
        y1, y2, y3, y4] (preAddA B qa ss s) := by
  have h12 : Only (regs qa qd qc ss tt) 12 ⟨ss.x1, 5⟩ := only_of 12 _ rfl (by simp) rfl
  have h13 : Only (regs qa qd qc ss tt) 13 ⟨ss.x2, 6⟩ := only_of 13 _ rfl (by simp) rfl
  have h14 : Only (regs qa qd qc ss tt) 14 ⟨ss.x3, 7⟩ := only_of 14 _ rfl (by simp) rfl
  have h15 : Only (regs qa qd qc ss tt) 15 ⟨ss.x4, 8⟩ := only_of 15 _ rfl (by simp) rfl
  obtain ⟨p1, p2, p3, p4, p5, p6, p7, p8, p9, p10, p11, p12, _, _, _, _⟩ := Qa
  obtain ⟨f1, f2, f3, f4, f5, f6, f7, f8, f9, f10, f11, f12⟩ := Fs
  refine g.ofProg qa.ul.h qa.ul.w _ (fun u =>
    let u := Function.update u 14 (u 0 - u 2)
    let u := Function.update u 12 (u 2 + u 3)
    let u := Function.update u 13 (u 12 - u 0)
    Function.update u 15 (u 1 - u 13)) ?_ ?_ rfl ?_
  · intro s F r c u hr hc h
    rw [p1] at hr
    rw [p2] at hc
    have g1 := h.cell3 .sub h14 (i := 0) (j := 2) rfl rfl (f7 ▸ hr) (f8 ▸ hc) (p1 ▸ hr) (p2 ▸ hc) (p5 ▸ hr) (p6 ▸ hc) false false false
      (Or.inr ⟨rfl, rfl, rfl, by simp [p9, f9], by simp [p11, f9]⟩)
    have g2 := g1.cell3 .add h12 (i := 2) (j := 3) rfl rfl (f1 ▸ hr) (f2 ▸ hc) (p5 ▸ hr) (p6 ▸ hc) (p7 ▸ hr) (p8 ▸ hc) false false false
      (Or.inr ⟨rfl, rfl, rfl, by simp [p11, f3], by simp [p12, f3]⟩)
    have g3 := g2.cell3 .sub h13 (i := 12) (j := 0) rfl rfl (f4 ▸ hr) (f5 ▸ hc) (f1 ▸ hr) (f2 ▸ hc) (p1 ▸ hr) (p2 ▸ hc) false false false
      (Or.inr ⟨rfl, rfl, rfl, by simp [f3, f6], by simp [p9, f6]⟩)
    exact g3.cell3 .sub h15 (i := 1) (j := 13) rfl rfl (f10 ▸ hr) (f11 ▸ hc) (p3 ▸ hr) (p4 ▸ hc) (f4 ▸ hr) (f5 ▸ hc) false false false
      (Or.inr ⟨rfl, rfl, rfl, by simp [p10, f12], by simp [f6, f12]⟩)
  · intro k x hx
    have hk : k < 20 := getElem?_lt hx
    interval_cases k <;> simp only [regs, List.getElem?_cons_succ, List.getElem?_cons_zero, Option.some.injEq] at hx <;> subst hx
    all_goals first
      | (right; intro u; simp [Function.update]; done)
      | (left; constructor <;> simp [*])
  · intro k hk r c
    have hk : k < 20 := hk
    interval_cases k <;> simp [Function.update]

theorem GoodL.preB {a11 a12 a21 a22 b11 b12 b21 b22 c11 c12 c21 c22 x1 x2 x3 x4 y1 y2 y3 y4 : BM B R}
    (g : GoodL B s0 C tag own (regs qa qd qc ss tt)
      [a11, a12, a21, a22, b11, b12, b21, b22, c11, c12, c21, c22, x1, x2, x3, x4, y1, y2, y3, y4] s)
    {D : SBM} (Qd : QOf qd D l' m' l' m') (Ft : FOf tt l' m' D.tr) :
    GoodL B s0 C tag own (regs qa qd qc ss tt)
      [a11, a12, a21, a22, b11, b12, b21, b22, c11, c12, c21, c22, x1, x2, x3, x4,
        b12 - b11, b22 - (b12 - b11), b22 - b12, b21 - (b22 - (b12 - b11))] (preAddB B qd tt s) := by
  have h12 : Only (regs qa qd qc ss tt) 16 ⟨tt.x1, 9⟩ := only_of 16 _ rfl (by simp) rfl
  have h13 : Only (regs qa qd qc ss tt) 17 ⟨tt.x2, 10⟩ := only_of 17 _ rfl (by simp) rfl
  have h14 : Only (regs qa qd qc ss tt) 18 ⟨tt.x3, 11⟩ := only_of 18 _ rfl (by simp) rfl
  have h15 : Only (regs qa qd qc ss tt) 19 ⟨tt.x4, 12⟩ := only_of 19 _ rfl (by simp) rfl
  obtain ⟨p1, p2, p3, p4, p5, p6, p7, p8, p9, p10, p11, p12, _, _, _, _⟩ := Qd
  obtain ⟨f1, f2, f3, f4, f5, f6, f7, f8, f9, f10, f11, f12⟩ := Ft
  refine g.ofProg qd.ul.h qd.ul.w _ (fun u =>
    let u := Function.update u 18 (u 7 - u 5)
    let u := Function.update u 16 (u 5 - u 4)
    let u := Function.update u 17 (u 7 - u 16)
    Function.update u 19 (u 6 - u 17)) ?_ ?_ rfl ?_
  · intro s F r c u hr hc h
    rw [p1] at hr
    rw [p2] at hc
    have g1 := h.cell3 .sub h14 (i := 7) (j := 5) rfl rfl (f7 ▸ hr) (f8 ▸ hc) (p7 ▸ hr) (p8 ▸ hc) (p3 ▸ hr) (p4 ▸ hc) false false false
      (Or.inr ⟨rfl, rfl, rfl, by simp [p12, f9], by simp [p10, f9]⟩)
    have g2 := g1.cell3 .sub h12 (i := 5) (j := 4) rfl rfl (f1 ▸ hr) (f2 ▸ hc) (p3 ▸ hr) (p4 ▸ hc) (p1 ▸ hr) (p2 ▸ hc) false false false
      (Or.inr ⟨rfl, rfl, rfl, by simp [p10, f3], by simp [p9, f3]⟩)
    have g3 := g2.cell3 .sub h13 (i := 7) (j := 16) rfl rfl (f4 ▸ hr) (f5 ▸ hc) (p7 ▸ hr) (p8 ▸ hc) (f1 ▸ hr) (f2 ▸ hc) false false false
      (Or.inr ⟨rfl, rfl, rfl, by simp [p12, f6], by simp [f3, f6]⟩)
    exact g3.cell3 .sub h15 (i := 6) (j := 17) rfl rfl (f10 ▸ hr) (f11 ▸ hc) (p5 ▸ hr) (p6 ▸ hc) (f4 ▸ hr) (f5 ▸ hc) false false false
      (Or.inr ⟨rfl, rfl, rfl, by simp [p11, f12], by simp [f6, f12]⟩)
  · intro k x hx
    have hk : k < 20 := getElem?_lt hx
    interval_cases k <;> simp only [regs, List.getElem?_cons_succ, List.getElem?_cons_zero, Option.some.injEq] at hx <;> subst hx
    all_goals first
      | (right; intro u; simp [Function.update]; done)
      | (left; constructor <;> simp [*])
  · intro k hk r c
    have hk : k < 20 := hk
    interval_cases k <;> simp [Function.update]

end

end Stxxl.Mat
