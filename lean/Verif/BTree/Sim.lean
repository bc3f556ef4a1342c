/-
The tree simulates the specification, call by call.
-/
import Verif.BTree.Step
import Verif.BTree.Mutate
import Mathlib.Tactic.SplitIfs

namespace BTree
open Spec (Op Out Cur curOf)
variable {K V : Type} [LinearOrder K]

/-- What the registered iterator `id` has to look like. -/
def CurRel (Ls : List (Blk K V)) (w : W) (id : Nat) : Cur K → Prop
  | .sing => True
  | .at_ k => Pts Ls w id k
  | .fin => w.its id = w.its 0

structure Sim (c : Cfg K) (R : List Nat) (s : St K V) (σ : Spec.M K V) : Prop where
  inv : Inv c R s
  m : σ.m = ents s.leaves
  cur : ∀ i, CurRel s.leaves s.w (cv i) (σ.cur i)

theorem posAt_cur {Ls : List (Blk K V)} {w : W} {rid : Nat} (hr : rid ≠ 0) {q : Nat × Nat} {o : Option (K × V)}
    (h : PosAt Ls w q o) : CurRel Ls (w.reg rid q) rid (curOf o) := by
  cases o with
  | none =>
    show (w.reg rid q).its rid = (w.reg rid q).its 0
    rw [reg_its, reg_its_ne _ _ (Ne.symm hr)]; exact h.symm
  | some e =>
    obtain ⟨l, hl, p, rfl, h2⟩ := h
    exact ⟨l, hl, p, e.2, reg_its _ _ _, h2⟩

theorem curRel_reg {Ls : List (Blk K V)} {w : W} {rid id : Nat} (hr : rid ≠ 0) (hne : id ≠ rid) {q : Nat × Nat}
    {x : Cur K} (h : CurRel Ls w id x) : CurRel Ls (w.reg rid q) id x := by
  cases x with
  | sing => trivial
  | at_ k => exact (Keeps.reg hr q).pts id (by simpa using hne) k trivial h
  | fin => exact (Keeps.reg (Ls := Ls) hr q).fin id (by simpa using hne) h

theorem curRel_keeps {P : K → Prop} {Ls Ls' : List (Blk K V)} {w w' : W} {rid : Option Nat} {id : Nat}
    (hk : Keeps P rid Ls Ls' w w') (hid : some id ≠ rid) {x : Cur K} (hx : ∀ k, x = .at_ k → P k)
    (h : CurRel Ls w id x) : CurRel Ls' w' id x := by
  cases x with
  | sing => trivial
  | at_ k => exact hk.pts id hid k (hx k rfl) h
  | fin => exact hk.fin id hid h

theorem Sim.reg {c : Cfg K} {R : List Nat} {s : St K V} {σ : Spec.M K V} (h : Sim c R s σ) {r : Nat} {q : Nat × Nat}
    {o : Option (K × V)} (hp : PosAt s.leaves s.w q o) :
    Sim c R { s with w := s.w.reg (cv r) q } ⟨σ.m, Spec.set σ.cur r (curOf o)⟩ := by
  refine ⟨h.inv.reg (by simp) q, h.m, ?_⟩
  intro i
  by_cases hi : i = r
  · subst hi
    simp only [Spec.set, if_true]
    exact posAt_cur (Ls := s.leaves) (by simp) hp
  · simp only [Spec.set, if_neg hi]
    exact curRel_reg (by simp) (by simpa using hi) (h.cur i)

theorem Sim.temp {c : Cfg K} {R : List Nat} {s : St K V} {σ : Spec.M K V} (h : Sim c R s σ) {t : Nat} (h0 : t ≠ 0) (ht : t < 5)
    (q : Nat × Nat) : Sim c R { s with w := s.w.reg t q } σ := by
  refine ⟨h.inv.reg h0 q, h.m, ?_⟩
  intro i
  exact curRel_reg h0 (by simp only [cv]; omega) (h.cur i)

/-! ### Contents: model against specification -/

theorem lookup_some {m : List (K × V)} (hs : m.Pairwise (fun a b => a.1 < b.1)) {k : K} {v : V} (h : (k, v) ∈ m) :
    Spec.lookup m k = some (k, v) := by
  unfold Spec.lookup
  obtain ⟨A, B, rfl⟩ := List.append_of_mem h
  rw [List.find?_append, List.find?_eq_none.mpr]
  · simp [List.find?_cons]
  · intro e he
    simpa using ne_of_lt ((List.pairwise_append.mp hs).2.2 e he (k, v) (by simp))

theorem lookup_none {m : List (K × V)} {k : K} (h : ∀ e ∈ m, e.1 ≠ k) : Spec.lookup m k = none := by
  unfold Spec.lookup
  rw [List.find?_eq_none]
  intro e he; simpa using h e he

theorem insEnts_spec {m m' : List (K × V)} (hs : m.Pairwise (fun a b => a.1 < b.1)) {x : K × V} {r : Bool}
    (h : InsEnts x m m' r) : m' = Spec.ins m x ∧ r = (Spec.lookup m x.1).isNone := by
  unfold Spec.ins
  rcases h with ⟨rfl, rfl, v, hv⟩ | ⟨rfl, P, Q, rfl, rfl, hP, hQ⟩
  · rw [lookup_some hs hv]; exact ⟨rfl, rfl⟩
  · rw [lookup_none]
    · refine ⟨?_, rfl⟩
      dsimp only
      rw [List.filter_append, List.filter_append]
      rw [List.filter_eq_self.mpr (fun e he => by simpa using hP e he), List.filter_eq_nil_iff.mpr (fun e he => by simpa using le_of_lt (hQ e he)),
        List.filter_eq_nil_iff.mpr (fun e he => by simpa using le_of_lt (hP e he)), List.filter_eq_self.mpr (fun e he => by simpa using hQ e he)]
      simp
    · intro e he
      rcases List.mem_append.mp he with he | he
      · exact ne_of_lt (hP e he)
      · exact ne_of_gt (hQ e he)

theorem ersEnts_spec {m m' : List (K × V)} (hs : m.Pairwise (fun a b => a.1 < b.1)) {k : K} {r : Nat}
    (h : ErsEnts k m m' r) : m' = m.filter (fun e => decide (e.1 ≠ k)) ∧ r = (if (Spec.lookup m k).isSome then 1 else 0) := by
  rcases h with ⟨rfl, rfl, hn⟩ | ⟨rfl, P, v, Q, rfl, rfl⟩
  · rw [lookup_none hn]
    refine ⟨?_, rfl⟩
    rw [List.filter_eq_self.mpr (fun e he => by simpa using hn e he)]
  · rw [lookup_some hs (v := v) (by simp)]
    refine ⟨?_, rfl⟩
    have s1 := List.pairwise_append.mp hs
    have s2 := List.pairwise_cons.mp s1.2.1
    rw [List.filter_append, List.filter_cons_of_neg (by simp),
      List.filter_eq_self.mpr (fun e he => by simpa using ne_of_lt (s1.2.2 e he (k, v) (by simp))),
      List.filter_eq_self.mpr (fun e he => by simpa using ne_of_gt (s2.1 e he))]

theorem lookup_mem {m : List (K × V)} {k : K} {e : K × V} (h : Spec.lookup m k = some e) : e ∈ m ∧ e.1 = k := by
  unfold Spec.lookup at h
  exact ⟨List.mem_of_find?_eq_some h, by simpa using List.find?_some h⟩

theorem put_eq_of_pos {m : List (K × V)} {k : K} {v : V} :
    m.map (fun e => if e.1 = k then (k, v) else e) = Spec.put m k v := rfl

/-! ### erase(first, last) -/

theorem copyIt_ok {s : St K V} {a b : Nat} {q : Nat × Nat} (h : s.w.its a = some q) :
    copyIt s a b = some { s with w := s.w.reg b q } := by
  unfold copyIt; rw [h]; rfl

theorem curRel_its {c : Cfg K} {R : List Nat} {s : St K V} (hI : Inv c R s) {id : Nat} {x : Cur K} (hx : x ≠ .sing)
    (h : CurRel s.leaves s.w id x) : ∃ q, s.w.its id = some q := by
  cases x with
  | sing => exact absurd rfl hx
  | at_ k => obtain ⟨l, _, p, v, h, _⟩ := h; exact ⟨_, h⟩
  | fin =>
    obtain ⟨l, _, h2⟩ := hI.lf.fin
    exact ⟨_, h.trans h2⟩

theorem curRel_eq {c : Cfg K} {R : List Nat} {s : St K V} (hI : Inv c R s) {i j : Nat} {x y : Cur K} (hx : x ≠ .sing) (hy : y ≠ .sing)
    (hi : CurRel s.leaves s.w i x) (hj : CurRel s.leaves s.w j y) : s.w.its i = s.w.its j ↔ x = y := by
  cases x with
  | sing => exact absurd rfl hx
  | at_ k =>
    cases y with
    | sing => exact absurd rfl hy
    | at_ k' => rw [pts_eq hI hi hj]; simp
    | fin =>
      have hj' : s.w.its j = s.w.its 0 := hj
      rw [hj']; simp [pts_ne_end hI hi]
  | fin =>
    have hi' : s.w.its i = s.w.its 0 := hi
    cases y with
    | sing => exact absurd rfl hy
    | at_ k' => rw [hi']; simp [Ne.symm (pts_ne_end hI hj)]
    | fin => have hj' : s.w.its j = s.w.its 0 := hj; rw [hi', hj']; simp

theorem curOf_ne {o : Option (K × V)} : curOf o ≠ .sing := by cases o <;> simp [curOf]

/-- A copy of an iterator denotes the same. -/
theorem curRel_copy {Ls : List (Blk K V)} {w : W} {a b : Nat} (hb : b ≠ 0) {q : Nat × Nat} (hq : w.its a = some q) {x : Cur K}
    (h : CurRel Ls w a x) : CurRel Ls (w.reg b q) b x := by
  cases x with
  | sing => trivial
  | at_ k =>
    obtain ⟨l, hl, p, v, h1, h2⟩ := h
    rw [hq] at h1
    exact ⟨l, hl, p, v, by rw [reg_its]; exact h1, h2⟩
  | fin =>
    show (w.reg b q).its b = (w.reg b q).its 0
    rw [reg_its, reg_its_ne _ _ (Ne.symm hb), ← hq]; exact h

theorem eraseLoop_ok {c : Cfg K} (hc : c.Ok) {R : List Nat} {a b t : Nat} (ha : a ≠ 0) (ht : t ≠ 0) (hab : b ≠ a) (hat : a ≠ t)
    (hbt : b ≠ t) : ∀ (n : Nat) (s : St K V) (P G Q : List (K × V)), Inv c R s → ents s.leaves = P ++ (G ++ Q) →
      CurRel s.leaves s.w a (curOf (G ++ Q).head?) → CurRel s.leaves s.w b (curOf Q.head?) → G.length < n →
      ∃ s', eraseLoop c a b t n s = some s' ∧ Inv c R s' ∧ ents s'.leaves = P ++ Q ∧
        ∀ id x, id ≠ a → id ≠ t → (∀ k, x = Cur.at_ k → ∀ e ∈ G, e.1 ≠ k) → CurRel s.leaves s.w id x →
          CurRel s'.leaves s'.w id x
  | 0, s, P, G, Q, _, _, _, _, h => by omega
  | n + 1, s, P, [], Q, hI, hE, h1, h2, _ => by
    refine ⟨s, ?_, hI, by simpa using hE, fun _ _ _ _ _ h => h⟩
    unfold eraseLoop
    rw [if_pos ((curRel_eq hI curOf_ne curOf_ne h1 h2).mpr rfl)]
  | n + 1, s, P, g :: G, Q, hI, hE, h1, h2, hn => by
    have hso := hI.sorted
    rw [hE] at hso
    have s1 := List.pairwise_append.mp hso
    have s2 := List.pairwise_cons.mp s1.2.1
    have hne : ¬ (s.w.its a = s.w.its b) := by
      rw [curRel_eq hI curOf_ne curOf_ne h1 h2]
      intro hh
      cases Q with
      | nil => simp [curOf] at hh
      | cons y Q =>
        simp only [List.cons_append, List.head?_cons, curOf, Cur.at_.injEq] at hh
        exact absurd (s2.1 y (by simp)) (by rw [hh]; exact lt_irrefl _)
    have h1' : Pts s.leaves s.w a g.1 := h1
    obtain ⟨q, hq⟩ := curRel_its hI (by simp) (show CurRel s.leaves s.w a (.at_ g.1) from h1')
    unfold eraseLoop
    rw [if_neg hne, copyIt_ok hq]
    dsimp only
    -- ++first
    have hI1 := hI.reg ht q
    have p1 : Pts s.leaves (s.w.reg t q) a g.1 := curRel_reg (x := .at_ g.1) ht hat h1'
    have t1 : Pts s.leaves (s.w.reg t q) t g.1 := curRel_copy (x := .at_ g.1) ht hq h1'
    obtain ⟨q2, i1, i2⟩ := incr_ok hc hI1 (id := a) (k := g.1) p1
    rw [i1]
    dsimp only
    have hfind : (ents s.leaves).find? (fun e => decide (g.1 < e.1)) = (G ++ Q).head? := by
      rw [hE]
      have e6 : P ++ (g :: G ++ Q) = (P ++ [g]) ++ (G ++ Q) := by simp
      rw [e6, find_cut]
      · intro e he
        rcases List.mem_append.mp he with he | he
        · simpa using le_of_lt (s1.2.2 e he g (by simp))
        · simp only [List.mem_singleton] at he; subst he; simp
      · intro e he; simpa using s2.1 e he
    have i2' : PosAt s.leaves (s.w.reg t q) q2 (G ++ Q).head? := by rw [← hfind]; exact i2
    have hI2 := hI1.reg ha q2
    have t2 : Pts s.leaves ((s.w.reg t q).reg a q2) t g.1 := curRel_reg (x := .at_ g.1) ha (Ne.symm hat) t1
    have a2 : CurRel s.leaves ((s.w.reg t q).reg a q2) a (curOf (G ++ Q).head?) := posAt_cur ha i2'
    have b2 : CurRel s.leaves ((s.w.reg t q).reg a q2) b (curOf Q.head?) := curRel_reg ha hab (curRel_reg ht hbt h2)
    obtain ⟨s3, z1, z2, z3, z4⟩ := eraseIt_ok hc hI2 t2
    rw [z1]
    dsimp only
    have hents : ents s3.leaves = P ++ (G ++ Q) := by
      have := (ersEnts_spec hI.sorted z4).1
      rw [this, hE]
      rw [List.filter_append, List.cons_append, List.filter_cons_of_neg (by simp),
        List.filter_eq_self.mpr (fun e he => by simpa using ne_of_lt (s1.2.2 e he g (by simp))),
        List.filter_eq_self.mpr (fun e he => by simpa using ne_of_gt (s2.1 e he))]
    have a3 : CurRel s3.leaves s3.w a (curOf (G ++ Q).head?) := by
      refine curRel_keeps z3 (by simp) ?_ a2
      intro k hk
      cases hh : (G ++ Q).head? with
      | none => rw [hh] at hk; simp [curOf] at hk
      | some e =>
        rw [hh] at hk
        simp only [curOf, Cur.at_.injEq] at hk
        rw [← hk]
        exact ne_of_gt (s2.1 e (List.mem_of_mem_head? (show e ∈ (G ++ Q).head? by rw [hh]; rfl)))
    have b3 : CurRel s3.leaves s3.w b (curOf Q.head?) := by
      refine curRel_keeps z3 (by simp) ?_ b2
      intro k hk
      cases hh : Q.head? with
      | none => rw [hh] at hk; simp [curOf] at hk
      | some e =>
        rw [hh] at hk
        simp only [curOf, Cur.at_.injEq] at hk
        rw [← hk]
        exact ne_of_gt (s2.1 e (List.mem_append_right _ (List.mem_of_mem_head? (by rw [hh]; rfl))))
    obtain ⟨s', r1, r2, r3, r4⟩ := eraseLoop_ok hc ha ht hab hat hbt n s3 P G Q z2 hents a3 b3 (by simp at hn; omega)
    refine ⟨s', r1, r2, r3, ?_⟩
    intro id x hida hidt hx hr
    refine r4 id x hida hidt (fun k hk e he => hx k hk e (by simp [he])) ?_
    refine curRel_keeps z3 (by simp) (fun k hk => ?_) (curRel_reg ha hida (curRel_reg ht hidt hr))
    exact Ne.symm (hx k hk g (by simp))

/-- The range between two iterators, as a segment of the contents. -/
theorem range_split {m : List (K × V)} (hs : m.Pairwise (fun a b => a.1 < b.1)) {x y : Cur K} (ho : Spec.okRange x y = true)
    (hx : ∀ k, x = .at_ k → ∃ v, (k, v) ∈ m) (hy : ∀ k, y = .at_ k → ∃ v, (k, v) ∈ m) :
    ∃ P G Q, m = P ++ (G ++ Q) ∧ x = curOf (G ++ Q).head? ∧ y = curOf Q.head? ∧
      (∀ e ∈ P, Spec.inRange x y e.1 = false) ∧ (∀ e ∈ G, Spec.inRange x y e.1 = true) ∧
      (∀ e ∈ Q, Spec.inRange x y e.1 = false) := by
  cases x with
  | sing => cases y <;> simp [Spec.okRange] at ho
  | fin =>
    cases y with
    | sing => simp [Spec.okRange] at ho
    | at_ k => simp [Spec.okRange] at ho
    | fin => exact ⟨m, [], [], by simp, rfl, rfl, fun _ _ => rfl, by simp, by simp⟩
  | at_ l =>
    obtain ⟨v, hv⟩ := hx l rfl
    obtain ⟨P, T, rfl⟩ := List.append_of_mem hv
    have s1 := List.pairwise_append.mp hs
    have s2 := List.pairwise_cons.mp s1.2.1
    have hPl : ∀ e ∈ P, e.1 < l := fun e he => s1.2.2 e he (l, v) (by simp)
    have hTl : ∀ e ∈ (l, v) :: T, l ≤ e.1 := by
      intro e he
      rcases List.mem_cons.mp he with rfl | he
      · exact le_refl _
      · exact le_of_lt (s2.1 e he)
    cases y with
    | sing => simp [Spec.okRange] at ho
    | fin =>
      refine ⟨P, (l, v) :: T, [], by simp, by simp [curOf], rfl, ?_, ?_, by simp⟩
      · intro e he; simpa [Spec.inRange] using hPl e he
      · intro e he; simpa [Spec.inRange] using hTl e he
    | at_ h =>
      have hlh : l ≤ h := by simpa [Spec.okRange] using ho
      obtain ⟨v', hv'⟩ := hy h rfl
      have hm : (h, v') ∈ (l, v) :: T := by
        rcases List.mem_append.mp hv' with hh | hh
        · exact absurd (hPl _ hh) (not_lt.mpr hlh)
        · exact hh
      obtain ⟨G, Q, hGQ⟩ := List.append_of_mem hm
      rw [hGQ] at s1 hTl ⊢
      have s3 := List.pairwise_append.mp s1.2.1
      have s4 := List.pairwise_cons.mp s3.2.1
      refine ⟨P, G, (h, v') :: Q, rfl, ?_, rfl, ?_, ?_, ?_⟩
      · rw [← hGQ]; rfl
      · intro e he
        have := hPl e he
        simp only [Spec.inRange, Bool.and_eq_false_imp, decide_eq_true_eq, decide_eq_false_iff_not]
        intro hh; exact absurd this (not_lt.mpr hh)
      · intro e he
        simp only [Spec.inRange, Bool.and_eq_true, decide_eq_true_eq]
        exact ⟨hTl e (by simp [he]), s3.2.2 e he (h, v') (by simp)⟩
      · intro e he
        simp only [Spec.inRange, Bool.and_eq_false_imp, decide_eq_true_eq, decide_eq_false_iff_not, not_lt]
        intro _
        rcases List.mem_cons.mp he with rfl | he
        · exact le_refl _
        · exact le_of_lt (s4.1 e he)

/-! ### The calls -/

theorem sim_kill {Ls Ls' : List (Blk K V)} {w w' : W} {cur : Nat → Cur K} {p : K → Bool}
    (h : ∀ i, CurRel Ls w (cv i) (cur i))
    (hk : ∀ i x, (∀ k, x = Cur.at_ k → p k = false) → CurRel Ls w (cv i) x → CurRel Ls' w' (cv i) x) (i : Nat) :
    CurRel Ls' w' (cv i) (Spec.kill p cur i) := by
  unfold Spec.kill
  have hi := h i
  cases hx : cur i with
  | sing => trivial
  | fin => rw [hx] at hi; exact hk i .fin (by simp) hi
  | at_ k =>
    dsimp only
    rw [hx] at hi
    by_cases hp : p k = true
    · rw [if_pos hp]; trivial
    · rw [if_neg hp]
      exact hk i _ (fun k' hk' => by cases hk'; simpa using hp) hi

theorem Sim.cur_mem {c : Cfg K} {R : List Nat} {s : St K V} {σ : Spec.M K V} (h : Sim c R s σ) {i : Nat} {k : K}
    (hk : σ.cur i = .at_ k) : ∃ v, (k, v) ∈ σ.m := by
  have := h.cur i
  rw [hk] at this
  obtain ⟨v, hv⟩ := pts_mem this
  exact ⟨v, by rw [h.m]; exact hv⟩

theorem insert_sim {c : Cfg K} (hc : c.Ok) {pick : List Nat → Nat} (hpick : ∀ L, pick L ∉ L) {R : List Nat} {s : St K V}
    {σ : Spec.M K V} (h : Sim c R s σ) (x : K × V) (hx : x.1 ≤ c.mx) :
    ∃ s', Outcome (insert c pick s x 1) s' (Spec.lookup σ.m x.1).isNone (s'.h ≠ s.h ∧ c.cap < s'.h + 1) ∧
      Sim c R s' ⟨Spec.ins σ.m x, σ.cur⟩ ∧ Pts s'.leaves s'.w 1 x.1 := by
  obtain ⟨s', r, h1, h2, h3, h4, h5⟩ := insert_ok hc hpick h.inv x hx (rid := 1) (by decide)
  have hs := h.inv.sorted
  obtain ⟨e1, e2⟩ := insEnts_spec hs h5
  rw [← h.m] at e1 e2
  subst e2
  refine ⟨s', h1, ⟨h2, e1.symm, fun i => ?_⟩, h4⟩
  exact curRel_keeps h3 (by simp only [ne_eq, Option.some.injEq, cv]; omega) (fun _ _ => trivial) (h.cur i)

end BTree
