import Verif.Matrix.Ctx

/-!
# Operations on the registers
-/

namespace Stxxl.Mat

variable {R : Type} [CommRing R]
variable {B : Nat} {s0 s : St R} {C : SBM} {tag : Nat → Nat} {own : List Nat} {Xs : List Reg} {F : Nat → Nat → Nat → M B R}

/-- Block matrices of any size. -/
abbrev BM (B : Nat) (R : Type) := Nat → Nat → M B R

/-- Product of block matrices with inner dimension `l`. -/
def mulN (l : Nat) (f g : BM B R) : BM B R := fun r c => ∑ t ∈ Finset.range l, f r t * g t c

theorem mulN_add_left (l : Nat) (f f' g : BM B R) : mulN l (f + f') g = mulN l f g + mulN l f' g := by
  funext r c; simp [mulN, add_mul, Finset.sum_add_distrib]
theorem mulN_sub_left (l : Nat) (f f' g : BM B R) : mulN l (f - f') g = mulN l f g - mulN l f' g := by
  funext r c; simp [mulN, sub_mul, Finset.sum_sub_distrib]
theorem mulN_add_right (l : Nat) (f g g' : BM B R) : mulN l f (g + g') = mulN l f g + mulN l f g' := by
  funext r c; simp [mulN, mul_add, Finset.sum_add_distrib]
theorem mulN_sub_right (l : Nat) (f g g' : BM B R) : mulN l f (g - g') = mulN l f g - mulN l f g' := by
  funext r c; simp [mulN, mul_sub, Finset.sum_sub_distrib]

/-- `Good` with the values in a list. -/
def GoodL (B : Nat) (s0 : St R) (C : SBM) (tag : Nat → Nat) (own : List Nat) (Xs : List Reg) (Fs : List (BM B R)) (s : St R) : Prop :=
  Good B s0 C tag own Xs s (fun k => Fs.getD k 0) ∧ Fs.length = Xs.length

theorem getD_eq {Fs : List (BM B R)} {i : Nat} {f : BM B R} (h : Fs[i]? = some f) : Fs.getD i 0 = f := by
  simp [List.getD, h]

theorem GoodL.upd {Fs : List (BM B R)} (h : GoodL B s0 C tag own Xs Fs s) {s' : St R} {k : Nat} {f : BM B R} {x : Reg} (hx : Xs[k]? = some x)
    (h' : Good B s0 C tag own Xs s' (Function.update (fun k => Fs.getD k 0) k f)) : GoodL B s0 C tag own Xs (Fs.set k f) s' := by
  refine ⟨h'.congr ?_, by simpa using h.2⟩
  intro j y _ r c _ _
  by_cases hjk : j = k
  · subst hjk
    have : j < Fs.length := by have := getElem?_lt hx; have := h.2; omega
    simp [this]
  · rw [Function.update_of_ne hjk]
    simp [List.getD_eq_getElem?_getD, List.getElem?_set_ne (fun e => hjk e.symm)]

/-- A loop over the cells of matrices of the same size. -/
theorem Good.prog (n w : Nat) (body : Nat → Nat → St R → St R) (G : (Nat → M B R) → Nat → M B R)
    (hb : ∀ s F r c u, r < n → c < w → Good B s0 C tag own Xs s (cellUpd F r c u) →
      Good B s0 C tag own Xs (body r c s) (cellUpd F r c (G u)))
    (hG : ∀ (k : Nat) (x : Reg), Xs[k]? = some x → (x.m.h = n ∧ x.m.w = w) ∨ ∀ u, G u k = u k)
    (h : Good B s0 C tag own Xs s F) :
    Good B s0 C tag own Xs (forCells n w body s) (fun k r c => G (fun k => F k r c) k) := by
  have := Good.loop n w body (fun _ => True) (fun _ _ => G) (fun _ _ _ _ _ _ => trivial)
    (fun s F r c hr hc _ hg => hb s F r c _ hr hc (by rw [cellUpd_self]; exact hg)) trivial h
  refine this.congr ?_
  intro k x hx r c hr hc
  rcases hG k x hx with ⟨e1, e2⟩ | e
  · rw [if_pos ⟨e1 ▸ hr, e2 ▸ hc⟩]
  · split <;> simp [e]

theorem GoodL.op3 {Fs : List (BM B R)} (h : GoodL B s0 C tag own Xs Fs s) (op : Op R) {k i j : Nat} {x y z : Reg} (hk : Only Xs k x)
    (hi : Xs[i]? = some y) (hj : Xs[j]? = some z) {fi fj : BM B R} (hfi : Fs[i]? = some fi) (hfj : Fs[j]? = some fj)
    (e1 : y.m.h = x.m.h) (e2 : y.m.w = x.m.w) (e3 : z.m.h = x.m.h) (e4 : z.m.w = x.m.w) :
    GoodL B s0 C tag own Xs (Fs.set k fun r c => op.m3 (fi r c) (fj r c)) (elementOp3 B op x.m y.m z.m s) := by
  refine h.upd hk.1 ?_
  have := Good.prog x.m.h x.m.w (cellOp3 B op x.m.tr y.m.tr z.m.tr x.m y.m z.m)
    (fun u => Function.update u k (op.m3 (u i) (u j)))
    (fun s F r c u hr hc hg => hg.cell3 op hk hi hj hr hc (by omega) (by omega) (by omega) (by omega) _ _ _ (Or.inl ⟨rfl, rfl, rfl⟩))
    (by
      intro k' x' hx'
      by_cases e : k' = k
      · subst e
        have : x' = x := by have := hk.1; rw [hx'] at this; exact Option.some.inj this
        subst this; exact Or.inl ⟨rfl, rfl⟩
      · right; intro u; exact Function.update_of_ne e _ _) h.1
  refine this.congr ?_
  intro k' x' _ r c _ _
  by_cases e : k' = k
  · subst e; simp only [Function.update_self, getD_eq hfi, getD_eq hfj]
  · simp only [Function.update_of_ne e]

theorem GoodL.op2 {Fs : List (BM B R)} (h : GoodL B s0 C tag own Xs Fs s) (op : Op R) (hop : ∀ x : R, op.f2 x 0 = x) {k i : Nat} {x y : Reg}
    (hk : Only Xs k x) (hi : Xs[i]? = some y) {fk fi : BM B R} (hfk : Fs[k]? = some fk) (hfi : Fs[i]? = some fi)
    (e1 : y.m.h = x.m.h) (e2 : y.m.w = x.m.w) :
    GoodL B s0 C tag own Xs (Fs.set k fun r c => op.m2 (fk r c) (fi r c)) (elementOp2 B op x.m y.m s) := by
  refine h.upd hk.1 ?_
  have := Good.prog x.m.h x.m.w (cellOp2 B op x.m.tr y.m.tr x.m y.m)
    (fun u => Function.update u k (op.m2 (u k) (u i)))
    (fun s F r c u hr hc hg => hg.cell2 op hop hk hi hr hc (by omega) (by omega) _ _ (Or.inl ⟨rfl, rfl⟩))
    (by
      intro k' x' hx'
      by_cases e : k' = k
      · subst e
        have : x' = x := by have := hk.1; rw [hx'] at this; exact Option.some.inj this
        subst this; exact Or.inl ⟨rfl, rfl⟩
      · right; intro u; exact Function.update_of_ne e _ _) h.1
  refine this.congr ?_
  intro k' x' _ r c _ _
  by_cases e : k' = k
  · subst e; simp only [Function.update_self, getD_eq hfi, getD_eq hfk]
  · simp only [Function.update_of_ne e]

theorem GoodL.sub3 {Fs : List (BM B R)} (h : GoodL B s0 C tag own Xs Fs s) (k i j : Nat) {x y z : Reg} (hk : Only Xs k x)
    (hi : Xs[i]? = some y) (hj : Xs[j]? = some z) {fi fj : BM B R} (hfi : Fs[i]? = some fi) (hfj : Fs[j]? = some fj)
    (e1 : y.m.h = x.m.h) (e2 : y.m.w = x.m.w) (e3 : z.m.h = x.m.h) (e4 : z.m.w = x.m.w) :
    GoodL B s0 C tag own Xs (Fs.set k (fi - fj)) (elementOp3 B .sub x.m y.m z.m s) :=
  h.op3 .sub hk hi hj hfi hfj e1 e2 e3 e4

theorem GoodL.add3 {Fs : List (BM B R)} (h : GoodL B s0 C tag own Xs Fs s) (k i j : Nat) {x y z : Reg} (hk : Only Xs k x)
    (hi : Xs[i]? = some y) (hj : Xs[j]? = some z) {fi fj : BM B R} (hfi : Fs[i]? = some fi) (hfj : Fs[j]? = some fj)
    (e1 : y.m.h = x.m.h) (e2 : y.m.w = x.m.w) (e3 : z.m.h = x.m.h) (e4 : z.m.w = x.m.w) :
    GoodL B s0 C tag own Xs (Fs.set k (fi + fj)) (elementOp3 B .add x.m y.m z.m s) :=
  h.op3 .add hk hi hj hfi hfj e1 e2 e3 e4

theorem GoodL.add2 {Fs : List (BM B R)} (h : GoodL B s0 C tag own Xs Fs s) (k i : Nat) {x y : Reg}
    (hk : Only Xs k x) (hi : Xs[i]? = some y) {fk fi : BM B R} (hfk : Fs[k]? = some fk) (hfi : Fs[i]? = some fi)
    (e1 : y.m.h = x.m.h) (e2 : y.m.w = x.m.w) :
    GoodL B s0 C tag own Xs (Fs.set k (fk + fi)) (elementOp2 B .add x.m y.m s) :=
  h.op2 .add (fun x => by simp [Op.f2]) hk hi hfk hfi e1 e2

theorem sets_spec (l : List Nat) : ∀ {s : St R}, s.Wf → (∀ i ∈ l, s.live i) →
    (l.foldl (fun s i => s.set i none) s).Wf ∧ (∀ j, (l.foldl (fun s i => s.set i none) s).live j ↔ s.live j) ∧
      (∀ j, j ∉ l → (l.foldl (fun s i => s.set i none) s).blk j = s.blk j) ∧
      (∀ j, j ∈ l → (l.foldl (fun s i => s.set i none) s).blk j = none) := by
  induction l with
  | nil => intro s h _; exact ⟨h, by simp, by simp, by simp⟩
  | cons i l ih =>
    intro s h hl
    obtain ⟨a, b, c, d⟩ := ih (s := s.set i none) (set_wf h (hl i (by simp))) (fun j hj => hl j (List.mem_cons_of_mem _ hj))
    refine ⟨a, b, ?_, ?_⟩
    · intro j hj
      rw [List.mem_cons, not_or] at hj
      rw [List.foldl_cons, c j hj.2]; simp [St.set, hj.1]
    · intro j hj
      rw [List.foldl_cons]
      by_cases hjl : j ∈ l
      · exact d j hjl
      · rw [c j hjl]
        rcases List.mem_cons.1 hj with rfl | hj
        · simp [St.set]
        · exact absurd hj hjl

theorem mem_blocks {m : SBM} (hlen : m.blocks.length = m.h * m.w) {i : Nat} :
    i ∈ m.blocks ↔ ∃ r c, r < m.h ∧ c < m.w ∧ m.block r c = i := by
  constructor
  · intro hi
    obtain ⟨k, hk, rfl⟩ := List.mem_iff_getElem.1 hi
    obtain ⟨h1, h2, h3⟩ := pos_eta (h := m.h) (w := m.w) (k := k) (by omega)
    exact ⟨k / m.w, k % m.w, h1, h2, by simp [SBM.block, h3, List.getD_eq_getElem?_getD, hk]⟩
  · rintro ⟨r, c, hr, hc, rfl⟩
    have : r * m.w + c < m.blocks.length := by rw [hlen]; exact pos_lt hr hc
    simp only [SBM.block, List.getD_eq_getElem?_getD, List.getElem?_eq_getElem this, Option.getD_some]
    exact List.getElem_mem _

theorem setZero_spec {m : SBM} (hlen : m.blocks.length = m.h * m.w) (hs : s.Wf) (ho : Owned s m) :
    (setZero m s).Wf ∧ (∀ j, (setZero m s).live j ↔ s.live j) ∧
      (∀ j, (∀ r c, r < m.h → c < m.w → m.block r c ≠ j) → (setZero m s).blk j = s.blk j) ∧
      ∀ r c, r < m.h → c < m.w → V B (setZero m s) m r c = 0 := by
  obtain ⟨a, b, c, d⟩ := sets_spec m.blocks hs (fun i hi => by
    obtain ⟨r, c, hr, hc, rfl⟩ := (mem_blocks hlen).1 hi; exact ho r c hr hc)
  refine ⟨a, b, ?_, ?_⟩
  · intro j hj
    refine c j (fun hm => ?_)
    obtain ⟨r, c, hr, hc, e⟩ := (mem_blocks hlen).1 hm
    exact hj r c hr hc e
  · intro r c hr hc
    have := d _ ((mem_blocks hlen).2 ⟨r, c, hr, hc, rfl⟩)
    simp only [V, setZero, this, vl_none]

theorem GoodL.zero {Fs : List (BM B R)} (h : GoodL B s0 C tag own Xs Fs s) (k : Nat) {x : Reg} (hk : Only Xs k x) :
    GoodL B s0 C tag own Xs (Fs.set k 0) (setZero x.m s) := by
  obtain ⟨a, b, c, d⟩ := setZero_spec (B := B) (h.1.len k x hk.1) h.1.wf (h.1.isLive k x hk.1)
  exact h.upd hk.1 (h.1.write hk a b (fun i _ hi => c i hi) 0 d)

/-- `f A D C` computes `C = [C +] A * D` for matrices of `n × l`, `l × m` and `n × m` blocks and touches no other block. -/
def MulOk (B : Nat) (acc : Bool) (f : SBM → SBM → SBM → St R → St R) (n m l : Nat) : Prop :=
  ∀ (s : St R) (A D C : SBM), C.h = n → C.w = m → A.h = n → A.w = l → D.h = l → D.w = m → s.Wf → Owned s A → Owned s D → Owned s C →
    Inj C → C.blocks.length = C.h * C.w →
    (∀ r c r' c', r < C.h → c < C.w → r' < A.h → c' < A.w → C.block r c ≠ A.block r' c') →
    (∀ r c r' c', r < C.h → c < C.w → r' < D.h → c' < D.w → C.block r c ≠ D.block r' c') →
    (f A D C s).Wf ∧ (∀ i, (f A D C s).live i ↔ s.live i) ∧
      (∀ i, s.live i → (∀ r c, r < C.h → c < C.w → C.block r c ≠ i) → (f A D C s).blk i = s.blk i) ∧
      ∀ r c, r < n → c < m → V B (f A D C s) C r c = (if acc then V B s C r c else 0) + ∑ t ∈ Finset.range l, V B s A r t * V B s D t c

theorem GoodL.mulCore {Fs : List (BM B R)} (h : GoodL B s0 C tag own Xs Fs s) {acc : Bool} {f : SBM → SBM → SBM → St R → St R} {n m l : Nat}
    (hf : MulOk B acc f n m l) {k i j : Nat} {x y z : Reg} (hk : Only Xs k x)
    (hi : Xs[i]? = some y) (hj : Xs[j]? = some z) (hik : i ≠ k) (hjk : j ≠ k) {fk fi fj : BM B R}
    (hfk : Fs[k]? = some fk) (hfi : Fs[i]? = some fi) (hfj : Fs[j]? = some fj)
    (e1 : x.m.h = n) (e2 : x.m.w = m) (e3 : y.m.h = n) (e4 : y.m.w = l) (e5 : z.m.h = l) (e6 : z.m.w = m) :
    GoodL B s0 C tag own Xs (Fs.set k ((if acc then fk else 0) + mulN l fi fj)) (f y.m z.m x.m s) := by
  have hd : ∀ (j : Nat) (z : Reg), Xs[j]? = some z → j ≠ k → ∀ r c r' c', r < x.m.h → c < x.m.w → r' < z.m.h → c' < z.m.w →
      x.m.block r c ≠ z.m.block r' c' := by
    intro j z hz hjk r c r' c' hr hc hr' hc' e
    have h1 := h.1.tagged k x hk.1 r c hr hc
    have h2 := h.1.tagged j z hz r' c' hr' hc'
    rw [e, h2] at h1
    exact hk.2.2 j z hz hjk h1
  obtain ⟨a, b, c, d⟩ := hf s y.m z.m x.m e1 e2 e3 e4 e5 e6 h.1.wf (h.1.isLive i y hi) (h.1.isLive j z hj) (h.1.isLive k x hk.1)
    (h.1.inj k x hk.1 hk.2.1) (h.1.len k x hk.1) (hd i y hi hik) (hd j z hj hjk)
  refine h.upd hk.1 (h.1.write hk a b c _ ?_)
  intro r c' hr hc
  rw [d r c' (e1 ▸ hr) (e2 ▸ hc)]
  have v1 : ∀ t ∈ Finset.range l, V B s y.m r t * V B s z.m t c' = fi r t * fj t c' := by
    intro t ht
    have ht' := Finset.mem_range.1 ht
    rw [h.1.val i y hi r t (by omega) (by omega), h.1.val j z hj t c' (by omega) (by omega), getD_eq hfi, getD_eq hfj]
  rw [Finset.sum_congr rfl v1]
  cases acc
  · simp [mulN]
  · simp only [if_true, h.1.val k x hk.1 r c' hr hc, getD_eq hfk]; rfl

theorem GoodL.mulAdd {Fs : List (BM B R)} (h : GoodL B s0 C tag own Xs Fs s) {f : SBM → SBM → SBM → St R → St R} {n m l : Nat}
    (hf : MulOk B true f n m l) (k i j : Nat) {x y z : Reg} (hk : Only Xs k x)
    (hi : Xs[i]? = some y) (hj : Xs[j]? = some z) (hik : i ≠ k) (hjk : j ≠ k) {fk fi fj : BM B R}
    (hfk : Fs[k]? = some fk) (hfi : Fs[i]? = some fi) (hfj : Fs[j]? = some fj)
    (e1 : x.m.h = n) (e2 : x.m.w = m) (e3 : y.m.h = n) (e4 : y.m.w = l) (e5 : z.m.h = l) (e6 : z.m.w = m) :
    GoodL B s0 C tag own Xs (Fs.set k (fk + mulN l fi fj)) (f y.m z.m x.m s) := by
  have := h.mulCore hf hk hi hj hik hjk hfk hfi hfj e1 e2 e3 e4 e5 e6
  simpa using this

theorem GoodL.mulSet {Fs : List (BM B R)} (h : GoodL B s0 C tag own Xs Fs s) {f : SBM → SBM → SBM → St R → St R} {n m l : Nat}
    (hf : MulOk B false f n m l) (k i j : Nat) {x y z : Reg} (hk : Only Xs k x)
    (hi : Xs[i]? = some y) (hj : Xs[j]? = some z) (hik : i ≠ k) (hjk : j ≠ k) {fk fi fj : BM B R}
    (hfk : Fs[k]? = some fk) (hfi : Fs[i]? = some fi) (hfj : Fs[j]? = some fj)
    (e1 : x.m.h = n) (e2 : x.m.w = m) (e3 : y.m.h = n) (e4 : y.m.w = l) (e5 : z.m.h = l) (e6 : z.m.w = m) :
    GoodL B s0 C tag own Xs (Fs.set k (mulN l fi fj)) (f y.m z.m x.m s) := by
  have := h.mulCore hf hk hi hj hik hjk hfk hfi hfj e1 e2 e3 e4 e5 e6
  simpa using this

/-! ### Construction of registers -/

theorem GoodL.nil (hs : s0.Wf) (ht : ∀ i, s0.live i → (∀ r c, r < C.h → c < C.w → C.block r c ≠ i) → tag i = 0) :
    GoodL B s0 C tag [] [] [] s0 := ⟨Good.nil hs ht, rfl⟩

theorem GoodL.addCore {Fs : List (BM B R)} (h : GoodL B s0 C tag own Xs Fs s) {s' : St R} {q : SBM} (ha : Added s s' q) (k : Nat)
    (hw : ∀ r c, r < q.h → c < q.w → r < q.hs → c < q.ws → s.live (q.block r c) ∧ tag (q.block r c) = k)
    (hi : k ≠ 0 → ∀ r c r' c', r < q.h → c < q.w → r' < q.h → c' < q.w → r < q.hs → c < q.ws → r' < q.hs → c' < q.ws →
      q.block r c = q.block r' c' → r = r' ∧ c = c')
    (f : BM B R)
    (hf : ∀ r c, r < q.h → c < q.w → (if r < q.hs ∧ c < q.ws then V B s q r c else 0) = f r c) :
    ∃ tag', (∀ i, s.live i → tag' i = tag i) ∧
      GoodL B s0 C tag' (own ++ q.own) (Xs ++ [⟨q, k⟩]) (Fs ++ [f]) s' := by
  obtain ⟨tag', h1, h2⟩ := h.1.add ha k hw hi f hf
  refine ⟨tag', h1, h2.congr ?_, by simp [h.2]⟩
  intro j x hx r c hr hc
  rcases getElem?_snoc hx with hx | ⟨rfl, rfl⟩
  · have hj := getElem?_lt hx
    rw [Function.update_of_ne (Nat.ne_of_lt hj)]
    have hj' : j < Fs.length := by rw [h.2]; exact hj
    simp [List.getD_eq_getElem?_getD, List.getElem?_append_left hj']
  · rw [Function.update_self, ← h.2]
    simp

theorem GoodL.new {Fs : List (BM B R)} (h : GoodL B s0 C tag own Xs Fs s) (n w : Nat) (tr : Bool) (k : Nat) :
    ∃ q s' tag', newSbm s n w tr = (q, s') ∧ s'.blk = s.blk ∧ (q.h = n ∧ q.w = w ∧ q.tr = tr) ∧
      GoodL B s0 C tag' (own ++ q.own) (Xs ++ [⟨q, k⟩]) (Fs ++ [0]) s' := by
  have ha := newSbm_added h.1.wf n w tr
  obtain ⟨tag', _, h2⟩ := h.addCore ha k
    (fun r c _ _ h1 _ => absurd h1 (by simp [newSbm])) (fun _ r c _ _ _ _ _ _ h1 => absurd h1 (by simp [newSbm])) 0
    (fun r c _ _ => by simp [newSbm])
  exact ⟨_, _, tag', rfl, ha.blk, ⟨rfl, rfl, rfl⟩, h2⟩

/-- The part of a block matrix starting at (fr, fc), continued with zeros. -/
def window (B : Nat) (s : St R) (m : SBM) (fr fc : Nat) : BM B R :=
  fun r c => if r + fr < m.h ∧ c + fc < m.w then V B s m (r + fr) (c + fc) else 0

theorem GoodL.sub {Fs : List (BM B R)} (h : GoodL B s0 C tag own Xs Fs s) (hblk : s.blk = s0.blk) (m : SBM) (hm : Owned s0 m)
    (n w fr fc k : Nat)
    (ht : ∀ r c, r < n → c < w → r + fr < m.h → c + fc < m.w → tag (m.block (r + fr) (c + fc)) = k)
    (hi : k ≠ 0 → Inj m) :
    ∃ q s' tag', Mat.sub s m n w fr fc = (q, s') ∧ s'.blk = s0.blk ∧ (q.h = n ∧ q.w = w ∧ q.tr = m.tr) ∧
      (∀ r c, r < n → c < w → r + fr < m.h → c + fc < m.w → q.block r c = m.block (r + fr) (c + fc)) ∧
      (∀ i, s0.live i → tag' i = tag i) ∧
      GoodL B s0 C tag' (own ++ q.own) (Xs ++ [⟨q, k⟩]) (Fs ++ [window B s0 m fr fc]) s' := by
  have ha := sub_added h.1.wf m n w fr fc
  have hb : ∀ r c, r < n → c < w → r + fr < m.h → c + fc < m.w →
      (Mat.sub s m n w fr fc).1.block r c = m.block (r + fr) (c + fc) := by
    intro r c hr hc h1 h2
    exact sub_block h.1.wf m n w fr fc (by omega) (by omega)
  have hs0 : ∀ i, s0.live i → s.live i := fun i hi => (h.1.live i).2 (Or.inl hi)
  have hwin : ∀ r c, r < n → c < w → r < (Mat.sub s m n w fr fc).1.hs → c < (Mat.sub s m n w fr fc).1.ws →
      r + fr < m.h ∧ c + fc < m.w := by
    intro r c hr hc h1 h2
    have h1' : r < min (m.h - fr) n := h1
    have h2' : c < min (m.w - fc) w := h2
    omega
  obtain ⟨tag', h1, h2⟩ := h.addCore ha k
    (fun r c hr hc a b => by
      obtain ⟨x, y⟩ := hwin r c hr hc a b
      rw [hb r c hr hc x y]
      exact ⟨hs0 _ (hm _ _ x y), ht r c hr hc x y⟩)
    (fun hk r c r' c' hr hc hr' hc' a b a' b' e => by
      obtain ⟨x, y⟩ := hwin r c hr hc a b
      obtain ⟨x', y'⟩ := hwin r' c' hr' hc' a' b'
      rw [hb r c hr hc x y, hb r' c' hr' hc' x' y'] at e
      have := hi hk _ _ _ _ x y x' y' e
      omega)
    (window B s0 m fr fc)
    (fun r c hr hc => by
      have hr' : r < n := hr
      have hc' : c < w := hc
      have e : (r < (Mat.sub s m n w fr fc).1.hs ∧ c < (Mat.sub s m n w fr fc).1.ws) ↔ (r + fr < m.h ∧ c + fc < m.w) := by
        have e1 : (Mat.sub s m n w fr fc).1.hs = min (m.h - fr) n := rfl
        have e2 : (Mat.sub s m n w fr fc).1.ws = min (m.w - fc) w := rfl
        rw [e1, e2]; omega
      unfold window
      by_cases hc2 : r + fr < m.h ∧ c + fc < m.w
      · rw [if_pos (e.2 hc2), if_pos hc2]
        unfold V
        rw [hb r c hr' hc' hc2.1 hc2.2, hblk]; rfl
      · rw [if_neg (fun x => hc2 (e.1 x)), if_neg hc2])
  exact ⟨_, _, tag', rfl, ha.blk.trans hblk, ⟨rfl, rfl, rfl⟩, hb, fun i hi => h1 i (hs0 i hi), h2⟩

end Stxxl.Mat
