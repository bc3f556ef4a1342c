import Verif.Matrix.ApiVars
import Mathlib.Data.Matrix.Basic

/-!
# What the operations do with one block matrix
-/

namespace Stxxl.Mat

variable {R : Type} [CommRing R] {B : Nat}

/-- From `s` to `s'` only the blocks of `o` changed and `o` holds `v` now. -/
structure Eff (B : Nat) (s s' : St R) (o : SBM) (v : Val R) : Prop where
  wf : s'.Wf
  live : ∀ i, s'.live i ↔ s.live i
  frame : ∀ i, s.live i → ¬ HasBlock o i → s'.blk i = s.blk i
  ok : ObjOk B s' o v

variable {s s' : St R} {o A D : SBM} {v va vb : Val R}

theorem Eff.mk' (h : ObjOk B s o v) {f : Nat → Nat → R} (hwf : s'.Wf) (hl : ∀ i, s'.live i ↔ s.live i)
    (hfr : ∀ i, (∀ r c, r < o.h → c < o.w → o.block r c ≠ i) → s'.blk i = s.blk i)
    (hv : ∀ r c, r < o.h → c < o.w → ∀ i j : Fin B, V B s' o r c i j = if r * B + i < v.h ∧ c * B + j < v.w then f (r * B + i) (c * B + j) else 0) :
    Eff B s s' o ⟨v.h, v.w, f⟩ where
  wf := hwf
  live := hl
  frame := fun i _ hn => hfr i (fun r c hr hc e => hn ⟨r, c, hr, hc, e⟩)
  ok := ⟨h.h, h.w, h.hs, h.ws, fun r c hr hc => (hl _).2 (h.own r c hr hc), h.inj, h.len, hv⟩

theorem op3_eff (op : Op R) (h0 : op.f3 0 0 = 0) (hs : s.Wf) (ho : ObjOk B s o v) (hA : ObjOk B s A va) (hD : ObjOk B s D vb)
    (e1 : va.h = v.h) (e2 : va.w = v.w) (e3 : vb.h = v.h) (e4 : vb.w = v.w)
    (dA : ∀ i, HasBlock A i → ¬ HasBlock o i) (dD : ∀ i, HasBlock D i → ¬ HasBlock o i) :
    Eff B s (elementOp3 B op o A D s) o ⟨v.h, v.w, fun i j => op.f3 (va.f i j) (vb.f i j)⟩ := by
  have eA1 : A.h = o.h := by rw [hA.h, ho.h, e1]
  have eA2 : A.w = o.w := by rw [hA.w, ho.w, e2]
  have eD1 : D.h = o.h := by rw [hD.h, ho.h, e3]
  have eD2 : D.w = o.w := by rw [hD.w, ho.w, e4]
  obtain ⟨a1, a2, a3, a4⟩ := forCells_spec ho.inj
    (fun r c b => blockOp3 B op o.tr A.tr D.tr (b (A.block r c)) (b (D.block r c))) (by
      intro r c b b' hr hc _ hb
      rw [hb (A.block r c) (fun r' c' hr' hc' e => dA _ ⟨r, c, by omega, by omega, rfl⟩ ⟨r', c', hr', hc', e⟩),
        hb (D.block r c) (fun r' c' hr' hc' e => dD _ ⟨r, c, by omega, by omega, rfl⟩ ⟨r', c', hr', hc', e⟩)])
    hs ho.own (cellOp3 B op o.tr A.tr D.tr o A D) (fun _ _ _ => rfl)
  refine Eff.mk' ho a1 a2 a4 ?_
  intro r c hr hc i j
  have hV : V B (elementOp3 B op o A D s) o r c = op.m3 (V B s A r c) (V B s D r c) := by
    show vl B o.tr ((forCells o.h o.w _ s).blk _) = _
    rw [a3 r c hr hc]
    exact vl_blockOp3 ..
  rw [hV]
  show op.f3 (V B s A r c i j) (V B s D r c i j) = _
  rw [hA.val r c (by omega) (by omega), hD.val r c (by omega) (by omega), e1, e2, e3, e4]
  split
  · rfl
  · exact h0

theorem op2_eff (op : Op R) (h0 : op.f2 0 0 = 0) (hop : ∀ x : R, op.f2 x 0 = x) (hs : s.Wf) (ho : ObjOk B s o v) (hA : ObjOk B s A va)
    (e1 : va.h = v.h) (e2 : va.w = v.w) (dA : (∀ i, HasBlock A i → ¬ HasBlock o i) ∨ A = o) :
    Eff B s (elementOp2 B op o A s) o ⟨v.h, v.w, fun i j => op.f2 (v.f i j) (va.f i j)⟩ := by
  have eA1 : A.h = o.h := by rw [hA.h, ho.h, e1]
  have eA2 : A.w = o.w := by rw [hA.w, ho.w, e2]
  obtain ⟨a1, a2, a3, a4⟩ := forCells_spec ho.inj
    (fun r c b => blockOp2 B op o.tr A.tr (b (o.block r c)) (b (A.block r c))) (by
      intro r c b b' hr hc hoo hb
      rcases dA with dA | dA
      · rw [hoo, hb (A.block r c) (fun r' c' hr' hc' e => dA _ ⟨r, c, by omega, by omega, rfl⟩ ⟨r', c', hr', hc', e⟩)]
      · rw [dA, hoo])
    hs ho.own (cellOp2 B op o.tr A.tr o A) (fun _ _ _ => rfl)
  refine Eff.mk' ho a1 a2 a4 ?_
  intro r c hr hc i j
  have hV : V B (elementOp2 B op o A s) o r c = op.m2 (V B s o r c) (V B s A r c) := by
    show vl B o.tr ((forCells o.h o.w _ s).blk _) = _
    rw [a3 r c hr hc]
    exact vl_blockOp2 _ _ _ _ _ _ (fun _ => hop)
  rw [hV]
  show op.f2 (V B s o r c i j) (V B s A r c i j) = _
  rw [hA.val r c (by omega) (by omega), ho.val r c hr hc, e1, e2]
  split
  · rfl
  · exact h0

theorem scal2_eff (k : R) (hs : s.Wf) (ho : ObjOk B s o v) (hz : v.f = fun _ _ => 0) (hA : ObjOk B s A va) (e1 : va.h = v.h) (e2 : va.w = v.w)
    (dA : ∀ i, HasBlock A i → ¬ HasBlock o i) :
    Eff B s (elementOp2 B (.scal k) o A s) o ⟨v.h, v.w, fun i j => va.f i j * k⟩ := by
  have eA1 : A.h = o.h := by rw [hA.h, ho.h, e1]
  have eA2 : A.w = o.w := by rw [hA.w, ho.w, e2]
  obtain ⟨a1, a2, a3, a4⟩ := forCells_spec ho.inj
    (fun r c b => blockOp2 B (.scal k) o.tr A.tr (b (o.block r c)) (b (A.block r c))) (by
      intro r c b b' hr hc hoo hb
      rw [hoo, hb (A.block r c) (fun r' c' hr' hc' e => dA _ ⟨r, c, by omega, by omega, rfl⟩ ⟨r', c', hr', hc', e⟩)])
    hs ho.own (cellOp2 B (.scal k) o.tr A.tr o A) (fun _ _ _ => rfl)
  refine Eff.mk' ho a1 a2 a4 ?_
  intro r c hr hc i j
  have hV : V B (elementOp2 B (.scal k) o A s) o r c i j = V B s A r c i j * k := by
    show vl B o.tr ((forCells o.h o.w _ s).blk _) i j = _
    rw [a3 r c hr hc]
    cases ha : s.blk (A.block r c) with
    | none =>
      have h1 := ho.val r c hr hc i j
      rw [hz] at h1
      simp only [ite_self] at h1
      unfold V at h1
      simp only [blockOp2, V, ha, vl_none]
      rw [h1]; simp
    | some a =>
      have := congrFun (congrFun (vl_blockOp2 B (.scal k) o.tr A.tr (s.blk (o.block r c)) (some a) (by simp)) i) j
      refine this.trans ?_
      simp [Op.m2, Op.f2, V, ha]
  rw [hV, hA.val r c (by omega) (by omega), e1, e2]
  split
  · rfl
  · simp

theorem scal1_eff (k : R) (hs : s.Wf) (ho : ObjOk B s o v) :
    Eff B s (elementOp1 B (.scal k) o s) o ⟨v.h, v.w, fun i j => v.f i j * k⟩ := by
  obtain ⟨a1, a2, a3, a4⟩ := forCells_spec ho.inj (fun r c b => blockOp1 B (.scal k) (b (o.block r c))) (by
      intro r c b b' hr hc hoo hb
      simp only [hoo])
    hs ho.own (cellOp1 B (.scal k) o) (fun _ _ _ => rfl)
  refine Eff.mk' ho a1 a2 a4 ?_
  intro r c hr hc i j
  have hV : V B (elementOp1 B (.scal k) o s) o r c = (Op.scal k).m1 (V B s o r c) := by
    show vl B o.tr ((forCells o.h o.w _ s).blk _) = _
    rw [a3 r c hr hc]
    exact vl_blockOp1 ..
  rw [hV]
  show V B s o r c i j * k = _
  rw [ho.val r c hr hc]
  split
  · rfl
  · simp

theorem setZero_eff (hs : s.Wf) (ho : ObjOk B s o v) : Eff B s (setZero o s) o ⟨v.h, v.w, fun _ _ => 0⟩ := by
  obtain ⟨a1, a2, a3, a4⟩ := setZero_spec (B := B) ho.len hs ho.own
  refine Eff.mk' ho a1 a2 a3 ?_
  intro r c hr hc i j
  rw [a4 r c hr hc]; simp

/-! ### Elements -/

theorem elem_pos {h r : Nat} (hr : r < h) (hB : 0 < B) : r / B < divCeil h B ∧ r % B < B ∧ r / B * B + r % B = r := by
  have h2 : r % B < B := Nat.mod_lt _ hB
  have h3 : r / B * B + r % B = r := Nat.div_add_mod' r B
  exact ⟨divCeil_lt hB h2 (by omega), h2, h3⟩

theorem idx_inj {t : Bool} {i j i' j' : Nat} (hi : i < B) (hj : j < B) (hi' : i' < B) (hj' : j' < B) (e : idx B t i j = idx B t i' j') :
    i = i' ∧ j = j' := by
  have hB : 0 < B := by omega
  have key : ∀ a b a' b', b < B → b' < B → a * B + b = a' * B + b' → a = a' ∧ b = b' := by
    intro a b a' b' hb hb' e
    have h1 : a = a' := by
      have := congrArg (· / B) e
      simpa only [pos_div hb, pos_div hb'] using this
    subst h1; exact ⟨rfl, by omega⟩
  cases t
  · simp only [idx, Bool.false_eq_true, if_false] at e
    exact key _ _ _ _ hj hj' e
  · simp only [idx, if_true] at e
    obtain ⟨a, b⟩ := key j i j' i' hi hi' (by omega)
    exact ⟨b, a⟩

theorem vl_acquired (t : Bool) (i : Nat) : vl B t (some (acquired s i)) = vl B t (s.blk i) := by
  unfold acquired
  cases s.blk i with
  | none => rfl
  | some d => rfl

theorem read_val (hB : 0 < B) (ho : ObjOk B s o v) {r c : Nat} (hr : r < v.h) (hc : c < v.w) : (readElem B o r c s).1 = v.f r c := by
  obtain ⟨r1, r2, r3⟩ := elem_pos hr hB
  obtain ⟨c1, c2, c3⟩ := elem_pos hc hB
  have := ho.val (r / B) (c / B) (ho.h ▸ r1) (ho.w ▸ c1) ⟨r % B, r2⟩ ⟨c % B, c2⟩
  simp only [r3, c3, if_pos (And.intro hr hc)] at this
  rw [← this]
  unfold V
  rw [← vl_acquired]
  rfl

theorem read_eff (hB : 0 < B) (hs : s.Wf) (ho : ObjOk B s o v) {r c : Nat} (hr : r < v.h) (hc : c < v.w) : Eff B s (readElem B o r c s).2 o v := by
  obtain ⟨r1, r2, r3⟩ := elem_pos hr hB
  obtain ⟨c1, c2, c3⟩ := elem_pos hc hB
  have hl := ho.own (r / B) (c / B) (ho.h ▸ r1) (ho.w ▸ c1)
  have := Eff.mk' (s' := (readElem B o r c s).2) ho (f := v.f) (set_wf hs hl) (fun _ => Iff.rfl) (by
    intro i hi
    have := hi (r / B) (c / B) (ho.h ▸ r1) (ho.w ▸ c1)
    exact if_neg (fun e => this e.symm)) (by
    intro r' c' hr' hc' i j
    rw [← ho.val r' c' hr' hc' i j]
    unfold V
    simp only [readElem, St.set]
    split
    · rename_i e
      rw [e, vl_acquired]
    · rfl)
  exact this

theorem write_eff (hB : 0 < B) (hs : s.Wf) (ho : ObjOk B s o v) {r c : Nat} (hr : r < v.h) (hc : c < v.w) (e : R) :
    Eff B s (writeElem B o r c e s) o { v with f := fun i j => if i = r ∧ j = c then e else v.f i j } := by
  obtain ⟨r1, r2, r3⟩ := elem_pos hr hB
  obtain ⟨c1, c2, c3⟩ := elem_pos hc hB
  have r1' : r / B < o.h := ho.h ▸ r1
  have c1' : c / B < o.w := ho.w ▸ c1
  have hl := ho.own (r / B) (c / B) r1' c1'
  refine Eff.mk' ho (set_wf hs hl) (fun _ => Iff.rfl) (by
    intro i hi
    have := hi (r / B) (c / B) r1' c1'
    exact if_neg (fun e => this e.symm)) ?_
  intro r' c' hr' hc' i j
  have hold := ho.val r' c' hr' hc' i j
  by_cases hb : o.block r' c' = elemBlock B o r c
  · obtain ⟨e1, e2⟩ := ho.inj _ _ _ _ hr' hc' r1' c1' hb
    subst e1 e2
    have hV : V B (writeElem B o r c e s) o (r / B) (c / B) i j =
        if idx B o.tr i j = elemIdx B o r c then e else V B s o (r / B) (c / B) i j := by
      have e0 : V B s o (r / B) (c / B) = toM B o.tr (acquired s (elemBlock B o r c)) := (vl_acquired (s := s) o.tr (o.block (r / B) (c / B))).symm
      rw [e0]
      have e1 : (writeElem B o r c e s).blk (o.block (r / B) (c / B)) = some fun k => if k = elemIdx B o r c then e else
        acquired s (elemBlock B o r c) k := if_pos rfl
      unfold V
      rw [e1]
      rfl
    rw [hV]
    by_cases hi : idx B o.tr i j = elemIdx B o r c
    · obtain ⟨e1, e2⟩ := idx_inj i.2 j.2 r2 c2 hi
      rw [if_pos hi, e1, e2, r3, c3, if_pos ⟨hr, hc⟩, if_pos ⟨rfl, rfl⟩]
    · rw [if_neg hi, hold]
      split
      · rw [if_neg]
        rintro ⟨e1, e2⟩
        apply hi
        have e1' : (i : Nat) = r % B := by omega
        have e2' : (j : Nat) = c % B := by omega
        simp only [elemIdx, e1', e2']
      · rfl
  · have hV : V B (writeElem B o r c e s) o r' c' = V B s o r' c' := by
      unfold V
      simp only [writeElem, St.set]; rw [if_neg hb]
    rw [hV, hold]
    split
    · rw [if_neg]
      rintro ⟨e1, e2⟩
      apply hb
      unfold elemBlock
      rw [← e1, ← e2, pos_div i.2, pos_div j.2]
    · rfl

/-! ### Transposition -/

theorem transpose_block {m : SBM} {r c : Nat} (hr : r < m.w) (hc : c < m.h) : m.transpose.block r c = m.block c r := by
  unfold SBM.transpose
  simp only [SBM.block]
  have : r * m.h + c < m.w * m.h := pos_lt hr hc
  rw [List.getD_eq_getElem?_getD, List.getElem?_map, List.getElem?_range this]
  simp [pos_div hc, pos_mod hc]

theorem transpose_has {m : SBM} (i : Nat) : HasBlock m.transpose i ↔ HasBlock m i := by
  constructor
  · rintro ⟨r, c, hr, hc, e⟩
    exact ⟨c, r, hc, hr, by rw [← transpose_block hr hc]; exact e⟩
  · rintro ⟨r, c, hr, hc, e⟩
    exact ⟨c, r, hc, hr, by rw [transpose_block hc hr]; exact e⟩

theorem transpose_ok (ho : ObjOk B s o v) : ObjOk B s o.transpose ⟨v.w, v.h, fun i j => v.f j i⟩ := by
  refine ⟨ho.w, ho.h, ho.ws, ho.hs, ?_, ?_, ?_, ?_⟩
  · intro r c hr hc
    rw [transpose_block hr hc]; exact ho.own c r hc hr
  · intro r c r' c' hr hc hr' hc' e
    rw [transpose_block hr hc, transpose_block hr' hc'] at e
    obtain ⟨e1, e2⟩ := ho.inj _ _ _ _ hc hr hc' hr' e
    exact ⟨e2, e1⟩
  · simp [SBM.transpose]
  · intro r c hr hc i j
    have := ho.val c r hc hr j i
    have hV : V B s o.transpose r c i j = V B s o c r j i := by
      unfold V
      rw [transpose_block hr hc]
      cases s.blk (o.block c r) with
      | none => rfl
      | some d =>
        show d (idx B (!o.tr) i j) = d (idx B o.tr j i)
        cases o.tr <;> simp [idx_swap]
    rw [hV, this]
    simp only [and_comm]

/-! ### Multiplication -/

theorem sum_blocks (n : Nat) (g : Nat → R) : ∑ t ∈ Finset.range n, ∑ k : Fin B, g (t * B + k) = ∑ u ∈ Finset.range (n * B), g u := by
  induction n with
  | zero => simp
  | succ n ih =>
    rw [Finset.sum_range_succ, ih, Nat.add_mul, Nat.one_mul, Finset.sum_range_add]
    congr 1
    exact Fin.sum_univ_eq_sum_range (fun k => g (n * B + k)) B

theorem list_sum_range (n : Nat) (g : Nat → R) : ((List.range n).map g).sum = ∑ t ∈ Finset.range n, g t := by
  induction n with
  | zero => simp
  | succ n ih => rw [List.range_succ, List.map_append, List.sum_append, ih, Finset.sum_range_succ]; simp

theorem le_divCeil (hB : 0 < B) (n : Nat) : n ≤ divCeil n B * B := by
  unfold divCeil
  have := Nat.div_add_mod' n B
  have := Nat.mod_lt n hB
  split
  · rw [Nat.add_zero]; omega
  · rw [Nat.add_mul]; omega

theorem mul_eff (hB : 0 < B) {acc : Bool} {f : SBM → SBM → SBM → St R → St R} (hf : ∀ n m l, n ≤ o.h → MulOk B acc f n m l)
    (hs : s.Wf) (ho : ObjOk B s o v) (hz : v.f = fun _ _ => 0) (hA : ObjOk B s A va) (hD : ObjOk B s D vb)
    (e1 : va.h = v.h) (e2 : vb.w = v.w) (e3 : va.w = vb.h)
    (dA : ∀ i, HasBlock A i → ¬ HasBlock o i) (dD : ∀ i, HasBlock D i → ¬ HasBlock o i) :
    Eff B s (f A D o s) o ⟨v.h, v.w, (va.mul vb).f⟩ := by
  have eA : A.h = o.h := by rw [hA.h, ho.h, e1]
  have eD : D.w = o.w := by rw [hD.w, ho.w, e2]
  have eAD : D.h = A.w := by rw [hA.w, hD.h, e3]
  obtain ⟨a1, a2, a3, a4⟩ := hf o.h o.w A.w (Nat.le_refl _) s A D o rfl rfl eA rfl eAD eD hs hA.own hD.own ho.own ho.inj ho.len
    (fun r c r' c' hr hc hr' hc' e => dA _ ⟨r', c', hr', hc', rfl⟩ ⟨r, c, hr, hc, e⟩)
    (fun r c r' c' hr hc hr' hc' e => dD _ ⟨r', c', hr', hc', rfl⟩ ⟨r, c, hr, hc, e⟩)
  refine ⟨a1, a2, fun i hi hn => a3 i hi (fun r c hr hc e => hn ⟨r, c, hr, hc, e⟩), ho.h, ho.w, ho.hs, ho.ws,
    fun r c hr hc => (a2 _).2 (ho.own r c hr hc), ho.inj, ho.len, ?_⟩
  intro r c hr hc i j
  have h0 : (if acc then V B s o r c else 0) = 0 := by
    cases acc
    · rfl
    · rw [if_pos rfl]
      ext i j
      rw [ho.val r c hr hc i j, hz]; simp
  rw [a4 r c hr hc, h0, zero_add, Matrix.sum_apply]
  have hterm : ∀ t ∈ Finset.range A.w, (V B s A r t * V B s D t c) i j = ∑ k : Fin B,
      (fun u => if r * B + i < v.h ∧ c * B + j < v.w then (if u < va.w then va.f (r * B + i) u * vb.f u (c * B + j) else 0) else 0) (t * B + k) := by
    intro t ht
    have ht := Finset.mem_range.1 ht
    rw [Matrix.mul_apply]
    refine Finset.sum_congr rfl fun k _ => ?_
    rw [hA.val r t (by omega) ht, hD.val t c (by omega) (by omega), e1, e2, ← e3]
    by_cases c1 : r * B + (i : Nat) < v.h <;> by_cases c2 : c * B + (j : Nat) < v.w <;> by_cases c3 : t * B + (k : Nat) < va.w <;> simp [c1, c2, c3]
  rw [Finset.sum_congr rfl hterm, sum_blocks (B := B) A.w (fun u => if r * B + (i : Nat) < v.h ∧ c * B + (j : Nat) < v.w then
    (if u < va.w then va.f (r * B + i) u * vb.f u (c * B + j) else 0) else 0)]
  by_cases hin : r * B + (i : Nat) < v.h ∧ c * B + (j : Nat) < v.w
  · simp only [if_pos hin, Val.mul]
    rw [list_sum_range]
    have hle : va.w ≤ A.w * B := by rw [hA.w]; exact le_divCeil hB _
    rw [← Finset.sum_subset (Finset.range_subset_range.2 hle)]
    · refine Finset.sum_congr rfl fun u hu => ?_
      rw [if_pos (Finset.mem_range.1 hu)]
    · intro u _ hu
      rw [if_neg (fun h => hu (Finset.mem_range.2 h))]
  · simp only [if_neg hin, Finset.sum_const_zero]

theorem mulAlg_eff (alg : Alg) (hB : 0 < B) (hs : s.Wf) (ho : ObjOk B s o v) (hz : v.f = fun _ _ => 0) (hA : ObjOk B s A va) (hD : ObjOk B s D vb)
    (e1 : va.h = v.h) (e2 : vb.w = v.w) (e3 : va.w = vb.h)
    (dA : ∀ i, HasBlock A i → ¬ HasBlock o i) (dD : ∀ i, HasBlock D i → ¬ HasBlock o i) :
    Eff B s (mulAlg B alg A D o s) o ⟨v.h, v.w, (va.mul vb).f⟩ := by
  cases alg
  · exact mul_eff (f := naiveMul B) hB (fun n m l _ => naive_ok n m l) hs ho hz hA hD e1 e2 e3 dA dD
  · exact mul_eff (f := recursiveMul B) hB (fun n m l _ => recursiveMul_ok n m l) hs ho hz hA hD e1 e2 e3 dA dD
  · exact mul_eff (f := swAdd B (o.h + 1)) hB (fun n m l h => swAdd_ok (o.h + 1) n m l (by omega)) hs ho hz hA hD e1 e2 e3 dA dD
  · exact mul_eff (f := swMul B (o.h + 1)) hB (fun n m l h => swMul_ok (o.h + 1) n m l (by omega)) hs ho hz hA hD e1 e2 e3 dA dD
  · exact mul_eff (f := swInter B (o.h + 1)) hB (fun n m l h => swInter_ok (o.h + 1) n m l (by omega)) hs ho hz hA hD e1 e2 e3 dA dD

end Stxxl.Mat
