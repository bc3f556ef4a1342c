import Verif.Matrix.VecTop

/-!
# Algorithm 6 does not look at the right factor
-/

namespace Stxxl.Mat

variable {R : Type} [CommRing R] {B : Nat}

/-- `fsw A B C` computes the new contents of the blocks of `C` from the contents of the blocks of its three arguments. -/
def Local (fsw : SBM → SBM → SBM → St R → St R) : Prop :=
  ∀ (X Y Z : SBM) (s s' : St R), s.next = s'.next → s.free = s'.free →
    (∀ i, HasBlock X i ∨ HasBlock Y i ∨ HasBlock Z i → s.blk i = s'.blk i) → ∀ i, HasBlock Z i → (fsw X Y Z s).blk i = (fsw X Y Z s').blk i

theorem allocCells_congr (l : List (Option Nat)) : ∀ {s s' : St R}, s.next = s'.next → s.free = s'.free →
    (allocCells l s).1 = (allocCells l s').1 ∧ (allocCells l s).2.next = (allocCells l s').2.next ∧ (allocCells l s).2.free = (allocCells l s').2.free := by
  induction l with
  | nil => intro s s' h1 h2; exact ⟨rfl, h1, h2⟩
  | cons o l ih =>
    intro s s' h1 h2
    cases o with
    | some i =>
      obtain ⟨a, b, c⟩ := ih h1 h2
      exact ⟨by simp only [allocCells, a], b, c⟩
    | none =>
      have e : s.alloc.1 = s'.alloc.1 ∧ s.alloc.2.next = s'.alloc.2.next ∧ s.alloc.2.free = s'.alloc.2.free := by
        unfold St.alloc
        rw [h2]
        cases s'.free with
        | nil => exact ⟨h1, by simp [h1], by simp [h2]⟩
        | cons i r => exact ⟨rfl, h1, rfl⟩
      obtain ⟨a, b, c⟩ := ih e.2.1 e.2.2
      exact ⟨by simp only [allocCells, a, e.1], b, c⟩

theorem sub_congr {s s' : St R} (h1 : s.next = s'.next) (h2 : s.free = s'.free) (m : SBM) (h w fr fc : Nat) :
    (sub s m h w fr fc).1 = (sub s' m h w fr fc).1 ∧ (sub s m h w fr fc).2.next = (sub s' m h w fr fc).2.next ∧
      (sub s m h w fr fc).2.free = (sub s' m h w fr fc).2.free := by
  obtain ⟨a, b, c⟩ := allocCells_congr (subCells m h w fr fc) h1 h2
  exact ⟨by simp only [sub, a], b, c⟩

theorem releases_blk (l : List Nat) : ∀ (s : St R) (j : Nat), j ∉ l → (l.foldl St.release s).blk j = s.blk j := by
  induction l with
  | nil => intro s j _; rfl
  | cons i l ih =>
    intro s j hj
    rw [List.mem_cons, not_or] at hj
    rw [List.foldl_cons, ih _ j hj.2]
    exact if_neg hj.1

theorem le_roundUp (n p : Nat) : n ≤ roundUp n p := le_divCeil (Nat.two_pow_pos p) n

/-- The blocks of a padded matrix are blocks of the matrix or new ones. -/
theorem padded_has {s : St R} (hs : s.Wf) {m : SBM} {h w i : Nat} (hi : HasBlock (sub s m h w 0 0).1 i) : HasBlock m i ∨ ¬ s.live i := by
  obtain ⟨r, c, hr, hc, e⟩ := hi
  by_cases hin : r < min (m.h - 0) h ∧ c < min (m.w - 0) w
  · rw [sub_block hs m h w 0 0 hin.1 hin.2] at e
    exact Or.inl ⟨r, c, by omega, by omega, e⟩
  · right
    exact (sub_added hs m h w 0 0).fresh i (mem_own.2 ⟨r, c, hr, hc, hin, e⟩)

theorem has_padded {s : St R} (hs : s.Wf) {m : SBM} {h w r c : Nat} (hh : m.h ≤ h) (hw : m.w ≤ w) (hr : r < m.h) (hc : c < m.w) :
    HasBlock (sub s m h w 0 0).1 (m.block r c) :=
  ⟨r, c, Nat.lt_of_lt_of_le hr hh, Nat.lt_of_lt_of_le hc hw, sub_block hs m h w 0 0 (by omega) (by omega)⟩

theorem grained_ignores {fsw : SBM → SBM → SBM → St R → St R} (hf : Local fsw) {A D C : SBM} {s s' : St R} (hs : s.Wf) (hs' : s'.Wf)
    (h1 : s.next = s'.next) (h2 : s.free = s'.free) (hb : ∀ i, ¬ HasBlock D i → s.blk i = s'.blk i)
    (hD : Owned s D) (hC : Owned s C) (dA : ∀ i, HasBlock A i → ¬ HasBlock D i) (dC : ∀ i, HasBlock C i → ¬ HasBlock D i)
    (hsz : 5 ≤ min A.w (min C.w C.h)) {r c : Nat} (hr : r < C.h) (hc : c < C.w) :
    V B (grained B fsw A D C s) C r c = V B (grained B fsw A D C s') C r c := by
  have hlv : ilog2Ceil (min A.w (min C.w C.h)) > 2 := by
    show 2 < Nat.clog 2 _
    rw [Nat.lt_clog_iff_pow_lt (by omega)]; omega
  unfold grained
  simp only [if_pos hlv]
  generalize min (ilog2Ceil (min A.w (min C.w C.h))) 3 = lv
  obtain ⟨a1, a2, a3⟩ := sub_congr h1 h2 A (roundUp A.h lv) (roundUp A.w lv) 0 0
  obtain ⟨b1, b2, b3⟩ := sub_congr a2 a3 D (roundUp D.h lv) (roundUp D.w lv) 0 0
  obtain ⟨c1, c2, c3⟩ := sub_congr b2 b3 C (roundUp C.h lv) (roundUp C.w lv) 0 0
  have A1 := sub_added hs A (roundUp A.h lv) (roundUp A.w lv) 0 0
  have D1 := sub_added A1.wf D (roundUp D.h lv) (roundUp D.w lv) 0 0
  have C1 := sub_added D1.wf C (roundUp C.h lv) (roundUp C.w lv) 0 0
  have A2 := sub_added hs' A (roundUp A.h lv) (roundUp A.w lv) 0 0
  have D2 := sub_added A2.wf D (roundUp D.h lv) (roundUp D.w lv) 0 0
  have C2 := sub_added D2.wf C (roundUp C.h lv) (roundUp C.w lv) 0 0
  have hlive : s.live (C.block r c) := hC r c hr hc
  have hliveD : ∀ i, HasBlock D i → s.live i := by rintro i ⟨r, c, hr, hc, rfl⟩; exact hD r c hr hc
  rw [← a1, ← b1, ← c1]
  simp only [V]
  rw [destroyAll_eq, destroyAll_eq]
  have hno : C.block r c ∉ ([(sub (sub (sub s A (roundUp A.h lv) (roundUp A.w lv) 0 0).2 D (roundUp D.h lv) (roundUp D.w lv) 0 0).2 C
      (roundUp C.h lv) (roundUp C.w lv) 0 0).1, (sub (sub s A (roundUp A.h lv) (roundUp A.w lv) 0 0).2 D (roundUp D.h lv) (roundUp D.w lv) 0 0).1,
      (sub s A (roundUp A.h lv) (roundUp A.w lv) 0 0).1] : List SBM).flatMap SBM.own := by
    simp only [List.flatMap_cons, List.flatMap_nil, List.append_nil, List.mem_append, not_or]
    exact ⟨fun h => C1.fresh _ h ((D1.live _).2 (Or.inl ((A1.live _).2 (Or.inl hlive)))),
      fun h => D1.fresh _ h ((A1.live _).2 (Or.inl hlive)), fun h => A1.fresh _ h hlive⟩
  rw [releases_blk _ _ _ hno, releases_blk _ _ _ hno]
  congr 1
  refine hf _ _ _ _ _ c2 c3 ?_ _ (has_padded D1.wf (le_roundUp _ _) (le_roundUp _ _) hr hc)
  intro i hi
  rw [C1.blk, D1.blk, A1.blk, C2.blk, D2.blk, A2.blk]
  refine hb i ?_
  have hA : HasBlock (sub s A (roundUp A.h lv) (roundUp A.w lv) 0 0).1 i → ¬ HasBlock D i := by
    intro h hd
    rcases padded_has hs h with h | h
    · exact dA i h hd
    · exact h (hliveD i hd)
  rcases hi with hi | hi | hi
  · exact hA hi
  · exact hA hi
  · intro hd
    rcases padded_has D1.wf hi with h | h
    · exact dC i h hd
    · exact h ((D1.live _).2 (Or.inl ((A1.live _).2 (Or.inl (hliveD i hd)))))

/-! ### A counterexample -/

/-- A 5 × 5 block matrix with the blocks `base, …, base + 24`. -/
def cxMat (base : Nat) : SBM := ⟨5, 5, 0, 0, (List.range 25).map (base + ·), false⟩

theorem cxMat_block {base r c : Nat} (hr : r < 5) (hc : c < 5) : (cxMat base).block r c = base + (r * 5 + c) := by
  have : r * 5 + c < 25 := by omega
  simp [cxMat, SBM.block, List.getD, List.getElem?_map, List.getElem?_range this]

/-- The blocks 0 (of the left factor) and 25 (of the right factor, if `d`) have a one in the corner. -/
def cxSt (R : Type) [CommRing R] (d : Bool) : St R :=
  { blk := fun i => if i = 0 ∨ (d = true ∧ i = 25) then some fun k => if k = 0 then 1 else 0 else none, next := 75, free := [] }

theorem cxSt_wf (d : Bool) : (cxSt R d).Wf :=
  ⟨by simp [cxSt], by simp [cxSt], fun i hi => if_neg (by simp only [St.live, cxSt, List.not_mem_nil, not_false_eq_true, and_true] at hi; omega)⟩

theorem cx_owned (d : Bool) {base : Nat} (h : base ≤ 50) : Owned (cxSt R d) (cxMat base) := by
  intro r c hr hc
  have hr : r < 5 := hr
  have hc : c < 5 := hc
  rw [cxMat_block hr hc]
  simp only [St.live, cxSt, List.not_mem_nil, not_false_eq_true, and_true]; omega

theorem cx_has {base i : Nat} (h : HasBlock (cxMat base) i) : base ≤ i ∧ i < base + 25 := by
  obtain ⟨r, c, hr, hc, e⟩ := h
  have hr : r < 5 := hr
  have hc : c < 5 := hc
  rw [cxMat_block hr hc] at e
  omega

theorem grained_wrong [Nontrivial R] (hB : 0 < B) {fsw : SBM → SBM → SBM → St R → St R} (hf : Local fsw) : ¬ MulOk B true (grained B fsw) 5 5 5 := by
  intro h
  have dis : ∀ a b : Nat, a + 25 ≤ b ∨ b + 25 ≤ a → ∀ r c r' c', r < (cxMat a).h → c < (cxMat a).w → r' < (cxMat b).h → c' < (cxMat b).w →
      (cxMat a).block r c ≠ (cxMat b).block r' c' := by
    intro a b hab r c r' c' hr hc hr' hc' e
    have h1 := cx_has (base := a) ⟨r, c, hr, hc, rfl⟩
    have h2 := cx_has (base := b) ⟨r', c', hr', hc', e.symm⟩
    omega
  have hinj : Inj (cxMat 50) := by
    intro r c r' c' hr hc hr' hc' e
    have hr : r < 5 := hr
    have hc : c < 5 := hc
    have hr' : r' < 5 := hr'
    have hc' : c' < 5 := hc'
    rw [cxMat_block hr hc, cxMat_block hr' hc'] at e
    omega
  have key : ∀ d, V B (grained B fsw (cxMat 0) (cxMat 25) (cxMat 50) (cxSt R d)) (cxMat 50) 0 0 ⟨0, hB⟩ ⟨0, hB⟩ = if d then 1 else 0 := by
    intro d
    obtain ⟨_, _, _, h4⟩ := h (cxSt R d) (cxMat 0) (cxMat 25) (cxMat 50) rfl rfl rfl rfl rfl rfl (cxSt_wf d) (cx_owned d (by omega)) (cx_owned d (by omega))
      (cx_owned d (by omega)) hinj (by simp [cxMat]) (dis 50 0 (by omega)) (dis 50 25 (by omega))
    rw [h4 0 0 (by omega) (by omega)]
    have hC : V B (cxSt R d) (cxMat 50) 0 0 = 0 := by
      unfold V; rw [cxMat_block (by omega) (by omega)]; simp [cxSt, vl]
    have hA : ∀ t, t < 5 → t ≠ 0 → V B (cxSt R d) (cxMat 0) 0 t = 0 := by
      intro t ht h0
      unfold V; rw [cxMat_block (by omega) ht]
      have : (cxSt R d).blk (0 + (0 * 5 + t)) = none := if_neg (by omega)
      rw [this]; rfl
    rw [if_pos rfl, hC, zero_add, Finset.sum_eq_single 0]
    · rw [Matrix.mul_apply, Finset.sum_eq_single (⟨0, hB⟩ : Fin B)]
      · have e1 : V B (cxSt R d) (cxMat 0) 0 0 ⟨0, hB⟩ ⟨0, hB⟩ = 1 := by
          unfold V; rw [cxMat_block (by omega) (by omega)]
          have : (cxSt R d).blk (0 + (0 * 5 + 0)) = some fun k => if k = 0 then 1 else 0 := by simp [cxSt]
          rw [this]; simp [vl, toM, idx, cxMat]
        have e2 : V B (cxSt R d) (cxMat 25) 0 0 ⟨0, hB⟩ ⟨0, hB⟩ = if d then 1 else 0 := by
          unfold V; rw [cxMat_block (by omega) (by omega)]
          cases d
          · have : (cxSt R false).blk (25 + (0 * 5 + 0)) = none := by simp [cxSt]
            rw [this]; rfl
          · have : (cxSt R true).blk (25 + (0 * 5 + 0)) = some fun k => if k = 0 then 1 else 0 := by simp [cxSt]
            rw [this]; simp [vl, toM, idx, cxMat]
        rw [e1, e2, one_mul]
      · intro k _ hk
        have : V B (cxSt R d) (cxMat 0) 0 0 ⟨0, hB⟩ k = 0 := by
          unfold V; rw [cxMat_block (by omega) (by omega)]
          have : (cxSt R d).blk (0 + (0 * 5 + 0)) = some fun k => if k = 0 then 1 else 0 := by simp [cxSt]
          rw [this]
          have hk0 : (k : Nat) ≠ 0 := fun e => hk (Fin.ext e)
          simp [vl, toM, idx, cxMat, hk0]
        rw [this, zero_mul]
      · intro h; exact absurd (Finset.mem_univ _) h
    · intro t ht h0
      rw [hA t (Finset.mem_range.1 ht) h0, zero_mul]
    · intro h; exact absurd (Finset.mem_range.2 (by omega)) h
  have e := grained_ignores (B := B) hf (A := cxMat 0) (D := cxMat 25) (C := cxMat 50) (cxSt_wf (R := R) true) (cxSt_wf false) rfl rfl
    (fun i hi => by
      have : i ≠ 25 := fun e => hi ⟨0, 0, by simp [cxMat], by simp [cxMat], by rw [cxMat_block (by omega) (by omega), e]⟩
      simp [cxSt, this]) (cx_owned true (by omega)) (cx_owned true (by omega))
    (fun i h1 h2 => by have := cx_has h1; have := cx_has h2; omega) (fun i h1 h2 => by have := cx_has h1; have := cx_has h2; omega)
    (by simp [cxMat]) (r := 0) (c := 0) (by simp [cxMat]) (by simp [cxMat])
  have e' := congrFun (congrFun e ⟨0, hB⟩) ⟨0, hB⟩
  rw [key true, key false] at e'
  simp at e'

end Stxxl.Mat
