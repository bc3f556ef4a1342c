import Verif.Matrix.ApiSteps
import Verif.Matrix.VecModel

/-!
# Products of a matrix and a vector
-/

namespace Stxxl.Mat

variable {R : Type} [CommRing R] {B : Nat}

/-! ### Parts of a matrix -/

theorem allocCells_some {l : List (Option Nat)} (h : ∀ o ∈ l, o.isSome) : ∀ s : St R, allocCells l s = (l.map (·.getD 0), s) := by
  induction l with
  | nil => intro s; rfl
  | cons o l ih =>
    intro s
    obtain ⟨i, rfl⟩ := Option.isSome_iff_exists.1 (h o (by simp))
    simp only [allocCells, ih (fun o ho => h o (List.mem_cons_of_mem _ ho)) s, List.map_cons, Option.getD_some]

/-- A part of a matrix without padding. -/
theorem view {s : St R} (hs : s.Wf) (m : SBM) {h w fr fc : Nat} (hh : fr + h ≤ m.h) (hw : fc + w ≤ m.w) :
    ∃ q, sub s m h w fr fc = (q, s) ∧ q.h = h ∧ q.w = w ∧ q.tr = m.tr ∧ q.own = [] ∧
      ∀ r c, r < h → c < w → q.block r c = m.block (r + fr) (c + fc) := by
  refine ⟨(sub s m h w fr fc).1, ?_, rfl, rfl, rfl, ?_, ?_⟩
  · refine Prod.ext rfl ?_
    simp only [sub]
    rw [allocCells_some]
    intro o ho
    simp only [subCells, List.mem_map, List.mem_range] at ho
    obtain ⟨k, hk, rfl⟩ := ho
    obtain ⟨k1, k2, _⟩ := pos_eta hk
    rw [if_pos ⟨by omega, by omega⟩]; rfl
  · rw [List.eq_nil_iff_forall_not_mem]
    intro i hi
    rw [mem_own] at hi
    obtain ⟨r, c, hr, hc, hn, _⟩ := hi
    apply hn
    simp only [sub] at hr hc ⊢
    omega
  · intro r c hr hc
    exact sub_block hs m h w fr fc (by omega) (by omega)

/-- The four parts. -/
theorem approx_view {s : St R} (hs : s.Wf) (m : SBM) : ∃ q, approxQuarter s m = (q, s) ∧
    (q.ul.h = m.h / 2 ∧ q.ul.w = m.w / 2 ∧ q.ul.tr = m.tr ∧ ∀ r c, r < m.h / 2 → c < m.w / 2 → q.ul.block r c = m.block r c) ∧
    (q.ur.h = m.h / 2 ∧ q.ur.w = m.w - m.w / 2 ∧ q.ur.tr = m.tr ∧ ∀ r c, r < m.h / 2 → c < m.w - m.w / 2 → q.ur.block r c = m.block r (m.w / 2 + c)) ∧
    (q.dl.h = m.h - m.h / 2 ∧ q.dl.w = m.w / 2 ∧ q.dl.tr = m.tr ∧ ∀ r c, r < m.h - m.h / 2 → c < m.w / 2 → q.dl.block r c = m.block (m.h / 2 + r) c) ∧
    (q.dr.h = m.h - m.h / 2 ∧ q.dr.w = m.w - m.w / 2 ∧ q.dr.tr = m.tr ∧
      ∀ r c, r < m.h - m.h / 2 → c < m.w - m.w / 2 → q.dr.block r c = m.block (m.h / 2 + r) (m.w / 2 + c)) ∧
    ∀ i, i ∉ q.rev.flatMap SBM.own := by
  obtain ⟨q1, a1, b1, c1, d1, e1, f1⟩ := view hs m (h := m.h / 2) (w := m.w / 2) (fr := 0) (fc := 0) (by omega) (by omega)
  obtain ⟨q2, a2, b2, c2, d2, e2, f2⟩ := view hs m (h := m.h / 2) (w := m.w - m.w / 2) (fr := 0) (fc := m.w / 2) (by omega) (by omega)
  obtain ⟨q3, a3, b3, c3, d3, e3, f3⟩ := view hs m (h := m.h - m.h / 2) (w := m.w / 2) (fr := m.h / 2) (fc := 0) (by omega) (by omega)
  obtain ⟨q4, a4, b4, c4, d4, e4, f4⟩ := view hs m (h := m.h - m.h / 2) (w := m.w - m.w / 2) (fr := m.h / 2) (fc := m.w / 2) (by omega) (by omega)
  refine ⟨⟨q1, q2, q3, q4⟩, by simp only [approxQuarter, a1, a2, a3, a4], ⟨b1, c1, d1, fun r c hr hc => f1 r c hr hc⟩,
    ⟨b2, c2, d2, fun r c hr hc => ?_⟩, ⟨b3, c3, d3, fun r c hr hc => ?_⟩, ⟨b4, c4, d4, fun r c hr hc => ?_⟩, ?_⟩
  · rw [f2 r c hr hc, Nat.add_comm c]; rfl
  · rw [f3 r c hr hc, Nat.add_comm r]; rfl
  · rw [f4 r c hr hc, Nat.add_comm c, Nat.add_comm r]
  · intro i hi
    simp [Quarter.rev, e1, e2, e3, e4] at hi

theorem destroyAll_none {ms : List SBM} (h : ∀ i, i ∉ ms.flatMap SBM.own) (s : St R) : destroyAll s ms = s := by
  rw [destroyAll_eq, List.eq_nil_iff_forall_not_mem.2 h]; rfl

/-! ### Adding to a vector -/

/-- `f` adds `g` to the vector. -/
def Adds (f : (Nat → R) → Nat → R) (g : Nat → R) : Prop := ∀ z k, f z k = z k + g k

theorem Adds.foldl {n : Nat} {f : Nat → (Nat → R) → Nat → R} {g : Nat → Nat → R} (h : ∀ i, i < n → Adds (f i) (g i)) :
    Adds (fun z => (List.range n).foldl (fun z i => f i z) z) (fun k => ∑ i ∈ Finset.range n, g i k) := by
  intro z k
  induction n with
  | zero => simp
  | succ n ih =>
    show (List.range (n + 1)).foldl (fun z i => f i z) z k = _
    have := ih (fun i hi => h i (by omega))
    dsimp only at this ⊢
    rw [List.range_succ, List.foldl_append, List.foldl_cons, List.foldl_nil, h n (by omega), this, Finset.sum_range_succ, add_assoc]

theorem addAt_adds (p : Nat) (v : R) : Adds (fun z => addAt z p v) (fun k => if k = p then v else 0) := by
  intro z k
  unfold addAt
  by_cases h : k = p <;> simp [h]

theorem lim_eq {n off : Nat} (h : off ≤ n) (hn : n < 2 ^ 32) : lim B n off = min B (n - off) := by
  unfold lim
  congr 1
  omega

theorem sum_lim (B n off : Nat) (g : Nat → R) : ∑ i ∈ Finset.range (min B (n - off)), g i = ∑ i ∈ Finset.range B, if off + i < n then g i else 0 := by
  rw [← Finset.sum_filter]
  refine Finset.sum_congr ?_ fun _ _ => rfl
  ext i
  simp only [Finset.mem_range, Finset.mem_filter]
  omega

theorem dbl_adds (B n1 o1 n2 o2 : Nat) (p : Nat → Nat → Nat) (v : Nat → Nat → R) (z : Nat → R) (k : Nat) :
    (List.range (min B (n1 - o1))).foldl (fun z a => (List.range (min B (n2 - o2))).foldl (fun z b => addAt z (p a b) (v a b)) z) z k =
      z k + ∑ a ∈ Finset.range B, ∑ b ∈ Finset.range B, if o1 + a < n1 ∧ o2 + b < n2 then (if k = p a b then v a b else 0) else 0 := by
  have := Adds.foldl (n := min B (n1 - o1)) (fun a _ => Adds.foldl (n := min B (n2 - o2)) (fun b _ => addAt_adds (p a b) (v a b))) z k
  dsimp only at this
  rw [this]
  congr 1
  rw [sum_lim]
  refine Finset.sum_congr rfl fun a _ => ?_
  by_cases h : o1 + a < n1
  · rw [if_pos h, sum_lim]
    refine Finset.sum_congr rfl fun b _ => ?_
    simp [h]
  · rw [if_neg h]
    symm
    exact Finset.sum_eq_zero fun b _ => if_neg (fun e => h e.1)

/-- What a block at position (r, c) contributes to `z[k]`; `m` are its elements. -/
def contrib (B : Nat) (x : Nat → R) (nx nz : Nat) (r c : Nat) (m : Nat → Nat → R) (k : Nat) : R :=
  ∑ i ∈ Finset.range B, ∑ j ∈ Finset.range B, if r * B + i < nz ∧ c * B + j < nx then (if k = r * B + i then x (c * B + j) * m i j else 0) else 0

/-- Elements of a block, as a function. -/
def el (B : Nat) (t : Bool) (o : Option (Raw R)) (i j : Nat) : R :=
  match o with
  | none => 0
  | some d => d (idx B t i j)

theorem colBlock_adds {t : Bool} {a : Option (Raw R)} {x : Nat → R} {nx nz r c : Nat} (hx : c * B ≤ nx) (hz : r * B ≤ nz) (hnx : nx < 2 ^ 32)
    (hnz : nz < 2 ^ 32) : Adds (colBlock B t a x nx nz (c * B) (r * B)) (contrib B x nx nz r c (el B t a)) := by
  cases a with
  | none => intro z k; simp [colBlock, contrib, el]
  | some d =>
    intro z k
    simp only [colBlock, lim_eq hx hnx, lim_eq hz hnz]
    cases t with
    | true =>
      rw [if_pos rfl, dbl_adds B nx (c * B) nz (r * B) (fun _ row => r * B + row) (fun col row => x (c * B + col) * d (row + col * B)), Finset.sum_comm]
      simp only [contrib, el, idx, if_true]
      congr 1
      refine Finset.sum_congr rfl fun i _ => Finset.sum_congr rfl fun j _ => ?_
      simp only [and_comm]
    | false =>
      rw [if_neg (by simp), dbl_adds B nz (r * B) nx (c * B) (fun row _ => r * B + row) (fun row col => x (c * B + col) * d (row * B + col))]
      simp only [contrib, el, idx, Bool.false_eq_true, if_false]

theorem rowBlock_adds {t : Bool} {a : Option (Raw R)} {y : Nat → R} {ny nz r c : Nat} (hy : r * B ≤ ny) (hz : c * B ≤ nz) (hny : ny < 2 ^ 32)
    (hnz : nz < 2 ^ 32) : Adds (rowBlock B t a y ny nz (r * B) (c * B)) (contrib B y ny nz c r (fun i j => el B t a j i)) := by
  cases a with
  | none => intro z k; simp [rowBlock, contrib, el]
  | some d =>
    intro z k
    simp only [rowBlock, lim_eq hy hny, lim_eq hz hnz]
    cases t with
    | true =>
      rw [if_pos rfl, dbl_adds B nz (c * B) ny (r * B) (fun col _ => c * B + col) (fun col row => d (row + col * B) * y (r * B + row))]
      simp only [contrib, el, idx, if_true, mul_comm]
    | false =>
      rw [if_neg (by simp), dbl_adds B ny (r * B) nz (c * B) (fun _ col => c * B + col) (fun row col => d (row * B + col) * y (r * B + row)), Finset.sum_comm]
      simp only [contrib, el, idx, Bool.false_eq_true, if_false]
      congr 1
      refine Finset.sum_congr rfl fun i _ => Finset.sum_congr rfl fun j _ => ?_
      simp only [and_comm, mul_comm]

/-! ### The recursion -/

theorem sum4 (h w a b : Nat) (ha : a ≤ h) (hb : b ≤ w) (g : Nat → Nat → R) : ∑ r ∈ Finset.range h, ∑ c ∈ Finset.range w, g r c =
    (∑ r ∈ Finset.range a, ∑ c ∈ Finset.range b, g r c) + (∑ r ∈ Finset.range a, ∑ c ∈ Finset.range (w - b), g r (b + c)) +
    (∑ r ∈ Finset.range (h - a), ∑ c ∈ Finset.range b, g (a + r) c) + ∑ r ∈ Finset.range (h - a), ∑ c ∈ Finset.range (w - b), g (a + r) (b + c) := by
  have e1 : h = a + (h - a) := by omega
  have e2 : w = b + (w - b) := by omega
  have key : ∀ g : Nat → R, ∑ c ∈ Finset.range w, g c = ∑ c ∈ Finset.range b, g c + ∑ c ∈ Finset.range (w - b), g (b + c) := by
    intro g
    conv_lhs => rw [e2]
    exact Finset.sum_range_add ..
  conv_lhs => rw [e1]
  rw [Finset.sum_range_add]
  simp only [key, Finset.sum_add_distrib]
  abel

theorem colRec_ok {x : Nat → R} {nx nz : Nat} (hnx : nx < 2 ^ 32) (hnz : nz < 2 ^ 32) {s : St R} (hs : s.Wf) : ∀ (fuel : Nat) (A : SBM) (ox oz : Nat) (z : Nat → R),
    A.h + A.w ≤ fuel → (∀ r, r < A.h → (oz + r) * B ≤ nz) → (∀ c, c < A.w → (ox + c) * B ≤ nx) →
    colRec B x nx nz fuel A ox oz (s, z) = (s, fun k => z k +
      ∑ r ∈ Finset.range A.h, ∑ c ∈ Finset.range A.w, contrib B x nx nz (oz + r) (ox + c) (el B A.tr (s.blk (A.block r c))) k) := by
  intro fuel
  induction fuel with
  | zero =>
    intro A ox oz z hf _ _
    have : A.h = 0 := by omega
    simp [colRec, this]
  | succ fuel ih =>
    intro A ox oz z hf h1 h2
    rw [colRec]
    by_cases h0 : A.h * A.w = 0
    · rw [if_pos h0]
      rcases Nat.mul_eq_zero.1 h0 with h | h <;> simp [h]
    rw [if_neg h0]
    by_cases hb : A.h = 1 ∨ A.w = 1
    · rw [if_pos hb]
      refine Prod.ext rfl (funext fun k => ?_)
      exact Adds.foldl (fun r hr => Adds.foldl (fun c hc => colBlock_adds (h2 c hc) (h1 r hr) hnx hnz)) z k
    · rw [if_neg hb]
      have hh : A.h ≠ 0 := fun h => h0 (by simp [h])
      have hw : A.w ≠ 0 := fun h => h0 (by simp [h])
      obtain ⟨q, e, ⟨a1, a2, a3, a4⟩, ⟨b1, b2, b3, b4⟩, ⟨c1, c2, c3, c4⟩, ⟨d1, d2, d3, d4⟩, ho⟩ := approx_view hs A
      simp only [e]
      rw [ih q.ul ox oz z (by omega) (fun r hr => h1 r (by omega)) (fun c hc => h2 c (by omega)),
        ih q.ur _ _ _ (by omega) (fun r hr => h1 r (by omega)) (fun c hc => by have := h2 (A.w / 2 + c) (by omega); rw [a2, Nat.add_assoc]; exact this),
        ih q.dr _ _ _ (by omega) (fun r hr => by have := h1 (A.h / 2 + r) (by omega); rw [a1, Nat.add_assoc]; exact this)
          (fun c hc => by have := h2 (A.w / 2 + c) (by omega); rw [a2, Nat.add_assoc]; exact this),
        ih q.dl _ _ _ (by omega) (fun r hr => by have := h1 (A.h / 2 + r) (by omega); rw [a1, Nat.add_assoc]; exact this) (fun c hc => h2 c (by omega)),
        destroyAll_none ho]
      refine Prod.ext rfl (funext fun k => ?_)
      dsimp only
      rw [sum4 A.h A.w (A.h / 2) (A.w / 2) (by omega) (by omega), a1, a2, a3, b1, b2, b3, c1, c2, c3, d1, d2, d3]
      have E1 := fun r (hr : r ∈ Finset.range (A.h / 2)) c (hc : c ∈ Finset.range (A.w / 2)) => a4 r c (Finset.mem_range.1 hr) (Finset.mem_range.1 hc)
      have E2 := fun r (hr : r ∈ Finset.range (A.h / 2)) c (hc : c ∈ Finset.range (A.w - A.w / 2)) => b4 r c (Finset.mem_range.1 hr) (Finset.mem_range.1 hc)
      have E3 := fun r (hr : r ∈ Finset.range (A.h - A.h / 2)) c (hc : c ∈ Finset.range (A.w / 2)) => c4 r c (Finset.mem_range.1 hr) (Finset.mem_range.1 hc)
      have E4 := fun r (hr : r ∈ Finset.range (A.h - A.h / 2)) c (hc : c ∈ Finset.range (A.w - A.w / 2)) => d4 r c (Finset.mem_range.1 hr) (Finset.mem_range.1 hc)
      rw [Finset.sum_congr rfl fun r hr => Finset.sum_congr rfl fun c hc => by rw [E1 r hr c hc],
        Finset.sum_congr (s₂ := Finset.range (A.h / 2)) rfl fun r hr => Finset.sum_congr (s₂ := Finset.range (A.w - A.w / 2)) rfl fun c hc => by rw [E2 r hr c hc],
        Finset.sum_congr (s₂ := Finset.range (A.h - A.h / 2)) rfl fun r hr => Finset.sum_congr (s₂ := Finset.range (A.w / 2)) rfl fun c hc => by rw [E3 r hr c hc],
        Finset.sum_congr (s₂ := Finset.range (A.h - A.h / 2)) rfl fun r hr => Finset.sum_congr (s₂ := Finset.range (A.w - A.w / 2)) rfl fun c hc => by rw [E4 r hr c hc]]
      simp only [Nat.add_assoc]
      abel

theorem rowRec_ok {x : Nat → R} {nx nz : Nat} (hnx : nx < 2 ^ 32) (hnz : nz < 2 ^ 32) {s : St R} (hs : s.Wf) : ∀ (fuel : Nat) (A : SBM) (oy oz : Nat) (z : Nat → R),
    A.h + A.w ≤ fuel → (∀ r, r < A.h → (oy + r) * B ≤ nx) → (∀ c, c < A.w → (oz + c) * B ≤ nz) →
    rowRec B x nx nz fuel A oy oz (s, z) = (s, fun k => z k +
      ∑ r ∈ Finset.range A.h, ∑ c ∈ Finset.range A.w, contrib B x nx nz (oz + c) (oy + r) (fun i j => el B A.tr (s.blk (A.block r c)) j i) k) := by
  intro fuel
  induction fuel with
  | zero =>
    intro A oy oz z hf _ _
    have : A.h = 0 := by omega
    simp [rowRec, this]
  | succ fuel ih =>
    intro A oy oz z hf h1 h2
    rw [rowRec]
    by_cases h0 : A.h * A.w = 0
    · rw [if_pos h0]
      rcases Nat.mul_eq_zero.1 h0 with h | h <;> simp [h]
    rw [if_neg h0]
    by_cases hb : A.h = 1 ∨ A.w = 1
    · rw [if_pos hb]
      refine Prod.ext rfl (funext fun k => ?_)
      exact Adds.foldl (fun r hr => Adds.foldl (fun c hc => rowBlock_adds (h1 r hr) (h2 c hc) hnx hnz)) z k
    · rw [if_neg hb]
      have hh : A.h ≠ 0 := fun h => h0 (by simp [h])
      have hw : A.w ≠ 0 := fun h => h0 (by simp [h])
      obtain ⟨q, e, ⟨a1, a2, a3, a4⟩, ⟨b1, b2, b3, b4⟩, ⟨c1, c2, c3, c4⟩, ⟨d1, d2, d3, d4⟩, ho⟩ := approx_view hs A
      simp only [e]
      rw [ih q.ul oy oz z (by omega) (fun r hr => h1 r (by omega)) (fun c hc => h2 c (by omega)),
        ih q.dl _ _ _ (by omega) (fun r hr => by have := h1 (A.h / 2 + r) (by omega); rw [a1, Nat.add_assoc]; exact this) (fun c hc => h2 c (by omega)),
        ih q.dr _ _ _ (by omega) (fun r hr => by have := h1 (A.h / 2 + r) (by omega); rw [a1, Nat.add_assoc]; exact this)
          (fun c hc => by have := h2 (A.w / 2 + c) (by omega); rw [a2, Nat.add_assoc]; exact this),
        ih q.ur _ _ _ (by omega) (fun r hr => h1 r (by omega)) (fun c hc => by have := h2 (A.w / 2 + c) (by omega); rw [a2, Nat.add_assoc]; exact this),
        destroyAll_none ho]
      refine Prod.ext rfl (funext fun k => ?_)
      dsimp only
      rw [sum4 A.h A.w (A.h / 2) (A.w / 2) (by omega) (by omega), a1, a2, a3, b1, b2, b3, c1, c2, c3, d1, d2, d3]
      have E1 := fun r (hr : r ∈ Finset.range (A.h / 2)) c (hc : c ∈ Finset.range (A.w / 2)) => a4 r c (Finset.mem_range.1 hr) (Finset.mem_range.1 hc)
      have E2 := fun r (hr : r ∈ Finset.range (A.h / 2)) c (hc : c ∈ Finset.range (A.w - A.w / 2)) => b4 r c (Finset.mem_range.1 hr) (Finset.mem_range.1 hc)
      have E3 := fun r (hr : r ∈ Finset.range (A.h - A.h / 2)) c (hc : c ∈ Finset.range (A.w / 2)) => c4 r c (Finset.mem_range.1 hr) (Finset.mem_range.1 hc)
      have E4 := fun r (hr : r ∈ Finset.range (A.h - A.h / 2)) c (hc : c ∈ Finset.range (A.w - A.w / 2)) => d4 r c (Finset.mem_range.1 hr) (Finset.mem_range.1 hc)
      rw [Finset.sum_congr rfl fun r hr => Finset.sum_congr rfl fun c hc => by rw [E1 r hr c hc],
        Finset.sum_congr (s₂ := Finset.range (A.h / 2)) rfl fun r hr => Finset.sum_congr (s₂ := Finset.range (A.w - A.w / 2)) rfl fun c hc => by rw [E2 r hr c hc],
        Finset.sum_congr (s₂ := Finset.range (A.h - A.h / 2)) rfl fun r hr => Finset.sum_congr (s₂ := Finset.range (A.w / 2)) rfl fun c hc => by rw [E3 r hr c hc],
        Finset.sum_congr (s₂ := Finset.range (A.h - A.h / 2)) rfl fun r hr => Finset.sum_congr (s₂ := Finset.range (A.w - A.w / 2)) rfl fun c hc => by rw [E4 r hr c hc]]
      simp only [Nat.add_assoc]
      abel

end Stxxl.Mat
