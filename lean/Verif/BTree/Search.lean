/-
Searching and walking: `find`, `lower_bound`, `upper_bound`, `begin`, `++`, `--`, `*`.
-/
import Verif.BTree.EraseRoot

namespace BTree
variable {K V : Type} [LinearOrder K]

/-- The position `q` is that of entry `e`, or of `end()` for `none`. -/
def PosAt (Ls : List (Blk K V)) (w : W) (q : Nat × Nat) : Option (K × V) → Prop
  | some e => ∃ l ∈ Ls, ∃ p, q = (l.bid, p) ∧ l.els[p]? = some e
  | none => w.its 0 = some q

/-- Leaves are empty only if there is just one. -/
def NonE (Ls : List (Blk K V)) : Prop := (∀ l ∈ Ls, l.els ≠ []) ∨ ∃ l, Ls = [l]

theorem good_leaves {c : Cfg K} (hc : c.Ok) : ∀ {h : Nat} {els : List (K × Tree K V h)},
    GoodE (V := V) c (h + 1) els → ∀ l ∈ leavesK h els, l.els ≠ []
  | 0, els, hg, l, hl => by
    have hmx := hc.max 0
    have hmn : c.min 0 = c.max 0 / 2 := rfl
    simp only [leavesK, List.mem_flatMap, leaves, List.mem_singleton] at hl
    obtain ⟨e, he, rfl⟩ := hl
    have := (hg e he).1
    intro hh; rw [hh] at this; simp at this; omega
  | h + 1, els, hg, l, hl => by
    simp only [leavesK, List.mem_flatMap, leaves_succ] at hl
    obtain ⟨e, he, hl⟩ := hl
    exact good_leaves hc (hg e he).2.2 l (by simpa [leavesK] using hl)

theorem Inv.nonE {c : Cfg K} (hc : c.Ok) {R : List Nat} {s : St K V} (hI : Inv c R s) : NonE s.leaves := by
  by_cases h : s.h = 0 ∧ s.root.length = 1
  · obtain ⟨h1, h2⟩ := h
    right
    obtain ⟨hh, root, size, w, live⟩ := s
    dsimp only at h1 h2
    subst h1
    match root, h2 with
    | [e], _ => exact ⟨e.2, by simp [St.leaves, leaves]⟩
  · left
    rw [St.leaves_eq]
    refine good_leaves hc ?_
    intro e he
    obtain ⟨g1, g2, g3⟩ := hI.good e he
    exact ⟨g3.resolve_right h, g1, g2⟩

theorem Inv.ne {c : Cfg K} {R : List Nat} {s : St K V} (hI : Inv c R s) : s.leaves ≠ [] := by
  obtain ⟨l, h, _⟩ := hI.lf.fin
  intro hh; rw [hh] at h; simp at h

/-- The links around a leaf. -/
theorem links_at {w : W} {A C : List (Blk K V)} {l : Blk K V} (h : Links w none (A ++ l :: C) none) :
    w.pred l.bid = A.getLast?.map Blk.bid ∧ w.succ l.bid = C.head?.map Blk.bid := by
  have h2 := (Links.append.mp h).2
  obtain ⟨h3, h4, _⟩ := h2
  exact ⟨by simpa using h3, by simpa using h4⟩

theorem stepOver_ok {s : St K V} {A C : List (Blk K V)} {l : Blk K V} (hE : s.leaves = A ++ l :: C)
    (hI : LInv s.leaves s.w) (hne : NonE s.leaves) {i : Nat} (hi : i ≤ l.els.length) :
    PosAt s.leaves s.w (stepOver s l i) (l.els.drop i ++ ents C).head? := by
  unfold stepOver
  by_cases h : i = l.els.length
  · rw [if_pos h, h, List.drop_length, List.nil_append]
    have hl := hI.links
    rw [hE] at hl
    rw [(links_at hl).2]
    cases C with
    | nil =>
      obtain ⟨z, z1, z2⟩ := hI.fin
      rw [hE] at z1
      simp only [List.getLast?_append, List.getLast?_singleton, Option.some_or, Option.some.injEq] at z1
      subst z1
      simpa [PosAt] using z2
    | cons b C =>
      have hb : b.els ≠ [] := by
        rcases hne with h | ⟨z, h⟩
        · exact h b (by rw [hE]; simp)
        · rw [hE] at h
          have := congrArg List.length h
          simp at this; omega
      obtain ⟨e, els, he⟩ := List.exists_cons_of_ne_nil hb
      simp only [List.head?_cons, Option.map_some, ents_cons, he, List.cons_append]
      exact ⟨b, by rw [hE]; simp, 0, rfl, by rw [he]; rfl⟩
  · rw [if_neg h]
    have hlt : i < l.els.length := by omega
    rw [List.drop_eq_getElem_cons hlt]
    simp only [List.cons_append, List.head?_cons]
    exact ⟨l, by rw [hE]; simp, i, rfl, by rw [List.getElem?_eq_getElem hlt]⟩

theorem leafOf_eq {s : St K V} (hI : LInv s.leaves s.w) {l : Blk K V} (hl : l ∈ s.leaves) : s.leafOf l.bid = some l := by
  unfold St.leafOf
  cases h : s.leaves.find? (fun x => x.bid == l.bid) with
  | none =>
    have := List.find?_eq_none.mp h l hl
    simp at this
  | some x =>
    have h1 := List.find?_some h
    have h2 := List.mem_of_find?_eq_some h
    rw [bid_inj hI.nd h2 hl (by simpa using h1)]

theorem mem_split {l : Blk K V} {Ls : List (Blk K V)} (h : l ∈ Ls) : ∃ A C, Ls = A ++ l :: C := List.append_of_mem h

/-! ### Descending -/

theorem descend_ok {c : Cfg K} (hc : c.Ok) {k : K} : ∀ {h : Nat} {b : Tree K V h} {lo : Option K} {hi : K},
    OrdE h lo hi b.els → GtO lo k → k ≤ hi →
    ∃ A l C, descend c k h b = some l ∧ leaves h b = A ++ l :: C ∧ l.els.Pairwise (fun a b => a.1 < b.1) ∧
      (∀ e ∈ ents A, e.1 < k) ∧ (∀ e ∈ ents C, k < e.1)
  | 0, b, lo, hi, ho, _, _ => ⟨[], b, [], rfl, rfl, ho.1, by simp, by simp⟩
  | h + 1, b, lo, hi, ho, h1, h2 => by
    obtain ⟨A, k', ch, B, mid, e1, e2, m1, m2, m3, m4, m5, m6, m7⟩ := kids_find hc ho h1 h2
    obtain ⟨A', l, C', d1, d2, d3, d4, d5⟩ := descend_ok hc m5 m2 m4
    refine ⟨leavesK h A ++ A', l, C' ++ leavesK h B, ?_, ?_, d3, ?_, ?_⟩
    · unfold descend
      rw [e2, e1, get_len]
      exact d1
    · rw [leaves_succ, e1, leavesK_append, leavesK_cons, d2]; simp
    · intro e he
      rw [ents_append] at he
      rcases List.mem_append.mp he with he | he
      · obtain ⟨a, ha, he⟩ := mem_ents.mp he
        obtain ⟨_, b, eb, hb⟩ := kids_leaf_keys m1 a ha e he
        exact lt_of_le_of_lt hb (m2 b eb)
      · exact d4 e he
    · intro e he
      rw [ents_append] at he
      rcases List.mem_append.mp he with he | he
      · exact d5 e he
      · obtain ⟨a, ha, he⟩ := mem_ents.mp he
        exact lt_of_le_of_lt m4 ((kids_leaf_keys m6 a ha e he).1 k' rfl)

theorem descendU_ok {c : Cfg K} (hc : c.Ok) {k : K} : ∀ {h : Nat} {b : Tree K V h} {lo : Option K} {hi : K},
    OrdE h lo hi b.els → (∀ a, lo = some a → a ≤ k) → k < hi →
    ∃ A l C, descendU c k h b = some l ∧ leaves h b = A ++ l :: C ∧ l.els.Pairwise (fun a b => a.1 < b.1) ∧
      (∀ e ∈ ents A, e.1 ≤ k) ∧ (∀ e ∈ ents C, k < e.1)
  | 0, b, lo, hi, ho, _, _ => ⟨[], b, [], rfl, rfl, ho.1, by simp, by simp⟩
  | h + 1, b, lo, hi, ho, h1, h2 => by
    obtain ⟨A, k', ch, B, mid, e1, e2, m1, m2, m4, m5, m6, m7⟩ := kids_findU hc ho h1 h2
    obtain ⟨A', l, C', d1, d2, d3, d4, d5⟩ := descendU_ok hc m5 m2 m4
    refine ⟨leavesK h A ++ A', l, C' ++ leavesK h B, ?_, ?_, d3, ?_, ?_⟩
    · unfold descendU
      rw [e2, e1, get_len]
      exact d1
    · rw [leaves_succ, e1, leavesK_append, leavesK_cons, d2]; simp
    · intro e he
      rw [ents_append] at he
      rcases List.mem_append.mp he with he | he
      · obtain ⟨a, ha, he⟩ := mem_ents.mp he
        obtain ⟨_, b, eb, hb⟩ := kids_leaf_keys m1 a ha e he
        exact le_trans hb (m2 b eb)
      · exact d4 e he
    · intro e he
      rw [ents_append] at he
      rcases List.mem_append.mp he with he | he
      · exact d5 e he
      · obtain ⟨a, ha, he⟩ := mem_ents.mp he
        exact lt_trans m4 ((kids_leaf_keys m6 a ha e he).1 k' rfl)

/-! ### The first entry satisfying a monotone predicate -/

theorem find_cut {X : Type} {p : X → Bool} {A B : List X} (hA : ∀ e ∈ A, p e = false) (hB : ∀ e ∈ B, p e = true) :
    (A ++ B).find? p = B.head? := by
  rw [List.find?_append, List.find?_eq_none.mpr (fun x hx => by simp [hA x hx])]
  cases B with
  | nil => rfl
  | cons b B => simp [List.find?_cons, hB b (by simp)]

theorem lowerBound_ok {c : Cfg K} (hc : c.Ok) {R : List Nat} {s : St K V} (hI : Inv c R s) {k : K} (hk : k ≤ c.mx)
    (rid : Nat) : ∃ q, lowerBound c s k rid = some { s with w := s.w.reg rid q } ∧
      PosAt s.leaves s.w q ((ents s.leaves).find? (fun e => decide (k ≤ e.1))) := by
  obtain ⟨A, l, C, d1, d2, d3, d4, d5⟩ := descend_ok (h := s.h + 1)
    (b := ({ bid := 0, els := s.root } : Tree K V (s.h + 1))) hc hI.ord (fun a ha => by cases ha) hk
  obtain ⟨P, Q, hPQ, hP, hQ, hl⟩ := lb_split hc k d3
  have hE : s.leaves = A ++ l :: C := d2
  have hlen : P.length ≤ l.els.length := by rw [hPQ]; simp
  have := stepOver_ok hE hI.lf (hI.nonE hc) hlen
  refine ⟨stepOver s l (lb c.lt k l.els), ?_, ?_⟩
  · unfold lowerBound
    unfold descend at d1
    dsimp only at d1
    cases hg : s.root[lb c.lt k s.root]? with
    | none => rw [hg] at d1; simp at d1
    | some e =>
      obtain ⟨k', ch⟩ := e
      rw [hg] at d1
      dsimp only at d1 ⊢
      rw [d1]; rfl
  · rw [hl]
    have e1 : ents s.leaves = (ents A ++ P) ++ (Q ++ ents C) := by rw [hE]; simp [hPQ]
    rw [e1, find_cut]
    · rw [hPQ, List.drop_left] at this; exact this
    · intro e he
      rcases List.mem_append.mp he with he | he
      · simpa using d4 e he
      · simpa using hP e he
    · intro e he
      rcases List.mem_append.mp he with he | he
      · simpa using hQ e he
      · simpa using le_of_lt (d5 e he)

theorem upperBound_ok {c : Cfg K} (hc : c.Ok) {R : List Nat} {s : St K V} (hI : Inv c R s) {k : K} (hk : k < c.mx)
    (rid : Nat) : ∃ q, upperBound c s k rid = some { s with w := s.w.reg rid q } ∧
      PosAt s.leaves s.w q ((ents s.leaves).find? (fun e => decide (k < e.1))) := by
  obtain ⟨A, l, C, d1, d2, d3, d4, d5⟩ := descendU_ok (h := s.h + 1)
    (b := ({ bid := 0, els := s.root } : Tree K V (s.h + 1))) hc hI.ord (fun a ha => by cases ha) hk
  obtain ⟨P, Q, hPQ, hP, hQ, hl⟩ := ub_split hc k d3
  have hE : s.leaves = A ++ l :: C := d2
  have hlen : P.length ≤ l.els.length := by rw [hPQ]; simp
  have := stepOver_ok hE hI.lf (hI.nonE hc) hlen
  refine ⟨stepOver s l (ub c.lt k l.els), ?_, ?_⟩
  · unfold upperBound
    unfold descendU at d1
    dsimp only at d1
    cases hg : s.root[ub c.lt k s.root]? with
    | none => rw [hg] at d1; simp at d1
    | some e =>
      obtain ⟨k', ch⟩ := e
      rw [hg] at d1
      dsimp only at d1 ⊢
      rw [d1]; rfl
  · rw [hl]
    have e1 : ents s.leaves = (ents A ++ P) ++ (Q ++ ents C) := by rw [hE]; simp [hPQ]
    rw [e1, find_cut]
    · rw [hPQ, List.drop_left] at this; exact this
    · intro e he
      rcases List.mem_append.mp he with he | he
      · simpa using d4 e he
      · simpa using hP e he
    · intro e he
      rcases List.mem_append.mp he with he | he
      · simpa using hQ e he
      · simpa using d5 e he

theorem find_ok {c : Cfg K} (hc : c.Ok) {R : List Nat} {s : St K V} (hI : Inv c R s) {k : K} (hk : k ≤ c.mx)
    (rid : Nat) : ∃ q, find c s k rid = some { s with w := s.w.reg rid q } ∧
      PosAt s.leaves s.w q ((ents s.leaves).find? (fun e => decide (e.1 = k))) := by
  obtain ⟨A, l, C, d1, d2, d3, d4, d5⟩ := descend_ok (h := s.h + 1)
    (b := ({ bid := 0, els := s.root } : Tree K V (s.h + 1))) hc hI.ord (fun a ha => by cases ha) hk
  obtain ⟨P, Q, hPQ, hP, hQ, hl⟩ := lb_split hc k d3
  have hE : s.leaves = A ++ l :: C := d2
  have hsub : l ∈ s.leaves := by rw [hE]; simp
  obtain ⟨z, z1, z2⟩ := hI.lf.fin
  have hget : l.els[lb c.lt k l.els]? = Q.head? := by
    rw [hl, hPQ, List.getElem?_append_right (Nat.le_refl _), Nat.sub_self, List.head?_eq_getElem?]
  have e1 : ents s.leaves = (ents A ++ P) ++ (Q ++ ents C) := by rw [hE]; simp [hPQ]
  have hAP : ∀ e ∈ ents A ++ P, ¬ decide (e.1 = k) = true := by
    intro e he
    rcases List.mem_append.mp he with he | he
    · simpa using ne_of_lt (d4 e he)
    · simpa using ne_of_lt (hP e he)
  have hC : ∀ e ∈ ents C, ¬ decide (e.1 = k) = true := by
    intro e he; simpa using ne_of_gt (d5 e he)
  have hfind : (ents s.leaves).find? (fun e => decide (e.1 = k)) = Q.find? (fun e => decide (e.1 = k)) := by
    rw [e1, List.find?_append, List.find?_eq_none.mpr hAP, List.find?_append, List.find?_eq_none.mpr hC]
    simp
  have hQs : Q.Pairwise (fun a b => a.1 < b.1) := by rw [hPQ] at d3; exact (List.pairwise_append.mp d3).2.1
  unfold find
  unfold descend at d1
  dsimp only at d1
  cases hg : s.root[lb c.lt k s.root]? with
  | none => rw [hg] at d1; simp at d1
  | some e0 =>
  obtain ⟨k', ch⟩ := e0
  rw [hg] at d1
  dsimp only at d1 ⊢
  rw [d1]
  dsimp only
  rw [hget, z2, hfind]
  cases Q with
  | nil => exact ⟨_, rfl, z2⟩
  | cons e Q =>
    dsimp only [List.head?_cons]
    by_cases he : e.1 = k
    · rw [if_neg (by simpa using he)]
      refine ⟨_, rfl, ?_⟩
      rw [List.find?_cons, decide_eq_true he]
      exact ⟨l, hsub, _, rfl, by rw [hget]; rfl⟩
    · rw [if_pos he]
      refine ⟨_, rfl, ?_⟩
      rw [List.find?_eq_none.mpr]
      · exact z2
      · intro f hf
        rcases List.mem_cons.mp hf with rfl | hf
        · simpa using he
        · have h1 := (List.pairwise_cons.mp hQs).1 f hf
          have h2 := hQ e (by simp)
          simpa using ne_of_gt (lt_of_le_of_lt h2 h1)

/-! ### begin, ++, -- -/

theorem first_ok {c : Cfg K} (hc : c.Ok) : ∀ {h : Nat} {b : Tree K V h}, GoodE c h b.els → (h ≠ 0 → 2 ≤ b.els.length) →
    ∃ l C, first h b = some l ∧ leaves h b = l :: C
  | 0, b, _, _ => ⟨b, [], rfl, rfl⟩
  | h + 1, b, hg, hl => by
    have hl := hl (by omega)
    unfold first
    cases hb : b.els with
    | nil => rw [hb] at hl; simp at hl
    | cons e els =>
      obtain ⟨k, ch⟩ := e
      have hg1 := hg (k, ch) (by rw [hb]; simp)
      have hmx := hc.max h
      have hmn : c.min h = c.max h / 2 := rfl
      obtain ⟨l, C, h1, h2⟩ := first_ok hc (b := ch) hg1.2.2 (fun _ => by have := hg1.1; dsimp only at this; omega)
      dsimp only
      rw [hb] at hl
      rw [if_neg (by omega)]
      refine ⟨l, C ++ leavesK h els, h1, ?_⟩
      rw [leaves_succ, hb, leavesK_cons, h2]; simp

theorem begin_ok {c : Cfg K} (hc : c.Ok) {R : List Nat} {s : St K V} (hI : Inv c R s) (rid : Nat) :
    ∃ q, begin_ s rid = some { s with w := s.w.reg rid q } ∧ PosAt s.leaves s.w q (ents s.leaves).head? := by
  unfold begin_
  have hne := hI.nonE hc
  have hne' := hI.ne
  have hlf := hI.lf
  cases hr : s.root with
  | nil => exfalso; apply hne'; rw [St.leaves_eq, hr]; rfl
  | cons e els =>
    obtain ⟨k, ch⟩ := e
    have hg := hI.good (k, ch) (by rw [hr]; simp)
    have hmx := hc.max s.h
    have hmn : c.min s.h = c.max s.h / 2 := rfl
    obtain ⟨l, C, h1, h2⟩ := first_ok hc (b := ch) hg.2.1 (by
      intro h0
      rcases hg.2.2 with h | h
      · dsimp only at h; omega
      · exact absurd h.1 h0)
    have hE : s.leaves = l :: (C ++ leavesK s.h els) := by
      rw [St.leaves_eq, hr, leavesK_cons, h2]; simp
    dsimp only
    rw [h1]
    refine ⟨(l.bid, 0), rfl, ?_⟩
    cases hl : l.els with
    | nil =>
      rcases hne with h | ⟨z, h⟩
      · exact absurd hl (h l (by rw [hE]; simp))
      · obtain ⟨y, y1, y2⟩ := hlf.fin
        rw [h] at hE
        have hz : z = l ∧ C ++ leavesK s.h els = [] := by simpa using hE
        obtain ⟨rfl, hC⟩ := hz
        rw [h] at y1 ⊢
        simp only [List.getLast?_singleton, Option.some.injEq] at y1
        subst y1
        rw [hl] at y2
        simp only [ents_cons, hl, ents_nil, List.append_nil, List.head?_nil]
        exact y2
    | cons x xs =>
      rw [hE]
      simp only [ents_cons, hl, List.cons_append, List.head?_cons]
      exact ⟨l, by simp, 0, rfl, by rw [hl]; rfl⟩

/-- Where an iterator at key `k` is, in the list of entries. -/
theorem pts_split {Ls : List (Blk K V)} {w : W} {id : Nat} {k : K} (h : Pts Ls w id k) :
    ∃ A l C p v, Ls = A ++ l :: C ∧ w.its id = some (l.bid, p) ∧ l.els[p]? = some (k, v) ∧
      ents Ls = (ents A ++ l.els.take p) ++ (k, v) :: (l.els.drop (p + 1) ++ ents C) ∧ p < l.els.length := by
  obtain ⟨l, hl, p, v, h1, h2⟩ := h
  obtain ⟨A, C, rfl⟩ := mem_split hl
  obtain ⟨hp, h3⟩ := List.getElem?_eq_some_iff.mp h2
  refine ⟨A, l, C, p, v, rfl, h1, h2, ?_, hp⟩
  have : l.els = l.els.take p ++ (k, v) :: l.els.drop (p + 1) := by
    rw [← h3, ← List.drop_eq_getElem_cons hp, List.take_append_drop]
  simp only [ents_append, ents_cons]
  rw [this]
  simp only [List.append_assoc, List.cons_append]
  rw [← this]

theorem pts_mem {Ls : List (Blk K V)} {w : W} {id : Nat} {k : K} (h : Pts Ls w id k) : ∃ v, (k, v) ∈ ents Ls := by
  obtain ⟨A, l, C, p, v, _, _, _, h, _⟩ := pts_split h
  exact ⟨v, by rw [h]; simp⟩

theorem incr_ok {c : Cfg K} (hc : c.Ok) {R : List Nat} {s : St K V} (hI : Inv c R s) {id : Nat} {k : K}
    (hp : Pts s.leaves s.w id k) : ∃ q, incr s id = some { s with w := s.w.reg id q } ∧
      PosAt s.leaves s.w q ((ents s.leaves).find? (fun e => decide (k < e.1))) := by
  obtain ⟨A, l, C, p, v, e1, e2, e3, e4, e5⟩ := pts_split hp
  have hlf := hI.lf
  have hso := hI.sorted
  rw [e4] at hso
  have := stepOver_ok e1 hlf (hI.nonE hc) (i := p + 1) e5
  refine ⟨stepOver s l (p + 1), ?_, ?_⟩
  · unfold incr
    rw [e2]
    dsimp only
    rw [leafOf_eq hlf (by rw [e1]; simp)]
    dsimp only
    rw [if_neg (by omega)]
  · have hs1 := List.pairwise_append.mp hso
    have hs2 := List.pairwise_cons.mp hs1.2.1
    rw [e4]
    have e6 : ∀ X Y : List (K × V), X ++ (k, v) :: Y = (X ++ [(k, v)]) ++ Y := by simp
    rw [e6, find_cut]
    · exact this
    · intro e he
      rcases List.mem_append.mp he with he | he
      · simpa using le_of_lt (hs1.2.2 e he (k, v) (by simp))
      · simp only [List.mem_singleton] at he; subst he; simp
    · intro e he
      simpa using hs2.1 e he

/-- Stepping back from a position `p` of the leaf `l`. -/
theorem back_ok {s : St K V} {A C : List (Blk K V)} {l : Blk K V} (hE : s.leaves = A ++ l :: C)
    (hI : LInv s.leaves s.w) (hne : NonE s.leaves) {p id : Nat} (hi : p ≤ l.els.length) (hid : s.w.its id = some (l.bid, p))
    {e : K × V} (he : (ents A ++ l.els.take p).getLast? = some e) :
    ∃ q, decr s id = some { s with w := s.w.reg id q } ∧ PosAt s.leaves s.w q (some e) := by
  unfold decr
  rw [hid]
  dsimp only
  rw [leafOf_eq hI (by rw [hE]; simp)]
  dsimp only
  by_cases h : p = 0
  · rw [if_pos h]
    subst h
    have hl := hI.links
    rw [hE] at hl
    rw [(links_at hl).1]
    simp only [List.take_zero, List.append_nil] at he
    rcases List.eq_nil_or_concat A with rfl | ⟨A', z, rfl⟩
    · simp at he
    · rw [List.concat_eq_append] at *
      simp only [List.getLast?_append, List.getLast?_singleton, Option.some_or, Option.map_some]
      have hz : z ∈ s.leaves := by rw [hE]; simp
      rw [leafOf_eq hI hz]
      dsimp only
      refine ⟨_, rfl, z, hz, _, rfl, ?_⟩
      have hb : z.els ≠ [] := by
        rcases hne with h | ⟨y, h⟩
        · exact h z hz
        · rw [hE] at h
          have := congrArg List.length h
          simp at this; omega
      rw [ents_append, ents_cons, ents_nil, List.append_nil, List.getLast?_append_of_ne_nil _ hb] at he
      rw [← he, List.getLast?_eq_getElem?]
  · rw [if_neg h]
    refine ⟨_, rfl, l, by rw [hE]; simp, p - 1, rfl, ?_⟩
    have hn : l.els.take p ≠ [] := by
      intro hh; have := congrArg List.length hh; rw [List.length_take, Nat.min_eq_left hi] at this; exact h this
    rw [List.getLast?_append_of_ne_nil _ hn, List.getLast?_eq_getElem?, List.length_take, Nat.min_eq_left hi] at he
    rw [← he, List.getElem?_take]
    rw [if_pos (by omega)]

theorem decr_ok {c : Cfg K} (hc : c.Ok) {R : List Nat} {s : St K V} (hI : Inv c R s) {id : Nat} {k : K}
    (hp : Pts s.leaves s.w id k) {e : K × V} (he : ((ents s.leaves).filter (fun e => decide (e.1 < k))).getLast? = some e) :
    ∃ q, decr s id = some { s with w := s.w.reg id q } ∧ PosAt s.leaves s.w q (some e) := by
  obtain ⟨A, l, C, p, v, e1, e2, e3, e4, e5⟩ := pts_split hp
  have hso := hI.sorted
  rw [e4] at hso he
  have hs1 := List.pairwise_append.mp hso
  have hs2 := List.pairwise_cons.mp hs1.2.1
  have hf : ((ents A ++ l.els.take p) ++ (k, v) :: (l.els.drop (p + 1) ++ ents C)).filter (fun e => decide (e.1 < k)) =
      ents A ++ l.els.take p := by
    rw [List.filter_append, List.filter_eq_self.mpr, List.filter_eq_nil_iff.mpr, List.append_nil]
    · intro e he
      rcases List.mem_cons.mp he with rfl | he
      · simp
      · simpa using le_of_lt (hs2.1 e he)
    · intro e he
      simpa using hs1.2.2 e he (k, v) (by simp)
  rw [hf] at he
  exact back_ok e1 hI.lf (hI.nonE hc) (Nat.le_of_lt e5) e2 he

theorem decr_end_ok {c : Cfg K} (hc : c.Ok) {R : List Nat} {s : St K V} (hI : Inv c R s) {id : Nat}
    (hp : s.w.its id = s.w.its 0) {e : K × V} (he : (ents s.leaves).getLast? = some e) :
    ∃ q, decr s id = some { s with w := s.w.reg id q } ∧ PosAt s.leaves s.w q (some e) := by
  obtain ⟨l, h1, h2⟩ := hI.lf.fin
  obtain ⟨A, hA⟩ := List.getLast?_eq_some_iff.mp h1
  refine back_ok (A := A) (C := []) (l := l) hA hI.lf (hI.nonE hc) (Nat.le_refl _) (by rw [hp]; exact h2) ?_
  rw [hA] at he
  simpa using he

theorem deref_ok {s : St K V} (hI : LInv s.leaves s.w) {id : Nat} {k : K} (hp : Pts s.leaves s.w id k) :
    ∃ v, deref s id = some (k, v) ∧ (k, v) ∈ ents s.leaves := by
  obtain ⟨l, hl, p, v, h1, h2⟩ := hp
  refine ⟨v, ?_, mem_ents.mpr ⟨l, hl, List.mem_of_getElem? h2⟩⟩
  unfold deref
  rw [h1]
  dsimp only
  rw [leafOf_eq hI hl]
  exact h2

/-- Two iterators at entries are equal iff the entries are the same. -/
theorem pts_eq {c : Cfg K} {R : List Nat} {s : St K V} (hI : Inv c R s) {a b : Nat} {k k' : K}
    (ha : Pts s.leaves s.w a k) (hb : Pts s.leaves s.w b k') : s.w.its a = s.w.its b ↔ k = k' := by
  have hso := hI.sorted
  have hnd := hI.lf.nd
  obtain ⟨l, hl, p, v, h1, h2⟩ := ha
  obtain ⟨l', hl', p', v', h1', h2'⟩ := hb
  rw [h1, h1']
  constructor
  · intro h
    simp only [Option.some.injEq, Prod.mk.injEq] at h
    have := bid_inj hnd hl hl' h.1
    subst this
    rw [h.2, h2'] at h2
    simp at h2; exact h2.1.symm
  · rintro rfl
    obtain ⟨A, C, hE⟩ := mem_split hl
    rw [hE] at hso hl'
    simp only [ents_append, ents_cons] at hso
    have s1 := List.pairwise_append.mp hso
    have s2 := List.pairwise_append.mp s1.2.1
    have hm : (k, v) ∈ l.els := List.mem_of_getElem? h2
    have hm' : (k, v') ∈ l'.els := List.mem_of_getElem? h2'
    have hll : l' = l := by
      rcases List.mem_append.mp hl' with h | h
      · exact absurd (s1.2.2 (k, v') (mem_ents.mpr ⟨l', h, hm'⟩) (k, v) (by simp [hm])) (lt_irrefl _)
      · rcases List.mem_cons.mp h with h | h
        · exact h
        · exact absurd (s2.2.2 (k, v) hm (k, v') (mem_ents.mpr ⟨l', h, hm'⟩)) (lt_irrefl _)
    subst hll
    have s3 := s2.1
    rw [List.pairwise_iff_getElem] at s3
    obtain ⟨hp, e1⟩ := List.getElem?_eq_some_iff.mp h2
    obtain ⟨hp', e2⟩ := List.getElem?_eq_some_iff.mp h2'
    rcases Nat.lt_trichotomy p p' with h | h | h
    · have := s3 p p' hp hp' h; rw [e1, e2] at this; exact absurd this (lt_irrefl _)
    · rw [h]
    · have := s3 p' p hp' hp h; rw [e1, e2] at this; exact absurd this (lt_irrefl _)

theorem pts_ne_end {c : Cfg K} {R : List Nat} {s : St K V} (hI : Inv c R s) {a : Nat} {k : K}
    (ha : Pts s.leaves s.w a k) : s.w.its a ≠ s.w.its 0 := by
  obtain ⟨l, hl, p, v, h1, h2⟩ := ha
  obtain ⟨z, z1, z2⟩ := hI.lf.fin
  have hz := List.mem_of_getLast? z1
  intro h
  rw [h1, z2] at h
  simp only [Option.some.injEq, Prod.mk.injEq] at h
  have := bid_inj hI.lf.nd hl hz h.1
  subst this
  obtain ⟨hp, _⟩ := List.getElem?_eq_some_iff.mp h2
  omega

end BTree
