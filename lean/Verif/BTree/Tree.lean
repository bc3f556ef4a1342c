/-
Shape of the tree: order of the keys, sizes of the blocks, and how they behave under cutting and
concatenating blocks.
-/
import Verif.BTree.Leaves
import Mathlib.Order.Defs.LinearOrder
import Mathlib.Data.List.Perm.Basic

namespace BTree
variable {K V X : Type} [LinearOrder K]

/-- `k` is above the (exclusive) lower bound `lo`; `none` is minus infinity. -/
def GtO (lo : Option K) (k : K) : Prop := ∀ a, lo = some a → a < k

/-- Entries with ascending keys; each child satisfies `P` between the previous key and its own. -/
def Kids (P : Option K → K → X → Prop) : Option K → List (K × X) → Option K → Prop
  | lo, [], hi => lo = hi
  | lo, (k, x) :: rest, hi => GtO lo k ∧ P lo k x ∧ Kids P (some k) rest hi

/-- Order of the entries of a block of level `h` whose keys lie in `(lo, hi]`. -/
def OrdE : (h : Nat) → Option K → K → List (K × Cont K V h) → Prop
  | 0, lo, hi, els => els.Pairwise (fun a b => a.1 < b.1) ∧ ∀ e ∈ els, GtO lo e.1 ∧ e.1 ≤ hi
  | h + 1, lo, hi, els => Kids (fun lo k (b : Tree K V h) => OrdE h lo k b.els) lo els (some hi)

/-- Sizes of all blocks strictly below. -/
def GoodE (c : Cfg K) : (h : Nat) → List (K × Cont K V h) → Prop
  | 0, _ => True
  | h + 1, els => ∀ e ∈ els, c.min h ≤ (Blk.els (Prod.snd e)).length ∧ (Blk.els (Prod.snd e)).length ≤ c.max h ∧ GoodE c h (Blk.els (Prod.snd e))

/-- The comparator is the order of the keys and the blocks are not tiny (assertions leaf.h:174, node.h:211). -/
structure Cfg.Ok (c : Cfg K) : Prop where
  lt : ∀ a b, c.lt a b = decide (a < b)
  leaf : 4 ≤ c.maxL
  node : 4 ≤ c.maxN

theorem Cfg.Ok.max {c : Cfg K} (hc : c.Ok) (h : Nat) : 4 ≤ c.max h := by
  cases h
  · exact hc.leaf
  · exact hc.node

theorem eqv_iff {c : Cfg K} (hc : c.Ok) (a b : K) : eqv c.lt a b = true ↔ a = b := by
  unfold eqv
  rw [hc.lt, hc.lt]
  simp only [Bool.not_eq_true', Bool.or_eq_false_iff, decide_eq_false_iff_not, not_lt]
  constructor
  · rintro ⟨h1, h2⟩; exact le_antisymm h2 h1
  · rintro rfl; exact ⟨le_refl _, le_refl _⟩

theorem Kids.append {P : Option K → K → X → Prop} : ∀ {A B : List (K × X)} {lo hi : Option K},
    Kids P lo (A ++ B) hi ↔ ∃ mid, Kids P lo A mid ∧ Kids P mid B hi
  | [], B, lo, hi => by
    constructor
    · intro h; exact ⟨lo, rfl, h⟩
    · rintro ⟨m, e, h⟩; cases e; exact h
  | (k, x) :: A, B, lo, hi => by
    constructor
    · rintro ⟨h1, h2, h3⟩
      obtain ⟨m, h4, h5⟩ := Kids.append.mp h3
      exact ⟨m, ⟨h1, h2, h4⟩, h5⟩
    · rintro ⟨m, ⟨h1, h2, h3⟩, h4⟩
      exact ⟨h1, h2, Kids.append.mpr ⟨m, h3, h4⟩⟩

/-- `a` is at or below the upper end `hi`. -/
theorem Kids.lo_le {P : Option K → K → X → Prop} : ∀ {A : List (K × X)} {lo hi : Option K} {a : K},
    Kids P lo A hi → lo = some a → ∃ b, hi = some b ∧ a ≤ b ∧ (A ≠ [] → a < b)
  | [], lo, hi, a, h, e => by cases h; exact ⟨a, e, le_refl _, fun h => absurd rfl h⟩
  | (k, x) :: A, lo, hi, a, ⟨h1, h2, h3⟩, e => by
    obtain ⟨b, e', h4, _⟩ := Kids.lo_le h3 rfl
    have := h1 a e
    exact ⟨b, e', le_of_lt (lt_of_lt_of_le this h4), fun _ => lt_of_lt_of_le this h4⟩

theorem Kids.keys {P : Option K → K → X → Prop} : ∀ {A : List (K × X)} {lo hi : Option K},
    Kids P lo A hi → ∀ e ∈ A, GtO lo e.1 ∧ ∃ b, hi = some b ∧ e.1 ≤ b
  | [], _, _, _, e, he => by simp at he
  | (k, x) :: A, lo, hi, ⟨h1, h2, h3⟩, e, he => by
    rcases List.mem_cons.mp he with rfl | he
    · obtain ⟨b, e', h4, _⟩ := Kids.lo_le h3 rfl
      exact ⟨h1, b, e', h4⟩
    · obtain ⟨h5, b, e', h6⟩ := Kids.keys h3 e he
      exact ⟨fun a ha => lt_trans (h1 a ha) (h5 k rfl), b, e', h6⟩

theorem Kids.last {P : Option K → K → X → Prop} {A : List (K × X)} {e : K × X} {lo hi : Option K}
    (h : Kids P lo (A ++ [e]) hi) : hi = some e.1 := by
  obtain ⟨m, _, h2⟩ := Kids.append.mp h
  exact h2.2.2.symm

theorem Kids.sorted {P : Option K → K → X → Prop} : ∀ {A : List (K × X)} {lo hi : Option K},
    Kids P lo A hi → A.Pairwise (fun a b => a.1 < b.1)
  | [], _, _, _ => List.Pairwise.nil
  | (k, x) :: A, lo, hi, ⟨h1, h2, h3⟩ => by
    refine List.Pairwise.cons ?_ (Kids.sorted h3)
    intro e he
    exact (Kids.keys h3 e he).1 k rfl

theorem Kids.mem {P : Option K → K → X → Prop} : ∀ {A : List (K × X)} {lo hi : Option K},
    Kids P lo A hi → ∀ e ∈ A, ∃ lo', P lo' e.1 e.2
  | [], _, _, _, e, he => by simp at he
  | (k, x) :: A, lo, hi, ⟨h1, h2, h3⟩, e, he => by
    rcases List.mem_cons.mp he with rfl | he
    · exact ⟨lo, h2⟩
    · exact Kids.mem h3 e he

/-! ### Searching -/

theorem lb_append {c : Cfg K} (hc : c.Ok) {k : K} {A B : List (K × X)} (hA : ∀ e ∈ A, e.1 < k)
    (hB : ∀ e, B.head? = some e → k ≤ e.1) : lb c.lt k (A ++ B) = A.length := by
  unfold lb
  rw [List.takeWhile_append_of_pos (by intro e he; rw [hc.lt]; exact decide_eq_true (hA e he))]
  have : B.takeWhile (fun e => c.lt e.1 k) = [] := by
    cases B with
    | nil => rfl
    | cons b B =>
      rw [List.takeWhile_cons, if_neg]
      rw [hc.lt, decide_eq_true_eq]; exact not_lt.mpr (hB b rfl)
  simp [this]

theorem ub_append {c : Cfg K} (hc : c.Ok) {k : K} {A B : List (K × X)} (hA : ∀ e ∈ A, e.1 ≤ k)
    (hB : ∀ e, B.head? = some e → k < e.1) : ub c.lt k (A ++ B) = A.length := by
  unfold ub
  rw [List.takeWhile_append_of_pos (by
    intro e he; rw [hc.lt, Bool.not_eq_true', decide_eq_false_iff_not]; exact not_lt.mpr (hA e he))]
  have : B.takeWhile (fun e => !c.lt k e.1) = [] := by
    cases B with
    | nil => rfl
    | cons b B =>
      rw [List.takeWhile_cons, if_neg]
      rw [hc.lt, Bool.not_eq_true', decide_eq_false_iff_not, not_not]; exact hB b rfl
  simp [this]

/-- A sorted array splits at `std::lower_bound`. -/
theorem lb_split {c : Cfg K} (hc : c.Ok) (k : K) : ∀ {els : List (K × X)}, els.Pairwise (fun a b => a.1 < b.1) →
    ∃ A B, els = A ++ B ∧ (∀ e ∈ A, e.1 < k) ∧ (∀ e ∈ B, k ≤ e.1) ∧ lb c.lt k els = A.length
  | [], _ => ⟨[], [], rfl, by simp, by simp, rfl⟩
  | e :: els, h => by
    rw [List.pairwise_cons] at h
    by_cases hk : e.1 < k
    · obtain ⟨A, B, h1, h2, h3, h4⟩ := lb_split hc k h.2
      refine ⟨e :: A, B, by rw [h1]; rfl, ?_, h3, ?_⟩
      · intro x hx; rcases List.mem_cons.mp hx with rfl | hx
        · exact hk
        · exact h2 x hx
      · unfold lb at h4 ⊢
        rw [List.takeWhile_cons, if_pos (by rw [hc.lt]; exact decide_eq_true hk), List.length_cons, h4, List.length_cons]
    · refine ⟨[], e :: els, rfl, by simp, ?_, ?_⟩
      · intro x hx; rcases List.mem_cons.mp hx with rfl | hx
        · exact not_lt.mp hk
        · exact le_of_lt (lt_of_le_of_lt (not_lt.mp hk) (h.1 x hx))
      · unfold lb
        rw [List.takeWhile_cons, if_neg (by rw [hc.lt, decide_eq_true_eq]; exact hk)]

theorem ub_split {c : Cfg K} (hc : c.Ok) (k : K) : ∀ {els : List (K × X)}, els.Pairwise (fun a b => a.1 < b.1) →
    ∃ A B, els = A ++ B ∧ (∀ e ∈ A, e.1 ≤ k) ∧ (∀ e ∈ B, k < e.1) ∧ ub c.lt k els = A.length
  | [], _ => ⟨[], [], rfl, by simp, by simp, rfl⟩
  | e :: els, h => by
    rw [List.pairwise_cons] at h
    by_cases hk : e.1 ≤ k
    · obtain ⟨A, B, h1, h2, h3, h4⟩ := ub_split hc k h.2
      refine ⟨e :: A, B, by rw [h1]; rfl, ?_, h3, ?_⟩
      · intro x hx; rcases List.mem_cons.mp hx with rfl | hx
        · exact hk
        · exact h2 x hx
      · unfold ub at h4 ⊢
        rw [List.takeWhile_cons, if_pos (by rw [hc.lt, Bool.not_eq_true', decide_eq_false_iff_not]; exact not_lt.mpr hk),
          List.length_cons, h4, List.length_cons]
    · refine ⟨[], e :: els, rfl, by simp, ?_, ?_⟩
      · intro x hx; rcases List.mem_cons.mp hx with rfl | hx
        · exact not_le.mp hk
        · exact lt_trans (not_le.mp hk) (h.1 x hx)
      · unfold ub
        rw [List.takeWhile_cons, if_neg (by rw [hc.lt, Bool.not_eq_true', decide_eq_false_iff_not, not_not]; exact not_le.mp hk)]

/-- The child a search for `k` in `(lo, hi]` descends to. -/
theorem kids_find {c : Cfg K} (hc : c.Ok) {P : Option K → K → X → Prop} {els : List (K × X)} {lo : Option K} {hi k : K}
    (h : Kids P lo els (some hi)) (h1 : GtO lo k) (h2 : k ≤ hi) :
    ∃ A k' x B mid, els = A ++ (k', x) :: B ∧ lb c.lt k els = A.length ∧ Kids P lo A mid ∧ GtO mid k ∧ GtO mid k' ∧
      k ≤ k' ∧ P mid k' x ∧ Kids P (some k') B (some hi) ∧ (∀ e ∈ A, e.1 < k) := by
  obtain ⟨A, B, rfl, hA, hB, hl⟩ := lb_split hc k h.sorted
  obtain ⟨mid, m1, m2⟩ := Kids.append.mp h
  have gm : GtO mid k := by
    intro a ha
    rcases List.eq_nil_or_concat A with rfl | ⟨A', z, rfl⟩
    · cases m1; exact h1 a ha
    · rw [List.concat_eq_append] at m1
      have := m1.last
      rw [ha] at this
      cases this
      exact hA z (by simp)
  cases B with
  | nil =>
    cases m2
    exact absurd (gm hi rfl) (not_lt.mpr h2)
  | cons b B =>
    obtain ⟨k', x⟩ := b
    exact ⟨A, k', x, B, mid, rfl, hl, m1, gm, m2.1, hB (k', x) (by simp), m2.2.1, m2.2.2, hA⟩

theorem kids_findU {c : Cfg K} (hc : c.Ok) {P : Option K → K → X → Prop} {els : List (K × X)} {lo : Option K} {hi k : K}
    (h : Kids P lo els (some hi)) (h1 : ∀ a, lo = some a → a ≤ k) (h2 : k < hi) :
    ∃ A k' x B mid, els = A ++ (k', x) :: B ∧ ub c.lt k els = A.length ∧ Kids P lo A mid ∧ (∀ a, mid = some a → a ≤ k) ∧
      k < k' ∧ P mid k' x ∧ Kids P (some k') B (some hi) ∧ (∀ e ∈ A, e.1 ≤ k) := by
  obtain ⟨A, B, rfl, hA, hB, hl⟩ := ub_split hc k h.sorted
  obtain ⟨mid, m1, m2⟩ := Kids.append.mp h
  have gm : ∀ a, mid = some a → a ≤ k := by
    intro a ha
    rcases List.eq_nil_or_concat A with rfl | ⟨A', z, rfl⟩
    · cases m1; exact h1 a ha
    · rw [List.concat_eq_append] at m1
      have := m1.last
      rw [ha] at this
      cases this
      exact hA z (by simp)
  cases B with
  | nil =>
    cases m2
    exact absurd (gm hi rfl) (not_le.mpr h2)
  | cons b B =>
    obtain ⟨k', x⟩ := b
    exact ⟨A, k', x, B, mid, rfl, hl, m1, gm, hB (k', x) (by simp), m2.2.1, m2.2.2, hA⟩

/-! ### Cutting and concatenating blocks -/

theorem GtO.mono {lo : Option K} {a b : K} (h : GtO lo a) (hab : a ≤ b) : GtO lo b :=
  fun x hx => lt_of_lt_of_le (h x hx) hab

theorem ord_concat : ∀ {h : Nat} {lo : Option K} {mid hi : K} {A B : List (K × Cont K V h)}, GtO lo mid → mid ≤ hi →
    OrdE h lo mid A → OrdE h (some mid) hi B → OrdE h lo hi (A ++ B)
  | 0, lo, mid, hi, A, B, g, le, ⟨s1, k1⟩, ⟨s2, k2⟩ => by
    refine ⟨List.pairwise_append.mpr ⟨s1, s2, ?_⟩, ?_⟩
    · intro a ha b hb
      exact lt_of_le_of_lt (k1 a ha).2 ((k2 b hb).1 mid rfl)
    · intro e he
      rcases List.mem_append.mp he with he | he
      · exact ⟨(k1 e he).1, le_trans (k1 e he).2 le⟩
      · exact ⟨GtO.mono g (le_of_lt ((k2 e he).1 mid rfl)), (k2 e he).2⟩
  | h + 1, lo, mid, hi, A, B, _, _, h1, h2 => Kids.append.mpr ⟨some mid, h1, h2⟩

/-- Cutting a block: the key of the last entry of the left part separates the parts. -/
theorem ord_cut : ∀ {h : Nat} {lo : Option K} {hi : K} {A B : List (K × Cont K V h)} {e : K × Cont K V h},
    OrdE h lo hi (A ++ B) → A.getLast? = some e → B ≠ [] →
      GtO lo e.1 ∧ e.1 < hi ∧ OrdE h lo e.1 A ∧ OrdE h (some e.1) hi B
  | 0, lo, hi, A, B, e, ⟨s, k⟩, he, hB => by
    obtain ⟨b, hb⟩ := List.exists_mem_of_ne_nil B hB
    have hm : e ∈ A := List.mem_of_getLast? he
    obtain ⟨s1, s2, s3⟩ := List.pairwise_append.mp s
    obtain ⟨A', rfl⟩ := List.getLast?_eq_some_iff.mp he
    refine ⟨(k e (by simp)).1, lt_of_lt_of_le (s3 e (by simp) b hb) (k b (by simp [hb])).2, ⟨s1, ?_⟩, s2, ?_⟩
    · intro x hx
      refine ⟨(k x (by simp only [List.mem_append] at hx ⊢; tauto)).1, ?_⟩
      rcases List.mem_append.mp hx with h | h
      · exact le_of_lt ((List.pairwise_append.mp s1).2.2 x h e (by simp))
      · rw [List.mem_singleton.mp h]
    · intro x hx
      exact ⟨fun a ha => by cases ha; exact s3 e (by simp) x hx, (k x (by simp [hx])).2⟩
  | h + 1, lo, hi, A, B, e, hh, he, hB => by
    obtain ⟨A', rfl⟩ := List.getLast?_eq_some_iff.mp he
    obtain ⟨m, h1, h2⟩ := Kids.append.mp hh
    have hm := h1.last
    subst hm
    refine ⟨(Kids.keys h1 e (by simp)).1, ?_, h1, h2⟩
    obtain ⟨b, hb, _, h3⟩ := Kids.lo_le h2 rfl
    cases hb
    exact h3 hB

theorem good_append {c : Cfg K} : ∀ {h : Nat} {A B : List (K × Cont K V h)},
    GoodE c h (A ++ B) ↔ GoodE c h A ∧ GoodE c h B
  | 0, _, _ => by simp [GoodE]
  | h + 1, A, B => by
    simp only [GoodE, List.mem_append]
    constructor
    · intro hh; exact ⟨fun e he => hh e (Or.inl he), fun e he => hh e (Or.inr he)⟩
    · rintro ⟨h1, h2⟩ e (he | he)
      · exact h1 e he
      · exact h2 e he

theorem ord_last : ∀ {h : Nat} {lo : Option K} {hi : K} {els : List (K × Cont K V h)} {e : K × Cont K V h},
    OrdE h lo hi els → e ∈ els → GtO lo e.1 ∧ e.1 ≤ hi
  | 0, _, _, _, _, ⟨_, k⟩, he => k _ he
  | h + 1, _, hi, _, e, hh, he => by
    obtain ⟨h1, b, hb, h2⟩ := Kids.keys hh e he
    cases hb; exact ⟨h1, h2⟩

/-- Leaves and blocks of a list of entries of level `h`. -/
def leavesK (h : Nat) (els : List (K × Tree K V h)) : List (Blk K V) := els.flatMap (fun e => leaves h e.2)
def bidsK (h : Nat) (els : List (K × Tree K V h)) : List Nat := els.flatMap (fun e => dealloc h e.2)

@[simp] theorem leavesK_append (h : Nat) (A B : List (K × Tree K V h)) :
    leavesK h (A ++ B) = leavesK h A ++ leavesK h B := by simp [leavesK]
@[simp] theorem leavesK_cons (h : Nat) (e : K × Tree K V h) (B : List (K × Tree K V h)) :
    leavesK h (e :: B) = leaves h e.2 ++ leavesK h B := by simp [leavesK]
@[simp] theorem leavesK_nil (h : Nat) : leavesK (K := K) (V := V) h [] = [] := rfl
@[simp] theorem bidsK_append (h : Nat) (A B : List (K × Tree K V h)) :
    bidsK h (A ++ B) = bidsK h A ++ bidsK h B := by simp [bidsK]
@[simp] theorem bidsK_cons (h : Nat) (e : K × Tree K V h) (B : List (K × Tree K V h)) :
    bidsK h (e :: B) = dealloc h e.2 ++ bidsK h B := by simp [bidsK]
@[simp] theorem bidsK_nil (h : Nat) : bidsK (K := K) (V := V) h [] = [] := rfl

theorem leaves_succ (h : Nat) (n : Tree K V (h + 1)) : leaves (h + 1) n = leavesK h n.els := rfl
theorem dealloc_succ (h : Nat) (n : Tree K V (h + 1)) : dealloc (h + 1) n = bidsK h n.els ++ [n.bid] := rfl

theorem bidsK_sub_aux {h : Nat} (ih : ∀ b : Tree K V h, ∃ R, (dealloc h b).Perm ((leaves h b).map Blk.bid ++ R)) :
    ∀ els : List (K × Tree K V h), ∃ R, (bidsK h els).Perm ((leavesK h els).map Blk.bid ++ R)
  | [] => ⟨[], List.Perm.refl _⟩
  | e :: els => by
    obtain ⟨R1, h1⟩ := ih e.2
    obtain ⟨R2, h2⟩ := bidsK_sub_aux ih els
    refine ⟨R1 ++ R2, ?_⟩
    simp only [bidsK_cons, leavesK_cons, List.map_append]
    refine (h1.append h2).trans ?_
    simp only [List.append_assoc]
    refine List.Perm.append_left _ ?_
    rw [← List.append_assoc, ← List.append_assoc]
    exact List.Perm.append_right _ List.perm_append_comm

theorem leaves_sub : ∀ (h : Nat) (b : Tree K V h), ∃ R, (dealloc h b).Perm ((leaves h b).map Blk.bid ++ R)
  | 0, l => ⟨[], List.Perm.refl _⟩
  | h + 1, n => by
    obtain ⟨R, hR⟩ := bidsK_sub_aux (leaves_sub h) n.els
    exact ⟨R ++ [n.bid], by rw [dealloc_succ, leaves_succ, ← List.append_assoc]; exact hR.append_right _⟩

theorem leavesK_sub (h : Nat) (els : List (K × Tree K V h)) :
    ∃ R, (bidsK h els).Perm ((leavesK h els).map Blk.bid ++ R) := bidsK_sub_aux (leaves_sub h) els

end BTree
