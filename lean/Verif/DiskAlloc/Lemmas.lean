import Verif.DiskAlloc.Model

/-! Helper lemmas for the disk allocator model. -/

namespace Stxxl.DiskAlloc

/-- Regions are non-empty, ascending and no two of them touch (fully coalesced). -/
def Sep (m : FreeMap) : Prop :=
  m.Pairwise (fun a b => a.1 + a.2 < b.1) ∧ ∀ a ∈ m, 0 < a.2

/-- Byte `x` lies in the region `r`. -/
def InRegion (r : Region) (x : Int) : Prop := r.1 ≤ x ∧ x < r.1 + r.2

/-- Byte `x` lies in one of the regions. -/
def Covers (m : List Region) (x : Int) : Prop := ∃ r ∈ m, InRegion r x

/-- Two regions share a byte. -/
def Overlap (a b : Region) : Prop := a.1 < b.1 + b.2 ∧ b.1 < a.1 + a.2

instance (a b : Region) : Decidable (Overlap a b) := inferInstanceAs (Decidable (_ ∧ _))

def total (m : List Region) : Int := (m.map (·.2)).sum

@[simp] theorem total_nil : total [] = 0 := rfl
@[simp] theorem total_cons (a m) : total (a :: m) = a.2 + total m := by simp [total]
@[simp] theorem total_append (a b) : total (a ++ b) = total a + total b := by
  induction a with
  | nil => simp
  | cons x a ih => simp [ih, Int.add_assoc]

@[simp] theorem covers_nil (x) : Covers [] x ↔ False := by simp [Covers]
@[simp] theorem covers_cons (a m x) : Covers (a :: m) x ↔ InRegion a x ∨ Covers m x := by
  simp [Covers]
@[simp] theorem covers_append (a b x) : Covers (a ++ b) x ↔ Covers a x ∨ Covers b x := by
  simp only [Covers, List.mem_append]
  grind

theorem sep_append {a b : FreeMap} :
    Sep (a ++ b) ↔ Sep a ∧ Sep b ∧ ∀ x ∈ a, ∀ y ∈ b, x.1 + x.2 < y.1 := by
  simp only [Sep, List.pairwise_append, List.mem_append]; grind

theorem sep_cons {e : Region} {b : FreeMap} :
    Sep (e :: b) ↔ 0 < e.2 ∧ Sep b ∧ ∀ y ∈ b, e.1 + e.2 < y.1 := by
  simp only [Sep, List.pairwise_cons, List.mem_cons]; grind

@[simp] theorem sep_nil : Sep [] := by simp [Sep]

theorem sep_split {m : FreeMap} (h : Sep m) (pos : Int) :
    ∃ lo hi, m = lo ++ hi ∧ upperBound m pos = (lo, hi) ∧
      (∀ a ∈ lo, a.1 ≤ pos) ∧ (∀ a ∈ hi, pos < a.1) := by
  induction m with
  | nil => exact ⟨[], [], by simp [upperBound]⟩
  | cons e m ih =>
    obtain ⟨he, hm, hlt⟩ := sep_cons.1 h
    by_cases hp : e.1 ≤ pos
    · obtain ⟨lo, hi, h1, h2, h3, h4⟩ := ih hm
      refine ⟨e :: lo, hi, by simp [h1], ?_, ?_, h4⟩
      · simp only [upperBound, Prod.mk.injEq] at h2 ⊢
        simp [hp, h2]
      · simp; exact ⟨hp, by simpa using h3⟩
    · refine ⟨[], e :: m, rfl, ?_, by simp, ?_⟩
      · simp [upperBound, hp]
      · simp only [List.mem_cons]
        rintro a (rfl | ha)
        · omega
        · have := hlt a ha; omega

theorem mapErase_mid {a b : FreeMap} {q : Region} (h : Sep (a ++ q :: b)) :
    mapErase (a ++ q :: b) q.1 = a ++ b := by
  obtain ⟨h1, h2, h3⟩ := sep_append.1 h
  obtain ⟨h4, h5, h6⟩ := sep_cons.1 h2
  have ha : a.filter (fun e => decide (e.1 ≠ q.1)) = a := by
    rw [List.filter_eq_self]
    intro x hx
    have := h3 x hx q (by simp)
    have := h1.2 x hx
    simp; omega
  have hb : b.filter (fun e => decide (e.1 ≠ q.1)) = b := by
    rw [List.filter_eq_self]
    intro x hx
    have := h6 x hx
    simp; omega
  simp only [mapErase, List.filter_append, List.filter_cons, ha, hb]
  simp

theorem mapSet_mid {a b : FreeMap} {k v : Int} (ha : ∀ x ∈ a, x.1 < k) (hb : ∀ x ∈ b, k < x.1) :
    mapSet (a ++ b) k v = a ++ (k, v) :: b := by
  induction a with
  | nil =>
    cases b with
    | nil => simp [mapSet]
    | cons e b => have := hb e (by simp); simp [mapSet, this]
  | cons e a ih =>
    have h := ha e (by simp)
    have h1 : ¬ k < e.1 := by omega
    have h2 : ¬ k = e.1 := by omega
    simp only [List.cons_append, mapSet, h1, h2, if_false]
    rw [ih (fun x hx => ha x (by simp [hx]))]

theorem list_snoc_cases {α} (l : List α) : l = [] ∨ ∃ l' x, l = l' ++ [x] := by
  rcases List.eq_nil_or_concat l with h | ⟨l', x, h⟩
  · exact .inl h
  · exact .inr ⟨l', x, by simpa using h⟩

/-- What a successful `add_free_region` guarantees. -/
def AddSpec (s s' : State) (pos size : Int) : Prop :=
  Sep s'.free ∧ (∀ x, Covers s'.free x ↔ Covers s.free x ∨ InRegion (pos, size) x) ∧
  s'.freeBytes = s.freeBytes + size ∧ total s'.free = total s.free + size ∧
  s'.diskBytes = s.diskBytes ∧ s'.autogrow = s.autogrow

theorem addFree_overlap {s : State} {pos size : Int} (hsep : Sep s.free) (_hsz : 0 < size)
    (hov : ∃ r ∈ s.free, Overlap r (pos, size)) :
    addFreeRegion s pos size = .error .doubleFree := by
  obtain ⟨lo, hi, hm, hub, hlo, hhi⟩ := sep_split hsep pos
  obtain ⟨r, hr, ho⟩ := hov
  have hne : s.free ≠ [] := by intro h; rw [h] at hr; simp at hr
  rw [hm] at hsep
  obtain ⟨slo, shi, sx⟩ := sep_append.1 hsep
  simp only [Overlap] at ho
  unfold addFreeRegion
  rw [if_neg hne]
  simp only [hub]
  rw [hm, List.mem_append] at hr
  rcases hr with hr | hr
  · -- overlap with something on the left: must be the last one
    rcases list_snoc_cases lo with h | ⟨lo', q, h⟩
    · simp [h] at hr
    · have hq : q.1 ≤ pos ∧ q.1 + q.2 > pos := by
        refine ⟨hlo q (by simp [h]), ?_⟩
        rw [h, List.mem_append] at hr
        rcases hr with hr | hr
        · have := (sep_append.1 (h ▸ slo)).2.2 r hr q (by simp)
          have := slo.2 q (by simp [h])
          omega
        · simp at hr; subst hr; omega
      simp [h, hq.1, hq.2]
  · have hne2 : hi ≠ [] := by intro h; simp [h] at hr
    obtain ⟨t, hi', rfl⟩ := List.exists_cons_of_ne_nil hne2
    have ht : pos ≤ t.1 ∧ pos + size > t.1 := by
      have hpt := hhi t (by simp)
      refine ⟨by omega, ?_⟩
      rcases List.mem_cons.1 hr with rfl | hr
      · omega
      · have := (sep_cons.1 shi).2.2 r hr
        have := (sep_cons.1 shi).1
        omega
    have h2 : (pos ≤ t.1 ∧ pos + size > t.1) = True := by simp [ht]
    simp only [List.head?_cons, Option.any_some, h2, decide_true, if_true, ite_self]

theorem addSpec_of {s : State} {A B : FreeMap} {k v pos size : Int} (sA : Sep A) (sB : Sep B)
    (hA : ∀ x ∈ A, x.1 + x.2 < k) (hB : ∀ y ∈ B, k + v < y.1) (hv : 0 < v)
    (hcov : ∀ x, (Covers A x ∨ InRegion (k, v) x ∨ Covers B x) ↔
      (Covers s.free x ∨ InRegion (pos, size) x))
    (htot : total A + v + total B = total s.free + size) :
    AddSpec s (put s (A ++ B) k v size) pos size := by
  have e : mapSet (A ++ B) k v = A ++ (k, v) :: B :=
    mapSet_mid (fun x hx => by have := hA x hx; have := sA.2 x hx; omega)
      (fun y hy => by have := hB y hy; omega)
  refine ⟨?_, ?_, rfl, ?_, rfl, rfl⟩
  · simp only [put, e]
    rw [sep_append, sep_cons]
    refine ⟨sA, ⟨hv, sB, hB⟩, fun x hx y hy => ?_⟩
    rcases List.mem_cons.1 hy with rfl | hy
    · exact hA x hx
    · have := hA x hx; have := hB y hy; omega
  · intro x
    simp only [put, e, covers_append, covers_cons]
    exact hcov x
  · simp only [put, e, total_append, total_cons]; omega

theorem addFree_ok {s : State} {pos size : Int} (hsep : Sep s.free) (hsz : 0 < size)
    (hov : ∀ r ∈ s.free, ¬ Overlap r (pos, size)) :
    ∃ s', addFreeRegion s pos size = .ok s' ∧ AddSpec s s' pos size := by
  obtain ⟨lo, hi, hm, hub, hlo, hhi⟩ := sep_split hsep pos
  have hsep0 := hsep
  rw [hm] at hsep
  obtain ⟨slo, shi, sx⟩ := sep_append.1 hsep
  have hL : ∀ q ∈ lo, q.1 + q.2 ≤ pos := by
    intro q hq
    have h1 := hov q (by simp [hm, hq])
    have h2 := hlo q hq
    simp only [Overlap] at h1; omega
  have hH : ∀ t ∈ hi, pos + size ≤ t.1 := by
    intro q hq
    have h1 := hov q (by simp [hm, hq])
    have h2 := hhi q hq
    have h3 := shi.2 q hq
    simp only [Overlap] at h1; omega
  have hLp : ∀ q ∈ lo, 0 < q.2 := slo.2
  have hHp : ∀ q ∈ hi, 0 < q.2 := shi.2
  unfold addFreeRegion
  simp only [hub]
  by_cases hne : s.free = []
  · rw [if_pos hne]
    refine ⟨_, rfl, ?_⟩
    have := addSpec_of (s := s) (A := []) (B := []) (k := pos) (v := size) (pos := pos) (size := size)
      (by simp) (by simp) (by simp) (by simp) hsz (by simp [hne]) (by simp [hne])
    simpa [hne] using this
  rw [if_neg hne]
  rcases list_snoc_cases lo with h | ⟨lo', q, h⟩
  · -- no predecessor
    subst h
    have hne2 : hi ≠ [] := by intro h; simp [h] at hm; exact hne hm
    obtain ⟨t, hi', rfl⟩ := List.exists_cons_of_ne_nil hne2
    simp only [List.nil_append] at hm
    have hpt := hhi t (by simp)
    have htH := hH t (by simp)
    have d1 : ¬ (t.1 ≤ pos) := by omega
    have d2 : ¬ (t.1 < pos + size) := by omega
    obtain ⟨t1, t2, t3⟩ := sep_cons.1 shi
    by_cases hj : t.1 = pos + size
    · have e1 : mapErase s.free (pos + size) = hi' := by
        have := mapErase_mid (a := []) (b := hi') (q := t) (by simpa using shi)
        simpa [hm, ← hj] using this
      refine ⟨put s ([] ++ hi') pos (size + t.2) size, ?_, ?_⟩
      · have : ¬ (pos + size ≤ pos) := by omega
        simp only [List.head?_cons, if_true, Option.any_some, hj, this, false_and,
          decide_false, Bool.false_eq_true, if_false, ne_eq, not_true_eq_false, gt_iff_lt,
          Int.lt_irrefl, and_false, e1, ite_self, List.nil_append]
      · refine addSpec_of (by simp) t2 (by simp) (fun y hy => ?_) (by omega) (fun x => ?_) ?_
        · have := t3 y hy; omega
        · simp only [hm, covers_cons, covers_nil, InRegion]
          by_cases hc : Covers hi' x
          · simp [hc]
          · simp only [hc, false_or, or_false]; omega
        · simp [hm]; omega
    · refine ⟨put s ([] ++ s.free) pos size size, ?_, ?_⟩
      · simp only [List.head?_cons, if_true, Option.any_some, hj, d1, d2, false_and,
          decide_false, Bool.false_eq_true, if_false, ne_eq, not_true_eq_false, gt_iff_lt,
          and_false, ite_self, List.nil_append]
      · refine addSpec_of (by simp) hsep0 (by simp) (fun y hy => ?_) hsz (fun x => ?_) ?_
        · rw [hm] at hy
          rcases List.mem_cons.1 hy with rfl | hy
          · omega
          · have := t3 y hy; omega
        · simp only [covers_nil]; grind
        · simp; omega
  · -- predecessor q
    have hqlo := hlo q (by simp [h])
    have hqL := hL q (by simp [h])
    have hqp := hLp q (by simp [h])
    have c1 : ¬ (pos < q.1 + q.2) := by omega
    have hlone : lo ≠ [] := by simp [h]
    have hlast : lo.getLast? = some q := by simp [h]
    obtain ⟨l1, l2, l3⟩ := sep_append.1 (h ▸ slo)
    have hl' : ∀ x ∈ lo', x.1 + x.2 < q.1 := fun x hx => l3 x hx q (by simp)
    have hlpos : q.1 + q.2 ≠ pos → ∀ x ∈ lo, x.1 + x.2 < pos := by
      intro hne x hx
      rw [h, List.mem_append] at hx
      rcases hx with hx | hx
      · have := hl' x hx; omega
      · simp at hx; subst hx; omega
    cases hi with
    | nil =>
      simp only [List.append_nil] at hm
      by_cases hj : q.1 + q.2 = pos
      · have e1 : mapErase s.free q.1 = lo' := by
          have := mapErase_mid (a := lo') (b := []) (q := q) (by simpa [← h] using slo)
          simpa [hm, h] using this
        refine ⟨put s (lo' ++ []) q.1 (size + q.2) size, ?_, ?_⟩
        · simp only [hlone, if_false, hlast, Option.any_some, and_false, decide_false, gt_iff_lt,
            Int.lt_irrefl,
            Bool.false_eq_true, List.head?_nil, Option.any_none, hj, if_true, e1, List.append_nil]
        · refine addSpec_of l1 (by simp) hl' (by simp) (by omega) (fun x => ?_) ?_
          · simp only [hm, h, covers_append, covers_cons, covers_nil, InRegion]
            by_cases hc : Covers lo' x
            · simp [hc]
            · simp only [hc, false_or, or_false]; omega
          · simp [hm, h]; omega
      · refine ⟨put s (s.free ++ []) pos size size, ?_, ?_⟩
        · simp only [hlone, if_false, hlast, Option.any_some, and_false, decide_false, gt_iff_lt, c1,
            Bool.false_eq_true, List.head?_nil, Option.any_none, hj, List.append_nil]
        · refine addSpec_of hsep0 (by simp) (hm ▸ hlpos hj) (by simp) hsz (fun x => ?_) ?_
          · simp only [covers_nil]; grind
          · simp
    | cons t hi' =>
      have htH := hH t (by simp)
      have htp := hHp t (by simp)
      have c2 : ¬ (t.1 < pos + size) := by omega
      have hlen : 1 < s.free.length := by rw [hm, h]; simp; omega
      obtain ⟨t1, t2, t3⟩ := sep_cons.1 shi
      have hmm : s.free = lo' ++ q :: t :: hi' := by rw [hm, h]; simp
      have hqt : ∀ y ∈ t :: hi', q.1 + q.2 < y.1 := fun y hy => sx q (by simp [h]) y hy
      by_cases hj : t.1 = pos + size
      · have e1 : mapErase s.free (pos + size) = lo ++ hi' := by
          rw [hm, ← hj]; exact mapErase_mid hsep
        have hB : ∀ y ∈ hi', pos + size + t.2 < y.1 := fun y hy => by have := t3 y hy; omega
        by_cases hk : q.1 + q.2 = pos
        · have sep2 : Sep (lo' ++ q :: hi') := by
            rw [sep_append]; refine ⟨l1, ?_, ?_⟩
            · rw [sep_cons]; exact ⟨hqp, t2, fun y hy => hqt y (by simp [hy])⟩
            · intro x hx y hy
              rcases List.mem_cons.1 hy with rfl | hy
              · exact hl' x hx
              · have := hl' x hx
                have := hqt y (by simp [hy]); omega
          have e3 : mapErase (lo ++ hi') q.1 = lo' ++ hi' := by
            have := mapErase_mid sep2
            rw [h]; simpa using this
          refine ⟨put s (lo' ++ hi') q.1 (size + t.2 + q.2) size, ?_, ?_⟩
          · simp only [hlone, if_false, hlast, Option.any_some, and_false, decide_false, gt_iff_lt,
              Int.lt_irrefl,
              Bool.false_eq_true, List.head?_cons, hlen, if_true, hj, hk, ne_eq,
              not_false_eq_true, e1, e3]
          · refine addSpec_of l1 t2 hl' (fun y hy => ?_) (by omega) (fun x => ?_) ?_
            · have := hB y hy; omega
            · simp only [hmm, covers_append, covers_cons, InRegion]
              by_cases hc : Covers lo' x
              · simp [hc]
              · by_cases hc2 : Covers hi' x
                · simp [hc2]
                · simp only [hc, hc2, false_or, or_false]; omega
            · simp [hmm]; omega
        · refine ⟨put s (lo ++ hi') pos (size + t.2) size, ?_, ?_⟩
          · simp only [hlone, if_false, hlast, Option.any_some, and_false, decide_false, gt_iff_lt,
              Int.lt_irrefl, c1,
              Bool.false_eq_true, List.head?_cons, hlen, if_true, hj, hk, ne_eq,
              not_false_eq_true, e1]
          · refine addSpec_of slo t2 (hlpos hk) (fun y hy => ?_) (by omega) (fun x => ?_) ?_
            · have := hB y hy; omega
            · simp only [hm, covers_append, covers_cons, InRegion]
              by_cases hc : Covers lo x
              · simp [hc]
              · by_cases hc2 : Covers hi' x
                · simp [hc2]
                · simp only [hc, hc2, false_or, or_false]; omega
            · simp [hm]; omega
      · have hB : ∀ y ∈ t :: hi', pos + size < y.1 := fun y hy => by
          rcases List.mem_cons.1 hy with rfl | hy'
          · omega
          · have := t3 y hy'; omega
        by_cases hk : q.1 + q.2 = pos
        · have e3 : mapErase s.free q.1 = lo' ++ t :: hi' := by
            have := mapErase_mid (a := lo') (b := t :: hi') (q := q) (by rw [h] at hsep; simpa using hsep)
            rw [hmm]; simpa using this
          refine ⟨put s (lo' ++ t :: hi') q.1 (size + q.2) size, ?_, ?_⟩
          · simp only [hlone, if_false, hlast, Option.any_some, and_false, decide_false, gt_iff_lt,
              Int.lt_irrefl, c2,
              Bool.false_eq_true, List.head?_cons, hlen, if_true, hj, hk, ne_eq,
              not_false_eq_true, e3]
          · refine addSpec_of l1 shi hl' (fun y hy => ?_) (by omega) (fun x => ?_) ?_
            · have := hB y hy; omega
            · simp only [hmm, covers_append, covers_cons, InRegion]
              by_cases hc : Covers lo' x
              · simp [hc]
              · by_cases hc2 : Covers hi' x
                · simp [hc2]
                · simp only [hc, hc2, false_or, or_false]; omega
            · simp [hmm]; omega
        · refine ⟨put s (lo ++ t :: hi') pos size size, ?_, ?_⟩
          · rw [← hm]
            simp only [hlone, if_false, hlast, Option.any_some, and_false, decide_false, gt_iff_lt,
              c1, c2,
              Bool.false_eq_true, List.head?_cons, hlen, if_true, hj, hk, ne_eq,
              not_false_eq_true]
          · refine addSpec_of slo shi (hlpos hk) hB hsz (fun x => ?_) ?_
            · simp only [hm, covers_append]; grind
            · simp [hm]; omega

end Stxxl.DiskAlloc
