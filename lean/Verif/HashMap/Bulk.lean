import Verif.HashMap.Find

/-! # Bulk insertion agrees with the abstract map -/
namespace Verif.HashMap
variable {K V : Type} {P : Params K V}

/-- The merge of old and new values; new values replace old ones. -/
def mrg (P : Params K V) : List (HV K V) → List (Nat × (K × V)) → List (HV K V)
  | [], ns => ns.map fun x => ⟨x.2, 0, .unknown⟩
  | o :: os, [] => o :: os
  | o :: os, x :: ns =>
    if P.lt o.val.1 x.2.1 then o :: mrg P os (x :: ns)
    else if P.eqv o.val.1 x.2.1 then ⟨x.2, o.bkt, .unknown⟩ :: mrg P os ns
    else ⟨x.2, 0, .unknown⟩ :: mrg P (o :: os) ns
termination_by os ns => os.length + ns.length

theorem mrg_nil_left (ns : List (Nat × (K × V))) :
    mrg P [] ns = ns.map fun x => ⟨x.2, 0, .unknown⟩ := by rw [mrg]

theorem mrg_nil_right (os : List (HV K V)) : mrg P os [] = os := by
  cases os with
  | nil => rw [mrg]; rfl
  | cons o os => rw [mrg]

/-- New values as the sorter and `UniqueValueStream` deliver them. -/
structure NewOK (P : Params K V) (ns : List (Nat × (K × V))) : Prop where
  sort : SortedV P (ns.map (·.2))
  hash : ∀ x ∈ ns, x.1 = P.hash x.2.1

section
variable (ok : P.OK)
include ok

theorem mrg_ok : ∀ (N : Nat) (os : List (HV K V)) (ns : List (Nat × (K × V))), os.length + ns.length ≤ N →
    SortedV P (os.map (·.val)) → SortedV P (ns.map (·.2)) →
    SortedV P ((mrg P os ns).map (·.val)) ∧ ∀ x, x ∈ (mrg P os ns).map (·.val) ↔
      x ∈ ns.map (·.2) ∨ (x ∈ os.map (·.val) ∧ ∀ y ∈ ns.map (·.2), y.1 ≠ x.1) := by
  intro N
  induction N with
  | zero =>
    intro os ns h _ _
    have h1 : os = [] := List.length_eq_zero_iff.1 (by omega)
    have h2 : ns = [] := List.length_eq_zero_iff.1 (by omega)
    subst h1 h2
    rw [mrg_nil_right]
    exact ⟨List.Pairwise.nil, by simp⟩
  | succ N ih =>
    intro os ns hN h1 h2
    cases os with
    | nil =>
      rw [mrg_nil_left, List.map_map]
      exact ⟨h2, fun x => by simp [Function.comp_def]⟩
    | cons o os =>
      cases ns with
      | nil => rw [mrg_nil_right]; exact ⟨h1, fun x => by simp⟩
      | cons x ns =>
        rw [mrg]
        have h1' := h1
        have h2' := h2
        unfold SortedV at h1' h2'
        rw [List.map_cons, List.pairwise_cons] at h1' h2'
        obtain ⟨p1, p2⟩ := h1'
        obtain ⟨q1, q2⟩ := h2'
        simp only [List.length_cons] at hN
        by_cases c1 : P.lt o.val.1 x.2.1 = true
        · rw [if_pos c1]
          obtain ⟨i1, i2⟩ := ih os (x :: ns) (by simp only [List.length_cons]; omega) p2 h2
          have hx : ∀ y ∈ (x :: ns).map (·.2), P.lt o.val.1 y.1 = true := by
            intro y hy
            rcases List.mem_cons.1 hy with rfl | hy
            · exact c1
            · exact ok.lt_trans c1 (q1 y hy)
          constructor
          · unfold SortedV
            rw [List.map_cons, List.pairwise_cons]
            refine ⟨?_, i1⟩
            intro y hy
            rcases (i2 y).1 hy with h | ⟨h, _⟩
            · exact hx y h
            · exact p1 y h
          · intro y
            rw [List.map_cons, List.mem_cons, i2, List.map_cons (l := os), List.mem_cons]
            constructor
            · rintro (rfl | h | ⟨h, h'⟩)
              · exact Or.inr ⟨Or.inl rfl, fun z hz => (ok.lt_ne (hx z hz)).symm⟩
              · exact Or.inl h
              · exact Or.inr ⟨Or.inr h, h'⟩
            · rintro (h | ⟨rfl | h, h'⟩)
              · exact Or.inr (Or.inl h)
              · exact Or.inl rfl
              · exact Or.inr (Or.inr ⟨h, h'⟩)
        · rw [if_neg c1]
          by_cases c2 : P.eqv o.val.1 x.2.1 = true
          · rw [if_pos c2]
            have hk := (ok.eqv_iff _ _).1 c2
            obtain ⟨i1, i2⟩ := ih os ns (by omega) p2 q2
            constructor
            · unfold SortedV
              rw [List.map_cons, List.pairwise_cons]
              refine ⟨?_, i1⟩
              intro y hy
              rcases (i2 y).1 hy with h | ⟨h, _⟩
              · exact q1 y h
              · have := p1 y h; dsimp only; rw [← hk]; exact this
            · intro y
              rw [List.map_cons, List.mem_cons, i2, List.map_cons (l := ns), List.mem_cons,
                List.map_cons (l := os), List.mem_cons]
              dsimp only
              constructor
              · rintro (rfl | h | ⟨h, h'⟩)
                · exact Or.inl (Or.inl rfl)
                · exact Or.inl (Or.inr h)
                · refine Or.inr ⟨Or.inr h, ?_⟩
                  intro z hz
                  rcases List.mem_cons.1 hz with rfl | hz
                  · rw [← hk]; exact ok.lt_ne (p1 y h)
                  · exact h' z hz
              · rintro ((rfl | h) | ⟨rfl | h, h'⟩)
                · exact Or.inl rfl
                · exact Or.inr (Or.inl h)
                · exact absurd hk.symm (h' x.2 (List.mem_cons_self))
                · exact Or.inr (Or.inr ⟨h, fun z hz => h' z (List.mem_cons_of_mem _ hz)⟩)
          · rw [if_neg c2]
            have hlt : P.lt x.2.1 o.val.1 = true := by
              rcases ok.lt_tri x.2.1 o.val.1 with h | h | h
              · exact h
              · exact absurd ((ok.eqv_iff _ _).2 h.symm) c2
              · exact absurd h c1
            obtain ⟨i1, i2⟩ := ih (o :: os) ns (by simp only [List.length_cons]; omega) h1 q2
            have ho : ∀ y ∈ (o :: os).map (·.val), P.lt x.2.1 y.1 = true := by
              intro y hy
              rcases List.mem_cons.1 hy with rfl | hy
              · exact hlt
              · exact ok.lt_trans hlt (p1 y hy)
            constructor
            · unfold SortedV
              rw [List.map_cons, List.pairwise_cons]
              refine ⟨?_, i1⟩
              intro y hy
              rcases (i2 y).1 hy with h | ⟨h, _⟩
              · exact q1 y h
              · exact ho y h
            · intro y
              rw [List.map_cons, List.mem_cons, i2, List.map_cons (l := ns), List.mem_cons]
              dsimp only
              constructor
              · rintro (rfl | h | ⟨h, h'⟩)
                · exact Or.inl (Or.inl rfl)
                · exact Or.inl (Or.inr h)
                · refine Or.inr ⟨h, ?_⟩
                  intro z hz
                  rcases List.mem_cons.1 hz with rfl | hz
                  · exact ok.lt_ne (ho y h)
                  · exact h' z hz
              · rintro ((rfl | h) | ⟨h, h'⟩)
                · exact Or.inl rfl
                · exact Or.inr (Or.inl h)
                · exact Or.inr (Or.inr ⟨h, fun z hz => h' z (List.mem_cons_of_mem _ hz)⟩)

/-! ## `UniqueValueStream` -/

omit ok in
theorem uniq_cons2 (x y : Nat × (K × V)) (ys : List (Nat × (K × V))) :
    uniq (x :: y :: ys) = if x.1 = y.1 then uniq (x :: ys) else x :: uniq (y :: ys) := rfl

omit ok in
theorem uniq_induct {M : List (Nat × (K × V)) → Prop} (case1 : M []) (case2 : ∀ x, M [x])
    (case3 : ∀ x y ys, x.1 = y.1 → M (x :: ys) → M (x :: y :: ys))
    (case4 : ∀ x y ys, ¬ x.1 = y.1 → M (y :: ys) → M (x :: y :: ys)) (xs : List (Nat × (K × V))) : M xs := by
  cases xs with
  | nil => exact case1
  | cons x xs =>
    induction xs generalizing x with
    | nil => exact case2 x
    | cons y ys ih =>
      by_cases h : x.1 = y.1
      · exact case3 x y ys h (ih x)
      · exact case4 x y ys h (ih y)

omit ok in
theorem uniq_mem (xs : List (Nat × (K × V))) : ∀ x ∈ uniq xs, x ∈ xs := by
  induction xs using uniq_induct with
  | case1 => simp [uniq]
  | case2 x => simp [uniq, uniqGo]
  | case3 x y ys h ih =>
    rw [uniq_cons2, if_pos h]
    intro z hz
    rcases List.mem_cons.1 (ih z hz) with rfl | hz
    · exact List.mem_cons_self
    · exact List.mem_cons_of_mem _ (List.mem_cons_of_mem _ hz)
  | case4 x y ys h ih =>
    rw [uniq_cons2, if_neg h]
    intro z hz
    rcases List.mem_cons.1 hz with rfl | hz
    · exact List.mem_cons_self
    · exact List.mem_cons_of_mem _ (ih z hz)

/-- What the sorter delivers, without hash collisions between different new keys. -/
structure BulkOK (P : Params K V) (xs : List (Nat × (K × V))) : Prop where
  sort : xs.Pairwise fun a b => P.lt b.2.1 a.2.1 = false
  hash : ∀ x ∈ xs, x.1 = P.hash x.2.1
  inj : ∀ x ∈ xs, ∀ y ∈ xs, P.hash x.2.1 = P.hash y.2.1 → x.2.1 = y.2.1

variable [DecidableEq K]

theorem uniq_ok (xs : List (Nat × (K × V))) (h : BulkOK P xs) :
    NewOK P (uniq xs) ∧ ∀ k v, (k, v) ∈ (uniq xs).map (·.2) ↔
      (xs.find? fun x => x.2.1 = k).map (fun x => x.2.2) = some v := by
  induction xs using uniq_induct with
  | case1 => exact ⟨⟨by simp [uniq, SortedV], by simp [uniq]⟩, by simp [uniq]⟩
  | case2 x =>
    rw [show uniq [x] = [x] from rfl]
    refine ⟨⟨by simp [SortedV], h.hash⟩, ?_⟩
    intro k v
    rw [List.find?_cons]
    obtain ⟨a, b, c⟩ := x
    by_cases hk : b = k
    · subst hk
      simp only [decide_true, Option.map_some]
      simp [eq_comm]
    · simp [hk, Ne.symm hk]
  | case3 x y ys hxy ih =>
    rw [uniq_cons2, if_pos hxy]
    have hk : x.2.1 = y.2.1 := h.inj x (by simp) y (by simp)
      (by rw [← h.hash x (by simp), ← h.hash y (by simp), hxy])
    have h' : BulkOK P (x :: ys) := by
      refine ⟨?_, ?_, ?_⟩
      · have := h.sort
        rw [List.pairwise_cons, List.pairwise_cons] at this
        rw [List.pairwise_cons]
        exact ⟨fun a ha => this.1 a (List.mem_cons_of_mem _ ha), this.2.2⟩
      · intro z hz
        refine h.hash z ?_
        rcases List.mem_cons.1 hz with rfl | hz
        · simp
        · simp [hz]
      · intro z hz z' hz'
        refine h.inj z ?_ z' ?_
        · rcases List.mem_cons.1 hz with rfl | hz
          · simp
          · simp [hz]
        · rcases List.mem_cons.1 hz' with rfl | hz'
          · simp
          · simp [hz']
    obtain ⟨i1, i2⟩ := ih h'
    refine ⟨i1, ?_⟩
    intro k v
    rw [i2, List.find?_cons, List.find?_cons (as := y :: ys), List.find?_cons (as := ys)]
    rw [← hk]
    by_cases hx : x.2.1 = k <;> simp [hx]
  | case4 x y ys hxy ih =>
    rw [uniq_cons2, if_neg hxy]
    have h' : BulkOK P (y :: ys) := by
      refine ⟨?_, fun z hz => h.hash z (List.mem_cons_of_mem _ hz), fun z hz z' hz' =>
        h.inj z (List.mem_cons_of_mem _ hz) z' (List.mem_cons_of_mem _ hz')⟩
      have := h.sort
      rw [List.pairwise_cons] at this
      exact this.2
    obtain ⟨i1, i2⟩ := ih h'
    have hs := h.sort
    rw [List.pairwise_cons] at hs
    have hlt : P.lt x.2.1 y.2.1 = true := by
      rcases ok.lt_tri x.2.1 y.2.1 with h1 | h1 | h1
      · exact h1
      · exact absurd (by rw [h.hash x (by simp), h.hash y (by simp), h1]) hxy
      · rw [hs.1 y (by simp)] at h1; cases h1
    have hall : ∀ z ∈ y :: ys, P.lt x.2.1 z.2.1 = true := by
      intro z hz
      rcases List.mem_cons.1 hz with rfl | hz
      · exact hlt
      · rw [List.pairwise_cons] at hs
        have := hs.2.1 z hz
        rcases ok.lt_tri y.2.1 z.2.1 with h1 | h1 | h1
        · exact ok.lt_trans hlt h1
        · rw [← h1]; exact hlt
        · rw [this] at h1; cases h1
    refine ⟨⟨?_, ?_⟩, ?_⟩
    · unfold SortedV
      rw [List.map_cons, List.pairwise_cons]
      refine ⟨?_, i1.sort⟩
      intro z hz
      obtain ⟨z', hz', rfl⟩ := List.mem_map.1 hz
      exact hall z' (uniq_mem _ z' hz')
    · intro z hz
      rcases List.mem_cons.1 hz with rfl | hz
      · exact h.hash _ (by simp)
      · exact i1.hash z hz
    · intro k v
      rw [List.map_cons, List.mem_cons, i2, List.find?_cons (as := y :: ys)]
      by_cases hx : x.2.1 = k
      · simp only [hx, decide_true, Option.map_some]
        have hnone : (y :: ys).find? (fun z => z.2.1 = k) = none := by
          rw [List.find?_eq_none]
          intro z hz
          have := ok.lt_ne (hall z hz)
          rw [hx] at this
          simpa using this.symm
        rw [hnone]
        obtain ⟨a, b, c⟩ := x
        dsimp only at hx ⊢
        subst hx
        simp [eq_comm]
      · simp only [hx, decide_false]
        constructor
        · rintro (h1 | h1)
          · exact absurd (by rw [← h1]) hx
          · exact h1
        · intro h1; exact Or.inr h1

omit [DecidableEq K]

/-! ## The loops -/

/-- No iterator points to the key of a new value that is not an old value. -/
def NoStray (its : List (It K)) (os : List (HV K V)) (ns : List (Nat × (K × V))) : Prop :=
  ∀ it ∈ its, it.ended = false → ∀ x ∈ ns, x.2.1 = it.key → ∃ o ∈ os, o.val.1 = it.key

omit ok in
theorem NoStray.fix {its : List (It K)} {os : List (HV K V)} {ns : List (Nat × (K × V))} (h : NoStray its os ns)
    (b : Nat) (k : K) (i c : Nat) : NoStray (fix2ext P b k i c its) os ns := by
  intro it hit
  obtain ⟨j, hj, rfl⟩ := List.mem_map.1 hit
  split_ifs
  · exact h j hj
  · exact h j hj

theorem NoStray.old {its : List (It K)} {o : HV K V} {os : List (HV K V)} {ns : List (Nat × (K × V))}
    (h : NoStray its (o :: os) ns) (hlt : ∀ x ∈ ns, P.lt o.val.1 x.2.1 = true) : NoStray its os ns := by
  intro it hit he x hx hk
  obtain ⟨o', h1, h2⟩ := h it hit he x hx hk
  rcases List.mem_cons.1 h1 with rfl | h1
  · exact absurd (h2.trans hk.symm) (ok.lt_ne (hlt x hx))
  · exact ⟨o', h1, h2⟩

omit ok in
theorem NoStray.new {its : List (It K)} {os : List (HV K V)} {x : Nat × (K × V)} {ns : List (Nat × (K × V))}
    (h : NoStray its os (x :: ns)) : NoStray its os ns :=
  fun it hit he y hy hk => h it hit he y (List.mem_cons_of_mem _ hy) hk

theorem NoStray.same {its : List (It K)} {os : List (HV K V)} {x : Nat × (K × V)} {ns : List (Nat × (K × V))}
    (h : NoStray its os (x :: ns)) (ho : ∀ o ∈ os, o.val.1 ≠ x.2.1) (b i c : Nat) : fix2ext P b x.2.1 i c its = its := by
  unfold fix2ext
  conv_rhs => rw [← List.map_id its]
  apply List.map_congr_left
  intro it hit
  rw [if_neg]
  · rfl
  · intro hc
    simp only [Bool.and_eq_true, Bool.not_eq_true', decide_eq_true_eq, ok.eqv_iff] at hc
    obtain ⟨o, h1, h2⟩ := h it hit hc.1.1 x List.mem_cons_self hc.2
    exact ho o h1 (h2.trans hc.2.symm)

theorem bulkBucket_ok (n i : Nat) : ∀ (fuel : Nat) (os : List (HV K V)) (ns : List (Nat × (K × V)))
    (c : Nat) (w : Writer K V) (its its' : List (It K)), os.length + ns.length ≤ fuel →
    SortedV P (os.map (·.val)) → NewOK P ns → (∀ o ∈ os, i ≤ P.bktNum n o.val.1) →
    (∀ x ∈ ns, i ≤ P.bktNum n x.2.1) →
    ∃ os' ns' c' w' t t', bulkBucket P n i fuel os ns c w its = (os', ns', c', w', t) ∧
      fillBucket P n i (mrg P os ns) c w its' = (mrg P os' ns', c', w', t') ∧
      os' <:+ os ∧ ns' <:+ ns ∧ (∀ o ∈ os'.head?, P.bktNum n o.val.1 ≠ i) ∧
      (∀ x ∈ ns'.head?, P.bktNum n x.2.1 ≠ i) ∧ (its = its' → NoStray its os ns → t = t' ∧ NoStray t os' ns') := by
  intro fuel
  induction fuel with
  | zero =>
    intro os ns c w its its' h _ _ _ _
    have h1 : os = [] := List.length_eq_zero_iff.1 (by omega)
    have h2 : ns = [] := List.length_eq_zero_iff.1 (by omega)
    subst h1 h2
    refine ⟨[], [], c, w, its, its', rfl, ?_, List.suffix_rfl, List.suffix_rfl, by simp, by simp,
        fun e h => ⟨e, h⟩⟩
    rw [mrg_nil_right]; rfl
  | succ fuel ih =>
    intro os ns c w its its' hf hs hn hbo hbn
    have tailS : ∀ {o : HV K V} {os' : List (HV K V)}, os = o :: os' → SortedV P (os'.map (·.val)) := by
      rintro o os' rfl
      unfold SortedV at hs
      rw [List.map_cons, List.pairwise_cons] at hs
      exact hs.2
    have tailN : ∀ {x : Nat × (K × V)} {ns' : List (Nat × (K × V))}, ns = x :: ns' → NewOK P ns' := by
      rintro x ns' rfl
      refine ⟨?_, fun z hz => hn.hash z (List.mem_cons_of_mem _ hz)⟩
      have := hn.sort
      unfold SortedV at this
      rw [List.map_cons, List.pairwise_cons] at this
      exact this.2
    cases os with
    | nil =>
      cases ns with
      | nil =>
        refine ⟨[], [], c, w, its, its', rfl, ?_, List.suffix_rfl, List.suffix_rfl, by simp, by simp,
        fun e h => ⟨e, h⟩⟩
        rw [mrg_nil_right]; rfl
      | cons x ns =>
        by_cases hx : P.bktNum n x.2.1 = i
        · obtain ⟨os', ns', c', w', t, t', e1, e2, e3, e4, e5, e6, e7⟩ := ih [] ns (c + 1) (w.append P x.2) its
            (fix2ext P 0 x.2.1 i c its') (by simp only [List.length_cons, List.length_nil] at hf ⊢; omega)
            (by simp [SortedV]) (tailN rfl) (by simp) (fun z hz => hbn z (List.mem_cons_of_mem _ hz))
          refine ⟨os', ns', c', w', t, t', ?_, ?_, e3, e4.trans (List.suffix_cons _ _), e5, e6, fun e h => e7 (by rw [← e, h.same ok (by simp)]) h.new⟩
          · rw [bulkBucket]
            simp only [List.head?_nil, Option.filter_none, List.head?_cons, Option.filter_some, hx, decide_true,
              if_true, List.tail_cons]
            exact e1
          · rw [mrg_nil_left, List.map_cons, fillBucket]
            rw [if_neg (by simpa using hx)]
            rw [mrg_nil_left] at e2
            exact e2
        · refine ⟨[], x :: ns, c, w, its, its', ?_, ?_, List.suffix_rfl, List.suffix_rfl, by simp,
            by simpa using hx, fun e h => ⟨e, h⟩⟩
          · rw [bulkBucket]
            simp only [List.head?_nil, Option.filter_none, List.head?_cons, Option.filter_some, hx, decide_false]
            rfl
          · rw [mrg_nil_left, List.map_cons, fillBucket, if_pos (by simpa using hx)]
    | cons o os =>
      cases ns with
      | nil =>
        by_cases ho : P.bktNum n o.val.1 = i
        · obtain ⟨os', ns', c', w', t, t', e1, e2, e3, e4, e5, e6, e7⟩ := ih os [] (c + 1) (w.append P o.val)
            (fix2ext P o.bkt o.val.1 i c its)
            (fix2ext P o.bkt o.val.1 i c its') (by simp only [List.length_cons, List.length_nil] at hf ⊢; omega)
            (tailS rfl) hn (fun z hz => hbo z (List.mem_cons_of_mem _ hz)) (by simp)
          refine ⟨os', ns', c', w', t, t', ?_, ?_, e3.trans (List.suffix_cons _ _), e4, e5, e6, fun e h => e7 (by rw [e]) ((h.old ok (by simp)).fix _ _ _ _)⟩
          · rw [bulkBucket]
            simp only [List.head?_nil, Option.filter_none, List.head?_cons, Option.filter_some, ho, decide_true,
              if_true, List.tail_cons]
            exact e1
          · rw [mrg_nil_right, fillBucket]
            rw [if_neg (by simpa using ho)]
            rw [mrg_nil_right] at e2
            exact e2
        · refine ⟨o :: os, [], c, w, its, its', ?_, ?_, List.suffix_rfl, List.suffix_rfl, by simpa using ho,
            by simp, fun e h => ⟨e, h⟩⟩
          · rw [bulkBucket]
            simp only [List.head?_nil, Option.filter_none, List.head?_cons, Option.filter_some, ho, decide_false]
            rfl
          · rw [mrg_nil_right, fillBucket, if_pos (by simpa using ho)]
      | cons x ns =>
        have hbo' := hbo o (by simp)
        have hbx' := hbn x (by simp)
        have hhash := hn.hash x (by simp)
        have hlt : P.lt o.val.1 x.2.1 = true ↔
            (P.hash o.val.1 < x.1 ∨ (P.hash o.val.1 = x.1 ∧ P.cmp o.val.1 x.2.1 = true)) := by
          rw [hhash]; unfold Params.lt; simp
        have hsO : ∀ o' ∈ os, P.lt o.val.1 o'.val.1 = true := by
          have := hs
          unfold SortedV at this
          rw [List.map_cons, List.pairwise_cons] at this
          exact fun o' ho' => this.1 o'.val (List.mem_map_of_mem ho')
        have hsN : ∀ y ∈ ns, P.lt x.2.1 y.2.1 = true := by
          have := hn.sort
          unfold SortedV at this
          rw [List.map_cons, List.pairwise_cons] at this
          exact fun y hy => this.1 y.2 (List.mem_map_of_mem hy)
        have hon : P.lt o.val.1 x.2.1 = true → ∀ y ∈ x :: ns, P.lt o.val.1 y.2.1 = true := by
          intro c1 y hy
          rcases List.mem_cons.1 hy with rfl | hy
          · exact c1
          · exact ok.lt_trans c1 (hsN y hy)
        have hox : P.lt x.2.1 o.val.1 = true → ∀ o' ∈ o :: os, o'.val.1 ≠ x.2.1 := by
          intro c1 y hy
          rcases List.mem_cons.1 hy with rfl | hy
          · exact (ok.lt_ne c1).symm
          · exact (ok.lt_ne (ok.lt_trans c1 (hsO y hy))).symm
        have heqs : P.eqv o.val.1 x.2.1 = true → NoStray its (o :: os) (x :: ns) → NoStray its os ns := by
          intro c2 h
          refine h.new.old ok fun y hy => ?_
          rw [(ok.eqv_iff _ _).1 c2]; exact hsN y hy
        have ltx : ¬ P.lt o.val.1 x.2.1 = true → ¬ P.eqv o.val.1 x.2.1 = true → P.lt x.2.1 o.val.1 = true := by
          intro c1 c2
          rcases ok.lt_tri x.2.1 o.val.1 with h | h | h
          · exact h
          · exact absurd ((ok.eqv_iff _ _).2 h.symm) c2
          · exact absurd h c1
        by_cases ho : P.bktNum n o.val.1 = i
        · by_cases hx : P.bktNum n x.2.1 = i
          · by_cases c1 : P.lt o.val.1 x.2.1 = true
            · obtain ⟨os', ns', c', w', t, t', e1, e2, e3, e4, e5, e6, e7⟩ := ih os (x :: ns) (c + 1)
                (w.append P o.val) (fix2ext P o.bkt o.val.1 i c its) (fix2ext P o.bkt o.val.1 i c its')
                (by simp only [List.length_cons] at hf ⊢; omega)
                (tailS rfl) hn (fun z hz => hbo z (List.mem_cons_of_mem _ hz)) hbn
              refine ⟨os', ns', c', w', t, t', ?_, ?_, e3.trans (List.suffix_cons _ _), e4, e5, e6, fun e h => e7 (by rw [e]) ((h.old ok (hon c1)).fix _ _ _ _)⟩
              · rw [bulkBucket]
                simp only [List.head?_cons, Option.filter_some, ho, hx, decide_true, if_true, List.tail_cons]
                rw [if_pos (hlt.1 c1)]
                exact e1
              · rw [mrg, if_pos c1, fillBucket, if_neg (by simpa using ho)]
                exact e2
            · by_cases c2 : P.eqv o.val.1 x.2.1 = true
              · obtain ⟨os', ns', c', w', t, t', e1, e2, e3, e4, e5, e6, e7⟩ := ih os ns (c + 1)
                  (w.append P x.2) (fix2ext P o.bkt o.val.1 i c its) (fix2ext P o.bkt x.2.1 i c its')
                  (by simp only [List.length_cons] at hf ⊢; omega)
                  (tailS rfl) (tailN rfl) (fun z hz => hbo z (List.mem_cons_of_mem _ hz))
                  (fun z hz => hbn z (List.mem_cons_of_mem _ hz))
                refine ⟨os', ns', c', w', t, t', ?_, ?_, e3.trans (List.suffix_cons _ _),
                  e4.trans (List.suffix_cons _ _), e5, e6, fun e h => e7 (by rw [e, (ok.eqv_iff _ _).1 c2]) (NoStray.fix (heqs c2 h) _ _ _ _)⟩
                · rw [bulkBucket]
                  simp only [List.head?_cons, Option.filter_some, ho, hx, decide_true, if_true, List.tail_cons]
                  rw [if_neg (fun h => c1 (hlt.2 h)), if_pos c2]
                  exact e1
                · rw [mrg, if_neg c1, if_pos c2, fillBucket, if_neg (by simpa using hx)]
                  exact e2
              · obtain ⟨os', ns', c', w', t, t', e1, e2, e3, e4, e5, e6, e7⟩ := ih (o :: os) ns (c + 1)
                  (w.append P x.2) its (fix2ext P 0 x.2.1 i c its')
                  (by simp only [List.length_cons] at hf ⊢; omega)
                  hs (tailN rfl) hbo (fun z hz => hbn z (List.mem_cons_of_mem _ hz))
                refine ⟨os', ns', c', w', t, t', ?_, ?_, e3, e4.trans (List.suffix_cons _ _), e5, e6, fun e h => e7 (by rw [← e, h.same ok (hox (ltx c1 c2))]) h.new⟩
                · rw [bulkBucket]
                  simp only [List.head?_cons, Option.filter_some, ho, hx, decide_true, if_true, List.tail_cons]
                  rw [if_neg (fun h => c1 (hlt.2 h)), if_neg c2]
                  exact e1
                · rw [mrg, if_neg c1, if_neg c2, fillBucket, if_neg (by simpa using hx)]
                  exact e2
          · -- only the old value belongs here
            have c1 : P.lt o.val.1 x.2.1 = true := ok.lt_of_bkt n (by omega)
            obtain ⟨os', ns', c', w', t, t', e1, e2, e3, e4, e5, e6, e7⟩ := ih os (x :: ns) (c + 1)
              (w.append P o.val) (fix2ext P o.bkt o.val.1 i c its) (fix2ext P o.bkt o.val.1 i c its')
              (by simp only [List.length_cons] at hf ⊢; omega)
              (tailS rfl) hn (fun z hz => hbo z (List.mem_cons_of_mem _ hz)) hbn
            refine ⟨os', ns', c', w', t, t', ?_, ?_, e3.trans (List.suffix_cons _ _), e4, e5, e6, fun e h => e7 (by rw [e]) ((h.old ok (hon c1)).fix _ _ _ _)⟩
            · rw [bulkBucket]
              simp only [List.head?_cons, Option.filter_some, ho, hx, decide_true, decide_false, if_true,
                List.tail_cons]
              exact e1
            · rw [mrg, if_pos c1, fillBucket, if_neg (by simpa using ho)]
              exact e2
        · by_cases hx : P.bktNum n x.2.1 = i
          · have c0 : P.lt x.2.1 o.val.1 = true := ok.lt_of_bkt n (by omega)
            have c1 : ¬ P.lt o.val.1 x.2.1 = true := by rw [ok.lt_asymm c0]; simp
            have c2 : ¬ P.eqv o.val.1 x.2.1 = true := fun h => ok.lt_ne c0 ((ok.eqv_iff _ _).1 h).symm
            obtain ⟨os', ns', c', w', t, t', e1, e2, e3, e4, e5, e6, e7⟩ := ih (o :: os) ns (c + 1)
              (w.append P x.2) its (fix2ext P 0 x.2.1 i c its')
              (by simp only [List.length_cons] at hf ⊢; omega)
              hs (tailN rfl) hbo (fun z hz => hbn z (List.mem_cons_of_mem _ hz))
            refine ⟨os', ns', c', w', t, t', ?_, ?_, e3, e4.trans (List.suffix_cons _ _), e5, e6, fun e h => e7 (by rw [← e, h.same ok (hox c0)]) h.new⟩
            · rw [bulkBucket]
              simp only [List.head?_cons, Option.filter_some, ho, hx, decide_true, decide_false, if_true,
                List.tail_cons]
              exact e1
            · rw [mrg, if_neg c1, if_neg c2, fillBucket, if_neg (by simpa using hx)]
              exact e2
          · refine ⟨o :: os, x :: ns, c, w, its, its', ?_, ?_, List.suffix_rfl, List.suffix_rfl,
              by simpa using ho, by simpa using hx, fun e h => ⟨e, h⟩⟩
            · rw [bulkBucket]
              simp only [List.head?_cons, Option.filter_some, ho, hx, decide_false]
              rfl
            · rw [mrg]
              split_ifs <;> rw [fillBucket, if_pos (by simpa using by assumption)]

theorem bulkAll_ok (n : Nat) : ∀ (todo i : Nat) (os : List (HV K V)) (ns : List (Nat × (K × V)))
    (w : Writer K V) (its its' : List (It K)),
    SortedV P (os.map (·.val)) → NewOK P ns → (∀ o ∈ os, i ≤ P.bktNum n o.val.1) →
    (∀ x ∈ ns, i ≤ P.bktNum n x.2.1) →
    ∃ bs t w' l l', bulkAll P n todo i os ns w its = (bs, t, w', l) ∧
      fillAll P n todo i (mrg P os ns) w its' = (bs, t, w', l') ∧ (its = its' → NoStray its os ns → l = l') := by
  intro todo
  induction todo with
  | zero => intro i os ns w its its' _ _ _ _; exact ⟨_, _, _, _, _, rfl, rfl, fun e _ => e⟩
  | succ todo ih =>
    intro i os ns w its its' hs hn ho hx
    obtain ⟨os', ns', c', w', t, t', e1, e2, e3, e4, e5, e6, e7⟩ := bulkBucket_ok ok n i (os.length + ns.length)
      os ns 0 w its its' (Nat.le_refl _) hs hn ho hx
    have hs' : SortedV P (os'.map (·.val)) := List.Pairwise.sublist (e3.sublist.map _) hs
    have hn' : NewOK P ns' := ⟨List.Pairwise.sublist (e4.sublist.map _) hn.sort,
      fun x h => hn.hash x (e4.subset h)⟩
    have ho' : ∀ o ∈ os', i + 1 ≤ P.bktNum n o.val.1 := by
      cases os' with
      | nil => simp
      | cons a as =>
        have h1 := e5 a (by simp)
        have h2 := ho a (e3.subset (by simp))
        unfold SortedV at hs'
        rw [List.map_cons, List.pairwise_cons] at hs'
        intro o hmo
        rcases List.mem_cons.1 hmo with rfl | hmo
        · omega
        · have := ok.bkt_mono n (hs'.1 o.val (List.mem_map_of_mem hmo)); omega
    have hx' : ∀ x ∈ ns', i + 1 ≤ P.bktNum n x.2.1 := by
      have hs' := hn'.sort
      cases ns' with
      | nil => simp
      | cons a as =>
        have h1 := e6 a (by simp)
        have h2 := hx a (e4.subset (by simp))
        unfold SortedV at hs'
        rw [List.map_cons, List.pairwise_cons] at hs'
        intro o hmo
        rcases List.mem_cons.1 hmo with rfl | hmo
        · omega
        · have := ok.bkt_mono n (hs'.1 o.2 (List.mem_map_of_mem hmo)); omega
    obtain ⟨bs, t2, w2, l, l', g1, g2, g3⟩ := ih (i + 1) os' ns' (w'.finishSub P) t t' hs' hn' ho' hx'
    refine ⟨⟨[], c', w.iBlock, w.iValue / P.SS⟩ :: bs, c' + t2, w2, l, l', ?_, ?_, fun e h => g3 (e7 e h).1 (e7 e h).2⟩
    · rw [bulkAll, e1]
      dsimp only
      rw [g1]
    · rw [fillAll, e2]
      dsimp only
      rw [g2]

variable [DecidableEq K]

/-- `insert(first, last, memory)`, without hash collisions between different new keys. -/
theorem bulk_ok {xs : List (Nat × (K × V))} {s s' : HMap K V} {m : K → Option V} (R : Rep P s m)
    (hx : BulkOK P xs) (h : bulk P xs s = some s') :
    After P s' (fun k => ((xs.find? fun x => x.2.1 = k).map fun x => x.2.2).or (m k)) True ∧
      s'.obliv = false ∧
      s'.buckets.length = min (P.nb ((s.numTotal + xs.length) % 2 ^ 64)) P.maxb := by
  obtain ⟨os, e1, e2, e3, e4⟩ := stream_spec ok R.1
  obtain ⟨u1, u2⟩ := uniq_ok ok xs hx
  obtain ⟨m1, m2⟩ := mrg_ok ok _ os (uniq xs) (Nat.le_refl _) e2 u1.sort
  unfold bulk at h
  rw [e1] at h
  simp only [Option.bind_eq_bind, Option.bind_some, Option.pure_def, Option.some.injEq] at h
  generalize hnn : min (P.nb ((s.numTotal + xs.length) % 2 ^ 64)) P.maxb = n at *
  obtain ⟨bs, t, w, l, l', g1, g2, _⟩ := bulkAll_ok ok n n 0 os (uniq xs) (Writer.new P) s.its s.its e2 u1
    (fun _ _ => Nat.zero_le _) (fun _ _ => Nat.zero_le _)
  rw [g1] at h
  dsimp only at h
  rcases Nat.eq_zero_or_pos n with hn | hn
  · subst hn
    have hbs : bs = [] := by
      rw [fillAll] at g2
      cases g2; rfl
    have ht : t = 0 := by
      rw [fillAll] at g2
      cases g2; rfl
    subst hbs ht
    have hI : Inv P s' := by
      subst h
      exact ⟨⟨by simp, by simp, by simp⟩, by simp, by simp, by simp⟩
    refine ⟨⟨hI, ?_⟩, by subst h; rfl, by subst h; rfl⟩
    rintro (hl | hl)
    · subst h; simp at hl
    · refine ⟨⟨hI, ?_⟩, ?_⟩
      · intro k v
        have := hl k
        rw [this]
        constructor
        · rintro ⟨b, hb, _⟩; subst h; simp at hb
        · intro hh; cases hh
      · intro _ _
        refine ⟨0, hasCard_empty hl, ?_⟩
        subst h; rfl
  · have hbk : ∀ x : K, P.bktNum n x < n := fun x => ok.range n x hn
    have w0 : WOK P (Writer.new P) := ⟨ok.bb, Nat.le_refl _⟩
    have hp0 : (Writer.new P).pos P = 0 := by simp [Writer.pos, Writer.new]
    obtain ⟨bs', w', its, f1, f2, f3, _, _, f6⟩ := fillAll_ok ok n n 0 (mrg P os (uniq xs)) (Writer.new P)
      s.its (by omega) w0 (by simp [Writer.new]) (fun h _ => ⟨Nat.zero_le _, hbk _⟩) m1
    rw [hp0] at f6
    rw [g2] at f1
    simp only [Prod.mk.injEq] at f1
    obtain ⟨rfl, rfl, rfl, _⟩ := f1
    obtain ⟨i1, i2⟩ := inv_of_fill ok (s := s') f2 f3 f6 m1 (by subst h; rfl) (by subst h; rfl)
      (by subst h; rfl) (by subst h; rfl) (fun x _ => hbk x.1)
    have hHas : ∀ k v, Has P s' k v ↔
        ((xs.find? fun x => x.2.1 = k).map fun x => x.2.2).or (m k) = some v := by
      intro k v
      rw [i2, m2, u2]
      rw [e3, R.2]
      cases hf : (xs.find? fun x => x.2.1 = k).map fun x => x.2.2 with
      | some v' =>
        simp only [Option.some_or]
        constructor
        · rintro (h1 | ⟨_, h2⟩)
          · exact h1
          · exact absurd rfl (h2 (k, v') ((u2 k v').2 hf))
        · intro h1; exact Or.inl h1
      | none =>
        simp only [Option.none_or]
        constructor
        · rintro (h1 | ⟨h1, _⟩)
          · cases h1
          · exact h1
        · intro h1
          refine Or.inr ⟨h1, ?_⟩
          rintro ⟨k', v'⟩ hy e
          dsimp only at e
          subst e
          rw [u2, hf] at hy; cases hy
    refine ⟨⟨i1, fun _ => ⟨⟨i1, hHas⟩, fun _ _ => ?_⟩⟩, by subst h; rfl, by subst h; exact f2⟩
    refine ⟨(mrg P os (uniq xs)).length, ?_, by subst h; rfl⟩
    have := hasCard_of_sorted ok m1 (m := fun k => ((xs.find? fun x => x.2.1 = k).map fun x => x.2.2).or (m k))
      (fun k v => by rw [← i2]; exact hHas k v)
    simpa using this

end
end Verif.HashMap
