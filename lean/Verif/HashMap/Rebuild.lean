import Verif.HashMap.Stream

/-! # Rebuilding the buckets -/
namespace Verif.HashMap
variable {K V : Type} {P : Params K V}

/-- Key `k` is stored with value `v` in a bucket with buffer `ns` and external values `es`. -/
def LHas (ns : List (Node K V)) (es : List (K × V)) (k : K) (v : V) : Prop :=
  (∃ n ∈ ns, n.key = k ∧ n.del = false ∧ n.val = v) ∨ ((∀ n ∈ ns, n.key ≠ k) ∧ (k, v) ∈ es)

section
variable (ok : P.OK)
include ok

theorem mergeB_keys (k : K) : ∀ (ns : List (Node K V)) (es : List (K × V)) (x : K × V),
    (∀ n ∈ ns, P.lt k n.key = true) → (∀ e ∈ es, P.lt k e.1 = true) →
    x ∈ mergeB P ns es → P.lt k x.1 = true := by
  intro ns es
  induction hl : ns.length + es.length using Nat.strongRecOn generalizing ns es with
  | _ m ih =>
    intro x h1 h2 hx
    match ns, es with
    | [], es => rw [mergeB] at hx; exact h2 x hx
    | n :: ns, [] =>
      rw [mergeB] at hx
      have h1' : ∀ n ∈ ns, P.lt k n.key = true := fun a ha => h1 a (by simp [ha])
      simp only [List.length_cons, List.length_nil] at hl
      by_cases hd : n.del = true
      · rw [if_pos hd] at hx
        exact ih _ (by simp; omega) ns [] rfl x h1' h2 hx
      · rw [if_neg hd] at hx
        rcases List.mem_cons.1 hx with rfl | hx
        · exact h1 n (by simp)
        · exact ih _ (by simp; omega) ns [] rfl x h1' h2 hx
    | n :: ns, e :: es =>
      rw [mergeB] at hx
      have h1' : ∀ n ∈ ns, P.lt k n.key = true := fun a ha => h1 a (by simp [ha])
      have h2' : ∀ n ∈ es, P.lt k n.1 = true := fun a ha => h2 a (by simp [ha])
      simp only [List.length_cons] at hl
      by_cases hle : P.leq n.key e.1 = true
      · rw [if_pos hle] at hx
        dsimp only at hx
        obtain ⟨es', he'⟩ : ∃ es', es' = if P.eqv n.key e.1 = true then es else e :: es := ⟨_, rfl⟩
        rw [← he'] at hx
        have hlen : es'.length ≤ es.length + 1 := by rw [he']; split_ifs <;> simp
        have h2'' : ∀ n ∈ es', P.lt k n.1 = true := by
          rw [he']; split_ifs
          · exact h2'
          · exact h2
        by_cases hd : n.del = true
        · rw [if_pos hd] at hx
          exact ih _ (by omega) ns es' rfl x h1' h2'' hx
        · rw [if_neg hd] at hx
          rcases List.mem_cons.1 hx with rfl | hx
          · exact h1 n (by simp)
          · exact ih _ (by omega) ns es' rfl x h1' h2'' hx
      · rw [if_neg hle] at hx
        rcases List.mem_cons.1 hx with rfl | hx
        · exact h2 _ (by simp)
        · exact ih _ (by simp; omega) (n :: ns) es rfl x h1 h2' hx

/-- The merged values are in strictly increasing key order and are exactly the stored values. -/
theorem mergeB_ok : ∀ (ns : List (Node K V)) (es : List (K × V)), SortedN P ns → SortedV P es →
    SortedV P (mergeB P ns es) ∧ ∀ k v, (k, v) ∈ mergeB P ns es ↔ LHas ns es k v := by
  intro ns es
  induction hl : ns.length + es.length using Nat.strongRecOn generalizing ns es with
  | _ m ih =>
    intro h1 h2
    match ns, es with
    | [], es =>
      rw [mergeB]
      exact ⟨h2, fun k v => by simp [LHas]⟩
    | n :: ns, [] =>
      simp only [List.length_cons, List.length_nil] at hl
      obtain ⟨h1a, h1b⟩ := List.pairwise_cons.1 h1
      obtain ⟨i1, i2⟩ := ih _ (by simp; omega) ns [] rfl h1b h2
      rw [mergeB]
      by_cases hd : n.del = true
      · rw [if_pos hd]
        refine ⟨i1, fun k v => ?_⟩
        rw [i2]
        simp only [LHas, List.mem_cons, List.not_mem_nil, and_false, or_false]
        constructor
        · rintro ⟨a, ha, hb⟩; exact ⟨a, Or.inr ha, hb⟩
        · rintro ⟨a, rfl | ha, hb⟩
          · rw [hd] at hb; simp at hb
          · exact ⟨a, ha, hb⟩
      · rw [if_neg hd]
        refine ⟨List.pairwise_cons.2 ⟨?_, i1⟩, fun k v => ?_⟩
        · intro x hx
          exact mergeB_keys ok n.key ns [] x h1a (by simp) hx
        · rw [List.mem_cons, i2]
          rw [Bool.not_eq_true] at hd
          simp only [LHas, List.mem_cons, List.not_mem_nil, and_false, or_false, Prod.mk.injEq]
          constructor
          · rintro (⟨rfl, rfl⟩ | ⟨a, ha, hb⟩)
            · exact ⟨n, Or.inl rfl, rfl, hd, rfl⟩
            · exact ⟨a, Or.inr ha, hb⟩
          · rintro ⟨a, rfl | ha, hb⟩
            · exact Or.inl ⟨hb.1.symm, hb.2.2.symm⟩
            · exact Or.inr ⟨a, ha, hb⟩
    | n :: ns, e :: es =>
      simp only [List.length_cons] at hl
      obtain ⟨h1a, h1b⟩ := List.pairwise_cons.1 h1
      obtain ⟨h2a, h2b⟩ := List.pairwise_cons.1 h2
      rw [mergeB]
      by_cases hle : P.leq n.key e.1 = true
      · rw [if_pos hle]
        dsimp only
        obtain ⟨es', he'⟩ : ∃ es', es' = if P.eqv n.key e.1 = true then es else e :: es := ⟨_, rfl⟩
        rw [← he']
        have hlen : es'.length ≤ es.length + 1 := by rw [he']; split_ifs <;> simp
        have hsub : SortedV P es' ∧ (∀ x ∈ es', P.lt n.key x.1 = true) ∧
            (∀ x, x ∈ es' ↔ x ∈ e :: es ∧ x.1 ≠ n.key) := by
          rw [he']
          by_cases heq : P.eqv n.key e.1 = true
          · rw [if_pos heq]
            have heq' := (ok.eqv_iff _ _).1 heq
            refine ⟨h2b, ?_, ?_⟩
            · intro x hx; rw [heq']; exact h2a x hx
            · intro x
              constructor
              · intro hx
                exact ⟨by simp [hx], by rw [heq']; exact (ok.lt_ne (h2a x hx)).symm⟩
              · rintro ⟨hx, hne⟩
                rcases List.mem_cons.1 hx with rfl | hx
                · exact absurd heq'.symm hne
                · exact hx
          · rw [if_neg heq]
            have hlt : P.lt n.key e.1 = true := by
              rcases (ok.leq_iff _ _).1 hle with h | h
              · exact h
              · exact absurd ((ok.eqv_iff _ _).2 h) heq
            have hall : ∀ x ∈ e :: es, P.lt n.key x.1 = true := by
              intro x hx
              rcases List.mem_cons.1 hx with rfl | hx
              · exact hlt
              · exact ok.lt_trans hlt (h2a x hx)
            refine ⟨h2, hall, ?_⟩
            intro x
            exact ⟨fun hx => ⟨hx, (ok.lt_ne (hall x hx)).symm⟩, fun hx => hx.1⟩
        obtain ⟨u1, u2, u3⟩ := hsub
        obtain ⟨i1, i2⟩ := ih _ (by omega) ns es' rfl h1b u1
        have hne : ∀ a ∈ ns, a.key ≠ n.key := fun a ha => (ok.lt_ne (h1a a ha)).symm
        by_cases hd : n.del = true
        · rw [if_pos hd]
          refine ⟨i1, fun k v => ?_⟩
          rw [i2]
          simp only [LHas, u3, List.mem_cons]
          constructor
          · rintro (⟨a, ha, hb⟩ | ⟨ha, hb, hc⟩)
            · exact Or.inl ⟨a, Or.inr ha, hb⟩
            · refine Or.inr ⟨?_, hb⟩
              rintro a (rfl | h)
              · exact fun h => hc h.symm
              · exact ha a h
          · rintro (⟨a, rfl | ha, hb⟩ | ⟨ha, hb⟩)
            · rw [hd] at hb; simp at hb
            · exact Or.inl ⟨a, ha, hb⟩
            · exact Or.inr ⟨fun a h => ha a (Or.inr h), hb, fun h => ha n (Or.inl rfl) h.symm⟩
        · rw [if_neg hd]
          rw [Bool.not_eq_true] at hd
          refine ⟨List.pairwise_cons.2 ⟨?_, i1⟩, fun k v => ?_⟩
          · intro x hx
            exact mergeB_keys ok n.key ns es' x h1a u2 hx
          · rw [List.mem_cons, i2]
            simp only [LHas, u3, List.mem_cons, Prod.mk.injEq]
            constructor
            · rintro (⟨rfl, rfl⟩ | ⟨a, ha, hb⟩ | ⟨ha, hb, hc⟩)
              · exact Or.inl ⟨n, Or.inl rfl, rfl, hd, rfl⟩
              · exact Or.inl ⟨a, Or.inr ha, hb⟩
              · refine Or.inr ⟨?_, hb⟩
                rintro a (rfl | h)
                · exact fun h => hc h.symm
                · exact ha a h
            · rintro (⟨a, rfl | ha, hb⟩ | ⟨ha, hb⟩)
              · exact Or.inl ⟨hb.1.symm, hb.2.2.symm⟩
              · exact Or.inr (Or.inl ⟨a, ha, hb⟩)
              · exact Or.inr (Or.inr ⟨fun a h => ha a (Or.inr h), hb, fun h => ha n (Or.inl rfl) h.symm⟩)
      · rw [if_neg hle]
        have hlt : P.lt e.1 n.key = true := by
          rw [Bool.not_eq_true] at hle; exact (ok.leq_false_iff _ _).1 hle
        obtain ⟨i1, i2⟩ := ih _ (by simp; omega) (n :: ns) es rfl h1 h2b
        have hall : ∀ a ∈ n :: ns, P.lt e.1 a.key = true := by
          intro a ha
          rcases List.mem_cons.1 ha with rfl | ha
          · exact hlt
          · exact ok.lt_trans hlt (h1a a ha)
        refine ⟨List.pairwise_cons.2 ⟨?_, i1⟩, fun k v => ?_⟩
        · intro x hx
          exact mergeB_keys ok e.1 (n :: ns) es x hall h2a hx
        · rw [List.mem_cons, i2]
          simp only [LHas, List.mem_cons]
          constructor
          · rintro (rfl | ha | ⟨ha, hb⟩)
            · refine Or.inr ⟨?_, Or.inl rfl⟩
              intro a ha
              exact (ok.lt_ne (hall a (by simpa using ha))).symm
            · exact Or.inl ha
            · exact Or.inr ⟨ha, Or.inr hb⟩
          · rintro (ha | ⟨ha, rfl | hb⟩)
            · exact Or.inr (Or.inl ha)
            · exact Or.inl rfl
            · exact Or.inr (Or.inr ⟨ha, hb⟩)

end

/-! ## The writer -/

/-- Position the writer writes to next. -/
def Writer.pos (P : Params K V) (w : Writer K V) : Nat := w.iBlock * P.BB + w.iValue

/-- What position `p` will hold once everything is flushed. -/
def Writer.read (P : Params K V) (w : Writer K V) (p : Nat) : K × V :=
  if p < w.iBlock * P.BB then w.mem p else w.buf (p - w.iBlock * P.BB)

/-- Consistent writer. -/
structure WOK (P : Params K V) (w : Writer K V) : Prop where
  iv : w.iValue < P.BB
  nb : w.iBlock ≤ w.nBids

section
variable (ok : P.OK)
include ok

theorem writeOut_ok {w : Writer K V} (hw : WOK P w) :
    WOK P (w.writeOut P) ∧ (w.writeOut P).pos P = (w.iBlock + 1) * P.BB ∧
      (∀ p, p < (w.iBlock + 1) * P.BB → (w.writeOut P).read P p = w.read P p) ∧
      (∀ p, p < (w.iBlock + 1) * P.BB → (w.writeOut P).mem p = w.read P p) ∧
      (w.iBlock < (w.writeOut P).nBids) := by
  have hi := ok.incr
  have hnb : w.iBlock < (w.writeOut P).nBids := by
    have := hw.nb
    simp only [Writer.writeOut]
    split_ifs <;> omega
  have hmem : ∀ p, p < (w.iBlock + 1) * P.BB → (w.writeOut P).mem p = w.read P p := by
    intro p hp
    simp only [Writer.writeOut, Writer.read]
    by_cases h : p < w.iBlock * P.BB
    · rw [if_pos h, if_neg (by omega)]
    · rw [if_neg h, if_pos ⟨by omega, hp⟩]
  refine ⟨⟨ok.bb, hnb⟩, rfl, ?_, hmem, hnb⟩
  intro p hp
  rw [← hmem p hp]
  have hp' : p < (w.writeOut P).iBlock * P.BB := hp
  rw [Writer.read, if_pos hp']

theorem append_ok {w : Writer K V} (hw : WOK P w) (x : K × V) :
    WOK P (w.append P x) ∧ (w.append P x).pos P = w.pos P + 1 ∧
      (w.append P x).read P (w.pos P) = x ∧
      ∀ p, p < w.pos P → (w.append P x).read P p = w.read P p := by
  unfold Writer.append
  obtain ⟨w1, hw1⟩ : ∃ w1 : Writer K V, w1 = { w with buf := fun i => if i = w.iValue then x else w.buf i } :=
    ⟨_, rfl⟩
  have hiv := hw.iv
  have r1 : ∀ p, p < w.pos P → w1.read P p = w.read P p := by
    intro p hp
    subst hw1
    unfold Writer.pos at hp
    simp only [Writer.read]
    by_cases h : p < w.iBlock * P.BB
    · rw [if_pos h, if_pos h]
    · rw [if_neg h, if_neg h, if_neg (by omega)]
  have r2 : w1.read P (w.pos P) = x := by
    subst hw1
    unfold Writer.read Writer.pos
    dsimp only
    rw [if_neg (by omega), if_pos (by omega)]
  have w1ok : WOK P w1 := by subst hw1; exact ⟨hw.iv, hw.nb⟩
  have he : (if w.iValue + 1 < P.BB then
      { ({ w with buf := fun i => if i = w.iValue then x else w.buf i } : Writer K V) with
        iValue := w.iValue + 1 }
      else ({ w with buf := fun i => if i = w.iValue then x else w.buf i } : Writer K V).writeOut P) =
      (if w.iValue + 1 < P.BB then { w1 with iValue := w.iValue + 1 } else w1.writeOut P) := by
    rw [hw1]
  dsimp only at he ⊢
  rw [he]
  by_cases h : w.iValue + 1 < P.BB
  · rw [if_pos h]
    refine ⟨⟨h, w1ok.nb⟩, ?_, r2, r1⟩
    subst hw1; rfl
  · rw [if_neg h]
    obtain ⟨a1, a2, a3, _⟩ := writeOut_ok ok w1ok
    have e : (w1.iBlock + 1) * P.BB = w.pos P + 1 := by
      subst hw1
      unfold Writer.pos
      dsimp only
      rw [Nat.add_mul]; omega
    rw [e] at a2 a3
    refine ⟨a1, a2, ?_, ?_⟩
    · rw [a3 _ (by omega)]; exact r2
    · intro p hp
      rw [a3 p (by omega)]; exact r1 p hp

theorem finishSub_ok {w : Writer K V} (hw : WOK P w) :
    WOK P (w.finishSub P) ∧ w.pos P < (w.finishSub P).pos P ∧
      (w.finishSub P).iValue % P.SS = 0 ∧
      ∀ p, p < w.pos P → (w.finishSub P).read P p = w.read P p := by
  have hiv := hw.iv
  have hss := ok.ss
  have hdm := Nat.div_add_mod w.iValue P.SS
  have hml := Nat.mod_lt w.iValue hss
  obtain ⟨q, hq⟩ : ∃ q, q = w.iValue / P.SS := ⟨_, rfl⟩
  rw [← hq] at hdm
  rw [Nat.mul_comm] at hdm
  have hqb : (q + 1) * P.SS ≤ P.BB := by
    unfold Params.BB at *
    apply Nat.mul_le_mul_right
    have : q * P.SS < P.BS * P.SS := by omega
    exact Nat.lt_of_mul_lt_mul_right this
  have hge : w.iValue ≤ (q + 1) * P.SS - 1 := by rw [Nat.add_mul]; omega
  have hpp : 0 < (q + 1) * P.SS := by rw [Nat.add_mul]; omega
  obtain ⟨w1, hw1⟩ : ∃ w1 : Writer K V, w1 = { w with iValue := (q + 1) * P.SS - 1 } := ⟨_, rfl⟩
  have w1ok : WOK P w1 := by subst hw1; exact ⟨by dsimp only; omega, hw.nb⟩
  obtain ⟨a1, a2, a3, a4⟩ := append_ok ok w1ok (P.dk, P.dv)
  have he : w.finishSub P = w1.append P (P.dk, P.dv) := by
    unfold Writer.finishSub; rw [← hq, ← hw1]
  have hpos : w1.pos P + 1 = w.iBlock * P.BB + (q + 1) * P.SS := by
    subst hw1; unfold Writer.pos; dsimp only; omega
  rw [he]
  refine ⟨a1, ?_, ?_, ?_⟩
  · rw [a2, hpos]; unfold Writer.pos; omega
  · unfold Writer.append
    dsimp only
    have hi1 : w1.iValue = (q + 1) * P.SS - 1 := by rw [hw1]
    by_cases h : w1.iValue + 1 < P.BB
    · rw [if_pos h]
      dsimp only
      rw [hi1, Nat.sub_add_cancel hpp, Nat.mul_mod_left]
    · rw [if_neg h]
      simp [Writer.writeOut]
  · intro p hp
    rw [a4 p (by unfold Writer.pos at hp; omega)]
    subst hw1; rfl

end

/-! ## Filling the new buckets -/

section
variable (ok : P.OK)
include ok

theorem fillBucket_ok (n i : Nat) : ∀ (hs : List (HV K V)) (c : Nat) (w : Writer K V)
    (its : List (It K)), WOK P w → ∃ hs1 hs2 w' its',
      fillBucket P n i hs c w its = (hs2, c + hs1.length, w', its') ∧
      hs = hs1 ++ hs2 ∧ (∀ h ∈ hs1, P.bktNum n h.val.1 = i) ∧
      (∀ h ∈ hs2.head?, P.bktNum n h.val.1 ≠ i) ∧ WOK P w' ∧
      w'.pos P = w.pos P + hs1.length ∧ (∀ p, p < w.pos P → w'.read P p = w.read P p) ∧
      extL (w'.read P) (w.pos P) hs1.length = hs1.map (·.val) := by
  intro hs
  induction hs with
  | nil =>
    intro c w its hw
    exact ⟨[], [], w, its, rfl, rfl, by simp, by simp, hw, rfl, fun _ _ => rfl, rfl⟩
  | cons h hs ih =>
    intro c w its hw
    rw [fillBucket]
    by_cases hb : P.bktNum n h.val.1 ≠ i
    · rw [if_pos hb]
      exact ⟨[], h :: hs, w, its, rfl, rfl, by simp, by simpa using hb, hw, rfl, fun _ _ => rfl, rfl⟩
    · rw [if_neg hb]
      obtain ⟨a1, a2, a3, a4⟩ := append_ok ok hw h.val
      obtain ⟨hs1, hs2, w', its', e, e1, e2, e3, e4, e5, e6, e7⟩ :=
        ih (c + 1) (w.append P h.val) (fix2ext P h.bkt h.val.1 i c its) a1
      refine ⟨h :: hs1, hs2, w', its', ?_, by rw [e1]; rfl, ?_, e3, e4, ?_, ?_, ?_⟩
      · rw [e, List.length_cons]
        rw [show c + 1 + hs1.length = c + (hs1.length + 1) by omega]
      · intro x hx
        rcases List.mem_cons.1 hx with rfl | hx
        · exact Decidable.not_not.1 hb
        · exact e2 x hx
      · rw [e5, a2, List.length_cons]; omega
      · intro p hp
        rw [e6 p (by omega), a4 p hp]
      · rw [List.length_cons, extL, List.map_cons, e6 _ (by omega), a3, ← e7, a2]

/-- The new buckets: in each, exactly the values that belong there, laid out in order. -/
structure FillOK (P : Params K V) (n i p0 : Nat) (rd : Nat → K × V) (pe : Nat) (hs : List (K × V))
    (bs : List (Bucket K V)) : Prop where
  lst : ∀ b ∈ bs, b.list = []
  cont : ∀ j (b : Bucket K V), bs[j]? = some b →
    bext P rd b = hs.filter (fun h => decide (P.bktNum n h.1 = i + j))
  lo : ∀ b ∈ bs, p0 ≤ bstart P b
  hi : ∀ b ∈ bs, bstart P b + b.nExt < pe
  sub : ∀ b ∈ bs, b.iSub < P.BS
  ord : bs.Pairwise fun b b' => bstart P b + b.nExt ≤ bstart P b'
  first : ∀ b ∈ bs.head?, bstart P b = p0

omit ok in
theorem extL_read_congr {w w' : Writer K V} {p c q : Nat} (h : ∀ x, x < q → w'.read P x = w.read P x)
    (hpc : p + c ≤ q) : extL (w'.read P) p c = extL (w.read P) p c :=
  extL_congr fun i hi => h _ (by omega)

omit ok in
theorem filter_head_split (n i : Nat) (hs1 hs2 : List (K × V))
    (h1 : ∀ h ∈ hs1, P.bktNum n h.1 = i) (h2 : ∀ h ∈ hs2, i + 1 ≤ P.bktNum n h.1) :
    (hs1 ++ hs2).filter (fun h => decide (P.bktNum n h.1 = i)) = hs1 ∧
    ∀ j, (hs1 ++ hs2).filter (fun h => decide (P.bktNum n h.1 = i + 1 + j)) =
      hs2.filter (fun h => decide (P.bktNum n h.1 = i + 1 + j)) := by
  constructor
  · rw [List.filter_append, List.filter_eq_self.2, List.filter_eq_nil_iff.2, List.append_nil]
    · intro a ha
      have := h2 a ha
      simp only [decide_eq_true_eq]; omega
    · intro a ha; simp [h1 a ha]
  · intro j
    rw [List.filter_append, List.filter_eq_nil_iff.2, List.nil_append]
    intro a ha
    have := h1 a ha
    simp only [decide_eq_true_eq]; omega

theorem fillAll_ok (n : Nat) : ∀ (todo i : Nat) (hs : List (HV K V)) (w : Writer K V)
    (its : List (It K)), i + todo = n → WOK P w → w.iValue % P.SS = 0 →
    (∀ h ∈ hs, i ≤ P.bktNum n h.val.1 ∧ P.bktNum n h.val.1 < n) →
    (hs.map (·.val)).Pairwise (fun a b => P.lt a.1 b.1 = true) →
    ∃ bs w' its', fillAll P n todo i hs w its = (bs, hs.length, w', its') ∧ bs.length = todo ∧
      WOK P w' ∧ w.pos P ≤ w'.pos P ∧ (∀ p, p < w.pos P → w'.read P p = w.read P p) ∧
      FillOK P n i (w.pos P) (w'.read P) (w'.pos P) (hs.map (·.val)) bs := by
  intro todo
  induction todo with
  | zero =>
    intro i hs w its hn hw hal hr hsort
    have : hs = [] := by
      apply List.eq_nil_iff_forall_not_mem.2
      intro h hh
      have := hr h hh; omega
    subst this
    refine ⟨[], w, its, rfl, rfl, hw, Nat.le_refl _, fun _ _ => rfl, ?_⟩
    exact ⟨by simp, by simp, by simp, by simp, by simp, by simp, by simp⟩
  | succ todo ih =>
    intro i hs w its hn hw hal hr hsort
    obtain ⟨hs1, hs2, w1, its1, e, e1, e2, e3, e4, e5, e6, e7⟩ := fillBucket_ok ok n i hs 0 w its hw
    rw [Nat.zero_add] at e
    obtain ⟨f1, f2, f3, f4⟩ := finishSub_ok ok e4
    have hr2 : ∀ h ∈ hs2, i + 1 ≤ P.bktNum n h.val.1 ∧ P.bktNum n h.val.1 < n := by
      intro h hh
      have h0 := hr h (by rw [e1]; simp [hh])
      refine ⟨?_, h0.2⟩
      cases hs2 with
      | nil => simp at hh
      | cons a as =>
        have ha := e3 a (by simp)
        have ha2 := hr a (by rw [e1]; simp)
        rcases List.mem_cons.1 hh with rfl | hh
        · omega
        · rw [e1, List.map_append, List.map_cons, List.pairwise_append, List.pairwise_cons] at hsort
          have := hsort.2.1.1 h.val (List.mem_map_of_mem hh)
          have := ok.bkt_mono n this
          omega
    have hsort2 : (hs2.map (·.val)).Pairwise (fun a b => P.lt a.1 b.1 = true) := by
      rw [e1, List.map_append, List.pairwise_append] at hsort
      exact hsort.2.1
    obtain ⟨bs, w', its', g, g1, g2, g3, g4, g5⟩ := ih (i + 1) hs2 (w1.finishSub P) its1 (by omega) f1 f3
      hr2 hsort2
    rw [fillAll]
    rw [e]
    dsimp only
    rw [g]
    dsimp only
    have hstart : bstart P (⟨[], hs1.length, w.iBlock, w.iValue / P.SS⟩ : Bucket K V) = w.pos P := by
      unfold bstart Writer.pos
      dsimp only
      have := Nat.div_add_mod w.iValue P.SS
      rw [hal, Nat.mul_comm] at this
      omega
    obtain ⟨k1, k2⟩ := filter_head_split (P := P) n i (hs1.map (·.val)) (hs2.map (·.val))
      (by intro h hh; obtain ⟨a, ha, rfl⟩ := List.mem_map.1 hh; exact e2 a ha)
      (by intro h hh; obtain ⟨a, ha, rfl⟩ := List.mem_map.1 hh; exact (hr2 a ha).1)
    rw [← List.map_append, ← e1] at k1 k2
    refine ⟨⟨[], hs1.length, w.iBlock, w.iValue / P.SS⟩ :: bs, w', its', ?_, ?_, g2, ?_, ?_, ?_⟩
    · rw [show hs1.length + hs2.length = hs.length by rw [e1, List.length_append]]
    · rw [List.length_cons, g1]
    · omega
    · intro p hp
      rw [g4 p (by omega), f4 p (by omega), e6 p hp]
    · constructor
      · intro b hb
        rcases List.mem_cons.1 hb with rfl | hb
        · rfl
        · exact g5.lst b hb
      · intro j b hj
        cases j with
        | zero =>
          simp only [List.getElem?_cons_zero, Option.some.injEq] at hj
          subst hj
          rw [Nat.add_zero, k1, ← e7]
          unfold bext
          rw [hstart]
          dsimp only
          rw [extL_read_congr g4 (by omega), extL_read_congr f4 (by omega)]
        | succ j =>
          rw [List.getElem?_cons_succ] at hj
          rw [g5.cont j b hj, show i + (j + 1) = i + 1 + j by omega, k2]
      · intro b hb
        rcases List.mem_cons.1 hb with rfl | hb
        · rw [hstart]; exact Nat.le_refl _
        · have := g5.lo b hb; omega
      · intro b hb
        rcases List.mem_cons.1 hb with rfl | hb
        · rw [hstart]; dsimp only; omega
        · exact g5.hi b hb
      · intro b hb
        rcases List.mem_cons.1 hb with rfl | hb
        · dsimp only
          have h := hw.iv
          unfold Params.BB at h
          rw [Nat.div_lt_iff_lt_mul ok.ss]
          exact h
        · exact g5.sub b hb
      · rw [List.pairwise_cons]
        refine ⟨?_, g5.ord⟩
        intro b hb
        have := g5.lo b hb
        rw [hstart]; dsimp only; omega
      · intro b hb
        simp only [List.head?_cons, Option.mem_def, Option.some.injEq] at hb
        subst hb; exact hstart

end
end Verif.HashMap
