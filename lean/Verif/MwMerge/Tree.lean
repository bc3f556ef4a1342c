import Verif.MwMerge.Tour
import Verif.MwMerge.Unguarded
import Verif.MultiSeq.Round
/-! The loser tree merges. -/
namespace Stxxl.MwMerge
open Spec
open MultiSeq (roundUp roundUp_spec)
open LT (Below)
variable {α : Type} {lt : α → α → Bool}

/-- Player `a` may be output before player `b` (guarded trees). -/
def leG (lt : α → α → Bool) (st : Bool) (a b : Node α) : Prop :=
  b.sup = true ∨ (a.sup = false ∧ (lt a.key b.key = true ∨ (lt b.key a.key = false ∧ (st = true → a.source ≤ b.source))))

theorem leG_refl (hw : SWO lt) (st : Bool) (a : Node α) : leG lt st a a := by
  unfold leG
  cases h : a.sup
  · exact .inr ⟨rfl, .inr ⟨hw.irrefl _, fun _ => Int.le_refl _⟩⟩
  · exact .inl rfl

theorem leG_trans (hw : SWO lt) (st : Bool) (a b c : Node α) (h1 : leG lt st a b) (h2 : leG lt st b c) : leG lt st a c := by
  unfold leG at *
  rcases h2 with h2 | ⟨hb, h2⟩
  · exact .inl h2
  · rcases h1 with h1 | ⟨ha, h1⟩
    · rw [hb] at h1; cases h1
    · refine .inr ⟨ha, ?_⟩
      rcases h1 with h1 | ⟨h1, h1'⟩
      · left
        rcases h2 with h2 | ⟨h2, _⟩
        · exact hw.trans h1 h2
        · exact hw.lt_of_lt_of_le h1 h2
      · rcases h2 with h2 | ⟨h2, h2'⟩
        · exact .inl (hw.lt_of_le_of_lt h1 h2)
        · exact .inr ⟨hw.negtrans _ _ _ h2 h1, fun h => Int.le_trans (h1' h) (h2' h)⟩

theorem promoteG_true (hw : SWO lt) (st : Bool) (p c : Node α) (h : promoteG lt st p c = true) : leG lt st p c := by
  unfold promoteG at h
  unfold leG
  cases hc : c.sup
  · right
    cases st
    · simp only [hc, Bool.false_eq_true, if_false, Bool.false_or, Bool.and_eq_true, Bool.not_eq_true'] at h
      exact ⟨h.1, .inl h.2⟩
    · simp only [hc, if_true, Bool.false_and, Bool.false_or, Bool.not_false, Bool.true_and, Bool.and_eq_true, Bool.not_eq_true', Bool.or_eq_true,
        decide_eq_true_eq] at h
      refine ⟨h.1, ?_⟩
      rcases h.2 with h' | ⟨h', h''⟩
      · exact .inl h'
      · exact .inr ⟨h', fun _ => Int.le_of_lt h''⟩
  · exact .inl rfl

theorem promoteG_false (hw : SWO lt) (st : Bool) (p c : Node α) (h : promoteG lt st p c = false) : leG lt st c p := by
  unfold promoteG at h
  unfold leG
  cases hp : p.sup
  · right
    cases st
    · simp only [hp, Bool.false_eq_true, if_false, Bool.or_eq_false_iff, Bool.not_false, Bool.true_and] at h
      exact ⟨h.1, .inr ⟨h.2, fun h => by cases h⟩⟩
    · simp only [hp, if_true, Bool.not_false, Bool.true_or, Bool.and_true, Bool.or_eq_false_iff, Bool.and_eq_false_iff, Bool.not_eq_false',
        decide_eq_false_iff_not] at h
      obtain ⟨hc, h⟩ := h
      refine ⟨hc, ?_⟩
      rcases h with h | ⟨h1, h2⟩
      · rw [hc] at h; cases h
      · rcases h2 with h2 | h2
        · exact .inl h2
        · exact .inr ⟨h1, fun _ => Int.not_lt.1 h2⟩
  · exact .inl rfl

/-- The leaves show the first elements of the sequences. -/
structure LeafRel (S : List (List α)) (leaf : Nat → Node α) : Prop where
  live : ∀ (i : Nat) (x : α) (xs : List α), S[i]? = some (x :: xs) → leaf i = ⟨false, i, x⟩
  dead : ∀ i, hd S i = [] → (leaf i).sup = true

theorem LeafRel.cases {S : List (List α)} {leaf : Nat → Node α} (h : LeafRel S leaf) (i : Nat) :
    (leaf i).sup = true ∨ (leaf i).source = i := by
  cases hh : hd S i with
  | nil => exact .inl (h.dead i hh)
  | cons x xs => rw [h.live i x xs (hd_eq.1 hh)]; exact .inr rfl

theorem leftWinsG_true {S : List (List α)} {leaf : Nat → Node α} (hL : LeafRel S leaf) (st : Bool) {i j : Nat} (hij : i < j)
    (h : leftWinsG lt (leaf i) (leaf j) = true) : leG lt st (leaf i) (leaf j) := by
  unfold leftWinsG at h
  unfold leG
  cases hj : (leaf j).sup
  · simp only [hj, Bool.false_or, Bool.and_eq_true, Bool.not_eq_true'] at h
    refine .inr ⟨h.1, .inr ⟨h.2, fun _ => ?_⟩⟩
    have h1 := hL.cases i
    have h2 := hL.cases j
    rw [h.1] at h1; rw [hj] at h2
    rcases h1 with h1 | h1
    · cases h1
    · rcases h2 with h2 | h2
      · cases h2
      · rw [h1, h2]; omega
  · exact .inl rfl

theorem leftWinsG_false (hw : SWO lt) {leaf : Nat → Node α} (st : Bool) {i j : Nat}
    (h : leftWinsG lt (leaf i) (leaf j) = false) : leG lt st (leaf j) (leaf i) := by
  unfold leftWinsG at h
  unfold leG
  cases hi : (leaf i).sup
  · simp only [hi, Bool.or_eq_false_iff, Bool.not_false, Bool.true_and, Bool.not_eq_false'] at h
    exact .inr ⟨h.1, .inl h.2⟩
  · exact .inl rfl

theorem Tour.below_pos {L m : Nat} (h : Below L 1 m) : m ≠ 0 := by
  obtain ⟨t, _, h2⟩ := h
  rintro rfl
  simp at h2

/-- One `delete_min_insert`. -/
theorem dmi_spec {le : Node α → Node α → Prop} {promote : Node α → Node α → Bool} (h1 : ∀ p c, promote p c = true → le p c)
    (h2 : ∀ p c, promote p c = false → le c p) {t leaf : Nat → Node α} {L w : Nat} (hT : Tour le t leaf (2 ^ L) L 1 w) (hw : w < 2 ^ L)
    (hs : (t 0).source = w) (key : α) (sup : Bool) :
    ∃ w', Tour le (deleteMinInsert promote (2 ^ L) t key sup) (upd leaf w ⟨sup, w, key⟩) (2 ^ L) L 1 w' ∧ w' < 2 ^ L ∧
      (deleteMinInsert promote (2 ^ L) t key sup) 0 = upd leaf w ⟨sup, w, key⟩ w' := by
  have hp : (((2 ^ L : Nat) : Int) + (w : Int)).toNat / 2 = (w + 2 ^ L) / 2 := by congr 1; omega
  have hcl := climb_eq promote L w (2 ^ L) hw (Nat.le_of_lt Nat.lt_two_pow_self) (t, ⟨sup, w, key⟩)
  obtain ⟨⟨w', r1, r2⟩, r3⟩ := Tour.replay (leaf' := upd leaf w ⟨sup, w, key⟩) h1 h2 (Nat.zero_lt_one) hT (fun j hj => upd_ne _ _ hj)
  rw [upd_same] at r1 r2 r3
  have e : deleteMinInsert promote (2 ^ L) t key sup = upd (pathN promote (2 ^ L) w L (t, ⟨sup, w, key⟩)).1 0 (pathN promote (2 ^ L) w L (t, ⟨sup, w, key⟩)).2 := by
    unfold deleteMinInsert
    simp only [hs, hp]
    rw [hcl]
  refine ⟨w', ?_, ?_, ?_⟩
  · rw [e]
    apply r1.frame
    · intro m b; exact upd_ne _ _ (Tour.below_pos b)
    · intro _ _; rfl
  · have := r1.leafPos
    have h3 := Nat.div_mul_le_self (w' + 2 ^ L) (2 ^ L)
    have h4 := Nat.lt_div_mul_add (a := w' + 2 ^ L) (Nat.pos_of_ne_zero (by simp : 2 ^ L ≠ 0))
    rw [this] at h4
    omega
  · rw [e, upd_same]; exact r2.symm

theorem mem_div {L j : Nat} (hj : j < 2 ^ L) : (j + 2 ^ L) / 2 ^ L = 1 := by
  rw [Nat.add_div_right _ (Nat.pos_of_ne_zero (by simp)), Nat.div_eq_of_lt hj]

theorem treeLoop_run (hw : SWO lt) {st : Bool} {L : Nat} (arb : α) : ∀ (n : Nat) (t leaf : Nat → Node α) (w : Nat) (S : List (List α)),
    S.length ≤ 2 ^ L → Tour (leG lt st) t leaf (2 ^ L) L 1 w → w < 2 ^ L → t 0 = leaf w → LeafRel S leaf → n ≤ S.flatten.length →
    ∃ o S', treeLoop lt st (2 ^ L) arb n t S = some (o, S') ∧ o.length = n ∧ MergeRun lt st S o S' := by
  intro n
  induction n with
  | zero => intro t leaf w S _ _ _ _ _ _; exact ⟨[], S, rfl, rfl, .nil S⟩
  | succ n ih =>
    intro t leaf w S hlen hT hwk ht0 hL hn
    have hmin := fun j hj => Tour.min (leG_refl hw st) (leG_trans hw st) hT j (mem_div (L := L) hj)
    -- the winner is not a supremum
    have hwin : ∃ x xs, hd S w = x :: xs := by
      cases hh : hd S w with
      | cons x xs => exact ⟨x, xs, rfl⟩
      | nil =>
        exfalso
        have hsup := hL.dead w hh
        have : S.flatten = [] := by
          rw [List.flatten_eq_nil_iff]
          intro s hs
          obtain ⟨j, hj⟩ := List.getElem?_of_mem hs
          cases s with
          | nil => rfl
          | cons y ys =>
            have h1 := hmin j (by have := lt_length hj; omega)
            have h2 := hL.live j y ys hj
            unfold leG at h1
            rw [h2, hsup] at h1
            rcases h1 with h1 | h1
            · cases h1
            · cases h1.1
        rw [this] at hn; simp at hn
    obtain ⟨x, xs, hh⟩ := hwin
    have hi := hd_eq.1 hh
    have hlw := hL.live w x xs hi
    have hsrc : (t 0).source = w := by rw [ht0, hlw]
    have hb : Best lt st S w x := by
      intro j y ys hj
      have h1 := hmin j (by have := lt_length hj; omega)
      rw [hlw, hL.live j y ys hj] at h1
      unfold leG at h1
      rcases h1 with h1 | ⟨_, h1⟩
      · cases h1
      · rcases h1 with h1 | ⟨h1, h1'⟩
        · exact ⟨hw.asymm _ _ h1, fun _ h => by rw [h1] at h; cases h⟩
        · exact ⟨h1, fun hst _ => by have := h1' hst; simp only at this; omega⟩
    have hlen' := length_step hi
    unfold treeLoop
    dsimp only
    rw [hsrc, if_neg (by omega)]
    have : ((w : Int)).toNat = w := by omega
    rw [this, hh]
    dsimp only
    refine push_ok hi hb rfl ?_
    have hrel : ∀ (sup : Bool) (key : α), (∀ y ys, xs = y :: ys → sup = false ∧ key = y) → (xs = [] → sup = true) →
        LeafRel (S.set w xs) (upd leaf w ⟨sup, w, key⟩) := by
      intro sup key h1 h2
      refine ⟨?_, ?_⟩
      · intro i y ys hiy
        by_cases hiw : i = w
        · subst hiw
          rw [List.getElem?_set_self (lt_length hi)] at hiy
          obtain ⟨e1, e2⟩ := h1 y ys (Option.some.inj hiy)
          rw [upd_same, e1, e2]
        · rw [List.getElem?_set_ne (Ne.symm hiw)] at hiy
          rw [upd_ne _ _ hiw]; exact hL.live i y ys hiy
      · intro i hie
        by_cases hiw : i = w
        · subst hiw
          rw [hd_set_self (lt_length hi)] at hie
          rw [upd_same]; exact h2 hie
        · rw [hd_set_ne (Ne.symm hiw)] at hie
          rw [upd_ne _ _ hiw]; exact hL.dead i hie
    cases xs with
    | nil =>
      obtain ⟨w', d1, d2, d3⟩ := dmi_spec (promoteG_true hw st) (promoteG_false hw st) hT hwk hsrc arb true
      exact ih _ _ w' (S.set w []) (by simpa using hlen) d1 d2 d3 (hrel true arb (fun y ys h => by cases h) (fun _ => rfl)) (by omega)
    | cons y ys =>
      obtain ⟨w', d1, d2, d3⟩ := dmi_spec (promoteG_true hw st) (promoteG_false hw st) hT hwk hsrc y false
      exact ih _ _ w' (S.set w (y :: ys)) (by simpa using hlen) d1 d2 d3
        (hrel false y (fun z zs h => by injection h with h1 h2; exact ⟨rfl, h1⟩) (fun h => by cases h)) (by omega)

theorem init_tour {le : Node α → Node α → Prop} {leftWins : Node α → Node α → Bool} {leaf t : Nat → Node α} {L : Nat}
    (h1 : ∀ i j, i < j → leftWins (leaf i) (leaf j) = true → le (leaf i) (leaf j))
    (h2 : ∀ i j, i < j → leftWins (leaf i) (leaf j) = false → le (leaf j) (leaf i)) (ht : ∀ i, t (2 ^ L + i) = leaf i) :
    ∃ w, w < 2 ^ L ∧ (initWinner leftWins (2 ^ L) (2 ^ L + 1) 1 t).2 (initWinner leftWins (2 ^ L) (2 ^ L + 1) 1 t).1 = leaf w ∧
      Tour le (upd (initWinner leftWins (2 ^ L) (2 ^ L + 1) 1 t).2 0
        ((initWinner leftWins (2 ^ L) (2 ^ L + 1) 1 t).2 (initWinner leftWins (2 ^ L) (2 ^ L + 1) 1 t).1)) leaf (2 ^ L) L 1 w := by
  obtain ⟨⟨w, r1, r2, r3, r4⟩, r5⟩ := initWinner_tour (le := le) leaf (2 ^ L) h1 h2 L (2 ^ L + 1) 1 t
    (by have : L < 2 ^ L := Nat.lt_two_pow_self
        omega) Nat.zero_lt_one (by omega) (by omega) ht
  refine ⟨w, by omega, ?_, ?_⟩
  · rw [r1, r5 (2 ^ L + w), ht]
    rintro ⟨u, hu, hm⟩
    have h6 : 2 ^ (u + 1) ≤ 2 ^ L := Nat.pow_le_pow_right (by decide) (by omega)
    rw [Nat.pow_succ] at h6
    have h7 := Nat.lt_div_mul_add (a := 2 ^ L + w) (Nat.pos_of_ne_zero (by simp : 2 ^ u ≠ 0))
    rw [hm] at h7
    omega
  · apply r2.frame
    · intro m b; exact upd_ne _ _ (Tour.below_pos b)
    · intro _ _; rfl

theorem loserTree_run (hw : SWO lt) {st : Bool} (junk : Nat → Node α) {S : List (List α)} {n : Nat} (hlen : S.length ≤ 2 ^ 64)
    (hne : S.flatten ≠ []) (hn : n ≤ S.flatten.length) :
    ∃ o S', loserTree lt st junk S n = some (o, S') ∧ o.length = n ∧ MergeRun lt st S o S' := by
  have h1 : 1 ≤ S.length := by
    cases S with
    | nil => simp at hne
    | cons a b => simp
  obtain ⟨L, hk, hk2, _⟩ := roundUp_spec h1 hlen
  unfold loserTree
  rw [hk]
  cases hf : S.flatten with
  | nil => exact absurd hf hne
  | cons arb rest =>
    dsimp only
    generalize ht0 : (fun pos => if pos < 2 ^ L then junk pos else
      match S[pos - 2 ^ L]? with
      | some s => leafNode arb (pos - 2 ^ L) s
      | none => (⟨true, -1, (junk pos).key⟩ : Node α)) = t0
    have hleaf : ∃ leaf : Nat → Node α, (∀ i, t0 (2 ^ L + i) = leaf i) ∧ LeafRel S leaf := by
      refine ⟨fun i => t0 (2 ^ L + i), fun _ => rfl, ?_, ?_⟩
      · intro i x xs hi
        rw [← ht0]
        try dsimp only
        rw [if_neg (by omega), Nat.add_sub_cancel_left, hi]; rfl
      · intro i hi
        rw [← ht0]
        try dsimp only
        rw [if_neg (by omega), Nat.add_sub_cancel_left]
        cases hs : S[i]? with
        | none => rfl
        | some s =>
          rw [hd_some hs] at hi
          subst hi; rfl
    obtain ⟨leaf, hl1, hl2⟩ := hleaf
    obtain ⟨w, w1, w2, w3⟩ := init_tour (le := leG lt st) (leftWins := leftWinsG lt) (leaf := leaf) (t := t0)
      (fun i j hij h => leftWinsG_true hl2 st hij h) (fun i j _ h => leftWinsG_false hw st h) hl1
    generalize initWinner (leftWinsG lt) (2 ^ L) (2 ^ L + 1) 1 t0 = r at *
    have hmin : Nat.min (total S) n = n := by rw [total_flatten]; exact Nat.min_eq_right hn
    rw [hmin]
    exact treeLoop_run hw arb n _ leaf w S hk2 w3 w1 (by rw [upd_same]; exact w2) hl2 hn

/-! ### The unguarded, not stable tree -/

/-- Every sequence keeps an element that is not less than `min`. -/
structure V (lt : α → α → Bool) (min : α) (S : List (List α)) : Prop where
  sorted : AllSorted lt S
  last : ∀ (i : Nat) (l : List α), S[i]? = some l → ∃ z, l.getLast? = some z ∧ lt z min = false

/-- The leaves of the unguarded tree; those without a sequence hold something not less than `min`. -/
structure LeafU (lt : α → α → Bool) (min : α) (S : List (List α)) (leaf : Nat → Node α) : Prop where
  live : ∀ (i : Nat) (x : α) (xs : List α), S[i]? = some (x :: xs) → (leaf i).key = x ∧ (leaf i).source = i
  virt : ∀ i, S.length ≤ i → lt (leaf i).key min = false

/-- The order of the unguarded tree. -/
def leU (lt : α → α → Bool) (a b : Node α) : Prop := lt b.key a.key = false

theorem treeLoopU_run (hw : SWO lt) {kind : Kind} {L : Nat} {min : α} {m : Nat} : ∀ (n : Nat) (t leaf : Nat → Node α) (w : Nat) (S : List (List α)),
    S.length ≤ 2 ^ L → Tour (leU lt) t leaf (2 ^ L) L 1 w → w < 2 ^ L → t 0 = leaf w → LeafU lt min S leaf → V lt min S →
    n ≤ cnt lt false min m S →
    ∃ o S', treeLoopU lt kind false (2 ^ L) n t S = some (o, S') ∧ o.length = n ∧ MergeRun lt false S o S' ∧ V lt min S' := by
  intro n
  induction n with
  | zero => intro t leaf w S _ _ _ _ _ hV _; exact ⟨[], S, rfl, rfl, .nil S, hV⟩
  | succ n ih =>
    intro t leaf w S hlen hT hwk ht0 hL hV hn
    have hmin := fun j hj => Tour.min (le := leU lt) (fun a => hw.irrefl _) (fun a b c h1 h2 => hw.negtrans _ _ _ h2 h1) hT j (mem_div (L := L) hj)
    obtain ⟨j, l, y, hj, hy, hby⟩ := cnt_pos (lt := lt) (stable := false) (min := min) (m := m) (S := S) (by omega)
    have hym : lt y min = true := by simpa [below] using hby
    have hkey : lt (leaf w).key min = true := by
      cases l with
      | nil => simp at hy
      | cons z zs =>
        have hz : lt y z = false := by
          rcases List.mem_cons.1 hy with rfl | h
          · exact hw.irrefl _
          · exact (List.pairwise_cons.1 (hV.sorted _ (List.mem_of_getElem? hj))).1 y h
        have h1 : lt (leaf j).key (leaf w).key = false := hmin j (by have := lt_length hj; omega)
        rw [(hL.live j z zs hj).1] at h1
        exact hw.lt_of_le_of_lt (hw.negtrans _ _ _ hz h1) hym
    have hwlen : w < S.length := by
      rcases Nat.lt_or_ge w S.length with h | h
      · exact h
      · rw [hL.virt w h] at hkey; cases hkey
    obtain ⟨z, hz, hzm⟩ := hV.last w _ (getElem?_hd hwlen)
    cases hh : hd S w with
    | nil => rw [hh] at hz; simp at hz
    | cons x xs =>
    have hi := hd_eq.1 hh
    obtain ⟨hlk, hls⟩ := hL.live w x xs hi
    have hsrc : (t 0).source = w := by rw [ht0, hls]
    have hb : Best lt false S w x := by
      intro j y ys hj
      have h1 : lt (leaf j).key (leaf w).key = false := hmin j (by have := lt_length hj; omega)
      rw [hlk, (hL.live j y ys hj).1] at h1
      exact ⟨h1, fun h => by cases h⟩
    have hbx : below lt false min m w x = true := by rw [hlk] at hkey; simpa [below] using hkey
    have hstep := cnt_step hi hbx
    rw [hh] at hz
    unfold treeLoopU
    dsimp only
    rw [hsrc, if_neg (by omega)]
    have : ((w : Int)).toNat = w := by omega
    rw [this, hh]
    dsimp only
    cases xs with
    | nil =>
      simp only [List.getLast?_singleton, Option.some.injEq] at hz
      subst hz
      rw [hlk, hzm] at hkey; cases hkey
    | cons y ys =>
      obtain ⟨w', d1, d2, d3⟩ := dmi_spec (le := leU lt) (promote := promoteU lt kind false) (fun p c h => hw.asymm _ _ h) (fun p c h => h)
        hT hwk hsrc y false
      have hL' : LeafU lt min (S.set w (y :: ys)) (upd leaf w ⟨false, w, y⟩) := by
        refine ⟨?_, ?_⟩
        · intro i v vs hiv
          by_cases hiw : i = w
          · subst hiw
            rw [List.getElem?_set_self (lt_length hi)] at hiv
            have := Option.some.inj hiv
            injection this with e1 e2
            rw [upd_same]; exact ⟨e1, rfl⟩
          · rw [List.getElem?_set_ne (Ne.symm hiw)] at hiv
            rw [upd_ne _ _ hiw]; exact hL.live i v vs hiv
        · intro i hil
          rw [List.length_set] at hil
          rw [upd_ne _ _ (by omega)]; exact hL.virt i hil
      have hV' : V lt min (S.set w (y :: ys)) := by
        refine ⟨hV.sorted.set hi, ?_⟩
        intro i l hil
        by_cases hiw : w = i
        · subst hiw
          rw [List.getElem?_set_self (lt_length hi)] at hil
          have := Option.some.inj hil
          subst this
          rw [List.getLast?_cons_cons] at hz
          exact ⟨z, hz, hzm⟩
        · rw [List.getElem?_set_ne hiw] at hil
          exact hV.last i l hil
      obtain ⟨o, S', r1, r2, r3, r4⟩ := ih _ _ w' (S.set w (y :: ys)) (by simpa using hlen) d1 d2 d3 hL' hV' (by omega)
      refine ⟨x :: o, S', ?_, by simp [r2], .cons hi hb r3, r4⟩
      exact congrArg (Res.push x) r1

theorem loserTreeU_run (hw : SWO lt) (kind : Kind) (junk : Nat → Node α) {S : List (List α)} {n : Nat} {min : α} {m : Nat}
    (hlen : S.length ≤ 2 ^ 64) (hpos : 1 ≤ S.length) (hV : V lt min S) (hn : n ≤ cnt lt false min m S) :
    ∃ o S', loserTreeU lt kind false junk S n = some (o, S') ∧ o.length = n ∧ MergeRun lt false S o S' ∧ V lt min S' := by
  obtain ⟨L, hk, hk2, _⟩ := roundUp_spec hpos hlen
  unfold loserTreeU
  rw [hk]
  obtain ⟨z, hz, hzm⟩ := hV.last 0 _ (getElem?_hd (by omega))
  rw [hz]
  dsimp only
  have hany : ¬ (S.any List.isEmpty = true) := by
    intro h
    obtain ⟨s, hs, he⟩ := List.any_eq_true.1 h
    obtain ⟨j, hj⟩ := List.getElem?_of_mem hs
    obtain ⟨z, hz, _⟩ := hV.last j s hj
    have : s = [] := by simpa using he
    rw [this] at hz; simp at hz
  rw [if_neg hany]
  generalize ht0 : (fun pos => if pos < 2 ^ L then junk pos else
      match S[pos - 2 ^ L]? with
      | some s => leafNode z (pos - 2 ^ L) s
      | none => (⟨false, -1, z⟩ : Node α)) = t0
  have hleaf : ∃ leaf : Nat → Node α, (∀ i, t0 (2 ^ L + i) = leaf i) ∧ LeafU lt min S leaf := by
    refine ⟨fun i => t0 (2 ^ L + i), fun _ => rfl, ?_, ?_⟩
    · intro i x xs hi
      rw [← ht0]
      try dsimp only
      rw [if_neg (by omega), Nat.add_sub_cancel_left, hi]; exact ⟨rfl, rfl⟩
    · intro i hi
      rw [← ht0]
      try dsimp only
      rw [if_neg (by omega), Nat.add_sub_cancel_left, List.getElem?_eq_none hi]; exact hzm
  obtain ⟨leaf, hl1, hl2⟩ := hleaf
  obtain ⟨w, w1, w2, w3⟩ := init_tour (le := leU lt) (leftWins := leftWinsU lt) (leaf := leaf) (t := t0)
    (fun i j _ h => by unfold leftWinsU at h; simpa [leU] using h)
    (fun i j _ h => by
      unfold leftWinsU at h
      have h : lt (leaf j).key (leaf i).key = true := by simpa using h
      exact hw.asymm _ _ h) hl1
  generalize initWinner (leftWinsU lt) (2 ^ L) (2 ^ L + 1) 1 t0 = r at *
  have hcl : cnt lt false min m S ≤ total S := by
    have := overhang_sum S (fun s l => l.length - l.countP fun x => below lt false min m s x)
      (fun s l => l.countP fun x => below lt false min m s x) (by
        intro s l
        have := List.countP_le_length (p := fun x => below lt false min m s x) (l := l)
        omega)
    unfold cnt; omega
  have hmin : Nat.min (total S) n = n := Nat.min_eq_right (by omega)
  rw [hmin]
  exact treeLoopU_run hw n _ leaf w S hk2 w3 w1 (by rw [upd_same]; exact w2) hl2 hV hn

theorem combinedTree_run (hw : SWO lt) (kind : Kind) (junk : Nat → Node α) {S : List (List α)} {n : Nat} (hlen : S.length ≤ 2 ^ 64)
    (hS : AllSorted lt S) (hne : S.flatten ≠ []) (hn : n ≤ S.flatten.length) :
    ∃ o S', combinedTree lt kind false junk S n = some (o, S') ∧ o.length = n ∧ MergeRun lt false S o S' := by
  have hne' : S ≠ [] := by rintro rfl; simp at hne
  unfold combinedTree
  rcases prepare_spec hw false hne' with ⟨t, h1, h2⟩ | ⟨min, m, ov, h1, h2, h3⟩
  · rw [h1]
    dsimp only
    rw [List.length_nil, Nat.sub_zero]
    obtain ⟨o, S', e1, e2, e3⟩ := loserTree_run (st := false) hw junk hlen hne hn
    rw [e1]
    exact ⟨o, S', rfl, e2, e3⟩
  · rw [h1]
    dsimp only
    rw [h3]
    have hV : V lt min S := ⟨hS, fun i l hi => by
      obtain ⟨z, z1, z2, _⟩ := h2.all i l hi
      exact ⟨z, z1, z2⟩⟩
    obtain ⟨o, S', e1, e2, e3, e4⟩ := loserTreeU_run hw kind junk (n := Nat.min n (cnt lt false min m S)) (m := m) hlen
      (List.length_pos_iff.2 hne') hV (Nat.min_le_right ..)
    rw [e1]
    dsimp only
    obtain ⟨c1, c2⟩ := e3.count
    have hle : Nat.min n (cnt lt false min m S) ≤ n := Nat.min_le_left ..
    have hne2 : S'.flatten ≠ [] := by
      intro h0
      have h0l : 0 < S'.length := by rw [c2]; exact List.length_pos_iff.2 hne'
      obtain ⟨z, hz, _⟩ := e4.last 0 _ (getElem?_hd h0l)
      have := (List.flatten_eq_nil_iff.1 h0) _ (List.mem_of_getElem? (getElem?_hd h0l))
      rw [this] at hz; simp at hz
    obtain ⟨o', S'', f1, f2, f3⟩ := loserTree_run (st := false) (S := S') (n := n - o.length) hw junk (by omega) hne2 (by omega)
    rw [f1]
    exact ⟨o ++ o', S'', rfl, by rw [List.length_append]; omega, e3.append f3⟩

end Stxxl.MwMerge
