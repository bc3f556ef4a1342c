import Verif.Sorter.Merge

/-! # Recursive merging -/

namespace Stxxl.Sorter

open Stxxl.Srt Stxxl.Streams

variable {α : Type} {lt : α → α → Bool} {P : Par α}

/-- What `initialize` achieves, while the blocks `X` and `R` belong to others. -/
def InitPost (lt : α → α → Bool) (P : Par α) (d : D α) (xs : List α) (X R : List Nat) (r : MG α × SRuns α × D α) : Prop :=
  Out lt P r.1 xs ∧ SInv lt P r.2.2 r.2.1 xs ∧ Own r.2.2 (r.2.1.bids ++ X) R ∧ ∀ b, b ∈ X ∨ b ∈ R → r.2.2.disk b = d.disk b

/-- `initialize` succeeds, or throws for the reason `bad`. -/
def InitSpec (lt : α → α → Bool) (P : Par α) (init : D α → SRuns α → Except Err (MG α × SRuns α × D α)) (bad : SRuns α → Prop) : Prop :=
  ∀ d s xs X R, SInv lt P d s xs → Own d (s.bids ++ X) R → (∀ x ∈ xs, Fits lt P x) →
    (∃ r, init d s = .ok r ∧ InitPost lt P d xs X R r) ∨ (init d s = .error .noMem ∧ bad s)

theorem mergeGroup_spec {pick : Pick} (hp : PickOk pick) (hs : SWO lt) (hB : 0 < P.B) {init : Init α} {mem : Nat} {bad : SRuns α → Prop}
    (hi : InitSpec lt P (init (mem - 2 * P.nd * P.raw)) bad) {d : D α} {g : List (Run α × Nat)} {X R : List Nat}
    (hg : ∀ e ∈ g, RunSz lt P d e) (hne : g ≠ []) (ho : Own d (bidsR g ++ X) R) (hf : ∀ x ∈ parts d g, Fits lt P x) :
    (∃ r n d', mergeGroup pick lt P init mem d g = .ok ((r, n), d') ∧ RunSz lt P d' (r, n) ∧ (part d' (r, n)).Perm (parts d g) ∧
      Own d' (bidsOf r ++ X) R ∧ (∀ b, b ∈ X ∨ b ∈ R → d'.disk b = d.disk b)) ∨
    (mergeGroup pick lt P init mem d g = .error .noMem ∧ ∃ n, bad { elements := n, runs := g, small := [] }) := by
  unfold mergeGroup
  dsimp only
  generalize hn : (g.map (·.2)).sum = n
  have hpl := parts_length hg
  rw [hn] at hpl
  obtain ⟨n1, n2, n3⟩ := newBlocks_own hp ho (divCeil n P.B)
  generalize newBlocks pick (divCeil n P.B) d = a at *
  have hsub : ∀ b ∈ bidsR g, a.2.disk b = d.disk b := fun b _ => by rw [n2]
  have hS : SInv lt P a.2 { elements := n, runs := g, small := [] } (parts d g) :=
    ⟨hpl.symm, fun e he => (hg e he).congr (fun b hb => hsub b (bidsR_mem he hb)), .inl rfl, List.Pairwise.nil, by
      rw [List.nil_append, parts_congr hsub]⟩
  have ho1 : Own a.2 (bidsR g ++ (a.1 ++ X)) R := n3.congr (by permc)
  rcases hi a.2 { elements := n, runs := g, small := [] } (parts d g) (a.1 ++ X) R hS ho1 hf with ⟨⟨m, s, d1⟩, i1, i2, i3, i4, i5⟩ | ⟨i1, i2⟩
  · left
    rw [i1]
    dsimp only at *
    obtain ⟨zs, t, z1, z2, z3, z4⟩ := i2
    have hzl : zs.length = n := by rw [z3.length_eq, hpl]
    have hr := readN_gives z1.1
    rw [hzl] at hr
    rw [hr]
    dsimp only
    have ht : t.rem = 0 := by simpa [merger] using z1.2
    rw [if_neg (by omega)]
    have hzf : ∀ x ∈ zs, lt P.maxV x = false := fun x hx => (hf x (z3.subset hx)).le hs
    have hnpos : 0 < n := by
      obtain ⟨e, g', rfl⟩ : ∃ e g', g = e :: g' := List.exists_cons_of_ne_nil hne
      rw [List.map_cons, List.sum_cons] at hn
      have := (hg e List.mem_cons_self).pos
      omega
    obtain ⟨r, d2, w1, w2, w3, w4, w5, w6⟩ := writeSorted_spec (P := P) (lt := lt) hB (d := d1) (out := a.1) (X := s.bids ++ X) (R := R)
      (i4.congr (by permc)) (l := zs) (pad := List.replicate (divCeil n P.B * P.B - zs.length) P.maxV)
      (by rintro rfl; simp at hzl; omega)
      (by have := (divCeil_bounds (n := n) hB).1; simp [n1]; omega)
      (fillMax_sorted z2 hzf (hs.irrefl _)) (fun x hx => List.eq_of_mem_replicate hx)
    rw [n1] at w1
    unfold fillMax
    rw [w1]
    dsimp only
    obtain ⟨d3, f1, f2, f3⟩ := delAll_own s.bids (X := a.1 ++ X) (R := R) (w3.congr (by permc))
    rw [f1]
    dsimp only
    refine ⟨r, n, d3, rfl, ?_, ?_, by rw [w2]; exact f3, ?_⟩
    · rw [hzl] at w5; exact w5.congr (fun b _ => by rw [f2])
    · rw [hzl] at w6
      rw [part_congr (d := d2) (fun b _ => by rw [f2]), w6]; exact z3
    · intro b hb
      have hb' : b ∉ a.1 := by
        intro hb'
        have hnd := n3.nd
        rw [List.append_assoc, List.nodup_append] at hnd
        refine hnd.2.2 b hb' b ?_ rfl
        rcases hb with hb | hb
        · exact List.mem_append_left _ (List.mem_append_right _ hb)
        · exact List.mem_append_right _ hb
      rw [f2, w4 b hb', i5 b (by rcases hb with hb | hb; exact .inl (List.mem_append_right _ hb); exact .inr hb), n2]
  · right
    rw [i1]
    exact ⟨rfl, n, i2⟩

/-- What the loop over the groups relies on: only the last group can have a single run, and it is the last run. -/
def GroupsOk (last : Option (Run α × Nat)) : List (List (Run α × Nat)) → Prop
  | [] => True
  | g :: gs => (g.length > 1 ∨ gs = [] ∧ ∃ r, g = [r] ∧ last = some r) ∧ GroupsOk last gs

theorem groups_ok {f : Nat} (hf : 2 ≤ f) : ∀ (n : Nat) (l : List (Run α × Nat)), l.length ≤ n → GroupsOk l.getLast? (groups f n l) ∧
    ∀ g ∈ groups f n l, g.length ≤ f := by
  intro n
  induction n with
  | zero =>
    intro l _; simp [groups, GroupsOk]
  | succ n ih =>
    intro l hl
    unfold groups
    by_cases h0 : l = []
    · subst h0; simp [GroupsOk]
    · rw [if_neg h0]
      have hpos := List.length_pos_of_ne_nil h0
      obtain ⟨i1, i2⟩ := ih (l.drop f) (by rw [List.length_drop]; omega)
      refine ⟨⟨?_, ?_⟩, ?_⟩
      · by_cases h1 : l.length = 1
        · right
          obtain ⟨r, rfl⟩ := List.length_eq_one_iff.mp h1
          refine ⟨?_, r, ?_, rfl⟩
          · rw [List.drop_of_length_le (by simp; omega)]
            cases n <;> simp [groups]
          · rw [List.take_of_length_le (by simp; omega)]
        · left; rw [List.length_take]; omega
      · by_cases hd : l.drop f = []
        · rw [hd]; cases n <;> simp [groups, GroupsOk]
        · have : (l.drop f).getLast? = l.getLast? := by
            conv => rhs; rw [← List.take_append_drop f l]
            rw [List.getLast?_append]
            cases hq : (l.drop f).getLast? with
            | none => rw [List.getLast?_eq_none_iff] at hq; exact absurd hq hd
            | some x => rfl
          rw [this] at i1; exact i1
      · intro g hg
        rcases List.mem_cons.mp hg with rfl | hg
        · rw [List.length_take]; omega
        · exact i2 g hg

theorem parts_flatten (d : D α) (gs : List (List (Run α × Nat))) : parts d gs.flatten = (gs.map (parts d)).flatten := by
  induction gs with
  | nil => rfl
  | cons g gs ih => rw [List.flatten_cons, parts_append, ih]; rfl

theorem mergeGroups_spec {pick : Pick} (hp : PickOk pick) (hs : SWO lt) (hB : 0 < P.B) {init : Init α} {mem : Nat} {bad : SRuns α → Prop}
    (hi : InitSpec lt P (init (mem - 2 * P.nd * P.raw)) bad) (last : Option (Run α × Nat)) :
    ∀ (gs : List (List (Run α × Nat))) (d : D α) (X R : List Nat), GroupsOk last gs → (∀ g ∈ gs, g ≠ []) →
    (∀ e ∈ gs.flatten, RunSz lt P d e) → Own d (bidsR gs.flatten ++ X) R → (∀ x ∈ parts d gs.flatten, Fits lt P x) →
    (∃ rs d', mergeGroups pick lt P init mem last d gs = .ok (rs, d') ∧ rs.length = gs.length ∧ (∀ e ∈ rs, RunSz lt P d' e) ∧
      (parts d' rs).Perm (parts d gs.flatten) ∧ Own d' (bidsR rs ++ X) R ∧ (∀ b, b ∈ X ∨ b ∈ R → d'.disk b = d.disk b)) ∨
    (mergeGroups pick lt P init mem last d gs = .error .noMem ∧ ∃ g ∈ gs, ∃ n, bad { elements := n, runs := g, small := [] }) := by
  intro gs
  induction gs with
  | nil => intro d X R _ _ _ ho _; exact .inl ⟨[], d, rfl, rfl, by simp, List.Perm.refl _, ho, fun _ _ => rfl⟩
  | cons g gs ih =>
    intro d X R hok hne hrs ho hf
    obtain ⟨hg, hok'⟩ := hok
    rw [List.flatten_cons] at hrs ho hf
    unfold mergeGroups
    by_cases hgl : g.length > 1
    · rw [if_pos hgl]
      have ho1 : Own d (bidsR g ++ (bidsR gs.flatten ++ X)) R := ho.congr (by rw [bidsR_append]; permc)
      rcases mergeGroup_spec hp hs hB hi (fun e he => hrs e (List.mem_append_left _ he)) (hne g List.mem_cons_self) ho1
        (fun x hx => hf x (by rw [parts_append]; exact List.mem_append_left _ hx)) with ⟨r, n, d1, m1, m2, m3, m4, m5⟩ | ⟨m1, m2⟩
      · rw [m1]
        dsimp only
        have hsame : ∀ b ∈ bidsR gs.flatten, d1.disk b = d.disk b := fun b hb => m5 b (.inl (List.mem_append_left _ hb))
        have ho2 : Own d1 (bidsR gs.flatten ++ (bidsOf r ++ X)) R := m4.congr (by permc)
        rcases ih d1 (bidsOf r ++ X) R hok' (fun g hg => hne g (List.mem_cons_of_mem _ hg))
          (fun e he => (hrs e (List.mem_append_right _ he)).congr (fun b hb => hsame b (bidsR_mem he hb))) ho2
          (fun x hx => hf x (by rw [parts_congr hsame] at hx; rw [parts_append]; exact List.mem_append_right _ hx))
          with ⟨rs, d2, i1, i2, i3, i4, i5, i6⟩ | ⟨i1, i2⟩
        · left
          rw [i1]
          refine ⟨(r, n) :: rs, d2, rfl, by simp [i2], ?_, ?_, ?_, ?_⟩
          · intro e he
            rcases List.mem_cons.mp he with rfl | he
            · exact m2.congr (fun b hb => i6 b (.inl (List.mem_append_left _ hb)))
            · exact i3 e he
          · rw [List.flatten_cons, parts_append]
            show (part d2 (r, n) ++ parts d2 rs).Perm _
            rw [part_congr (d := d1) (fun b hb => i6 b (.inl (List.mem_append_left _ hb)))]
            rw [parts_congr hsame] at i4
            exact m3.append i4
          · rw [bidsR_cons]; exact i5.congr (by permc)
          · intro b hb
            rw [i6 b (by rcases hb with hb | hb; exact .inl (List.mem_append_right _ hb); exact .inr hb),
              m5 b (by rcases hb with hb | hb; exact .inl (List.mem_append_right _ hb); exact .inr hb)]
        · right
          rw [i1]
          obtain ⟨g', hg', h'⟩ := i2
          exact ⟨rfl, g', List.mem_cons_of_mem _ hg', h'⟩
      · right
        rw [m1]
        exact ⟨rfl, g, List.mem_cons_self, m2⟩
    · rw [if_neg hgl]
      rcases hg with hg | ⟨rfl, r, rfl, hl⟩
      · exact absurd hg hgl
      · left
        rw [hl]
        simp only [List.flatten_nil, List.append_nil] at *
        exact ⟨[r], d, rfl, rfl, hrs, List.Perm.refl _, ho, fun _ _ => rfl⟩

theorem mergeLoop_spec {pick : Pick} (hp : PickOk pick) (hs : SWO lt) (hB : 0 < P.B) {init : Init α} {mem arity f : Nat} (ha : 1 ≤ arity)
    (hf2 : 2 ≤ f) {bad : SRuns α → Prop} (hi : InitSpec lt P (init (mem - 2 * P.nd * P.raw)) bad) :
    ∀ (n : Nat) (d : D α) (s : SRuns α) (xs : List α) (X R : List Nat), s.runs.length < n → SInv lt P d s xs → s.small = [] →
    Own d (s.bids ++ X) R → (∀ x ∈ xs, Fits lt P x) →
    (∃ s' d', mergeLoop pick lt P init mem arity f n d s = .ok (s', d') ∧ s'.runs.length ≤ arity ∧ s'.small = [] ∧ SInv lt P d' s' xs ∧
      Own d' (s'.bids ++ X) R ∧ (∀ b, b ∈ X ∨ b ∈ R → d'.disk b = d.disk b)) ∨
    (mergeLoop pick lt P init mem arity f n d s = .error .noMem ∧ ∃ g : List (Run α × Nat), g.length ≤ f ∧ ∃ n, bad { elements := n, runs := g, small := [] }) := by
  intro n
  induction n with
  | zero => intro d s xs X R h; omega
  | succ n ih =>
    intro d s xs X R hn h hsm ho hfit
    unfold mergeLoop
    by_cases hl : s.runs.length > arity
    · rw [if_pos hl]
      obtain ⟨g1, g2⟩ := groups_ok hf2 s.runs.length s.runs (Nat.le_refl _)
      obtain ⟨g3, g4⟩ := groups_flatten f (by omega) s.runs.length s.runs (Nat.le_refl _)
      obtain ⟨g5, _⟩ := groups_length f hf2 s.runs.length s.runs (Nat.le_refl _)
      have hperm := h.perm
      rw [hsm, List.nil_append] at hperm
      rcases mergeGroups_spec hp hs hB hi s.runs.getLast? (groups f s.runs.length s.runs) d X R g1 g4
        (by rw [g3]; exact h.runs) (by rw [g3]; exact ho) (by rw [g3]; exact fun x hx => hfit x (hperm.subset hx))
        with ⟨rs, d1, m1, m2, m3, m4, m5, m6⟩ | ⟨m1, g, hg, m2⟩
      · rw [m1]
        dsimp only
        rw [g3] at m4
        have hel : s.elements = (s.runs.map (·.2)).sum := by
          rw [← parts_length h.runs, hperm.length_eq, h.el]
        rw [if_pos hel]
        have hS : SInv lt P d1 { elements := s.elements, runs := rs, small := [] } xs :=
          ⟨h.el, m3, .inl rfl, List.Pairwise.nil, by rw [List.nil_append]; exact m4.trans hperm⟩
        rcases ih d1 { elements := s.elements, runs := rs, small := [] } xs X R (by dsimp only; omega) hS rfl m5 hfit
          with ⟨s', d2, i1, i2, i3, i4, i5, i6⟩ | ⟨i1, i2⟩
        · left
          exact ⟨s', d2, i1, i2, i3, i4, i5, fun b hb => by rw [i6 b hb, m6 b hb]⟩
        · right; exact ⟨i1, i2⟩
      · right
        rw [m1]
        exact ⟨rfl, g, g2 g hg, m2⟩
    · rw [if_neg hl]
      exact .inl ⟨s, d, rfl, by omega, hsm, h, ho, fun _ _ => rfl⟩

/-- The merge factor is larger than the number of runs that can be merged at once. -/
def BigFactor (mf : Nat → Nat → Nat) : Prop := ∃ n a, 2 ≤ a ∧ a < n ∧ a < mf n a

/-- What is assumed about the environment. -/
structure POk (P : Par α) : Prop where
  B : 0 < P.B
  raw : 0 < P.raw
  nd : 0 < P.nd
  fac : 0 < P.fac

theorem small_yields {B : Nat} (l : List α) : Yields (merger lt B) { rem := l.length, buf := l, tree := none } l { rem := 0, buf := [], tree := none } := by
  induction l with
  | nil => exact ⟨.nil _, by simp [merger]⟩
  | cons x l ih =>
    refine ⟨.cons (t := { rem := l.length, buf := l, tree := none }) (by simp [merger]) (by simp [merger]) ?_ ih.1, ih.2⟩
    simp [merger]

theorem initMerger_spec {pick : Pick} (hp : PickOk pick) (hs : SWO lt) (hP : POk P) {mf : Nat → Nat → Nat}
    (hmf : ∀ n a, 2 ≤ a → a < n → 2 ≤ mf n a) : ∀ (depth mem : Nat), mem / P.raw < depth →
    InitSpec lt P (initMerger pick lt P mf depth mem) (fun s => (inputBuffers P mem < s.runs.length + 2 * P.nd ∧ mem / P.raw < 4 * P.nd + 3) ∨ BigFactor mf) := by
  intro depth
  induction depth with
  | zero => intro mem h; exact absurd h (Nat.not_lt_zero _)
  | succ depth ih =>
    intro mem hmem d s xs X R h ho hf
    unfold initMerger
    by_cases h0 : s.elements = 0
    · rw [if_pos h0]
      have : xs = [] := List.length_eq_zero_iff.mp (by rw [← h.el]; exact h0)
      subst this
      exact .inl ⟨_, rfl, ⟨[], _, small_yields [], List.Pairwise.nil, List.Perm.refl _, rfl⟩, h, ho, fun _ _ => rfl⟩
    · rw [if_neg h0]
      have hx : xs ≠ [] := by rintro rfl; exact h0 h.el
      by_cases hsm : s.small ≠ []
      · rw [if_pos hsm]
        have hr : s.runs = [] := by rcases h.one with h1 | h1; exact absurd h1 hsm; exact h1
        have hperm := h.perm
        rw [hr] at hperm
        simp only [parts, List.map_nil, List.flatten_nil, List.append_nil] at hperm
        have hl : s.elements = s.small.length := by rw [h.el, hperm.length_eq]
        rw [if_pos hl]
        refine .inl ⟨_, rfl, ?_, h, ho, fun _ _ => rfl⟩
        show Out lt P _ xs
        rw [hl]
        have := small_yields (lt := lt) (B := P.B) s.small
        exact ⟨s.small, _, this, h.small, hperm, rfl⟩
      · rw [if_neg hsm]
        have hsm : s.small = [] := by simpa using hsm
        have hib : inputBuffers P mem = mem / P.raw - 1 := by
          unfold inputBuffers
          have := Nat.sub_mul_div mem P.raw 1
          rw [Nat.mul_one] at this
          exact this
        have hma : maxArity P mem = mem / P.raw - (2 * P.nd + 2 * P.nd + 1) := by
          unfold maxArity
          rw [Nat.mul_comm (2 * P.nd + 2 * P.nd + 1) P.raw]
          exact Nat.sub_mul_div mem P.raw _
        have fin : ∀ (s' : SRuns α) (d' : D α), SInv lt P d' s' xs → s'.small = [] → Own d' (s'.bids ++ X) R →
            (∀ b, b ∈ X ∨ b ∈ R → d'.disk b = d.disk b) → s'.runs.length + 2 * P.nd ≤ inputBuffers P mem →
            ∃ r, (if s'.runs.length + 2 * P.nd ≤ inputBuffers P mem then
              match start lt P d' s' with
              | none => Except.error Err.ub
              | some m => Except.ok (m, s', d')
              else Except.error Err.ub) = Except.ok r ∧ InitPost lt P d xs X R r := by
          intro s' d' h' hsm' ho' hd' hle
          obtain ⟨g, g1, g2⟩ := start_spec hs hP.B h' (fun b hb => ho'.mem.2 (.inl (List.mem_append_left _ hb))) hsm' hx hf
          rw [if_pos hle, g1]
          exact ⟨_, rfl, g2, h', ho', hd'⟩
        by_cases hib' : inputBuffers P mem < s.runs.length + 2 * P.nd
        · rw [if_pos hib']
          by_cases hm : mem / P.raw < 2 * (2 * P.nd) + 1 + 2
          · rw [if_pos hm]
            exact .inr ⟨rfl, .inl ⟨hib', by omega⟩⟩
          · rw [if_neg hm]
            have hnd := hP.nd
            have ha2 : 2 ≤ maxArity P mem := by omega
            have han : maxArity P mem < s.runs.length := by omega
            have hf2 := hmf _ _ ha2 han
            rw [if_neg (by omega)]
            have hmem' : (mem - 2 * P.nd * P.raw) / P.raw = mem / P.raw - 2 * P.nd := by
              rw [Nat.mul_comm (2 * P.nd) P.raw]; exact Nat.sub_mul_div mem P.raw _
            have hib2 : inputBuffers P (mem - 2 * P.nd * P.raw) = mem / P.raw - 2 * P.nd - 1 := by
              unfold inputBuffers
              have := Nat.sub_mul_div (mem - 2 * P.nd * P.raw) P.raw 1
              rw [Nat.mul_one] at this
              rw [this, hmem']
            have hi := ih (mem - 2 * P.nd * P.raw) (by omega)
            rcases mergeLoop_spec (mem := mem) (arity := maxArity P mem) hp hs hP.B (by omega) hf2 hi (s.runs.length + 1) d s xs X R (by omega) h hsm ho hf
              with ⟨s', d', m1, m2, m3, m4, m5, m6⟩ | ⟨m1, g, hgl, n, hbad⟩
            · rw [m1]
              dsimp only
              exact .inl (fin s' d' m4 m3 m5 m6 (by omega))
            · rw [m1]
              refine .inr ⟨rfl, .inr ?_⟩
              rcases hbad with ⟨hb1, hb2⟩ | hb
              · dsimp only at hb1
                rw [hib2] at hb1
                exact ⟨s.runs.length, maxArity P mem, ha2, han, by omega⟩
              · exact hb
        · rw [if_neg hib']
          exact .inl (fin s d h hsm ho (fun _ _ => rfl) (by omega))

end Stxxl.Sorter
