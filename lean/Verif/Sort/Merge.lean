import Verif.Sort.Own
import Verif.LoserTree.Stable

/-! # Merging runs on disk -/

namespace Stxxl.Srt

variable {α : Type} {lt : α → α → Bool}

theorem mergeOut_spec (hs : SWO lt) {B : Nat} (hB : 0 < B) {r : Nat} : ∀ (out : List Nat) (s : LT.State α) (d : D α),
    LT.Inv lt r s → out.length * B ≤ (LT.rem r s.cur s.seq).length → out.Nodup → (∀ b ∈ out, b ∈ d.live) →
    ∃ run d' s', mergeOut lt B out s d = some (run, d') ∧ bidsOf run = out ∧ d'.live = d.live ∧
      (∀ b, b ∉ out → d'.disk b = d.disk b) ∧ Trig B d' run ∧ LT.Merged lt r s s' (runData d' run) := by
  intro out
  induction out with
  | nil =>
    intro s d I _ _ _
    exact ⟨[], d, s, rfl, rfl, rfl, fun _ _ => rfl, by intro e he; simp at he, List.Pairwise.nil, List.Perm.refl _, by simp [runData]⟩
  | cons b out ih =>
    intro s d I hn hnd hlive
    rw [List.length_cons, Nat.succ_mul] at hn
    obtain ⟨xs, s1, a1, a2, a3, a4⟩ := LT.multiMerge_spec hs I (n := B) (by omega)
    have hlen := a4.2.1.length_eq
    rw [List.length_append] at hlen
    obtain ⟨v, x', rfl⟩ : ∃ v x', xs = v :: x' := by
      cases xs with
      | nil => simp at a2; omega
      | cons v x' => exact ⟨v, x', rfl⟩
    have hbl := hlive b (by simp)
    obtain ⟨run, d', s', e1, e2, e3, e4, e5, e6⟩ := ih s1 { d with disk := LT.upd d.disk b (v :: x') } a3 (by omega)
      hnd.of_cons (fun c hc => hlive c (List.mem_cons_of_mem _ hc))
    have hbo : b ∉ out := (List.nodup_cons.1 hnd).1
    have hdb : d'.disk b = v :: x' := by rw [e4 b hbo]; exact upd_same _ _ _
    refine ⟨(b, v) :: run, d', s', ?_, by simp [bidsOf] at e2 ⊢; exact e2, e3, ?_, ?_, ?_⟩
    · simp only [mergeOut, a1, wr, hbl, if_true]
      rw [e1]
    · intro c hc
      rw [List.mem_cons, not_or] at hc
      rw [e4 c hc.2]
      exact upd_ne _ _ hc.1
    · intro e he
      rcases List.mem_cons.1 he with rfl | he
      · simp only; rw [hdb]; exact ⟨a2, rfl⟩
      · exact e5 e he
    · have : runData d' ((b, v) :: run) = (v :: x') ++ runData d' run := by
        unfold runData; rw [List.map_cons, List.flatten_cons, hdb]
      rw [this]
      exact a4.trans e6

theorem bidsOf_flatten (runs : List (Run α)) : bidsOf runs.flatten = (runs.map bidsOf).flatten := by
  unfold bidsOf; rw [List.map_flatten]

theorem runsData_eq (d : D α) (runs : List (Run α)) : runsData d runs = runData d runs.flatten := by
  unfold runsData runData
  induction runs with
  | nil => rfl
  | cons r rs ih => simp [ih]

theorem mergeRuns_spec (hs : SWO lt) {B : Nat} (hB : 0 < B) {d : D α} {runs : List (Run α)} {out R : List Nat}
    (h : Own d (bidsOf runs.flatten ++ out) R) (hne : runs ≠ []) (hrne : ∀ r ∈ runs, r ≠ [])
    (hok : ∀ r ∈ runs, RunOk lt B d r) (hlen : out.length = runs.flatten.length) :
    ∃ r d', mergeRuns lt B d runs out = some (r, d') ∧ bidsOf r = out ∧ Own d' out R ∧
      (∀ b ∈ R, d'.disk b = d.disk b) ∧ RunOk lt B d' r ∧ (runData d' r).Perm (runsData d runs) := by
  have hblk : ∀ run ∈ runs, (run.Pairwise fun a b => LT.AllLe lt (d.disk a.1) (d.disk b.1)) ∧
      ∀ e ∈ run, Sorted lt (d.disk e.1) := by
    intro run hr
    have h1 := (hok run hr).2
    unfold Sorted runData at h1
    rw [List.pairwise_flatten, List.pairwise_map] at h1
    refine ⟨h1.2.imp (fun h x hx y hy => h x hx y hy), ?_⟩
    intro e he
    exact h1.1 _ (List.mem_map_of_mem he)
  obtain ⟨T, t1, t2, t3⟩ := LT.consume_gen (runs := runs) hs (fun e : Nat × α => e.2) (fun e => d.disk e.1) hrne
    (fun run hr e he => ((hok run hr).1 e he).2) (fun run hr e he => (hblk run hr).2 e he) (fun run hr => (hblk run hr).1)
  obtain ⟨s, i1, i2, i3⟩ := LT.init_spec hs (List.length_pos_of_ne_nil hne) t2 t3
  rw [t1] at i1 i3
  have hperm : (runs.flatten.mergeSort fun a b => !lt b.2 a.2).Perm runs.flatten := List.mergeSort_perm _ _
  have hrem : (LT.rem runs.length s.cur s.seq).Perm (runsData d runs) := by
    refine i3.trans ?_
    rw [runsData_eq]
    exact (hperm.map _).flatten
  have htrig : Trig B d runs.flatten := by
    intro e he
    obtain ⟨r, hr, he⟩ := List.mem_flatten.1 he
    exact (hok r hr).1 e he
  have hrl : (LT.rem runs.length s.cur s.seq).length = out.length * B := by
    rw [hrem.length_eq, runsData_eq, runData_length htrig, hlen]
  have hmem : ∀ b ∈ out, b ∈ d.live := fun b hb => h.mem.2 (Or.inl (List.mem_append_right _ hb))
  have hndo : out.Nodup := h.ndX.of_append_right
  obtain ⟨run, d1, s1, e1, e2, e3, e4, e5, e6, e7, e8⟩ := mergeOut_spec hs hB out s d i2 (by omega) hndo hmem
  obtain ⟨d2, f1, f2, f3⟩ := delAll_own (bidsOf runs.flatten) (X := out) (R := R) (h.of_live e3)
  refine ⟨run, d2, ?_, e2, f3, ?_, ⟨?_, ?_⟩, ?_⟩
  · unfold mergeRuns
    dsimp only
    rw [rdAll_own]
    · dsimp only
      have : ((runs.flatten.mergeSort fun a b => !lt b.2 a.2).map (·.1)).map d.disk
          = (runs.flatten.mergeSort fun a b => !lt b.2 a.2).map fun e => d.disk e.1 := by rw [List.map_map]; rfl
      rw [this, i1]
      dsimp only
      rw [e1]
      dsimp only
      unfold bidsOf at f1
      rw [f1]
    · intro b hb
      obtain ⟨e, he, rfl⟩ := List.mem_map.1 hb
      exact h.mem.2 (Or.inl (List.mem_append_left _ (List.mem_map_of_mem (hperm.subset he))))
  · intro b hb
    rw [f2]
    exact e4 b (fun hb' => h.disj (List.mem_append_right _ hb') hb)
  · exact e5.congr (fun b _ => by rw [f2])
  · rw [runData_congr (d := d1) (fun b _ => by rw [f2])]; exact e6
  · rw [runData_congr (d := d1) (d' := d2) (fun b _ => by rw [f2])]
    have hl := e7.length_eq
    rw [List.length_append, runData_length e5, hrl] at hl
    have hlb : run.length = out.length := by rw [← e2]; unfold bidsOf; rw [List.length_map]
    rw [hlb] at hl
    have : LT.rem runs.length s1.cur s1.seq = [] := List.length_eq_zero_iff.1 (by omega)
    rw [this, List.append_nil] at e7
    exact e7.trans hrem

theorem mergeGroups_spec (hs : SWO lt) {B : Nat} (hB : 0 < B) : ∀ (gs : List (List (Run α))) (outs : List (List Nat))
    {d : D α} {R : List Nat}, Own d (bidsOf gs.flatten.flatten ++ outs.flatten) R →
    outs.map List.length = gs.map (fun g => g.flatten.length) → (∀ g ∈ gs, g ≠ []) → (∀ g ∈ gs, ∀ r ∈ g, r ≠ []) →
    (∀ g ∈ gs, ∀ r ∈ g, RunOk lt B d r) →
    ∃ rs d', mergeGroups lt B d gs outs = some (rs, d') ∧ rs.map bidsOf = outs ∧ Own d' outs.flatten R ∧
      (∀ b ∈ R, d'.disk b = d.disk b) ∧ (∀ r ∈ rs, RunOk lt B d' r) ∧
      (runsData d' rs).Perm (runsData d gs.flatten) := by
  intro gs
  induction gs with
  | nil =>
    intro outs d R h hl _ _ _
    have : outs = [] := by simpa using hl
    subst this
    exact ⟨[], d, rfl, rfl, by simpa [bidsOf] using h, fun _ _ => rfl, by simp, by simp [runsData]⟩
  | cons g gs ih =>
    intro outs d R h hl hg hr hok
    cases outs with
    | nil => simp at hl
    | cons o os =>
      simp only [List.map_cons, List.cons.injEq] at hl
      have hb : bidsOf (g :: gs).flatten.flatten = bidsOf g.flatten ++ bidsOf gs.flatten.flatten := by
        simp [bidsOf]
      rw [hb, List.flatten_cons] at h
      have h1 : Own d (bidsOf g.flatten ++ o) (bidsOf gs.flatten.flatten ++ os.flatten ++ R) := by
        refine h.congr ?_
        generalize bidsOf g.flatten = a
        generalize bidsOf gs.flatten.flatten = b
        generalize os.flatten = c
        permc
      obtain ⟨r, d1, a1, a2, a3, a4, a5, a6⟩ := mergeRuns_spec hs hB h1 (hg g (by simp)) (hr g (by simp))
        (hok g (by simp)) hl.1
      have h2 : Own d1 (bidsOf gs.flatten.flatten ++ os.flatten) (o ++ R) := by
        refine a3.congr ?_
        generalize bidsOf gs.flatten.flatten = b
        generalize os.flatten = c
        permc
      have hkeep : ∀ r ∈ gs.flatten, ∀ b ∈ bidsOf r, d1.disk b = d.disk b := by
        intro r hr b hb'
        apply a4
        apply List.mem_append_left
        apply List.mem_append_left
        rw [bidsOf_flatten]
        exact List.mem_flatten.2 ⟨bidsOf r, List.mem_map_of_mem hr, hb'⟩
      obtain ⟨rs, d2, b1, b2, b3, b4, b5, b6⟩ := ih os h2 hl.2 (fun g' hg' => hg g' (List.mem_cons_of_mem _ hg'))
        (fun g' hg' => hr g' (List.mem_cons_of_mem _ hg'))
        (fun g' hg' r' hr' => (hok g' (List.mem_cons_of_mem _ hg') r' hr').congr
          (hkeep r' (List.mem_flatten.2 ⟨g', hg', hr'⟩)))
      have hk2 : ∀ b ∈ bidsOf r, d2.disk b = d1.disk b := fun b hb' => b4 b (List.mem_append_left _ (a2 ▸ hb'))
      refine ⟨r :: rs, d2, ?_, by simp [a2, b2], ?_, ?_, ?_, ?_⟩
      · simp only [mergeGroups, a1, b1]
      · refine b3.congr ?_
        rw [List.flatten_cons]
        generalize os.flatten = c
        permc
      · intro b hb'
        rw [b4 b (List.mem_append_right _ hb'), a4 b (by simp [hb'])]
      · intro r' hr'
        rcases List.mem_cons.1 hr' with rfl | hr'
        · exact a5.congr hk2
        · exact b5 r' hr'
      · have e1 : runsData d2 (r :: rs) = runData d2 r ++ runsData d2 rs := by simp [runsData]
        have e2 : runsData d (g :: gs).flatten = runsData d g ++ runsData d gs.flatten := by simp [runsData]
        have e3 : runsData d1 gs.flatten = runsData d gs.flatten := by
          unfold runsData
          congr 1
          apply List.map_congr_left
          intro r' hr'
          exact runData_congr (hkeep r' hr')
        rw [e1, e2, runData_congr hk2, ← e3]
        exact a6.append b6

end Stxxl.Srt
