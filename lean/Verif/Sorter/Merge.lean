import Verif.Sorter.Runs
import Verif.Sort.Merge

/-! # The merger yields the elements of the runs in order -/

namespace Stxxl.Sorter

open Stxxl.Srt Stxxl.Streams

variable {α : Type} {lt : α → α → Bool} {P : Par α}

/-- An element may not be above `max_value`; if it is not below it, it must be equal to it. -/
def Fits (lt : α → α → Bool) (P : Par α) (x : α) : Prop := lt x P.maxV = true ∨ x = P.maxV

theorem Fits.le (hs : SWO lt) {x : α} (h : Fits lt P x) : lt P.maxV x = false := by
  rcases h with h | rfl
  · exact hs.asymm _ _ h
  · exact hs.irrefl _

/-- Reading the elements of the buffer; the last one excepted. -/
theorem buf_gives (B : Nat) : ∀ (xs : List α) (x : α) (n : Nat) (t : Option (LT.State α)), xs.length + 1 ≤ n →
    Gives (merger lt B) { rem := n, buf := xs ++ [x], tree := t } xs { rem := n - xs.length, buf := [x], tree := t } := by
  intro xs
  induction xs with
  | nil => intro x n t _; exact .nil _
  | cons y ys ih =>
    intro x n t hn
    simp only [List.length_cons] at hn
    refine .cons (t := { rem := n - 1, buf := ys ++ [x], tree := t }) ?_ ?_ ?_ ?_
    · simp [merger]; omega
    · simp only [merger]; rw [if_neg (by omega)]; rfl
    · simp only [merger]
      rw [if_neg (by simp; omega)]
      simp
    · have := ih x (n - 1) t (by omega)
      rw [show n - 1 - ys.length = n - (ys.length + 1) by omega] at this
      exact this

theorem fill_yields (hs : SWO lt) {B : Nat} (hB : 0 < B) {r : Nat} : ∀ (n : Nat) (s : LT.State α) (b : List α), LT.Inv lt r s → 0 < n →
    n ≤ (LT.rem r s.cur s.seq).length →
    ∃ g zs t s', fillBuffer lt B { rem := n, buf := b, tree := some s } = some g ∧ Yields (merger lt B) g zs t ∧ zs.length = n ∧
      LT.Merged lt r s s' zs := by
  intro n
  induction n using Nat.strongRecOn with
  | _ n ih =>
    intro s b I h0 hn
    have hmin : min B n ≤ n := Nat.min_le_right _ _
    obtain ⟨xs, s1, a1, a2, a3, a4⟩ := LT.multiMerge_spec hs I (n := min B n) (by omega)
    have hpos : 0 < xs.length := by rw [a2]; omega
    obtain ⟨ys, y, rfl⟩ : ∃ ys y, xs = ys ++ [y] := by
      have hne : xs ≠ [] := by rintro rfl; simp at hpos
      exact ⟨xs.dropLast, xs.getLast hne, (List.dropLast_append_getLast hne).symm⟩
    simp only [List.length_append, List.length_singleton] at a2
    by_cases hb : n ≤ B
    · have hyn : ys.length + 1 = n := by omega
      refine ⟨{ rem := n, buf := ys ++ [y], tree := none }, ys ++ [y], { rem := 0, buf := [], tree := none }, s1, ?_, ⟨?_, by simp [merger]⟩, ?_, a4⟩
      · unfold fillBuffer; dsimp only; rw [a1]; dsimp only; rw [if_pos hb]
      · refine (buf_gives B ys y n none (by omega)).append ?_
        rw [show n - ys.length = 1 by omega]
        refine .cons (t := { rem := 0, buf := [], tree := none }) (by simp [merger]) (by simp [merger]) ?_ (.nil _)
        simp [merger]
      · simpa using hyn
    · have hyB : ys.length + 1 = B := by omega
      have hlen := a4.2.1.length_eq
      simp only [List.length_append, List.length_singleton] at hlen
      obtain ⟨g, zs, t, s', i1, i2, i3, i4⟩ := ih (n - B) (by omega) s1 [] a3 (by omega) (by omega)
      refine ⟨{ rem := n, buf := ys ++ [y], tree := some s1 }, ys ++ [y] ++ zs, t, s', ?_, ⟨?_, i2.2⟩, ?_, a4.trans i4⟩
      · unfold fillBuffer; dsimp only; rw [a1]; dsimp only; rw [if_neg hb]
      · rw [List.append_assoc]
        refine (buf_gives B ys y n (some s1) (by omega)).append ?_
        rw [List.singleton_append]
        refine .cons (t := g) ?_ ?_ ?_ i2.1
        · simp [merger]; omega
        · simp only [merger]; rw [if_neg (by omega)]; rfl
        · simp only [merger]
          rw [if_neg (by simp; omega), if_pos (by simp; omega), show n - ys.length - 1 = n - B by omega]
          exact i1
      · simp [i3]; omega

/-- The smallest elements of runs padded with `max_value` are the elements of the runs. -/
theorem drop_pad (hs : SWO lt) {zs rest xs : List α} {k : Nat} (h1 : Sorted lt zs) (h2 : (zs ++ rest).Perm (xs ++ List.replicate k P.maxV))
    (h3 : ∀ x ∈ zs, ∀ y ∈ rest, lt y x = false) (hlen : zs.length = xs.length) (hf : ∀ x ∈ xs, Fits lt P x) : zs.Perm xs := by
  have hmp : (rest.mergeSort fun a b => !lt b a).Perm rest := List.mergeSort_perm _ _
  have hms : Sorted lt (rest.mergeSort fun a b => !lt b a) := by
    have := List.pairwise_mergeSort (le := fun a b => !lt b a) (by
      intro a b c h1 h2
      simp only [Bool.not_eq_true'] at *
      exact hs.negtrans _ _ _ h2 h1) (by
      intro a b
      simp only [Bool.or_eq_true, Bool.not_eq_true']
      cases hab : lt b a
      · exact .inl rfl
      · exact .inr (hs.asymm _ _ hab)) rest
    exact this.imp (by intro a b h; simpa using h)
  have hS : Sorted lt (zs ++ rest.mergeSort fun a b => !lt b a) := by
    unfold Sorted
    rw [List.pairwise_append]
    exact ⟨h1, hms, fun a ha b hb => h3 a ha b (hmp.subset hb)⟩
  obtain ⟨mid, m1, m2⟩ := sentinel hs (mn := P.maxV) (mx := P.maxV) (a := 0) (b := k) (mid := xs) hS
    (by simp only [List.replicate_zero, List.nil_append]; exact (hmp.append_left zs).trans h2) (.inl rfl) (by simp) (fun _ => hf)
  simp only [List.replicate_zero, List.nil_append] at m1
  have := (List.append_inj m1 (by rw [hlen, m2.length_eq])).1
  rw [this]; exact m2

/-- Everything on disk: the elements and the filling. -/
theorem data_split {d : D α} {rs : List (Run α × Nat)} (h : ∀ e ∈ rs, RunSz lt P d e) :
    ∃ k, (runsData d (rs.map (·.1))).Perm (parts d rs ++ List.replicate k P.maxV) := by
  induction rs with
  | nil => exact ⟨0, by simp [runsData, parts]⟩
  | cons e rs ih =>
    obtain ⟨k, hk⟩ := ih (fun e he => h e (List.mem_cons_of_mem _ he))
    have he := h e List.mem_cons_self
    have hfill : (runData d e.1).drop e.2 = List.replicate ((runData d e.1).drop e.2).length P.maxV := eq_replicate_of_forall he.fill
    refine ⟨((runData d e.1).drop e.2).length + k, ?_⟩
    rw [List.replicate_add, ← hfill]
    show ((runData d e.1) ++ runsData d (rs.map (·.1))).Perm (part d e ++ parts d rs ++ _)
    conv => lhs; rw [← List.take_append_drop e.2 (runData d e.1)]
    show ((part d e ++ (runData d e.1).drop e.2) ++ runsData d (rs.map (·.1))).Perm _
    refine (hk.append_left _).trans ?_
    rw [List.append_assoc, List.append_assoc]
    refine List.Perm.append_left _ ?_
    rw [← List.append_assoc, ← List.append_assoc]
    exact List.Perm.append_right _ List.perm_append_comm

theorem parts_length {d : D α} {rs : List (Run α × Nat)} (h : ∀ e ∈ rs, RunSz lt P d e) : (parts d rs).length = (rs.map (·.2)).sum := by
  induction rs with
  | nil => rfl
  | cons e rs ih =>
    show (part d e ++ parts d rs).length = _
    rw [List.length_append, ih (fun e he => h e (List.mem_cons_of_mem _ he)), List.map_cons, List.sum_cons]
    unfold part
    rw [List.length_take, Nat.min_eq_left (h e List.mem_cons_self).le]

/-- The loser tree over the blocks of the runs. -/
theorem consume_init (hs : SWO lt) {B : Nat} {d : D α} {runs : List (Run α)} (hlive : ∀ b ∈ bidsOf runs.flatten, b ∈ d.live)
    (hne : runs ≠ []) (hrne : ∀ r ∈ runs, r ≠ []) (hok : ∀ r ∈ runs, RunOk lt B d r) :
    ∃ blocks s, rdAll d ((runs.flatten.mergeSort fun a b => !lt b.2 a.2).map (·.1)) = some blocks ∧ LT.init lt runs.length blocks = some s ∧
      LT.Inv lt runs.length s ∧ (LT.rem runs.length s.cur s.seq).Perm (runsData d runs) := by
  have hblk : ∀ run ∈ runs, (run.Pairwise fun a b => LT.AllLe lt (d.disk a.1) (d.disk b.1)) ∧
      ∀ e ∈ run, Sorted lt (d.disk e.1) := by
    intro run hr
    have h1 := (hok run hr).2
    unfold Sorted runData at h1
    rw [List.pairwise_flatten, List.pairwise_map] at h1
    refine ⟨h1.2.imp (fun h x hx y hy => h x hx y hy), ?_⟩
    intro e he
    exact h1.1 _ (List.mem_map_of_mem he)
  obtain ⟨T, t1, t2, t3⟩ := LT.consume_gen (runs := runs) hs (fun e : Nat × α => e.2) (fun e => d.disk e.1) hrne
    (fun run hr e he => ((hok run hr).1 e he).2) (fun run hr e he => (hblk run hr).2 e he) (fun run hr => (hblk run hr).1)
  obtain ⟨s, i1, i2, i3⟩ := LT.init_spec hs (List.length_pos_of_ne_nil hne) t2 t3
  rw [t1] at i1 i3
  have hperm : (runs.flatten.mergeSort fun a b => !lt b.2 a.2).Perm runs.flatten := List.mergeSort_perm _ _
  refine ⟨_, s, rdAll_own _ ?_, ?_, i2, ?_⟩
  · intro b hb
    obtain ⟨e, he, rfl⟩ := List.mem_map.1 hb
    exact hlive _ (List.mem_map_of_mem (hperm.subset he))
  · rw [List.map_map]; exact i1
  · refine i3.trans ?_
    rw [runsData_eq]
    exact (hperm.map _).flatten

/-- The merger has been started on the elements `xs`. -/
def Out (lt : α → α → Bool) (P : Par α) (g : MG α) (xs : List α) : Prop :=
  ∃ zs t, Yields (merger lt P.B) g zs t ∧ Sorted lt zs ∧ zs.Perm xs ∧ g.rem = zs.length

theorem gives_rem {B : Nat} {g t : MG α} {zs : List α} (h : Gives (merger lt B) g zs t) : g.rem = zs.length + t.rem := by
  induction h with
  | nil => simp
  | cons he hc hn _ ih =>
    rename_i s t _ x xs _
    have hr : s.rem ≠ 0 := by simpa [merger] using he
    have : t.rem = s.rem - 1 := by
      simp only [merger] at hn
      split at hn
      · cases hn
      · split at hn
        · unfold fillBuffer at hn
          dsimp only at hn
          split at hn
          · cases hn
          · split at hn
            · cases hn
            · cases hn; rfl
        · cases hn; rfl
    simp only [List.length_cons]
    omega

theorem yields_rem {B : Nat} {g t : MG α} {zs : List α} (h : Yields (merger lt B) g zs t) : g.rem = zs.length := by
  have h0 : t.rem = 0 := by simpa [merger] using h.2
  have := gives_rem h.1
  omega

theorem start_spec (hs : SWO lt) (hB : 0 < P.B) {d : D α} {s : SRuns α} {xs : List α} (h : SInv lt P d s xs)
    (hlive : ∀ b ∈ s.bids, b ∈ d.live) (hsm : s.small = []) (hx : xs ≠ []) (hf : ∀ x ∈ xs, Fits lt P x) :
    ∃ g, start lt P d s = some g ∧ Out lt P g xs := by
  have hperm := h.perm
  rw [hsm, List.nil_append] at hperm
  have hne : s.runs.map (·.1) ≠ [] := by
    intro h0
    have : s.runs = [] := by simpa using h0
    rw [this] at hperm
    exact hx (by simpa [parts] using hperm.symm)
  obtain ⟨blocks, t, c1, c2, c3, c4⟩ := consume_init (d := d) (B := P.B) hs hlive hne
    (by intro r hr; obtain ⟨e, he, rfl⟩ := List.mem_map.mp hr; exact (h.runs e he).ne)
    (by intro r hr; obtain ⟨e, he, rfl⟩ := List.mem_map.mp hr; exact (h.runs e he).ok)
  obtain ⟨k, hk⟩ := data_split h.runs
  have hrem := c4.trans (hk.trans (hperm.append_right _))
  have hxl : 0 < xs.length := List.length_pos_of_ne_nil hx
  obtain ⟨g, zs, t', s', f1, f2, f3, f4⟩ := fill_yields hs hB s.elements t [] c3 (by rw [h.el]; exact hxl)
    (by rw [hrem.length_eq, h.el]; simp)
  refine ⟨g, ?_, zs, t', f2, f4.1, ?_, yields_rem f2⟩
  · unfold start
    dsimp only
    rw [c1]
    dsimp only
    rw [List.length_map] at c2
    rw [c2]
    exact f1
  · exact drop_pad hs f4.1 (f4.2.1.trans hrem) f4.2.2 (by rw [f3, h.el]) hf

theorem readN_gives {σ : Type} {S : Streams.Stream σ α} {g t : σ} {zs : List α} (h : Gives S g zs t) : readN S zs.length g = some (zs, t) := by
  induction h with
  | nil => rfl
  | cons he hc hn _ ih => simp only [List.length_cons, readN, hc, hn, ih]

end Stxxl.Sorter
