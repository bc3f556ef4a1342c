import Verif.Sort.Merge
import Mathlib.Data.List.Perm.Subperm
import Mathlib.Data.List.Flatten

/-! # Merge phases: distribution of the new blocks to runs, groups, termination -/

namespace Stxxl.Srt

variable {α : Type} {lt : α → α → Bool}

/-- Inverse of the adaptor. -/
def posOf (w h r p : Nat) : Nat := if p < h then p * w + r else w * h + (p - h) * (w - 1) + r

theorem posOf_adaptor2 (w h n : Nat) : posOf w h (adaptor2 w h n).1 (adaptor2 w h n).2 = n := by
  unfold adaptor2 posOf
  split
  · rename_i hn
    have hw : 0 < w := by
      rcases Nat.eq_zero_or_pos w with rfl | h
      · simp at hn
      · exact h
    have : n / w < h := by rw [Nat.div_lt_iff_lt_mul hw, Nat.mul_comm]; exact hn
    simp only [this, if_true]
    rw [Nat.mul_comm]; exact Nat.div_add_mod n w
  · rename_i hn
    have : ¬ (h + (n - w * h) / (w - 1) < h) := Nat.not_lt.2 (Nat.le_add_right _ _)
    simp only [this, if_false]
    have e : h + (n - w * h) / (w - 1) - h = (n - w * h) / (w - 1) := Nat.add_sub_cancel_left _ _
    rw [e]
    have := Nat.div_add_mod (n - w * h) (w - 1)
    rw [Nat.mul_comm] at this
    generalize (n - w * h) / (w - 1) * (w - 1) = q at *
    generalize (n - w * h) % (w - 1) = t at *
    omega

theorem adaptor2_posOf {w h H r p : Nat} (hr : r < w) (hh : h ≤ H) (hp : p < if r = w - 1 then h else H) :
    adaptor2 w h (posOf w h r p) = (r, p) ∧ posOf w h r p < (w - 1) * H + h := by
  have htot : (w - 1) * H + h = w * h + (H - h) * (w - 1) := by
    obtain ⟨w', rfl⟩ : ∃ w', w = w' + 1 := ⟨w - 1, by omega⟩
    obtain ⟨e, rfl⟩ := Nat.exists_eq_add_of_le hh
    simp only [Nat.add_sub_cancel, Nat.add_sub_cancel_left]
    rw [Nat.mul_add, Nat.add_mul, Nat.mul_comm e]; omega
  unfold posOf
  by_cases hph : p < h
  · simp only [hph, if_true]
    have h1 : (p + 1) * w ≤ h * w := Nat.mul_le_mul_right _ hph
    rw [Nat.succ_mul] at h1
    have hlt : p * w + r < w * h := by rw [Nat.mul_comm w h]; omega
    refine ⟨?_, by rw [htot]; omega⟩
    unfold adaptor2
    rw [if_pos hlt, Nat.mul_comm p w, Nat.mul_add_mod, Nat.mod_eq_of_lt hr, Nat.mul_add_div (by omega),
      Nat.div_eq_of_lt hr, Nat.add_zero]
  · simp only [hph, if_false]
    have hrw : r ≠ w - 1 := by
      intro e; rw [if_pos e] at hp; exact hph hp
    rw [if_neg hrw] at hp
    have hr' : r < w - 1 := by omega
    have h1 : (p - h + 1) * (w - 1) ≤ (H - h) * (w - 1) := Nat.mul_le_mul_right _ (by omega)
    rw [Nat.succ_mul] at h1
    refine ⟨?_, by rw [htot]; omega⟩
    unfold adaptor2
    rw [if_neg (by omega)]
    have e : w * h + (p - h) * (w - 1) + r - w * h = (w - 1) * (p - h) + r := by rw [Nat.mul_comm (w - 1)]; omega
    rw [e, Nat.mul_add_mod, Nat.mod_eq_of_lt hr', Nat.mul_add_div (by omega), Nat.div_eq_of_lt hr', Nat.add_zero]
    congr 1; omega

theorem distribute_other (w h : Nat) : ∀ (bs : List Nat) (n : Nat) (cells : Nat → Nat → Option Nat) (r p : Nat),
    (∀ i, i < bs.length → (r, p) ≠ adaptor2 w h (n + i)) → distribute w h n bs cells r p = cells r p := by
  intro bs
  induction bs with
  | nil => intro n cells r p _; rfl
  | cons b bs ih =>
    intro n cells r p hne
    unfold distribute
    rw [ih]
    · rw [if_neg (by simpa using hne 0 (by simp))]
    · intro i hi
      have := hne (i + 1) (by simp; omega)
      rwa [show n + (i + 1) = n + 1 + i by omega] at this

theorem distribute_hit (w h : Nat) : ∀ (bs : List Nat) (n : Nat) (cells : Nat → Nat → Option Nat) (r p i : Nat),
    i < bs.length → adaptor2 w h (n + i) = (r, p) → distribute w h n bs cells r p = bs[i]? := by
  intro bs
  induction bs with
  | nil => intro n cells r p i hi _; simp at hi
  | cons b bs ih =>
    intro n cells r p i hi ha
    unfold distribute
    cases i with
    | zero =>
      rw [distribute_other]
      · simp [← ha]
      · intro j hj e
        rw [← ha] at e
        have := congrArg (fun q => posOf w h q.1 q.2) e
        simp only [posOf_adaptor2] at this
        omega
    | succ i =>
      rw [ih (n + 1) _ r p i (by simpa using hi) (by rw [← ha]; congr 1; omega)]
      simp

theorem allSome_map_some {β : Type} : ∀ (l : List β), allSome (l.map some) = some l := by
  intro l
  induction l with
  | nil => rfl
  | cons a l ih => simp [allSome, ih]

/-- Run lengths: all runs have `H` blocks, except the last which has between one and `H`. -/
def Shape (H : Nat) (sizes : List Nat) : Prop := ∃ k h, sizes = List.replicate k H ++ [h] ∧ 0 < h ∧ h ≤ H

theorem newRuns_spec {H : Nat} {sizes : List Nat} (hsh : Shape H sizes) (bids : List Nat) (hl : bids.length = sizes.sum) :
    ∃ outs, newRuns sizes bids = some outs ∧ outs.map List.length = sizes ∧ outs.flatten.Perm bids := by
  obtain ⟨k, h, hs, h0, hH⟩ := hsh
  have hw : sizes.length = k + 1 := by rw [hs]; simp
  have hlast : sizes.getLastD 0 = h := by rw [hs]; simp [List.getLastD_eq_getLast?]
  have hsum : sizes.sum = k * H + h := by rw [hs]; simp
  have hget : ∀ r (hr : r < sizes.length), sizes[r] = if r = k then h else H := by
    intro r hr
    simp only [hs]
    rw [List.getElem_append]
    split
    · rename_i h1; simp at h1; rw [if_neg (by omega)]; simp
    · rename_i h1; simp at h1; rw [if_pos (by omega)]; simp
  -- the positions of the cells
  have hpos : ∀ r (hr : r < sizes.length) p, p < sizes[r] →
      adaptor2 (k + 1) h (posOf (k + 1) h r p) = (r, p) ∧ posOf (k + 1) h r p < bids.length := by
    intro r hr p hp
    rw [hget r hr] at hp
    have := adaptor2_posOf (w := k + 1) (h := h) (H := H) (r := r) (p := p) (by omega) hH (by simpa using hp)
    rw [hl, hsum]; simpa using this
  have hcell : ∀ r (hr : r < sizes.length) p, p < sizes[r] →
      distribute (k + 1) h 0 bids (fun _ _ => none) r p = some (bids.getD (posOf (k + 1) h r p) 0) := by
    intro r hr p hp
    obtain ⟨h1, h2⟩ := hpos r hr p hp
    rw [distribute_hit (k + 1) h bids 0 _ r p _ h2 (by simpa using h1), List.getD_eq_getElem?_getD,
      List.getElem?_eq_getElem h2]
    rfl
  have hz : ∀ s ∈ sizes.zipIdx, ∃ hr : s.2 < sizes.length, s.1 = sizes[s.2] := by
    intro s hs'
    have := List.mem_zipIdx hs'
    simp at this
    obtain ⟨a, b⟩ := this
    exact ⟨a, b⟩
  refine ⟨sizes.zipIdx.map fun s => (List.range s.1).map fun p => bids.getD (posOf (k + 1) h s.2 p) 0, ?_, ?_, ?_⟩
  · unfold newRuns
    dsimp only
    rw [hw, hlast]
    have : (sizes.zipIdx.map fun s => allSome ((List.range s.1).map fun p => distribute (k + 1) h 0 bids (fun _ _ => none) s.2 p))
        = (sizes.zipIdx.map fun s => (List.range s.1).map fun p => bids.getD (posOf (k + 1) h s.2 p) 0).map some := by
      rw [List.map_map]
      apply List.map_congr_left
      intro s hs'
      obtain ⟨hr, he⟩ := hz s hs'
      have : ((List.range s.1).map fun p => distribute (k + 1) h 0 bids (fun _ _ => none) s.2 p)
          = ((List.range s.1).map fun p => bids.getD (posOf (k + 1) h s.2 p) 0).map some := by
        rw [List.map_map]
        apply List.map_congr_left
        intro p hp
        exact hcell s.2 hr p (he ▸ List.mem_range.1 hp)
      rw [this, allSome_map_some]; rfl
    rw [this, allSome_map_some]
  · rw [List.map_map]
    have : (List.length ∘ fun s : Nat × Nat => (List.range s.1).map fun p => bids.getD (posOf (k + 1) h s.2 p) 0) = Prod.fst := by
      funext s; simp
    rw [this, List.zipIdx_map_fst]
  · -- the list of cells
    let cells : List (Nat × Nat) := sizes.zipIdx.flatMap fun s => (List.range s.1).map fun p => (s.2, p)
    have hmem : ∀ c ∈ cells, ∃ hr : c.1 < sizes.length, c.2 < sizes[c.1] := by
      intro c hc
      obtain ⟨s, hs', hc⟩ := List.mem_flatMap.1 hc
      obtain ⟨p, hp, rfl⟩ := List.mem_map.1 hc
      obtain ⟨hr, he⟩ := hz s hs'
      exact ⟨hr, he ▸ List.mem_range.1 hp⟩
    have hndc : cells.Nodup := by
      show (sizes.zipIdx.flatMap _).Pairwise _
      rw [List.pairwise_flatMap]
      constructor
      · intro s _
        exact List.nodup_range.map (fun a b e => (Prod.mk.inj e).2)
      · have hlt : sizes.zipIdx.Pairwise fun a b => a.2 < b.2 := by
          have : (sizes.zipIdx.map (·.2)).Pairwise (· < ·) := by
            rw [List.zipIdx_map_snd]; exact List.pairwise_lt_range'
          exact List.pairwise_map.1 this
        refine hlt.imp ?_
        intro a b hab x hx y hy e
        obtain ⟨_, _, rfl⟩ := List.mem_map.1 hx
        obtain ⟨_, _, rfl⟩ := List.mem_map.1 hy
        have := (Prod.mk.inj e).1
        omega
    have hflat : (sizes.zipIdx.map fun s => (List.range s.1).map fun p => bids.getD (posOf (k + 1) h s.2 p) 0).flatten
        = (cells.map fun c => posOf (k + 1) h c.1 c.2).map fun i => bids.getD i 0 := by
      show _ = ((sizes.zipIdx.flatMap _).map _).map _
      rw [List.map_map, List.map_flatMap, List.flatMap_def]
      congr 1
      apply List.map_congr_left
      intro s _
      rw [List.map_map]; rfl
    have hlen : (cells.map fun c => posOf (k + 1) h c.1 c.2).length = bids.length := by
      show ((sizes.zipIdx.flatMap _).map _).length = _
      rw [List.length_map, List.length_flatMap, hl]
      congr 1
      have : (fun s : Nat × Nat => ((List.range s.1).map fun p => (s.2, p)).length) = Prod.fst := by funext s; simp
      rw [this, List.zipIdx_map_fst]
    have hnd : (cells.map fun c => posOf (k + 1) h c.1 c.2).Nodup := by
      rw [List.nodup_map_iff_inj_on hndc]
      intro a ha b hb e
      obtain ⟨ra, pa⟩ := hmem a ha
      obtain ⟨rb, pb⟩ := hmem b hb
      have e1 := (hpos a.1 ra a.2 pa).1
      have e2 := (hpos b.1 rb b.2 pb).1
      rw [e, e2] at e1
      exact (Prod.ext (congrArg Prod.fst e1) (congrArg Prod.snd e1)).symm
    have hperm : (cells.map fun c => posOf (k + 1) h c.1 c.2).Perm (List.range bids.length) := by
      have hsub : (cells.map fun c => posOf (k + 1) h c.1 c.2) ⊆ List.range bids.length := by
        intro i hi
        obtain ⟨c, hc, rfl⟩ := List.mem_map.1 hi
        obtain ⟨hr, hp⟩ := hmem c hc
        exact List.mem_range.2 (hpos c.1 hr c.2 hp).2
      exact (List.subperm_of_subset hnd hsub).perm_of_length_le (by rw [hlen]; simp)
    rw [hflat]
    refine (hperm.map _).trans ?_
    have : (List.range bids.length).map (fun i => bids.getD i 0) = bids := by
      apply List.ext_getElem
      · simp
      · intro i h1 h2
        simp [h2]
    rw [this]

theorem groups_flatten {β : Type} (mf : Nat) (hmf : 1 ≤ mf) : ∀ (fuel : Nat) (l : List β), l.length ≤ fuel →
    (groups mf fuel l).flatten = l ∧ (∀ g ∈ groups mf fuel l, g ≠ []) := by
  intro fuel
  induction fuel with
  | zero => intro l h; have : l = [] := List.length_eq_zero_iff.1 (by omega); subst this; simp [groups]
  | succ f ih =>
    intro l h
    by_cases hl : l = []
    · subst hl; simp [groups]
    · have hp := List.length_pos_of_ne_nil hl
      obtain ⟨a, b⟩ := ih (l.drop mf) (by rw [List.length_drop]; omega)
      simp only [groups, hl, if_false, List.flatten_cons, a, List.take_append_drop, List.mem_cons, true_and]
      rintro g (rfl | hg)
      · intro e; rw [List.take_eq_nil_iff] at e; rcases e with e | e <;> [omega; exact hl e]
      · exact b g hg

theorem groups_length {β : Type} (mf : Nat) (hmf : 2 ≤ mf) : ∀ (fuel : Nat) (l : List β), l.length ≤ fuel →
    2 * (groups mf fuel l).length ≤ l.length + 1 ∧ (l ≠ [] → groups mf fuel l ≠ []) := by
  intro fuel
  induction fuel with
  | zero => intro l h; have : l = [] := List.length_eq_zero_iff.1 (by omega); subst this; simp [groups]
  | succ f ih =>
    intro l h
    by_cases hl : l = []
    · subst hl; simp [groups]
    · have hp := List.length_pos_of_ne_nil hl
      obtain ⟨a, b⟩ := ih (l.drop mf) (by rw [List.length_drop]; omega)
      rw [List.length_drop] at a
      simp only [groups, hl, if_false, List.length_cons]
      refine ⟨?_, by simp⟩
      by_cases h1 : l.length ≤ mf
      · have : groups mf f (l.drop mf) = [] := by
          rw [List.drop_of_length_le h1]
          cases f <;> simp [groups]
        rw [this]; simp; omega
      · omega

theorem groups_shape {H mf : Nat} (hmf : 1 ≤ mf) : ∀ (fuel : Nat) (rs : List (Run α)), rs.length ≤ fuel →
    Shape H (rs.map List.length) → Shape (mf * H) ((groups mf fuel rs).map fun g => g.flatten.length) := by
  intro fuel
  induction fuel with
  | zero =>
    rintro rs h ⟨k, hh, e, _⟩
    have : rs = [] := List.length_eq_zero_iff.1 (by omega)
    subst this; simp at e
  | succ f ih =>
    rintro rs h ⟨k, hh, e, h0, hH⟩
    have hlen : rs.length = k + 1 := by
      have := congrArg List.length e; simpa using this
    have hne : rs ≠ [] := by intro e'; rw [e'] at hlen; simp at hlen
    simp only [groups, hne, if_false, List.map_cons]
    by_cases hk : k + 1 ≤ mf
    · have hd : groups mf f (rs.drop mf) = [] := by
        rw [List.drop_of_length_le (by omega)]
        cases f <;> simp [groups]
      rw [hd, List.take_of_length_le (by omega)]
      refine ⟨0, k * H + hh, ?_, by omega, ?_⟩
      · simp only [List.map_nil, List.replicate_zero, List.nil_append, List.cons.injEq, and_true]
        rw [List.length_flatten, e]; simp
      · have : (k + 1) * H ≤ mf * H := Nat.mul_le_mul_right _ hk
        rw [Nat.succ_mul] at this
        omega
    · have e1 : (rs.take mf).map List.length = List.replicate mf H := by
        rw [List.map_take, e, List.take_append_of_le_length (by simp; omega), List.take_replicate]
        congr 1; omega
      have e2 : (rs.drop mf).map List.length = List.replicate (k - mf) H ++ [hh] := by
        rw [List.map_drop, e, List.drop_append_of_le_length (by simp; omega), List.drop_replicate]
      obtain ⟨k', h', e3, h1, h2⟩ := ih (rs.drop mf) (by rw [List.length_drop]; omega) ⟨k - mf, hh, e2, h0, hH⟩
      refine ⟨k' + 1, h', ?_, h1, h2⟩
      rw [e3, List.length_flatten, e1]
      simp [List.replicate_succ]

/-- One merge phase. -/
theorem mergePhase_spec {pick : Pick} (hpk : PickOk pick) (hs : SWO lt) {B : Nat} (hB : 0 < B) {mf : Nat} (hmf : 2 ≤ mf)
    {d : D α} {rs : List (Run α)} {R : List Nat} {H : Nat} (h : Own d (bidsOf rs.flatten) R)
    (hsh : Shape H (rs.map List.length)) (hok : ∀ r ∈ rs, RunOk lt B d r) :
    ∃ rs' d', mergePhase pick lt B mf d rs = some (rs', d') ∧ Own d' (bidsOf rs'.flatten) R ∧
      Shape (mf * H) (rs'.map List.length) ∧ (∀ r ∈ rs', RunOk lt B d' r) ∧ (∀ b ∈ R, d'.disk b = d.disk b) ∧
      (runsData d' rs').Perm (runsData d rs) ∧ 2 * rs'.length ≤ rs.length + 1 ∧
      (rs'.map List.length).sum = (rs.map List.length).sum := by
  have hrne : ∀ r ∈ rs, r ≠ [] := by
    obtain ⟨k, hh, e, h0, hH⟩ := hsh
    intro r hr e'
    have : r.length ∈ rs.map List.length := List.mem_map_of_mem hr
    rw [e, List.mem_append] at this
    rcases this with t | t
    · have := List.eq_of_mem_replicate t; rw [e'] at this; simp at this; omega
    · simp at t; rw [e'] at t; simp at t; omega
  obtain ⟨g1, g2⟩ := groups_flatten mf (by omega) rs.length rs (Nat.le_refl _)
  obtain ⟨g3, _⟩ := groups_length mf hmf rs.length rs (Nat.le_refl _)
  have g4 := groups_shape (mf := mf) (by omega) rs.length rs (Nat.le_refl _) hsh
  have hsum : ((groups mf rs.length rs).map fun g => g.flatten.length).sum = (rs.map List.length).sum := by
    have : rs.flatten.length = (groups mf rs.length rs).flatten.flatten.length := by rw [g1]
    rw [← List.length_flatten, this]
    generalize groups mf rs.length rs = gs
    induction gs with
    | nil => rfl
    | cons g gs ih =>
      simp only [List.map_cons, List.sum_cons, List.flatten_cons, List.flatten_append, List.length_append, ih]
  unfold mergePhase
  dsimp only
  generalize groups mf rs.length rs = gs at *
  generalize hsz : (gs.map fun g => g.flatten.length) = sizes at *
  obtain ⟨n1, n2, n3⟩ := newBlocks_own hpk h sizes.sum
  obtain ⟨outs, o1, o2, o3⟩ := newRuns_spec g4 (newBlocks pick sizes.sum d).1 n1
  rw [o1]
  dsimp only
  have h1 : Own (newBlocks pick sizes.sum d).2 (bidsOf gs.flatten.flatten ++ outs.flatten) R := by
    refine n3.congr ?_
    rw [g1]
    refine (List.Perm.append_right R ?_)
    exact (o3.symm.append_right _).trans List.perm_append_comm
  obtain ⟨rs', d', m1, m2, m3, m4, m5, m6⟩ := mergeGroups_spec hs hB gs outs h1 (by rw [o2, hsz]) g2
    (fun g hg r hr => hrne r (by rw [← g1]; exact List.mem_flatten.2 ⟨g, hg, hr⟩))
    (fun g hg r hr => (hok r (by rw [← g1]; exact List.mem_flatten.2 ⟨g, hg, hr⟩)).congr (fun b _ => by rw [n2]))
  have hlens : rs'.map List.length = sizes := by
    have : rs'.map List.length = (rs'.map bidsOf).map List.length := by
      rw [List.map_map]; apply List.map_congr_left; intro r _; simp [bidsOf]
    rw [this, m2, o2]
  refine ⟨rs', d', m1, ?_, ?_, m5, ?_, ?_, ?_, ?_⟩
  · rw [bidsOf_flatten, m2]; exact m3
  · rw [hlens]; exact g4
  · intro b hb; rw [m4 b hb, n2]
  · rw [g1] at m6
    refine m6.trans ?_
    have : runsData (newBlocks pick sizes.sum d).2 rs = runsData d rs := by
      unfold runsData runData; rw [n2]
    rw [this]
  · have e1 : rs'.length = gs.length := by
      have := congrArg List.length hlens
      rw [← hsz] at this
      simpa using this
    rw [e1]; exact g3
  · rw [hlens]; exact hsum

theorem phases_spec {pick : Pick} (hpk : PickOk pick) (hs : SWO lt) {B : Nat} (hB : 0 < B) {mf : Nat} (hmf : 2 ≤ mf)
    {R : List Nat} : ∀ (fuel : Nat) (d : D α) (rs : List (Run α)) (H : Nat), rs.length < fuel → Own d (bidsOf rs.flatten) R →
    Shape H (rs.map List.length) → (∀ r ∈ rs, RunOk lt B d r) →
    ∃ r d', phases pick lt B mf fuel d rs = some (r, d') ∧ Own d' (bidsOf r) R ∧ RunOk lt B d' r ∧
      (∀ b ∈ R, d'.disk b = d.disk b) ∧ (runData d' r).Perm (runsData d rs) ∧ r.length = (rs.map List.length).sum := by
  intro fuel
  induction fuel with
  | zero => intro d rs H h; omega
  | succ fuel ih =>
    intro d rs H hlen h hsh hok
    unfold phases
    by_cases hc : rs.length > 1
    · rw [if_pos hc]
      obtain ⟨rs', d', a1, a2, a3, a4, a5, a6, a7, a8⟩ := mergePhase_spec hpk hs hB hmf h hsh hok
      rw [a1]
      obtain ⟨r, d2, b1, b2, b3, b4, b5, b6⟩ := ih d' rs' _ (by omega) a2 a3 a4
      refine ⟨r, d2, b1, b2, b3, fun b hb => by rw [b4 b hb, a5 b hb], b5.trans a6, by rw [b6, a8]⟩
    · rw [if_neg hc]
      obtain ⟨k, hh, e, h0, hH⟩ := hsh
      have hl : rs.length = k + 1 := by have := congrArg List.length e; simpa using this
      match rs, hl with
      | [], hl => simp at hl
      | [r], _ =>
        exact ⟨r, d, rfl, by simpa using h, hok r (by simp), fun _ _ => rfl, by simp [runsData], by simp⟩
      | _ :: _ :: _, hl => simp at hc

theorem runSizes_shape {n m2 : Nat} (hm : 0 < m2) (hn : m2 < n) :
    Shape m2 (runSizes n m2) ∧ (runSizes n m2).sum = n ∧ 2 ≤ (runSizes n m2).length ∧ (runSizes n m2).head? = some m2 := by
  have hdm := Nat.div_add_mod n m2
  have hml := Nat.mod_lt n hm
  have hq : 1 ≤ n / m2 := Nat.div_pos (by omega) hm
  rw [Nat.mul_comm] at hdm
  unfold runSizes
  obtain ⟨q, hq'⟩ : ∃ q, n / m2 = q + 1 := ⟨n / m2 - 1, by omega⟩
  rw [hq'] at hdm ⊢
  by_cases hr : n % m2 = 0
  · simp only [hr, ne_eq, not_true_eq_false, if_false, List.append_nil]
    have hq2 : 1 ≤ q := by
      rcases Nat.eq_zero_or_pos q with rfl | h
      · rw [hr] at hdm; simp at hdm; omega
      · exact h
    refine ⟨⟨q, m2, ?_, hm, Nat.le_refl _⟩, ?_, by simp; omega, by simp [List.replicate_succ]⟩
    · rw [List.replicate_succ']
    · simp; omega
  · simp only [hr, ne_eq, not_false_eq_true, if_true]
    refine ⟨⟨q + 1, n - (q + 1) * m2, rfl, by omega, by omega⟩, ?_, by simp, by simp [List.replicate_succ]⟩
    simp; omega

theorem allocRuns_spec {pick : Pick} (hpk : PickOk pick) : ∀ (sizes : List Nat) {d : D α} {X R : List Nat}, Own d X R →
    (allocRuns pick sizes d).1.map List.length = sizes ∧ (allocRuns pick sizes d).2.disk = d.disk ∧
      Own (allocRuns pick sizes d).2 ((allocRuns pick sizes d).1.flatten ++ X) R := by
  intro sizes
  induction sizes with
  | nil => intro d X R h; exact ⟨rfl, rfl, by simpa [allocRuns] using h⟩
  | cons n ns ih =>
    intro d X R h
    obtain ⟨a1, a2, a3⟩ := newBlocks_own hpk h n
    obtain ⟨b1, b2, b3⟩ := ih a3
    refine ⟨by simp [allocRuns, a1, b1], by simp only [allocRuns]; rw [b2, a2], ?_⟩
    simp only [allocRuns, List.flatten_cons]
    refine b3.congr ?_
    generalize (allocRuns pick ns (newBlocks pick n d).2).1.flatten = c
    generalize (newBlocks pick n d).1 = a
    permc

/-- `sort_blocks` replaces the given blocks by newly allocated ones with the sorted contents. -/
theorem sortBlocks_spec {pick : Pick} (hpk : PickOk pick) {srt : List α → List α} (hsrt : SortFn lt srt) (hs : SWO lt)
    {B : Nat} (hB : 0 < B) {mf : Nat → Nat → Nat} (hmf : ∀ r m, 2 ≤ r → 2 ≤ m → 2 ≤ mf r m) {m : Nat} (hm : 2 ≤ m)
    {d : D α} {inp R : List Nat} (h : Own d inp R) (hn : m / 2 < inp.length) (hb : ∀ b ∈ inp, (d.disk b).length = B) :
    ∃ r d', sortBlocks pick srt lt B mf m d inp = some (r, d') ∧ Own d' (bidsOf r) R ∧ Trig B d' r ∧
      Sorted lt (runData d' r) ∧ (runData d' r).Perm (inp.map d.disk).flatten ∧ r.length = inp.length ∧
      (∀ b ∈ R, d'.disk b = d.disk b) := by
  have hm2 : 0 < m / 2 := by omega
  obtain ⟨s1, s2, s3, s4⟩ := runSizes_shape hm2 hn
  obtain ⟨a1, a2, a3⟩ := allocRuns_spec hpk (runSizes inp.length (m / 2)) h
  unfold sortBlocks
  dsimp only
  rw [if_neg (by omega), if_neg (by omega), if_neg (by rw [s4]; simp)]
  generalize allocRuns pick (runSizes inp.length (m / 2)) d = A at *
  have h1 : Own A.2 (inp ++ A.1.flatten) R := a3.congr (List.perm_append_comm.append_right _)
  obtain ⟨rs, d1, c1, c2, c3, c4, c5, c6⟩ := createRuns_spec hsrt hB A.1 h1
    (by rw [List.length_flatten, a1, s2]) (fun b hb' => by rw [a2]; exact hb b hb')
  rw [c1]
  dsimp only
  have hlens : rs.map List.length = runSizes inp.length (m / 2) := by
    have : rs.map List.length = (rs.map bidsOf).map List.length := by
      rw [List.map_map]; apply List.map_congr_left; intro r _; simp [bidsOf]
    rw [this, c2, a1]
  obtain ⟨r, d2, e1, e2, e3, e4, e5, e6⟩ := phases_spec hpk hs hB (hmf _ m s3 hm) (rs.length + 1) d1 rs _ (by omega)
    (by rw [bidsOf_flatten, c2]; exact c3) (by rw [hlens]; exact s1) c5
  refine ⟨r, d2, e1, e2, e3.1, e3.2, ?_, by rw [e6, hlens, s2], ?_⟩
  · rw [a2] at c6
    exact e5.trans c6
  · intro b hb'; rw [e4 b hb', c4 b hb', a2]

end Stxxl.Srt
