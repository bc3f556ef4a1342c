import Verif.PPQ.Parts
/-! External arrays: removing, adding, loading and merging them. -/
namespace Stxxl.PPQ
open MwMerge.Spec
variable {α : Type}

theorem rests_append (a b : List (EA α)) : rests (a ++ b) = rests a ++ rests b := by simp [rests]
theorem rests_cons (e : EA α) (b : List (EA α)) : rests (e :: b) = e.rest ++ rests b := by simp [rests]
theorem items_cons (a : IA α) (b : List (IA α)) : items (a :: b) = a.items ++ items b := by simp [items]

theorem rests_filter : ∀ eas : List (EA α), rests (eas.filter fun e => !e.isEmpty) = rests eas := by
  intro eas
  induction eas with
  | nil => rfl
  | cons e l ih =>
    rw [List.filter_cons, rests_cons]
    cases he : e.isEmpty with
    | true => simp only [Bool.not_true, Bool.false_eq_true, if_false]; rw [ih, (isEmpty_iff e).1 he]; rfl
    | false => simp only [Bool.not_false, if_true]; rw [rests_cons, ih]

/-- Index of the first empty array. -/
def firstEmpty (eas : List (EA α)) : Nat := (eas.findIdx? (·.isEmpty)).getD eas.length

theorem firstEmpty_cons (e : EA α) (l : List (EA α)) : firstEmpty (e :: l) = if e.isEmpty then 0 else firstEmpty l + 1 := by
  unfold firstEmpty
  rw [List.findIdx?_cons]
  cases he : e.isEmpty with
  | true => simp
  | false =>
    simp only [Bool.false_eq_true, if_false]
    cases List.findIdx? (·.isEmpty) l <;> simp

theorem filter_before_first : ∀ (eas : List (EA α)) (i : Nat), i < firstEmpty eas → (eas.filter fun e => !e.isEmpty)[i]? = eas[i]? := by
  intro eas
  induction eas with
  | nil => intro i _; rfl
  | cons e l ih =>
    intro i h
    rw [firstEmpty_cons] at h
    cases he : e.isEmpty with
    | true => rw [he] at h; simp at h
    | false =>
      rw [he] at h
      simp only [Bool.false_eq_true, if_false] at h
      rw [List.filter_cons, he]
      simp only [Bool.not_false, if_true]
      cases i with
      | zero => rfl
      | succ i => rw [List.getElem?_cons_succ, List.getElem?_cons_succ]; exact ih i (by omega)

theorem firstEmpty_le : ∀ (eas : List (EA α)), firstEmpty eas ≤ eas.length := by
  intro eas
  induction eas with
  | nil => simp [firstEmpty]
  | cons e l ih => rw [firstEmpty_cons]; split <;> simp <;> omega

/-- `cleanup_external_arrays` -/
theorem cleanupExt_eq (c : Cfg α) (s : S α) (hok : ∀ e ∈ s.eas, EAok c e) (hlen : s.eas.length ≤ s.emt.length)
    (hpre : ∀ i, i < firstEmpty s.eas → s.emt.getD i none = (s.eas[i]?).bind (·.nextMin c.B))
    (hout : ∀ i, s.eas.length ≤ i → s.emt.getD i none = none) :
    ∃ emt R free, cleanupExt c s = { s with eas := s.eas.filter fun e => !e.isEmpty, emt := emt, R := R, free := free } ∧
      ExtOk c (s.eas.filter fun e => !e.isEmpty) (rests s.eas).length emt := by
  unfold cleanupExt
  dsimp only
  obtain ⟨R, free, h1⟩ := resizePool_eq c
    { s with
      eas := s.eas.filter fun e => !e.isEmpty
      emt := (List.range s.emt.length).map fun i =>
        if i < firstEmpty s.eas then s.emt.getD i none
        else if i < s.eas.length then ((s.eas.filter fun e => !e.isEmpty)[i]?).bind (·.nextMin c.B)
        else s.emt.getD i none }
  refine ⟨_, R, free, h1, ?_, ?_, ?_, ?_⟩
  · intro e he; exact hok e (List.mem_filter.1 he).1
  · rw [rests_filter]
  · intro i
    have hfl : (s.eas.filter fun e => !e.isEmpty).length ≤ s.eas.length := List.length_filter_le _ _
    rw [List.getD_eq_getElem?_getD, List.getElem?_map]
    by_cases hi : i < s.emt.length
    · rw [List.getElem?_range hi]
      dsimp only [Option.map_some, Option.getD_some]
      split_ifs with h2 h3
      · rw [hpre i h2, filter_before_first _ _ h2]
      · rfl
      · rw [hout i (by omega), List.getElem?_eq_none (by omega)]; rfl
    · rw [List.getElem?_eq_none (by simp; omega), List.getElem?_eq_none (by omega)]; rfl
  · show _ ≤ (List.map _ _).length
    rw [List.length_map, List.length_range]
    exact Nat.le_trans (List.length_filter_le _ _) hlen

theorem cleanupExt_ok {c : Cfg α} {s : S α} (h : ExtOk c s.eas s.esize s.emt) :
    ∃ emt R free, cleanupExt c s = { s with eas := s.eas.filter fun e => !e.isEmpty, emt := emt, R := R, free := free } ∧
      ExtOk c (s.eas.filter fun e => !e.isEmpty) s.esize emt := by
  obtain ⟨emt, R, free, h1, h2⟩ := cleanupExt_eq c s h.ok h.len (fun i _ => h.tree i)
    (fun i hi => by rw [h.tree i, List.getElem?_eq_none hi]; rfl)
  exact ⟨emt, R, free, h1, by rw [h.size]; exact h2⟩

/-- Adding an array. -/
theorem pushEA_eq {c : Cfg α} {s s' : S α} {n : Nat} {e : EA α} (h : ExtOk c s.eas n s.emt) (he : EAok c e)
    (hp : pushEA c s e = some s') :
    ∃ emt, s' = { s with eas := s.eas ++ [e], emt := emt } ∧ ExtOk c (s.eas ++ [e]) (n + e.rest.length) emt := by
  unfold pushEA at hp
  split_ifs at hp with h1
  rw [Option.some.injEq] at hp
  subst hp
  refine ⟨_, rfl, ?_, ?_, ?_, ?_⟩
  · intro x hx
    simp only [List.mem_append, List.mem_singleton] at hx
    rcases hx with hx | rfl
    · exact h.ok x hx
    · exact he
  · rw [rests_append, List.length_append, h.size]; simp [rests]
  · intro i
    rw [List.getD_eq_getElem?_getD, List.getElem?_set]
    by_cases hi : s.eas.length = i
    · subst hi
      rw [if_pos rfl, if_pos (Nat.lt_of_not_le h1)]; rfl
    · rw [if_neg hi, ← List.getD_eq_getElem?_getD, h.tree i]
      by_cases hlt : i < s.eas.length
      · rw [List.getElem?_append_left hlt]
      · rw [List.getElem?_eq_none (by omega), List.getElem?_eq_none (by simp; omega)]
  · show _ ≤ (List.set _ _ _).length
    rw [List.length_set, List.length_append]; simp; omega

/-- Loading blocks of an array. -/
theorem waitEA_eq {c : Cfg α} (hc : CfgOk c) {s : S α} (h : ExtOk c s.eas s.esize s.emt) (i k : Nat) :
    ∃ eas emt, waitEA c s i k = { s with eas := eas, emt := emt } ∧ ExtOk c eas s.esize emt ∧ rests eas = rests s.eas := by
  have hrest : (s.eas.modify i fun e => e.waitNext c.B k).map EA.rest = s.eas.map EA.rest := by
    apply List.ext_getElem?
    intro j
    rw [List.getElem?_map, List.getElem?_map, List.getElem?_modify]
    cases s.eas[j]? with
    | none => simp
    | some e =>
      by_cases hj : i = j
      · simp [hj]; rfl
      · simp [hj]
  refine ⟨_, _, rfl, ⟨?_, ?_, ?_, ?_⟩, by unfold rests; rw [hrest]⟩
  · intro e he
    obtain ⟨j, hj⟩ := List.mem_iff_getElem?.1 he
    rw [List.getElem?_modify] at hj
    cases hx : s.eas[j]? with
    | none => rw [hx] at hj; simp at hj
    | some x =>
      have hxo := h.ok x (List.mem_of_getElem? hx)
      rw [hx] at hj
      by_cases hij : i = j
      · simp [hij] at hj; subst hj; exact waitNext_ok hc.posB hxo k
      · simp [hij] at hj; subst hj; exact hxo
  · rw [rests, hrest]; exact h.size
  · intro j
    rw [List.getD_eq_getElem?_getD, List.getElem?_set]
    by_cases hij : i = j
    · subst hij
      rw [if_pos rfl]
      by_cases hlt : i < s.emt.length
      · rw [if_pos hlt]; rfl
      · rw [if_neg hlt, List.getElem?_eq_none (by rw [List.length_modify]; have := h.len; omega)]; rfl
    · rw [if_neg hij, ← List.getD_eq_getElem?_getD, h.tree j, List.getElem?_modify]
      cases s.eas[j]? with
      | none => rfl
      | some e => simp [hij]
  · show (List.modify _ _ _).length ≤ (List.set _ _ _).length
    rw [List.length_modify, List.length_set]; exact h.len

/-! ### Taking elements -/

/-- Every list of the second is a suffix of the list of the first. -/
inductive Suf : List (List α) → List (List α) → Prop
  | nil : Suf [] []
  | cons {p q : List α} {Q Q' : List (List α)} : Suf Q Q' → Suf ((p ++ q) :: Q) (q :: Q')

theorem suf_of : ∀ (Q Q' : List (List α)), Q'.length = Q.length →
    (∀ (i : Nat) (s s' : List α), Q[i]? = some s → Q'[i]? = some s' → ∃ p, s = p ++ s') → Suf Q Q' := by
  intro Q
  induction Q with
  | nil => intro Q' h _; rw [List.length_eq_zero_iff.1 h]; exact .nil
  | cons q Q ih =>
    intro Q' h hs
    cases Q' with
    | nil => simp at h
    | cons q' Q' =>
      obtain ⟨p, rfl⟩ := hs 0 q q' rfl rfl
      exact .cons (ih Q' (by simpa using h) fun i s s' h1 h2 => hs (i + 1) s s' (by simpa using h1) (by simpa using h2))

theorem Suf.split : ∀ {A B Q' : List (List α)}, Suf (A ++ B) Q' → Suf A (Q'.take A.length) ∧ Suf B (Q'.drop A.length) := by
  intro A
  induction A with
  | nil => intro B Q' h; exact ⟨by simpa using .nil, by simpa using h⟩
  | cons a A ih =>
    intro B Q' h
    rw [List.cons_append] at h
    generalize hX : a :: (A ++ B) = X at h
    cases h with
    | nil => simp at hX
    | @cons p q Q Q1 hs =>
      simp only [List.cons.injEq] at hX
      obtain ⟨rfl, rfl⟩ := hX
      obtain ⟨h1, h2⟩ := ih hs
      exact ⟨by simpa using .cons h1, by simpa using h2⟩

theorem suf_nil : ∀ Q : List (List α), Suf Q (Q.map fun _ => []) := by
  intro Q
  induction Q with
  | nil => exact .nil
  | cons q Q ih =>
    have := Suf.cons (p := q) (q := []) ih
    simpa using this

def diffs (Q Q' : List (List α)) : List Nat := List.zipWith (fun a b => a.length - b.length) Q Q'

theorem diffs_length {Q Q' : List (List α)} (h : Suf Q Q') : (diffs Q Q').length = Q.length := by
  induction h with
  | nil => rfl
  | cons _ ih => simpa [diffs] using ih

theorem diffs_sum {Q Q' : List (List α)} (h : Suf Q Q') : (diffs Q Q').sum + Q'.flatten.length = Q.flatten.length := by
  induction h with
  | nil => rfl
  | @cons p q Q Q' _ ih =>
    have : diffs ((p ++ q) :: Q) (q :: Q') = ((p ++ q).length - q.length) :: diffs Q Q' := rfl
    rw [this, List.sum_cons, List.flatten_cons, List.flatten_cons]
    simp only [List.length_append] at *
    omega

/-- Removing from external arrays what has been merged. -/
theorem take_ext {c : Cfg α} (hc : CfgOk c) (v : Option α) : ∀ (eas : List (EA α)) (Q' : List (List α)),
    (∀ e ∈ eas, EAok c e ∧ LimitOk c v e) → Suf (eas.map fun e => below c.lt v e.loaded) Q' →
    ∃ r, List.Perm (rests eas) ((eas.map fun e => below c.lt v e.loaded).flatten ++ r) ∧
      List.Perm (rests (List.zipWith (fun (e : EA α) n => (e.remove c.B n).1) eas (diffs (eas.map fun e => below c.lt v e.loaded) Q')))
        (Q'.flatten ++ r) ∧ (∀ y ∈ r, AtLeast c v y) ∧
      (∀ e ∈ List.zipWith (fun (e : EA α) n => (e.remove c.B n).1) eas (diffs (eas.map fun e => below c.lt v e.loaded) Q'), EAok c e) ∧
      (List.zipWith (fun (e : EA α) n => (e.remove c.B n).1) eas (diffs (eas.map fun e => below c.lt v e.loaded) Q')).map
        (·.nextMin c.B) = eas.map (·.nextMin c.B) := by
  intro eas
  classical
  induction eas with
  | nil =>
    intro Q' _ h
    cases h
    exact ⟨[], by simp [rests], by simp [rests], by simp, by simp, by simp⟩
  | cons e l ih =>
    intro Q' hok h
    rw [List.map_cons] at h
    generalize hb : below c.lt v e.loaded = b at h
    cases h with
    | @cons p q Q Q1 hs =>
      obtain ⟨r, h1, h2, h3, h4, h5⟩ := ih Q1 (fun x hx => hok x (List.mem_cons_of_mem _ hx)) hs
      obtain ⟨r0, h6, h7⟩ := below_split hc (hok e List.mem_cons_self).1 (hok e List.mem_cons_self).2
      rw [hb] at h6
      have hd : diffs ((e :: l).map fun e => below c.lt v e.loaded) (q :: Q1) =
          ((p ++ q).length - q.length) :: diffs (l.map fun e => below c.lt v e.loaded) Q1 := by
        rw [List.map_cons, hb]; rfl
      rw [hd, show (p ++ q).length - q.length = p.length from by rw [List.length_append]; omega]
      rw [List.zipWith_cons_cons]
      refine ⟨r0 ++ r, ?_, ?_, ?_, ?_, ?_⟩
      · rw [rests_cons, List.map_cons, List.flatten_cons, hb, h6]
        refine List.perm_iff_count.2 fun x => ?_
        have := List.perm_iff_count.1 h1 x
        simp only [List.count_append] at this ⊢
        omega
      · rw [rests_cons, remove_rest, h6, List.append_assoc, List.drop_left]
        refine List.perm_iff_count.2 fun x => ?_
        have := List.perm_iff_count.1 h2 x
        simp only [List.flatten_cons, List.count_append] at this ⊢
        omega
      · intro y hy
        rw [List.mem_append] at hy
        rcases hy with hy | hy
        · exact h7 y hy
        · exact h3 y hy
      · intro x hx
        rw [List.mem_cons] at hx
        rcases hx with rfl | hx
        · refine remove_ok (hok e List.mem_cons_self).1 ?_
          have : (below c.lt v e.loaded).length ≤ e.loaded.length := by
            cases v with
            | none => exact Nat.le_refl _
            | some v => exact (List.takeWhile_sublist _).length_le
          rw [hb, List.length_append] at this
          omega
        · exact h4 x hx
      · rw [List.map_cons, List.map_cons, remove_nextMin, h5]

/-- Removing from internal arrays what has been merged. -/
theorem take_int {c : Cfg α} (hc : CfgOk c) (v : Option α) : ∀ (ias : List (IA α)) (Q' : List (List α)),
    (∀ a ∈ ias, Sorted c.lt a.items) → Suf (ias.map fun a => below c.lt v a.items) Q' →
    ∃ r, List.Perm (items ias) ((ias.map fun a => below c.lt v a.items).flatten ++ r) ∧
      List.Perm (items (List.zipWith (fun (a : IA α) n => { a with items := a.items.drop n }) ias
        (diffs (ias.map fun a => below c.lt v a.items) Q'))) (Q'.flatten ++ r) ∧ (∀ y ∈ r, AtLeast c v y) ∧
      (∀ a ∈ List.zipWith (fun (a : IA α) n => ({ a with items := a.items.drop n } : IA α)) ias
        (diffs (ias.map fun a => below c.lt v a.items) Q'), Sorted c.lt a.items) := by
  intro ias
  classical
  induction ias with
  | nil =>
    intro Q' _ h
    cases h
    exact ⟨[], by simp [items], by simp [items], by simp, by simp⟩
  | cons e l ih =>
    intro Q' hok h
    rw [List.map_cons] at h
    generalize hb : below c.lt v e.items = b at h
    cases h with
    | @cons p q Q Q1 hs =>
      obtain ⟨r, h1, h2, h3, h4⟩ := ih Q1 (fun x hx => hok x (List.mem_cons_of_mem _ hx)) hs
      obtain ⟨r0, h6, h7⟩ := below_split_list (v := v) hc (hok e List.mem_cons_self)
      rw [hb] at h6
      have hd : diffs ((e :: l).map fun e => below c.lt v e.items) (q :: Q1) =
          ((p ++ q).length - q.length) :: diffs (l.map fun e => below c.lt v e.items) Q1 := by
        rw [List.map_cons, hb]; rfl
      rw [hd, show (p ++ q).length - q.length = p.length from by rw [List.length_append]; omega]
      rw [List.zipWith_cons_cons]
      refine ⟨r0 ++ r, ?_, ?_, ?_, ?_⟩
      · rw [items_cons, List.map_cons, List.flatten_cons, hb, h6]
        refine List.perm_iff_count.2 fun x => ?_
        have := List.perm_iff_count.1 h1 x
        simp only [List.count_append] at this ⊢
        omega
      · rw [items_cons]
        dsimp only
        rw [h6, List.append_assoc, List.drop_left]
        refine List.perm_iff_count.2 fun x => ?_
        have := List.perm_iff_count.1 h2 x
        simp only [List.flatten_cons, List.count_append] at this ⊢
        omega
      · intro y hy
        rw [List.mem_append] at hy
        rcases hy with hy | hy
        · exact h7 y hy
        · exact h3 y hy
      · intro x hx
        rw [List.mem_cons] at hx
        rcases hx with rfl | hx
        · exact sorted_drop (hok e List.mem_cons_self) _
        · exact h4 x hx

/-- The minimum over all arrays of the next block is a limit. -/
theorem limitOk_argmin {c : Cfg α} (hc : CfgOk c) {ys : List (EA α)} {emt : List (Option α)}
    (h : ∀ i, emt.getD i none = (ys[i]?).bind (·.nextMin c.B)) : ∀ e ∈ ys, LimitOk c ((argmin c.lt emt).map (·.2)) e := by
  intro e he
  obtain ⟨i, hi⟩ := List.mem_iff_getElem?.1 he
  have h1 := h i
  rw [hi] at h1
  have hmem : ∀ u, e.nextMin c.B = some u → some u ∈ emt := by
    intro u hu
    simp only [Option.bind_some] at h1
    rw [hu, List.getD_eq_getElem?_getD] at h1
    cases hg : emt[i]? with
    | none => rw [hg] at h1; simp at h1
    | some w => rw [hg] at h1; simp at h1; rw [← h1]; exact List.mem_of_getElem? hg
  cases ha : argmin c.lt emt with
  | none =>
    show e.nextMin c.B = none
    cases hn : e.nextMin c.B with
    | none => rfl
    | some u => exact absurd (argmin_none ha _ (hmem u hn)) (by simp)
  | some p =>
    intro u hu
    exact (argmin_some hc.swo (x := p.2) (j := p.1) ha).2 u (hmem u hu)

/-- One pass of merging external arrays. -/
theorem mergePass_eq {c : Cfg α} (hc : CfgOk c) (ld : Nat → Nat) {xs xs' : List (EA α)} {out : List α} (hok : ∀ e ∈ xs, EAok c e)
    (h : mergePass c ld xs = some (out, xs')) :
    (∀ e ∈ xs', EAok c e) ∧ List.Perm (rests xs) (out ++ rests xs') ∧ Sorted c.lt out ∧ ∀ x ∈ out, ∀ y ∈ rests xs', c.lt y x = false := by
  unfold mergePass at h
  dsimp only at h
  generalize hy : (xs.mapIdx fun k e => ({ e with endIdx := max e.endIdx (min e.data.length ((e.endBlk c.B + ld k) * c.B)) } : EA α)) = ys at h
  have hyok : ∀ e ∈ ys, EAok c e := by
    intro e he
    rw [← hy] at he
    obtain ⟨i, hi⟩ := List.mem_iff_getElem?.1 he
    rw [List.getElem?_mapIdx] at hi
    cases hx : xs[i]? with
    | none => rw [hx] at hi; simp at hi
    | some x =>
      rw [hx] at hi
      simp only [Option.map_some, Option.some.injEq] at hi
      have hxo := hok x (List.mem_of_getElem? hx)
      have hle := endIdx_le hc.posB hxo (ld i)
      rw [Nat.max_eq_right hle] at hi
      subst hi
      exact load_ok hxo hle
  have hyr : rests ys = rests xs := by
    unfold rests
    rw [← hy]
    congr 1
    apply List.ext_getElem?
    intro i
    rw [List.getElem?_map, List.getElem?_map, List.getElem?_mapIdx]
    cases xs[i]? with
    | none => rfl
    | some x => rfl
  generalize hv : (argmin c.lt (ys.map (·.nextMin c.B))).map (·.2) = v at h
  have hlim : ∀ e ∈ ys, LimitOk c v e := by
    rw [← hv]
    refine limitOk_argmin hc fun i => ?_
    rw [List.getD_eq_getElem?_getD, List.getElem?_map]
    cases ys[i]? with
    | none => rfl
    | some e => rfl
  rw [total_flatten] at h
  split at h
  · simp at h
  · rename_i out1 rest1 hmm
    simp only [Option.some.injEq, Prod.mk.injEq] at h
    obtain ⟨rfl, rfl⟩ := h
    have hm := hc.merges _ _ _ _ (by
      intro q hq
      obtain ⟨e, he, rfl⟩ := List.mem_map.1 hq
      exact below_sorted (loaded_sorted (hyok e he))) (Nat.le_refl _) hmm
    have hperm := merges_all hm
    obtain ⟨r, h1, h2, h3, h4, -⟩ := take_ext hc v ys _ (fun e he => ⟨hyok e he, hlim e he⟩) (suf_nil _)
    have hz : List.zipWith (fun (e : EA α) n => (e.remove c.B n).1) ys
        (diffs (ys.map fun e => below c.lt v e.loaded) ((ys.map fun e => below c.lt v e.loaded).map fun _ => [])) =
        List.zipWith (fun e l => (EA.remove c.B e l.length).1) ys (ys.map fun e => below c.lt v e.loaded) := by
      unfold diffs
      rw [List.zipWith_map_right]
      have : List.zipWith (fun (a : List α) (_ : List α) => a.length - ([] : List α).length) (ys.map fun e => below c.lt v e.loaded)
          (ys.map fun e => below c.lt v e.loaded) = (ys.map fun e => below c.lt v e.loaded).map List.length := by
        rw [List.zipWith_self]; simp
      rw [this, List.map_map, List.zipWith_map_right, List.zipWith_map_right]
      rfl
    rw [hz] at h2 h4
    have hnil : ((ys.map fun e => below c.lt v e.loaded).map fun _ => ([] : List α)).flatten = [] := by
      simp
    rw [hnil, List.nil_append] at h2
    refine ⟨h4, ?_, hm.sorted, ?_⟩
    · rw [← hyr]
      exact h1.trans (List.Perm.append hperm.symm h2.symm)
    · intro x hx y hy'
      have hyr' := h3 y (h2.mem_iff.1 hy')
      have hx' := hperm.mem_iff.1 hx
      cases v with
      | none => exact absurd hyr' (by simp [AtLeast])
      | some v =>
        obtain ⟨q, hq, hxq⟩ := List.mem_flatten.1 hx'
        obtain ⟨e, -, rfl⟩ := List.mem_map.1 hq
        have := below_lt x hxq
        exact hc.swo.negtrans _ _ _ hyr' (hc.swo.asymm _ _ this)

theorem mergeLoop_eq {c : Cfg α} (hc : CfgOk c) (o : Oracle) : ∀ (f : Nat) (xs : List (EA α)) (acc out : List α),
    (∀ e ∈ xs, EAok c e) → Sorted c.lt acc → (∀ x ∈ acc, ∀ y ∈ rests xs, c.lt y x = false) → mergeLoop c o f xs acc = some out →
    Sorted c.lt out ∧ List.Perm out (acc ++ rests xs) := by
  intro f
  induction f with
  | zero => intro xs acc out _ _ _ h; simp [mergeLoop] at h
  | succ f ih =>
    intro xs acc out hok hs hle h
    rw [mergeLoop] at h
    split at h <;> rename_i hall
    · rw [Option.some.injEq] at h
      subst h
      have : rests xs = [] := by
        unfold rests
        rw [List.flatten_eq_nil_iff]
        intro l hl
        obtain ⟨e, he, rfl⟩ := List.mem_map.1 hl
        exact (isEmpty_iff e).1 (List.all_eq_true.1 hall e he)
      rw [this, List.append_nil]
      exact ⟨hs, List.Perm.refl _⟩
    · split at h
      · simp at h
      · rename_i out1 xs' hp
        obtain ⟨h1, h2, h3, h4⟩ := mergePass_eq hc _ hok hp
        have hin : ∀ y ∈ out1 ++ rests xs', y ∈ rests xs := fun y hy => h2.mem_iff.2 hy
        obtain ⟨h5, h6⟩ := ih xs' (acc ++ out1) out h1
          (sorted_append.2 ⟨hs, h3, fun x hx y hy => hle x hx y (hin y (List.mem_append_left _ hy))⟩)
          (by
            intro x hx y hy
            rw [List.mem_append] at hx
            rcases hx with hx | hx
            · exact hle x hx y (hin y (List.mem_append_right _ hy))
            · exact h4 x hx y hy) h
        refine ⟨h5, h6.trans ?_⟩
        rw [List.append_assoc]
        exact List.Perm.append_left _ h2.symm

end Stxxl.PPQ
