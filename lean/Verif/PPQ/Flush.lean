import Verif.PPQ.Ext
/-! Merging external arrays, and flushing internal arrays, the extract buffer and the insertion heaps. -/
namespace Stxxl.PPQ
open MwMerge.Spec
variable {α : Type}

theorem firstEmpty_spec : ∀ (l : List (EA α)) (i : Nat) (e : EA α), i < firstEmpty l → l[i]? = some e → e.isEmpty = false := by
  intro l
  induction l with
  | nil => intro i e _ h; simp at h
  | cons x l ih =>
    intro i e h hi
    rw [firstEmpty_cons] at h
    cases hx : x.isEmpty with
    | true => rw [hx] at h; simp at h
    | false =>
      rw [hx] at h
      simp only [Bool.false_eq_true, if_false] at h
      cases i with
      | zero => simp at hi; subst hi; exact hx
      | succ i => rw [List.getElem?_cons_succ] at hi; exact ih i e (by omega) hi

theorem used_rest {c : Cfg α} {sel : EA α → Bool} {e : EA α} : (used c sel e).rest = if sel e then [] else e.rest := by
  unfold used
  split
  · simp [EA.rest]
  · rfl

theorem rests_used (c : Cfg α) (sel : EA α → Bool) : ∀ eas : List (EA α),
    List.Perm (rests eas) (rests (eas.map (used c sel)) ++ rests (eas.filter sel)) := by
  intro eas
  classical
  induction eas with
  | nil => simp [rests]
  | cons e l ih =>
    refine List.perm_iff_count.2 fun x => ?_
    have h3 := List.perm_iff_count.1 ih x
    rw [List.filter_cons, List.map_cons, rests_cons, rests_cons, used_rest]
    simp only [List.count_append] at h3 ⊢
    cases hp : sel e with
    | false => simp only [Bool.false_eq_true, if_false]; omega
    | true => simp only [if_true, rests_cons, List.count_append, List.count_nil]; omega

/-- `check_external_level` -/
theorem checkExt_eq {c : Cfg α} (hc : CfgOk c) (o : Oracle) (force : Bool) : ∀ (f level : Nat) (s s' : S α),
    ExtOk c s.eas s.esize s.emt → checkExt c o force f level s = some s' →
    ∃ eas emt R free delayed, s' = { s with eas := eas, emt := emt, R := R, free := free, delayed := delayed } ∧
      ExtOk c eas s.esize emt ∧ List.Perm (rests eas) (rests s.eas) := by
  intro f
  induction f with
  | zero => intro level s s' _ h; simp [checkExt] at h
  | succ f ih =>
    intro level s s' hE h
    rw [checkExt] at h
    by_cases h1 : force = false ∧ (s.eas.filter fun e => decide (e.level = level)).length < c.maxEL
    · rw [if_pos h1, Option.some.injEq] at h
      subst h
      exact ⟨_, _, _, _, _, rfl, hE, List.Perm.refl _⟩
    rw [if_neg h1] at h
    by_cases h2 : o.memEA level = false ∧ force = false
    · rw [if_pos h2, Option.some.injEq] at h
      subst h
      exact ⟨_, _, _, _, _, rfl, hE, List.Perm.refl _⟩
    · rw [if_neg h2] at h
      dsimp only at h
      generalize mergeSel force level = sel at h
      split at h
      · simp at h
      · rename_i out hml
        obtain ⟨hso, hpo⟩ := mergeLoop_eq hc o _ _ _ _ (fun e he => hE.ok e (List.mem_filter.1 he).1) sorted_nil (by simp) hml
        rw [List.nil_append] at hpo
        have hru := rests_used c sel s.eas
        obtain ⟨emt1, R1, free1, he1, hE1⟩ := cleanupExt_eq c
          { s with
            eas := s.eas.map (used c sel)
            R := s.R + o.extraBlocks
            free := (s.R + o.extraBlocks) - ((s.eas.filter fun e => !sel e).map (·.used c.B)).sum
            delayed := if s.bulk then 0 else s.delayed }
          (by
            intro e he
            obtain ⟨x, hx, rfl⟩ := List.mem_map.1 he
            have hxo := hE.ok x hx
            unfold used
            split
            · exact ⟨hxo.sorted, Nat.le_refl _, Nat.le_refl _, .inl rfl⟩
            · exact ⟨hxo.sorted, hxo.le, hxo.len, hxo.bnd⟩)
          (by dsimp only; rw [List.length_map]; exact hE.len)
          (by
            intro i hi
            dsimp only at hi ⊢
            rw [hE.tree i, List.getElem?_map]
            cases hx : s.eas[i]? with
            | none => rfl
            | some x =>
              have h3 := firstEmpty_spec _ i (used c sel x) hi (by rw [List.getElem?_map, hx]; rfl)
              have h4 : sel x = false := by
                cases hsx : sel x with
                | false => rfl
                | true =>
                  rw [Bool.eq_false_iff] at h3
                  exact absurd ((isEmpty_iff _).2 (by rw [used_rest, hsx]; rfl)) h3
              simp only [Option.bind_some, Option.map_some]
              unfold used
              rw [h4]; rfl)
          (by
            intro i hi
            dsimp only at hi ⊢
            rw [List.length_map] at hi
            rw [hE.tree i, List.getElem?_eq_none hi]; rfl)
        rw [he1] at h
        dsimp only at hE1 h
        split at h
        · simp at h
        · rename_i s2 hpe
          obtain ⟨emt2, he2, hE2⟩ := pushEA_eq hE1 (e := ⟨out, 0, 0, 0, if force then 7 else level + 1⟩)
            ⟨hso, Nat.le_refl _, Nat.zero_le _, .inr (Nat.dvd_zero _)⟩ hpe
          have hrest : (⟨out, 0, 0, 0, if force then 7 else level + 1⟩ : EA α).rest = out := by simp [EA.rest]
          rw [hrest] at hE2
          have hsz : (rests (s.eas.map (used c sel))).length + out.length = s.esize := by
            rw [hE.size, hpo.length_eq, hru.length_eq, List.length_append]
          rw [hsz] at hE2
          have hperm : List.Perm (rests ((s.eas.map (used c sel)).filter (fun e => !e.isEmpty) ++
              [⟨out, 0, 0, 0, if force then 7 else level + 1⟩])) (rests s.eas) := by
            rw [rests_append, rests_filter]
            refine List.Perm.trans ?_ hru.symm
            refine List.Perm.append_left _ ?_
            rw [rests_cons, hrest]
            simpa [rests] using hpo
          split_ifs at h with hf
          · rw [Option.some.injEq] at h
            subst h
            rw [he2]
            exact ⟨_, _, _, _, _, rfl, hE2, hperm⟩
          · subst he2
            obtain ⟨eas3, emt3, R3, free3, d3, he3, hE3, hp3⟩ := ih _ _ _ hE2 h
            exact ⟨_, _, _, _, _, he3, hE3, hp3.trans hperm⟩

theorem tailHints_eq {c : Cfg α} {s : S α} (hE : ExtOk c s.eas s.esize s.emt) (b : Bool) :
    ∃ eas R free, (if b then resizePool c s else rebuildHints c (resizePool c s)) = { s with eas := eas, R := R, free := free } ∧
      ExtOk c eas s.esize s.emt ∧ List.Perm (rests eas) (rests s.eas) := by
  obtain ⟨R, free, h1⟩ := resizePool_eq c s
  split
  · exact ⟨_, _, _, h1, hE, List.Perm.refl _⟩
  · obtain ⟨eas2, free2, h2, h3⟩ := rebuildHints_eq c (resizePool c s)
    rw [h1] at h2 h3
    exact ⟨eas2, R, free2, by rw [h1, h2], hE.congr h3, by rw [h3.rests]⟩

theorem tailHints_eq' {c : Cfg α} {s s' : S α} {b : Bool} (hh : (if b then resizePool c s else rebuildHints c (resizePool c s)) = s')
    (hE : ExtOk c s.eas s.esize s.emt) : ∃ eas R free, s' = { s with eas := eas, R := R, free := free } ∧
      ExtOk c eas s.esize s.emt ∧ List.Perm (rests eas) (rests s.eas) := by
  rw [← hh]; exact tailHints_eq hE b

/-- `merge_external_arrays` -/
theorem mergeExternal_eq {c : Cfg α} (hc : CfgOk c) (o : Oracle) {s s' : S α} (hE : ExtOk c s.eas s.esize s.emt)
    (h : mergeExternal c o s = some s') :
    ∃ eas emt R free delayed, s' = { s with eas := eas, emt := emt, R := R, free := free, delayed := delayed } ∧
      ExtOk c eas s.esize emt ∧ List.Perm (rests eas) (rests s.eas) := by
  unfold mergeExternal at h
  split at h
  · simp at h
  · rename_i s1 h1
    obtain ⟨eas, emt, R, free, d, rfl, h2, h3⟩ := checkExt_eq hc o _ _ _ _ _ hE h1
    rw [Option.some.injEq] at h
    obtain ⟨eas2, R2, free2, h4, h5, h6⟩ := tailHints_eq (s := { s with eas := eas, emt := emt, R := R, free := free, delayed := d }) h2
      (resizePool c { s with eas := eas, emt := emt, R := R, free := free, delayed := d }).bulk
    rw [h4] at h
    subst h
    exact ⟨_, _, _, _, _, rfl, h5, h6.trans h3⟩

/-- What is assumed and kept by everything that moves elements between the arrays. -/
structure Core (c : Cfg α) (s : S α) : Prop where
  int : IntOk c s.ias s.isize
  ext : ExtOk c s.eas s.esize s.emt
  ebS : Sorted c.lt s.eb

/-- All elements but those in the heaps. -/
def arrays (s : S α) : List α := s.eb ++ items s.ias ++ rests s.eas

/-- Elements have been moved between arrays, and the extract buffer has possibly been flushed. -/
structure Moved (c : Cfg α) (s s' : S α) : Prop where
  heaps : s'.heaps = s.heaps
  hsize : s'.hsize = s.hsize
  mh : s'.mh = s.mh
  hdH : s'.hdH = s.hdH
  lim : s'.lim = s.lim
  core : Core c s'
  perm : List.Perm (arrays s') (arrays s)
  eb : s'.eb = [] ∨ (s'.eb = s.eb ∧ s'.ias = s.ias ∧ s'.mia = s.mia ∧ s'.hdI = s.hdI ∧ s'.hdE = s.hdE ∧ s'.root = s.root)
  full : s'.full = true → s.full = true ∧ s'.eb = s.eb

theorem Moved.refl {c : Cfg α} {s : S α} (h : Core c s) : Moved c s s :=
  ⟨rfl, rfl, rfl, rfl, rfl, h, List.Perm.refl _, .inr ⟨rfl, rfl, rfl, rfl, rfl, rfl⟩, fun h => ⟨h, rfl⟩⟩

/-- The second half of `convert_eb_into_ia` -/
theorem convertEB_eq {c : Cfg α} (hc : CfgOk c) (o : Oracle) {s s' : S α} (h : Core c s) (hh : convertEB c o s = some s') :
    Moved c s s' ∧ s'.eb = [] := by
  unfold convertEB at hh
  split_ifs at hh with he
  · rw [Option.some.injEq] at hh
    subst hh
    exact ⟨.refl h, List.isEmpty_iff.1 he⟩
  · split at hh
    · simp at hh
    · rename_i s1 h1
      rw [Option.some.injEq] at hh
      subst hh
      obtain ⟨ias, isize, mia, hdI, root, oob, rfl, h2, h3, -⟩ := addIA_eq hc o _ _ _ _ _
        (by exact h.int) h.ebS h1
      refine ⟨⟨rfl, rfl, rfl, rfl, rfl, ⟨h2, h.ext, sorted_nil⟩, ?_, .inl rfl, ?_⟩, rfl⟩
      · show List.Perm ([] ++ items ias ++ rests s.eas) (s.eb ++ items s.ias ++ rests s.eas)
        exact List.Perm.append_right _ h3
      · intro hf; exact absurd hf (by simp [deactEB, headEvent])

theorem cleanupInt_core {c : Cfg α} {s : S α} (h : Core c s) : Core c (cleanupInt c s) ∧ ∃ mia hdI root oob,
    cleanupInt c s = { s with ias := s.ias.filter fun a => !a.items.isEmpty, mia := mia, hdI := hdI, root := root, oob := oob } ∧
    IAtree c (s.ias.filter fun a => !a.items.isEmpty) mia hdI ∧ root = headGame c { s with hdI := hdI } := by
  obtain ⟨mia, hdI, root, oob, h1, h2, h3⟩ := cleanupInt_eq c s
  refine ⟨?_, mia, hdI, root, oob, h1, h2, h3⟩
  rw [h1]
  exact ⟨h.int.filter, h.ext, h.ebS⟩

theorem clearIAmin_core {c : Cfg α} {s : S α} (h : Core c s) : Core c (clearIAmin c s) := ⟨h.int, h.ext, h.ebS⟩

/-- `flush_internal_arrays` -/
theorem flushInternal_eq {c : Cfg α} (hc : CfgOk c) (o : Oracle) {s s' : S α} (h : Core c s) (hh : flushInternal c o s = some s') :
    Moved c s s' ∧ s'.eb = [] := by
  unfold flushInternal at hh
  split at hh
  · simp at hh
  · rename_i s1 h1
    obtain ⟨hm, heb⟩ := convertEB_eq hc o (clearIAmin_core h) h1
    obtain ⟨hcore, mia, hdI, root, oob, he, -, -⟩ := cleanupInt_core hm.core
    dsimp only at hh
    have hfull : s1.full = true → s.full = true ∧ [] = s.eb := fun hf => by
      have := hm.full hf; rw [heb] at this; exact this
    have hperm1 : List.Perm (items s1.ias ++ rests s1.eas) (arrays s) := by
      have := hm.perm
      unfold arrays at this ⊢
      rw [heb] at this
      exact this
    split_ifs at hh with h2 h3
    · obtain ⟨eas, emt, R, free, d, rfl, h4, h5⟩ := mergeExternal_eq hc o hcore.ext hh
      rw [he] at h4 h5 ⊢
      refine ⟨⟨hm.heaps, hm.hsize, hm.mh, hm.hdH, hm.lim, ⟨hm.core.int.filter, h4, hm.core.ebS⟩, ?_, .inl heb, ?_⟩, heb⟩
      · show List.Perm (s1.eb ++ items _ ++ rests eas) _
        rw [items_filter, heb]
        exact (List.Perm.append_left _ h5).trans hperm1
      · intro hf; have := hfull hf; exact ⟨this.1, heb.trans this.2⟩
    · split at hh
      · simp at hh
      · rename_i out rest hmm
        split at hh
        · simp at hh
        · rename_i s2 hp
          split at hh
          · simp at hh
          · rename_i s3 hck
            rw [Option.some.injEq] at hh
            rw [he] at hp hmm h3
            dsimp only at hp hmm h3
            have hI := hm.core.int.filter
            have hsz : s1.isize = (items s1.ias).length := hm.core.int.size
            have hfl : ((s1.ias.filter fun a => !a.items.isEmpty).map (·.items)).flatten = items s1.ias := items_filter _
            have hlen : s1.isize = ((s1.ias.filter fun a => !a.items.isEmpty).map (·.items)).flatten.length := by rw [hfl]; exact hsz
            rw [hlen] at hmm
            have hmg := hc.merges _ _ _ _ (by
              intro q hq
              obtain ⟨a, ha, rfl⟩ := List.mem_map.1 hq
              exact hI.sorted a ha) (Nat.le_refl _) hmm
            have hpo := merges_all hmg
            rw [hfl] at hpo
            have hrest : (⟨out, 0, 0, 0, 0⟩ : EA α).rest = out := by simp [EA.rest]
            obtain ⟨emt2, rfl, hE2⟩ := pushEA_eq (e := ⟨out, 0, 0, 0, 0⟩) (n := s1.esize) (by exact hm.core.ext)
              ⟨hmg.sorted, Nat.le_refl _, Nat.zero_le _, .inr (Nat.dvd_zero _)⟩ hp
            rw [hrest, show s1.esize + out.length = s1.esize + s1.isize from by rw [hpo.length_eq, hsz]] at hE2
            obtain ⟨mia3, hdI3, root3, oob3, he3, -, -⟩ := cleanupInt_eq c
              { s1 with
                ias := [], isize := 0, esize := s1.esize + s1.isize, eas := s1.eas ++ [⟨out, 0, 0, 0, 0⟩], emt := emt2
                mia := mia, hdI := hdI, root := root, oob := oob }
            dsimp only at he3 hck
            rw [he3] at hck
            obtain ⟨eas4, emt4, R4, free4, d4, rfl, hE4, hp4⟩ := checkExt_eq hc o _ _ _ _ _ hE2 hck
            obtain ⟨eas5, R5, free5, rfl, hE5, hp5⟩ := tailHints_eq' hh (by exact hE4)
            refine ⟨⟨hm.heaps, hm.hsize, hm.mh, hm.hdH, hm.lim, ⟨⟨by simp, rfl⟩, hE5, hm.core.ebS⟩, ?_, .inl heb, ?_⟩, heb⟩
            · show List.Perm (s1.eb ++ items [] ++ rests eas5) _
              rw [heb]
              refine List.Perm.trans ?_ hperm1
              refine (hp5.trans hp4).trans ?_
              dsimp only
              rw [rests_append, rests_cons, hrest]
              simp only [rests, List.map_nil, List.flatten_nil, List.append_nil]
              exact (List.Perm.append_left _ hpo).trans List.perm_append_comm
            · intro hf; have := hfull hf; exact ⟨this.1, heb.trans this.2⟩

/-- `flush_ia_ea_until_memory_free` -/
theorem flushMem_eq {c : Cfg α} (hc : CfgOk c) (o : Oracle) (n : Nat) {s s' : S α} (h : Core c s) (hh : flushMem c o n s = some s') :
    Moved c s s' := by
  unfold flushMem at hh
  split_ifs at hh with h1 h2
  · rw [Option.some.injEq] at hh
    subst hh
    exact .refl h
  · exact (flushInternal_eq hc o h hh).1
  · obtain ⟨eas, emt, R, free, d, rfl, h4, h5⟩ := mergeExternal_eq hc o h.ext hh
    exact ⟨rfl, rfl, rfl, rfl, rfl, ⟨h.int, h4, h.ebS⟩, List.Perm.append_left _ h5, .inr ⟨rfl, rfl, rfl, rfl, rfl, rfl⟩, fun h => ⟨h, rfl⟩⟩

/-- `convert_eb_into_ia` -/
theorem convert_eq {c : Cfg α} (hc : CfgOk c) (o : Oracle) (n : Nat) {s s' : S α} (h : Core c s) (hh : convert c o n s = some s') :
    Moved c s s' ∧ s'.eb = [] := by
  unfold convert at hh
  split_ifs at hh with he
  · rw [Option.some.injEq] at hh
    subst hh
    exact ⟨.refl h, List.isEmpty_iff.1 he⟩
  · split at hh
    · simp at hh
    · rename_i s1 h1
      have hm := flushMem_eq hc o n (s := { s with full := false }) ⟨h.int, h.ext, h.ebS⟩ h1
      obtain ⟨hm2, heb⟩ := convertEB_eq hc o hm.core hh
      refine ⟨⟨hm2.heaps.trans hm.heaps, hm2.hsize.trans hm.hsize, hm2.mh.trans hm.mh, hm2.hdH.trans hm.hdH, hm2.lim.trans hm.lim,
        hm2.core, hm2.perm.trans hm.perm, .inl heb, ?_⟩, heb⟩
      intro hf
      exact absurd (hm.full (hm2.full hf).1).1 (by simp)

end Stxxl.PPQ
