import Verif.BlockSched.Rel

namespace Stxxl.BlockSched

variable {α : Type} {c : Cfg α} {sp : Sp α} {s : St α} {H : List Nat}

theorem popAll_spec : ∀ (n : Nat) (s : St α), (s.evict.map (·.2)).Nodup → s.evict.length = n →
    (∀ (k : Nat), k ∈ popAll n s ↔ k ∈ s.evict.map (·.2)) ∧ (popAll n s).Nodup
  | 0, s, _, hl => by
    rw [List.length_eq_zero_iff.1 hl]
    simp [popAll]
  | n + 1, s, hnd, hl => by
    rw [popAll]
    cases hp : popEvict s with
    | none => rw [popEvict_none.1 hp] at hl; simp at hl
    | some r =>
      obtain ⟨j, s1⟩ := r
      obtain ⟨h1, -, h3, h4, h5⟩ := popEvict_some hnd hp
      obtain ⟨i1, i2⟩ := popAll_spec n s1 h4 (by omega)
      dsimp only
      refine ⟨fun k => ?_, List.nodup_cons.2 ⟨fun hj => ?_, i2⟩⟩
      · rw [List.mem_cons, i1 k, h3 k]
        constructor
        · rintro (h | h)
          · rw [h]; exact h1
          · exact h.2
        · intro h
          by_cases hkj : k = j
          · exact Or.inl hkj
          · exact Or.inr ⟨hkj, h⟩
      · exact ((h3 j).1 ((i1 j).1 hj)).1 rfl

theorem map_snd_pair (f : Nat → Nat) (l : List Nat) : (l.map fun j => (f j, j)).map (·.2) = l := by
  induction l with
  | nil => rfl
  | cons x r ih => rw [List.map_cons, List.map_cons, ih]

theorem R.toLru (h : R c sp s H) : R c { sp with sim := false } (toLru s) H := by
  obtain ⟨h1, h2⟩ := popAll_spec _ s h.evnd rfl
  have hm := map_snd_pair (fun _ => 0) (popAll s.evict.length s)
  exact h.requeue (fun k => by rw [hm]; exact h1 k) (by rw [hm]; exact h2) rfl (by simp [predOf])

theorem R.toLfd (h : R c sp s H) (p : List PEl) : R c { sp with sim := false } (toLfd s p) H := by
  obtain ⟨h1, h2⟩ := popAll_spec _ s h.evnd rfl
  have hm := map_snd_pair (fun j => prio (s.sbs j) ((scanPred p).1 j)) (popAll s.evict.length s)
  exact h.requeue (fun k => by rw [hm]; exact h1 k) (by rw [hm]; exact h2) rfl (by simp [predOf])

theorem R.toSim (h : R c sp s H) : R c { sp with sim := true } (toSim s) H := by
  obtain ⟨h1, h2⟩ := popAll_spec _ s h.evnd rfl
  have hm := map_snd_pair (fun _ => 0) (popAll s.evict.length s)
  have hm' : ((((popAll s.evict.length s).map fun j => (0, j)).reverse).map (·.2)) = (popAll s.evict.length s).reverse := by
    rw [List.map_reverse, hm]
  exact h.requeue (fun k => by rw [hm', List.mem_reverse]; exact h1 k) (by rw [hm']; exact List.nodup_reverse.2 h2) rfl (by simp [predOf])

theorem sp_sim_self {b : Bool} (h : sp.sim = b) : { sp with sim := b } = sp := by cases sp; cases h; rfl

theorem R.algo (h : R c sp s H) {a : Algo} (ha : a.isSim = sp.sim) (hp : ∀ q ∈ predOf a, q.sb < s.nsb) :
    R c sp { s with algo := a } H := { h with sim := ha, pred := hp }

theorem R.flushLoop : ∀ (n : Nat) {s : St α}, R c sp s [] → s.evict.length = n →
    ∃ s', flushLoop c n s = .ok s' ∧ R c sp s' [] ∧ s'.evict = [] ∧ s'.algo = s.algo
  | 0, s, h, hl => ⟨s, rfl, h, List.length_eq_zero_iff.1 hl, rfl⟩
  | n + 1, s, h, hl => by
    rw [BlockSched.flushLoop]
    cases hp : popEvict s with
    | none => rw [popEvict_none.1 hp] at hl; simp at hl
    | some r =>
      obtain ⟨j, s1⟩ := r
      obtain ⟨h1, h2, h3, h4, h5⟩ := popEvict_some h.evnd hp
      obtain ⟨m, s2, e1, e2, e3, e4, e5, e6, e7, e8⟩ := h.evictAt h1 h3 h4
      have hcl : detach c (clean c s1 j) j = detach c s1 j := by
        have hi : ((clean c s1 j).sbs j).int = (s1.sbs j).int ∧ ((clean c s1 j).sbs j).rc = (s1.sbs j).rc := by
          unfold clean
          dsimp only
          split
          · dsimp only; rw [upd_same]; exact ⟨rfl, rfl⟩
          · exact ⟨rfl, rfl⟩
        unfold detach
        rw [clean_clean, hi.1, hi.2]
      rw [← h2] at e1
      dsimp only
      rw [hcl, e1]
      simp only [Out.bind]
      obtain ⟨s', f1, f2, f3, f4⟩ := R.flushLoop n (e2.returnFree rfl) (by show s2.evict.length = n; rw [e5]; omega)
      exact ⟨s', f1, f2, f3, by rw [f4]; exact e4⟩

theorem R.flush (h : R c sp s []) : ∃ s', flush c s = .ok s' ∧ R c sp s' [] ∧ s'.evict = [] ∧ s'.algo = s.algo := h.flushLoop _ rfl

/-- `deinitialize` of a block that is not acquired -/
theorem R.deinit (h : R c sp s []) {i : Nat} {e : Ent α} (hi : sp.ents i = some e) (hheld : e.held = 0) (hs : sp.sim = false) :
    ∃ s', deinit s i = .ok s' ∧ R c (sp.put i (some Ent.blank)) s' [] ∧ s'.algo = s.algo ∧ s'.sbs i = SB.blank ∧ s'.nsb = s.nsb ∧
      s'.freeSb = s.freeSb := by
  obtain ⟨hlt, L⟩ := h.live i e hi
  have hrc : (s.sbs i).rc = 0 := by rw [L.rc]; exact hheld
  have hns : s.algo.isSim = false := by rw [h.sim]; exact hs
  have hd : BlockSched.deinit s i = .ok (returnOpt (deinitSB (if (s.sbs i).isEvictable then { s with evict := eraseKey i s.evict } else s) i)) := by
    unfold BlockSched.deinit
    cases ha : s.algo with
    | sim => rw [ha] at hns; cases hns
    | lru => exact if_neg (by simpa using hrc)
    | lfd => exact if_neg (by simpa using hrc)
  rw [hd]
  refine ⟨_, rfl, ?_⟩
  -- the queue without `i`
  have hq : (if (s.sbs i).isEvictable then { s with evict := eraseKey i s.evict } else s) = { s with evict := eraseKey i s.evict } := by
    split
    · rfl
    · rename_i hne
      have : i ∉ s.evict.map (·.2) := fun hj => by
        have := (h.ev i).1 hj
        exact hne (by simp [SB.isEvictable, this.2.1, this.2.2])
      have hself : eraseKey i s.evict = s.evict := List.filter_eq_self.2 fun w hw => by
        have : w.2 ≠ i := fun hwi => this (List.mem_map.2 ⟨w, hw, hwi⟩)
        simpa using this
      rw [hself]
  rw [hq]
  have hb : ({ s.sbs i with dirty := false, ext := none, int := none } : SB) = SB.blank := by
    rw [SB.blank]; simp only [hrc]
  -- external part
  have hus : ∀ us : List Nat, us = (match (s.sbs i).ext with
                     | some x => s.used.erase x
                     | none => s.used) → us.Nodup ∧ us.Perm (exts (upd s.sbs i SB.blank) s.nsb ++ sp.client.map (·.1)) := by
    intro us hu
    constructor
    · rw [hu]
      cases (s.sbs i).ext with
      | none => exact h.und
      | some x => exact h.und.erase x
    · refine List.perm_iff_count.2 fun y => ?_
      have h2 := List.perm_iff_count.1 h.extp y
      have h3 := exts_upd s.sbs i s.nsb SB.blank hlt y
      rw [hu]
      cases hx : (s.sbs i).ext with
      | none =>
        rw [hx] at h3
        simp only [List.count_append, SB.blank] at h2 h3 ⊢
        omega
      | some x =>
        rw [hx] at h3
        have hxu : 0 < List.count x s.used := List.count_pos_iff.2 (h.ext_used hlt hx)
        simp only [List.count_append, SB.blank, Option.toList, List.count_cons, List.count_nil, List.count_erase] at h2 h3 ⊢
        by_cases hxy : x = y
        · subst hxy
          simp only [beq_self_eq_true, if_true] at h3 ⊢
          omega
        · simp only [beq_eq_false_iff_ne.2 hxy, Bool.false_eq_true, if_false] at h3 ⊢
          omega
  have loc : ∀ mem disk : Nat → α, Local mem disk Ent.blank SB.blank := fun mem disk =>
    { rc := rfl
      dirtyInt := fun h2 => absurd h2 (by simp [SB.blank])
      heldInt := fun h2 => absurd h2 (by simp [Ent.blank])
      uninit0 := fun _ _ => ⟨rfl, rfl⟩
      init0 := fun _ h2 => absurd rfl h2
      memOk := fun v m' h2 => absurd h2 (by simp [Ent.blank])
      marked := fun h2 => absurd h2 (by simp [Ent.blank])
      fresh := fun h2 => absurd h2 (by simp [Ent.blank])
      notfresh := fun h2 => absurd h2 (by simp [Ent.blank])
      diskOk := fun v y h2 => absurd h2 (by simp [Ent.blank]) }
  have hev : ∀ (j : Nat), j ∈ (eraseKey i s.evict).map (·.2) ↔
      (j ≠ i ∧ j ∈ s.evict.map (·.2)) ∨ (j = i ∧ SB.blank.int.isSome = true ∧ SB.blank.rc = 0) := by
    intro j
    rw [mem_eraseKey]
    simp [SB.blank]
  unfold deinitSB returnOpt
  dsimp only
  rw [hb]
  cases hm : (s.sbs i).int with
  | none =>
    refine ⟨?_, rfl, upd_same _ _ _, rfl, rfl⟩
    refine h.update hi (b' := SB.blank) (put_ents _ _ _) rfl rfl rfl rfl rfl rfl h.pred
      (fun _ _ _ _ _ => rfl) (fun _ _ _ _ _ => rfl) h.cdisk h.cinit (loc _ _) hev (eraseKey_nodup h.evnd) ?_ h.cap (hus _ rfl).2 (hus _ rfl).1
    refine List.perm_iff_count.2 fun x => ?_
    have h2 := List.perm_iff_count.1 h.intp x
    have h3 := ints_upd s.sbs i s.nsb SB.blank hlt x
    rw [hm] at h3
    simp only [List.count_append, SB.blank] at h2 h3 ⊢
    omega
  | some m =>
    refine ⟨?_, rfl, upd_same _ _ _, rfl, rfl⟩
    refine h.update hi (b' := SB.blank) (put_ents _ _ _) rfl rfl rfl rfl rfl rfl h.pred
      (fun _ _ _ _ _ => rfl) (fun _ _ _ _ _ => rfl) h.cdisk h.cinit (loc _ _) hev (eraseKey_nodup h.evnd) ?_ h.cap (hus _ rfl).2 (hus _ rfl).1
    refine List.perm_iff_count.2 fun x => ?_
    have h2 := List.perm_iff_count.1 h.intp x
    have h3 := ints_upd s.sbs i s.nsb SB.blank hlt x
    rw [hm] at h3
    simp only [List.count_append, SB.blank, Option.toList, List.count_cons, List.count_nil, BlockSched.returnFree] at h2 h3 ⊢
    omega

/-- forgetting a blank block -/
theorem R.forget (h : R c sp s []) {i : Nat} {e : Ent α} (hi : sp.ents i = some e) (hb : s.sbs i = SB.blank) :
    R c (sp.put i none) { s with freeSb := i :: s.freeSb } [] := by
  have hlt := (h.live i e hi).1
  exact { h with
    live := fun j f hj => by
      simp only [Sp.put] at hj
      split_ifs at hj
      exact h.live j f hj
    dead := fun j hj hn => by
      simp only [Sp.put] at hn
      split_ifs at hn with hji
      · rw [hji]; exact hb
      · exact h.dead j hj hn
    fsb := fun j => by
      simp only [Sp.put, List.mem_cons]
      split_ifs with hji
      · rw [hji]; simp [hlt]
      · rw [h.fsb j]; simp [hji]
    fsbnd := List.nodup_cons.2 ⟨fun hm => (by have := ((h.fsb i).1 hm).2; rw [hi] at this; simp at this), h.fsbnd⟩ }

theorem minOf_mem : ∀ (r : List Nat) (x : Nat), minOf x r ∈ x :: r
  | [], x => by simp [minOf]
  | y :: r, x => by
    rw [minOf]
    have := minOf_mem r (min x y)
    rcases List.mem_cons.1 this with h | h
    · rw [h]
      rcases Nat.le_total x y with hxy | hxy
      · rw [Nat.min_eq_left hxy]; simp
      · rw [Nat.min_eq_right hxy]; simp
    · simp [h]

theorem R.blankLocal {mem disk : Nat → α} : Local mem disk Ent.blank SB.blank :=
  { rc := rfl
    dirtyInt := fun h2 => absurd h2 (by simp [SB.blank])
    heldInt := fun h2 => absurd h2 (by simp [Ent.blank])
    uninit0 := fun _ _ => ⟨rfl, rfl⟩
    init0 := fun _ h2 => absurd rfl h2
    memOk := fun v m' h2 => absurd h2 (by simp [Ent.blank])
    marked := fun h2 => absurd h2 (by simp [Ent.blank])
    fresh := fun h2 => absurd h2 (by simp [Ent.blank])
    notfresh := fun h2 => absurd h2 (by simp [Ent.blank])
    diskOk := fun v y h2 => absurd h2 (by simp [Ent.blank]) }

/-- `allocate_swappable_block` -/
theorem R.alloc (h : R c sp s []) : sp.ents (alloc s).1 = none ∧
    R c { sp.put (alloc s).1 (some Ent.blank) with size := max sp.size ((alloc s).1 + 1) } (alloc s).2 [] := by
  unfold BlockSched.alloc
  cases hf : s.freeSb with
  | nil =>
    dsimp only
    have hnone : sp.ents s.nsb = none := by
      cases he : sp.ents s.nsb with
      | none => rfl
      | some e => have := (h.live _ e he).1; omega
    refine ⟨hnone, ?_⟩
    have hi0 : ∀ (g : SB → Option Nat), g SB.blank = none → (List.range (s.nsb + 1)).filterMap (fun k => g (upd s.sbs s.nsb SB.blank k))
        = (List.range s.nsb).filterMap fun k => g (s.sbs k) := by
      intro g hg
      rw [List.range_succ, List.filterMap_append]
      simp only [List.filterMap_cons, upd_same, hg, List.filterMap_nil, List.append_nil]
      refine filterMap_congr_of _ fun x hx => ?_
      rw [upd_ne _ _ (by have := List.mem_range.1 hx; omega)]
    constructor
    · intro j f hj
      simp only [Sp.put] at hj
      split_ifs at hj with hji
      · cases hj
        rw [hji]
        refine ⟨by dsimp only; omega, ?_⟩
        dsimp only
        rw [upd_same]
        exact R.blankLocal
      · obtain ⟨h1, L⟩ := h.live j f hj
        dsimp only
        rw [upd_ne _ _ hji]
        exact ⟨by omega, L⟩
    · intro j hj hn
      simp only [Sp.put] at hn
      split_ifs at hn with hji
      dsimp only at hj ⊢
      rw [upd_ne _ _ hji]
      exact h.dead j (by omega) hn
    · intro j
      simp only [Sp.put, List.not_mem_nil, false_iff]
      split_ifs with hji
      · simp
      · rintro ⟨h1, h2⟩
        have := (h.fsb j).2 ⟨by omega, h2⟩
        rw [hf] at this
        cases this
    · exact List.nodup_nil
    · intro j
      show j ∈ s.evict.map (·.2) ↔ j < s.nsb + 1 ∧ (upd s.sbs s.nsb SB.blank j).int.isSome = true ∧ (upd s.sbs s.nsb SB.blank j).rc = 0
      rw [h.ev j]
      by_cases hji : j = s.nsb
      · rw [hji, upd_same]; simp [SB.blank]
      · rw [upd_ne _ _ hji]
        constructor
        · rintro ⟨h1, h2⟩; exact ⟨by omega, h2⟩
        · rintro ⟨h1, h2⟩; exact ⟨by omega, h2⟩
    · exact h.evnd
    · have := hi0 (fun b => b.int) rfl
      show ([] ++ s.free ++ (List.range (s.nsb + 1)).filterMap (fun k => (upd s.sbs s.nsb SB.blank k).int)).Perm _
      rw [this]
      exact h.intp
    · exact h.cap
    · have := hi0 (fun b => b.ext) rfl
      show s.used.Perm ((List.range (s.nsb + 1)).filterMap (fun k => (upd s.sbs s.nsb SB.blank k).ext) ++ _)
      rw [this]
      exact h.extp
    · exact h.und
    · exact h.cdisk
    · exact h.cinit
    · show (match s.algo with
        | .sim t l rcs p => Algo.sim t l (upd rcs s.nsb 0) p
        | a => a).isSim = sp.sim
      rw [← h.sim]
      cases s.algo <;> rfl
    · intro q hq
      have hp := h.pred q
      show q.sb < s.nsb + 1
      have : q ∈ predOf s.algo := by
        cases ha : s.algo with
        | sim t l rcs p => rw [ha] at hq; exact hq
        | lru => rw [ha] at hq; exact hq
        | lfd nu => rw [ha] at hq; exact hq
      have := hp this
      omega
    · show max sp.size (s.nsb + 1) = s.nsb + 1
      have := h.size
      omega
  | cons x r =>
    dsimp only
    have hmem : minOf x r ∈ s.freeSb := by rw [hf]; exact minOf_mem r x
    obtain ⟨hlt, hnone⟩ := (h.fsb _).1 hmem
    refine ⟨hnone, ?_⟩
    rw [← hf]
    generalize minOf x r = i at *
    have hb := h.dead i hlt hnone
    exact { h with
      live := fun j f hj => by
        simp only [Sp.put] at hj
        split_ifs at hj with hji
        · cases hj
          rw [hji]
          refine ⟨hlt, ?_⟩
          show Local s.mem s.disk Ent.blank (s.sbs i)
          rw [hb]
          exact R.blankLocal
        · exact h.live j f hj
      dead := fun j hj hn => by
        simp only [Sp.put] at hn
        split_ifs at hn with hji
        exact h.dead j hj hn
      fsb := fun j => by
        show j ∈ s.freeSb.erase i ↔ _
        rw [h.fsbnd.mem_erase_iff, h.fsb j]
        simp only [Sp.put]
        split_ifs with hji
        · simp [hji]
        · simp [hji]
      fsbnd := h.fsbnd.erase _
      size := by
        show max sp.size (i + 1) = s.nsb
        have := h.size
        omega }

end Stxxl.BlockSched
