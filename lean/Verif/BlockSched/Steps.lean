import Verif.BlockSched.Inv

namespace Stxxl.BlockSched

variable {α : Type} {c : Cfg α} {sp : Sp α} {s : St α} {H : List Nat}

theorem sp_self {sp : Sp α} {i : Nat} {e : Ent α} (hi : sp.ents i = some e) : sp.ents = fun k => if k = i then some e else sp.ents k := by
  funext k
  split_ifs with h
  · rw [h, hi]
  · rfl

theorem R.evict_live (h : R c sp s H) {j : Nat} (hj : j ∈ s.evict.map (·.2)) : ∃ e m, sp.ents j = some e ∧ j < s.nsb ∧
    (s.sbs j).int = some m ∧ (s.sbs j).rc = 0 := by
  obtain ⟨h1, h2, h3⟩ := (h.ev j).1 hj
  cases he : sp.ents j with
  | none => rw [h.dead j h1 he] at h2; simp [SB.blank] at h2
  | some e =>
    obtain ⟨m, hm⟩ := Option.isSome_iff_exists.1 h2
    exact ⟨e, m, rfl, h1, hm, h3⟩

theorem clean_sbs_ne (s : St α) {i k : Nat} (h : k ≠ i) : (clean c s i).sbs k = s.sbs k := by
  unfold clean
  dsimp only
  split
  · exact upd_ne _ _ h
  · rfl

theorem clean_clean (s : St α) (i : Nat) : clean c (clean c s i) i = clean c s i := by
  have : ((clean c s i).sbs i).dirty = false := by
    unfold clean
    dsimp only
    split
    · simp [upd]
    · rename_i hd
      simpa using hd
  rw [show clean c (clean c s i) i = if ((clean c s i).sbs i).dirty then _ else clean c s i from rfl, if_neg (by simp [this])]

/-- after taking `j` from the queue its internal block is detached -/
theorem R.evictAt (h : R c sp s H) {j : Nat} (hj : j ∈ s.evict.map (·.2)) {ev : List (Nat × Nat)}
    (hev : ∀ (k : Nat), k ∈ ev.map (·.2) ↔ k ≠ j ∧ k ∈ s.evict.map (·.2)) (hnd : (ev.map (·.2)).Nodup) :
    ∃ m s', detach c { s with evict := ev } j = .ok (m, s') ∧ R c sp s' (m :: H) ∧ s'.nsb = s.nsb ∧ s'.algo = s.algo ∧
      s'.evict = ev ∧ (∀ (k : Nat), k ≠ j → s'.sbs k = s.sbs k) ∧ (s.sbs j).int = some m ∧ (s'.sbs j).int = none := by
  obtain ⟨e, m, he, hlt, hm, hrc⟩ := h.evict_live hj
  obtain ⟨-, L⟩ := h.live j e he
  have hheld : e.held = 0 := by rw [← L.rc]; exact hrc
  have hd : detach c { s with evict := ev } j = .ok (m, { clean c { s with evict := ev } j with
      sbs := upd (clean c { s with evict := ev } j).sbs j { (clean c { s with evict := ev } j).sbs j with int := none } }) := by
    unfold detach
    rw [show (({ s with evict := ev } : St α).sbs j).int = some m from hm]
    exact if_pos hrc
  refine ⟨m, _, hd, ?_, ?_⟩
  · unfold clean
    dsimp only
    cases hdirty : (s.sbs j).dirty with
    | false =>
      simp only [if_neg (show ¬ (false = true) by simp)]
      refine h.update he (b' := { s.sbs j with int := none }) (e' := e) (sp' := sp) (sp_self he) rfl rfl rfl rfl rfl rfl h.pred
        (fun _ _ _ _ _ => rfl) (fun _ _ _ _ _ => rfl) h.cdisk h.cinit ?_ ?_ hnd ?_ h.cap ?_ h.und
      · exact { L with
          dirtyInt := fun h1 => absurd h1 (by simp [hdirty])
          heldInt := fun h1 => absurd h1 (by omega)
          uninit0 := fun h1 h2 => ⟨rfl, (L.uninit0 h1 h2).2⟩
          memOk := fun v m' _ h2 => absurd h2 (by simp) }
      · intro k
        rw [hev k]
        simp
      · refine List.perm_iff_count.2 fun x => ?_
        have h1 := ints_upd s.sbs j s.nsb { s.sbs j with int := none } hlt x
        have h2 := List.perm_iff_count.1 h.intp x
        rw [hm] at h1
        simp only [List.count_append, List.count_cons, Option.toList, List.count_nil] at h1 h2 ⊢
        omega
      · refine List.perm_iff_count.2 fun x => ?_
        have h1 := exts_upd s.sbs j s.nsb { s.sbs j with int := none } hlt x
        have h2 := List.perm_iff_count.1 h.extp x
        simp only [List.count_append] at h1 h2 ⊢
        omega
    | true =>
      simp only [if_true, hm]
      have hinit : e.cur ≠ .uninit := fun hu => by have := (L.uninit0 hheld hu).1; rw [hm] at this; cases this
      have key : ∀ (d : Nat) (us : List Nat), us.Nodup →
          (∀ x, us.count x + (s.sbs j).ext.toList.count x = s.used.count x + [d].count x) →
          (∀ (k d' : Nat), k ≠ j → k < s.nsb → (s.sbs k).ext = some d' → d' ≠ d) →
          (d ∉ sp.client.map (·.1)) →
          R c sp { s with
            evict := ev, used := us, disk := upd s.disk d (s.mem m),
            sbs := upd (upd s.sbs j { s.sbs j with ext := some d, dirty := false }) j
              { (upd s.sbs j { s.sbs j with ext := some d, dirty := false }) j with int := none } } (m :: H) := by
        intro d us hus hcount hne hcl
        have hub : ∀ b1 b2 : SB, upd (upd s.sbs j b1) j b2 = upd s.sbs j b2 := fun b1 b2 => by
          funext k
          simp only [upd]
          split_ifs <;> rfl
        refine h.update he (b' := { s.sbs j with ext := some d, dirty := false, int := none }) (e' := e) (sp' := sp) (sp_self he) rfl rfl
          (by rw [hub, upd_same]) rfl rfl rfl h.pred (fun _ _ _ _ _ => rfl) ?_ ?_ h.cinit ?_ ?_ hnd ?_ h.cap ?_ hus
        · intro k d' hk hkl hx
          exact upd_ne _ _ (hne k d' hk hkl hx)
        · intro x v hx
          have : x ≠ d := fun hxd => hcl (List.mem_map.2 ⟨_, hx, hxd⟩)
          show upd s.disk d (s.mem m) x = v
          rw [upd_ne _ _ this]
          exact h.cdisk x v hx
        · exact {
            rc := L.rc
            dirtyInt := fun h1 => absurd h1 (by simp)
            heldInt := fun h1 => absurd h1 (by omega)
            uninit0 := fun _ h2 => absurd h2 hinit
            init0 := fun _ _ => Or.inr rfl
            memOk := fun v m' _ h2 => absurd h2 (by simp)
            marked := fun h1 => absurd h1 (by omega)
            fresh := fun h1 => absurd h1 (by omega)
            notfresh := fun h1 => absurd h1 (by omega)
            diskOk := fun v d' hv _ _ hx => by
              cases hx
              show upd s.disk d (s.mem m) d = v
              rw [upd_same]
              exact L.memOk v m hv hm }
        · intro k
          rw [hev k]
          simp
        · rw [hub]
          refine List.perm_iff_count.2 fun x => ?_
          have h1 := ints_upd s.sbs j s.nsb { s.sbs j with ext := some d, dirty := false, int := none } hlt x
          have h2 := List.perm_iff_count.1 h.intp x
          rw [upd_same]
          rw [hm] at h1
          simp only [List.count_append, List.count_cons, Option.toList, List.count_nil] at h1 h2 ⊢
          omega
        · rw [hub]
          refine List.perm_iff_count.2 fun x => ?_
          have h1 := exts_upd s.sbs j s.nsb { s.sbs j with ext := some d, dirty := false, int := none } hlt x
          have h2 := List.perm_iff_count.1 h.extp x
          have h3 := hcount x
          rw [upd_same]
          simp only [List.count_append, Option.toList] at h1 h2 h3 ⊢
          omega
      cases hx : (s.sbs j).ext with
      | some d =>
        simp only [Option.getD_some, Option.isSome_some, if_true]
        have := key d s.used h.und (fun x => by rw [hx]; rfl)
          (fun k d' hk hkl hkx hdd => hk (h.ext_inj hkl hlt hkx (by rw [hx, hdd]))) (h.ext_client hlt hx)
        simp only [hm] at this ⊢
        exact this
      | none =>
        simp only [Option.getD_none, Option.isSome_none]
        have hfr := c.pick_fresh s.used
        have := key (c.pick s.used) (c.pick s.used :: s.used) (List.nodup_cons.2 ⟨hfr, h.und⟩)
          (fun x => by rw [hx]; simp [List.count_cons])
          (fun k d' hk hkl hkx hdd => hfr (hdd ▸ h.ext_used hkl hkx))
          (fun hc => hfr (h.extp.mem_iff.2 (List.mem_append_right _ hc)))
        simp only [hm, Bool.false_eq_true, if_false] at this ⊢
        exact this
  · refine ⟨?_, ?_, ?_, ?_, hm, ?_⟩
    · unfold clean; dsimp only; split <;> rfl
    · unfold clean; dsimp only; split <;> rfl
    · unfold clean; dsimp only; split <;> rfl
    · intro k hk
      show upd _ j _ k = _
      rw [upd_ne _ _ hk]
      exact clean_sbs_ne _ hk
    · show SB.int (upd _ j _ j) = none
      rw [upd_same]

theorem best_mem : ∀ (r : List (Nat × Nat)) (x : Nat × Nat), best x r ∈ x :: r
  | [], x => by simp [best]
  | y :: r, x => by
    rw [best]
    split
    · exact List.mem_cons_of_mem _ (best_mem r y)
    · rcases List.mem_cons.1 (best_mem r x) with h | h
      · rw [h]; simp
      · exact List.mem_cons_of_mem _ (List.mem_cons_of_mem _ h)

theorem popEvict_none : popEvict s = none ↔ s.evict = [] := by
  unfold popEvict
  cases s.evict with
  | nil => simp
  | cons x r => cases s.algo <;> simp

theorem popEvict_some (hnd : (s.evict.map (·.2)).Nodup) {j : Nat} {s1 : St α} (h : popEvict s = some (j, s1)) :
    j ∈ s.evict.map (·.2) ∧ s1 = { s with evict := s1.evict } ∧
    (∀ (k : Nat), k ∈ s1.evict.map (·.2) ↔ k ≠ j ∧ k ∈ s.evict.map (·.2)) ∧ (s1.evict.map (·.2)).Nodup ∧
    s1.evict.length + 1 = s.evict.length := by
  unfold popEvict at h
  cases hev : s.evict with
  | nil => rw [hev] at h; cases h
  | cons x r =>
    rw [hev] at h hnd
    have key1 : some (x.2, { s with evict := r }) = some (j, s1) →
        j ∈ (x :: r).map (·.2) ∧ s1 = { s with evict := s1.evict } ∧
        (∀ (k : Nat), k ∈ s1.evict.map (·.2) ↔ k ≠ j ∧ k ∈ (x :: r).map (·.2)) ∧ (s1.evict.map (·.2)).Nodup ∧
        s1.evict.length + 1 = (x :: r).length := fun h => by
      cases h
      refine ⟨by simp, rfl, ?_, ?_, by simp⟩
      · intro k
        have := (List.nodup_cons.1 (by simpa using hnd : (x.2 :: r.map (·.2)).Nodup)).1
        simp only [List.map_cons, List.mem_cons]
        constructor
        · intro hk
          exact ⟨fun hkx => this (hkx ▸ hk), Or.inr hk⟩
        · rintro ⟨h1, h2 | h2⟩
          · exact absurd h2 h1
          · exact h2
      · exact (List.nodup_cons.1 (by simpa using hnd : (x.2 :: r.map (·.2)).Nodup)).2
    cases ha : s.algo with
    | lru => rw [ha] at h key1; exact key1 h
    | sim => rw [ha] at h key1; exact key1 h
    | lfd nu =>
      rw [ha] at h
      cases h
      have hm := best_mem r x
      refine ⟨List.mem_map.2 ⟨_, hm, rfl⟩, rfl, fun k => mem_eraseKey, eraseKey_nodup hnd, ?_⟩
      have : ∀ (l : List (Nat × Nat)) (y : Nat × Nat), (l.map (·.2)).Nodup → y ∈ l → (eraseKey y.2 l).length + 1 = l.length := by
        intro l y hl hy
        induction l with
        | nil => cases hy
        | cons z t ih =>
          have hz := List.nodup_cons.1 (by simpa using hl : (z.2 :: t.map (·.2)).Nodup)
          by_cases hzy : z.2 = y.2
          · have : eraseKey y.2 t = t := by
              refine List.filter_eq_self.2 fun w hw => ?_
              have : w.2 ≠ y.2 := fun hwy => hz.1 (List.mem_map.2 ⟨w, hw, by rw [hwy, hzy]⟩)
              simpa using this
            rw [eraseKey] at this ⊢
            rw [List.filter_cons_of_neg (by simp [hzy]), this, List.length_cons]
          · rcases List.mem_cons.1 hy with h | h
            · exact absurd (by rw [h]) hzy
            · have := ih hz.2 h
              rw [eraseKey] at this ⊢
              rw [List.filter_cons_of_pos (by simp [hzy]), List.length_cons, List.length_cons, this]
      exact this _ _ hnd hm

/-- `get_free_internal_block` of the algorithm -/
theorem R.getFree (h : R c sp s H) :
    (∃ m s', getFree c s = .ok (m, s') ∧ R c sp s' (m :: H) ∧ s'.nsb = s.nsb ∧ s'.algo = s.algo ∧
      (∀ (k : Nat), (s.sbs k).int = none → s'.sbs k = s.sbs k)) ∨
    (getFree c s = .oom ∧ s.free = [] ∧ s.remaining = 0 ∧ s.evict = []) := by
  unfold BlockSched.getFree getFreeBs
  cases hf : s.free with
  | cons b r =>
    left
    refine ⟨b, _, rfl, ?_, rfl, rfl, fun _ _ => rfl⟩
    have hp : (b :: H ++ r ++ ints s.sbs s.nsb).Perm (List.range s.nalloc) := by
      refine List.perm_iff_count.2 fun x => ?_
      have h2 := List.perm_iff_count.1 h.intp x
      rw [hf] at h2
      simp only [List.count_append, List.count_cons] at h2 ⊢
      omega
    exact { h with intp := hp }
  | nil =>
    dsimp only
    by_cases hr : s.remaining > 0
    · left
      simp only [if_pos hr]
      refine ⟨_, _, rfl, ?_, rfl, rfl, fun _ _ => rfl⟩
      have hn : min 128 s.remaining - 1 + 1 = min 128 s.remaining := by omega
      have hp : (s.nalloc :: H ++ (List.range (min 128 s.remaining - 1)).map (fun k => s.nalloc + 1 + k) ++ ints s.sbs s.nsb).Perm
          (List.range (s.nalloc + min 128 s.remaining)) := by
        have h1 : List.range (s.nalloc + min 128 s.remaining)
            = List.range s.nalloc ++ (s.nalloc :: (List.range (min 128 s.remaining - 1)).map fun k => s.nalloc + 1 + k) := by
          rw [List.range_add, ← hn, List.range_succ_eq_map]
          simp only [List.map_cons, List.map_map, Nat.add_zero]
          congr 2
          refine List.map_congr_left fun k _ => ?_
          simp only [Function.comp]
          omega
        rw [h1]
        refine List.perm_iff_count.2 fun x => ?_
        have h2 := List.perm_iff_count.1 h.intp x
        rw [hf] at h2
        simp only [List.count_append, List.count_cons, List.count_nil] at h2 ⊢
        omega
      exact { h with intp := hp, cap := by have := h.cap; show s.nalloc + min 128 s.remaining + (s.remaining - min 128 s.remaining) = _; omega }
    · simp only [if_neg hr]
      cases hp : popEvict s with
      | none =>
        right
        exact ⟨by trivial, by trivial, by omega, popEvict_none.1 hp⟩
      | some js =>
        left
        obtain ⟨j, s1⟩ := js
        obtain ⟨h1, h2, h3, h4, -⟩ := popEvict_some h.evnd hp
        obtain ⟨m, s', e1, e2, e3, e4, e5, e6, e7, e8⟩ := h.evictAt h1 h3 h4
        rw [← h2] at e1
        refine ⟨m, s', e1, e2, e3, e4, fun k hk => e6 k fun hkj => ?_⟩
        rw [hkj, e7] at hk
        cases hk

theorem R.returnFree (h : R c sp s H) {m : Nat} {H' : List Nat} (hH : H = m :: H') : R c sp (returnFree s m) H' := by
  subst hH
  have hp : (H' ++ (m :: s.free) ++ ints s.sbs s.nsb).Perm (List.range s.nalloc) := by
    refine List.perm_iff_count.2 fun x => ?_
    have h2 := List.perm_iff_count.1 h.intp x
    simp only [List.count_append, List.count_cons] at h2 ⊢
    omega
  exact { h with intp := hp }

end Stxxl.BlockSched
