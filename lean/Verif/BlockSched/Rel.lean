import Verif.BlockSched.Acq

namespace Stxxl.BlockSched

variable {α : Type} {c : Cfg α} {sp : Sp α} {s : St α} {H : List Nat}

/-- changing only the order and priorities of the queue and the algorithm -/
theorem R.requeue (h : R c sp s H) {ev : List (Nat × Nat)} {a : Algo} {b : Bool}
    (hev : ∀ (k : Nat), k ∈ ev.map (·.2) ↔ k ∈ s.evict.map (·.2)) (hnd : (ev.map (·.2)).Nodup)
    (ha : a.isSim = b) (hp : ∀ q ∈ predOf a, q.sb < s.nsb) :
    R c { sp with sim := b } { s with evict := ev, algo := a } H :=
  { h with
    ev := fun i => by show i ∈ ev.map (·.2) ↔ _; rw [hev i]; exact h.ev i
    evnd := hnd
    sim := ha
    pred := hp }

theorem R.releaseReal (h : R c sp s []) {i : Nat} {e : Ent α} (hi : sp.ents i = some e) (hheld : e.held > 0) (d : Bool)
    {ins : St α → List (Nat × Nat)} (p : St α → Nat) (hins : ∀ t : St α, ins t = t.evict ++ [(p t, i)]) :
    ∃ s', releaseReal c s i d ins = .ok s' ∧ R c (sp.put i (some (e.release d))) s' [] ∧ s'.algo = s.algo ∧ s'.nsb = s.nsb := by
  obtain ⟨hlt, L⟩ := h.live i e hi
  have hrc : (s.sbs i).rc ≠ 0 := by rw [L.rc]; omega
  have hevi : i ∉ s.evict.map (·.2) := fun hj => hrc ((h.ev i).1 hj).2.2
  obtain ⟨m, hm⟩ := Option.isSome_iff_exists.1 (L.heldInt hheld).1
  have hcur := (L.heldInt hheld).2
  unfold BlockSched.releaseReal
  dsimp only
  rw [if_neg hrc]
  by_cases h1 : e.held > 1
  · -- still acquired
    have he' : e.release d = { e with held := e.held - 1, marked := e.marked || d } := by
      unfold Ent.release
      rw [if_pos h1]
    rw [he', if_neg (by rw [L.rc]; omega)]
    refine ⟨_, rfl, ?_, rfl, rfl⟩
    refine h.update hi (b' := { s.sbs i with dirty := d || (s.sbs i).dirty, rc := (s.sbs i).rc - 1 }) (put_ents _ _ _) rfl rfl rfl rfl rfl
      rfl h.pred (fun _ _ _ _ _ => rfl) (fun _ _ _ _ _ => rfl) h.cdisk h.cinit ?_ ?_ h.evnd ?_ h.cap ?_ h.und
    · exact {
        rc := by simp [L.rc]
        dirtyInt := fun _ => by simp [hm]
        heldInt := fun _ => L.heldInt hheld
        uninit0 := fun h2 => absurd h2 (by show e.held - 1 ≠ 0; omega)
        init0 := fun h2 => absurd h2 (by show e.held - 1 ≠ 0; omega)
        memOk := L.memOk
        marked := fun _ h2 => by
          have h2 : (e.marked || d) = true := h2
          cases hd : d with
          | true => simp
          | false =>
            rw [hd, Bool.or_false] at h2
            simp [L.marked hheld h2]
        fresh := fun _ h2 => by
          have := L.fresh hheld h2
          refine ⟨this.1, fun h3 => ?_⟩
          have h3 : (d || (s.sbs i).dirty) = true := h3
          show (e.marked || d) = true
          cases hd : d with
          | true => simp
          | false =>
            rw [hd, Bool.false_or] at h3
            simp [this.2 h3]
        notfresh := fun _ h2 => by
          rcases L.notfresh hheld h2 with h3 | h3
          · left; simp [h3]
          · right; exact h3
        diskOk := fun v x h2 h3 h4 h5 => by
          have h4 : (d || (s.sbs i).dirty) = false := h4
          refine L.diskOk v x h2 (Or.inr (h3.resolve_left ?_)) (Bool.or_eq_false_iff.1 h4).2 h5
          show e.held - 1 ≠ 0
          omega }
    · intro j
      show j ∈ s.evict.map (·.2) ↔ _
      constructor
      · intro hj
        exact Or.inl ⟨fun hji => hevi (hji ▸ hj), hj⟩
      · rintro (h2 | h2)
        · exact h2.2
        · have : (s.sbs i).rc - 1 = 0 := h2.2.2
          rw [L.rc] at this
          omega
    · refine List.perm_iff_count.2 fun x => ?_
      have h2 := List.perm_iff_count.1 h.intp x
      have h1 := ints_same (f := s.sbs) (b := { s.sbs i with dirty := d || (s.sbs i).dirty, rc := (s.sbs i).rc - 1 }) hlt rfl x
      simp only [List.count_append] at h2 ⊢
      rw [h1]
      exact h2
    · refine List.perm_iff_count.2 fun x => ?_
      have h2 := List.perm_iff_count.1 h.extp x
      have h1 := exts_same (f := s.sbs) (b := { s.sbs i with dirty := d || (s.sbs i).dirty, rc := (s.sbs i).rc - 1 }) hlt rfl x
      simp only [List.count_append] at h2 ⊢
      rw [h1]
      exact h2
  · have hone : e.held = 1 := by omega
    rw [if_pos (show (s.sbs i).rc - 1 = 0 by rw [L.rc]; omega)]
    by_cases hk : (e.marked || d) = true ∨ e.fresh = false
    · -- the block keeps its contents in memory
      have hcond : ((d || (s.sbs i).dirty) ||
          SB.isExternal { s.sbs i with dirty := d || (s.sbs i).dirty, rc := (s.sbs i).rc - 1 }) = true := by
        rcases hk with hk | hk
        · cases hd : d with
          | true => simp
          | false =>
            rw [hd, Bool.or_false] at hk
            simp [L.marked hheld hk]
        · rcases L.notfresh hheld hk with h3 | h3
          · simp [h3]
          · cases hdd : (d || (s.sbs i).dirty) with
            | true => simp
            | false => simp [SB.isExternal, h3]
      rw [if_pos hcond]
      refine ⟨_, rfl, ?_, rfl, rfl⟩
      have hrel : ∃ (x : Content α) (mk : Bool), e.release d = { e with held := 0, cur := x, marked := mk } ∧ x ≠ .uninit ∧ (∀ v, x = .known v →
          e.cur = .known v ∧ ((e.marked || d) = true ∨ e.changed = false)) := by
        unfold Ent.release
        rw [if_neg h1]
        cases hmd : (e.marked || d) with
        | true => exact ⟨e.cur, true, by simp, hcur, fun v hv => ⟨hv, Or.inl rfl⟩⟩
        | false =>
          have hf : e.fresh = false := hk.resolve_left (by simp [hmd])
          simp only [Bool.false_eq_true, if_false, hf]
          cases hch : e.changed with
          | true => exact ⟨.junk, e.marked, by simp, by simp, by simp⟩
          | false => exact ⟨e.cur, e.marked, by simp, hcur, fun v hv => ⟨hv, Or.inr rfl⟩⟩
      obtain ⟨x, mk, hx1, hx2, hx3⟩ := hrel
      rw [hx1]
      refine h.update hi (b' := { s.sbs i with dirty := d || (s.sbs i).dirty, rc := (s.sbs i).rc - 1 }) (put_ents _ _ _) rfl rfl rfl rfl
        rfl rfl h.pred (fun _ _ _ _ _ => rfl) (fun _ _ _ _ _ => rfl) h.cdisk h.cinit ?_ ?_ ?_ ?_ h.cap ?_ h.und
      · exact {
          rc := by show (s.sbs i).rc - 1 = 0; rw [L.rc]; omega
          dirtyInt := fun _ => by simp [hm]
          heldInt := fun h2 => absurd h2 (by simp)
          uninit0 := fun _ h2 => absurd h2 hx2
          init0 := fun _ _ => by
            have hcond := Bool.or_eq_true_iff.1 hcond
            rcases hcond with h3 | h3
            · exact Or.inl h3
            · right
              have := Bool.and_eq_true_iff.1 h3
              exact this.1
          memOk := fun v m' h2 h3 => L.memOk v m' (hx3 v h2).1 h3
          marked := fun h2 => absurd h2 (by simp)
          fresh := fun h2 => absurd h2 (by simp)
          notfresh := fun h2 => absurd h2 (by simp)
          diskOk := fun v y h2 _ h4 h5 => by
            have h4 : (d || (s.sbs i).dirty) = false := h4
            have h4 := Bool.or_eq_false_iff.1 h4
            obtain ⟨h6, h7⟩ := hx3 v h2
            refine L.diskOk v y h6 (Or.inr (h7.resolve_left fun h8 => ?_)) h4.2 h5
            rw [h4.1, Bool.or_false] at h8
            have := L.marked hheld h8
            rw [h4.2] at this
            cases this }
      · intro j
        dsimp only
        rw [hins]
        simp only [List.map_append, List.mem_append, List.map_cons, List.map_nil, List.mem_singleton]
        constructor
        · rintro (h2 | h2)
          · exact Or.inl ⟨fun hji => hevi (hji ▸ h2), h2⟩
          · exact Or.inr ⟨h2, by simp [hm], by show (s.sbs i).rc - 1 = 0; rw [L.rc]; omega⟩
        · rintro (h2 | h2)
          · exact Or.inl h2.2
          · exact Or.inr h2.1
      · dsimp only
        rw [hins]
        simp only [List.map_append, List.map_cons, List.map_nil]
        refine List.nodup_append'.2 ⟨h.evnd, by simp, ?_⟩
        intro a ha hb
        rw [List.mem_singleton.1 hb] at ha
        exact hevi ha
      · refine List.perm_iff_count.2 fun x => ?_
        have h2 := List.perm_iff_count.1 h.intp x
        have h1 := ints_same (f := s.sbs) (b := { s.sbs i with dirty := d || (s.sbs i).dirty, rc := (s.sbs i).rc - 1 }) hlt rfl x
        simp only [List.count_append] at h2 ⊢
        rw [h1]
        exact h2
      · refine List.perm_iff_count.2 fun x => ?_
        have h2 := List.perm_iff_count.1 h.extp x
        have h1 := exts_same (f := s.sbs) (b := { s.sbs i with dirty := d || (s.sbs i).dirty, rc := (s.sbs i).rc - 1 }) hlt rfl x
        simp only [List.count_append] at h2 ⊢
        rw [h1]
        exact h2
    · -- it returns to the uninitialized state
      have hmd : (e.marked || d) = false := by
        cases hh : (e.marked || d) with
        | true => exact absurd (Or.inl hh) hk
        | false => rfl
      have hfr : e.fresh = true := by
        cases hh : e.fresh with
        | false => exact absurd (Or.inr hh) hk
        | true => rfl
      obtain ⟨hmk, hd⟩ := Bool.or_eq_false_iff.1 hmd
      obtain ⟨hx, hdm⟩ := L.fresh hheld hfr
      have hdirty : (s.sbs i).dirty = false := by
        cases hdd : (s.sbs i).dirty with
        | false => rfl
        | true => have := hdm hdd; rw [hmk] at this; cases this
      have he' : e.release d = { e with held := 0, cur := .uninit } := by
        unfold Ent.release
        rw [if_neg h1, hmd, hfr]
        simp
      rw [he', hd, hdirty]
      have hrc1 : (s.sbs i).rc - 1 = 0 := by rw [L.rc]; omega
      simp only [Bool.or_self, Bool.false_or, SB.isExternal, hx, Option.isSome_none, Bool.false_and, Bool.false_eq_true, if_false, hrc1]
      have hdet : detach c { s with sbs := upd s.sbs i { s.sbs i with dirty := false, rc := 0 } } i
          = .ok (m, { s with sbs := upd s.sbs i { s.sbs i with dirty := false, rc := 0, int := none } }) := by
        unfold detach clean
        simp only [upd_same, hm, if_true, Bool.false_eq_true, if_false]
        congr 3
        funext k
        simp only [upd]
        split_ifs <;> rfl
      have hdet' : detach c { s with sbs := upd s.sbs i { ext := none, int := (s.sbs i).int, dirty := false, rc := 0 } } i
          = .ok (m, { s with sbs := upd s.sbs i { s.sbs i with dirty := false, rc := 0, int := none } }) := by
        simpa only [hx] using hdet
      rw [hdet']
      simp only [Out.bind]
      refine ⟨_, rfl, ?_, rfl, rfl⟩
      refine h.update hi (b' := { s.sbs i with dirty := false, rc := 0, int := none }) (put_ents _ _ _) rfl rfl rfl rfl
        rfl rfl h.pred (fun _ _ _ _ _ => rfl) (fun _ _ _ _ _ => rfl) h.cdisk h.cinit ?_ ?_ h.evnd ?_ h.cap ?_ h.und
      · exact {
          rc := rfl
          dirtyInt := fun h2 => absurd h2 (by simp)
          heldInt := fun h2 => absurd h2 (by simp)
          uninit0 := fun _ _ => ⟨rfl, hx⟩
          init0 := fun _ h2 => absurd rfl h2
          memOk := fun v m' h2 => absurd h2 (by simp)
          marked := fun h2 => absurd h2 (by simp)
          fresh := fun h2 => absurd h2 (by simp)
          notfresh := fun h2 => absurd h2 (by simp)
          diskOk := fun v y h2 => absurd h2 (by simp) }
      · intro j
        show j ∈ s.evict.map (·.2) ↔ _
        constructor
        · intro hj
          exact Or.inl ⟨fun hji => hevi (hji ▸ hj), hj⟩
        · rintro (h2 | h2)
          · exact h2.2
          · exact absurd h2.2.1 (by simp)
      · refine List.perm_iff_count.2 fun x => ?_
        have h2 := List.perm_iff_count.1 h.intp x
        have h3 := ints_upd s.sbs i s.nsb { s.sbs i with dirty := false, rc := 0, int := none } hlt x
        rw [hm] at h3
        simp only [List.count_append, List.count_cons, List.count_nil, Option.toList, BlockSched.returnFree] at h2 h3 ⊢
        omega
      · refine List.perm_iff_count.2 fun x => ?_
        have h2 := List.perm_iff_count.1 h.extp x
        have h1 := exts_same (f := s.sbs) (b := { s.sbs i with dirty := false, rc := 0, int := none }) hlt rfl x
        simp only [List.count_append, BlockSched.returnFree] at h2 ⊢
        rw [h1]
        exact h2

end Stxxl.BlockSched
