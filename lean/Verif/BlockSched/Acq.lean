import Verif.BlockSched.Steps
import Mathlib.Tactic.ByContra

namespace Stxxl.BlockSched

variable {α : Type} {c : Cfg α} {sp : Sp α} {s : St α} {H : List Nat}

theorem put_ents (sp : Sp α) (i : Nat) (e : Option (Ent α)) : (sp.put i e).ents = fun k => if k = i then e else sp.ents k := rfl

theorem ints_same {f : Nat → SB} {i n : Nat} {b : SB} (h : i < n) (hb : b.int = (f i).int) (x : Nat) :
    (ints (upd f i b) n).count x = (ints f n).count x := by
  have := ints_upd f i n b h x
  rw [hb] at this
  omega

theorem exts_same {f : Nat → SB} {i n : Nat} {b : SB} (h : i < n) (hb : b.ext = (f i).ext) (x : Nat) :
    (exts (upd f i b) n).count x = (exts f n).count x := by
  have := exts_upd f i n b h x
  rw [hb] at this
  omega

theorem R.acquireReal (h : R c sp s []) {i : Nat} {e : Ent α} (hi : sp.ents i = some e) (u : Bool) :
    (∃ s', acquireReal c s i u = .ok s' ∧ R c (sp.put i (some (e.acquire c.fill u))) s' [] ∧ s'.algo = s.algo) ∨
    (acquireReal c s i u = .oom ∧ s.free = [] ∧ s.remaining = 0 ∧ s.evict = []) := by
  obtain ⟨hlt, L⟩ := h.live i e hi
  unfold BlockSched.acquireReal
  dsimp only
  cases hint : (s.sbs i).int with
  | some m =>
    left
    simp only [Option.isSome_some, if_true]
    by_cases hrc : (s.sbs i).rc = 0
    · -- evictable
      have hheld : e.held = 0 := by rw [← L.rc]; exact hrc
      have hcur : e.cur ≠ .uninit := fun hu => by have := (L.uninit0 hheld hu).1; rw [hint] at this; cases this
      have he' : e.acquire c.fill u = { cur := if u then .junk else e.cur, held := 1, fresh := false, changed := u, marked := false } := by
        unfold Ent.acquire
        rw [if_neg (by omega)]
        cases hc : e.cur with
        | uninit => exact absurd hc hcur
        | known v => rfl
        | junk => rfl
      rw [he']
      refine ⟨_, rfl, ?_, ?_⟩
      · rw [if_pos hrc]
        refine h.update hi (b' := { s.sbs i with rc := (s.sbs i).rc + 1 }) (put_ents _ _ _) rfl rfl rfl rfl rfl rfl h.pred
          (fun _ _ _ _ _ => rfl) (fun _ _ _ _ _ => rfl) h.cdisk h.cinit ?_ ?_ (eraseKey_nodup h.evnd) ?_ h.cap ?_ h.und
        · exact {
            rc := by simp [hrc]
            dirtyInt := L.dirtyInt
            heldInt := fun _ => ⟨by simp [hint], by dsimp only; split <;> simp [hcur]⟩
            uninit0 := fun h1 => absurd h1 (by simp)
            init0 := fun h1 => absurd h1 (by simp)
            memOk := fun v m' h1 h2 => by
              cases u with
              | true => simp at h1
              | false => exact L.memOk v m' (by simpa using h1) h2
            marked := fun _ h1 => absurd h1 (by simp)
            fresh := fun _ h1 => absurd h1 (by simp)
            notfresh := fun _ _ => L.init0 hheld hcur
            diskOk := fun v d h1 _ h2 h3 => by
              cases u with
              | true => simp at h1
              | false => exact L.diskOk v d (by simpa using h1) (Or.inl hheld) h2 h3 }
        · intro j
          show j ∈ (eraseKey i s.evict).map (·.2) ↔ _
          rw [mem_eraseKey]
          simp
        · refine List.perm_iff_count.2 fun x => ?_
          have h2 := List.perm_iff_count.1 h.intp x
          have h1 := ints_same (f := s.sbs) (b := { s.sbs i with rc := (s.sbs i).rc + 1 }) hlt rfl x
          simp only [List.count_append, incRc] at h2 ⊢
          rw [h1]
          exact h2
        · refine List.perm_iff_count.2 fun x => ?_
          have h2 := List.perm_iff_count.1 h.extp x
          have h1 := exts_same (f := s.sbs) (b := { s.sbs i with rc := (s.sbs i).rc + 1 }) hlt rfl x
          simp only [List.count_append, incRc] at h2 ⊢
          rw [h1]
          exact h2
      · rw [if_pos hrc]; rfl
    · have hheld : e.held > 0 := by rw [← L.rc]; omega
      have he' : e.acquire c.fill u = { e with held := e.held + 1 } := by
        unfold Ent.acquire
        rw [if_pos hheld]
      rw [he', if_neg hrc]
      refine ⟨_, rfl, ?_, rfl⟩
      refine h.update hi (b' := { s.sbs i with rc := (s.sbs i).rc + 1 }) (put_ents _ _ _) rfl rfl rfl rfl rfl rfl h.pred
        (fun _ _ _ _ _ => rfl) (fun _ _ _ _ _ => rfl) h.cdisk h.cinit ?_ ?_ h.evnd ?_ h.cap ?_ h.und
      · exact {
          rc := by simp [L.rc]
          dirtyInt := L.dirtyInt
          heldInt := fun _ => L.heldInt hheld
          uninit0 := fun h1 => absurd h1 (by simp)
          init0 := fun h1 => absurd h1 (by simp)
          memOk := L.memOk
          marked := fun _ => L.marked hheld
          fresh := fun _ => L.fresh hheld
          notfresh := fun _ => L.notfresh hheld
          diskOk := fun v d h1 h2 h3 h4 => L.diskOk v d h1 (Or.inr (h2.resolve_left (by simp))) h3 h4 }
      · intro j
        show j ∈ s.evict.map (·.2) ↔ _
        constructor
        · intro hj
          refine Or.inl ⟨fun hji => ?_, hj⟩
          rw [hji] at hj
          exact hrc ((h.ev i).1 hj).2.2
        · rintro (h1 | h1)
          · exact h1.2
          · exact absurd h1.2.2 (by simp)
      · refine List.perm_iff_count.2 fun x => ?_
        have h2 := List.perm_iff_count.1 h.intp x
        have h1 := ints_same (f := s.sbs) (b := { s.sbs i with rc := (s.sbs i).rc + 1 }) hlt rfl x
        simp only [List.count_append, incRc] at h2 ⊢
        rw [h1]
        exact h2
      · refine List.perm_iff_count.2 fun x => ?_
        have h2 := List.perm_iff_count.1 h.extp x
        have h1 := exts_same (f := s.sbs) (b := { s.sbs i with rc := (s.sbs i).rc + 1 }) hlt rfl x
        simp only [List.count_append, incRc] at h2 ⊢
        rw [h1]
        exact h2
  | none =>
    simp only [Option.isSome_none, Bool.false_eq_true, if_false]
    have hheld : e.held = 0 := by
      by_contra hne
      have := (L.heldInt (by omega)).1
      rw [hint] at this
      cases this
    have hrc : (s.sbs i).rc = 0 := by rw [L.rc]; exact hheld
    have hdirty : (s.sbs i).dirty = false := by
      cases hd : (s.sbs i).dirty with
      | false => rfl
      | true => have := L.dirtyInt hd; rw [hint] at this; cases this
    -- the block in hand
    rcases h.getFree with ⟨m, s1, hg, h1, hn, ha, hsame⟩ | ⟨hg, hrest⟩
    · left
      have hsi := hsame i hint
      rw [hg]
      simp only [Out.bind]
      have hevi : i ∉ s1.evict.map (·.2) := fun hj => by
        have := ((h1.ev i).1 hj).2.1
        rw [hsi, hint] at this
        cases this
      obtain ⟨hlt1, L1⟩ := h1.live i e hi
      rw [hsi] at L1
      -- general statement about the final state
      have key : ∀ (b' : SB) (mem' : Nat → α) (e' : Ent α), (∀ k, k ≠ m → mem' k = s1.mem k) → b'.int = some m → b'.rc = 1 →
          b'.ext = (s.sbs i).ext → Local mem' s1.disk e' b' →
          R c (sp.put i (some e')) { s1 with sbs := upd s1.sbs i b', mem := mem' } [] := by
        intro b' mem' e' hmem hbi hbr hbx hloc
        refine h1.update hi (b' := b') (put_ents _ _ _) rfl rfl rfl rfl rfl rfl h1.pred ?_ (fun _ _ _ _ _ => rfl) h1.cdisk h1.cinit
          hloc ?_ h1.evnd ?_ h1.cap ?_ h1.und
        · intro j m' hj hjl hjm
          refine hmem m' fun hmm => ?_
          rw [hmm] at hjm
          exact h1.hand_int (by simp) hjl hjm
        · intro j
          show j ∈ s1.evict.map (·.2) ↔ _
          rw [hbr]
          constructor
          · intro hj
            exact Or.inl ⟨fun hji => hevi (hji ▸ hj), hj⟩
          · rintro (h1 | h1)
            · exact h1.2
            · exact absurd h1.2.2 (by simp)
        · refine List.perm_iff_count.2 fun x => ?_
          have h2 := List.perm_iff_count.1 h1.intp x
          have h3 := ints_upd s1.sbs i s1.nsb b' hlt1 x
          rw [hsi, hint, hbi] at h3
          simp only [List.count_append, List.count_cons, List.count_nil, Option.toList] at h2 h3 ⊢
          omega
        · refine List.perm_iff_count.2 fun x => ?_
          have h2 := List.perm_iff_count.1 h1.extp x
          have h3 := exts_same (f := s1.sbs) (b := b') hlt1 (by rw [hbx, hsi]) x
          simp only [List.count_append] at h2 ⊢
          rw [h3]
          exact h2
      have hub : ∀ b1 b2 : SB, upd (upd s1.sbs i b1) i b2 = upd s1.sbs i b2 := fun b1 b2 => by
        funext k
        simp only [upd]
        split_ifs <;> rfl
      cases hx : (s.sbs i).ext with
      | some d =>
        have hinit : (s.sbs i).isInitialized = true := by simp [SB.isInitialized, SB.isExternal, hx, hdirty]
        have hcur : e.cur ≠ .uninit := fun hu => by have := (L.uninit0 hheld hu).2; rw [hx] at this; cases this
        have he' : e.acquire c.fill u = { cur := if u then .junk else e.cur, held := 1, fresh := false, changed := u, marked := false } := by
          unfold Ent.acquire
          rw [if_neg (by omega)]
          cases hc : e.cur with
          | uninit => exact absurd hc hcur
          | known v => rfl
          | junk => rfl
        rw [he', hinit]
        simp only [if_true]
        cases u with
        | true =>
          simp only [if_true]
          refine ⟨_, rfl, ?_, ha⟩
          have := key { s.sbs i with int := some m, rc := 1 } s1.mem
            { cur := .junk, held := 1, fresh := false, changed := true, marked := false } (fun _ _ => rfl) rfl rfl rfl
            { rc := rfl
              dirtyInt := fun _ => rfl
              heldInt := fun _ => ⟨rfl, by simp⟩
              uninit0 := fun h1 => absurd h1 (by simp)
              init0 := fun h1 => absurd h1 (by simp)
              memOk := fun v m' h1 => absurd h1 (by simp)
              marked := fun _ h1 => absurd h1 (by simp)
              fresh := fun _ h1 => absurd h1 (by simp)
              notfresh := fun _ _ => Or.inr (by simp [hx])
              diskOk := fun v d h1 => absurd h1 (by simp) }
          simpa only [incRc, attach, hub, upd_same, hsi, hrc, hx, hdirty] using this
        | false =>
          have hr : readSync (attach s1 i m) i = .ok { s1 with
              sbs := upd s1.sbs i { s.sbs i with int := some m, dirty := false }, mem := upd s1.mem m (s1.disk d) } := by
            unfold readSync attach
            simp only [upd_same, hsi, hx, hub]
          rw [hr]
          simp only [Bool.false_eq_true, if_false, Out.bind]
          refine ⟨_, rfl, ?_, ha⟩
          have := key { s.sbs i with int := some m, rc := 1, dirty := false } (upd s1.mem m (s1.disk d))
            { cur := e.cur, held := 1, fresh := false, changed := false, marked := false } (fun k hk => upd_ne _ _ hk) rfl rfl rfl
            { rc := rfl
              dirtyInt := fun _ => rfl
              heldInt := fun _ => ⟨rfl, hcur⟩
              uninit0 := fun h1 => absurd h1 (by simp)
              init0 := fun h1 => absurd h1 (by simp)
              memOk := fun v m' h1 h2 => by
                cases h2
                rw [upd_same]
                exact L1.diskOk v d h1 (Or.inl hheld) hdirty hx
              marked := fun _ h1 => absurd h1 (by simp)
              fresh := fun _ h1 => absurd h1 (by simp)
              notfresh := fun _ _ => Or.inr (by simp [hx])
              diskOk := fun v d' h1 _ _ h4 => L1.diskOk v d' h1 (Or.inl hheld) hdirty h4 }
          simpa only [incRc, hub, upd_same, hrc] using this
      | none =>
        have hinit : (s.sbs i).isInitialized = false := by simp [SB.isInitialized, SB.isExternal, hx, hint]
        have hcur : e.cur = .uninit := by
          by_contra hne
          rcases L.init0 hheld hne with h1 | h1
          · rw [hdirty] at h1; cases h1
          · rw [hx] at h1; cases h1
        rw [hinit]
        simp only [Bool.false_eq_true, if_false]
        have hacq : ∀ x : Content α, (x = match c.fill, u with
                     | some v, false => .known v
                     | _, _ => .junk) → e.acquire c.fill u = { cur := x, held := 1, fresh := true, changed := false, marked := false } := by
          intro x hx
          unfold Ent.acquire
          rw [if_neg (by omega), hcur, hx]
          rcases c.fill with _ | v <;> cases u <;> rfl
        have loc : ∀ (x : Content α) (mem' : Nat → α), x ≠ .uninit → (∀ v, x = .known v → mem' m = v) →
            Local mem' s1.disk { cur := x, held := 1, fresh := true, changed := false, marked := false }
              { s.sbs i with int := some m, rc := 1 } := fun x mem' hxu hxm =>
            { rc := rfl
              dirtyInt := fun _ => rfl
              heldInt := fun _ => ⟨rfl, hxu⟩
              uninit0 := fun h1 => absurd h1 (by simp)
              init0 := fun h1 => absurd h1 (by simp)
              memOk := fun v m' h1 h2 => by cases h2; exact hxm v h1
              marked := fun _ h1 => absurd h1 (by simp)
              fresh := fun _ _ => ⟨hx, fun hd => absurd hd (by simp [hdirty])⟩
              notfresh := fun _ h1 => absurd h1 (by simp)
              diskOk := fun v d _ _ _ h1 => absurd h1 (by simp [hx]) }
        cases u with
        | true =>
          rw [hacq .junk (by split <;> simp_all)]
          simp only [if_true]
          refine ⟨_, rfl, ?_, ha⟩
          have := key { s.sbs i with int := some m, rc := 1 } s1.mem _ (fun _ _ => rfl) rfl rfl rfl (loc .junk s1.mem (by simp) (by simp))
          simpa only [incRc, attach, hub, upd_same, hsi, hrc] using this
        | false =>
          simp only [Bool.false_eq_true, if_false]
          cases hfill : c.fill with
          | none =>
            rw [hfill] at hacq
            rw [hacq .junk rfl]
            refine ⟨_, rfl, ?_, ha⟩
            have := key { s.sbs i with int := some m, rc := 1 } s1.mem _ (fun _ _ => rfl) rfl rfl rfl (loc .junk s1.mem (by simp) (by simp))
            simpa only [incRc, attach, hub, upd_same, hsi, hrc] using this
          | some v =>
            rw [hfill] at hacq
            rw [hacq (.known v) rfl]
            refine ⟨_, rfl, ?_, ha⟩
            have := key { s.sbs i with int := some m, rc := 1 } (upd s1.mem m v) _ (fun k hk => upd_ne _ _ hk) rfl rfl rfl
              (loc (.known v) (upd s1.mem m v) (by simp) (fun w hw => by cases hw; exact upd_same _ _ _))
            simpa only [incRc, attach, hub, upd_same, hsi, hrc] using this
    · right
      refine ⟨?_, hrest⟩
      rw [hg]
      simp only [Out.bind]
      split <;> rfl

end Stxxl.BlockSched
