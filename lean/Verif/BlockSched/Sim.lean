import Verif.BlockSched.Props

/-!
# Simulation mode (C57)

In simulation mode the scheduler records the calls of an algorithm without doing them.  It must answer
like the real scheduler where an algorithm can depend on the answer: which block number
`allocate_swappable_block` yields and whether a block is initialized.
-/

namespace Stxxl.BlockSched

variable {α : Type} {c : Cfg α}

/-- calls of an algorithm: all except switching and flushing -/
def Op.plain : Op α → Bool
  | .flush | .toLru | .toLfd _ | .toSim => false
  | _ => true

/-- calls whose answer an algorithm may depend on -/
def Op.asks : Op α → Bool
  | .alloc | .isInit _ => true
  | _ => false

/-- same calls, same answers where it matters -/
def Agree (tr tr' : List (Op α × Res α)) : Prop :=
  List.Forall₂ (fun x y => x.1 = y.1 ∧ (x.1.asks = true → x.2 = y.2)) tr tr'

/-- what a call leaves in the prediction sequence -/
def Op.recorded : Op α → Option (POp × Nat)
  | .free i | .deinit i => some (.deinit, i)
  | .acquire i u => some (if u then .acquireUninit else .acquire, i)
  | .release i d => some (if d then .releaseDirty else .release, i)
  | .init i _ => some (.init, i)
  | .extract i => some (.extract, i)
  | _ => none

/-- the count of the simulation for a block -/
def SimOk (e : Ent α) (r : Int) : Prop :=
  if e.held = 0 then 0 ≤ r ∧ (r > 0 ↔ e.cur ≠ .uninit)
  else (e.held : Int) ≤ r ∧ (r > e.held ↔ (e.marked = true ∨ e.fresh = false)) ∧ e.cur ≠ .uninit

/-- the simulation `t` knows the table -/
structure Q (sp : Sp α) (t : St α) (p0 : List PEl) (ps : List (POp × Nat)) : Prop where
  nsb : t.nsb = sp.size
  fsb : ∀ (i : Nat), i ∈ t.freeSb ↔ i < t.nsb ∧ sp.ents i = none
  fsbnd : t.freeSb.Nodup
  bound : ∀ (i : Nat) (e : Ent α), sp.ents i = some e → i < t.nsb
  algo : ∃ tm l rcs p, t.algo = .sim tm l rcs (p0 ++ p) ∧ (p.map fun q => (q.op, q.sb)) = ps ∧
    (∀ (i : Nat) (e : Ent α), sp.ents i = some e → SimOk e (rcs i)) ∧ (∀ (i : Nat), i < t.nsb → sp.ents i = none → rcs i = 0)

theorem minOf_le : ∀ (r : List Nat) (x y : Nat), y ∈ x :: r → minOf x r ≤ y
  | [], x, y, h => by simp at h; simp [minOf, h]
  | z :: r, x, y, h => by
    rw [minOf]
    rcases List.mem_cons.1 h with h | h
    · have := minOf_le r (min x z) (min x z) (by simp); omega
    · rcases List.mem_cons.1 h with h | h
      · have := minOf_le r (min x z) (min x z) (by simp); omega
      · exact minOf_le r (min x z) y (by simp [h])

theorem alloc_eq {s t : St α} (hn : s.nsb = t.nsb) (hm : ∀ i, i ∈ s.freeSb ↔ i ∈ t.freeSb) : (alloc s).1 = (alloc t).1 := by
  unfold alloc
  cases hs : s.freeSb with
  | nil =>
    cases ht : t.freeSb with
    | nil => exact hn
    | cons y r => have := (hm y).2 (by rw [ht]; simp); rw [hs] at this; cases this
  | cons x r =>
    cases ht : t.freeSb with
    | nil => have := (hm x).1 (by rw [hs]; simp); rw [ht] at this; cases this
    | cons y r' =>
      dsimp only
      have h1 := minOf_mem r x
      have h2 := minOf_mem r' y
      rw [hs, ht] at hm
      have := minOf_le r x _ ((hm _).2 h2)
      have := minOf_le r' y _ ((hm _).1 h1)
      omega

theorem Q.put {sp : Sp α} {t : St α} {p0 : List PEl} {ps : List (POp × Nat)} (h : Q sp t p0 ps) {i : Nat} {e e' : Ent α}
    (he : sp.ents i = some e) {sp' : Sp α} (hents : sp'.ents = (sp.put i (some e')).ents) (hsz : sp'.size = sp.size)
    {t' : St α} (hn : t'.nsb = t.nsb) (hf : t'.freeSb = t.freeSb) {ps' : List (POp × Nat)}
    (ha : ∀ tm l rcs p, t.algo = .sim tm l rcs (p0 ++ p) → SimOk e (rcs i) →
      ∃ tm' l' r' q, t'.algo = .sim tm' l' (upd rcs i r') (p0 ++ (p ++ q)) ∧ (q.map fun x => (x.op, x.sb)) = ps' ∧ SimOk e' r') :
    Q sp' t' p0 (ps ++ ps') := by
  obtain ⟨tm, l, rcs, p, h1, h2, h3, h4⟩ := h.algo
  obtain ⟨tm', l', r', q, h5, h6, h7⟩ := ha tm l rcs p h1 (h3 i e he)
  refine ⟨by rw [hn, hsz]; exact h.nsb, fun j => ?_, by rw [hf]; exact h.fsbnd, fun j f hj => ?_, tm', l', _, _, h5, by rw [List.map_append, h2, h6], ?_, ?_⟩
  · rw [hf, hn, hents, h.fsb j]
    simp only [Sp.put]
    split_ifs with hji
    · rw [hji, he]; simp
    · rfl
  · rw [hn]
    rw [hents] at hj
    simp only [Sp.put] at hj
    split_ifs at hj with hji
    · rw [hji]; exact h.bound i e he
    · exact h.bound j f hj
  · intro j f hj
    rw [hents] at hj
    simp only [Sp.put] at hj
    split_ifs at hj with hji
    · cases hj
      rw [hji, upd_same]
      exact h7
    · rw [upd_ne _ _ hji]
      exact h3 j f hj
  · intro j hj hn'
    rw [hents] at hn'
    simp only [Sp.put] at hn'
    split_ifs at hn' with hji
    rw [upd_ne _ _ hji]
    exact h4 j (hn ▸ hj) hn'

/-- nothing the simulation looks at changes -/
theorem Q.same {sp : Sp α} {t : St α} {p0 : List PEl} {ps : List (POp × Nat)} (h : Q sp t p0 ps) {sp' : Sp α} (hents : sp'.ents = sp.ents)
    (hsz : sp'.size = sp.size) {t' : St α} (hn : t'.nsb = t.nsb) (hf : t'.freeSb = t.freeSb) (ha : t'.algo = t.algo) : Q sp' t' p0 (ps ++ []) := by
  obtain ⟨tm, l, rcs, p, h1, h2, h3, h4⟩ := h.algo
  refine ⟨by rw [hn, hsz]; exact h.nsb, by rw [hf, hn, hents]; exact h.fsb, by rw [hf]; exact h.fsbnd, by rw [hn, hents]; exact h.bound,
    tm, l, rcs, p, by rw [ha]; exact h1, by rw [List.append_nil]; exact h2, by rw [hents]; exact h3, by rw [hn, hents]; exact h4⟩

theorem simOk_held {e : Ent α} {r : Int} (hh : e.held ≠ 0) :
    SimOk e r ↔ ((e.held : Int) ≤ r ∧ (r > e.held ↔ (e.marked = true ∨ e.fresh = false)) ∧ e.cur ≠ .uninit) := by
  unfold SimOk
  rw [if_neg hh]

theorem simOk_acquire {e : Ent α} {r : Int} (h : SimOk e r) (fill : Option α) (u : Bool) : SimOk (e.acquire fill u) (r + 1) := by
  by_cases h0 : e.held = 0
  · unfold SimOk at h
    rw [if_pos h0] at h
    obtain ⟨h1, h2⟩ := h
    unfold Ent.acquire
    rw [if_neg (by omega)]
    cases hc : e.cur with
    | uninit =>
      have : ¬ r > 0 := fun hr => h2.1 hr hc
      have hr : r = 0 := by omega
      subst hr
      refine (simOk_held (by simp)).2 ⟨by simp, by simp, ?_⟩
      dsimp only
      split <;> simp
    | known v =>
      have := h2.2 (by simp [hc])
      refine (simOk_held (by simp)).2 ⟨by simp; omega, by simp; omega, by dsimp only; split <;> simp⟩
    | junk =>
      have := h2.2 (by simp [hc])
      refine (simOk_held (by simp)).2 ⟨by simp; omega, by simp; omega, by dsimp only; split <;> simp⟩
  · obtain ⟨h1, h2, h3⟩ := (simOk_held h0).1 h
    unfold Ent.acquire
    rw [if_pos (by omega)]
    refine (simOk_held (by simp)).2 ⟨by dsimp only; omega, ?_, h3⟩
    dsimp only
    rw [← h2]
    omega

theorem simOk_release {e : Ent α} {r : Int} (h : SimOk e r) (hh : e.held > 0) (d : Bool) :
    SimOk (e.release d) (r - 1 + (if d then 1 else 0)) := by
  obtain ⟨h1, h2, h3⟩ := (simOk_held (by omega)).1 h
  unfold Ent.release
  by_cases h4 : e.held > 1
  · rw [if_pos h4]
    refine (simOk_held (by dsimp only; omega)).2 ⟨?_, ?_, h3⟩
    · dsimp only; split <;> omega
    · dsimp only
      cases d with
      | true => simp; omega
      | false => simp only [Bool.or_false, Bool.false_eq_true, if_false]; rw [← h2]; omega
  · rw [if_neg h4]
    have hone : (e.held : Int) = 1 := by omega
    rw [hone] at h1 h2
    cases hmd : (e.marked || d) with
    | true =>
      rw [if_pos rfl]
      unfold SimOk
      rw [if_pos rfl]
      refine ⟨by split <;> omega, fun _ => h3, fun _ => ?_⟩
      cases d with
      | true => simp; omega
      | false =>
        rw [Bool.or_false] at hmd
        have := h2.2 (Or.inl hmd)
        simp; omega
    | false =>
      obtain ⟨hmk, hd⟩ := Bool.or_eq_false_iff.1 hmd
      subst hd
      simp only [Bool.false_eq_true, if_false]
      rw [hmk] at h2
      cases hf : e.fresh with
      | true =>
        rw [hf] at h2
        have : ¬ r > 1 := fun hr => by simpa using h2.1 hr
        simp [SimOk]; omega
      | false =>
        rw [hf] at h2
        have := h2.2 (Or.inr rfl)
        simp only [Bool.false_eq_true, if_false]
        cases e.changed with
        | true => simp [SimOk]; omega
        | false =>
          simp only [Bool.false_eq_true, if_false]
          unfold SimOk
          rw [if_pos rfl]
          exact ⟨by omega, fun _ => h3, fun _ => by omega⟩

/-- one call in simulation mode -/
theorem sim_step {sp sp' : Sp α} {s s' t : St α} {p0 : List PEl} {ps : List (POp × Nat)} {o : Op α} {r : Res α}
    (hR : R c sp s []) (hs : step c s o = .ok (s', r)) (hsim : sp.sim = false) (hp : sp.pre o) (hpo : Sp.Post c.fill sp o r sp')
    (hpl : o.plain = true) (hQ : Q sp t p0 ps) :
    ∃ t' r', step c t o = .ok (t', r') ∧ (o.asks = true → r = r') ∧ Q sp' t' p0 (ps ++ (o.recorded).toList) := by
  obtain ⟨tm, l, rcs, p, ha, hps, hok, hdead⟩ := hQ.algo
  cases hpo with
  | simulated h1 => rw [hsim] at h1; cases h1
  | alloc h1 =>
    have hidx : (alloc s).1 = (alloc t).1 := alloc_eq (by rw [← hR.size, hQ.nsb]) (fun i => by
      rw [hR.fsb i, hQ.fsb i, ← hR.size, hQ.nsb])
    cases hs
    refine ⟨_, _, rfl, fun _ => by rw [hidx], ?_⟩
    rw [hidx] at h1 ⊢
    show Q _ _ _ (ps ++ [])
    rw [List.append_nil]
    unfold alloc at h1 ⊢
    cases hf : t.freeSb with
    | nil =>
      rw [hf] at h1
      dsimp only at h1 ⊢
      have hsz := hQ.nsb
      have hnew : ∀ (j : Nat) (f : Ent α), sp.ents j = some f → j ≠ t.nsb := fun j f hj => by have := hQ.bound j f hj; omega
      refine ⟨by show t.nsb + 1 = max sp.size (t.nsb + 1); omega, fun j => ?_, List.nodup_nil, fun j f hj => ?_,
        tm, l, _, p, by rw [ha], hps, fun j f hj => ?_, fun j hj hn => ?_⟩
      · simp only [Sp.put, List.not_mem_nil, false_iff]
        split_ifs with hji
        · simp
        · rintro ⟨h2, h3⟩
          have := (hQ.fsb j).2 ⟨by omega, h3⟩
          rw [hf] at this
          cases this
      · simp only [Sp.put] at hj
        show j < t.nsb + 1
        split_ifs at hj with hji
        · omega
        · have := hQ.bound j f hj; omega
      · simp only [Sp.put] at hj
        split_ifs at hj with hji
        · cases hj
          rw [hji, upd_same]
          simp [SimOk, Ent.blank]
        · rw [upd_ne _ _ hji]; exact hok j f hj
      · simp only [Sp.put] at hn
        split_ifs at hn with hji
        rw [upd_ne _ _ hji]
        have hj : j < t.nsb + 1 := hj
        exact hdead j (by omega) hn
    | cons x rr =>
      rw [hf] at h1
      dsimp only at h1 ⊢
      have hmem : minOf x rr ∈ t.freeSb := by rw [hf]; exact minOf_mem rr x
      obtain ⟨hlt, hnone⟩ := (hQ.fsb _).1 hmem
      rw [← hf]
      generalize minOf x rr = i at *
      have hsz := hQ.nsb
      refine ⟨by show t.nsb = max sp.size (i + 1); omega, fun j => ?_, hQ.fsbnd.erase _, fun j f hj => ?_,
        tm, l, _, p, ha, hps, fun j f hj => ?_, fun j hj hn => ?_⟩
      · show j ∈ t.freeSb.erase i ↔ _
        rw [hQ.fsbnd.mem_erase_iff, hQ.fsb j]
        simp only [Sp.put]
        split_ifs with hji
        · simp [hji]
        · simp [hji]
      · simp only [Sp.put] at hj
        split_ifs at hj with hji
        · rw [hji]; exact hlt
        · exact hQ.bound j f hj
      · simp only [Sp.put] at hj
        split_ifs at hj with hji
        · cases hj
          rw [hji, hdead i hlt hnone]
          simp [SimOk, Ent.blank]
        · exact hok j f hj
      · simp only [Sp.put] at hn
        split_ifs at hn with hji
        exact hdead j hj hn
  | free =>
    rename_i i
    obtain ⟨e, hi, hheld, -⟩ := hp
    have hlt := hQ.bound i e hi
    refine ⟨{ t with freeSb := i :: t.freeSb, algo := .sim tm l (upd rcs i 0) ((p0 ++ p) ++ [⟨.deinit, i, tm⟩]) }, .unit, ?_, by simp [Op.asks], ?_⟩
    · show (if i < t.nsb then _ else _) = _
      rw [if_pos hlt]
      unfold freeBlock deinit
      rw [ha]
      rfl
    · refine ⟨hQ.nsb, fun j => ?_, List.nodup_cons.2 ⟨fun hm => (by have := ((hQ.fsb i).1 hm).2; rw [hi] at this; simp at this), hQ.fsbnd⟩,
        fun j f hj => ?_, tm, l, upd rcs i 0, p ++ [⟨.deinit, i, tm⟩], by rw [List.append_assoc], ?_, fun j f hj => ?_, fun j hj hn => ?_⟩
      · simp only [Sp.put, List.mem_cons]
        split_ifs with hji
        · rw [hji]; simp [hlt]
        · rw [hQ.fsb j]; simp [hji]
      · simp only [Sp.put] at hj
        split_ifs at hj
        exact hQ.bound j f hj
      · rw [List.map_append, hps]; rfl
      · simp only [Sp.put] at hj
        split_ifs at hj with hji
        rw [upd_ne _ _ hji]
        exact hok j f hj
      · simp only [Sp.put] at hn
        split_ifs at hn with hji
        · rw [hji, upd_same]
        · rw [upd_ne _ _ hji]; exact hdead j hj hn
  | acquire hs0 he =>
    rename_i i u e
    have hlt := hQ.bound i e he
    refine ⟨{ t with algo := .sim tm false (upd rcs i (rcs i + 1)) ((p0 ++ p) ++ [⟨if u then .acquireUninit else .acquire, i, tm⟩]) }, .unit, ?_,
      by simp [Op.asks], hQ.put he (by rfl) (by rfl) (by rfl) (by rfl) (ps' := _) ?_⟩
    · show (if i < t.nsb then _ else _) = _
      rw [if_pos hlt]
      unfold acquire
      rw [ha]
      rfl
    · intro tm1 l1 rcs1 p1 h1 h2
      rw [ha] at h1
      injection h1 with q1 q2 q3 q4
      have q4 := List.append_cancel_left q4
      subst q1 q2 q3 q4
      refine ⟨tm, false, _, [_], by rw [List.append_assoc], ?_, simOk_acquire h2 _ _⟩
      simp [Op.recorded]
  | read hs0 he hv =>
    rename_i i e v
    have hlt := hQ.bound i e he
    refine ⟨t, .val t.dummy, ?_, by simp [Op.asks], hQ.same (by rfl) (by rfl) (by rfl) (by rfl) (by rfl)⟩
    show (if i < t.nsb then _ else _) = _
    rw [if_pos hlt]
    unfold readOp
    rw [ha]
  | write hs0 he =>
    rename_i i v e
    have hlt := hQ.bound i e he
    refine ⟨{ t with dummy := v }, .unit, ?_, by simp [Op.asks], ?_⟩
    · show (if i < t.nsb then _ else _) = _
      rw [if_pos hlt]
      unfold writeOp
      rw [ha]
    · obtain ⟨e1, he1, hh⟩ := hp
      rw [he] at he1
      cases he1
      have hheld := hh.resolve_left (by simp [hsim])
      refine hQ.put he (by rfl) (by rfl) (by rfl) (by rfl) ?_
      intro tm1 l1 rcs1 p1 h1 h2
      refine ⟨tm1, l1, rcs1 i, [], ?_, rfl, ?_⟩
      · show t.algo = _
        rw [h1, List.append_nil]
        congr 1
        funext k
        simp only [upd]
        split_ifs with hk
        · rw [hk]
        · rfl
      · rw [simOk_held (by omega)] at h2
        exact (simOk_held (by show ¬ e.held = 0; omega)).2 ⟨h2.1, h2.2.1, by simp⟩
  | release hs0 he =>
    rename_i i d e
    have hlt := hQ.bound i e he
    obtain ⟨e1, he1, hh⟩ := hp
    rw [he] at he1
    cases he1
    have hheld := hh.resolve_left (by simp [hsim])
    refine ⟨{ t with
      algo := (.sim (if l then tm else tm + 1) true (upd rcs i (rcs i - 1 + (if d then 1 else 0)))
        ((p0 ++ p) ++ [⟨if d then .releaseDirty else .release, i, if l then tm else tm + 1⟩])) }, .unit, ?_,
      by simp [Op.asks], hQ.put he (by rfl) (by rfl) (by rfl) (by rfl) (ps' := _) ?_⟩
    · show (if i < t.nsb then _ else _) = _
      rw [if_pos hlt]
      unfold release
      rw [ha]
      rfl
    · intro tm1 l1 rcs1 p1 h1 h2
      rw [ha] at h1
      injection h1 with q1 q2 q3 q4
      have q4 := List.append_cancel_left q4
      subst q1 q2 q3 q4
      refine ⟨_, true, _, [_], by rw [List.append_assoc], ?_, simOk_release h2 hheld _⟩
      simp [Op.recorded]
  | deinit hs0 =>
    rename_i i
    obtain ⟨e, he, -⟩ := hp
    have hlt := hQ.bound i e he
    refine ⟨{ t with algo := .sim tm l (upd rcs i 0) ((p0 ++ p) ++ [⟨.deinit, i, tm⟩]) }, .unit, ?_,
      by simp [Op.asks], hQ.put he (by rfl) (by rfl) (by rfl) (by rfl) (ps' := _) ?_⟩
    · show (if i < t.nsb then _ else _) = _
      rw [if_pos hlt]
      unfold deinit
      rw [ha]
      rfl
    · intro tm1 l1 rcs1 p1 h1 h2
      rw [ha] at h1
      injection h1 with q1 q2 q3 q4
      have q4 := List.append_cancel_left q4
      subst q1 q2 q3 q4
      refine ⟨_, _, _, [_], by rw [List.append_assoc], ?_, ?_⟩
      · simp [Op.recorded]
      · simp [SimOk, Ent.blank]
  | init hs0 hx =>
    rename_i i x v
    obtain ⟨e, he, -⟩ := hp
    have hlt := hQ.bound i e he
    refine ⟨{ t with algo := .sim tm l (upd rcs i 1) ((p0 ++ p) ++ [⟨.init, i, tm⟩]) }, .unit, ?_,
      by simp [Op.asks], hQ.put he (e' := { (Ent.blank : Ent α) with cur := v }) (by rfl) (by rfl) (by rfl) (by rfl) ?_⟩
    · show (if i < t.nsb then _ else _) = _
      rw [if_pos hlt]
      unfold init
      rw [ha]
      rfl
    · intro tm1 l1 rcs1 p1 h1 h2
      rw [ha] at h1
      injection h1 with q1 q2 q3 q4
      have q4 := List.append_cancel_left q4
      subst q1 q2 q3 q4
      refine ⟨_, _, _, [_], by rw [List.append_assoc], ?_, ?_⟩
      · simp [Op.recorded]
      · have := hR.cinit x v (ext_mem hx)
        simp [SimOk, Ent.blank, this]
  | extractNone hs0 he hc =>
    rename_i i e
    have hlt := hQ.bound i e he
    obtain ⟨e1, he1, hh⟩ := hp
    rw [he] at he1
    cases he1
    have hheld := hh.resolve_left (by simp [hsim])
    have hself : sp.ents = (sp.put i (some e)).ents := sp_self he
    refine ⟨{ t with algo := .sim tm l (upd rcs i 0) ((p0 ++ p) ++ [⟨.extract, i, tm⟩]) }, .ext none, ?_,
      by simp [Op.asks], hQ.put he (e' := e) hself (by rfl) (by rfl) (by rfl) ?_⟩
    · show (if i < t.nsb then _ else _) = _
      rw [if_pos hlt]
      unfold extract
      rw [ha]
      rfl
    · intro tm1 l1 rcs1 p1 h1 h2
      rw [ha] at h1
      injection h1 with q1 q2 q3 q4
      have q4 := List.append_cancel_left q4
      subst q1 q2 q3 q4
      refine ⟨_, _, _, [_], by rw [List.append_assoc], ?_, ?_⟩
      · simp [Op.recorded]
      · simp [SimOk, hheld, hc]
  | extractSome hs0 he hc hnm =>
    rename_i i x e
    have hlt := hQ.bound i e he
    refine ⟨{ t with algo := .sim tm l (upd rcs i 0) ((p0 ++ p) ++ [⟨.extract, i, tm⟩]) }, .ext none, ?_,
      by simp [Op.asks], hQ.put he (e' := Ent.blank) (by rfl) (by rfl) (by rfl) (by rfl) ?_⟩
    · show (if i < t.nsb then _ else _) = _
      rw [if_pos hlt]
      unfold extract
      rw [ha]
      rfl
    · intro tm1 l1 rcs1 p1 h1 h2
      rw [ha] at h1
      injection h1 with q1 q2 q3 q4
      have q4 := List.append_cancel_left q4
      subst q1 q2 q3 q4
      refine ⟨_, _, _, [_], by rw [List.append_assoc], ?_, ?_⟩
      · simp [Op.recorded]
      · simp [SimOk, Ent.blank]
  | isInit hs0 he hb =>
    rename_i i e b
    have hlt := hQ.bound i e he
    refine ⟨t, .bool (isInit t i), if_pos hlt, fun _ => ?_, hQ.same (by rfl) (by rfl) (by rfl) (by rfl) (by rfl)⟩
    congr 1
    have h1 : isInit t i = decide (rcs i > 0) := by unfold isInit; rw [ha]
    rw [h1]
    have h2 := hok i e he
    have : b = true ↔ rcs i > 0 := by
      rw [hb]
      unfold SimOk at h2
      by_cases hh : e.held = 0
      · rw [if_pos hh] at h2
        exact h2.2.symm
      · rw [if_neg hh] at h2
        exact ⟨fun _ => by omega, fun _ => h2.2.2⟩
    cases b with
    | true => exact (decide_eq_true (this.1 rfl)).symm
    | false => exact (decide_eq_false fun hr => by simpa using this.2 hr).symm
  | timestep =>
    refine ⟨{ t with algo := .sim (tm + 1) l rcs (p0 ++ p) }, .unit, ?_, by simp [Op.asks], ?_⟩
    · show Out.ok (timestep t, _) = _
      unfold timestep
      rw [ha]
    · exact ⟨hQ.nsb, hQ.fsb, hQ.fsbnd, hQ.bound, tm + 1, l, rcs, p, rfl, by simp [Op.recorded, hps], hok, hdead⟩
  | flush => cases hpl
  | toLru => cases hpl
  | toLfd => cases hpl
  | toSim => cases hpl
  | newExt _ => exact ⟨_, _, rfl, by simp [Op.asks], hQ.same (by rfl) (by rfl) (by rfl) (by rfl) (by rfl)⟩
  | readExt _ => exact ⟨_, _, rfl, by simp [Op.asks], hQ.same (by rfl) (by rfl) (by rfl) (by rfl) (by rfl)⟩
  | writeExt => exact ⟨_, _, rfl, by simp [Op.asks], hQ.same (by rfl) (by rfl) (by rfl) (by rfl) (by rfl)⟩
  | delExt => exact ⟨_, _, rfl, by simp [Op.asks], hQ.same (by rfl) (by rfl) (by rfl) (by rfl) (by rfl)⟩

theorem sim_run {s s' : St α} {tr : List (Op α × Res α)} (h : Run c s tr s') : ∀ {sp sp' : Sp α} {t : St α} {p0 : List PEl} {ps : List (POp × Nat)},
    R c sp s [] → Accepts c.fill sp tr sp' → sp.sim = false → (∀ x ∈ tr, x.1.plain = true) → Q sp t p0 ps →
    ∃ tr' t', Run c t tr' t' ∧ Agree tr tr' ∧ Q sp' t' p0 (ps ++ tr.filterMap fun x => x.1.recorded) := by
  induction h with
  | nil s =>
    intro sp sp' t p0 ps hR ha hs hpl hQ
    cases ha
    exact ⟨[], t, .nil t, .nil, by simpa using hQ⟩
  | @cons _ _ _ o r tr hst _ ih =>
    intro sp sp' t p0 ps hR ha hs hpl hQ
    cases ha with
    | cons hp hpo ha =>
      have hpo0 := hpl (o, r) (by simp)
      obtain ⟨t', r', h1, h2, h3⟩ := sim_step hR hst hs hp hpo hpo0 hQ
      have hR1 : R c _ _ [] := accepts_run (.cons hst (.nil _)) hR (.cons hp hpo (.nil _))
      have hs1 := post_sim hpo (by intro hh; rw [hh] at hpo0; cases hpo0) hs
      obtain ⟨tr', t2, h4, h5, h6⟩ := ih hR1 ha hs1 (fun x hx => hpl x (List.mem_cons_of_mem _ hx)) h3
      refine ⟨(o, r') :: tr', t2, .cons h1 h4, .cons ⟨rfl, h2⟩ h5, ?_⟩
      rw [List.append_assoc] at h6
      have : (List.filterMap (fun x => x.1.recorded) ((o, r) :: tr)) = (o.recorded).toList ++ tr.filterMap fun x => x.1.recorded := by
        rw [List.filterMap_cons]
        cases o.recorded <;> rfl
      rw [this]
      exact h6

/-- **C57.** Take any moment when no block is acquired.  If an algorithm's calls can be made on the
real scheduler, they can be made in simulation mode with the same answers to
`allocate_swappable_block` and `is_initialized`, and simulation records exactly those calls that
matter for scheduling, in order. -/
theorem C57_simulation (junk : α) {tr0 tr : List (Op α × Res α)} {s0 s1 : St α} {sp0 sp1 : Sp α}
    (h0 : Run c (St.new c junk) tr0 s0) (ha0 : Accepts c.fill Sp.empty tr0 sp0) (hs : sp0.sim = false)
    (hfree : ∀ i, sp0.isHeld i = false)
    (h : Run c s0 tr s1) (ha : Accepts c.fill sp0 tr sp1) (hpl : ∀ x ∈ tr, x.1.plain = true) :
    ∃ tr' t, Run c (toSim s0) tr' t ∧ Agree tr tr' ∧
      (predOf t.algo).map (fun q => (q.op, q.sb)) = tr.filterMap fun x => x.1.recorded := by
  have hR := accepts_run h0 (new_R c junk) ha0
  have hQ : Q sp0 (toSim s0) [] [] := by
    refine ⟨hR.size.symm, hR.fsb, hR.fsbnd, fun i e hi => (hR.live i e hi).1, 0, false, _, [], rfl, rfl, fun i e hi => ?_, fun i hi hn => ?_⟩
    · obtain ⟨hlt, L⟩ := hR.live i e hi
      have hheld : e.held = 0 := by
        have := hfree i
        simp only [Sp.isHeld, hi] at this
        simpa using this
      unfold SimOk
      rw [if_pos hheld]
      have hinit : (s0.sbs i).isInitialized = true ↔ e.cur ≠ .uninit := by
        constructor
        · intro h1 h2
          obtain ⟨h3, h4⟩ := L.uninit0 hheld h2
          simp [SB.isInitialized, SB.isExternal, h3, h4] at h1
        · intro h1
          rcases L.init0 hheld h1 with h2 | h2
          · simp [SB.isInitialized, L.dirtyInt h2]
          · cases hdd : (s0.sbs i).dirty with
            | true => simp [SB.isInitialized, L.dirtyInt hdd]
            | false => simp [SB.isInitialized, SB.isExternal, h2, hdd]
      rw [← hinit]
      simp only [hlt, true_and]
      split
      · rename_i h1; simp [h1]
      · rename_i h1; simp [h1]
    · rw [hR.dead i hi hn]
      simp [SB.isInitialized, SB.isExternal, SB.blank]
  obtain ⟨tr', t, h1, h2, h3⟩ := sim_run h hR ha hs hpl hQ
  obtain ⟨tm, l, rcs, p, q1, q2, -⟩ := h3.algo
  refine ⟨tr', t, h1, h2, ?_⟩
  rw [q1]
  simpa [predOf] using q2

/-- **C57**: in simulation mode the calls on blocks touch neither internal nor external memory. -/
theorem C57_no_io {s s' : St α} {o : Op α} {r : Res α} (hsim : s.algo.isSim = true) (h : step c s o = .ok (s', r))
    (ho : match o with
      | .alloc | .free _ | .acquire .. | .read _ | .write .. | .release .. | .deinit _ | .init .. | .extract _ | .isInit _ | .timestep => True
      | _ => False) :
    s'.mem = s.mem ∧ s'.disk = s.disk ∧ s'.used = s.used ∧ s'.free = s.free ∧ s'.nalloc = s.nalloc ∧
      ∀ i, i < s.nsb → s'.sbs i = s.sbs i := by
  obtain ⟨tm, l, rcs, p, ha⟩ := sim_cases hsim
  have key : ∀ (X : Out (St α × Res α)) (b : Prop) [Decidable b], (if b then X else .ub) = .ok (s', r) → X = .ok (s', r) := by
    intro X b _ hX
    split at hX
    · exact hX
    · cases hX
  cases o with
  | alloc =>
    cases h
    unfold alloc
    cases s.freeSb with
    | nil =>
      refine ⟨rfl, rfl, rfl, rfl, rfl, fun i hi => ?_⟩
      show upd s.sbs s.nsb SB.blank i = _
      rw [upd_ne _ _ (by omega)]
    | cons x r => exact ⟨rfl, rfl, rfl, rfl, rfl, fun _ _ => rfl⟩
  | free i =>
    have := key _ _ h
    unfold freeBlock deinit at this
    rw [ha] at this
    cases this
    exact ⟨rfl, rfl, rfl, rfl, rfl, fun _ _ => rfl⟩
  | acquire i u =>
    have := key _ _ h
    unfold acquire at this
    rw [ha] at this
    cases this
    exact ⟨rfl, rfl, rfl, rfl, rfl, fun _ _ => rfl⟩
  | read i =>
    have := key _ _ h
    unfold readOp at this
    rw [ha] at this
    cases this
    exact ⟨rfl, rfl, rfl, rfl, rfl, fun _ _ => rfl⟩
  | write i v =>
    have := key _ _ h
    unfold writeOp at this
    rw [ha] at this
    cases this
    exact ⟨rfl, rfl, rfl, rfl, rfl, fun _ _ => rfl⟩
  | release i d =>
    have := key _ _ h
    unfold release at this
    rw [ha] at this
    cases this
    exact ⟨rfl, rfl, rfl, rfl, rfl, fun _ _ => rfl⟩
  | deinit i =>
    have := key _ _ h
    unfold deinit at this
    rw [ha] at this
    cases this
    exact ⟨rfl, rfl, rfl, rfl, rfl, fun _ _ => rfl⟩
  | init i x =>
    have := key _ _ h
    unfold init at this
    rw [ha] at this
    cases this
    exact ⟨rfl, rfl, rfl, rfl, rfl, fun _ _ => rfl⟩
  | extract i =>
    have := key _ _ h
    unfold extract at this
    rw [ha] at this
    cases this
    exact ⟨rfl, rfl, rfl, rfl, rfl, fun _ _ => rfl⟩
  | isInit i =>
    have := key _ _ h
    cases this
    exact ⟨rfl, rfl, rfl, rfl, rfl, fun _ _ => rfl⟩
  | timestep =>
    cases h
    unfold timestep
    rw [ha]
    exact ⟨rfl, rfl, rfl, rfl, rfl, fun _ _ => rfl⟩
  | _ => exact ho.elim

namespace Ex

/-- the same calls on the real scheduler and in simulation: block numbers and initialized-ness agree -/
example :
    results 2 [.alloc, .acquire 0 false, .write 0 5, .release 0 true, .alloc, .isInit 0, .isInit 1, .acquire 1 true, .write 1 6, .release 1 true,
      .isInit 1, .free 0, .alloc, .isInit 0] =
      .ok [.idx 0, .unit, .unit, .unit, .idx 1, .bool true, .bool false, .unit, .unit, .unit, .bool true, .unit, .idx 0, .bool false] ∧
    results 2 [.toSim, .alloc, .acquire 0 false, .write 0 5, .release 0 true, .alloc, .isInit 0, .isInit 1, .acquire 1 true, .write 1 6,
      .release 1 true, .isInit 1, .free 0, .alloc, .isInit 0] =
      .ok [.unit, .idx 0, .unit, .unit, .unit, .idx 1, .bool true, .bool false, .unit, .unit, .unit, .bool true, .unit, .idx 0, .bool false] := by
  decide +kernel

end Ex

end Stxxl.BlockSched
