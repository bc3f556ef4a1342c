import Verif.BlockSched.Misc

namespace Stxxl.BlockSched

variable {α : Type} {c : Cfg α} {sp : Sp α} {s : St α} {H : List Nat}

theorem blank_of {b : SB} (h1 : b.ext = none) (h2 : b.int = none) (h3 : b.dirty = false) (h4 : b.rc = 0) : b = SB.blank := by
  cases b
  simp only at h1 h2 h3 h4
  subst h1 h2 h3 h4
  rfl

theorem notSim_cases {a : Algo} (h : a.isSim = false) : a = .lru ∨ ∃ nu, a = .lfd nu := by
  cases a with
  | lru => exact Or.inl rfl
  | lfd nu => exact Or.inr ⟨nu, rfl⟩
  | sim => cases h

theorem sim_cases {a : Algo} (h : a.isSim = true) : ∃ t l r p, a = .sim t l r p := by
  cases a with
  | lru => cases h
  | lfd nu => cases h
  | sim t l r p => exact ⟨t, l, r, p, rfl⟩

theorem mem_client_filter {l : List (Nat × Content α)} {x y : Nat} {v : Content α} :
    (y, v) ∈ l.filter (fun z => z.1 ≠ x) ↔ (y, v) ∈ l ∧ y ≠ x := by
  simp [List.mem_filter]

theorem count_client_filter (l : List (Nat × Content α)) (x y : Nat) :
    ((l.filter (fun z => z.1 ≠ x)).map (·.1)).count y = if y = x then 0 else (l.map (·.1)).count y := by
  induction l with
  | nil => simp
  | cons z r ih =>
    by_cases hz : z.1 = x
    · rw [List.filter_cons_of_neg (by simp [hz]), ih, List.map_cons, List.count_cons, hz]
      by_cases h1 : y = x
      · simp [h1]
      · simp [h1, Ne.symm h1]
    · rw [List.filter_cons_of_pos (by simp [hz]), List.map_cons, List.map_cons, List.count_cons, List.count_cons, ih]
      by_cases h1 : y = x
      · have : (z.1 == y) = false := beq_eq_false_iff_ne.2 fun h2 => hz (h2.trans h1)
        simp [h1, hz]
      · simp [h1]

theorem R.clientNodup (h : R c sp s H) : (sp.client.map (·.1)).Nodup := (List.nodup_append'.1 h.extNodup).2.1

theorem ext_mem {x : Nat} {v : Content α} (h : sp.ext x = some v) : (x, v) ∈ sp.client := by
  unfold Sp.ext at h
  obtain ⟨z, h1, h2⟩ := Option.map_eq_some_iff.1 h
  have h3 := List.find?_some h1
  have h4 := List.mem_of_find?_eq_some h1
  have : z.1 = x := by simpa using h3
  rw [← this, ← h2]
  exact h4

theorem ext_exists {x : Nat} (h : x ∈ sp.client.map (·.1)) : ∃ v, sp.ext x = some v := by
  unfold Sp.ext
  cases hf : sp.client.find? (fun y => decide (y.1 = x)) with
  | some z => exact ⟨z.2, rfl⟩
  | none =>
    obtain ⟨z, h1, h2⟩ := List.mem_map.1 h
    have := List.find?_eq_none.1 hf z h1
    exact absurd h2 (by simpa using this)

theorem R.init (h : R c sp s []) {i x : Nat} {e : Ent α} {v : Content α} (hi : sp.ents i = some e) (hheld : e.held = 0) (hcur : e.cur = .uninit)
    (hx : sp.ext x = some v) (hs : sp.sim = false) :
    ∃ s', BlockSched.init s i x = .ok s' ∧
      R c { sp.put i (some { (Ent.blank : Ent α) with cur := v }) with client := sp.client.filter fun y => y.1 ≠ x } s' [] := by
  obtain ⟨hlt, L⟩ := h.live i e hi
  obtain ⟨hint, hext⟩ := L.uninit0 hheld hcur
  have hns : s.algo.isSim = false := by rw [h.sim]; exact hs
  have hni : (s.sbs i).isInitialized = false := by simp [SB.isInitialized, SB.isExternal, hint, hext]
  have hxm := ext_mem hx
  have hd : BlockSched.init s i x = .ok { s with sbs := upd s.sbs i { s.sbs i with ext := some x } } := by
    unfold BlockSched.init
    rcases notSim_cases hns with ha | ⟨nu, ha⟩ <;> rw [ha] <;> exact if_neg (by simp [hni])
  refine ⟨_, hd, ?_⟩
  have hdirty : (s.sbs i).dirty = false := by
    cases hd : (s.sbs i).dirty with
    | false => rfl
    | true => have := L.dirtyInt hd; rw [hint] at this; cases this
  have hvi := h.cinit x v hxm
  refine h.update hi (b' := { s.sbs i with ext := some x }) (put_ents _ _ _) rfl rfl rfl rfl rfl rfl h.pred
    (fun _ _ _ _ _ => rfl) (fun _ _ _ _ _ => rfl) (fun y w hy => h.cdisk y w (mem_client_filter.1 hy).1)
    (fun y w hy => h.cinit y w (mem_client_filter.1 hy).1) ?_ ?_ h.evnd ?_ h.cap ?_ h.und
  · exact {
      rc := by rw [show (({ s.sbs i with ext := some x } : SB)).rc = (s.sbs i).rc from rfl, L.rc, hheld]; rfl
      dirtyInt := L.dirtyInt
      heldInt := fun h2 => absurd h2 (by simp [Ent.blank])
      uninit0 := fun _ h2 => absurd h2 hvi
      init0 := fun _ _ => Or.inr rfl
      memOk := fun w m h2 h3 => by have h3 : (s.sbs i).int = some m := h3; rw [hint] at h3; cases h3
      marked := fun h2 => absurd h2 (by simp [Ent.blank])
      fresh := fun h2 => absurd h2 (by simp [Ent.blank])
      notfresh := fun h2 => absurd h2 (by simp [Ent.blank])
      diskOk := fun w d h2 _ _ h5 => by
        cases h5
        have h2 : v = .known w := h2
        exact h.cdisk x w (h2 ▸ hxm) }
  · intro j
    show j ∈ s.evict.map (·.2) ↔ _
    constructor
    · intro hj
      refine Or.inl ⟨fun hji => ?_, hj⟩
      rw [hji] at hj
      have := ((h.ev i).1 hj).2.1
      rw [hint] at this
      cases this
    · rintro (h2 | h2)
      · exact h2.2
      · have : (s.sbs i).int.isSome = true := h2.2.1
        rw [hint] at this
        cases this
  · refine List.perm_iff_count.2 fun y => ?_
    have h2 := List.perm_iff_count.1 h.intp y
    have h1 := ints_same (f := s.sbs) (b := { s.sbs i with ext := some x }) hlt rfl y
    simp only [List.count_append] at h2 ⊢
    rw [h1]
    exact h2
  · refine List.perm_iff_count.2 fun y => ?_
    have h2 := List.perm_iff_count.1 h.extp y
    have h3 := exts_upd s.sbs i s.nsb { s.sbs i with ext := some x } hlt y
    rw [hext] at h3
    have h4 := count_client_filter sp.client x y
    have h5 := List.nodup_iff_count_le_one.1 h.clientNodup x
    have h6 : 0 < List.count x (sp.client.map (·.1)) := List.count_pos_iff.2 (List.mem_map.2 ⟨_, hxm, rfl⟩)
    simp only [List.count_append, Option.toList, List.count_cons, List.count_nil] at h2 h3 ⊢
    rw [h4]
    by_cases hxy : x = y
    · subst hxy
      simp only [beq_self_eq_true, if_true] at h3 ⊢
      omega
    · simp only [beq_eq_false_iff_ne.2 hxy, Bool.false_eq_true, if_false, if_neg (Ne.symm hxy)] at h3 ⊢
      omega

theorem R.extract (h : R c sp s []) {i : Nat} {e : Ent α} (hi : sp.ents i = some e) (hheld : e.held = 0) (hs : sp.sim = false) :
    ∃ s', (e.cur = .uninit ∧ BlockSched.extract c s i = .ok (none, s') ∧ R c sp s' []) ∨
      (∃ x, e.cur ≠ .uninit ∧ BlockSched.extract c s i = .ok (some x, s') ∧ x ∉ sp.client.map (·.1) ∧
        R c { sp.put i (some Ent.blank) with client := (x, e.cur) :: sp.client } s' []) := by
  obtain ⟨hlt, L⟩ := h.live i e hi
  have hns : s.algo.isSim = false := by rw [h.sim]; exact hs
  have hrc : (s.sbs i).rc = 0 := by rw [L.rc]; exact hheld
  -- the block is in external memory only
  have hmid : ∃ s2, R c sp s2 [] ∧ (s2.sbs i).int = none ∧
      BlockSched.extract c s i = .ok ((s2.sbs i).ext, { s2 with sbs := upd s2.sbs i { s2.sbs i with ext := none } }) := by
    have hex : ∀ X : Out (St α), (if ((if (s.sbs i).isEvictable then { s with evict := eraseKey i s.evict } else s).sbs i).int.isSome then
          (detach c (if (s.sbs i).isEvictable then { s with evict := eraseKey i s.evict } else s) i).bind fun r => .ok (BlockSched.returnFree r.2 r.1)
        else .ok (if (s.sbs i).isEvictable then { s with evict := eraseKey i s.evict } else s)) = X →
        BlockSched.extract c s i = X.bind fun s2 => .ok ((s2.sbs i).ext, { s2 with sbs := upd s2.sbs i { s2.sbs i with ext := none } }) := by
      intro X hX
      rw [← hX]
      unfold BlockSched.extract
      rcases notSim_cases hns with ha | ⟨nu, ha⟩ <;> simp only [ha]
    cases hm : (s.sbs i).int with
    | none =>
      refine ⟨s, h, hm, ?_⟩
      have := hex (.ok s) (by simp [SB.isEvictable, hm])
      rw [this]
      rfl
    | some m =>
      have hmem : i ∈ s.evict.map (·.2) := (h.ev i).2 ⟨hlt, by simp [hm], hrc⟩
      obtain ⟨m', s', e1, e2, e3, e4, e5, e6, e7, e8⟩ := h.evictAt hmem (ev := eraseKey i s.evict) (fun k => mem_eraseKey) (eraseKey_nodup h.evnd)
      refine ⟨BlockSched.returnFree s' m', e2.returnFree rfl, e8, ?_⟩
      have := hex (.ok (BlockSched.returnFree s' m')) (by
        simp only [SB.isEvictable, hm, hrc, decide_true, Option.isSome_some, Bool.and_self, if_true]
        rw [e1]
        rfl)
      rw [this]
      rfl
  obtain ⟨s2, h2, hint, hex⟩ := hmid
  obtain ⟨hlt2, L2⟩ := h2.live i e hi
  have hrc2 : (s2.sbs i).rc = 0 := by rw [L2.rc]; exact hheld
  have hdirty : (s2.sbs i).dirty = false := by
    cases hd : (s2.sbs i).dirty with
    | false => rfl
    | true => have := L2.dirtyInt hd; rw [hint] at this; cases this
  have hevi : i ∉ s2.evict.map (·.2) := fun hj => by
    have := ((h2.ev i).1 hj).2.1
    rw [hint] at this
    cases this
  refine ⟨{ s2 with sbs := upd s2.sbs i { s2.sbs i with ext := none } }, ?_⟩
  by_cases hcur : e.cur = .uninit
  · left
    have hx := (L2.uninit0 hheld hcur).2
    rw [hx] at hex
    refine ⟨hcur, hex, ?_⟩
    have : upd s2.sbs i { s2.sbs i with ext := none } = s2.sbs := by
      funext k
      simp only [upd]
      split_ifs with hk
      · rw [hk, ← hx]
      · rfl
    rw [this]
    exact h2
  · right
    rcases L2.init0 hheld hcur with h3 | h3
    · rw [hdirty] at h3; cases h3
    · obtain ⟨x, hx⟩ := Option.isSome_iff_exists.1 h3
      rw [hx] at hex
      refine ⟨x, hcur, hex, h2.ext_client hlt2 hx, ?_⟩
      have hb : ({ s2.sbs i with ext := none } : SB) = SB.blank := blank_of rfl hint hdirty hrc2
      rw [hb]
      refine h2.update hi (b' := SB.blank) (put_ents _ _ _) rfl rfl rfl rfl rfl rfl h2.pred
        (fun _ _ _ _ _ => rfl) (fun _ _ _ _ _ => rfl) ?_ ?_ R.blankLocal ?_ h2.evnd ?_ h2.cap ?_ h2.und
      · intro y w hy
        rcases List.mem_cons.1 hy with hy | hy
        · obtain ⟨hy1, hy2⟩ := Prod.mk.inj hy
          rw [hy1]
          exact L2.diskOk w x hy2.symm (Or.inl hheld) hdirty hx
        · exact h2.cdisk y w hy
      · intro y w hy
        rcases List.mem_cons.1 hy with hy | hy
        · obtain ⟨hy1, hy2⟩ := Prod.mk.inj hy
          rw [hy2]
          exact hcur
        · exact h2.cinit y w hy
      · intro j
        show j ∈ s2.evict.map (·.2) ↔ _
        constructor
        · intro hj
          exact Or.inl ⟨fun hji => hevi (hji ▸ hj), hj⟩
        · rintro (h4 | h4)
          · exact h4.2
          · exact absurd h4.2.1 (by simp [SB.blank])
      · refine List.perm_iff_count.2 fun y => ?_
        have h4 := List.perm_iff_count.1 h2.intp y
        have h5 := ints_same (f := s2.sbs) (b := SB.blank) hlt2 (by rw [hint]; rfl) y
        simp only [List.count_append] at h4 ⊢
        rw [h5]
        exact h4
      · refine List.perm_iff_count.2 fun y => ?_
        have h4 := List.perm_iff_count.1 h2.extp y
        have h5 := exts_upd s2.sbs i s2.nsb SB.blank hlt2 y
        rw [hx] at h5
        simp only [List.count_append, Option.toList, List.count_cons, List.count_nil, List.map_cons, SB.blank] at h4 h5 ⊢
        omega

theorem R.writeReal (h : R c sp s []) {i m : Nat} {e : Ent α} (hi : sp.ents i = some e) (hheld : e.held > 0) (hm : (s.sbs i).int = some m) (v : α) :
    R c (sp.put i (some { e with cur := .known v, changed := true })) { s with mem := upd s.mem m v } [] := by
  obtain ⟨hlt, L⟩ := h.live i e hi
  have hself : s.sbs = upd s.sbs i (s.sbs i) := by
    funext k
    simp only [upd]
    split_ifs with hk
    · rw [hk]
    · rfl
  refine h.update hi (b' := s.sbs i) (put_ents _ _ _) rfl rfl hself rfl rfl rfl h.pred
    ?_ (fun _ _ _ _ _ => rfl) h.cdisk h.cinit ?_ ?_ h.evnd h.intp h.cap h.extp h.und
  · intro j m' hj hjl hjm
    refine upd_ne _ _ fun hmm => ?_
    rw [hmm] at hjm
    exact hj (h.int_inj hjl hlt hjm hm)
  · exact { L with
      heldInt := fun h1 => ⟨(L.heldInt h1).1, by simp⟩
      uninit0 := fun _ h2 => absurd h2 (by simp)
      init0 := fun h1 => absurd h1 (by show e.held ≠ 0; omega)
      memOk := fun w m' h1 h2 => by
        cases h1
        have : m' = m := by rw [hm] at h2; cases h2; rfl
        rw [this]
        exact upd_same _ _ _
      diskOk := fun w d _ h2 => by
        rcases h2 with h2 | h2
        · have : e.held = 0 := h2
          omega
        · cases h2 }
  · intro j
    show j ∈ s.evict.map (·.2) ↔ _
    by_cases hji : j = i
    · rw [hji, h.ev i]
      simp [hlt]
    · simp [hji]

theorem ints_length (f : Nat → SB) : ∀ n, (ints f n).length = (List.range n).countP fun i => (f i).int.isSome
  | 0 => rfl
  | n + 1 => by
    have := ints_length f n
    unfold ints at this ⊢
    rw [List.range_succ, List.filterMap_append, List.length_append, List.countP_append, this]
    cases h : (f n).int <;> simp [h]

/-- without free memory and evictable blocks all blocks are acquired -/
theorem R.full (h : R c sp s []) (hf : s.free = []) (hr : s.remaining = 0) (he : s.evict = []) : sp.heldBlocks = c.maxBlocks := by
  have h1 := h.intp.length_eq
  rw [hf] at h1
  simp only [List.nil_append, List.length_range] at h1
  have hc := h.cap
  unfold Sp.heldBlocks
  rw [h.size]
  rw [ints_length] at h1
  have : (List.range s.nsb).countP sp.isHeld = (List.range s.nsb).countP fun i => (s.sbs i).int.isSome := by
    refine List.countP_congr fun i hi => ?_
    have hlt := List.mem_range.1 hi
    unfold Sp.isHeld
    cases hei : sp.ents i with
    | none =>
      rw [h.dead i hlt hei]
      simp [SB.blank]
    | some e =>
      obtain ⟨-, L⟩ := h.live i e hei
      constructor
      · intro h2
        exact (L.heldInt (by simpa using h2)).1
      · intro h2
        have := mt (h.ev i).2
        rw [he] at this
        have h3 : ¬ (s.sbs i).rc = 0 := fun h3 => this (by simp) ⟨hlt, h2, h3⟩
        rw [L.rc] at h3
        simp
        omega
  omega

/-- **Every call refines the table.** -/
theorem step_refines (h : R c sp s []) (o : Op α) (hp : sp.pre o) :
    (∃ s' r sp', step c s o = .ok (s', r) ∧ Sp.Post c.fill sp o r sp' ∧ R c sp' s' []) ∨
    (step c s o = .oom ∧ ∃ i u, o = .acquire i u ∧ sp.heldBlocks = c.maxBlocks) := by
  have hsimb : sp.sim = true ∨ sp.sim = false := by cases sp.sim <;> simp
  -- record in the simulation
  have simrec : sp.sim = true → ∀ (t : Nat) (l : Bool) (r : Nat → Int) (p : List PEl) (dm : α), (∀ q ∈ p, q.sb < s.nsb) →
      R c sp { s with algo := .sim t l r p, dummy := dm } [] := fun hs t l r p dm hq =>
    { h with sim := by show true = sp.sim; exact hs.symm, pred := hq }
  cases o with
  | alloc =>
    left
    obtain ⟨h1, h2⟩ := h.alloc
    exact ⟨_, _, _, rfl, .alloc h1, h2⟩
  | free i =>
    left
    obtain ⟨e, hi, hheld, hsu⟩ := hp
    obtain ⟨hlt, L⟩ := h.live i e hi
    rcases hsimb with hs | hs
    · obtain ⟨t, l, rc, p, ha⟩ := sim_cases (h.sim.trans hs)
      have hd : BlockSched.deinit s i = .ok { s with algo := .sim t l (upd rc i 0) (p ++ [⟨.deinit, i, t⟩]) } := by
        unfold BlockSched.deinit
        rw [ha]
      have hpr : ∀ q ∈ p ++ [⟨.deinit, i, t⟩], q.sb < s.nsb := fun q hq => by
        rcases List.mem_append.1 hq with hq | hq
        · exact h.pred q (by rw [ha]; exact hq)
        · rw [List.mem_singleton.1 hq]; exact hlt
      have h1 := simrec hs t l (upd rc i 0) _ s.dummy hpr
      have hcur := hsu hs
      obtain ⟨hint, hext⟩ := L.uninit0 hheld hcur
      have hdirty : (s.sbs i).dirty = false := by
        cases hd : (s.sbs i).dirty with
        | false => rfl
        | true => have := L.dirtyInt hd; rw [hint] at this; cases this
      have hb : s.sbs i = SB.blank := blank_of hext hint hdirty (L.rc.trans hheld)
      refine ⟨_, .unit, sp.put i none, ?_, .free, h1.forget hi hb⟩
      show (if i < s.nsb then _ else _) = _
      rw [if_pos hlt, freeBlock, hd]
      rfl
    · obtain ⟨s', h1, h2, h3, h4, h5, h6⟩ := h.deinit hi hheld hs
      refine ⟨{ s' with freeSb := i :: s'.freeSb }, .unit, sp.put i none, ?_, .free, ?_⟩
      · show (if i < s.nsb then _ else _) = _
        rw [if_pos hlt, freeBlock, h1]
        rfl
      · have := h2.forget (i := i) (e := Ent.blank) (by simp [Sp.put]) h4
        have hpp : (sp.put i (some Ent.blank)).put i none = sp.put i none := by
          simp only [Sp.put, Sp.mk.injEq, and_true]
          funext k
          split_ifs <;> rfl
        rw [hpp] at this
        exact this
  | acquire i u =>
    obtain ⟨e, hi⟩ := hp
    obtain ⟨hlt, L⟩ := h.live i e hi
    have hst : step c s (.acquire i u) = (BlockSched.acquire c s i u).bind fun s' => .ok (s', .unit) := if_pos hlt
    rw [hst]
    rcases hsimb with hs | hs
    · left
      obtain ⟨t, l, rc, p, ha⟩ := sim_cases (h.sim.trans hs)
      have hd : BlockSched.acquire c s i u = .ok { s with algo := (.sim t false (upd rc i (rc i + 1))
          (p ++ [⟨if u then .acquireUninit else .acquire, i, t⟩])) } := by
        unfold BlockSched.acquire
        rw [ha]
      rw [hd]
      refine ⟨_, _, sp, rfl, .simulated hs trivial, simrec hs _ _ _ _ s.dummy fun q hq => ?_⟩
      rcases List.mem_append.1 hq with hq | hq
      · exact h.pred q (by rw [ha]; exact hq)
      · rw [List.mem_singleton.1 hq]; exact hlt
    · have hns : s.algo.isSim = false := by rw [h.sim]; exact hs
      have hd : BlockSched.acquire c s i u = BlockSched.acquireReal c s i u := by
        unfold BlockSched.acquire
        rcases notSim_cases hns with ha | ⟨nu, ha⟩ <;> rw [ha]
      rw [hd]
      rcases h.acquireReal hi u with ⟨s', h1, h2, -⟩ | ⟨h1, hf, hr, hev⟩
      · left
        rw [h1]
        exact ⟨_, _, _, rfl, .acquire hs hi, h2⟩
      · right
        rw [h1]
        exact ⟨rfl, i, u, rfl, h.full hf hr hev⟩
  | read i =>
    left
    obtain ⟨e, hi, hh⟩ := hp
    obtain ⟨hlt, L⟩ := h.live i e hi
    rw [show step c s (.read i) = readOp s i from if_pos hlt]
    rcases hsimb with hs | hs
    · obtain ⟨t, l, rc, p, ha⟩ := sim_cases (h.sim.trans hs)
      refine ⟨s, .val s.dummy, sp, ?_, .simulated hs trivial, h⟩
      unfold readOp
      rw [ha]
    · have hheld := hh.resolve_left (by simp [hs])
      have hns : s.algo.isSim = false := by rw [h.sim]; exact hs
      obtain ⟨m, hm⟩ := Option.isSome_iff_exists.1 (L.heldInt hheld).1
      refine ⟨s, .val (s.mem m), sp, ?_, .read hs hi (fun w hw => L.memOk w m hw hm), h⟩
      unfold readOp
      have hrc : ¬ (s.sbs i).rc = 0 := by rw [L.rc]; omega
      rcases notSim_cases hns with ha | ⟨nu, ha⟩ <;> simp only [ha, hm, if_neg hrc]
  | write i v =>
    left
    obtain ⟨e, hi, hh⟩ := hp
    obtain ⟨hlt, L⟩ := h.live i e hi
    rw [show step c s (.write i v) = writeOp s i v from if_pos hlt]
    rcases hsimb with hs | hs
    · obtain ⟨t, l, rc, p, ha⟩ := sim_cases (h.sim.trans hs)
      have h1 := simrec hs t l rc p v (fun q hq => h.pred q (by rw [ha]; exact hq))
      rw [← ha] at h1
      refine ⟨_, _, sp, ?_, .simulated (r := .unit) hs trivial, h1⟩
      unfold writeOp
      rw [ha]
    · have hheld := hh.resolve_left (by simp [hs])
      have hns : s.algo.isSim = false := by rw [h.sim]; exact hs
      obtain ⟨m, hm⟩ := Option.isSome_iff_exists.1 (L.heldInt hheld).1
      refine ⟨_, _, _, ?_, .write hs hi, h.writeReal hi hheld hm v⟩
      unfold writeOp
      have hrc : ¬ (s.sbs i).rc = 0 := by rw [L.rc]; omega
      rcases notSim_cases hns with ha | ⟨nu, ha⟩ <;> simp only [ha, hm, if_neg hrc]
  | release i d =>
    left
    obtain ⟨e, hi, hh⟩ := hp
    obtain ⟨hlt, L⟩ := h.live i e hi
    have hst : step c s (.release i d) = (BlockSched.release c s i d).bind fun s' => .ok (s', .unit) := if_pos hlt
    rw [hst]
    rcases hsimb with hs | hs
    · obtain ⟨t, l, rc, p, ha⟩ := sim_cases (h.sim.trans hs)
      have hd : BlockSched.release c s i d = .ok { s with
          algo := (.sim (if l then t else t + 1) true (upd rc i (rc i - 1 + (if d then 1 else 0)))
            (p ++ [⟨if d then .releaseDirty else .release, i, if l then t else t + 1⟩])) } := by
        unfold BlockSched.release
        rw [ha]
      rw [hd]
      refine ⟨_, _, sp, rfl, .simulated hs trivial, simrec hs _ _ _ _ s.dummy fun q hq => ?_⟩
      rcases List.mem_append.1 hq with hq | hq
      · exact h.pred q (by rw [ha]; exact hq)
      · rw [List.mem_singleton.1 hq]; exact hlt
    · have hheld := hh.resolve_left (by simp [hs])
      have hns : s.algo.isSim = false := by rw [h.sim]; exact hs
      suffices hk : ∃ s', BlockSched.release c s i d = .ok s' ∧ R c (sp.put i (some (e.release d))) s' [] by
        obtain ⟨s', h1, h2⟩ := hk
        rw [h1]
        exact ⟨_, _, _, rfl, .release hs hi, h2⟩
      rcases notSim_cases hns with ha | ⟨nu, ha⟩
      · obtain ⟨s', h1, h2, -⟩ := h.releaseReal hi hheld d (ins := fun s1 => s1.evict ++ [(0, i)]) (fun _ => 0) (fun _ => rfl)
        refine ⟨s', ?_, h2⟩
        unfold BlockSched.release releaseLru
        rw [ha]
        exact h1
      · cases nu with
        | nil =>
          have hlru := h.toLru
          rw [sp_sim_self hs] at hlru
          obtain ⟨s', h1, h2, -⟩ := hlru.releaseReal hi hheld d (ins := fun s1 => s1.evict ++ [(0, i)]) (fun _ => 0) (fun _ => rfl)
          refine ⟨s', ?_, h2⟩
          unfold BlockSched.release releaseLru
          rw [ha]
          exact h1
        | cons t nu =>
          obtain ⟨s', h1, h2, -⟩ := h.releaseReal hi hheld d (ins := fun s1 => s1.evict ++ [(prio (s1.sbs i) t, i)])
            (fun s1 => prio (s1.sbs i) t) (fun _ => rfl)
          refine ⟨{ s' with algo := .lfd nu }, ?_, h2.algo (by show false = sp.sim; exact hs.symm) (by simp [predOf])⟩
          unfold BlockSched.release
          rw [ha]
          dsimp only
          rw [h1]
          rfl
  | deinit i =>
    left
    obtain ⟨e, hi, hh⟩ := hp
    obtain ⟨hlt, L⟩ := h.live i e hi
    have hst : step c s (.deinit i) = (BlockSched.deinit s i).bind fun s' => .ok (s', .unit) := if_pos hlt
    rw [hst]
    rcases hsimb with hs | hs
    · obtain ⟨t, l, rc, p, ha⟩ := sim_cases (h.sim.trans hs)
      have hd : BlockSched.deinit s i = .ok { s with algo := .sim t l (upd rc i 0) (p ++ [⟨.deinit, i, t⟩]) } := by
        unfold BlockSched.deinit
        rw [ha]
      rw [hd]
      refine ⟨_, _, sp, rfl, .simulated hs trivial, simrec hs _ _ _ _ s.dummy fun q hq => ?_⟩
      rcases List.mem_append.1 hq with hq | hq
      · exact h.pred q (by rw [ha]; exact hq)
      · rw [List.mem_singleton.1 hq]; exact hlt
    · obtain ⟨s', h1, h2, -⟩ := h.deinit hi (hh.resolve_left (by simp [hs])) hs
      rw [h1]
      exact ⟨_, _, _, rfl, .deinit hs, h2⟩
  | init i x =>
    left
    obtain ⟨e, hi, hh⟩ := hp
    obtain ⟨hlt, L⟩ := h.live i e hi
    have hst : step c s (.init i x) = (BlockSched.init s i x).bind fun s' => .ok (s', .unit) := if_pos hlt
    rw [hst]
    rcases hsimb with hs | hs
    · obtain ⟨t, l, rc, p, ha⟩ := sim_cases (h.sim.trans hs)
      have hd : BlockSched.init s i x = .ok { s with algo := .sim t l (upd rc i 1) (p ++ [⟨.init, i, t⟩]) } := by
        unfold BlockSched.init
        rw [ha]
      rw [hd]
      refine ⟨_, _, sp, rfl, .simulated hs trivial, simrec hs _ _ _ _ s.dummy fun q hq => ?_⟩
      rcases List.mem_append.1 hq with hq | hq
      · exact h.pred q (by rw [ha]; exact hq)
      · rw [List.mem_singleton.1 hq]; exact hlt
    · obtain ⟨h1, h2, h3⟩ := hh.resolve_left (by simp [hs])
      obtain ⟨v, hv⟩ := ext_exists h3
      obtain ⟨s', h4, h5⟩ := h.init hi h1 h2 hv hs
      rw [h4]
      exact ⟨_, _, _, rfl, .init hs hv, h5⟩
  | extract i =>
    left
    obtain ⟨e, hi, hh⟩ := hp
    obtain ⟨hlt, L⟩ := h.live i e hi
    have hst : step c s (.extract i) = (BlockSched.extract c s i).bind fun r => .ok (r.2, .ext r.1) := if_pos hlt
    rw [hst]
    rcases hsimb with hs | hs
    · obtain ⟨t, l, rc, p, ha⟩ := sim_cases (h.sim.trans hs)
      have hd : BlockSched.extract c s i = .ok (none, { s with algo := .sim t l (upd rc i 0) (p ++ [⟨.extract, i, t⟩]) }) := by
        unfold BlockSched.extract
        rw [ha]
      rw [hd]
      refine ⟨_, _, sp, rfl, .simulated hs trivial, simrec hs _ _ _ _ s.dummy fun q hq => ?_⟩
      rcases List.mem_append.1 hq with hq | hq
      · exact h.pred q (by rw [ha]; exact hq)
      · rw [List.mem_singleton.1 hq]; exact hlt
    · obtain ⟨s', h1 | ⟨x, h1, h2, h3, h4⟩⟩ := h.extract hi (hh.resolve_left (by simp [hs])) hs
      · rw [h1.2.1]
        exact ⟨_, _, _, rfl, .extractNone hs hi h1.1, h1.2.2⟩
      · rw [h2]
        exact ⟨_, _, _, rfl, .extractSome hs hi h1 h3, h4⟩
  | isInit i =>
    left
    obtain ⟨e, hi⟩ := hp
    obtain ⟨hlt, L⟩ := h.live i e hi
    rw [show step c s (.isInit i) = .ok (s, .bool (isInit s i)) from if_pos hlt]
    rcases hsimb with hs | hs
    · exact ⟨_, _, sp, rfl, .simulated hs trivial, h⟩
    · refine ⟨_, _, sp, rfl, .isInit hs hi ?_, h⟩
      have hns : s.algo.isSim = false := by rw [h.sim]; exact hs
      have : isInit s i = (s.sbs i).isInitialized := by
        unfold isInit
        rcases notSim_cases hns with ha | ⟨nu, ha⟩ <;> rw [ha]
      rw [this]
      by_cases hheld : e.held = 0
      · constructor
        · intro h1 h2
          obtain ⟨h3, h4⟩ := L.uninit0 hheld h2
          simp [SB.isInitialized, SB.isExternal, h3, h4] at h1
        · intro h1
          rcases L.init0 hheld h1 with h2 | h2
          · simp [SB.isInitialized, L.dirtyInt h2]
          · cases hdd : (s.sbs i).dirty with
            | true => simp [SB.isInitialized, L.dirtyInt hdd]
            | false => simp [SB.isInitialized, SB.isExternal, h2, hdd]
      · obtain ⟨h1, h2⟩ := L.heldInt (by omega)
        simp [SB.isInitialized, h1, h2]
  | timestep =>
    left
    refine ⟨_, _, sp, rfl, .timestep, ?_⟩
    unfold timestep
    cases ha : s.algo with
    | lru => exact h
    | lfd nu => exact h
    | sim t l r p =>
      exact h.algo (by rw [← h.sim, ha]; rfl) (fun q hq => h.pred q (by rw [ha]; exact hq))
  | flush =>
    left
    obtain ⟨s', h1, h2, -⟩ := h.flush
    refine ⟨s', .unit, sp, ?_, .flush, h2⟩
    show (BlockSched.flush c s).bind _ = _
    rw [h1]
    rfl
  | toLru => left; exact ⟨_, _, _, rfl, .toLru, h.toLru⟩
  | toLfd p =>
    left
    refine ⟨_, _, _, ?_, .toLfd, h.toLfd (p.getD (predOf s.algo))⟩
    refine if_pos (List.all_eq_true.2 fun q hq => decide_eq_true ?_)
    cases p with
    | none => exact h.pred q hq
    | some p => rw [← h.size]; exact hp q hq
  | toSim => left; exact ⟨_, _, _, rfl, .toSim, h.toSim⟩
  | newExt v =>
    left
    have hfr := c.pick_fresh s.used
    have hncl : c.pick s.used ∉ sp.client.map (·.1) := fun hc => hfr (h.extp.mem_iff.2 (List.mem_append_right _ hc))
    refine ⟨_, _, _, rfl, .newExt hncl, ?_⟩
    exact { h with
      live := fun i e hi => by
        obtain ⟨h1, L⟩ := h.live i e hi
        refine ⟨h1, { L with diskOk := fun w d h2 h3 h4 h5 => ?_ }⟩
        have : d ≠ c.pick s.used := fun hd => hfr (hd ▸ h.ext_used h1 h5)
        dsimp only
        rw [upd_ne _ _ this]
        exact L.diskOk w d h2 h3 h4 h5
      extp := by
        refine List.perm_iff_count.2 fun y => ?_
        have h4 := List.perm_iff_count.1 h.extp y
        simp only [List.count_append, List.count_cons, List.map_cons] at h4 ⊢
        omega
      und := List.nodup_cons.2 ⟨hfr, h.und⟩
      cdisk := fun y w hy => by
        rcases List.mem_cons.1 hy with hy | hy
        · cases hy
          exact upd_same _ _ _
        · have : y ≠ c.pick s.used := fun hd => hncl (List.mem_map.2 ⟨_, hy, hd⟩)
          dsimp only
          rw [upd_ne _ _ this]
          exact h.cdisk y w hy
      cinit := fun y w hy => by
        rcases List.mem_cons.1 hy with hy | hy
        · cases hy; simp
        · exact h.cinit y w hy }
  | readExt x => left; exact ⟨_, _, _, rfl, .readExt (fun w hw => h.cdisk x w (ext_mem hw)), h⟩
  | writeExt x v =>
    left
    refine ⟨_, _, _, rfl, .writeExt, ?_⟩
    have hp : x ∈ sp.client.map (·.1) := hp
    exact { h with
      live := fun i e hi => by
        obtain ⟨h1, L⟩ := h.live i e hi
        refine ⟨h1, { L with diskOk := fun w d h2 h3 h4 h5 => ?_ }⟩
        have : d ≠ x := fun hd => h.ext_client h1 h5 (hd ▸ hp)
        dsimp only
        rw [upd_ne _ _ this]
        exact L.diskOk w d h2 h3 h4 h5
      extp := by
        refine List.perm_iff_count.2 fun y => ?_
        have h4 := List.perm_iff_count.1 h.extp y
        have h6 := count_client_filter sp.client x y
        have h5 := List.nodup_iff_count_le_one.1 h.clientNodup x
        have h7 : 0 < List.count x (sp.client.map (·.1)) := List.count_pos_iff.2 hp
        simp only [List.count_append, List.count_cons, List.map_cons] at h4 ⊢
        rw [h6]
        by_cases hxy : x = y
        · subst hxy
          simp only [beq_self_eq_true, if_true]
          omega
        · simp only [beq_eq_false_iff_ne.2 hxy, Bool.false_eq_true, if_false, if_neg (Ne.symm hxy)]
          omega
      cdisk := fun y w hy => by
        rcases List.mem_cons.1 hy with hy | hy
        · cases hy
          exact upd_same _ _ _
        · obtain ⟨h1, h2⟩ := mem_client_filter.1 hy
          dsimp only
          rw [upd_ne _ _ h2]
          exact h.cdisk y w h1
      cinit := fun y w hy => by
        rcases List.mem_cons.1 hy with hy | hy
        · cases hy; simp
        · exact h.cinit y w (mem_client_filter.1 hy).1 }
  | delExt x =>
    left
    refine ⟨_, _, _, rfl, .delExt, ?_⟩
    have hp : x ∈ sp.client.map (·.1) := hp
    exact { h with
      extp := by
        refine List.perm_iff_count.2 fun y => ?_
        have h4 := List.perm_iff_count.1 h.extp y
        have h6 := count_client_filter sp.client x y
        have h5 := List.nodup_iff_count_le_one.1 h.clientNodup x
        have h7 : 0 < List.count x (sp.client.map (·.1)) := List.count_pos_iff.2 hp
        simp only [List.count_append, List.count_erase] at h4 ⊢
        rw [h6]
        by_cases hxy : x = y
        · subst hxy
          simp only [beq_self_eq_true, if_true]
          omega
        · simp only [beq_eq_false_iff_ne.2 hxy, Bool.false_eq_true, if_false, if_neg (Ne.symm hxy)]
          omega
      und := h.und.erase _
      cdisk := fun y w hy => h.cdisk y w (mem_client_filter.1 hy).1
      cinit := fun y w hy => h.cinit y w (mem_client_filter.1 hy).1 }

end Stxxl.BlockSched
