import Verif.BlockSched.Sim
import Mathlib.Tactic.ByContra

/-!
# Which block is evicted (C58)

A block is evicted when it is in internal memory before a call and no longer afterwards, without being
deinitialized or extracted.
-/

namespace Stxxl.BlockSched

variable {α : Type} {c : Cfg α}

/-- in internal memory -/
def St.inMem (s : St α) (k : Nat) : Prop := k < s.nsb ∧ (s.sbs k).int.isSome = true
/-- not acquired -/
def St.idle (s : St α) (k : Nat) : Prop := (s.sbs k).rc = 0

/-- `acquire i` throws block `j` out of internal memory, and `k` might have been thrown out instead -/
structure Evicts (s s' : St α) (j k : Nat) : Prop where
  before : s.inMem j
  after : ¬ s'.inMem j
  other : s'.inMem k
  idle : s'.idle k

/-- a release of block `i` -/
def Op.isRelease (i : Nat) : Op α → Bool
  | .release j _ => decide (j = i)
  | _ => false

/-- a release of `k` came after the last release of `j` -/
def ReleasedSince (tr : List (Op α × Res α)) (j k : Nat) : Prop :=
  ∃ tr1 x tr2, tr = tr1 ++ x :: tr2 ∧ x.1.isRelease j = true ∧ (∀ y ∈ tr2, y.1.isRelease j = false) ∧ ∃ y ∈ tr2, y.1.isRelease k = true

/-! ## What the calls do to the queue of evictable blocks -/

/-- calls that leave the policy as it is -/
def Op.keeps : Op α → Bool
  | .toLru | .toLfd _ | .toSim => false
  | _ => true

theorem clean_queue (s : St α) (i : Nat) : (clean c s i).evict = s.evict ∧ (clean c s i).algo = s.algo ∧ (clean c s i).nsb = s.nsb := by
  unfold clean
  dsimp only
  split <;> exact ⟨rfl, rfl, rfl⟩

theorem detach_queue {s s' : St α} {i m : Nat} (h : detach c s i = .ok (m, s')) :
    s'.evict = s.evict ∧ s'.algo = s.algo ∧ s'.nsb = s.nsb ∧ ∀ k, k ≠ i → s'.sbs k = s.sbs k := by
  unfold detach at h
  split at h
  · cases h
  · dsimp only at h
    split at h
    · cases h
      obtain ⟨h1, h2, h3⟩ := clean_queue (c := c) s i
      exact ⟨h1, h2, h3, fun k hk => by show upd _ _ _ k = _; rw [upd_ne _ _ hk, clean_sbs_ne _ hk]⟩
    · cases h

theorem popEvict_queue {s s' : St α} {j : Nat} (h : popEvict s = some (j, s')) : s'.evict.Sublist s.evict ∧ s' = { s with evict := s'.evict } := by
  unfold popEvict at h
  split at h
  · cases h
  · rename_i x r hx
    split at h
    · cases h
      exact ⟨by rw [hx]; exact List.filter_sublist, rfl⟩
    · cases h
      exact ⟨by rw [hx]; exact List.sublist_cons_self _ _, rfl⟩

/-- the effect of `get_free_internal_block` on the queue: nothing, or one block is popped and detached -/
theorem getFree_queue {s s' : St α} {m : Nat} (h : getFree c s = .ok (m, s')) : s'.algo = s.algo ∧ s'.nsb = s.nsb ∧
    ((s'.evict = s.evict ∧ s'.sbs = s.sbs) ∨
      ∃ j s1, popEvict s = some (j, s1) ∧ s'.evict = s1.evict ∧ ∀ k, k ≠ j → s'.sbs k = s.sbs k) := by
  unfold getFree at h
  split at h
  · rename_i r hr
    cases h
    unfold getFreeBs at hr
    split at hr
    · cases hr; exact ⟨rfl, rfl, Or.inl ⟨rfl, rfl⟩⟩
    · split at hr
      · cases hr; exact ⟨rfl, rfl, Or.inl ⟨rfl, rfl⟩⟩
      · cases hr
  · split at h
    · cases h
    · rename_i j s1 hp
      obtain ⟨h1, h2, h3, h4⟩ := detach_queue h
      obtain ⟨-, h5⟩ := popEvict_queue hp
      rw [h5] at h2 h3 h4
      exact ⟨h2, h3, Or.inr ⟨j, s1, hp, h1, h4⟩⟩

theorem acquireReal_queue {s s' : St α} {i : Nat} {u : Bool} (h : acquireReal c s i u = .ok s') : s'.algo = s.algo ∧ s'.nsb = s.nsb ∧
    ((s'.evict.Sublist s.evict ∧ ∀ k, k ≠ i → s'.sbs k = s.sbs k) ∨
      ∃ j s1, popEvict s = some (j, s1) ∧ s'.evict = s1.evict ∧ ∀ k, k ≠ i → k ≠ j → s'.sbs k = s.sbs k) := by
  unfold acquireReal at h
  dsimp only at h
  split at h
  · cases h
    split
    · exact ⟨rfl, rfl, Or.inl ⟨List.filter_sublist, fun k hk => upd_ne _ _ hk⟩⟩
    · exact ⟨rfl, rfl, Or.inl ⟨List.Sublist.refl _, fun k hk => upd_ne _ _ hk⟩⟩
  · have main : ∀ (f : Nat × St α → Out (St α)), (∀ m s1 s2, f (m, s1) = .ok s2 → s2.algo = s1.algo ∧ s2.nsb = s1.nsb ∧ s2.evict = s1.evict ∧
        ∀ k, k ≠ i → s2.sbs k = s1.sbs k) → (getFree c s).bind f = .ok s' →
        s'.algo = s.algo ∧ s'.nsb = s.nsb ∧ ((s'.evict.Sublist s.evict ∧ ∀ k, k ≠ i → s'.sbs k = s.sbs k) ∨
        ∃ j s1, popEvict s = some (j, s1) ∧ s'.evict = s1.evict ∧ ∀ k, k ≠ i → k ≠ j → s'.sbs k = s.sbs k) := by
      intro f hf hb
      cases hg : getFree c s with
      | oom => rw [hg] at hb; cases hb
      | ub => rw [hg] at hb; cases hb
      | ok r =>
        rw [hg] at hb
        obtain ⟨m, s1⟩ := r
        obtain ⟨h1, h2, h3⟩ := getFree_queue hg
        obtain ⟨g1, g2, g3, g4⟩ := hf m s1 s' hb
        refine ⟨g1.trans h1, g2.trans h2, ?_⟩
        rcases h3 with ⟨h4, h5⟩ | ⟨j, s2, h4, h5, h6⟩
        · exact Or.inl ⟨by rw [g3, h4], fun k hk => by rw [g4 k hk, h5]⟩
        · exact Or.inr ⟨j, s2, h4, g3.trans h5, fun k hk hkj => by rw [g4 k hk, h6 k hkj]⟩
    split at h
    · refine main _ ?_ h
      intro m s1 s2 hs
      dsimp only at hs
      have e1 : ∀ k, k ≠ i → (attach s1 i m).sbs k = s1.sbs k := fun k hk => upd_ne _ _ hk
      split at hs
      · cases hs
        exact ⟨rfl, rfl, rfl, fun k hk => (upd_ne _ _ hk).trans (e1 k hk)⟩
      · unfold readSync at hs
        split at hs
        · cases hs
          exact ⟨rfl, rfl, rfl, fun k hk => (upd_ne _ _ hk).trans ((upd_ne _ _ hk).trans (e1 k hk))⟩
        · cases hs
    · refine main _ ?_ h
      intro m s1 s2 hs
      dsimp only at hs
      have e1 : ∀ k, k ≠ i → (incRc (attach s1 i m) i).sbs k = s1.sbs k := fun k hk => (upd_ne _ _ hk).trans (upd_ne _ _ hk)
      split at hs
      · cases hs
        exact ⟨rfl, rfl, rfl, e1⟩
      · cases hs
        split <;> exact ⟨rfl, rfl, rfl, e1⟩

theorem acquire_real {s : St α} (hns : s.algo.isSim = false) (i : Nat) (u : Bool) : acquire c s i u = acquireReal c s i u := by
  unfold acquire
  rcases notSim_cases hns with h | ⟨nu, h⟩ <;> rw [h]

theorem flushLoop_queue : ∀ (n : Nat) {s s' : St α}, flushLoop c n s = .ok s' → s'.evict.Sublist s.evict ∧ s'.algo = s.algo
  | 0, s, s', h => by cases h; exact ⟨List.Sublist.refl _, rfl⟩
  | n + 1, s, s', h => by
    rw [flushLoop] at h
    split at h
    · cases h; exact ⟨List.Sublist.refl _, rfl⟩
    · rename_i j s1 hp
      cases hd : detach c (clean c s1 j) j with
      | oom => rw [hd] at h; cases h
      | ub => rw [hd] at h; cases h
      | ok r =>
        rw [hd] at h
        obtain ⟨h1, h2⟩ := flushLoop_queue n h
        obtain ⟨h3, h4, -, -⟩ := detach_queue (m := r.1) (s' := r.2) (by rw [hd])
        obtain ⟨h5, h6, -⟩ := clean_queue (c := c) s1 j
        obtain ⟨h7, h8⟩ := popEvict_queue hp
        have h1 : s'.evict.Sublist r.2.evict := h1
        have h2 : s'.algo = r.2.algo := h2
        rw [h3, h5] at h1
        rw [h4, h6, h8] at h2
        exact ⟨h1.trans h7, h2⟩

theorem deinit_queue {s s' : St α} {i : Nat} (hns : s.algo.isSim = false) (h : deinit s i = .ok s') : s'.evict.Sublist s.evict ∧ s'.algo = s.algo := by
  unfold deinit at h
  have key : (if (s.sbs i).rc ≠ 0 then .ub
    else
      let s1 := if (s.sbs i).isEvictable then { s with evict := eraseKey i s.evict } else s
      .ok (returnOpt (deinitSB s1 i))) = Out.ok s' := by
    rcases notSim_cases hns with h1 | ⟨nu, h1⟩ <;> (rw [h1] at h ⊢; exact h)
  dsimp only at key
  split at key
  · cases key
  · injection key with key
    subst key
    have e1 : ∀ (t : St α), (returnOpt (deinitSB t i)).evict = t.evict ∧ (returnOpt (deinitSB t i)).algo = t.algo := by
      intro t
      unfold returnOpt
      split <;> exact ⟨rfl, rfl⟩
    rw [(e1 _).1, (e1 _).2]
    split
    · exact ⟨List.filter_sublist, rfl⟩
    · exact ⟨List.Sublist.refl _, rfl⟩

/-- every call except `release` only takes blocks out of the queue -/
theorem step_queue {s s' : St α} {o : Op α} {r : Res α} (hns : s.algo.isSim = false) (hk : o.keeps = true)
    (hnr : ∀ i d, o ≠ .release i d) (h : step c s o = .ok (s', r)) : s'.evict.Sublist s.evict ∧ s'.algo = s.algo := by
  have key : ∀ (X : Out (St α × Res α)) (b : Prop) [Decidable b], (if b then X else .ub) = .ok (s', r) → X = .ok (s', r) := by
    intro X b _ hX
    split at hX
    · exact hX
    · cases hX
  have bnd : ∀ (X : Out (St α)), X.bind (fun t => .ok (t, Res.unit)) = .ok (s', r) → X = .ok s' := by
    intro X hX
    cases X with
    | ok t => cases hX; rfl
    | oom => cases hX
    | ub => cases hX
  cases o with
  | alloc =>
    cases h
    unfold alloc
    split
    · refine ⟨List.Sublist.refl _, ?_⟩
      rcases notSim_cases hns with h1 | ⟨nu, h1⟩ <;> (dsimp only; rw [h1])
    · exact ⟨List.Sublist.refl _, rfl⟩
  | free i =>
    have h := bnd _ (key _ _ h)
    unfold freeBlock at h
    cases hd : deinit s i with
    | oom => rw [hd] at h; cases h
    | ub => rw [hd] at h; cases h
    | ok t =>
      rw [hd] at h
      cases h
      obtain ⟨h1, h2⟩ := deinit_queue hns hd
      exact ⟨h1, h2⟩
  | acquire i u =>
    have h := bnd _ (key _ _ h)
    rw [acquire_real hns] at h
    obtain ⟨h1, -, h2⟩ := acquireReal_queue h
    refine ⟨?_, h1⟩
    rcases h2 with ⟨h3, -⟩ | ⟨j, s1, h3, h4, -⟩
    · exact h3
    · rw [h4]; exact (popEvict_queue h3).1
  | read i =>
    have h := key _ _ h
    unfold readOp at h
    have : s' = s := by
      rcases notSim_cases hns with h1 | ⟨nu, h1⟩ <;>
      · rw [h1] at h
        dsimp only at h
        split at h
        · split at h
          · cases h
          · cases h; rfl
        · cases h
    rw [this]
    exact ⟨List.Sublist.refl _, rfl⟩
  | write i v =>
    have h := key _ _ h
    unfold writeOp at h
    rcases notSim_cases hns with h1 | ⟨nu, h1⟩ <;>
    · rw [h1] at h
      dsimp only at h
      split at h
      · split at h
        · cases h
        · cases h; exact ⟨List.Sublist.refl _, h1.symm⟩
      · cases h
  | release i d => exact absurd rfl (hnr i d)
  | deinit i => exact deinit_queue hns (bnd _ (key _ _ h))
  | init i x =>
    have h := bnd _ (key _ _ h)
    unfold init at h
    rcases notSim_cases hns with h1 | ⟨nu, h1⟩ <;>
    · rw [h1] at h
      dsimp only at h
      split at h
      · cases h
      · cases h; exact ⟨List.Sublist.refl _, h1.symm⟩
  | extract i =>
    have h := key _ _ h
    cases he : extract c s i with
    | oom => rw [he] at h; cases h
    | ub => rw [he] at h; cases h
    | ok q =>
      rw [he] at h
      cases h
      have main : ∀ (t : St α) (q : Option Nat × St α), ((if (t.sbs i).int.isSome then (detach c t i).bind fun r => .ok (returnFree r.2 r.1)
          else .ok t).bind fun s2 => Out.ok ((s2.sbs i).ext, { s2 with sbs := upd s2.sbs i { s2.sbs i with ext := none } })) = .ok q →
          q.2.evict = t.evict ∧ q.2.algo = t.algo := by
        intro t q hq
        split at hq
        · cases hd : detach c t i with
          | oom => rw [hd] at hq; cases hq
          | ub => rw [hd] at hq; cases hq
          | ok z =>
            rw [hd] at hq
            cases hq
            obtain ⟨h1, h2, -, -⟩ := detach_queue (m := z.1) (s' := z.2) (by rw [hd])
            exact ⟨h1, h2⟩
        · cases hq; exact ⟨rfl, rfl⟩
      unfold extract at he
      have he : ((if ((if (s.sbs i).isEvictable then { s with evict := eraseKey i s.evict } else s).sbs i).int.isSome then
          (detach c (if (s.sbs i).isEvictable then { s with evict := eraseKey i s.evict } else s) i).bind fun r => .ok (returnFree r.2 r.1)
          else .ok (if (s.sbs i).isEvictable then { s with evict := eraseKey i s.evict } else s)).bind
            fun s2 => Out.ok ((s2.sbs i).ext, { s2 with sbs := upd s2.sbs i { s2.sbs i with ext := none } })) = .ok q := by
        rcases notSim_cases hns with h1 | ⟨nu, h1⟩ <;> (rw [h1] at he ⊢; exact he)
      obtain ⟨h1, h2⟩ := main _ _ he
      rw [h1, h2]
      split
      · exact ⟨List.filter_sublist, rfl⟩
      · exact ⟨List.Sublist.refl _, rfl⟩
  | isInit i =>
    have h := key _ _ h
    cases h
    exact ⟨List.Sublist.refl _, rfl⟩
  | timestep =>
    cases h
    unfold timestep
    rcases notSim_cases hns with h1 | ⟨nu, h1⟩ <;> (rw [h1]; exact ⟨List.Sublist.refl _, h1⟩)
  | flush => exact flushLoop_queue _ (bnd _ h)
  | toLru => cases hk
  | toLfd p => cases hk
  | toSim => cases hk
  | newExt v => cases h; exact ⟨List.Sublist.refl _, rfl⟩
  | readExt x => cases h; exact ⟨List.Sublist.refl _, rfl⟩
  | writeExt x v => cases h; exact ⟨List.Sublist.refl _, rfl⟩
  | delExt x => cases h; exact ⟨List.Sublist.refl _, rfl⟩

/-- the block released goes to the queue or not -/
theorem releaseReal_queue {s s' : St α} {i : Nat} {d : Bool} {ins : St α → List (Nat × Nat)} (h : releaseReal c s i d ins = .ok s') :
    (s.sbs i).rc ≠ 0 ∧ s'.algo = s.algo ∧ (s'.evict = s.evict ∨ ∃ b, s'.evict = ins { s with sbs := upd s.sbs i b }) := by
  unfold releaseReal at h
  dsimp only at h
  split at h
  · cases h
  · rename_i h0
    refine ⟨h0, ?_⟩
    split at h
    · split at h
      · cases h
        exact ⟨rfl, Or.inr ⟨_, rfl⟩⟩
      · generalize hb : ({ s.sbs i with dirty := d || (s.sbs i).dirty, rc := (s.sbs i).rc - 1 } : SB) = b at h
        cases hd : detach c { s with sbs := upd s.sbs i b } i with
        | oom => rw [hd] at h; cases h
        | ub => rw [hd] at h; cases h
        | ok z =>
          rw [hd] at h
          cases h
          obtain ⟨h1, h2, -, -⟩ := detach_queue (m := z.1) (s' := z.2) (by rw [hd])
          exact ⟨h2, Or.inl h1⟩
    · cases h
      exact ⟨rfl, Or.inl rfl⟩

/-- a block thrown out by `acquire` is the one popped from the queue, and every other idle block in
memory is still in the queue -/
theorem acquire_evicts {sp sp' : Sp α} {s s' : St α} {i j k : Nat} {u : Bool} {r : Res α} (hR : R c sp s []) (hR' : R c sp' s' [])
    (hns : s.algo.isSim = false) (h : step c s (.acquire i u) = .ok (s', r)) (hi : (s'.sbs i).int.isSome = true ∧ (s'.sbs i).rc ≠ 0)
    (he : Evicts s s' j k) : k ≠ i ∧ j ≠ i ∧ k ≠ j ∧ ∃ s1, popEvict s = some (j, s1) ∧ k ∈ s1.evict.map (·.2) := by
  have hlt : i < s.nsb ∧ acquireReal c s i u = .ok s' := by
    rw [← acquire_real hns]
    by_cases hl : i < s.nsb
    · refine ⟨hl, ?_⟩
      have h : (if i < s.nsb then (acquire c s i u).bind fun s' => Out.ok (s', Res.unit) else .ub) = .ok (s', r) := h
      rw [if_pos hl] at h
      cases ha : acquire c s i u with
      | ok t => rw [ha] at h; cases h; rfl
      | oom => rw [ha] at h; cases h
      | ub => rw [ha] at h; cases h
    · have h : (if i < s.nsb then (acquire c s i u).bind fun s' => Out.ok (s', Res.unit) else .ub) = .ok (s', r) := h
      rw [if_neg hl] at h
      cases h
  obtain ⟨-, hn, h2⟩ := acquireReal_queue hlt.2
  have hji : j ≠ i := fun hh => he.after (by rw [hh]; exact ⟨by rw [hn]; exact hlt.1, hi.1⟩)
  have hki : k ≠ i := fun hh => hi.2 (by rw [← hh]; exact he.idle)
  refine ⟨hki, hji, fun hh => he.after (hh ▸ he.other), ?_⟩
  rcases h2 with ⟨-, h3⟩ | ⟨j', s1, h3, h4, h5⟩
  · exact absurd (show s'.inMem j from ⟨by rw [hn]; exact he.before.1, by rw [h3 j hji]; exact he.before.2⟩) he.after
  · have hjj : j = j' := by
      by_contra hne
      exact he.after ⟨by rw [hn]; exact he.before.1, by rw [h5 j hji hne]; exact he.before.2⟩
    refine ⟨s1, by rw [hjj]; exact h3, ?_⟩
    rw [← h4]
    exact (hR'.ev k).2 ⟨he.other.1, he.other.2, he.idle⟩

theorem acquired_after {sp : Sp α} {s s' : St α} {i : Nat} {u : Bool} {r : Res α} (hR : R c sp s []) (hns : s.algo.isSim = false)
    (hp : sp.pre (.acquire i u)) (h : step c s (.acquire i u) = .ok (s', r)) :
    ∃ sp', R c sp' s' [] ∧ (s'.sbs i).int.isSome = true ∧ (s'.sbs i).rc ≠ 0 := by
  rcases step_refines hR _ hp with ⟨s1, r1, sp', h1, h2, h3⟩ | ⟨h1, -⟩
  · rw [h] at h1
    cases h1
    have hs : sp.sim = false := by rw [← hR.sim]; exact hns
    refine ⟨sp', h3, ?_⟩
    have : ∃ e, sp'.ents i = some e ∧ e.held > 0 := by
      cases h2 with
      | acquire _ he =>
        refine ⟨_, if_pos rfl, ?_⟩
        unfold Ent.acquire
        split
        · dsimp only; omega
        · split <;> simp
      | simulated hh => rw [hs] at hh; cases hh
    obtain ⟨e, he, hh⟩ := this
    obtain ⟨-, L⟩ := h3.live i e he
    exact ⟨(L.heldInt hh).1, by rw [L.rc]; omega⟩
  · rw [h] at h1; cases h1

/-! ## LRU -/

theorem ReleasedSince.snoc {tr : List (Op α × Res α)} {j k : Nat} (h : ReleasedSince tr j k) {x : Op α × Res α} (hx : x.1.isRelease j = false) :
    ReleasedSince (tr ++ [x]) j k := by
  obtain ⟨tr1, y, tr2, h1, h2, h3, z, h4, h5⟩ := h
  refine ⟨tr1, y, tr2 ++ [x], by rw [h1]; simp, h2, fun w hw => ?_, z, List.mem_append_left _ h4, h5⟩
  rcases List.mem_append.1 hw with hw | hw
  · exact h3 w hw
  · rw [List.mem_singleton.1 hw]; exact hx

/-- a list with an element that satisfies `p` has a last one -/
theorem exists_last {β : Type} (p : β → Bool) : ∀ (l : List β), (∃ x ∈ l, p x = true) → ∃ a x b, l = a ++ x :: b ∧ p x = true ∧ ∀ y ∈ b, p y = false
  | [], h => by obtain ⟨x, h1, -⟩ := h; cases h1
  | z :: l, h => by
    by_cases hl : ∃ x ∈ l, p x = true
    · obtain ⟨a, x, b, h1, h2, h3⟩ := exists_last p l hl
      exact ⟨z :: a, x, b, by rw [h1]; rfl, h2, h3⟩
    · obtain ⟨x, h1, h2⟩ := h
      rcases List.mem_cons.1 h1 with h1 | h1
      · refine ⟨[], z, l, rfl, h1 ▸ h2, fun y hy => ?_⟩
        cases hy2 : p y with
        | false => rfl
        | true => exact absurd ⟨y, hy, hy2⟩ hl
      · exact absurd ⟨x, h1, h2⟩ hl

/-- the queue of the LRU algorithm is ordered by the last release -/
structure Lru (tr : List (Op α × Res α)) (s : St α) : Prop where
  algo : s.algo = .lru
  rel : ∀ k ∈ s.evict.map (·.2), ∃ x ∈ tr, x.1.isRelease k = true
  sorted : (s.evict.map (·.2)).Pairwise (ReleasedSince tr)

theorem popAll_lru : ∀ (n : Nat) (s : St α), s.algo = .lru → s.evict.length = n → popAll n s = s.evict.map (·.2)
  | 0, s, _, hl => by rw [List.length_eq_zero_iff.1 hl]; rfl
  | n + 1, s, ha, hl => by
    rw [popAll]
    unfold popEvict
    cases he : s.evict with
    | nil => rw [he] at hl; cases hl
    | cons x r =>
      rw [ha]
      dsimp only
      have := popAll_lru n { s with evict := r, algo := .lru } rfl (by rw [he] at hl; simpa using hl)
      rw [this]
      rfl

theorem lru_step {tr : List (Op α × Res α)} {sp : Sp α} {s s' : St α} {o : Op α} {r : Res α} (hR : R c sp s []) (hL : Lru tr s)
    (hk : o.keeps = true ∨ o = .toLru) (h : step c s o = .ok (s', r)) : Lru (tr ++ [(o, r)]) s' := by
  have hns : s.algo.isSim = false := by rw [hL.algo]; rfl
  by_cases hrel : ∃ i d, o = .release i d
  · obtain ⟨i, d, rfl⟩ := hrel
    have h : (if i < s.nsb then (release c s i d).bind fun s' => Out.ok (s', Res.unit) else .ub) = .ok (s', r) := h
    split at h
    · unfold release at h
      rw [hL.algo] at h
      dsimp only [releaseLru] at h
      cases hq : releaseReal c s i d (fun s1 => s1.evict ++ [(0, i)]) with
      | oom => rw [hq] at h; cases h
      | ub => rw [hq] at h; cases h
      | ok t =>
        rw [hq] at h
        cases h
        obtain ⟨hrc, h1, h2⟩ := releaseReal_queue hq
        have hne : ∀ j ∈ s.evict.map (·.2), j ≠ i := fun j hj hh => hrc (by rw [← hh]; exact ((hR.ev j).1 hj).2.2)
        have hkeep : ∀ j, j ≠ i → ((Op.release i d : Op α)).isRelease j = false := fun j hj => by simp [Op.isRelease, Ne.symm hj]
        have old : (s.evict.map (·.2)).Pairwise (ReleasedSince (tr ++ [(.release i d, Res.unit)])) :=
          hL.sorted.imp_of_mem fun {a b} ha _ hab => hab.snoc (hkeep a (hne a ha))
        rcases h2 with h2 | ⟨b, h2⟩
        · exact ⟨h1.trans hL.algo, by rw [h2]; exact fun k hk => (hL.rel k hk).imp fun x hx => ⟨List.mem_append_left _ hx.1, hx.2⟩, by rw [h2]; exact old⟩
        · refine ⟨h1.trans hL.algo, ?_, ?_⟩
          · rw [h2]
            intro k hk
            rw [List.map_append, List.mem_append] at hk
            rcases hk with hk | hk
            · exact (hL.rel k hk).imp fun x hx => ⟨List.mem_append_left _ hx.1, hx.2⟩
            · have : k = i := by simpa using hk
              exact ⟨_, List.mem_append_right _ (List.mem_singleton.2 rfl), by simp [Op.isRelease, this]⟩
          · rw [h2, List.map_append, List.pairwise_append]
            refine ⟨old, List.pairwise_singleton _ _, fun j hj k hk => ?_⟩
            have hki : k = i := by simpa using hk
            obtain ⟨a, x, b', e1, e2, e3⟩ := exists_last (fun x : Op α × Res α => x.1.isRelease j) tr (hL.rel j hj)
            refine ⟨a, x, b' ++ [(.release i d, Res.unit)], by rw [e1]; simp, e2, fun w hw => ?_, _, List.mem_append_right _ (List.mem_singleton.2 rfl),
              by simp [Op.isRelease, hki]⟩
            rcases List.mem_append.1 hw with hw | hw
            · exact e3 w hw
            · rw [List.mem_singleton.1 hw]; exact hkeep j (hne j hj)
    · cases h
  · have hnr : ∀ j, o.isRelease j = false := fun j => by
      cases o with
      | release i d => exact absurd ⟨i, d, rfl⟩ hrel
      | _ => rfl
    have main : (s'.evict.map (·.2)).Sublist (s.evict.map (·.2)) ∧ s'.algo = s.algo := by
      rcases hk with hk | hk
      · obtain ⟨h1, h2⟩ := step_queue hns hk (fun i d hh => hrel ⟨i, d, hh⟩) h
        exact ⟨h1.map _, h2⟩
      · subst hk
        cases h
        refine ⟨?_, hL.algo.symm⟩
        show (List.map (·.2) (List.map (fun j => (0, j)) (popAll s.evict.length s))).Sublist _
        rw [map_snd_pair (fun _ => 0), popAll_lru _ s hL.algo rfl]
    refine ⟨main.2.trans hL.algo, fun k hk => ?_, ?_⟩
    · exact (hL.rel k (main.1.subset hk)).imp fun x hx => ⟨List.mem_append_left _ hx.1, hx.2⟩
    · exact (hL.sorted.sublist main.1).imp fun {a b} hab => hab.snoc (hnr a)

theorem accepts_snoc_cases {fill : Option α} {sp sp' : Sp α} {tr : List (Op α × Res α)} {x : Op α × Res α} (h : Accepts fill sp (tr ++ [x]) sp') :
    ∃ sp1, Accepts fill sp tr sp1 ∧ sp1.pre x.1 ∧ Sp.Post fill sp1 x.1 x.2 sp' := by
  obtain ⟨sp1, h1, h2⟩ := accepts_append h
  cases h2 with
  | cons hp hpo hn => cases hn; exact ⟨sp1, h1, hp, hpo⟩

theorem run_append {s' : St α} {tr2 : List (Op α × Res α)} : ∀ {tr1 : List (Op α × Res α)} {s : St α}, Run c s (tr1 ++ tr2) s' →
    ∃ s1, Run c s tr1 s1 ∧ Run c s1 tr2 s'
  | [], s, h => ⟨s, .nil s, h⟩
  | x :: tr1, s, h => by
    cases h with
    | cons hs h => obtain ⟨s1, h1, h2⟩ := run_append h; exact ⟨s1, .cons hs h1, h2⟩

theorem run_trans {s s1 s2 : St α} {tr1 tr2 : List (Op α × Res α)} (h1 : Run c s tr1 s1) (h2 : Run c s1 tr2 s2) : Run c s (tr1 ++ tr2) s2 := by
  induction h1 with
  | nil => exact h2
  | cons hs _ ih => exact .cons hs (ih h2)

theorem run_snoc {s s' : St α} {tr : List (Op α × Res α)} {x : Op α × Res α} (h : Run c s (tr ++ [x]) s') :
    ∃ s1, Run c s tr s1 ∧ step c s1 x.1 = .ok (s', x.2) := by
  obtain ⟨s1, h1, h2⟩ := run_append h
  cases h2 with
  | cons hs hn => cases hn; exact ⟨s1, h1, hs⟩

theorem lru_run (junk : α) {tr : List (Op α × Res α)} : ∀ {s : St α} {sp : Sp α}, Run c (St.new c junk) tr s → Accepts c.fill Sp.empty tr sp →
    (∀ x ∈ tr, x.1.keeps = true ∨ x.1 = .toLru) → Lru tr s := by
  induction tr using List.reverseRecOn with
  | nil =>
    intro s sp h _ _
    cases h
    exact ⟨rfl, fun k hk => (by cases hk), List.Pairwise.nil⟩
  | append_singleton tr x ih =>
    intro s sp h ha hk
    obtain ⟨s1, h1, h2⟩ := run_snoc h
    obtain ⟨sp1, h3, h4, h5⟩ := accepts_snoc_cases ha
    exact lru_step (accepts_run h1 (new_R c junk) h3) (ih h1 h3 fun y hy => hk y (List.mem_append_left _ hy)) (hk x (by simp)) h2

/-- **C58.** With the LRU algorithm, an `acquire` that throws block `j` out of memory throws out the
least recently used block: every other idle block still in memory was released since `j` was. -/
theorem C58_lru (junk : α) {tr : List (Op α × Res α)} {s s' : St α} {sp : Sp α} {i j k : Nat} {u : Bool} {r : Res α}
    (h : Run c (St.new c junk) tr s) (ha : Accepts c.fill Sp.empty tr sp) (hk : ∀ x ∈ tr, x.1.keeps = true ∨ x.1 = .toLru)
    (hp : sp.pre (.acquire i u)) (hs : step c s (.acquire i u) = .ok (s', r)) (he : Evicts s s' j k) : ReleasedSince tr j k := by
  have hR := accepts_run h (new_R c junk) ha
  have hL := lru_run junk h ha hk
  have hns : s.algo.isSim = false := by rw [hL.algo]; rfl
  obtain ⟨sp', hR', hi⟩ := acquired_after hR hns hp hs
  obtain ⟨-, -, -, s1, h1, h2⟩ := acquire_evicts hR hR' hns hs hi he
  unfold popEvict at h1
  split at h1
  · cases h1
  · rename_i x rr hx
    rw [hL.algo] at h1
    cases h1
    have := hL.sorted
    rw [hx, List.map_cons] at this
    exact List.rel_of_pairwise_cons this h2

/-! ## Longest forward distance -/

/-- acquires of the prediction sequence -/
def POp.isAcquire : POp → Bool
  | .acquire | .acquireUninit => true
  | _ => false
/-- releases of the prediction sequence -/
def POp.isRelease : POp → Bool
  | .release | .releaseDirty => true
  | _ => false

/-- the next use of block `k` in the rest of the prediction sequence -/
def nextUse (rest : List PEl) (k : Nat) : Option PEl := rest.find? fun e => decide (e.sb = k) && !e.op.isRelease

/-- next use as the code keeps it -/
def useOf : Option PEl → Bool × Nat
  | none => (false, 1)
  | some e => match e.op with
    | .acquire | .acquireUninit => (true, e.time)
    | .deinit => (false, 0)
    | .init => (false, 3)
    | .extract => (false, 2)
    | _ => (false, 1)

theorem scan_next : ∀ (p : List PEl) (k : Nat), (scanPred p).1 k = useOf (nextUse p k)
  | [], k => rfl
  | e :: p, k => by
    have ih := scan_next p k
    unfold nextUse at ih ⊢
    rw [scanPred, List.find?_cons]
    by_cases hk : e.sb = k
    · cases hop : e.op <;> simp [hk, hop, POp.isRelease, upd, useOf, ih]
    · have hk' : ¬ k = e.sb := fun hh => hk hh.symm
      cases hop : e.op <;> simp [hk, upd, ih, hk']

/-- the most significant part of the priority -/
def key (t : Bool × Nat) : Nat := if t.1 then t.2 % 2 ^ 62 else 2 ^ 62 - 1

theorem prio_key (b : SB) (t : Bool × Nat) : prio b t / 4 = key t := by
  unfold prio key
  split
  · have : t.2 * 4 % 2 ^ 64 = (t.2 % 2 ^ 62) * 4 := by omega
    rw [this]
    split <;> split <;> omega
  · omega

theorem best_max : ∀ (r : List (Nat × Nat)) (x y : Nat × Nat), y ∈ x :: r → y.1 ≤ (best x r).1
  | [], x, y, h => by simp at h; simp [best, h]
  | z :: r, x, y, h => by
    rw [best]
    split
    · rename_i hz
      rcases List.mem_cons.1 h with h | h
      · have := best_max r z z (by simp); rw [h]; omega
      · exact best_max r z y h
    · rename_i hz
      rcases List.mem_cons.1 h with h | h
      · exact best_max r x y (by simp [h])
      · rcases List.mem_cons.1 h with h | h
        · have := best_max r x x (by simp); rw [h]; omega
        · exact best_max r x y (List.mem_cons_of_mem _ h)

/-- the queue of the LFD algorithm: priorities by next use in what remains of the prediction -/
structure Lfd (rest : List PEl) (s : St α) : Prop where
  algo : s.algo = .lfd (scanPred rest).2
  prios : ∀ x ∈ s.evict, x.1 / 4 = key (useOf (nextUse rest x.2))

theorem next_cons_ne {e : PEl} {rest : List PEl} {k : Nat} (h : k ≠ e.sb) : nextUse (e :: rest) k = nextUse rest k := by
  unfold nextUse
  rw [List.find?_cons]
  rw [decide_eq_false (fun hh : e.sb = k => h hh.symm)]
  rfl

theorem next_cons_release {e : PEl} {rest : List PEl} (k : Nat) (h : e.op.isRelease = true) : nextUse (e :: rest) k = nextUse rest k := by
  unfold nextUse
  rw [List.find?_cons]
  simp [h]

theorem lfd_step {sp sp' : Sp α} {s s' : St α} {o : Op α} {r : Res α} {rest rest' : List PEl} (hR : R c sp s []) (hR' : R c sp' s' [])
    (hL : Lfd rest s) (hk : o.keeps = true) (hp : sp.pre o) (hpo : Sp.Post c.fill sp o r sp') (h : step c s o = .ok (s', r))
    (hrest : rest.map (fun q => (q.op, q.sb)) = (o.recorded).toList ++ rest'.map fun q => (q.op, q.sb))
    (hsuf : rest' <:+ rest) : Lfd rest' s' := by
  have hns : s.algo.isSim = false := by rw [hL.algo]; rfl
  have hsim : sp.sim = false := by rw [← hR.sim]; exact hns
  -- what is left of the prediction
  have hcase : (o.recorded = none ∧ rest' = rest) ∨ ∃ e, rest = e :: rest' ∧ o.recorded = some (e.op, e.sb) := by
    obtain ⟨pre, hpre⟩ := hsuf
    subst hpre
    have hlen := congrArg List.length hrest
    simp only [List.length_map, List.length_append] at hlen
    cases hr : o.recorded with
    | none =>
      rw [hr] at hlen
      have : pre = [] := (by simpa using hlen)
      rw [this]
      exact Or.inl ⟨rfl, rfl⟩
    | some q =>
      rw [hr] at hlen hrest
      match pre, hlen, hrest with
      | [], hlen, _ => simp at hlen
      | [e], _, hrest =>
        refine Or.inr ⟨e, rfl, ?_⟩
        simp at hrest
        rw [hrest]
      | _ :: _ :: _, hlen, _ => simp at hlen
  by_cases hrel : ∃ i d, o = .release i d
  · obtain ⟨i, d, rfl⟩ := hrel
    rcases hcase with ⟨h1, -⟩ | ⟨e, h1, h2⟩
    · cases h1
    · subst h1
      injection h2 with h2
      have hop : (if d then POp.releaseDirty else POp.release) = e.op := congrArg Prod.fst h2
      have hsb : i = e.sb := congrArg Prod.snd h2
      have hrl : e.op.isRelease = true := by rw [← hop]; cases d <;> rfl
      have hnu : (scanPred (e :: rest')).2 = useOf (nextUse rest' i) :: (scanPred rest').2 := by
        rw [scanPred]
        rw [← scan_next, hsb]
        cases d <;> (simp only [Bool.false_eq_true, if_false, if_true] at hop; rw [← hop])
      have h : (if i < s.nsb then (release c s i d).bind fun s' => Out.ok (s', Res.unit) else .ub) = .ok (s', r) := h
      split at h
      · unfold release at h
        rw [hL.algo, hnu] at h
        dsimp only at h
        cases hq : releaseReal c s i d (fun s1 => s1.evict ++ [(prio (s1.sbs i) (useOf (nextUse rest' i)), i)]) with
        | oom => rw [hq] at h; cases h
        | ub => rw [hq] at h; cases h
        | ok t =>
          rw [hq] at h
          cases h
          obtain ⟨-, h1, h2⟩ := releaseReal_queue hq
          refine ⟨rfl, fun x hx => ?_⟩
          have hx : x ∈ t.evict := hx
          have old : ∀ x ∈ s.evict, x.1 / 4 = key (useOf (nextUse rest' x.2)) := fun x hx => by
            rw [← next_cons_release x.2 hrl]; exact hL.prios x hx
          rcases h2 with h2 | ⟨b, h2⟩
          · rw [h2] at hx; exact old x hx
          · rw [h2] at hx
            rcases List.mem_append.1 hx with hx | hx
            · exact old x hx
            · rw [List.mem_singleton.1 hx]
              exact prio_key _ _
      · cases h
  · obtain ⟨h1, h2⟩ := step_queue hns hk (fun i d hh => hrel ⟨i, d, hh⟩) h
    rcases hcase with ⟨-, h3⟩ | ⟨e, h3, h4⟩
    · subst h3
      exact ⟨h2.trans hL.algo, fun x hx => hL.prios x (h1.subset hx)⟩
    · subst h3
      have hq : ∀ x, o.recorded = some x → x.1 = e.op ∧ x.2 = e.sb := fun x hx => by rw [h4] at hx; cases hx; exact ⟨rfl, rfl⟩
      have hnr : e.op.isRelease = false := by
        cases o with
        | release i d => exact absurd ⟨i, d, rfl⟩ hrel
        | free i => rw [← (hq _ rfl).1]; rfl
        | acquire i u => rw [← (hq _ rfl).1]; cases u <;> rfl
        | deinit i => rw [← (hq _ rfl).1]; rfl
        | init i x => rw [← (hq _ rfl).1]; rfl
        | extract i => rw [← (hq _ rfl).1]; rfl
        | _ => cases h4
      have hnu : (scanPred (e :: rest')).2 = (scanPred rest').2 := by
        rw [scanPred]
        cases hop : e.op <;> first | rfl | (rw [hop] at hnr; cases hnr)
      refine ⟨by rw [h2, hL.algo, hnu], fun x hx => ?_⟩
      have hne : x.2 ≠ e.sb := by
        intro hh
        have hmem : e.sb ∈ s'.evict.map (·.2) := List.mem_map.2 ⟨x, hx, hh⟩
        have hmem0 : e.sb ∈ s.evict.map (·.2) := (h1.map _).subset hmem
        obtain ⟨g1, g2, g3⟩ := (hR'.ev e.sb).1 hmem
        have hblank : sp'.ents e.sb = some Ent.blank → False := fun hb => by
          obtain ⟨-, L⟩ := hR'.live _ _ hb
          rw [(L.uninit0 rfl rfl).1] at g2; cases g2
        cases o with
        | release i d => exact absurd ⟨i, d, rfl⟩ hrel
        | free i =>
          have hi : i = e.sb := (hq _ rfl).2
          subst hi
          cases hpo with
          | free =>
            rw [hR'.dead e.sb g1 (by simp [Sp.put])] at g2
            cases g2
          | simulated hh => rw [hsim] at hh; cases hh
        | acquire i u =>
          have hi : i = e.sb := (hq _ rfl).2
          subst hi
          obtain ⟨sp2, -, -, h5⟩ := acquired_after hR hns hp h
          exact h5 g3
        | deinit i =>
          have hi : i = e.sb := (hq _ rfl).2
          subst hi
          cases hpo with
          | deinit => exact hblank (by simp [Sp.put])
          | simulated hh => rw [hsim] at hh; cases hh
        | init i y =>
          have hi : i = e.sb := (hq _ rfl).2
          subst hi
          obtain ⟨f, hf, hh⟩ := hp
          obtain ⟨q1, q2, -⟩ := hh.resolve_left (by simp [hsim])
          obtain ⟨-, L⟩ := hR.live _ _ hf
          have := ((hR.ev e.sb).1 hmem0).2.1
          rw [(L.uninit0 q1 q2).1] at this
          cases this
        | extract i =>
          have hi : i = e.sb := (hq _ rfl).2
          subst hi
          obtain ⟨f, hf, hh⟩ := hp
          have q1 := hh.resolve_left (by simp [hsim])
          cases hpo with
          | extractNone _ he hc =>
            rw [hf] at he
            cases he
            obtain ⟨-, L⟩ := hR'.live _ _ hf
            rw [(L.uninit0 q1 hc).1] at g2
            cases g2
          | extractSome _ he hc hn => exact hblank (by simp [Sp.put])
          | simulated hh => rw [hsim] at hh; cases hh
        | _ => cases h4
      rw [← next_cons_ne hne]
      exact hL.prios x (h1.subset hx)

theorem lfd_run {tr : List (Op α × Res α)} {s s' : St α} (h : Run c s tr s') : ∀ {sp sp' : Sp α} {rest rest' : List PEl}, R c sp s [] →
    Accepts c.fill sp tr sp' → (∀ x ∈ tr, x.1.keeps = true) → Lfd rest s → rest' <:+ rest →
    rest.map (fun q => (q.op, q.sb)) = (tr.filterMap fun x => x.1.recorded) ++ rest'.map (fun q => (q.op, q.sb)) → Lfd rest' s' := by
  induction h with
  | nil s =>
    intro sp sp' rest rest' hR ha hk hL hs he
    obtain ⟨pre, hpre⟩ := hs
    have : pre = [] := by
      have := congrArg List.length he
      rw [← hpre] at this
      simp at this
      exact this
    rw [this] at hpre
    have : rest' = rest := hpre
    rw [this]
    exact hL
  | @cons s s1 s2 o r tr hst _ ih =>
    intro sp sp' rest rest' hR ha hk hL hs he
    cases ha with
    | cons hp hpo ha =>
      have hR1 : R c _ _ [] := accepts_run (.cons hst (.nil _)) hR (.cons hp hpo (.nil _))
      have hfm : (List.filterMap (fun x => x.1.recorded) ((o, r) :: tr)) = (o.recorded).toList ++ tr.filterMap fun x => x.1.recorded := by
        rw [List.filterMap_cons]
        cases o.recorded <;> rfl
      rw [hfm] at he
      -- the rest after this call
      have hsplit : ∃ mid, mid <:+ rest ∧ rest' <:+ mid ∧ rest.map (fun q => (q.op, q.sb)) = (o.recorded).toList ++ mid.map (fun q => (q.op, q.sb)) ∧
          mid.map (fun q => (q.op, q.sb)) = (tr.filterMap fun x => x.1.recorded) ++ rest'.map (fun q => (q.op, q.sb)) := by
        obtain ⟨pre, hpre⟩ := hs
        subst hpre
        rw [List.map_append] at he
        have he := List.append_cancel_right he
        cases hr : o.recorded with
        | none =>
          rw [hr] at he
          refine ⟨pre ++ rest', List.suffix_refl _, List.suffix_append _ _, rfl, ?_⟩
          rw [List.map_append, he]; rfl
        | some q =>
          rw [hr] at he
          cases pre with
          | nil => cases he
          | cons e pre =>
            simp only [List.map_cons, Option.toList_some, List.cons_append, List.nil_append, List.cons.injEq] at he
            refine ⟨pre ++ rest', List.suffix_cons _ _, List.suffix_append _ _, ?_, ?_⟩
            · simp [he.1]
            · rw [List.map_append, he.2]
      obtain ⟨mid, m1, m2, m3, m4⟩ := hsplit
      have hL1 := lfd_step hR hR1 hL (hk (o, r) (by simp)) hp hpo hst m3 m1
      exact ih hR1 ha (fun x hx => hk x (List.mem_cons_of_mem _ hx)) hL1 m2 m4

/-- **C58.** With the LFD algorithm and a prediction `p`, given to the switch or recorded by the
simulation before it, that has come true so far (the calls since the switch are a prefix of it), an `acquire` that throws block `j` out of memory throws out a block
that is needed again latest: if `j` is to be acquired again at time `t`, then every other idle block
still in memory is also acquired next, and not later than `t`. -/
theorem C58_lfd (junk : α) {tr0 tr : List (Op α × Res α)} {pp : Option (List PEl)} {p rest : List PEl} {a : PEl}
    {s0 s1 s s' : St α} {sp : Sp α} {i j k : Nat} {u : Bool} {r r0 : Res α}
    (h5 : Run c (St.new c junk) tr0 s0) (h6 : step c s0 (.toLfd pp) = .ok (s1, r0)) (hpp : p = pp.getD (predOf s0.algo))
    (h2 : Run c s1 tr s) (ha : Accepts c.fill Sp.empty (tr0 ++ [(.toLfd pp, r0)] ++ tr) sp)
    (hk : ∀ x ∈ tr, x.1.keeps = true)
    (hsuf : a :: rest <:+ p)
    (htrue : p.map (fun q => (q.op, q.sb)) = (tr.filterMap fun x => x.1.recorded) ++ (a :: rest).map fun q => (q.op, q.sb))
    (hnext : (Op.acquire i u : Op α).recorded = some (a.op, a.sb))
    (htime : ∀ q ∈ p, q.time < 2 ^ 62 - 1)
    (hp : sp.pre (.acquire i u)) (hs : step c s (.acquire i u) = .ok (s', r)) (he : Evicts s s' j k)
    {q : PEl} (hq : nextUse rest j = some q) (hacq : q.op.isAcquire = true) :
    ∃ q', nextUse rest k = some q' ∧ q'.op.isAcquire = true ∧ q'.time ≤ q.time := by
  have h1 : Run c (St.new c junk) (tr0 ++ [(.toLfd pp, r0)]) s1 := run_trans h5 (.cons h6 (.nil _))
  have h : Run c (St.new c junk) (tr0 ++ [(.toLfd pp, r0)] ++ tr) s := run_trans h1 h2
  obtain ⟨sp1, h3, h4⟩ := accepts_append ha
  have hR1 := accepts_run h1 (new_R c junk) h3
  have hL1 : Lfd p s1 := by
    have h6 : (if ((pp.getD (predOf s0.algo)).all fun e => decide (e.sb < s0.nsb)) = true then
      Out.ok (toLfd s0 (pp.getD (predOf s0.algo)), Res.unit) else Out.ub) = .ok (s1, r0) := h6
    rw [← hpp] at h6
    split at h6
    · cases h6
      refine ⟨rfl, fun x hx => ?_⟩
      obtain ⟨m, -, hm⟩ := List.mem_map.1 hx
      rw [← hm]
      show prio (s0.sbs m) ((scanPred p).1 m) / 4 = _
      rw [prio_key, scan_next]
    · cases h6
  have hL := lfd_run h2 hR1 h4 hk hL1 hsuf htrue
  have hR := accepts_run h (new_R c junk) ha
  have hns : s.algo.isSim = false := by rw [hL.algo]; rfl
  obtain ⟨sp', hR', hi⟩ := acquired_after hR hns hp hs
  obtain ⟨hki, hji, -, s2, g1, g2⟩ := acquire_evicts hR hR' hns hs hi he
  have hsb : a.sb = i := by injection hnext with hn; exact (congrArg Prod.snd hn).symm
  have htime' : ∀ x ∈ rest, x.time < 2 ^ 62 - 1 := fun x hx => htime x (hsuf.subset (List.mem_cons_of_mem _ hx))
  -- the popped element is a maximum
  have hmax : ∀ y ∈ s.evict, y.1 / 4 ≤ key (useOf (nextUse (a :: rest) j)) := by
    intro y hy
    unfold popEvict at g1
    split at g1
    · cases g1
    · rename_i x rr hx
      rw [hL.algo] at g1
      dsimp only at g1
      have hb := best_max rr x y (hx ▸ hy)
      have hm := hL.prios (best x rr) (by rw [hx]; exact best_mem rr x)
      injection g1 with g1
      have hbj : (best x rr).2 = j := congrArg Prod.fst g1
      rw [hbj] at hm
      rw [← hm]
      omega
  have hkin : k ∈ s.evict.map (·.2) := ((popEvict_queue g1).1.map _).subset g2
  obtain ⟨y, hy1, hy2⟩ := List.mem_map.1 hkin
  have h8 := hmax y hy1
  rw [hL.prios y hy1, hy2, next_cons_ne (by rw [hsb]; exact hki), next_cons_ne (by rw [hsb]; exact hji), hq] at h8
  have hqt := htime' q (List.mem_of_find?_eq_some hq)
  have hkq : key (useOf (some q)) = q.time := by
    cases hop : q.op <;> first
      | (simp only [useOf, key, hop]; simp; omega)
      | (rw [hop] at hacq; cases hacq)
  rw [hkq] at h8
  cases hn : nextUse rest k with
  | none =>
    rw [hn] at h8
    simp [useOf, key] at h8
    omega
  | some q' =>
    rw [hn] at h8
    have hqt' := htime' q' (List.mem_of_find?_eq_some hn)
    cases hop : q'.op with
    | acquire => simp [useOf, key, hop] at h8; exact ⟨q', rfl, by rw [hop]; rfl, by omega⟩
    | acquireUninit => simp [useOf, key, hop] at h8; exact ⟨q', rfl, by rw [hop]; rfl, by omega⟩
    | _ => simp [useOf, key, hop] at h8; omega

/-! ## Examples -/

namespace Ex

/-- which of the blocks `0..n-1` are in memory after the calls, with room for `m` blocks -/
def inMemory (m n : Nat) (os : List (Op Nat)) : Out (List Bool) :=
  (runOps (cfg m) (St.new (cfg m) 999) os).bind fun r => .ok ((List.range n).map fun k => (r.2.sbs k).int.isSome)

/-- use of a block -/
def use (i : Nat) : List (Op Nat) := [.acquire i false, .release i true]

/-- LRU throws out block 0, which was released before block 1 -/
example : inMemory 2 3 ([.alloc, .alloc, .alloc] ++ use 0 ++ use 1) = .ok [true, true, false] ∧
    inMemory 2 3 ([.alloc, .alloc, .alloc] ++ use 0 ++ use 1 ++ use 2) = .ok [false, true, true] := by decide +kernel

/-- LFD throws out block 1, which is needed later than block 0, although it was used later -/
example : inMemory 2 3 ([.alloc, .alloc, .alloc, .toSim] ++ use 0 ++ use 1 ++ use 2 ++ use 0 ++ use 1 ++ [.toLfd none] ++ use 0 ++ use 1) = .ok [true, true, false] ∧
    inMemory 2 3 ([.alloc, .alloc, .alloc, .toSim] ++ use 0 ++ use 1 ++ use 2 ++ use 0 ++ use 1 ++ [.toLfd none] ++ use 0 ++ use 1 ++ use 2) =
      .ok [true, false, true] := by decide +kernel

/-- the recorded prediction, with times -/
example : ((runOps (cfg 2) (St.new (cfg 2) 999) ([.alloc, .alloc, .alloc, .toSim] ++ use 0 ++ use 1 ++ use 2 ++ use 0 ++ use 1)).bind
      fun r => .ok (predOf r.2.algo)) =
    .ok [⟨.acquire, 0, 0⟩, ⟨.releaseDirty, 0, 1⟩, ⟨.acquire, 1, 1⟩, ⟨.releaseDirty, 1, 2⟩, ⟨.acquire, 2, 2⟩, ⟨.releaseDirty, 2, 3⟩,
      ⟨.acquire, 0, 3⟩, ⟨.releaseDirty, 0, 4⟩, ⟨.acquire, 1, 4⟩, ⟨.releaseDirty, 1, 5⟩] := by decide +kernel

end Ex

end Stxxl.BlockSched
