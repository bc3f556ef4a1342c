import Verif.BlockCache.Steps

/-! The operations. -/

namespace BlockCache
open Stxxl.Pager (Lru)
open Spec (Op Out M Sure Pre Post AllHeld tidy bring next)

variable {V : Type}

theorem Sim.bring {c : Cfg} {m : M V} {s : St V} (S : Sim c m s) {b : Nat} (hb : s.map b ≠ none) :
    Sim c (bring m b) s := by
  unfold Spec.bring
  split
  · exact S
  · have S' := S.weaken [b] (by intro x hx; have : x = b := by simpa using hx
                                subst this; exact hb)
    have hseen : ∀ x, s.map x ≠ none → (decide (x = b) || m.seen x) = true := by
      intro x hx; simp [S.seen x hx]
    exact { S' with seen := hseen }

theorem Sim.setPtr {c : Cfg} {m : M V} {s : St V} (S : Sim c m s) {b i k : Nat} (h : Nat) (hs : Sure m b)
    (hb : s.map b = some i) (hv : s.blk i k = m.val b k) :
    Sim c (Spec.setPtr m h (some (b, k))) (BlockCache.setPtr s h (some (i, k))) := by
  refine { S with ptr := ?_, wb := ⟨S.wb.1, S.wb.2, S.wb.3⟩ }
  intro h' x y hx
  simp only [Spec.setPtr] at hx
  by_cases he : h' = h
  · subst he
    rw [if_pos rfl] at hx; cases hx
    exact ⟨hs, i, hb, by simp [BlockCache.setPtr], hv⟩
  · rw [if_neg he] at hx
    obtain ⟨h1, z, h2, h3, h4⟩ := S.ptr h' x y hx
    exact ⟨h1, z, h2, by simp only [BlockCache.setPtr]; rw [upd_ne _ _ he]; exact h3, h4⟩

theorem sure_bring (m : M V) (b : Nat) : Sure (bring m b) b := by
  unfold Spec.bring
  split
  · assumption
  · right; simp [tidy]

/-- The bookkeeping of `assign` and `drain` do not interfere. -/
def withSlot (s : St V) (fr : List Nat) (mp : Nat → Option Nat) (bi : Nat → Nat) (di : Nat → Bool) (re : Nat → Nat) : St V :=
  { s with free := fr, map := mp, bids := bi, dirty := di, retain := re }

theorem complete_withSlot (s : St V) (fr mp bi di re) (j : Nat) :
    complete (withSlot s fr mp bi di re) j = withSlot (complete s j) fr mp bi di re := by
  unfold complete withSlot
  dsimp only
  rcases s.wreq j with _ | b <;> rfl

theorem drain_withSlot (c : Cfg) (s : St V) (fr mp bi di re) (b : Nat) :
    drain c (withSlot s fr mp bi di re) b = withSlot (drain c s b) fr mp bi di re := by
  unfold drain
  split
  · generalize List.range c.m = l
    induction l generalizing s with
    | nil => rfl
    | cons j l ih =>
      rw [List.foldl_cons, List.foldl_cons]
      have : (withSlot s fr mp bi di re).wreq j = s.wreq j := rfl
      rw [this]
      split
      · rw [complete_withSlot]; exact ih _
      · exact ih s
  · rfl

theorem done_map {s t : St V} (h : Done s t) : t.map = s.map ∧ t.valid = s.valid ∧ t.dirty = s.dirty ∧ t.pend = s.pend ∧
    t.free = s.free ∧ t.lru = s.lru ∧ t.blk = s.blk := by
  rw [done_same h]; exact ⟨rfl, rfl, rfl, rfl, rfl, rfl, rfl⟩

/-- A partially loaded block: it is clean and not being read. -/
theorem Sim.partial {c : Cfg} {m : M V} {s : St V} (S : Sim c m s) {b i : Nat} (hb : s.map b = some i)
    (hv : s.valid i ≠ none) : s.dirty i = false ∧ s.pend i = none ∧ s.disk b = m.val b := by
  have hd : s.dirty i = false := by
    rcases h : s.dirty i with _ | _
    · rfl
    · exact absurd (S.dty b i hb h).1 hv
  refine ⟨hd, ?_, S.cln b i hb hd⟩
  rcases h : s.pend i with _ | b'
  · rfl
  · exact absurd (S.pnd b i b' hb h).2.1 hv

/-- Loading another subblock of a partially loaded block. -/
theorem Sim.reload {c : Cfg} {m : M V} {s : St V} (S : Sim c m s) {b i k : Nat} (hb : s.map b = some i)
    (hv : s.valid i ≠ none) {p : Lru} (hp : LruOk c.n p) :
    Sim c m { s with blk := upd s.blk i (upd (s.blk i) k (s.disk b k)), valid := upd s.valid i (some k), lru := p } := by
  obtain ⟨hd, hpn, hdk⟩ := S.partial hb hv
  refine { S with lru := hp, wb := ⟨S.wb.1, S.wb.2, S.wb.3⟩, pnd := ?_, dty := ?_, all := ?_, sub := ?_, ptr := ?_ }
  · intro x y z hx hy
    dsimp only at hx hy ⊢
    by_cases hyi : y = i
    · subst hyi; rw [hpn] at hy; cases hy
    · rw [upd_ne _ _ hyi]; exact S.pnd x y z hx hy
  · intro x y hx hy
    dsimp only at hx hy ⊢
    by_cases hyi : y = i
    · subst hyi; rw [hd] at hy; cases hy
    · rw [upd_ne _ _ hyi, upd_ne _ _ hyi]; exact S.dty x y hx hy
  · intro x y hx h1 h2 h3
    dsimp only at hx h1 h2 h3 ⊢
    by_cases hyi : y = i
    · subst hyi; rw [upd_self] at h2; cases h2
    · rw [upd_ne _ _ hyi] at h2 ⊢; exact S.all x y hx h1 h2 h3
  · intro x y k' hx h1
    dsimp only at hx h1 ⊢
    by_cases hyi : y = i
    · subst hyi
      obtain rfl := S.inj hx hb
      rw [upd_self] at h1 ⊢; cases h1
      rw [upd_self, hdk]
    · rw [upd_ne _ _ hyi] at h1 ⊢; exact S.sub x y k' hx h1
  · intro h x k' hx
    obtain ⟨h1, y, h2, h3, h4⟩ := S.ptr h x k' hx
    refine ⟨h1, y, h2, h3, ?_⟩
    dsimp only
    by_cases hyi : y = i
    · subst hyi
      obtain rfl := S.inj h2 hb
      rw [upd_self]
      by_cases hk : k' = k
      · subst hk; rw [upd_self, hdk]
      · rw [upd_ne _ _ hk]; exact h4
    · rw [upd_ne _ _ hyi]; exact h4

/-- Starting to read the rest of a partially loaded block. -/
theorem Sim.readAll {c : Cfg} {m : M V} {s : St V} (S : Sim c m s) {b i : Nat} (hb : s.map b = some i)
    (hv : s.valid i ≠ none) {p : Lru} (hp : LruOk c.n p) :
    Sim c m { s with pend := upd s.pend i (some b), valid := upd s.valid i none, lru := p } := by
  obtain ⟨hd, hpn, hdk⟩ := S.partial hb hv
  have hif : i ∉ s.free := (S.slot b i hb).2.2
  refine { S with lru := hp, wb := ⟨S.wb.1, S.wb.2, S.wb.3⟩, pnd := ?_, fpnd := ?_, dty := ?_, all := ?_, sub := ?_ }
  · intro x y z hx hy
    dsimp only at hx hy ⊢
    by_cases hyi : y = i
    · subst hyi
      obtain rfl := S.inj hx hb
      rw [upd_self] at hy ⊢; cases hy
      exact ⟨rfl, rfl, hd⟩
    · rw [upd_ne _ _ hyi] at hy ⊢; exact S.pnd x y z hx hy
  · intro y hy
    dsimp only at hy ⊢
    rw [upd_ne _ _ (by intro he; subst he; exact hif hy)]; exact S.fpnd y hy
  · intro x y hx hy
    dsimp only at hx hy ⊢
    by_cases hyi : y = i
    · subst hyi; rw [hd] at hy; cases hy
    · rw [upd_ne _ _ hyi]; exact S.dty x y hx hy
  · intro x y hx h1 h2 h3
    dsimp only at hx h1 h2 h3 ⊢
    by_cases hyi : y = i
    · subst hyi; rw [upd_self] at h3; cases h3
    · rw [upd_ne _ _ hyi] at h2 h3; exact S.all x y hx h1 h2 h3
  · intro x y k' hx h1
    dsimp only at hx h1 ⊢
    by_cases hyi : y = i
    · subst hyi; rw [upd_self] at h1; cases h1
    · rw [upd_ne _ _ hyi] at h1; exact S.sub x y k' hx h1

/-- Facts about a block that is not in the cache. -/
theorem Sim.absent {c : Cfg} {m : M V} {s : St V} (S : Sim c m s) {b : Nat} (hb : s.map b = none) :
    ¬ Sure m b ∧ m.marked b = false ∧ (∀ h k, m.ptr h ≠ some (b, k)) := by
  refine ⟨?_, ?_, ?_⟩
  · intro h
    obtain ⟨i, hi⟩ := S.sure h
    rw [hb] at hi; cases hi
  · rcases h : m.marked b with _ | _
    · rfl
    · obtain ⟨-, i, hi, -⟩ := S.mark b h
      rw [hb] at hi; cases hi
  · intro h k hp
    obtain ⟨-, i, hi, -⟩ := S.ptr h b k hp
    rw [hb] at hi; cases hi

/-- `get_subblock`. -/
theorem get_ok {c : Cfg} {m : M V} {s : St V} (S : Sim c m s) (hn : 0 < c.n) (hm : 0 < c.m) (hfi : c.fifo = true)
    {b k : Nat} (hl : m.lost b = false) :
    (∃ s', get c s b k = some (none, s') ∧ Sim c m s' ∧ AllHeld m c.n ∧ m.held b = 0) ∨
    (∃ i s', get c s b k = some (some i, s') ∧ Sim c (bring m b) s' ∧ s'.map b = some i ∧
      s'.blk i k = (bring m b).val b k) := by
  have hval : (bring m b).val = m.val := by unfold Spec.bring; split <;> rfl
  rw [hval]
  unfold get
  rcases hb : s.map b with _ | i
  · dsimp only
    obtain ⟨hns, hmk, hpt⟩ := S.absent hb
    rcases makeRoom_ok S hn hm with ⟨s1, h1, S1, hall⟩ | ⟨s1, h1, S1, hf1, hmono⟩
    · left
      rw [h1]
      exact ⟨s1, rfl, S1, hall, S.ret0 b hb⟩
    · right
      rw [h1]
      dsimp only
      rcases hf : s1.free with _ | ⟨i, fr⟩
      · exact absurd hf hf1
      have hin : i < c.n := S1.flt i (by rw [hf]; simp)
      simp only [assign, hf]
      unfold loadSub
      dsimp only
      have hw := drain_withSlot c s1 fr (upd s1.map b (some i)) (upd s1.bids i b) (upd s1.dirty i false) (upd s1.retain i 0) b
      simp only [withSlot] at hw
      rw [hw]
      dsimp only
      have hdone := drain_done c s1 b
      have S2 := S1.done hdone
      obtain ⟨d1, d2, d3, d4, d5, d6, d7⟩ := done_map hdone
      have hb2 : (drain c s1 b).map b = none := by rw [d1]; exact hmono b hb
      have hnr : NoReq (drain c s1 b) b := drain_noReq hfi S1.wb b
      have hdk : (drain c s1 b).disk b = m.val b := (S2.out b hb2 hl).2 hnr
      obtain ⟨p, hp1, hp2⟩ := hit_ok S2.lru hin
      rw [hp1]
      have hpn : (drain c s1 b).pend i = none := S2.fpnd i (by rw [d5, hf]; simp)
      refine ⟨i, _, rfl, ?_, ?_, ?_⟩
      · have := install S2 (by rw [d5]; exact hf) hb2 hnr hl hns hmk hpt (x := upd ((drain c s1 b).blk i) k ((drain c s1 b).disk b k))
          (vl := some k) (pd := none) hp2 (by simp) (by intro k' hk'; cases hk'; rw [upd_self, hdk]; exact ⟨rfl, rfl⟩)
        have he : upd (drain c s1 b).pend i none = (drain c s1 b).pend := by
          funext x
          by_cases hx : x = i
          · subst hx; rw [upd_self, hpn]
          · rw [upd_ne _ _ hx]
        rw [he] at this
        have e2 : (drain c s1 b).bids = s1.bids := by rw [done_same hdone]
        have e3 : (drain c s1 b).retain = s1.retain := by rw [done_same hdone]
        rw [d1, d3, e2, e3] at this
        exact this
      · simp
      · simp [hdk]
  · dsimp only
    right
    have hne : s.map b ≠ none := by rw [hb]; simp
    by_cases hv : s.valid i = none ∨ s.valid i = some k
    · rw [if_pos hv]
      by_cases hv0 : s.valid i = none
      · rw [if_pos hv0]
        obtain ⟨S1, hp⟩ := S.wait hb
        have e1 : (wait s i).map = s.map := by unfold wait; split <;> rfl
        have e2 : (wait s i).valid = s.valid := by unfold wait; split <;> rfl
        have hb1 : (wait s i).map b = some i := by rw [e1]; exact hb
        refine ⟨i, _, rfl, S1.bring (by rw [hb1]; simp), hb1, ?_⟩
        rcases hd : (wait s i).dirty i with _ | _
        · rw [S1.all b i hb1 hd (by rw [e2]; exact hv0) hp]
        · rw [(S1.dty b i hb1 hd).2.2]
      · rw [if_neg hv0]
        have hk : s.valid i = some k := by rcases hv with h | h; exact absurd h hv0; exact h
        exact ⟨i, _, rfl, S.bring hne, hb, S.sub b i k hb hk⟩
    · rw [if_neg hv]
      have hv0 : s.valid i ≠ none := fun h => hv (.inl h)
      unfold loadSub
      dsimp only
      have hdone := drain_done c s b
      have S2 := S.done hdone
      obtain ⟨d1, d2, d3, d4, d5, d6, d7⟩ := done_map hdone
      have hb2 : (drain c s b).map b = some i := by rw [d1]; exact hb
      have hv2 : (drain c s b).valid i ≠ none := by rw [d2]; exact hv0
      obtain ⟨p, hp1, hp2⟩ := hit_ok S2.lru (S2.slot b i hb2).1
      rw [hp1]
      refine ⟨i, _, rfl, (S2.reload hb2 hv2 hp2).bring (by dsimp only; rw [hb2]; simp), hb2, ?_⟩
      dsimp only
      rw [upd_self, upd_self, (S2.partial hb2 hv2).2.2]

/-- `prefetch_block`. -/
theorem prefetch_ok {c : Cfg} {m : M V} {s : St V} (S : Sim c m s) (hn : 0 < c.n) (hm : 0 < c.m) (hfi : c.fifo = true)
    {b : Nat} (hl : m.lost b = false) :
    (∃ s', prefetch c s b = some (false, s') ∧ Sim c m s' ∧ AllHeld m c.n ∧ m.held b = 0) ∨
    (∃ s', prefetch c s b = some (true, s') ∧ Sim c (bring m b) s') := by
  unfold prefetch
  rcases hb : s.map b with _ | i
  · dsimp only
    obtain ⟨hns, hmk, hpt⟩ := S.absent hb
    rcases makeRoom_ok S hn hm with ⟨s1, h1, S1, hall⟩ | ⟨s1, h1, S1, hf1, hmono⟩
    · left
      rw [h1]
      exact ⟨s1, rfl, S1, hall, S.ret0 b hb⟩
    · right
      rw [h1]
      dsimp only
      rcases hf : s1.free with _ | ⟨i, fr⟩
      · exact absurd hf hf1
      have hin : i < c.n := S1.flt i (by rw [hf]; simp)
      simp only [assign, hf]
      unfold loadAll
      dsimp only
      have hw := drain_withSlot c s1 fr (upd s1.map b (some i)) (upd s1.bids i b) (upd s1.dirty i false) (upd s1.retain i 0) b
      simp only [withSlot] at hw
      rw [hw]
      dsimp only
      have hdone := drain_done c s1 b
      have S2 := S1.done hdone
      obtain ⟨d1, d2, d3, d4, d5, d6, d7⟩ := done_map hdone
      have hb2 : (drain c s1 b).map b = none := by rw [d1]; exact hmono b hb
      have hnr : NoReq (drain c s1 b) b := drain_noReq hfi S1.wb b
      obtain ⟨p, hp1, hp2⟩ := hit_ok S2.lru hin
      rw [hp1]
      refine ⟨_, rfl, ?_⟩
      have := install S2 (by rw [d5]; exact hf) hb2 hnr hl hns hmk hpt (x := (drain c s1 b).blk i)
        (vl := none) (pd := some b) hp2 (by simp) (by intro k' hk'; cases hk')
      have he : upd (drain c s1 b).blk i ((drain c s1 b).blk i) = (drain c s1 b).blk := by
        funext x
        by_cases hx : x = i
        · subst hx; rw [upd_self]
        · rw [upd_ne _ _ hx]
      rw [he] at this
      have e2 : (drain c s1 b).bids = s1.bids := by rw [done_same hdone]
      have e3 : (drain c s1 b).retain = s1.retain := by rw [done_same hdone]
      rw [d1, d3, e2, e3] at this
      exact this
  · dsimp only
    right
    have hne : s.map b ≠ none := by rw [hb]; simp
    by_cases hv : s.valid i = none
    · rw [if_pos hv]
      obtain ⟨p, hp1, hp2⟩ := hit_ok S.lru (S.slot b i hb).1
      rw [hp1]
      have S1 : Sim c m { s with lru := p } := { S with lru := hp2, wb := ⟨S.wb.1, S.wb.2, S.wb.3⟩ }
      exact ⟨_, rfl, S1.bring hne⟩
    · rw [if_neg hv]
      unfold loadAll
      dsimp only
      have hdone := drain_done c s b
      have S2 := S.done hdone
      obtain ⟨d1, d2, d3, d4, d5, d6, d7⟩ := done_map hdone
      have hb2 : (drain c s b).map b = some i := by rw [d1]; exact hb
      have hv2 : (drain c s b).valid i ≠ none := by rw [d2]; exact hv
      obtain ⟨p, hp1, hp2⟩ := hit_ok S2.lru (S2.slot b i hb2).1
      rw [hp1]
      exact ⟨_, rfl, (S2.readAll hb2 hv2 hp2).bring (by dsimp only; rw [hb2]; simp)⟩

theorem retain_ok {c : Cfg} {m : M V} {s : St V} (S : Sim c m s) (b : Nat) :
    Post c.n m (.retain b) (.bool (retain s b).1) ∧ Sim c (next m (.retain b) (.bool (retain s b).1)) (retain s b).2 := by
  unfold retain
  rcases hb : s.map b with _ | i
  · exact ⟨.inr ⟨rfl, (S.absent hb).1⟩, S⟩
  · refine ⟨.inl rfl, ?_⟩
    dsimp only [next]
    have hheld := S.ret b i hb
    refine { S with wb := ⟨S.wb.1, S.wb.2, S.wb.3⟩, ret := ?_, ret0 := ?_, mark := ?_, ptr := ?_ }
    · intro x y hx
      dsimp only at hx ⊢
      by_cases hxb : x = b
      · subst hxb; rw [hb] at hx; cases hx; rw [upd_self, if_pos rfl, hheld]
      · rw [if_neg hxb, upd_ne]
        · exact S.ret x y hx
        · intro he; subst he; exact hxb (S.inj hx hb)
    · intro x hx
      dsimp only at hx ⊢
      rw [if_neg (by intro he; subst he; rw [hb] at hx; cases hx)]
      exact S.ret0 x hx
    · intro x hx
      obtain ⟨h1, h2⟩ := S.mark x hx
      refine ⟨?_, h2⟩
      rcases h1 with h1 | h1
      · left; dsimp only; split
        · omega
        · exact h1
      · exact .inr h1
    · intro h x k hx
      obtain ⟨h1, h2⟩ := S.ptr h x k hx
      refine ⟨?_, h2⟩
      rcases h1 with h1 | h1
      · left; dsimp only; split
        · omega
        · exact h1
      · exact .inr h1

theorem release_ok {c : Cfg} {m : M V} {s : St V} (S : Sim c m s) (b : Nat) :
    Post c.n m (.release b) (.bool (release s b).1) ∧ Sim c (next m (.release b) (.bool (release s b).1)) (release s b).2 := by
  unfold release
  rcases hb : s.map b with _ | i
  · refine ⟨?_, S⟩
    simp only [Post, S.ret0 b hb]; rfl
  · have hheld := S.ret b i hb
    dsimp only
    by_cases h0 : s.retain i = 0
    · rw [if_pos h0]
      refine ⟨?_, S⟩
      simp only [Post]
      rw [← hheld, h0]; rfl
    · rw [if_neg h0]
      refine ⟨?_, ?_⟩
      · simp only [Post]
        rw [← hheld, decide_eq_true (by omega)]
      · dsimp only [next]
        have hsure : ∀ {x}, Sure m x → Sure { m with held := fun x => if x = b then m.held b - 1 else m.held x, hot := b :: m.hot } x := by
          intro x h1
          by_cases hxb : x = b
          · right; subst hxb; simp
          · rcases h1 with h1 | h1
            · left; dsimp only; rw [if_neg hxb]; exact h1
            · right; simp [h1]
        refine { S with wb := ⟨S.wb.1, S.wb.2, S.wb.3⟩, ret := ?_, ret0 := ?_, hot := ?_, mark := ?_, ptr := ?_ }
        · intro x y hx
          dsimp only at hx ⊢
          by_cases hxb : x = b
          · subst hxb; rw [hb] at hx; cases hx; rw [upd_self, if_pos rfl, hheld]
          · rw [if_neg hxb, upd_ne]
            · exact S.ret x y hx
            · intro he; subst he; exact hxb (S.inj hx hb)
        · intro x hx
          dsimp only at hx ⊢
          rw [if_neg (by intro he; subst he; rw [hb] at hx; cases hx)]
          exact S.ret0 x hx
        · intro x hx
          rcases List.mem_cons.1 hx with rfl | hx
          · dsimp only; rw [hb]; simp
          · exact S.hot x hx
        · intro x hx
          obtain ⟨h1, h2⟩ := S.mark x hx
          exact ⟨hsure h1, h2⟩
        · intro h x k hx
          obtain ⟨h1, h2⟩ := S.ptr h x k hx
          exact ⟨hsure h1, h2⟩

/-- A block all of which is in the cache is marked dirty. -/
theorem Sim.mkDirty {c : Cfg} {m : M V} {s : St V} (S : Sim c m s) {b i : Nat} (hb : s.map b = some i)
    (hv : s.valid i = none) (hp : s.pend i = none) :
    Sim c (next m (.makeDirty b) (.bool true)) { s with dirty := upd s.dirty i true } := by
  have hblk : s.blk i = m.val b := by
    rcases hd : s.dirty i with _ | _
    · exact S.all b i hb hd hv hp
    · exact (S.dty b i hb hd).2.2
  dsimp only [next]
  refine { S with wb := ⟨S.wb.1, S.wb.2, S.wb.3⟩, pnd := ?_, mark := ?_, dty := ?_, cln := ?_, all := ?_ }
  · intro x y z hx hy
    dsimp only at hx hy ⊢
    by_cases hyi : y = i
    · subst hyi; rw [hp] at hy; cases hy
    · rw [upd_ne _ _ hyi]; exact S.pnd x y z hx hy
  · intro x hx
    dsimp only at hx ⊢
    simp only [Bool.or_eq_true, Bool.and_eq_true, decide_eq_true_eq] at hx
    rcases hx with hx | ⟨rfl, hx⟩
    · obtain ⟨h1, y, h2, h3⟩ := S.mark x hx
      refine ⟨h1, y, h2, ?_⟩
      by_cases hyi : y = i
      · subst hyi; simp
      · rw [upd_ne _ _ hyi]; exact h3
    · exact ⟨hx, i, hb, by simp⟩
  · intro x y hx hy
    dsimp only at hx hy ⊢
    by_cases hyi : y = i
    · subst hyi
      obtain rfl := S.inj hx hb
      exact ⟨hv, by simp, hblk⟩
    · rw [upd_ne _ _ hyi] at hy
      obtain ⟨h1, h2, h3⟩ := S.dty x y hx hy
      exact ⟨h1, by simp [h2], h3⟩
  · intro x y hx hy
    dsimp only at hx hy ⊢
    by_cases hyi : y = i
    · subst hyi; rw [upd_self] at hy; cases hy
    · rw [upd_ne _ _ hyi] at hy; exact S.cln x y hx hy
  · intro x y hx hy
    dsimp only at hx hy ⊢
    by_cases hyi : y = i
    · subst hyi; rw [upd_self] at hy; cases hy
    · rw [upd_ne _ _ hyi] at hy; exact S.all x y hx hy

theorem makeDirty_ok {c : Cfg} {m : M V} {s : St V} (S : Sim c m s) (b : Nat) :
    Post c.n m (.makeDirty b) (.bool (makeDirty c s b).1) ∧
      Sim c (next m (.makeDirty b) (.bool (makeDirty c s b).1)) (makeDirty c s b).2 := by
  unfold makeDirty
  rcases hb : s.map b with _ | i
  · exact ⟨.inr ⟨rfl, (S.absent hb).1⟩, S⟩
  · refine ⟨.inl rfl, ?_⟩
    dsimp only
    have key : ∀ t : St V, Sim c m t → t.map b = some i → t.valid i = none →
        Sim c (next m (.makeDirty b) (.bool true)) { wait t i with dirty := upd (wait t i).dirty i true } := by
      intro t T htb htv
      obtain ⟨T1, hp⟩ := T.wait htb
      have e1 : (wait t i).map = t.map := by unfold wait; split <;> rfl
      have e2 : (wait t i).valid = t.valid := by unfold wait; split <;> rfl
      exact T1.mkDirty (by rw [e1]; exact htb) (by rw [e2]; exact htv) hp
    by_cases hv : s.valid i = none
    · rw [if_pos hv]
      exact key s S hb hv
    · rw [if_neg hv]
      have hdone := drain_done c s b
      have S2 := S.done hdone
      obtain ⟨d1, d2, d3, d4, d5, d6, d7⟩ := done_map hdone
      have hb2 : (drain c s b).map b = some i := by rw [d1]; exact hb
      have hv2 : (drain c s b).valid i ≠ none := by rw [d2]; exact hv
      exact key _ (S2.readAll hb2 hv2 S2.lru) hb2 (by simp)

theorem write_ok {c : Cfg} {m : M V} {s : St V} (S : Sim c m s) {h b i : Nat} (v : V) (hp : m.ptr h = some (b, i))
    (hm : m.marked b = true) : (step c s (.write h v)).2 = .unit ∧
      Sim c (next m (.write h v) .unit) (step c s (.write h v)).1 := by
  obtain ⟨-, y, h2, h3, h4⟩ := S.ptr h b i hp
  obtain ⟨-, y', g2, g3⟩ := S.mark b hm
  rw [h2] at g2; cases g2
  obtain ⟨k1, k2, k3⟩ := S.dty b y h2 g3
  simp only [step, h3, next, hp, true_and]
  have hother : ∀ {x}, x ≠ b → (fun y => if x = b ∧ y = i then v else m.val x y) = m.val x := by
    intro x hx; funext y; rw [if_neg (fun h => hx h.1)]
  have hslot : ∀ {x z}, s.map x = some z → x ≠ b → z ≠ y := by
    intro x z hx hxb he; subst he; exact hxb (S.inj hx h2)
  refine { S with wb := ⟨S.wb.1, S.wb.2, S.wb.3⟩, dty := ?_, cln := ?_, all := ?_, sub := ?_, out := ?_, ptr := ?_ }
  · intro x z hx hd
    dsimp only at hx hd ⊢
    by_cases hxb : x = b
    · subst hxb
      rw [h2] at hx; cases hx
      refine ⟨k1, k2, ?_⟩
      rw [upd_self]
      funext w
      by_cases hw : w = i
      · subst hw; simp
      · rw [upd_ne _ _ hw, if_neg (fun h => hw h.2), k3]
    · rw [hother hxb, upd_ne _ _ (hslot hx hxb)]
      exact S.dty x z hx hd
  · intro x z hx hd
    dsimp only at hx hd ⊢
    by_cases hxb : x = b
    · subst hxb; rw [h2] at hx; cases hx; rw [g3] at hd; cases hd
    · rw [hother hxb]; exact S.cln x z hx hd
  · intro x z hx hd q1 q2
    dsimp only at hx hd q1 q2 ⊢
    by_cases hxb : x = b
    · subst hxb; rw [h2] at hx; cases hx; rw [g3] at hd; cases hd
    · rw [hother hxb, upd_ne _ _ (hslot hx hxb)]; exact S.all x z hx hd q1 q2
  · intro x z k hx q1
    dsimp only at hx q1 ⊢
    by_cases hxb : x = b
    · subst hxb; rw [h2] at hx; cases hx; rw [k1] at q1; cases q1
    · rw [if_neg (fun h => hxb h.1), upd_ne _ _ (hslot hx hxb)]; exact S.sub x z k hx q1
  · intro x hx hl
    dsimp only at hx hl ⊢
    have hxb : x ≠ b := by rintro rfl; rw [h2] at hx; cases hx
    rw [hother hxb]; exact S.out x hx hl
  · intro h' x k hx
    obtain ⟨q1, z, q2, q3, q4⟩ := S.ptr h' x k hx
    refine ⟨q1, z, q2, q3, ?_⟩
    dsimp only
    by_cases hxb : x = b
    · subst hxb
      rw [h2] at q2; cases q2
      rw [upd_self]
      by_cases hk : k = i
      · subst hk; simp
      · rw [upd_ne _ _ hk, if_neg (fun h => hk h.2)]; exact q4
    · rw [if_neg (fun h => hxb h.1), upd_ne _ _ (hslot q2 hxb)]; exact q4

theorem put_ok {c : Cfg} {m : M V} {s : St V} (S : Sim c m s) (hfi : c.fifo = true) {b : Nat} (x : Nat → V)
    (hs : m.seen b = false) : Sim c (next m (.put b x) .unit) (put c s b x) := by
  have hb0 : s.map b = none := by
    rcases h : s.map b with _ | i
    · rfl
    · have := S.seen b (by rw [h]; simp); rw [hs] at this; cases this
  unfold put
  dsimp only
  have hdone := drain_done c s b
  have S2 := S.done hdone
  have hnr := drain_noReq hfi S.wb b
  have hb : (drain c s b).map b = none := by rw [(done_map hdone).1]; exact hb0
  generalize drain c s b = t at *
  have hother : ∀ {y}, y ≠ b → (if y = b then x else m.val y) = m.val y := fun h => if_neg h
  have hne : ∀ {y z}, t.map y = some z → y ≠ b := by rintro y z h rfl; rw [hb] at h; cases h
  dsimp only [next]
  refine { S2 with wb := ⟨S2.wb.1, S2.wb.2, S2.wb.3⟩, def_ := ?_, dty := ?_, cln := ?_, all := ?_, sub := ?_, out := ?_, ptr := ?_ }
  · intro y hy; dsimp only; simp [S2.def_ y hy]
  · intro y z h1 h2
    dsimp only
    rw [hother (hne h1)]; exact S2.dty y z h1 h2
  · intro y z h1 h2
    dsimp only
    rw [hother (hne h1), upd_ne _ _ (hne h1)]; exact S2.cln y z h1 h2
  · intro y z h1 h2 h3 h4
    dsimp only
    rw [hother (hne h1)]; exact S2.all y z h1 h2 h3 h4
  · intro y z k h1 h2
    dsimp only
    rw [hother (hne h1)]; exact S2.sub y z k h1 h2
  · intro y h1 h2
    dsimp only at h1 h2 ⊢
    by_cases hyb : y = b
    · subst hyb
      rw [if_pos rfl]
      exact ⟨fun j hj => absurd hj (hnr j), fun _ => by dsimp only; rw [upd_self]⟩
    · rw [hother hyb]
      have hl : m.lost y = false := by simpa [hyb] using h2
      obtain ⟨g1, g2⟩ := S2.out y h1 hl
      exact ⟨g1, fun h => by dsimp only; rw [upd_ne _ _ hyb]; exact g2 h⟩
  · intro h y k hy
    obtain ⟨q1, z, q2, q3, q4⟩ := S2.ptr h y k hy
    refine ⟨q1, z, q2, q3, ?_⟩
    dsimp only
    rw [hother (hne q2)]; exact q4

/-! ### flush and clear -/

/-- After `flush`: everything is in external memory; what is in the cache may be rubbish. -/
structure Fl (c : Cfg) (m : M V) (s : St V) : Prop where
  lru : LruOk c.n s.lru
  wb : WB c s
  none : ∀ j, s.wreq j = none
  disk : ∀ b, m.lost b = false → s.disk b = m.val b
  same : ∀ b, m.changed b = false

/-- While flushing. -/
structure Mid (c : Cfg) (m : M V) (s : St V) : Prop where
  lru : LruOk c.n s.lru
  wb : WB c s
  slot : ∀ b i, s.map b = some i → i < c.n ∧ s.bids i = b
  dty : ∀ b i, s.map b = some i → s.dirty i = true → s.blk i = m.val b ∧ NoReq s b
  rest : ∀ b, m.lost b = false → (∀ i, s.map b = some i → s.dirty i = false) → Stored s b (m.val b)

theorem Sim.mid {c : Cfg} {m : M V} {s : St V} (S : Sim c m s) : Mid c m s := by
  refine ⟨S.lru, S.wb, fun b i h => ⟨(S.slot b i h).1, (S.slot b i h).2.1⟩, ?_, ?_⟩
  · intro b i hb hd
    exact ⟨(S.dty b i hb hd).2.2, S.noreq b (by rw [hb]; simp)⟩
  · intro b hl hc
    rcases hb : s.map b with _ | i
    · exact S.out b hb hl
    · have hn := S.noreq b (by rw [hb]; simp)
      exact ⟨fun j hj => absurd hj (hn j), fun _ => S.cln b i hb (hc i hb)⟩

theorem Mid.complete {c : Cfg} {m : M V} {s : St V} (S : Mid c m s) (j : Nat) : Mid c m (complete s j) := by
  have hs := complete_same s j
  have hm : (BlockCache.complete s j).map = s.map := by rw [hs]
  have hd : (BlockCache.complete s j).dirty = s.dirty := by rw [hs]
  have hb : (BlockCache.complete s j).blk = s.blk := by rw [hs]
  have hi : (BlockCache.complete s j).bids = s.bids := by rw [hs]
  have hl : (BlockCache.complete s j).lru = s.lru := by rw [hs]
  refine ⟨by rw [hl]; exact S.lru, wb_complete S.wb j, by rw [hm, hi]; exact S.slot, ?_, ?_⟩
  · intro b i h1 h2
    rw [hm] at h1; rw [hd] at h2; rw [hb]
    exact ⟨(S.dty b i h1 h2).1, noReq_complete (S.dty b i h1 h2).2 j⟩
  · intro b h1 h2
    rw [hm, hd] at h2
    exact stored_complete S.wb (S.rest b h1 h2) j

theorem flushSlot_ok {c : Cfg} {m : M V} {s : St V} (S : Mid c m s) (hm : 0 < c.m) (i : Nat) :
    ∃ s', flushSlot s i = some s' ∧ Mid c m s' ∧ s'.map = s.map ∧ (∀ b, s.map b = some i → s'.dirty i = false) ∧
      (∀ k, s.dirty k = false → s'.dirty k = false) := by
  unfold flushSlot
  by_cases hc : s.map (s.bids i) = some i ∧ s.dirty i = true
  · rw [if_pos hc]
    obtain ⟨hb, hd⟩ := hc
    unfold writeBack
    obtain ⟨j, s0, f, q, hfb, hs0, hj, hperm, hq⟩ := freeBuf_ok S.wb hm
    rw [hfb]
    have S0 : Mid c m s0 := by
      rcases hs0 with rfl | rfl
      · exact S
      · exact S.complete j
    have e1 : s0.map = s.map := by rcases hs0 with rfl | rfl; rfl; rw [complete_same]
    have e2 : s0.dirty = s.dirty := by rcases hs0 with rfl | rfl; rfl; rw [complete_same]
    have e3 : s0.bids = s.bids := by rcases hs0 with rfl | rfl; rfl; rw [complete_same]
    have hb0 : s0.map (s0.bids i) = some i := by rw [e1, e3]; exact hb
    have hd0 : s0.dirty i = true := by rw [e2]; exact hd
    obtain ⟨k1, k2⟩ := S0.dty _ i hb0 hd0
    refine ⟨_, rfl, ?_, e1, ?_, ?_⟩
    · have hwr : ∀ {j' x}, upd s0.wreq j (some (s0.bids i)) j' = some x → (j' = j ∧ x = s0.bids i) ∨ (j' ≠ j ∧ s0.wreq j' = some x) := by
        intro j' x h
        by_cases he : j' = j
        · subst he; rw [upd_self] at h; cases h; exact .inl ⟨rfl, rfl⟩
        · rw [upd_ne _ _ he] at h; exact .inr ⟨he, h⟩
      refine ⟨S0.lru, ⟨hperm, ?_, ?_⟩, S0.slot, ?_, ?_⟩
      · intro j' x h
        rcases hwr h with ⟨rfl, -⟩ | ⟨-, h⟩
        · simp
        · simp [hq j' x h]
      · intro j1 j2 x h1 h2
        rcases hwr h1 with ⟨rfl, rfl⟩ | ⟨g1, g2⟩ <;> rcases hwr h2 with ⟨rfl, r1⟩ | ⟨r2, r3⟩
        · rfl
        · exact absurd r3 (k2 j2)
        · subst r1; exact absurd g2 (k2 j1)
        · exact S0.wb.uniq j1 j2 x g2 r3
      · intro b y h1 h2
        dsimp only at h1 h2 ⊢
        by_cases hy : y = i
        · subst hy; rw [upd_self] at h2; cases h2
        · rw [upd_ne _ _ hy] at h2
          rw [upd_ne _ _ hy]
          refine ⟨(S0.dty b y h1 h2).1, ?_⟩
          intro j' h
          rcases hwr h with ⟨-, rfl⟩ | ⟨-, h⟩
          · rw [hb0] at h1; cases h1; exact hy rfl
          · exact (S0.dty b y h1 h2).2 j' h
      · intro b h1 h2
        dsimp only at h2
        by_cases hbi : b = s0.bids i
        · subst hbi
          refine ⟨?_, ?_⟩
          · intro j' h
            rcases hwr h with ⟨rfl, -⟩ | ⟨-, h⟩
            · dsimp only; rw [upd_self]; exact k1
            · exact absurd h (k2 j')
          · intro h; exact absurd (by dsimp only; rw [upd_self]) (h j)
        · have h2' : ∀ y, s0.map b = some y → s0.dirty y = false := by
            intro y hy
            have := h2 y hy
            rw [upd_ne] at this
            · exact this
            · intro he; subst he; exact hbi (S0.slot b y hy).2.symm
          obtain ⟨g1, g2⟩ := S0.rest b h1 h2'
          refine ⟨?_, ?_⟩
          · intro j' h
            rcases hwr h with ⟨-, r⟩ | ⟨g3, h⟩
            · exact absurd r hbi
            · dsimp only; rw [upd_ne _ _ g3]; exact g1 j' h
          · intro h
            apply g2
            intro j' hj'
            apply h j'
            dsimp only
            rw [upd_ne _ _ (by intro he; subst he; rw [hj] at hj'; cases hj')]
            exact hj'
    · intro b hb'; simp
    · intro k hk
      dsimp only
      by_cases hki : k = i
      · subst hki; simp
      · rw [upd_ne _ _ hki, e2]; exact hk
  · rw [if_neg hc]
    refine ⟨s, rfl, S, rfl, ?_, fun _ h => h⟩
    intro b hb
    rcases hd : s.dirty i with _ | _
    · rfl
    · exfalso
      apply hc
      rw [(S.slot b i hb).2]
      exact ⟨hb, hd⟩

theorem flushSlots_ok {c : Cfg} {m : M V} (hm : 0 < c.m) (l : List Nat) : ∀ {s : St V}, Mid c m s →
    ∃ s', flushSlots s l = some s' ∧ Mid c m s' ∧ s'.map = s.map ∧ (∀ i ∈ l, ∀ b, s.map b = some i → s'.dirty i = false) ∧
      (∀ k, s.dirty k = false → s'.dirty k = false) := by
  induction l with
  | nil => intro s S; exact ⟨s, rfl, S, rfl, by simp, fun _ h => h⟩
  | cons i l ih =>
    intro s S
    obtain ⟨s1, h1, S1, h2, h3, h4⟩ := flushSlot_ok S hm i
    obtain ⟨s2, g1, S2, g2, g3, g4⟩ := ih S1
    refine ⟨s2, ?_, S2, by rw [g2, h2], ?_, fun k hk => g4 k (h4 k hk)⟩
    · simp [flushSlots, h1, g1]
    · intro k hk b hb
      rcases List.mem_cons.1 hk with rfl | hk
      · exact g4 k (h3 b hb)
      · exact g3 k hk b (by rw [h2]; exact hb)

theorem foldl_complete_done (l : List Nat) (s t : St V) (h : Done s t) : Done s (l.foldl complete t) := by
  induction l generalizing t with
  | nil => exact h
  | cons j l ih => rw [List.foldl_cons]; exact ih _ (.step j h)

theorem foldl_complete_none (l : List Nat) : ∀ (t : St V), ∀ j b, (l.foldl complete t).wreq j = some b →
    t.wreq j = some b ∧ j ∉ l := by
  induction l with
  | nil => intro t j b h; exact ⟨h, by simp⟩
  | cons k l ih =>
    intro t j b h
    rw [List.foldl_cons] at h
    obtain ⟨h1, h2⟩ := ih _ j b h
    rw [complete_wreq] at h1
    split at h1
    · cases h1
    · rename_i hne; exact ⟨h1, by simp [hne, h2]⟩

theorem flush_ok {c : Cfg} {m : M V} {s : St V} (S : Sim c m s) (hm : 0 < c.m) {order : List Nat}
    (ho : order.Perm (List.range c.n)) :
    ∃ s', flush c s order = some s' ∧ Fl c (next m (.flush order) .unit) s' := by
  obtain ⟨s1, h1, S1, h2, h3, -⟩ := flushSlots_ok hm order S.mid
  unfold flush
  rw [h1]
  refine ⟨_, rfl, ?_⟩
  have hdone := foldl_complete_done s1.wbusy s1 s1 .refl
  have hnone : ∀ j, (s1.wbusy.foldl complete s1).wreq j = none := by
    intro j
    rcases h : (s1.wbusy.foldl complete s1).wreq j with _ | b
    · rfl
    · obtain ⟨g1, g2⟩ := foldl_complete_none s1.wbusy s1 j b h
      exact absurd (S1.wb.busy j b g1) g2
  refine ⟨?_, ⟨?_, ?_, ?_⟩, ?_, ?_, fun _ => rfl⟩
  · simp only [wflush]; rw [(done_map hdone).2.2.2.2.2.1]; exact S1.lru
  · simp only [wflush, List.append_nil]; exact List.reverse_perm _
  · intro j b h; simp only [wflush] at h; rw [hnone j] at h; cases h
  · intro j j' b h; simp only [wflush] at h; rw [hnone j] at h; cases h
  · intro j; simp only [wflush]; exact hnone j
  · intro b hl
    simp only [wflush]
    have hl' : m.lost b = false := hl
    have hst := S1.rest b hl' (by
      intro i hi
      rw [h2] at hi
      exact h3 i (ho.mem_iff.2 (by simpa using (S.slot b i hi).1)) b hi)
    exact (done_stored S1.wb hst hdone).2 (fun j h => by rw [hnone j] at h; cases h)

theorem clear_ok {c : Cfg} {m : M V} {s : St V} (S : Sim c m s) : Sim c (next m .clear .unit) (clear c s) := by
  unfold clear
  dsimp only [next]
  refine ⟨S.lru, ⟨S.wb.1, S.wb.2, S.wb.3⟩, ?_, ?_, ?_, ?_, ?_, ?_, ?_, ?_, ?_, ?_, ?_, ?_, ?_, ?_, ?_, ?_, ?_, ?_, ?_⟩ <;>
    (try simp [List.nodup_reverse, List.nodup_range])
  intro b hl hc
  rcases hb : s.map b with _ | i
  · exact S.out b hb hl
  · have hn := S.noreq b (by rw [hb]; simp)
    refine ⟨fun j hj => absurd hj (hn j), fun _ => ?_⟩
    rcases hd : s.dirty i with _ | _
    · exact S.cln b i hb hd
    · have := (S.dty b i hb hd).2.1; rw [hc] at this; cases this

theorem clear_fl {c : Cfg} {m : M V} {s : St V} (F : Fl c m s) : Sim c (next m .clear .unit) (clear c s) := by
  unfold clear
  dsimp only [next]
  refine ⟨F.lru, ⟨F.wb.1, F.wb.2, F.wb.3⟩, ?_, ?_, ?_, ?_, ?_, ?_, ?_, ?_, ?_, ?_, ?_, ?_, ?_, ?_, ?_, ?_, ?_, ?_, ?_⟩ <;>
    (try simp [List.nodup_reverse, List.nodup_range])
  intro b hl hc
  refine ⟨fun j hj => ?_, fun _ => F.disk b hl⟩
  dsimp only at hj
  rw [F.none j] at hj
  cases hj

/-! ### Histories -/

/-- The relation in both phases. -/
def Rel (c : Cfg) (m : M V) (s : St V) : Prop :=
  (m.flushed = false ∧ Sim c m s) ∨ (m.flushed = true ∧ Fl c m s)

theorem bring_flushed (m : M V) (b : Nat) : (bring m b).flushed = m.flushed := by
  unfold Spec.bring; split <;> rfl

theorem step_ok {c : Cfg} (hn : 0 < c.n) (hm : 0 < c.m) (hfi : c.fifo = true) {m : M V} {s : St V} (R : Rel c m s) (op : Op V)
    (hp : Pre c.n m op) : Post c.n m op (step c s op).2 ∧ Rel c (next m op (step c s op).2) (step c s op).1 := by
  have need : m.flushed = false → Sim c m s := by
    intro h
    rcases R with ⟨-, S⟩ | ⟨h', -⟩
    · exact S
    · rw [h] at h'; cases h'
  cases op with
  | get b k h =>
    have S := need hp.1
    rcases get_ok S hn hm hfi hp.2 (k := k) with ⟨s', h1, h2, h3, h4⟩ | ⟨i, s', h1, h2, h3, h4⟩
    · simp only [step, h1]
      exact ⟨.inr ⟨rfl, h3, h4⟩, .inl ⟨hp.1, h2⟩⟩
    · simp only [step, h1]
      refine ⟨.inl rfl, .inl ⟨?_, h2.setPtr h (sure_bring m b) h3 h4⟩⟩
      exact (bring_flushed m b).trans hp.1
  | prefetch b =>
    have S := need hp.1
    rcases prefetch_ok S hn hm hfi hp.2 with ⟨s', h1, h2, h3, h4⟩ | ⟨s', h1, h2⟩
    · simp only [step, h1, answer]
      exact ⟨.inr ⟨rfl, h3, h4⟩, .inl ⟨hp.1, h2⟩⟩
    · simp only [step, h1, answer]
      exact ⟨.inl rfl, .inl ⟨(bring_flushed m b).trans hp.1, h2⟩⟩
  | retain b =>
    obtain ⟨h1, h2⟩ := retain_ok (need hp) b
    refine ⟨h1, .inl ⟨?_, h2⟩⟩
    simp only [step]
    rcases (retain s b).1 with _ | _ <;> exact hp
  | release b =>
    obtain ⟨h1, h2⟩ := release_ok (need hp) b
    refine ⟨h1, .inl ⟨?_, h2⟩⟩
    simp only [step]
    rcases (release s b).1 with _ | _ <;> exact hp
  | makeDirty b =>
    obtain ⟨h1, h2⟩ := makeDirty_ok (need hp) b
    refine ⟨h1, .inl ⟨?_, h2⟩⟩
    simp only [step]
    rcases (makeDirty c s b).1 with _ | _ <;> exact hp
  | flush order =>
    obtain ⟨s', h1, h2⟩ := flush_ok (need hp.1) hm hp.2
    simp only [step, h1, Option.map_some, answer]
    exact ⟨rfl, .inr ⟨rfl, h2⟩⟩
  | clear =>
    refine ⟨rfl, .inl ⟨rfl, ?_⟩⟩
    rcases R with ⟨-, S⟩ | ⟨-, F⟩
    · exact clear_ok S
    · exact clear_fl F
  | read h =>
    have S := need hp.1
    rcases hptr : m.ptr h with _ | ⟨b, i⟩
    · exact absurd hptr hp.2
    · obtain ⟨-, y, -, h3, h4⟩ := S.ptr h b i hptr
      simp only [step, h3]
      refine ⟨?_, .inl ⟨hp.1, S⟩⟩
      intro b' i' he
      rw [hptr] at he; cases he
      rw [h4]
  | write h v =>
    obtain ⟨hf, b, i, h1, h2⟩ := hp
    obtain ⟨g1, g2⟩ := write_ok (need hf) v h1 h2
    rw [g1]
    refine ⟨rfl, .inl ⟨?_, g2⟩⟩
    simp only [next, h1]; exact hf
  | put b x => exact ⟨rfl, .inl ⟨hp.1, put_ok (need hp.1) hfi x hp.2⟩⟩
  | complete j =>
    refine ⟨rfl, ?_⟩
    rcases R with ⟨h, S⟩ | ⟨h, F⟩
    · exact .inl ⟨h, S.done (.step j .refl)⟩
    · right
      refine ⟨h, ?_⟩
      simp only [step]
      rw [complete_none (F.none j)]; exact F

theorem run_conforms {c : Cfg} (hn : 0 < c.n) (hm : 0 < c.m) (hfi : c.fifo = true) (ops : List (Op V)) :
    ∀ {m : M V} {s : St V}, Rel c m s → Spec.Conforms c.n m ops (run c s ops) := by
  induction ops with
  | nil => intro m s _; rfl
  | cons op ops ih =>
    intro m s R hp
    obtain ⟨h1, h2⟩ := step_ok hn hm hfi R op hp
    exact ⟨h1, ih h2⟩

end BlockCache
