import Verif.BlockCache.Inv

/-! Every operation of the block cache keeps the simulation relation. -/

namespace BlockCache
open Stxxl.Pager (Lru)
open Spec (Op Out M Sure Pre Post AllHeld tidy bring next)

variable {V : Type}

/-- Everything that is not retained may go. -/
def forget (m : M V) : M V := tidy { m with hot := [] }

theorem tidy_ptr {m : M V} {h b k : Nat} (hp : (tidy m).ptr h = some (b, k)) : m.ptr h = some (b, k) ∧ Sure m b := by
  simp only [tidy] at hp
  rcases h0 : m.ptr h with _ | ⟨b', k'⟩
  · rw [h0] at hp; cases hp
  · rw [h0] at hp
    dsimp only at hp
    split at hp
    · rename_i hs; cases hp; exact ⟨rfl, hs⟩
    · cases hp

theorem tidy_marked {m : M V} {b : Nat} (hp : (tidy m).marked b = true) : m.marked b = true ∧ Sure m b := by
  simpa [tidy] using hp

theorem sure_tidy {m : M V} {b : Nat} : Sure (tidy m) b ↔ Sure m b := Iff.rfl

/-- Knowing less about what is in the cache. -/
theorem Sim.weaken {c : Cfg} {m : M V} {s : St V} (S : Sim c m s) (hot : List Nat)
    (hh : ∀ b ∈ hot, s.map b ≠ none) : Sim c (tidy { m with hot := hot }) s := by
  refine { S with
    hot := hh
    mark := ?_
    ptr := ?_ }
  · intro b hb
    obtain ⟨h1, h2⟩ := tidy_marked hb
    exact ⟨h2, (S.mark b h1).2⟩
  · intro h b k hp
    obtain ⟨h1, h2⟩ := tidy_ptr hp
    exact ⟨h2, (S.ptr h b k h1).2⟩

/-- Waiting for a block that is being read. -/
theorem Sim.wait {c : Cfg} {m : M V} {s : St V} (S : Sim c m s) {b i : Nat} (hb : s.map b = some i) :
    Sim c m (wait s i) ∧ (wait s i).pend i = none := by
  unfold BlockCache.wait
  rcases hp : s.pend i with _ | b'
  · exact ⟨S, hp⟩
  · obtain ⟨rfl, hv, hd⟩ := S.pnd b i b' hb hp
    have hdk := S.cln b' i hb hd
    refine ⟨?_, by simp⟩
    have hne : ∀ {x y}, s.map x = some y → x ≠ b' → y ≠ i := by
      intro x y hx hxb he; subst he; exact hxb (S.inj hx hb)
    refine { S with wb := ⟨S.wb.1, S.wb.2, S.wb.3⟩, pnd := ?_, fpnd := ?_, dty := ?_, all := ?_, sub := ?_, ptr := ?_ }
    · intro x y z hx hy
      dsimp only at hx hy ⊢
      by_cases hyi : y = i
      · subst hyi; rw [upd_self] at hy; cases hy
      · rw [upd_ne _ _ hyi] at hy; exact S.pnd x y z hx hy
    · intro y hy
      dsimp only at hy ⊢
      by_cases hyi : y = i
      · subst hyi; simp
      · rw [upd_ne _ _ hyi]; exact S.fpnd y hy
    · intro x y hx hy
      dsimp only at hx hy ⊢
      by_cases hyi : y = i
      · subst hyi; rw [hd] at hy; cases hy
      · rw [upd_ne _ _ hyi]; exact S.dty x y hx hy
    · intro x y hx h1 h2 h3
      dsimp only at hx h1 h2 h3 ⊢
      by_cases hyi : y = i
      · subst hyi
        obtain rfl := S.inj hx hb
        rw [upd_self]; exact hdk
      · rw [upd_ne _ _ hyi] at h3 ⊢; exact S.all x y hx h1 h2 h3
    · intro x y k hx h1
      dsimp only at hx h1 ⊢
      by_cases hyi : y = i
      · subst hyi; rw [hv] at h1; cases h1
      · rw [upd_ne _ _ hyi]; exact S.sub x y k hx h1
    · intro h x k hp'
      obtain ⟨h1, y, h2, h3, h4⟩ := S.ptr h x k hp'
      refine ⟨h1, y, h2, h3, ?_⟩
      dsimp only
      by_cases hyi : y = i
      · subst hyi
        obtain rfl := S.inj h2 hb
        rw [upd_self, hdk]
      · rw [upd_ne _ _ hyi]; exact h4

theorem forget_not {m : M V} {b : Nat} (h0 : m.held b = 0) : ¬ Sure (forget m) b := by
  rintro (h | h)
  · exact absurd h (by simp only [forget, tidy]; omega)
  · cases h

/-- A clean victim is dropped. -/
theorem drop_clean {c : Cfg} {m : M V} {s : St V} (S : Sim c m s) {b v : Nat} (hb : s.map b = some v)
    (h0 : m.held b = 0) (hd : s.dirty v = false) (hp : s.pend v = none) :
    Sim c (forget m) { s with map := upd s.map b none, free := v :: s.free } := by
  obtain ⟨hv1, hv2, hv3⟩ := S.slot b v hb
  have hne : ∀ {x y}, upd s.map b none x = some y → x ≠ b ∧ s.map x = some y := by
    intro x y hx
    by_cases hxb : x = b
    · subst hxb; rw [upd_self] at hx; cases hx
    · rw [upd_ne _ _ hxb] at hx; exact ⟨hxb, hx⟩
  have hnn : ∀ {x}, upd s.map b none x ≠ none → x ≠ b ∧ s.map x ≠ none := by
    intro x hx
    rcases hy : upd s.map b none x with _ | y
    · exact absurd hy hx
    · obtain ⟨h1, h2⟩ := hne hy; exact ⟨h1, by rw [h2]; simp⟩
  refine { lru := S.lru, wb := S.wb.1 |> fun h => ⟨h, S.wb.2, S.wb.3⟩, slot := ?_, fnd := ?_, flt := ?_, part := ?_, ret := ?_,
           ret0 := ?_, hot := ?_, seen := ?_, def_ := ?_, pnd := ?_, fpnd := ?_, mark := ?_, dty := ?_, noreq := ?_,
           cln := ?_, all := ?_, sub := ?_, out := ?_, ptr := ?_ }
  · intro x y hx
    obtain ⟨h1, h2⟩ := hne hx
    obtain ⟨h3, h4, h5⟩ := S.slot x y h2
    refine ⟨h3, h4, ?_⟩
    simp only [List.mem_cons, not_or]
    exact ⟨fun he => h1 (by subst he; exact S.inj h2 hb), h5⟩
  · exact List.nodup_cons.2 ⟨hv3, S.fnd⟩
  · intro i hi
    rcases List.mem_cons.1 hi with rfl | hi
    · exact hv1
    · exact S.flt i hi
  · intro i hi
    rcases S.part i hi with h | h
    · exact .inl (List.mem_cons_of_mem _ h)
    · by_cases hx : s.bids i = b
      · left
        rw [hx, hb] at h; cases h
        exact List.mem_cons_self
      · right; dsimp only; rw [upd_ne _ _ hx]; exact h
  · intro x y hx; exact S.ret x y (hne hx).2
  · intro x hx
    dsimp only at hx
    by_cases hxb : x = b
    · subst hxb; exact h0
    · rw [upd_ne _ _ hxb] at hx; exact S.ret0 x hx
  · intro x hx; cases hx
  · intro x hx; exact S.seen x (hnn hx).2
  · intro x hx; exact S.def_ x (hnn hx).2
  · intro x y z hx hy; exact S.pnd x y z (hne hx).2 hy
  · intro i hi
    rcases List.mem_cons.1 hi with rfl | hi
    · exact hp
    · exact S.fpnd i hi
  · intro x hx
    obtain ⟨h1, h2⟩ := tidy_marked hx
    obtain ⟨-, i, h3, h4⟩ := S.mark x h1
    refine ⟨h2, i, ?_, h4⟩
    dsimp only
    rw [upd_ne]
    · exact h3
    · intro he; subst he; exact forget_not h0 h2
  · intro x y hx hy; exact S.dty x y (hne hx).2 hy
  · intro x hx; exact S.noreq x (hnn hx).2
  · intro x y hx; exact S.cln x y (hne hx).2
  · intro x y hx; exact S.all x y (hne hx).2
  · intro x y k hx; exact S.sub x y k (hne hx).2
  · intro x hx hl
    dsimp only at hx
    by_cases hxb : x = b
    · subst hxb
      have hn : NoReq s x := S.noreq x (by rw [hb]; simp)
      exact ⟨fun j hj => absurd hj (hn j), fun _ => S.cln x v hb hd⟩
    · rw [upd_ne _ _ hxb] at hx; exact S.out x hx hl
  · intro h x k hx
    obtain ⟨h1, h2⟩ := tidy_ptr hx
    obtain ⟨-, i, h3, h4, h5⟩ := S.ptr h x k h1
    refine ⟨h2, i, ?_, h4, h5⟩
    dsimp only
    rw [upd_ne]
    · exact h3
    · intro he; subst he; exact forget_not h0 h2

/-- A dirty victim is handed to write buffer `j`. -/
theorem drop_dirty {c : Cfg} {m : M V} {s : St V} (S : Sim c m s) {b v j : Nat} {f q : List Nat} (hb : s.map b = some v)
    (h0 : m.held b = 0) (hd : s.dirty v = true) (hj : s.wreq j = none) (hperm : (f ++ (q ++ [j])).Perm (List.range c.m))
    (hq : ∀ j' b, s.wreq j' = some b → j' ∈ q) (junk : Nat → V) :
    Sim c (forget m) { s with wfree := f, blk := upd s.blk v junk, wbuf := upd s.wbuf j (s.blk v),
                              wreq := upd s.wreq j (some b), wbusy := q ++ [j],
                              map := upd s.map b none, free := v :: s.free } := by
  obtain ⟨hv1, hv2, hv3⟩ := S.slot b v hb
  have hnr := S.noreq b (by rw [hb]; simp)
  have hp : s.pend v = none := by
    rcases h : s.pend v with _ | b'
    · rfl
    · have := (S.pnd b v b' hb h).2.2; rw [hd] at this; cases this
  have hne : ∀ {x y}, upd s.map b none x = some y → x ≠ b ∧ s.map x = some y := by
    intro x y hx
    by_cases hxb : x = b
    · subst hxb; rw [upd_self] at hx; cases hx
    · rw [upd_ne _ _ hxb] at hx; exact ⟨hxb, hx⟩
  have hnv : ∀ {x y}, upd s.map b none x = some y → y ≠ v := by
    intro x y hx he
    obtain ⟨h1, h2⟩ := hne hx
    subst he; exact h1 (S.inj h2 hb)
  have hnn : ∀ {x}, upd s.map b none x ≠ none → x ≠ b ∧ s.map x ≠ none := by
    intro x hx
    rcases hy : upd s.map b none x with _ | y
    · exact absurd hy hx
    · obtain ⟨h1, h2⟩ := hne hy; exact ⟨h1, by rw [h2]; simp⟩
  have hwr : ∀ {j' x}, upd s.wreq j (some b) j' = some x → (j' = j ∧ x = b) ∨ (j' ≠ j ∧ s.wreq j' = some x) := by
    intro j' x h
    by_cases he : j' = j
    · subst he; rw [upd_self] at h; cases h; exact .inl ⟨rfl, rfl⟩
    · rw [upd_ne _ _ he] at h; exact .inr ⟨he, h⟩
  refine { lru := S.lru, wb := ⟨hperm, ?_, ?_⟩, slot := ?_, fnd := ?_, flt := ?_, part := ?_, ret := ?_,
           ret0 := ?_, hot := ?_, seen := ?_, def_ := ?_, pnd := ?_, fpnd := ?_, mark := ?_, dty := ?_, noreq := ?_,
           cln := ?_, all := ?_, sub := ?_, out := ?_, ptr := ?_ }
  · intro j' x h
    rcases hwr h with ⟨rfl, -⟩ | ⟨-, h⟩
    · simp
    · simp [hq j' x h]
  · intro j1 j2 x h1 h2
    rcases hwr h1 with ⟨rfl, rfl⟩ | ⟨g1, g2⟩ <;> rcases hwr h2 with ⟨rfl, k1⟩ | ⟨k2, k3⟩
    · rfl
    · exact absurd k3 (hnr j2)
    · subst k1; exact absurd g2 (hnr j1)
    · exact S.wb.uniq j1 j2 x g2 k3
  · intro x y hx
    obtain ⟨h1, h2⟩ := hne hx
    obtain ⟨h3, h4, h5⟩ := S.slot x y h2
    refine ⟨h3, h4, ?_⟩
    simp only [List.mem_cons, not_or]
    exact ⟨hnv hx, h5⟩
  · exact List.nodup_cons.2 ⟨hv3, S.fnd⟩
  · intro i hi
    rcases List.mem_cons.1 hi with rfl | hi
    · exact hv1
    · exact S.flt i hi
  · intro i hi
    rcases S.part i hi with h | h
    · exact .inl (List.mem_cons_of_mem _ h)
    · by_cases hx : s.bids i = b
      · left
        rw [hx, hb] at h; cases h
        exact List.mem_cons_self
      · right; dsimp only; rw [upd_ne _ _ hx]; exact h
  · intro x y hx; exact S.ret x y (hne hx).2
  · intro x hx
    dsimp only at hx
    by_cases hxb : x = b
    · subst hxb; exact h0
    · rw [upd_ne _ _ hxb] at hx; exact S.ret0 x hx
  · intro x hx; cases hx
  · intro x hx; exact S.seen x (hnn hx).2
  · intro x hx; exact S.def_ x (hnn hx).2
  · intro x y z hx hy; exact S.pnd x y z (hne hx).2 hy
  · intro i hi
    rcases List.mem_cons.1 hi with rfl | hi
    · exact hp
    · exact S.fpnd i hi
  · intro x hx
    obtain ⟨h1, h2⟩ := tidy_marked hx
    obtain ⟨-, i, h3, h4⟩ := S.mark x h1
    refine ⟨h2, i, ?_, h4⟩
    dsimp only
    rw [upd_ne]
    · exact h3
    · intro he; subst he; exact forget_not h0 h2
  · intro x y hx hy
    dsimp only
    rw [upd_ne _ _ (hnv hx)]
    exact S.dty x y (hne hx).2 hy
  · intro x hx j' h
    obtain ⟨h1, h2⟩ := hnn hx
    rcases hwr h with ⟨rfl, rfl⟩ | ⟨-, h⟩
    · exact h1 rfl
    · exact S.noreq x h2 j' h
  · intro x y hx; exact S.cln x y (hne hx).2
  · intro x y hx h1 h2 h3
    dsimp only
    rw [upd_ne _ _ (hnv hx)]
    exact S.all x y (hne hx).2 h1 h2 h3
  · intro x y k hx h1
    dsimp only
    rw [upd_ne _ _ (hnv hx)]
    exact S.sub x y k (hne hx).2 h1
  · intro x hx hl
    dsimp only at hx
    by_cases hxb : x = b
    · subst hxb
      refine ⟨?_, ?_⟩
      · intro j' h
        rcases hwr h with ⟨rfl, -⟩ | ⟨-, h⟩
        · dsimp only; rw [upd_self]; exact (S.dty x v hb hd).2.2
        · exact absurd h (hnr j')
      · intro h; exact absurd (by dsimp only; rw [upd_self]) (h j)
    · rw [upd_ne _ _ hxb] at hx
      obtain ⟨g1, g2⟩ := S.out x hx hl
      refine ⟨?_, ?_⟩
      · intro j' h
        rcases hwr h with ⟨-, rfl⟩ | ⟨g3, h⟩
        · exact absurd rfl hxb
        · dsimp only; rw [upd_ne _ _ g3]; exact g1 j' h
      · intro h
        apply g2
        intro j' hj'
        apply h j'
        dsimp only
        rw [upd_ne _ _ (by intro he; subst he; rw [hj] at hj'; cases hj')]
        exact hj'
  · intro h x k hx
    obtain ⟨h1, h2⟩ := tidy_ptr hx
    obtain ⟨-, i, h3, h4, h5⟩ := S.ptr h x k h1
    have hxb : x ≠ b := by intro he; subst he; exact forget_not h0 h2
    refine ⟨h2, i, ?_, h4, ?_⟩
    · dsimp only; rw [upd_ne _ _ hxb]; exact h3
    · dsimp only
      rw [upd_ne _ _ (by intro he; subst he; exact hxb (S.inj h3 hb))]
      exact h5

/-- Kicking slot `v` out. -/
theorem evict_ok {c : Cfg} {m : M V} {s : St V} (S : Sim c m s) (hm : 0 < c.m) {b v : Nat} (hb : s.map b = some v)
    (h0 : m.held b = 0) : ∃ s', evict s v = some s' ∧ Sim c (forget m) s' ∧ s'.free ≠ [] ∧
      ∀ x, s.map x = none → s'.map x = none := by
  obtain ⟨hv1, hv2, hv3⟩ := S.slot b v hb
  unfold evict
  dsimp only
  obtain ⟨s1, hs1, S1, hmap, hfree, hp1, hbids⟩ : ∃ s1, (if s.valid v = none then wait s v else s) = s1 ∧ Sim c m s1 ∧
      s1.map = s.map ∧ s1.free = s.free ∧ s1.pend v = none ∧ s1.bids = s.bids := by
    by_cases hv : s.valid v = none
    · refine ⟨wait s v, by rw [if_pos hv], (S.wait hb).1, ?_, ?_, (S.wait hb).2, ?_⟩ <;>
        (unfold BlockCache.wait; split <;> rfl)
    · refine ⟨s, by rw [if_neg hv], S, rfl, rfl, ?_, rfl⟩
      rcases h : s.pend v with _ | b'
      · rfl
      · exact absurd (S.pnd b v b' hb h).2.1 hv
  rw [hs1]
  have hb1 : s1.map b = some v := by rw [hmap]; exact hb
  have hbv : s1.bids v = b := by rw [hbids]; exact hv2
  have hmono : ∀ x, s.map x = none → upd s1.map b none x = none := by
    intro x hx
    by_cases hxb : x = b
    · subst hxb; simp
    · rw [upd_ne _ _ hxb, hmap]; exact hx
  rcases hd : s1.dirty v with _ | _
  · rw [if_neg (by simp)]
    dsimp only
    refine ⟨{ s1 with map := upd s1.map (s1.bids v) none, free := v :: s1.free }, rfl, ?_, by simp, ?_⟩
    · rw [hbv]; exact drop_clean S1 hb1 h0 hd hp1
    · dsimp only; rw [hbv]; exact hmono
  · rw [if_pos rfl]
    unfold writeBack
    obtain ⟨j, s0, f, q, hfb, hs0, hj, hperm, hq⟩ := freeBuf_ok S1.wb hm
    rw [hfb]
    dsimp only
    have S0 : Sim c m s0 := by
      rcases hs0 with rfl | rfl
      · exact S1
      · exact S1.done (.step j .refl)
    have hmap0 : s0.map = s1.map := by rcases hs0 with rfl | rfl; rfl; rw [complete_same]
    have hdir0 : s0.dirty = s1.dirty := by rcases hs0 with rfl | rfl; rfl; rw [complete_same]
    have hbid0 : s0.bids = s1.bids := by rcases hs0 with rfl | rfl; rfl; rw [complete_same]
    have hb0 : s0.bids v = b := by rw [hbid0]; exact hbv
    refine ⟨_, rfl, ?_, by dsimp only; simp, ?_⟩
    · rw [hb0]
      exact drop_dirty S0 (by rw [hmap0]; exact hb1) h0 (by rw [hdir0]; exact hd) hj hperm hq (s0.wbuf j)
    · dsimp only; rw [hb0, hmap0]; exact hmono

/-- `if (free_blocks_.empty()) kick_block()`. -/
theorem makeRoom_ok {c : Cfg} {m : M V} {s : St V} (S : Sim c m s) (hn : 0 < c.n) (hm : 0 < c.m) :
    (∃ s', makeRoom c s = some (false, s') ∧ Sim c m s' ∧ AllHeld m c.n) ∨
    (∃ s', makeRoom c s = some (true, s') ∧ Sim c (forget m) s' ∧ s'.free ≠ [] ∧
      ∀ x, s.map x = none → s'.map x = none) := by
  unfold makeRoom
  by_cases hf : s.free = []
  · rw [if_pos hf]
    unfold kick
    have hmapped : ∀ i < c.n, s.map (s.bids i) = some i := by
      intro i hi
      rcases S.part i hi with h | h
      · rw [hf] at h; cases h
      · exact h
    rcases kickLoop_ok hn (fun i => decide (0 < s.retain i)) S.lru with ⟨p', h1, h2, h3⟩ | ⟨v, p', h1, h2, h3, h4⟩
    · left
      rw [h1]
      refine ⟨_, rfl, { S with lru := h2, wb := ⟨S.wb.1, S.wb.2, S.wb.3⟩ }, ?_⟩
      refine ⟨(List.range c.n).map s.bids, ?_, by simp, ?_⟩
      · rw [List.nodup_map_iff_inj_on List.nodup_range]
        intro x hx y hy he
        have h5 := hmapped x (by simpa using hx)
        have h6 := hmapped y (by simpa using hy)
        rw [he, h6] at h5; cases h5; rfl
      · intro b hb
        obtain ⟨i, hi, rfl⟩ := List.mem_map.1 hb
        have hi' : i < c.n := by simpa using hi
        have := S.ret _ i (hmapped i hi')
        have := h3 i hi'
        simp at this; omega
    · right
      rw [h1]
      have S1 : Sim c m { s with lru := p' } := { S with lru := h2, wb := ⟨S.wb.1, S.wb.2, S.wb.3⟩ }
      have hr := S.ret _ v (hmapped v h3)
      have h4' : ¬ 0 < s.retain v := by simpa using h4
      obtain ⟨s', g1, g2, g3, g4⟩ := evict_ok S1 hm (hmapped v h3) (by omega)
      exact ⟨s', by dsimp only; rw [g1]; rfl, g2, g3, g4⟩
  · rw [if_neg hf]
    right
    refine ⟨s, rfl, S.weaken [] (by simp), hf, fun _ h => h⟩

/-- A block enters the cache. -/
theorem install {c : Cfg} {m : M V} {s : St V} (S : Sim c (forget m) s) {b i : Nat} {fr : List Nat}
    (hf : s.free = i :: fr) (hb : s.map b = none) (hn : NoReq s b) (hl : m.lost b = false) (hns : ¬ Sure m b)
    (hmk : m.marked b = false) (hpt : ∀ h k, m.ptr h ≠ some (b, k)) {x : Nat → V} {vl pd : Option Nat} {p : Lru}
    (hp : LruOk c.n p) (h1 : vl = none → pd = some b) (h2 : ∀ k, vl = some k → pd = none ∧ x k = m.val b k) :
    Sim c (bring m b) { s with free := fr, map := upd s.map b (some i), bids := upd s.bids i b, dirty := upd s.dirty i false,
                               retain := upd s.retain i 0, blk := upd s.blk i x, valid := upd s.valid i vl,
                               pend := upd s.pend i pd, lru := p } := by
  have hbr : bring m b = tidy { m with hot := [b], seen := fun x => x = b || m.seen x } := by
    unfold bring; rw [if_neg hns]
  rw [hbr]
  have hifr : i ∉ fr := by have := S.fnd; rw [hf] at this; exact (List.nodup_cons.1 this).1
  have hin : i < c.n := S.flt i (by rw [hf]; simp)
  have hnot : ∀ {y z}, s.map y = some z → z ≠ i := by
    intro y z hy he; subst he
    exact (S.slot y z hy).2.2 (by rw [hf]; simp)
  have hmap : ∀ {y z}, upd s.map b (some i) y = some z → (y = b ∧ z = i) ∨ (y ≠ b ∧ z ≠ i ∧ s.map y = some z) := by
    intro y z h
    by_cases hy : y = b
    · subst hy; rw [upd_self] at h; cases h; exact .inl ⟨rfl, rfl⟩
    · rw [upd_ne _ _ hy] at h; exact .inr ⟨hy, hnot h, h⟩
  have hmapn : ∀ {y}, upd s.map b (some i) y = none → y ≠ b ∧ s.map y = none := by
    intro y h
    by_cases hy : y = b
    · subst hy; rw [upd_self] at h; cases h
    · rw [upd_ne _ _ hy] at h; exact ⟨hy, h⟩
  have hmapne : ∀ {y}, upd s.map b (some i) y ≠ none → y = b ∨ s.map y ≠ none := by
    intro y h
    by_cases hy : y = b
    · exact .inl hy
    · rw [upd_ne _ _ hy] at h; exact .inr h
  have hsure : ∀ {y}, y ≠ b → Sure { m with hot := [b], seen := fun x => x = b || m.seen x } y → Sure { m with hot := [] } y := by
    rintro y hy (h | h)
    · exact .inl h
    · exact absurd (by simpa using h) hy
  have hst : Stored s b (m.val b) := S.out b hb hl
  have hdk : s.disk b = m.val b := hst.2 hn
  refine { lru := hp, wb := ⟨S.wb.1, S.wb.2, S.wb.3⟩, slot := ?_, fnd := ?_, flt := ?_, part := ?_, ret := ?_,
           ret0 := ?_, hot := ?_, seen := ?_, def_ := ?_, pnd := ?_, fpnd := ?_, mark := ?_, dty := ?_, noreq := ?_,
           cln := ?_, all := ?_, sub := ?_, out := ?_, ptr := ?_ }
  · intro y z h
    dsimp only at h ⊢
    rcases hmap h with ⟨rfl, rfl⟩ | ⟨g1, g2, g3⟩
    · exact ⟨hin, by simp, hifr⟩
    · obtain ⟨k1, k2, k3⟩ := S.slot y z g3
      refine ⟨k1, by rw [upd_ne _ _ g2]; exact k2, ?_⟩
      intro hz; exact k3 (by rw [hf]; exact List.mem_cons_of_mem _ hz)
  · have := S.fnd; rw [hf] at this; exact (List.nodup_cons.1 this).2
  · intro y hy; exact S.flt y (by rw [hf]; exact List.mem_cons_of_mem _ hy)
  · intro y hy
    dsimp only
    by_cases hyi : y = i
    · subst hyi; right; simp
    · rcases S.part y hy with h | h
      · rw [hf] at h
        rcases List.mem_cons.1 h with h | h
        · exact absurd h hyi
        · exact .inl h
      · right
        rw [upd_ne _ _ hyi, upd_ne]
        · exact h
        · intro he; rw [he, hb] at h; cases h
  · intro y z h
    dsimp only at h ⊢
    rcases hmap h with ⟨rfl, rfl⟩ | ⟨g1, g2, g3⟩
    · rw [upd_self]; exact (S.ret0 y hb).symm
    · rw [upd_ne _ _ g2]; exact S.ret y z g3
  · intro y h; exact S.ret0 y (hmapn h).2
  · intro y hy h
    have : y = b := by simpa [tidy] using hy
    subst this
    simp at h
  · intro y h
    show (decide (y = b) || m.seen y) = true
    rcases hmapne h with rfl | h
    · simp
    · have := S.seen y h
      simp only [forget, tidy] at this
      simp [this]
  · intro y h
    rcases hmapne h with rfl | h
    · exact hl
    · exact S.def_ y h
  · intro y z w h1' h2'
    dsimp only at h1' h2' ⊢
    rcases hmap h1' with ⟨rfl, rfl⟩ | ⟨g1, g2, g3⟩
    · rw [upd_self] at h2'
      rcases vl with _ | k
      · rw [h1 rfl] at h2'; cases h2'
        simp
      · rw [(h2 k rfl).1] at h2'; cases h2'
    · rw [upd_ne _ _ g2] at h2'
      rw [upd_ne _ _ g2, upd_ne _ _ g2]
      exact S.pnd y z w g3 h2'
  · intro y hy
    dsimp only at hy ⊢
    rw [upd_ne _ _ (by intro he; subst he; exact hifr hy)]
    exact S.fpnd y (by rw [hf]; exact List.mem_cons_of_mem _ hy)
  · intro y hy
    obtain ⟨g1, g2⟩ := tidy_marked hy
    have hyb : y ≠ b := by
      rintro rfl; dsimp only at g1; rw [hmk] at g1; cases g1
    have g3 := hsure hyb g2
    have hfm : (forget m).marked y = true := by
      have g4 : (m.marked y && decide (Sure { m with hot := [] } y)) = true := by
        rw [decide_eq_true g3]; simpa using g1
      exact g4
    obtain ⟨-, z, k1, k2⟩ := S.mark y hfm
    refine ⟨g2, z, ?_, ?_⟩
    · dsimp only; rw [upd_ne _ _ hyb]; exact k1
    · dsimp only; rw [upd_ne _ _ (hnot k1)]; exact k2
  · intro y z h hd
    dsimp only at h hd ⊢
    rcases hmap h with ⟨rfl, rfl⟩ | ⟨g1, g2, g3⟩
    · rw [upd_self] at hd; cases hd
    · rw [upd_ne _ _ g2] at hd
      rw [upd_ne _ _ g2, upd_ne _ _ g2]
      exact S.dty y z g3 hd
  · intro y h
    rcases hmapne h with rfl | h
    · exact hn
    · exact S.noreq y h
  · intro y z h hd
    dsimp only at h hd ⊢
    rcases hmap h with ⟨rfl, rfl⟩ | ⟨g1, g2, g3⟩
    · exact hdk
    · rw [upd_ne _ _ g2] at hd; exact S.cln y z g3 hd
  · intro y z h k1 k2 k3
    dsimp only at h k1 k2 k3 ⊢
    rcases hmap h with ⟨rfl, rfl⟩ | ⟨g1, g2, g3⟩
    · rw [upd_self] at k2 k3; rw [h1 k2] at k3; cases k3
    · rw [upd_ne _ _ g2] at k1 k2 k3 ⊢; exact S.all y z g3 k1 k2 k3
  · intro y z k h k1
    dsimp only at h k1 ⊢
    rcases hmap h with ⟨rfl, rfl⟩ | ⟨g1, g2, g3⟩
    · rw [upd_self] at k1 ⊢; exact (h2 k k1).2
    · rw [upd_ne _ _ g2] at k1 ⊢; exact S.sub y z k g3 k1
  · intro y h hly
    obtain ⟨g1, g2⟩ := hmapn h
    exact S.out y g2 hly
  · intro h y k hy
    obtain ⟨g1, g2⟩ := tidy_ptr hy
    have hyb : y ≠ b := by rintro rfl; exact hpt h k g1
    have g3 := hsure hyb g2
    have hfp : (forget m).ptr h = some (y, k) := by
      have g1' : m.ptr h = some (y, k) := g1
      simp only [forget, tidy, g1']
      rw [if_pos g3]
    obtain ⟨-, z, k1, k2, k3⟩ := S.ptr h y k hfp
    refine ⟨g2, z, ?_, k2, ?_⟩
    · dsimp only; rw [upd_ne _ _ hyb]; exact k1
    · dsimp only; rw [upd_ne _ _ (hnot k1)]; exact k3

end BlockCache
