import Verif.BlockSched.Spec
import Mathlib.Data.List.Nodup
import Mathlib.Data.List.Range
import Mathlib.Tactic.SplitIfs

namespace Stxxl.BlockSched

variable {α : Type}

/-- an allocated block: what the client knows (`e`) and what the scheduler has (`b`) -/
structure Local (mem disk : Nat → α) (e : Ent α) (b : SB) : Prop where
  rc : b.rc = e.held
  dirtyInt : b.dirty = true → b.int.isSome = true
  heldInt : e.held > 0 → b.int.isSome = true ∧ e.cur ≠ .uninit
  uninit0 : e.held = 0 → e.cur = .uninit → b.int = none ∧ b.ext = none
  init0 : e.held = 0 → e.cur ≠ .uninit → b.dirty = true ∨ b.ext.isSome = true
  memOk : ∀ (v : α) (m : Nat), e.cur = .known v → b.int = some m → mem m = v
  marked : e.held > 0 → e.marked = true → b.dirty = true
  fresh : e.held > 0 → e.fresh = true → b.ext = none ∧ (b.dirty = true → e.marked = true)
  notfresh : e.held > 0 → e.fresh = false → b.dirty = true ∨ b.ext.isSome = true
  diskOk : ∀ (v : α) (d : Nat), e.cur = .known v → (e.held = 0 ∨ e.changed = false) → b.dirty = false →
    b.ext = some d → disk d = v

/-- internal blocks attached to swappable blocks -/
def ints (f : Nat → SB) (n : Nat) : List Nat := (List.range n).filterMap fun i => (f i).int
/-- external blocks of swappable blocks -/
def exts (f : Nat → SB) (n : Nat) : List Nat := (List.range n).filterMap fun i => (f i).ext

/-- simulation? -/
def Algo.isSim : Algo → Bool
  | .sim .. => true
  | _ => false

/-- the invariant; `H` are internal blocks in the hands of the running call -/
structure R (c : Cfg α) (sp : Sp α) (s : St α) (H : List Nat) : Prop where
  live : ∀ (i : Nat) (e : Ent α), sp.ents i = some e → i < s.nsb ∧ Local s.mem s.disk e (s.sbs i)
  dead : ∀ (i : Nat), i < s.nsb → sp.ents i = none → s.sbs i = SB.blank
  fsb : ∀ (i : Nat), i ∈ s.freeSb ↔ i < s.nsb ∧ sp.ents i = none
  fsbnd : s.freeSb.Nodup
  ev : ∀ (i : Nat), i ∈ s.evict.map (·.2) ↔ i < s.nsb ∧ (s.sbs i).int.isSome = true ∧ (s.sbs i).rc = 0
  evnd : (s.evict.map (·.2)).Nodup
  intp : (H ++ s.free ++ ints s.sbs s.nsb).Perm (List.range s.nalloc)
  cap : s.nalloc + s.remaining = c.maxBlocks
  extp : s.used.Perm (exts s.sbs s.nsb ++ sp.client.map (·.1))
  und : s.used.Nodup
  cdisk : ∀ (x : Nat) (v : α), (x, Content.known v) ∈ sp.client → s.disk x = v
  cinit : ∀ (x : Nat) (v : Content α), (x, v) ∈ sp.client → v ≠ .uninit
  sim : s.algo.isSim = sp.sim
  pred : ∀ q ∈ predOf s.algo, q.sb < s.nsb
  size : sp.size = s.nsb

/-! ## Lists -/

theorem upd_same {β : Type} (f : Nat → β) (i : Nat) (v : β) : upd f i v i = v := by simp [upd]
theorem upd_ne {β : Type} (f : Nat → β) {i k : Nat} (v : β) (h : k ≠ i) : upd f i v k = f k := by simp [upd, h]

theorem filterMap_congr_of {β γ : Type} {f g : β → Option γ} : ∀ (l : List β), (∀ x ∈ l, f x = g x) → l.filterMap f = l.filterMap g
  | [], _ => rfl
  | x :: r, h => by
    have h1 := h x (by simp)
    have h2 := filterMap_congr_of r fun y hy => h y (by simp [hy])
    simp [List.filterMap_cons, h1, h2]

theorem filterMap_upd (f g : Nat → Option Nat) (i : Nat) (hne : ∀ k, k ≠ i → g k = f k) : ∀ (n : Nat), i < n → ∀ (x : Nat),
    ((List.range n).filterMap g).count x + (f i).toList.count x = ((List.range n).filterMap f).count x + (g i).toList.count x
  | 0, h, _ => absurd h (by omega)
  | n + 1, h, x => by
    simp only [List.range_succ, List.filterMap_append, List.count_append, List.filterMap_cons, List.filterMap_nil]
    by_cases hi : i < n
    · have := filterMap_upd f g i hne n hi x
      rw [hne n (by omega)]
      omega
    · have hin : i = n := by omega
      subst hin
      have : (List.range i).filterMap g = (List.range i).filterMap f :=
        filterMap_congr_of _ fun y hy => hne y (by have := List.mem_range.1 hy; omega)
      rw [this]
      cases h1 : f i <;> cases h2 : g i <;> simp
      omega

theorem ints_upd (f : Nat → SB) (i n : Nat) (b : SB) (h : i < n) (x : Nat) :
    (ints (upd f i b) n).count x + (f i).int.toList.count x = (ints f n).count x + b.int.toList.count x := by
  have := filterMap_upd (fun k => (f k).int) (fun k => (upd f i b k).int) i (fun k hk => by simp [upd, hk]) n h x
  simpa [ints, upd] using this

theorem exts_upd (f : Nat → SB) (i n : Nat) (b : SB) (h : i < n) (x : Nat) :
    (exts (upd f i b) n).count x + (f i).ext.toList.count x = (exts f n).count x + b.ext.toList.count x := by
  have := filterMap_upd (fun k => (f k).ext) (fun k => (upd f i b k).ext) i (fun k hk => by simp [upd, hk]) n h x
  simpa [exts, upd] using this

theorem mem_ints {f : Nat → SB} {n m : Nat} : m ∈ ints f n ↔ ∃ i, i < n ∧ (f i).int = some m := by
  simp [ints, List.mem_filterMap]
theorem mem_exts {f : Nat → SB} {n m : Nat} : m ∈ exts f n ↔ ∃ i, i < n ∧ (f i).ext = some m := by
  simp [exts, List.mem_filterMap]

theorem filterMap_inj (f : Nat → Option Nat) : ∀ (n : Nat), ((List.range n).filterMap f).Nodup → ∀ {i j : Nat}, i < n → j < n →
    ∀ {m : Nat}, f i = some m → f j = some m → i = j
  | 0, _, _, _, h, _, _, _, _ => absurd h (by omega)
  | n + 1, hnd, i, j, hi, hj, m, h1, h2 => by
    simp only [List.range_succ, List.filterMap_append] at hnd
    have hnd' := List.nodup_append'.1 hnd
    have key : ∀ a b : Nat, a < n + 1 → b = n → f a = some m → f b = some m → a = b := by
      intro a b ha hb e1 e2
      by_cases han : a = n
      · omega
      · exfalso
        have m1 : m ∈ (List.range n).filterMap f := List.mem_filterMap.2 ⟨a, List.mem_range.2 (by omega), e1⟩
        have m2 : m ∈ ([n].filterMap f) := List.mem_filterMap.2 ⟨n, by simp, by rw [← hb]; exact e2⟩
        exact hnd'.2.2 m1 m2
    by_cases hin : i = n
    · exact (key j i hj hin h2 h1).symm
    · by_cases hjn : j = n
      · exact key i j hi hjn h1 h2
      · exact filterMap_inj f n hnd'.1 (by omega) (by omega) h1 h2

theorem mem_eraseKey {i : Nat} {l : List (Nat × Nat)} {k : Nat} :
    k ∈ (eraseKey i l).map (·.2) ↔ k ≠ i ∧ k ∈ l.map (·.2) := by
  simp only [eraseKey, List.mem_map, List.mem_filter]
  constructor
  · rintro ⟨x, ⟨h1, h2⟩, h3⟩
    subst h3
    exact ⟨by simpa using h2, x, h1, rfl⟩
  · rintro ⟨h1, x, h2, h3⟩
    subst h3
    exact ⟨x, ⟨h2, by simpa using h1⟩, rfl⟩

theorem eraseKey_nodup {i : Nat} {l : List (Nat × Nat)} (h : (l.map (·.2)).Nodup) : ((eraseKey i l).map (·.2)).Nodup :=
  h.sublist ((List.filter_sublist).map _)

/-! ## Facts from the invariant -/

variable {c : Cfg α} {sp : Sp α} {s : St α} {H : List Nat}

theorem R.intNodup (h : R c sp s H) : (H ++ s.free ++ ints s.sbs s.nsb).Nodup := h.intp.nodup_iff.2 List.nodup_range

theorem R.int_inj (h : R c sp s H) {i j m : Nat} (hi : i < s.nsb) (hj : j < s.nsb) (h1 : (s.sbs i).int = some m)
    (h2 : (s.sbs j).int = some m) : i = j :=
  filterMap_inj _ s.nsb (List.nodup_append'.1 h.intNodup).2.1 hi hj h1 h2

theorem R.extNodup (h : R c sp s H) : (exts s.sbs s.nsb ++ sp.client.map (·.1)).Nodup := h.extp.nodup_iff.1 h.und

theorem R.ext_inj (h : R c sp s H) {i j m : Nat} (hi : i < s.nsb) (hj : j < s.nsb) (h1 : (s.sbs i).ext = some m)
    (h2 : (s.sbs j).ext = some m) : i = j :=
  filterMap_inj _ s.nsb (List.nodup_append'.1 h.extNodup).1 hi hj h1 h2

theorem R.ext_client (h : R c sp s H) {i m : Nat} (hi : i < s.nsb) (h1 : (s.sbs i).ext = some m) : m ∉ sp.client.map (·.1) :=
  fun hm => (List.nodup_append'.1 h.extNodup).2.2 (mem_exts.2 ⟨i, hi, h1⟩) hm

theorem R.ext_used (h : R c sp s H) {i m : Nat} (hi : i < s.nsb) (h1 : (s.sbs i).ext = some m) : m ∈ s.used :=
  h.extp.mem_iff.2 (List.mem_append_left _ (mem_exts.2 ⟨i, hi, h1⟩))

theorem R.hand_int (h : R c sp s H) {m : Nat} (hm : m ∈ H) {j : Nat} (hj : j < s.nsb) : (s.sbs j).int ≠ some m := fun h1 =>
  (List.nodup_append'.1 h.intNodup).2.2 (List.mem_append_left _ hm) (mem_ints.2 ⟨j, hj, h1⟩)

/-- a call that touches one allocated block `i` only -/
theorem R.update (h : R c sp s H) {i : Nat} {e e' : Ent α} (hi : sp.ents i = some e) {s' : St α} {b' : SB} {sp' : Sp α} {H' : List Nat}
    (hents : sp'.ents = fun k => if k = i then some e' else sp.ents k) (hsim : sp'.sim = sp.sim) (hsz : sp'.size = sp.size)
    (hs : s'.sbs = upd s.sbs i b') (hn : s'.nsb = s.nsb) (hf : s'.freeSb = s.freeSb)
    (ha : s'.algo.isSim = s.algo.isSim) (hp : ∀ q ∈ predOf s'.algo, q.sb < s.nsb)
    (hmem : ∀ (j m : Nat), j ≠ i → j < s.nsb → (s.sbs j).int = some m → s'.mem m = s.mem m)
    (hdisk : ∀ (j d : Nat), j ≠ i → j < s.nsb → (s.sbs j).ext = some d → s'.disk d = s.disk d)
    (hcd : ∀ (x : Nat) (v : α), (x, Content.known v) ∈ sp'.client → s'.disk x = v)
    (hci : ∀ (x : Nat) (v : Content α), (x, v) ∈ sp'.client → v ≠ .uninit)
    (hloc : Local s'.mem s'.disk e' b')
    (hev : ∀ (j : Nat), j ∈ s'.evict.map (·.2) ↔ (j ≠ i ∧ j ∈ s.evict.map (·.2)) ∨ (j = i ∧ b'.int.isSome = true ∧ b'.rc = 0))
    (hevnd : (s'.evict.map (·.2)).Nodup)
    (hint : (H' ++ s'.free ++ ints s'.sbs s'.nsb).Perm (List.range s'.nalloc))
    (hcap : s'.nalloc + s'.remaining = c.maxBlocks)
    (hext : s'.used.Perm (exts s'.sbs s'.nsb ++ sp'.client.map (·.1))) (hund : s'.used.Nodup) : R c sp' s' H' := by
  have hlt := (h.live i e hi).1
  constructor
  · intro j f hj
    rw [hents] at hj
    dsimp only at hj
    split_ifs at hj with hji
    · subst hji
      cases hj
      rw [hn, hs, upd_same]
      exact ⟨hlt, hloc⟩
    · obtain ⟨h1, L⟩ := h.live j f hj
      rw [hn, hs, upd_ne _ _ hji]
      refine ⟨h1, ?_⟩
      exact { L with
        memOk := fun v m hv hm => by rw [hmem j m hji h1 hm]; exact L.memOk v m hv hm
        diskOk := fun v d hv hc hd hx => by rw [hdisk j d hji h1 hx]; exact L.diskOk v d hv hc hd hx }
  · intro j hj hn'
    rw [hents] at hn'
    dsimp only at hn'
    split_ifs at hn' with hji
    rw [hs, upd_ne _ _ hji]
    exact h.dead j (hn ▸ hj) hn'
  · intro j
    rw [hf, hn, hents, h.fsb j]
    dsimp only
    split_ifs with hji
    · subst hji
      simp [hi]
    · rfl
  · rw [hf]; exact h.fsbnd
  · intro j
    rw [hev j, hn, hs]
    by_cases hji : j = i
    · subst hji
      rw [upd_same]
      simp [hlt]
    · rw [upd_ne _ _ hji, h.ev j]
      simp [hji]
  · exact hevnd
  · exact hint
  · exact hcap
  · exact hext
  · exact hund
  · exact hcd
  · exact hci
  · rw [ha, hsim]; exact h.sim
  · rw [hn]; exact hp
  · rw [hsz, hn]; exact h.size

end Stxxl.BlockSched
