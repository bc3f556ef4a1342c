/-
Filling a free slot, using a node in the cache, deleting, unfixing.
-/
import Verif.NodeCache.Steps

namespace NodeCache
open Stxxl.Pager (Lru)
open Spec (Op Out)
variable {V : Type} {R : Nat → Prop} {d0 : Nat → Nat × V} {s : St V} {σ : Spec.M V}

/-- Putting node `b` into the free slot `v`, which is the most recently used one.  `live'`, `val'` allow for a
newly allocated block. -/
theorem Sim.fill (h : Sim R d0 s σ) {v b : Nat} {fr : List Nat} (hf : s.free = v :: fr) (hh : s.lru.history.head? = some v)
    (hb : s.map b = none) (hp : ∀ k w, σ.ptr k ≠ some (b, w)) {fix d : Bool} {pn : Option Nat} {nd : Nat × V} {live' : List Nat} {val' : Nat → V}
    (hl : b ∈ live') (hlm : ∀ c, c ≠ b → (c ∈ live' ↔ c ∈ s.live)) (hln : live'.Nodup) (hlR : ¬ R b)
    (hv : ∀ c, c ≠ b → val' c = σ.val c) (hpn : ∀ b', pn = some b' → b' = b ∧ d = false)
    (hnd : pn = none → nd = (b, val' b)) (hd : d = false → s.disk b = (b, val' b)) (hfp : fix = true → pn = none) :
    Sim R d0 { s with free := fr, map := upd s.map b (some v), node := upd s.node v nd, pend := upd s.pend v pn, fixed := upd s.fixed v fix, dirty := upd s.dirty v d, live := live' }
      { Spec.touch σ b fix with live := live', val := val', recent := if pn = none then (Spec.touch σ b fix).recent else [] } := by
  have hvf : v ∈ s.free := by rw [hf]; simp
  have hvfr : v ∉ fr := by have := h.fnd; rw [hf] at this; exact (List.nodup_cons.mp this).1
  have hmv : ∀ c, s.map c ≠ some v := fun c hc => h.mfree c v hc hvf
  have hbfx : b ∉ σ.fx := by intro hm; obtain ⟨i, hi, _⟩ := (h.fx b).mp hm; rw [hb] at hi; cases hi
  have hbrec : b ∉ σ.recent := by intro hm; obtain ⟨i, hi, _⟩ := h.recent_map hm; rw [hb] at hi; cases hi
  have hmap : ∀ c i, upd s.map b (some v) c = some i → (c = b ∧ i = v) ∨ (c ≠ b ∧ i ≠ v ∧ s.map c = some i) := by
    intro c i hc
    by_cases hcb : c = b
    · subst hcb; rw [upd_self] at hc; cases hc; exact Or.inl ⟨rfl, rfl⟩
    · rw [upd_ne _ _ hcb] at hc
      exact Or.inr ⟨hcb, fun he => hmv c (he ▸ hc), hc⟩
  obtain ⟨tl, htl⟩ : ∃ tl, s.lru.history = v :: tl := by
    cases hx : s.lru.history with
    | nil => rw [hx] at hh; cases hh
    | cons a tl => rw [hx] at hh; cases hh; exact ⟨tl, rfl⟩
  have hnd0 := h.nd
  rw [htl] at hnd0
  have hvtl : v ∉ tl := (List.nodup_cons.mp hnd0).1
  have hfree : ∀ i, i ∈ s.free ↔ i = v ∨ i ∈ fr := by intro i; rw [hf]; simp
  refine { hp := h.hp, lsz := h.lsz, inj := ?_, mlt := ?_, mfree := ?_, cover := ?_, fnd := ?_, flt := ?_, ffix := ?_, fpend := ?_, mlive := ?_, live := rfl, lnd := hln, fx := ?_, fxnd := ?_, pnd := ?_, cont := ?_, clean := ?_, out := ?_, recent := ?_, ptr := ?_, foreign := ?_ }
  · intro a c i ha hc
    rcases hmap a i ha with ⟨rfl, rfl⟩ | ⟨_, h2, h3⟩
    · rcases hmap c i hc with ⟨rfl, _⟩ | ⟨_, h2, _⟩
      · rfl
      · exact absurd rfl h2
    · rcases hmap c i hc with ⟨rfl, rfl⟩ | ⟨_, _, h5⟩
      · exact absurd rfl h2
      · exact h.inj a c i h3 h5
  · intro c i hc
    rcases hmap c i hc with ⟨rfl, rfl⟩ | ⟨_, _, h3⟩
    · exact h.flt i hvf
    · exact h.mlt c i h3
  · intro c i hc
    rcases hmap c i hc with ⟨rfl, rfl⟩ | ⟨_, _, h3⟩
    · exact hvfr
    · intro hi; exact h.mfree c i h3 ((hfree i).mpr (Or.inr hi))
  · intro i hi
    rcases h.cover i hi with h1 | ⟨c, h1⟩
    · rcases (hfree i).mp h1 with rfl | h1
      · exact Or.inr ⟨b, by simp⟩
      · exact Or.inl h1
    · refine Or.inr ⟨c, ?_⟩
      dsimp only
      rw [upd_ne _ _ ?_]
      · exact h1
      · intro he; subst he; rw [hb] at h1; cases h1
  · have := h.fnd; rw [hf] at this; exact (List.nodup_cons.mp this).2
  · intro i hi; exact h.flt i ((hfree i).mpr (Or.inr hi))
  · intro i hi
    have : i ≠ v := fun he => hvfr (he ▸ hi)
    dsimp only; rw [upd_ne _ _ this]; exact h.ffix i ((hfree i).mpr (Or.inr hi))
  · intro i hi
    have : i ≠ v := fun he => hvfr (he ▸ hi)
    dsimp only; rw [upd_ne _ _ this]; exact h.fpend i ((hfree i).mpr (Or.inr hi))
  · intro c i hc
    rcases hmap c i hc with ⟨rfl, rfl⟩ | ⟨h1, _, h3⟩
    · exact hl
    · exact (hlm c h1).mpr (h.mlive c i h3)
  · intro c
    show c ∈ (if fix then b :: σ.fx.erase b else σ.fx.erase b) ↔ ∃ i, upd s.map b (some v) c = some i ∧ upd s.fixed v fix i = true
    rw [List.erase_of_not_mem hbfx]
    by_cases hcb : c = b
    · subst hcb
      cases fix <;> simp [hbfx]
    · have : c ∈ (if fix = true then b :: σ.fx else σ.fx) ↔ c ∈ σ.fx := by cases fix <;> simp [hcb]
      rw [this, h.fx c]
      constructor
      · rintro ⟨i, h1, h2⟩
        refine ⟨i, by rw [upd_ne _ _ hcb]; exact h1, ?_⟩
        rw [upd_ne _ _ (by intro he; subst he; exact hmv c h1)]; exact h2
      · rintro ⟨i, h1, h2⟩
        rcases hmap c i h1 with ⟨rfl, _⟩ | ⟨_, h4, h5⟩
        · exact absurd rfl hcb
        · rw [upd_ne _ _ h4] at h2; exact ⟨i, h5, h2⟩
  · show (if fix = true then b :: σ.fx.erase b else σ.fx.erase b).Nodup
    rw [List.erase_of_not_mem hbfx]
    cases fix
    · exact h.fxnd
    · simp [hbfx, h.fxnd]
  · intro c i b' h1 h2
    dsimp only at h1 h2 ⊢
    rcases hmap c i h1 with ⟨rfl, rfl⟩ | ⟨_, h4, h5⟩
    · rw [upd_self] at h2 ⊢; exact hpn b' h2
    · rw [upd_ne _ _ h4] at h2 ⊢; exact h.pnd c i b' h5 h2
  · intro c i h1 h2
    dsimp only at h1 h2 ⊢
    rcases hmap c i h1 with ⟨rfl, rfl⟩ | ⟨h3, h4, h5⟩
    · rw [upd_self] at h2 ⊢; exact hnd h2
    · rw [upd_ne _ _ h4] at h2 ⊢; rw [hv c h3]; exact h.cont c i h5 h2
  · intro c i h1 h2
    dsimp only at h1 h2 ⊢
    rcases hmap c i h1 with ⟨rfl, rfl⟩ | ⟨h3, h4, h5⟩
    · rw [upd_self] at h2; exact hd h2
    · rw [upd_ne _ _ h4] at h2; rw [hv c h3]; exact h.clean c i h5 h2
  · intro c hc h1
    dsimp only at hc h1 ⊢
    by_cases hcb : c = b
    · subst hcb; rw [upd_self] at h1; cases h1
    · rw [upd_ne _ _ hcb] at h1; rw [hv c hcb]; exact h.out c ((hlm c hcb).mp hc) h1
  · show (if pn = none then (if fix = true then σ.recent.erase b else b :: σ.recent.erase b) else []).map (upd s.map b (some v)) <+: (s.lru.history.filter _).map some
    rw [List.erase_of_not_mem hbrec]
    by_cases hpn' : pn = none
    · rw [if_pos hpn']
      have e1 : σ.recent.map (upd s.map b (some v)) = σ.recent.map s.map := by
        refine List.map_congr_left ?_
        intro c hc
        rw [upd_ne _ _ (by intro he; subst he; exact hbrec hc)]
      have e2 : ∀ (s' : St V), s'.free = fr → s'.fixed = upd s.fixed v fix → tl.filter (unf s') = tl.filter (unf s) := by
        intro s' h1 h2
        refine List.filter_congr ?_
        intro x hx
        have : x ≠ v := fun he => hvtl (he ▸ hx)
        simp only [unf, h1, h2, hf, upd_ne _ _ this]
        simp [this]
      have e3 := h.recent
      rw [htl, List.filter_cons_of_neg (by simp [unf, hvf])] at e3
      have e4 := e2 ({ s with free := fr, map := upd s.map b (some v), node := upd s.node v nd, pend := upd s.pend v pn, fixed := upd s.fixed v fix, dirty := upd s.dirty v d, live := live' }) rfl rfl
      rw [htl]
      cases fix
      · rw [if_neg (by simp), List.filter_cons_of_pos (by simp [unf, hvfr]), e4]
        rw [List.map_cons, List.map_cons, upd_self, e1]
        simpa using e3
      · rw [if_pos rfl, List.filter_cons_of_neg (by simp [unf]), e4, e1]
        exact e3
    · rw [if_neg hpn']; simp
  · intro k c w h1 h2
    have h1 : σ.ptr k = some (c, w) := h1
    have hcb : c ≠ b := fun he => hp k w (he ▸ h1)
    have h2' : Spec.hot σ c = true := by
      rw [hot_iff] at h2 ⊢
      rcases h2 with h2 | h2
      · left
        have h2 : c ∈ (if fix = true then b :: σ.fx.erase b else σ.fx.erase b) := h2
        rw [List.erase_of_not_mem hbfx] at h2
        cases fix <;> simpa [hcb] using h2
      · have h2 : c ∈ (if pn = none then (if fix = true then σ.recent.erase b else b :: σ.recent.erase b) else []) := h2
        rw [List.erase_of_not_mem hbrec] at h2
        split at h2
        · right; cases fix <;> simpa [hcb] using h2
        · cases h2
    obtain ⟨i, g1, g2, g3, g4⟩ := h.ptr k c w h1 h2'
    have hiv : i ≠ v := fun he => hmv c (he ▸ g2)
    refine ⟨i, g1, ?_⟩
    dsimp only
    rw [upd_ne _ _ hcb, upd_ne _ _ hiv, upd_ne _ _ hiv]
    exact ⟨g2, g3, g4⟩
  · intro c hc
    obtain ⟨g1, g2⟩ := h.foreign c hc
    have hcb : c ≠ b := fun he => hlR (he ▸ hc)
    exact ⟨g1, fun hm => g2 ((hlm c hcb).mp hm)⟩

/-- Using a node that is in the cache. -/
theorem Sim.use (h : Sim R d0 s σ) {b i : Nat} (hb : s.map b = some i) (fix w : Bool) (hp : Spec.hot σ b = false → ∀ k w, σ.ptr k ≠ some (b, w)) :
    Sim R d0 { s with fixed := upd s.fixed i fix, lru := { s.lru with history := i :: s.lru.history.erase i }, dirty := if w then upd s.dirty i true else s.dirty } (Spec.touch σ b fix) ∨ s.pend i ≠ none := by
  by_cases hpd : s.pend i = none
  swap
  · exact Or.inr hpd
  left
  have hin := h.mlt b i hb
  have hifree := h.mfree b i hb
  have hne : ∀ c j, s.map c = some j → (c = b ∧ j = i) ∨ (c ≠ b ∧ j ≠ i) := by
    intro c j hc
    by_cases hcb : c = b
    · subst hcb; rw [hb] at hc; cases hc; exact Or.inl ⟨rfl, rfl⟩
    · exact Or.inr ⟨hcb, fun he => hcb (h.inj c b i (he ▸ hc) hb)⟩
  have hdj : ∀ j, j ≠ i → (if w then upd s.dirty i true else s.dirty) j = s.dirty j := by
    intro j hj; split
    · rw [upd_ne _ _ hj]
    · rfl
  refine { h with hp := h.hit_perm hin, ffix := ?_, fx := ?_, fxnd := ?_, pnd := ?_, clean := ?_, recent := ?_, ptr := ?_ }
  · intro j hj
    have : j ≠ i := fun he => hifree (he ▸ hj)
    dsimp only; rw [upd_ne _ _ this]; exact h.ffix j hj
  · intro c
    show c ∈ (if fix then b :: σ.fx.erase b else σ.fx.erase b) ↔ ∃ j, s.map c = some j ∧ upd s.fixed i fix j = true
    by_cases hcb : c = b
    · subst hcb
      have : c ∈ (if fix = true then c :: σ.fx.erase c else σ.fx.erase c) ↔ fix = true := by
        cases fix
        · simp [h.fxnd.not_mem_erase]
        · simp
      rw [this]
      constructor
      · intro hf; exact ⟨i, hb, by simp [hf]⟩
      · rintro ⟨j, h1, h2⟩; rw [hb] at h1; cases h1; simpa using h2
    · have : c ∈ (if fix = true then b :: σ.fx.erase b else σ.fx.erase b) ↔ c ∈ σ.fx := by
        cases fix <;> simp [hcb, List.mem_erase_of_ne hcb]
      rw [this, h.fx c]
      constructor
      · rintro ⟨j, h1, h2⟩
        rcases hne c j h1 with ⟨h3, _⟩ | ⟨_, h3⟩
        · exact absurd h3 hcb
        · exact ⟨j, h1, by rw [upd_ne _ _ h3]; exact h2⟩
      · rintro ⟨j, h1, h2⟩
        rcases hne c j h1 with ⟨h3, _⟩ | ⟨_, h3⟩
        · exact absurd h3 hcb
        · rw [upd_ne _ _ h3] at h2; exact ⟨j, h1, h2⟩
  · show (if fix = true then b :: σ.fx.erase b else σ.fx.erase b).Nodup
    cases fix
    · exact h.fxnd.erase b
    · simp [h.fxnd.not_mem_erase, h.fxnd.erase b]
  · intro c j b' h1 h2
    dsimp only at h1 h2 ⊢
    rcases hne c j h1 with ⟨rfl, rfl⟩ | ⟨_, h3⟩
    · rw [hpd] at h2; cases h2
    · rw [hdj j h3]; exact h.pnd c j b' h1 h2
  · intro c j h1 h2
    dsimp only at h1 h2 ⊢
    rcases hne c j h1 with ⟨rfl, rfl⟩ | ⟨_, h3⟩
    · cases w
      · exact h.clean c j h1 h2
      · simp at h2
    · rw [hdj j h3] at h2; exact h.clean c j h1 h2
  · show (if fix = true then σ.recent.erase b else b :: σ.recent.erase b).map s.map <+: ((i :: s.lru.history.erase i).filter _).map some
    have hinj : ∀ a ∈ σ.recent, s.map a = s.map b → a = b := fun a _ he => h.inj a b i (by rw [he]; exact hb) hb
    -- the other slots
    have hnd := h.nd
    have hke : ∀ (s' : St V), s'.free = s.free → s'.fixed = upd s.fixed i fix → (s.lru.history.erase i).filter (unf s') = (s.lru.history.filter (unf s)).erase i := by
      intro s' h1 h2
      rw [← filter_erase hnd]
      refine List.filter_congr ?_
      intro x hx
      have : x ≠ i := fun he => hnd.not_mem_erase (he ▸ hx)
      simp only [unf, h1, h2, upd_ne _ _ this]
    have hpre : (σ.recent.erase b).map s.map <+: ((s.lru.history.filter (unf s)).erase i).map some := by
      rw [← map_erase_inj (f := s.map) (fun a ha he => hinj a ha he)]
      rw [← map_erase_inj (f := (some : Nat → Option Nat)) (fun a _ he => by simpa using he), ← hb]
      by_cases hm : s.map b ∈ σ.recent.map s.map
      · exact prefix_erase h.recent _ hm
      · rw [List.erase_of_not_mem hm]; exact prefix_erase_not h.recent _ hm
    have hk := hke { s with fixed := upd s.fixed i fix, lru := { s.lru with history := i :: s.lru.history.erase i }, dirty := if w then upd s.dirty i true else s.dirty } rfl rfl
    cases fix
    · rw [if_neg (by simp), List.filter_cons_of_pos (by simp [unf, hifree]), hk, List.map_cons, List.map_cons, hb]
      simpa using hpre
    · rw [if_pos rfl, List.filter_cons_of_neg (by simp [unf]), hk]; exact hpre
  · intro k c w' h1 h2
    have h1 : σ.ptr k = some (c, w') := h1
    have h2' : Spec.hot σ c = true := by
      by_cases hcb : c = b
      · subst hcb
        cases hh : Spec.hot σ c with
        | true => rfl
        | false => exact absurd h1 (hp hh k w')
      · rw [hot_iff] at h2 ⊢
        rcases h2 with h2 | h2
        · left
          have h2 : c ∈ (if fix = true then b :: σ.fx.erase b else σ.fx.erase b) := h2
          cases fix <;> simpa [hcb, List.mem_erase_of_ne hcb] using h2
        · right
          have h2 : c ∈ (if fix = true then σ.recent.erase b else b :: σ.recent.erase b) := h2
          cases fix <;> simpa [hcb, List.mem_erase_of_ne hcb] using h2
    obtain ⟨j, g1, g2, g3, g4⟩ := h.ptr k c w' h1 h2'
    refine ⟨j, g1, g2, g3, ?_⟩
    intro hw
    have hd := g4 hw
    dsimp only
    split
    · by_cases hji : j = i
      · subst hji; simp
      · rw [upd_ne _ _ hji]; exact hd
    · exact hd

/-- A pointer variable gets a pointer to a node in the cache. -/
theorem Sim.point (h : Sim R d0 s σ) {b i : Nat} (hb : s.map b = some i) (hpd : s.pend i = none) (w : Bool) (hd : w = true → s.dirty i = true) (k : Nat) :
    Sim R d0 (setPtr s k (some i)) (Spec.setPtr σ k (some (b, w))) := by
  refine { h with ptr := ?_ }
  intro k' c w' h1 h2
  unfold Spec.setPtr at h1
  dsimp only at h1
  split at h1
  · cases h1
    rename_i hk; subst hk
    exact ⟨i, by simp [setPtr], hb, hpd, hd⟩
  · rename_i hne
    obtain ⟨j, g1, g2⟩ := h.ptr k' c w' h1 h2
    exact ⟨j, by simp [setPtr, upd_ne, hne, g1], g2⟩

end NodeCache
