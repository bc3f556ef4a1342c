/-
Every call on the node cache does what the specification says.
-/
import Verif.NodeCache.Fill
import Mathlib.Tactic.SplitIfs
import Mathlib.Data.List.Nodup

namespace NodeCache
open Stxxl.Pager (Lru)
open Spec (Op Out)
variable {V : Type} {R : Nat → Prop} {d0 : Nat → Nat × V} {s : St V} {σ : Spec.M V}

theorem touch_setPtr (σ : Spec.M V) (b : Nat) (fix : Bool) (k : Nat) (p : Option (Nat × Bool)) :
    Spec.setPtr (Spec.touch σ b fix) k p = { Spec.setPtr (Spec.touch σ b fix) k p with } := rfl

theorem ptr_none_of_not_hot (ht : Tight σ) {b : Nat} (hb : Spec.hot σ b = false) : ∀ k w, σ.ptr k ≠ some (b, w) := by
  intro k w h
  have := ht k b w h
  rw [hb] at this; cases this

theorem Sim.full_evict (h : Sim R d0 s σ) (hf : s.free = []) (hx : σ.fx.length = s.n) : NodeCache.evict s = some (none, s) := by
  have hl : s.lru.history.length = s.n := by rw [h.hp.length_eq]; simp
  have hall := h.full.mp hx
  have := kickLoop_full s.fixed s.n s.lru.history [] s.lru hl (by simp) h.nd (fun i hi => by rw [h.lsz]; exact (h.mem i).mp hi)
    (fun i hi => hall i ((h.mem i).mp hi))
  unfold NodeCache.evict
  rw [this]
  have e : ({ s.lru with history := s.lru.history ++ [] } : Lru) = s.lru := by simp
  dsimp only
  rw [List.append_nil]

/-- A slot for a node that is not in the cache: a free one or one made free. -/
theorem Sim.slot (h : Sim R d0 s σ) (hx : σ.fx.length ≠ s.n) :
    (∃ v s', s.free = [] ∧ NodeCache.evict s = some (some v, s') ∧ s'.free = [] ∧ Sim R d0 { s' with free := [v] } (Spec.shrink s.n σ) ∧
      s'.lru.history.head? = some v ∧ s'.live = s.live ∧ s'.n = s.n ∧ (∀ b, s.map b = none → s'.map b = none)) ∨
    (∃ v fr p, s.free = v :: fr ∧ s.fixed v = false ∧ s.lru.hit v = some p ∧ Sim R d0 { s with lru := p } (Spec.shrink s.n σ) ∧ p.history.head? = some v) := by
  have hcase : s.free = [] ∨ ∃ v fr, s.free = v :: fr := by
    cases s.free with
    | nil => exact Or.inl rfl
    | cons v fr => exact Or.inr ⟨v, fr, rfl⟩
  rcases hcase with hf | ⟨v, fr, hf⟩
  · left
    obtain ⟨v, s', h1, h2, h3, h4, h5, h6, h7, h8⟩ := h.evict hf hx
    exact ⟨v, s', hf, h1, h3, h2, h5, h6, h4, h8⟩
  · right
    have hv : v ∈ s.free := by rw [hf]; simp
    refine ⟨v, fr, _, hf, h.ffix v hv, h.hit (h.flt v hv), ?_, rfl⟩
    have h1 := h.hitFree hv
    refine { h1 with recent := ?_, ptr := ?_ }
    · show (σ.recent.take _).map s.map <+: _
      rw [List.map_take]
      exact List.IsPrefix.trans (List.take_prefix _ _) h1.recent
    · intro k c w g1 g2
      refine h1.ptr k c w g1 ?_
      rw [hot_iff] at g2 ⊢
      rcases g2 with g2 | g2
      · exact Or.inl g2
      · exact Or.inr (List.mem_of_mem_take g2)

theorem get_sim (h : Sim R d0 s σ) (ht : Tight σ) {b : Nat} (hb : b ∈ s.live) (fix w : Bool) (k : Nat) :
    (∃ i s', get w s b fix = some (some i, s') ∧ (Spec.access s.n σ b fix w k).2 = .unit ∧ s'.n = s.n ∧
      Sim R d0 (setPtr s' k (some i)) (Spec.access s.n σ b fix w k).1 ∧ Tight (Spec.access s.n σ b fix w k).1) ∨
    (∃ s', get w s b fix = some (none, s') ∧ (Spec.access s.n σ b fix w k).2 = .null ∧ s'.n = s.n ∧
      Sim R d0 (setPtr s' k none) (Spec.access s.n σ b fix w k).1 ∧ Tight (Spec.access s.n σ b fix w k).1) := by
  unfold Spec.access NodeCache.get
  cases hm : s.map b with
  | some i =>
    left
    -- in the cache
    have hin := h.mlt b i hm
    dsimp only
    rw [h.hit hin]
    dsimp only
    obtain ⟨w1, w2, w3, w4, w5, w6, w7, w8, w9, w10, w11, w12⟩ := h.wait hm
    have hcomm : wait { s with fixed := upd s.fixed i fix, lru := { s.lru with history := i :: s.lru.history.erase i }, dirty := if w then upd s.dirty i true else s.dirty } i =
        { wait s i with fixed := upd (wait s i).fixed i fix, lru := { (wait s i).lru with history := i :: (wait s i).lru.history.erase i }, dirty := if w then upd (wait s i).dirty i true else (wait s i).dirty } := by
      unfold NodeCache.wait
      dsimp only
      cases s.pend i <;> rfl
    rw [hcomm]
    have hm1 : (wait s i).map b = some i := by rw [w3]; exact hm
    refine ⟨i, _, rfl, ?_⟩
    generalize wait s i = s1 at *
    have hdw : w = true → (if w then upd s1.dirty i true else s1.dirty) i = true := by intro hw; simp [hw]
    by_cases hh : Spec.hot σ b = true
    · rw [if_pos hh]
      refine ⟨rfl, w5, ?_, tight_drop _⟩
      have h2 := (w1.use hm1 fix w (fun hf => by rw [hh] at hf; cases hf)).resolve_right (by simp [w2])
      exact (h2.point (b := b) (i := i) hm1 w2 w hdw k).drop
    · have hh' : Spec.hot σ b = false := by simpa using hh
      rw [if_neg hh]
      have hx : σ.fx.length ≠ s.n := by
        intro he
        have := h.full.mp he i hin
        exact hh (hot_iff.mpr (Or.inl ((h.fx b).mpr ⟨i, hm, this⟩)))
      rw [if_neg hx]
      refine ⟨rfl, w5, ?_, tight_drop _⟩
      have hs : Sim R d0 s1 (Spec.shrink s.n σ) := by
        refine { w1 with recent := ?_, ptr := ?_ }
        · show (σ.recent.take _).map s1.map <+: _
          rw [List.map_take]
          exact List.IsPrefix.trans (List.take_prefix _ _) w1.recent
        · intro k c w g1 g2
          refine w1.ptr k c w g1 ?_
          rw [hot_iff] at g2 ⊢
          rcases g2 with g2 | g2
          · exact Or.inl g2
          · exact Or.inr (List.mem_of_mem_take g2)
      have h2 := (hs.use hm1 fix w (fun _ => ptr_none_of_not_hot ht hh')).resolve_right (by simp [w2])
      exact (h2.point (b := b) (i := i) hm1 w2 w hdw k).drop
  | none =>
    dsimp only
    have hh' : Spec.hot σ b = false := by
      cases hh : Spec.hot σ b with
      | false => rfl
      | true => obtain ⟨i, hi⟩ := h.hot_map hh; rw [hm] at hi; cases hi
    rw [if_neg (by simp [hh'])]
    have hdisk := h.out b hb hm
    by_cases hx : σ.fx.length = s.n
    · right
      rw [if_pos hx]
      have hf : s.free = [] := by
        cases hf : s.free with
        | nil => rfl
        | cons v fr =>
          have := h.free_lt (v := v) (by rw [hf]; simp)
          omega
      rw [hf]
      dsimp only
      rw [h.full_evict hf hx]
      refine ⟨s, rfl, rfl, rfl, h.setNull k, ?_⟩
      intro k' c w' hk
      unfold Spec.setPtr at hk
      dsimp only at hk
      split at hk
      · cases hk
      · exact ht k' c w' hk
    · left
      rw [if_neg hx]
      have hRb : ¬ R b := fun hr => (h.foreign b hr).2 hb
      have hpt : ∀ k w, (Spec.shrink s.n σ).ptr k ≠ some (b, w) := ptr_none_of_not_hot ht hh'
      rcases h.slot hx with ⟨v, s1, hf, he, hf1, hs, hhd, hlv, hn, hmap⟩ | ⟨v, fr, p, hf, hfx, hhit, hs, hhd⟩
      · rw [hf]
        dsimp only
        rw [he]
        dsimp only
        have hm1 := hmap b hm
        have hd1 : s1.disk b = (b, σ.val b) := hs.out b (by show b ∈ s1.live; rw [hlv]; exact hb) hm1
        unfold loadSlot
        rw [if_pos (by rw [hd1])]
        have h2 := hs.fill (v := v) (fr := s1.free) (b := b) (by rw [hf1]) hhd hm1 hpt (fix := fix) (d := w) (pn := none) (nd := s1.disk b) (live' := s1.live) (val' := σ.val)
          (by rw [hlv]; exact hb) (fun c _ => Iff.rfl) hs.lnd hRb (fun _ _ => rfl) (fun b' h => by cases h) (fun _ => hd1) (fun _ => hd1) (fun _ => rfl)
        refine ⟨v, _, rfl, rfl, hn, ?_, tight_drop _⟩
        have e : ({ Spec.touch (Spec.shrink s.n σ) b fix with live := s1.live, val := σ.val, recent := if (none : Option Nat) = none then (Spec.touch (Spec.shrink s.n σ) b fix).recent else [] } : Spec.M V) = Spec.touch (Spec.shrink s.n σ) b fix := by
          rw [if_pos rfl, show s1.live = σ.live from hs.live]; rfl
        rw [e] at h2
        exact (h2.point (b := b) (i := v) (by simp) (by simp) w (by simp) k).drop
      · rw [hf]
        dsimp only
        rw [if_neg (by simp [hfx]), hhit]
        dsimp only
        unfold loadSlot
        dsimp only
        rw [if_pos (by rw [hdisk])]
        have h2 := hs.fill (v := v) (fr := fr) (b := b) hf hhd hm hpt (fix := fix) (d := w) (pn := none) (nd := s.disk b) (live' := s.live) (val' := σ.val)
          hb (fun c _ => Iff.rfl) hs.lnd hRb (fun _ _ => rfl) (fun b' h => by cases h) (fun _ => hdisk) (fun _ => hdisk) (fun _ => rfl)
        refine ⟨v, _, rfl, rfl, rfl, ?_, tight_drop _⟩
        have e : ({ Spec.touch (Spec.shrink s.n σ) b fix with live := s.live, val := σ.val, recent := if (none : Option Nat) = none then (Spec.touch (Spec.shrink s.n σ) b fix).recent else [] } : Spec.M V) = Spec.touch (Spec.shrink s.n σ) b fix := by
          rw [if_pos rfl, h.live]; rfl
        rw [e] at h2
        exact (h2.point (b := b) (i := v) (by simp) (by simp) w (by simp) k).drop

theorem step_sim {init : V} {pick : List Nat → Nat} (hpick : ∀ L, pick L ∉ L ∧ ¬ R (pick L)) (h : Sim R d0 s σ) (ht : Tight σ)
    {op : Op V} {σ' : Spec.M V} {o : Out V} (hst : Spec.step s.n init pick σ op = some (σ', o)) :
    ∃ s', step init pick s op = some (s', o) ∧ Sim R d0 s' σ' ∧ Tight σ' ∧ s'.n = s.n := by
  cases op with
  | new k =>
    simp only [Spec.step] at hst
    simp only [step, getNew]
    by_cases hx : σ.fx.length = s.n
    · rw [if_pos hx] at hst
      cases hst
      have hf : s.free = [] := by
        cases hf : s.free with
        | nil => rfl
        | cons v fr =>
          have := h.free_lt (v := v) (by rw [hf]; simp)
          omega
      rw [hf]
      dsimp only
      rw [h.full_evict hf hx]
      refine ⟨_, rfl, h.setNull k, ?_, rfl⟩
      intro k' c w' hk
      unfold Spec.setPtr at hk
      dsimp only at hk
      split at hk
      · cases hk
      · exact ht k' c w' hk
    · rw [if_neg hx] at hst
      rw [← h.live] at hst
      cases hst
      obtain ⟨hb, hRb⟩ := hpick s.live
      generalize pick s.live = b at hb hRb ⊢
      have hm : s.map b = none := by
        cases hm : s.map b with
        | none => rfl
        | some i => exact absurd (h.mlive b i hm) hb
      have hh' : Spec.hot σ b = false := by
        cases hh : Spec.hot σ b with
        | false => rfl
        | true => obtain ⟨i, hi⟩ := h.hot_map hh; rw [hm] at hi; cases hi
      have hpt : ∀ k w, (Spec.shrink s.n σ).ptr k ≠ some (b, w) := ptr_none_of_not_hot ht hh'
      rcases h.slot hx with ⟨v, s1, hf, he, hf1, hs, hhd, hlv, hn, hmap⟩ | ⟨v, fr, p, hf, hfx, hhit, hs, hhd⟩
      · rw [hf]
        dsimp only
        rw [he]
        dsimp only
        have hm1 := hmap b hm
        have hp1 : s1.pend v = none := hs.fpend v (by simp)
        have hx1 : s1.fixed v = false := hs.ffix v (by simp)
        have h2 := hs.fill (v := v) (fr := s1.free) (b := b) (by rw [hf1]) hhd hm1 hpt (fix := false) (d := true) (pn := none) (nd := (b, init)) (live' := b :: s1.live)
          (val' := fun i => if i = b then init else σ.val i)
          (by simp) (fun c hc => by simp [hc]) (by rw [hlv]; exact List.nodup_cons.mpr ⟨hb, h.lnd⟩) hRb (fun c hc => by simp [hc, Spec.shrink]) (fun b' h => by cases h) (fun _ => by simp) (fun hd => by cases hd) (fun _ => rfl)
        have h3 := (h2.point (b := b) (i := v) (by simp) (by simp) true (by simp) k).drop
        refine ⟨_, rfl, ?_, tight_drop _, hn⟩
        have e2 : upd s1.pend v none = s1.pend := by funext j; by_cases hj : j = v <;> simp [upd, hj, hp1]
        have e3 : upd s1.fixed v false = s1.fixed := by funext j; by_cases hj : j = v <;> simp [upd, hj, hx1]
        dsimp only at h3
        rw [e2, e3] at h3
        rw [hlv] at h3
        simp only [initSlot, hlv]
        exact h3
      · rw [hf]
        dsimp only
        rw [if_neg (by simp [hfx]), hhit]
        dsimp only
        have hp1 : s.pend v = none := h.fpend v (by rw [hf]; simp)
        have h2 := hs.fill (v := v) (fr := fr) (b := b) hf hhd hm hpt (fix := false) (d := true) (pn := none) (nd := (b, init)) (live' := b :: s.live)
          (val' := fun i => if i = b then init else σ.val i)
          (by simp) (fun c hc => by simp [hc]) (List.nodup_cons.mpr ⟨hb, h.lnd⟩) hRb (fun c hc => by simp [hc, Spec.shrink]) (fun b' h => by cases h) (fun _ => by simp) (fun hd => by cases hd) (fun _ => rfl)
        have h3 := (h2.point (b := b) (i := v) (by simp) (by simp) true (by simp) k).drop
        refine ⟨_, rfl, ?_, tight_drop _, rfl⟩
        have e2 : upd s.pend v none = s.pend := by funext j; by_cases hj : j = v <;> simp [upd, hj, hp1]
        have e3 : upd s.fixed v false = s.fixed := by funext j; by_cases hj : j = v <;> simp [upd, hj, hfx]
        dsimp only at h3
        rw [e2, e3] at h3
        exact h3
  | get b fix k =>
    simp only [Spec.step] at hst
    by_cases hb : b ∈ σ.live
    swap
    · rw [if_neg hb] at hst; cases hst
    rw [if_pos hb] at hst
    have hst := Option.some.inj hst
    simp only [step]
    rcases get_sim h ht (by rw [h.live]; exact hb) fix true k with ⟨i, s', g1, g2, g3, g4, g5⟩ | ⟨s', g1, g2, g3, g4, g5⟩
    all_goals
      rw [g1]
      rw [hst] at g2 g4 g5
      dsimp only at g2 g4 g5 ⊢
      subst g2
      exact ⟨_, rfl, g4, g5, g3⟩
  | cget b fix k =>
    simp only [Spec.step] at hst
    by_cases hb : b ∈ σ.live
    swap
    · rw [if_neg hb] at hst; cases hst
    rw [if_pos hb] at hst
    have hst := Option.some.inj hst
    simp only [step]
    rcases get_sim h ht (by rw [h.live]; exact hb) fix false k with ⟨i, s', g1, g2, g3, g4, g5⟩ | ⟨s', g1, g2, g3, g4, g5⟩
    all_goals
      rw [g1]
      rw [hst] at g2 g4 g5
      dsimp only at g2 g4 g5 ⊢
      subst g2
      exact ⟨_, rfl, g4, g5, g3⟩
  | prefetch b =>
    simp only [Spec.step] at hst
    by_cases hb : b ∈ σ.live
    swap
    · rw [if_neg hb] at hst; cases hst
    rw [if_pos hb] at hst
    simp only [step, prefetch]
    have hb' : b ∈ s.live := by rw [h.live]; exact hb
    have hclr : ∀ {s1 : St V}, Sim R d0 s1 σ → Sim R d0 s1 { σ with recent := [] } := by
      intro s1 h1
      refine { h1 with recent := by simp, ptr := ?_ }
      intro k c w g1 g2
      refine h1.ptr k c w g1 ?_
      rw [hot_iff] at g2 ⊢
      rcases g2 with g2 | g2
      · exact Or.inl g2
      · cases g2
    cases hm : s.map b with
    | some i =>
      dsimp only [Option.map_some]
      split_ifs at hst with hc
      · cases hst; exact ⟨s, rfl, h, ht, rfl⟩
      · cases hst; exact ⟨s, rfl, (hclr h).drop, tight_drop _, rfl⟩
    | none =>
      have hh' : Spec.hot σ b = false := by
        cases hh : Spec.hot σ b with
        | false => rfl
        | true => obtain ⟨i, hi⟩ := h.hot_map hh; rw [hm] at hi; cases hi
      dsimp only
      by_cases hx : σ.fx.length = s.n
      · rw [if_pos (Or.inr hx)] at hst
        cases hst
        have hf : s.free = [] := by
          cases hf : s.free with
          | nil => rfl
          | cons v fr =>
            have := h.free_lt (v := v) (by rw [hf]; simp)
            omega
        rw [hf]
        dsimp only
        rw [h.full_evict hf hx]
        exact ⟨s, rfl, h, ht, rfl⟩
      · rw [if_neg (by simp [hh', hx])] at hst
        cases hst
        have hRb : ¬ R b := fun hr => (h.foreign b hr).2 hb'
        have hpt : ∀ k w, (Spec.shrink s.n σ).ptr k ≠ some (b, w) := ptr_none_of_not_hot ht hh'
        have hbfx : b ∉ σ.fx := by intro hmm; obtain ⟨i, hi, _⟩ := (h.fx b).mp hmm; rw [hm] at hi; cases hi
        have hdisk := h.out b hb' hm
        rcases h.slot hx with ⟨v, s1, hf, he, hf1, hs, hhd, hlv, hn, hmap⟩ | ⟨v, fr, p, hf, hfx, hhit, hs, hhd⟩
        · rw [hf]
          dsimp only
          rw [he]
          have hm1 := hmap b hm
          have hd1 : s1.disk b = (b, σ.val b) := hs.out b (by show b ∈ s1.live; rw [hlv]; exact hb') hm1
          have h2 := hs.fill (v := v) (fr := s1.free) (b := b) (by rw [hf1]) hhd hm1 hpt (fix := false) (d := false) (pn := some b) (nd := s1.node v) (live' := s1.live) (val' := σ.val)
            (by rw [hlv]; exact hb') (fun c _ => Iff.rfl) hs.lnd hRb (fun _ _ => rfl) (fun b' h => by cases h; exact ⟨rfl, rfl⟩) (fun h => by cases h) (fun _ => hd1) (fun h => by cases h)
          refine ⟨_, rfl, ?_, tight_drop _, hn⟩
          have e1 : upd s1.node v (s1.node v) = s1.node := by funext j; by_cases hj : j = v <;> simp [upd, hj]
          have e : ({ Spec.touch (Spec.shrink s.n σ) b false with live := s1.live, val := σ.val, recent := if (some b : Option Nat) = none then (Spec.touch (Spec.shrink s.n σ) b false).recent else [] } : Spec.M V) = { σ with recent := [] } := by
            rw [if_neg (by simp), show s1.live = σ.live from hs.live]
            simp [Spec.touch, Spec.shrink, List.erase_of_not_mem hbfx]
          rw [e] at h2
          dsimp only at h2
          rw [e1] at h2
          exact h2.drop
        · rw [hf]
          dsimp only
          rw [if_neg (by simp [hfx]), hhit]
          dsimp only
          have h2 := hs.fill (v := v) (fr := fr) (b := b) hf hhd hm hpt (fix := false) (d := false) (pn := some b) (nd := s.node v) (live' := s.live) (val' := σ.val)
            hb' (fun c _ => Iff.rfl) hs.lnd hRb (fun _ _ => rfl) (fun b' h => by cases h; exact ⟨rfl, rfl⟩) (fun h => by cases h) (fun _ => hdisk) (fun h => by cases h)
          refine ⟨_, rfl, ?_, tight_drop _, rfl⟩
          have e1 : upd s.node v (s.node v) = s.node := by funext j; by_cases hj : j = v <;> simp [upd, hj]
          have e : ({ Spec.touch (Spec.shrink s.n σ) b false with live := s.live, val := σ.val, recent := if (some b : Option Nat) = none then (Spec.touch (Spec.shrink s.n σ) b false).recent else [] } : Spec.M V) = { σ with recent := [] } := by
            rw [if_neg (by simp), h.live]
            simp [Spec.touch, Spec.shrink, List.erase_of_not_mem hbfx]
          rw [e] at h2
          dsimp only at h2
          rw [e1] at h2
          exact h2.drop
  | unfix b =>
    simp only [Spec.step] at hst
    by_cases hb : b ∈ σ.fx
    swap
    · rw [if_neg hb] at hst; cases hst
    rw [if_pos hb] at hst
    cases hst
    obtain ⟨i, hi, hfi⟩ := (h.fx b).mp hb
    simp only [step, unfix, hi, Option.map_some]
    refine ⟨_, rfl, ?_, tight_drop _, rfl⟩
    refine Sim.drop { h with ffix := ?_, fx := ?_, fxnd := h.fxnd.erase b, recent := by simp, ptr := ?_ }
    · intro j hj
      by_cases hji : j = i
      · subst hji; simp
      · dsimp only; rw [upd_ne _ _ hji]; exact h.ffix j hj
    · intro c
      show c ∈ σ.fx.erase b ↔ ∃ j, s.map c = some j ∧ upd s.fixed i false j = true
      by_cases hcb : c = b
      · subst hcb
        simp only [h.fxnd.not_mem_erase, false_iff]
        rintro ⟨j, h1, h2⟩
        rw [hi] at h1; cases h1; simp at h2
      · rw [List.mem_erase_of_ne hcb, h.fx c]
        constructor
        · rintro ⟨j, h1, h2⟩
          exact ⟨j, h1, by rw [upd_ne _ _ (by intro he; subst he; exact hcb (h.inj c b j h1 hi))]; exact h2⟩
        · rintro ⟨j, h1, h2⟩
          by_cases hji : j = i
          · subst hji; simp at h2
          · rw [upd_ne _ _ hji] at h2; exact ⟨j, h1, h2⟩
    · intro k c w g1 g2
      refine h.ptr k c w g1 ?_
      rw [hot_iff] at g2 ⊢
      rcases g2 with g2 | g2
      · exact Or.inl (List.mem_of_mem_erase g2)
      · cases g2
  | del b =>
    simp only [Spec.step] at hst
    by_cases hb : b ∈ σ.live
    swap
    · rw [if_neg hb] at hst; cases hst
    rw [if_pos hb] at hst
    cases hst
    simp only [step, del]
    cases hm : s.map b with
    | some i =>
      dsimp only
      obtain ⟨w1, w2, w3, w4, w5, w6, w7, w8, w9, w10, w11, w12⟩ := h.wait hm
      have hm1 : (wait s i).map b = some i := by rw [w3]; exact hm
      generalize wait s i = s1 at *
      refine ⟨_, rfl, ?_, tight_drop _, w5⟩
      have hmap : ∀ c j, upd s1.map b none c = some j → c ≠ b ∧ s1.map c = some j ∧ j ≠ i := by
        intro c j hc
        by_cases hcb : c = b
        · subst hcb; simp at hc
        · rw [upd_ne _ _ hcb] at hc
          exact ⟨hcb, hc, by intro he; subst he; exact hcb (w1.inj c b j hc hm1)⟩
      have hmap' : ∀ c j, c ≠ b → s1.map c = some j → upd s1.map b none c = some j := by
        intro c j hcb hc; rw [upd_ne _ _ hcb]; exact hc
      have hlv : ∀ c, c ∈ s1.live.erase b ↔ c ≠ b ∧ c ∈ s1.live := fun c => w1.lnd.mem_erase_iff
      refine Sim.drop { hp := w1.hp, lsz := w1.lsz, inj := ?_, mlt := ?_, mfree := ?_, cover := ?_, fnd := ?_, flt := ?_, ffix := ?_, fpend := ?_, mlive := ?_, live := ?_, lnd := w1.lnd.erase b, fx := ?_, fxnd := w1.fxnd.erase b, pnd := ?_, cont := ?_, clean := ?_, out := ?_, recent := ?_, ptr := ?_, foreign := ?_ }
      · intro a c j ha hc; exact w1.inj a c j (hmap a j ha).2.1 (hmap c j hc).2.1
      · intro c j hc; exact w1.mlt c j (hmap c j hc).2.1
      · intro c j hc hj
        obtain ⟨_, g2, g3⟩ := hmap c j hc
        rcases List.mem_cons.mp hj with hj | hj
        · exact g3 hj
        · exact w1.mfree c j g2 hj
      · intro j hj
        by_cases hji : j = i
        · left; simp [hji]
        · rcases w1.cover j hj with g | ⟨c, g⟩
          · left; simp [g]
          · right; exact ⟨c, hmap' c j (by intro he; subst he; rw [hm1] at g; cases g; exact hji rfl) g⟩
      · exact List.nodup_cons.mpr ⟨w1.mfree b i hm1, w1.fnd⟩
      · intro j hj
        rcases List.mem_cons.mp hj with rfl | hj
        · exact w1.mlt b j hm1
        · exact w1.flt j hj
      · intro j hj
        dsimp only
        by_cases hji : j = i
        · subst hji; simp
        · rw [upd_ne _ _ hji]
          rcases List.mem_cons.mp hj with hj | hj
          · exact absurd hj hji
          · exact w1.ffix j hj
      · intro j hj
        rcases List.mem_cons.mp hj with rfl | hj
        · exact w2
        · exact w1.fpend j hj
      · intro c j hc
        obtain ⟨g1, g2, _⟩ := hmap c j hc
        exact (hlv c).mpr ⟨g1, w1.mlive c j g2⟩
      · show s1.live.erase b = σ.live.erase b
        rw [w1.live]
      · intro c
        show c ∈ σ.fx.erase b ↔ ∃ j, upd s1.map b none c = some j ∧ upd s1.fixed i false j = true
        by_cases hcb : c = b
        · subst hcb
          simp [h.fxnd.not_mem_erase]
        · rw [List.mem_erase_of_ne hcb, w1.fx c]
          constructor
          · rintro ⟨j, g1, g2⟩
            exact ⟨j, hmap' c j hcb g1, by rw [upd_ne _ _ (by intro he; subst he; exact hcb (w1.inj c b j g1 hm1))]; exact g2⟩
          · rintro ⟨j, g1, g2⟩
            obtain ⟨_, g3, g4⟩ := hmap c j g1
            rw [upd_ne _ _ g4] at g2; exact ⟨j, g3, g2⟩
      · intro c j b' g1 g2; exact w1.pnd c j b' (hmap c j g1).2.1 g2
      · intro c j g1 g2; exact w1.cont c j (hmap c j g1).2.1 g2
      · intro c j g1 g2; exact w1.clean c j (hmap c j g1).2.1 g2
      · intro c hc g1
        obtain ⟨g2, g3⟩ := (hlv c).mp hc
        dsimp only at g1
        rw [upd_ne _ _ g2] at g1
        exact w1.out c g3 g1
      · show (σ.recent.erase b).map (upd s1.map b none) <+: (s1.lru.history.filter _).map some
        have hrn : b ∉ σ.recent.erase b := by
          -- the nodes in `recent` are different
          have hnd : σ.recent.Nodup := by
            have h1 : (σ.recent.map s1.map).Nodup :=
              (nodup_map_inj (w1.nd.filter (unf s1)) (fun a _ c _ hac => Option.some.inj hac)).sublist w1.recent.sublist
            exact List.Nodup.of_map _ h1
          exact hnd.not_mem_erase
        have e1 : (σ.recent.erase b).map (upd s1.map b none) = (σ.recent.erase b).map s1.map := by
          refine List.map_congr_left ?_
          intro c hc
          rw [upd_ne _ _ (by intro he; subst he; exact hrn hc)]
        have e2 : ∀ s' : St V, s'.free = i :: s1.free → s'.fixed = upd s1.fixed i false → s1.lru.history.filter (unf s') = (s1.lru.history.filter (unf s1)).erase i := by
          intro s' g1 g2
          rw [← filter_erase w1.nd]
          have hi' : unf s' i = false := by simp [unf, g1]
          have e3 : s1.lru.history.filter (unf s') = (s1.lru.history.erase i).filter (unf s') := by
            rw [filter_erase w1.nd, List.erase_of_not_mem (by simp [hi'])]
          rw [e3]
          refine List.filter_congr ?_
          intro x hx
          have : x ≠ i := fun he => w1.nd.not_mem_erase (he ▸ hx)
          simp only [unf, g1, g2, upd_ne _ _ this]
          simp [this]
        rw [e1, e2 _ rfl rfl]
        rw [← map_erase_inj (f := s1.map) (fun a _ he => w1.inj a b i (by rw [he]; exact hm1) hm1)]
        rw [← map_erase_inj (f := (some : Nat → Option Nat)) (fun a _ he => by simpa using he), ← hm1]
        by_cases hmm : s1.map b ∈ σ.recent.map s1.map
        · exact prefix_erase w1.recent _ hmm
        · rw [List.erase_of_not_mem hmm]; exact prefix_erase_not w1.recent _ hmm
      · intro k c w g1 g2
        have hnd : σ.recent.Nodup := by
          have h1 : (σ.recent.map s1.map).Nodup :=
            (nodup_map_inj (w1.nd.filter (unf s1)) (fun a _ c _ hac => Option.some.inj hac)).sublist w1.recent.sublist
          exact List.Nodup.of_map _ h1
        have hcb : c ≠ b ∧ Spec.hot σ c = true := by
          rw [hot_iff] at g2 ⊢
          rcases g2 with g2 | g2
          · have g2 : c ∈ σ.fx.erase b := g2
            rw [h.fxnd.mem_erase_iff] at g2
            exact ⟨g2.1, Or.inl g2.2⟩
          · have g2 : c ∈ σ.recent.erase b := g2
            rw [hnd.mem_erase_iff] at g2
            exact ⟨g2.1, Or.inr g2.2⟩
        obtain ⟨j, j1, j2, j3, j4⟩ := w1.ptr k c w g1 hcb.2
        exact ⟨j, j1, hmap' c j hcb.1 j2, j3, j4⟩
      · intro c hc
        obtain ⟨g1, g2⟩ := w1.foreign c hc
        exact ⟨g1, fun hm => g2 (List.mem_of_mem_erase hm)⟩
    | none =>
      dsimp only
      have hbfx : b ∉ σ.fx := by intro hmm; obtain ⟨i, hi, _⟩ := (h.fx b).mp hmm; rw [hm] at hi; cases hi
      have hbrec : b ∉ σ.recent := by intro hmm; obtain ⟨i, hi, _⟩ := h.recent_map hmm; rw [hm] at hi; cases hi
      refine ⟨_, rfl, ?_, tight_drop _, rfl⟩
      rw [List.erase_of_not_mem hbfx, List.erase_of_not_mem hbrec]
      refine Sim.drop { h with mlive := ?_, live := ?_, lnd := h.lnd.erase b, out := ?_, ptr := ?_, foreign := ?_ }
      · intro c j hc
        exact h.lnd.mem_erase_iff.mpr ⟨(by intro he; subst he; dsimp only at hc; rw [hm] at hc; cases hc), h.mlive c j hc⟩
      · show s.live.erase b = σ.live.erase b
        rw [h.live]
      · intro c hc g1; exact h.out c (List.mem_of_mem_erase hc) g1
      · intro k c w g1 g2; exact h.ptr k c w g1 g2
      · intro c hc
        obtain ⟨g1, g2⟩ := h.foreign c hc
        exact ⟨g1, fun hm => g2 (List.mem_of_mem_erase hm)⟩
  | read k =>
    simp only [Spec.step] at hst
    cases hp : σ.ptr k with
    | none => rw [hp] at hst; cases hst
    | some p =>
      obtain ⟨b, w⟩ := p
      rw [hp] at hst
      cases hst
      obtain ⟨i, g1, g2, g3, g4⟩ := h.ptr k b w hp (ht k b w hp)
      refine ⟨s, ?_, h, ht, rfl⟩
      simp only [step, g1, g3, if_true]
      rw [h.cont b i g2 g3]
  | write k v =>
    simp only [Spec.step] at hst
    cases hp : σ.ptr k with
    | none => rw [hp] at hst; cases hst
    | some p =>
      obtain ⟨b, w⟩ := p
      rw [hp] at hst
      cases w with
      | false => cases hst
      | true =>
        cases hst
        obtain ⟨i, g1, g2, g3, g4⟩ := h.ptr k b true hp (ht k b true hp)
        have g4 := g4 rfl
        refine ⟨{ s with node := upd s.node i ((s.node i).1, v) }, ?_, ?_, ?_, rfl⟩
        · simp only [step, g1, g3, if_true]
        · refine { h with cont := ?_, clean := ?_, out := ?_, ptr := ?_ }
          · intro c j h1 h2
            dsimp only
            by_cases hji : j = i
            · subst hji
              have := h.inj c b j h1 g2
              subst this
              simp [h.cont c j g2 g3]
            · rw [upd_ne _ _ hji, if_neg (by intro he; subst he; rw [g2] at h1; cases h1; exact hji rfl)]
              exact h.cont c j h1 h2
          · intro c j h1 h2
            dsimp only
            rw [if_neg]
            · exact h.clean c j h1 h2
            · intro he; subst he
              rw [g2] at h1; cases h1
              dsimp only at h2
              rw [g4] at h2; cases h2
          · intro c hc h1
            dsimp only
            rw [if_neg]
            · exact h.out c hc h1
            · intro he; subst he
              dsimp only at h1
              rw [g2] at h1; cases h1
          · intro k c w h1 h2; exact h.ptr k c w h1 h2
        · intro k' c w' hk; exact ht k' c w' hk

end NodeCache
