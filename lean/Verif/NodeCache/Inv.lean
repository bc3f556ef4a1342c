/-
The invariant that relates the node cache to its specification, and its basic consequences.
-/
import Verif.NodeCache.Model
import Mathlib.Data.List.Basic
import Mathlib.Tactic.ByContra

namespace NodeCache
open Stxxl.Pager (Lru)
open Spec (Op Out)
variable {V : Type}

/-- Slot `i` holds a node that is not fixed. -/
def unf (s : St V) (i : Nat) : Bool := !s.free.contains i && !s.fixed i

structure Sim (R : Nat → Prop) (d0 : Nat → Nat × V) (s : St V) (σ : Spec.M V) : Prop where
  hp : s.lru.history.Perm (List.range s.n)
  lsz : s.lru.size = s.n
  inj : ∀ a b i, s.map a = some i → s.map b = some i → a = b
  mlt : ∀ b i, s.map b = some i → i < s.n
  mfree : ∀ b i, s.map b = some i → i ∉ s.free
  cover : ∀ i, i < s.n → i ∈ s.free ∨ ∃ b, s.map b = some i
  fnd : s.free.Nodup
  flt : ∀ i ∈ s.free, i < s.n
  ffix : ∀ i ∈ s.free, s.fixed i = false
  fpend : ∀ i ∈ s.free, s.pend i = none
  mlive : ∀ b i, s.map b = some i → b ∈ s.live
  live : s.live = σ.live
  lnd : s.live.Nodup
  fx : ∀ b, b ∈ σ.fx ↔ ∃ i, s.map b = some i ∧ s.fixed i = true
  fxnd : σ.fx.Nodup
  pnd : ∀ b i b', s.map b = some i → s.pend i = some b' → b' = b ∧ s.dirty i = false
  cont : ∀ b i, s.map b = some i → s.pend i = none → s.node i = (b, σ.val b)
  clean : ∀ b i, s.map b = some i → s.dirty i = false → s.disk b = (b, σ.val b)
  out : ∀ b ∈ s.live, s.map b = none → s.disk b = (b, σ.val b)
  recent : σ.recent.map s.map <+: (s.lru.history.filter (unf s)).map some
  ptr : ∀ h b w, σ.ptr h = some (b, w) → Spec.hot σ b = true → ∃ i, s.ptr h = some i ∧ s.map b = some i ∧
    s.pend i = none ∧ (w = true → s.dirty i = true)
  foreign : ∀ b, R b → s.disk b = d0 b ∧ b ∉ s.live

/-- Every pointer is to a node that is certain to be in the cache. -/
def Tight (σ : Spec.M V) : Prop := ∀ h b w, σ.ptr h = some (b, w) → Spec.hot σ b = true

theorem hot_iff {σ : Spec.M V} {b : Nat} : Spec.hot σ b = true ↔ b ∈ σ.fx ∨ b ∈ σ.recent := by
  simp [Spec.hot]

theorem Sim.nd {R : Nat → Prop} {d0 : Nat → Nat × V} {s : St V} {σ : Spec.M V} (h : Sim R d0 s σ) : s.lru.history.Nodup :=
  h.hp.nodup_iff.mpr List.nodup_range

theorem Sim.mem {R : Nat → Prop} {d0 : Nat → Nat × V} {s : St V} {σ : Spec.M V} (h : Sim R d0 s σ) (i : Nat) : i ∈ s.lru.history ↔ i < s.n := by
  rw [h.hp.mem_iff, List.mem_range]

theorem Sim.recent_map {R : Nat → Prop} {d0 : Nat → Nat × V} {s : St V} {σ : Spec.M V} (h : Sim R d0 s σ) {b : Nat} (hb : b ∈ σ.recent) :
    ∃ i, s.map b = some i ∧ s.fixed i = false ∧ i ∉ s.free := by
  have h1 : s.map b ∈ σ.recent.map s.map := List.mem_map_of_mem hb
  have h2 := h.recent.subset h1
  obtain ⟨i, hi, he⟩ := List.mem_map.mp h2
  refine ⟨i, he.symm, ?_⟩
  have := (List.mem_filter.mp hi).2
  simp [unf] at this
  exact ⟨this.2, this.1⟩

theorem Sim.hot_map {R : Nat → Prop} {d0 : Nat → Nat × V} {s : St V} {σ : Spec.M V} (h : Sim R d0 s σ) {b : Nat} (hb : Spec.hot σ b = true) :
    ∃ i, s.map b = some i := by
  rcases hot_iff.mp hb with hb | hb
  · obtain ⟨i, hi, _⟩ := (h.fx b).mp hb; exact ⟨i, hi⟩
  · obtain ⟨i, hi, _⟩ := h.recent_map hb; exact ⟨i, hi⟩

theorem nodup_map_inj {α β : Type} {f : α → β} {l : List α} (h : l.Nodup) (hf : ∀ a ∈ l, ∀ b ∈ l, f a = f b → a = b) : (l.map f).Nodup := by
  induction l with
  | nil => simp
  | cons a l ih =>
    rw [List.nodup_cons] at h
    rw [List.map_cons, List.nodup_cons]
    refine ⟨?_, ih h.2 (fun a ha b hb => hf a (by simp [ha]) b (by simp [hb]))⟩
    intro hm
    obtain ⟨b, hb, he⟩ := List.mem_map.mp hm
    have := hf b (by simp [hb]) a (by simp) he
    subst this
    exact h.1 hb

/-- The number of fixed nodes is the number of fixed slots. -/
theorem Sim.card {R : Nat → Prop} {d0 : Nat → Nat × V} {s : St V} {σ : Spec.M V} (h : Sim R d0 s σ) :
    σ.fx.length = (s.lru.history.filter (fun i => s.fixed i)).length := by
  have hperm : (σ.fx.map s.map).Perm ((s.lru.history.filter (fun i => s.fixed i)).map some) := by
    rw [List.perm_ext_iff_of_nodup]
    · intro o
      rw [List.mem_map, List.mem_map]
      constructor
      · rintro ⟨b, hb, rfl⟩
        obtain ⟨i, h1, h2⟩ := (h.fx b).mp hb
        exact ⟨i, by simp [h2, h.mem, h.mlt b i h1], h1.symm⟩
      · rintro ⟨i, hi, rfl⟩
        obtain ⟨h1, h2⟩ := List.mem_filter.mp hi
        rcases h.cover i ((h.mem i).mp h1) with h3 | ⟨b, h3⟩
        · have := h.ffix i h3; simp [this] at h2
        · exact ⟨b, (h.fx b).mpr ⟨i, h3, h2⟩, h3⟩
    · refine nodup_map_inj h.fxnd ?_
      intro a ha b hb hab
      obtain ⟨i, h1, _⟩ := (h.fx a).mp ha
      exact h.inj a b i h1 (by rw [← hab]; exact h1)
    · exact nodup_map_inj (h.nd.filter _) (fun a _ b _ hab => by simpa using hab)
  simpa using hperm.length_eq

theorem Sim.fx_le {R : Nat → Prop} {d0 : Nat → Nat × V} {s : St V} {σ : Spec.M V} (h : Sim R d0 s σ) : σ.fx.length ≤ s.n := by
  rw [h.card]
  refine Nat.le_trans (List.length_filter_le _ _) ?_
  rw [h.hp.length_eq]; simp

/-- All nodes are fixed iff every slot is. -/
theorem Sim.full {R : Nat → Prop} {d0 : Nat → Nat × V} {s : St V} {σ : Spec.M V} (h : Sim R d0 s σ) :
    σ.fx.length = s.n ↔ ∀ i, i < s.n → s.fixed i = true := by
  rw [h.card]
  have hl : s.lru.history.length = s.n := by rw [h.hp.length_eq]; simp
  constructor
  · intro he i hi
    rw [← hl] at he
    have := List.length_filter_eq_length_iff.mp he i ((h.mem i).mpr hi)
    simpa using this
  · intro hf
    rw [List.filter_eq_self.mpr, hl]
    intro i hi
    simpa using hf i ((h.mem i).mp hi)

theorem Sim.free_lt {R : Nat → Prop} {d0 : Nat → Nat × V} {s : St V} {σ : Spec.M V} (h : Sim R d0 s σ) {v : Nat} (hv : v ∈ s.free) :
    σ.fx.length < s.n := by
  rcases Nat.lt_or_ge σ.fx.length s.n with hh | hh
  · exact hh
  · exfalso
    have he : σ.fx.length = s.n := Nat.le_antisymm h.fx_le hh
    have := h.full.mp he v (h.flt v hv)
    rw [h.ffix v hv] at this
    cases this

/-- With no free slot, the unfixed nodes are those that are not among the fixed ones. -/
theorem Sim.unf_length {R : Nat → Prop} {d0 : Nat → Nat × V} {s : St V} {σ : Spec.M V} (h : Sim R d0 s σ) (hf : s.free = []) :
    (s.lru.history.filter (unf s)).length + σ.fx.length = s.n := by
  have hl : s.lru.history.length = s.n := by rw [h.hp.length_eq]; simp
  rw [h.card, ← hl]
  have : unf s = fun i => !s.fixed i := by funext i; simp [unf, hf]
  rw [this]
  have key : ∀ l : List Nat, (l.filter (fun i => !s.fixed i)).length + (l.filter (fun i => s.fixed i)).length = l.length := by
    intro l
    induction l with
    | nil => rfl
    | cons a l ih => cases ha : s.fixed a <;> simp [ha] <;> omega
  exact key _

/-! ### The loop that looks for a victim -/

theorem hit_last {p : Lru} {A : List Nat} {b : Nat} (hh : p.history = A ++ [b]) (hn : p.history.Nodup) (hb : b < p.size) :
    p.kick = some b ∧ p.hit b = some { p with history := b :: A } := by
  refine ⟨by simp [Lru.kick, hh], ?_⟩
  unfold Lru.hit
  rw [if_pos hb]
  have : p.history.erase b = A := by
    rw [hh] at hn ⊢
    have hnA : b ∉ A := fun h => (List.nodup_append.mp hn).2.2 b h b (by simp) rfl
    rw [List.erase_append_right _ hnA]; simp
  rw [this]

theorem kickLoop_full (fixed : Nat → Bool) : ∀ (k : Nat) (B A : List Nat) (p : Lru), B.length = k → p.history = A ++ B → p.history.Nodup →
    (∀ i ∈ p.history, i < p.size) → (∀ i ∈ B, fixed i = true) → kickLoop fixed k p = some (none, { p with history := B ++ A })
  | 0, B, A, p, hk, hh, _, _, _ => by
    obtain rfl := List.length_eq_zero_iff.mp hk
    have : ({ p with history := [] ++ A } : Lru) = p := by cases p; simp_all
    rw [this]; rfl
  | k + 1, B, A, p, hk, hh, hn, hl, hf => by
    obtain ⟨B', b, rfl⟩ : ∃ B' b, B = B' ++ [b] := ⟨B.dropLast, B.getLast (by intro h; simp [h] at hk), (List.dropLast_append_getLast _).symm⟩
    have hh' : p.history = (A ++ B') ++ [b] := by rw [hh]; simp
    obtain ⟨h1, h2⟩ := hit_last hh' hn (hl b (by rw [hh]; simp))
    unfold kickLoop
    rw [h1]; dsimp only; rw [h2]; dsimp only
    rw [if_pos (hf b (by simp))]
    have hperm : (b :: (A ++ B')).Perm p.history := by rw [hh']; exact List.perm_append_comm (l₁ := [b])
    rw [kickLoop_full fixed k B' (b :: A) { p with history := b :: (A ++ B') } (by simpa using hk) rfl (hperm.nodup_iff.mpr hn)
      (fun i hi => hl i (hperm.mem_iff.mp hi)) (fun i hi => hf i (by simp [hi]))]
    simp

theorem kickLoop_found (fixed : Nat → Bool) : ∀ (k : Nat) (B A : List Nat) (v : Nat) (p : Lru), B.length < k → p.history = A ++ v :: B → p.history.Nodup →
    (∀ i ∈ p.history, i < p.size) → (∀ i ∈ B, fixed i = true) → fixed v = false →
      kickLoop fixed k p = some (some v, { p with history := v :: (B ++ A) })
  | 0, B, A, v, p, hk, _, _, _, _, _ => by omega
  | k + 1, B, A, v, p, hk, hh, hn, hl, hf, hv => by
    rcases List.eq_nil_or_concat B with rfl | ⟨B', b, rfl⟩
    · obtain ⟨h1, h2⟩ := hit_last hh hn (hl v (by rw [hh]; simp))
      unfold kickLoop
      rw [h1]; dsimp only; rw [h2]; dsimp only
      simp [hv]
    · rw [List.concat_eq_append] at *
      have hh' : p.history = (A ++ v :: B') ++ [b] := by rw [hh]; simp
      obtain ⟨h1, h2⟩ := hit_last hh' hn (hl b (by rw [hh]; simp))
      unfold kickLoop
      rw [h1]; dsimp only; rw [h2]; dsimp only
      rw [if_pos (hf b (by simp))]
      have hperm : (b :: (A ++ v :: B')).Perm p.history := by rw [hh']; exact List.perm_append_comm (l₁ := [b])
      rw [kickLoop_found fixed k B' (b :: A) v { p with history := b :: (A ++ v :: B') } (by simp at hk; omega) rfl (hperm.nodup_iff.mpr hn)
        (fun i hi => hl i (hperm.mem_iff.mp hi)) (fun i hi => hf i (by simp [hi])) hv]
      simp

end NodeCache
