import Verif.WinnerTree.Model
import Verif.Common.Order

/-! # Winner tree: heap indices, the invariant, and the effect of the loops. -/

namespace Stxxl.WinnerTree

variable {V : Type}

@[simp] theorem upd_same {β : Type} (f : Nat → β) (i : Nat) (b : β) : upd f i b i = b := by simp [upd]
theorem upd_ne {β : Type} (f : Nat → β) {i j : Nat} (b : β) (h : j ≠ i) : upd f i b j = f j := by simp [upd, h]

/-- `v` is `p` or an ancestor of `p`. -/
inductive Anc (v : Nat) : Nat → Prop
  | refl : Anc v v
  | up {p : Nat} (hp : p ≠ 0) (h : Anc v ((p - 1) / 2)) : Anc v p

theorem Anc.le {v p : Nat} (h : Anc v p) : v ≤ p := by
  induction h with
  | refl => exact Nat.le_refl _
  | up hp _ ih => omega

theorem Anc.trans {u v p : Nat} (h1 : Anc u v) (h2 : Anc v p) : Anc u p := by
  induction h2 with
  | refl => exact h1
  | up hp _ ih => exact .up hp ih

theorem anc_root (p : Nat) : Anc 0 p := by
  induction p using Nat.strongRecOn with
  | _ p ih =>
    by_cases hp : p = 0
    · subst hp; exact .refl
    · exact .up hp (ih _ (by omega))

theorem anc_left (v : Nat) : Anc v (2 * v + 1) :=
  .up (by omega) (by have : (2 * v + 1 - 1) / 2 = v := by omega
                     rw [this]; exact .refl)

theorem anc_right (v : Nat) : Anc v (2 * v + 2) :=
  .up (by omega) (by have : (2 * v + 2 - 1) / 2 = v := by omega
                     rw [this]; exact .refl)

theorem Anc.split {v p : Nat} (h : Anc v p) : v = p ∨ Anc (2 * v + 1) p ∨ Anc (2 * v + 2) p := by
  induction h with
  | refl => exact Or.inl rfl
  | @up p hp h ih =>
    right
    rcases ih with rfl | ih | ih
    · have : p = 2 * ((p - 1) / 2) + 1 ∨ p = 2 * ((p - 1) / 2) + 2 := by omega
      rcases this with h | h
      · left; rw [← h]; exact .refl
      · right; rw [← h]; exact .refl
    · exact Or.inl (.up hp ih)
    · exact Or.inr (.up hp ih)

theorem Anc.par {v p : Nat} (h : Anc v p) (hne : v ≠ p) : p ≠ 0 ∧ Anc v ((p - 1) / 2) := by
  cases h with
  | refl => exact absurd rfl hne
  | up hp h => exact ⟨hp, h⟩

theorem game_mem {lt : V → V → Bool} {val : Nat → V} {a b : Option Nat} {i : Nat} (h : game lt val a b = some i) :
    a = some i ∨ b = some i := by
  unfold game at h
  split at h
  · exact Or.inr h
  · exact Or.inl h
  · split at h
    · exact Or.inl h
    · exact Or.inr h

theorem game_none {lt : V → V → Bool} {val : Nat → V} {a b : Option Nat} (h : game lt val a b = none) : a = none ∧ b = none := by
  unfold game at h
  split at h
  · exact ⟨rfl, h⟩
  · cases h
  · split at h <;> cases h

theorem game_congr {lt : V → V → Bool} {val val' : Nat → V} {a b : Option Nat} (ha : ∀ i, a = some i → val i = val' i)
    (hb : ∀ i, b = some i → val i = val' i) : game lt val a b = game lt val' a b := by
  cases a <;> cases b <;> simp only [game]
  rw [ha _ rfl, hb _ rfl]

/-- The effect of the replay loop. -/
theorem replayLoop_spec (lt : V → V → Bool) (val : Nat → V) : ∀ (p : Nat) (t : Nat → Option Nat) (top : Option Nat),
    (∀ v, ¬ Anc v p → replayLoop lt val t p top v = t v) ∧ replayLoop lt val t p top p = top ∧
    ∀ v, Anc v p → v ≠ p →
      replayLoop lt val t p top v =
        game lt val (replayLoop lt val t p top (2 * v + 1)) (replayLoop lt val t p top (2 * v + 2)) := by
  intro p
  induction p using Nat.strongRecOn with
  | _ p ih =>
    intro t top
    rw [replayLoop]
    by_cases hp : p = 0
    · subst hp
      simp only [if_true]
      refine ⟨?_, by simp, ?_⟩
      · intro v hv; rw [upd_ne]; rintro rfl; exact hv .refl
      · intro v hv hne; have := hv.le; omega
    · simp only [hp, if_false]
      have hl : (p - (p + 1) % 2) / 2 = (p - 1) / 2 := by omega
      have hl1 : p - (p + 1) % 2 = 2 * ((p - 1) / 2) + 1 := by omega
      rw [hl, hl1]
      obtain ⟨h1, h2, h3⟩ := ih ((p - 1) / 2) (by omega) (upd t p top)
        (game lt val (upd t p top (2 * ((p - 1) / 2) + 1)) (upd t p top (2 * ((p - 1) / 2) + 1 + 1)))
      refine ⟨?_, ?_, ?_⟩
      · intro v hv
        rw [h1 v (fun h => hv (.up hp h)), upd_ne]
        rintro rfl; exact hv .refl
      · rw [h1 p (fun h => by have := h.le; omega)]; simp
      · intro v hv hne
        have hpar := (hv.par hne).2
        by_cases hv' : v = (p - 1) / 2
        · subst hv'
          rw [h2, h1 (2 * ((p - 1) / 2) + 1) (fun h => by have := h.le; omega),
            h1 (2 * ((p - 1) / 2) + 2) (fun h => by have := h.le; omega)]
        · exact h3 v hpar hv'

/-- The effect of the loop of `deactivate_player_step`. -/
theorem stepLoop_spec (i : Nat) : ∀ (p : Nat) (t : Nat → Option Nat),
    (∀ v, stepLoop i t p v = t v ∨ (stepLoop i t p v = none ∧ Anc v p ∧ t v = some i)) ∧
    (p ≠ 0 → t p = some i → stepLoop i t p p = none) ∧
    (∀ v, v ≠ 0 → Anc v p → (∀ w, Anc v w → Anc w p → t w = some i) → stepLoop i t p v = none) := by
  intro p
  induction p using Nat.strongRecOn with
  | _ p ih =>
    intro t
    rw [stepLoop]
    by_cases hp : p = 0
    · subst hp
      simp only [if_true]
      refine ⟨fun _ => by left; trivial, fun h => absurd rfl h, ?_⟩
      intro v hv ha
      have := ha.le; omega
    · simp only [hp, if_false]
      have hl : (p - (p + 1) % 2) / 2 = (p - 1) / 2 := by omega
      rw [hl]
      by_cases ht : t p = some i
      · simp only [ht, if_true]
        obtain ⟨h1, h2, h3⟩ := ih ((p - 1) / 2) (by omega) (upd t p none)
        refine ⟨?_, ?_, ?_⟩
        · intro v
          by_cases hvp : v = p
          · subst hvp
            right
            refine ⟨?_, .refl, ht⟩
            rcases h1 v with h | h
            · rw [h]; simp
            · exact h.1
          · rcases h1 v with h | h
            · left; rw [h, upd_ne _ _ hvp]
            · right
              rw [upd_ne _ _ hvp] at h
              exact ⟨h.1, .up hp h.2.1, h.2.2⟩
        · intro _ _
          rcases h1 p with h | h
          · rw [h]; simp
          · exact h.1
        · intro v hv ha hw
          by_cases hvp : v = p
          · subst hvp
            rcases h1 v with h | h
            · rw [h]; simp
            · exact h.1
          · refine h3 v hv (ha.par hvp).2 ?_
            intro w h4 h5
            rw [upd_ne]
            · exact hw w h4 (.up hp h5)
            · rintro rfl; have := h5.le; omega
      · simp only [ht, if_false]
        refine ⟨fun _ => by left; trivial, fun _ h => absurd h (by simp), ?_⟩
        intro v _ ha hw
        exact absurd (hw p ha .refl) ht

/-- The loop of `rebuild`: leaves unchanged, all inner nodes are the winners of their games. -/
theorem rebuildLoop_spec (lt : V → V → Bool) (val : Nat → V) : ∀ (n : Nat) (t : Nat → Option Nat),
    (∀ v, n ≤ v → rebuildLoop lt val n t v = t v) ∧
    ∀ v, v < n → rebuildLoop lt val n t v =
      game lt val (rebuildLoop lt val n t (2 * v + 1)) (rebuildLoop lt val n t (2 * v + 2)) := by
  intro n
  induction n with
  | zero => intro t; exact ⟨fun _ _ => rfl, fun v hv => by omega⟩
  | succ n ih =>
    intro t
    obtain ⟨h1, h2⟩ := ih (upd t n (game lt val (t (n * 2 + 1)) (t (n * 2 + 2))))
    constructor
    · intro v hv
      rw [rebuildLoop, h1 v (by omega), upd_ne _ _ (by omega)]
    · intro v hv
      rw [rebuildLoop]
      by_cases hvn : v = n
      · subst hvn
        rw [h1 v (Nat.le_refl _), h1 (2 * v + 1) (by omega), h1 (2 * v + 2) (by omega), upd_same, upd_ne _ _ (by omega),
          upd_ne _ _ (by omega), Nat.mul_comm]
      · exact h2 v (by omega)

/-- Which players are active, and which of them have changed (or been deactivated, or activated) without a replay. -/
structure A where
  act : Nat → Prop
  dirty : Nat → Prop

/-- `v` has no dirty leaf below. -/
def Clean (s : S V) (a : A) (v : Nat) : Prop := ∀ i, a.dirty i → i < s.slots → ¬ Anc v (s.slots - 1 + i)

structure Inv (lt : V → V → Bool) (s : S V) (a : A) : Prop where
  pos : 0 < s.slots
  sz : s.size = 2 * s.slots - 1
  act_lt : ∀ i, a.act i → i < s.slots
  leaf : ∀ i, i < s.slots → (a.act i → s.tree (s.slots - 1 + i) = some i) ∧ (¬ a.act i → s.tree (s.slots - 1 + i) = none)
  anc : ∀ v i, v < s.size → s.tree v = some i → i < s.slots ∧ Anc v (s.slots - 1 + i)
  ok : ∀ v, v < s.slots - 1 → Clean s a v → s.tree v = game lt s.val (s.tree (2 * v + 1)) (s.tree (2 * v + 2))

/-- Entries come from below. -/
def Backed (s : S V) : Prop := ∀ v i, v < s.slots - 1 → s.tree v = some i → s.tree (2 * v + 1) = some i ∨ s.tree (2 * v + 2) = some i

/-- A clean subtree has its minimum at the root. -/
theorem Inv.min {lt : V → V → Bool} (hlt : SWO lt) {s : S V} {a : A} (h : Inv lt s a) : ∀ (k v : Nat), s.size = v + k → 0 < k →
    Clean s a v →
    (∀ i, s.tree v = some i → a.act i ∧ ∀ j, a.act j → Anc v (s.slots - 1 + j) → lt (s.val j) (s.val i) = false) ∧
    (s.tree v = none → ∀ j, a.act j → ¬ Anc v (s.slots - 1 + j)) := by
  intro k
  induction k using Nat.strongRecOn with
  | _ k ih =>
    intro v hk hpos hcl
    have hsz := h.sz
    have hp := h.pos
    by_cases hv : v < s.slots - 1
    · have hl := ih (k - v - 1) (by omega) (2 * v + 1) (by omega) (by omega)
        (fun i hd hi hc => hcl i hd hi ((anc_left v).trans hc))
      have hr := ih (k - v - 2) (by omega) (2 * v + 2) (by omega) (by omega)
        (fun i hd hi hc => hcl i hd hi ((anc_right v).trans hc))
      have hspl : ∀ j, Anc v (s.slots - 1 + j) → Anc (2 * v + 1) (s.slots - 1 + j) ∨ Anc (2 * v + 2) (s.slots - 1 + j) := by
        intro j hj
        rcases hj.split with h | h
        · omega
        · exact h
      rw [h.ok v hv hcl]
      cases h1 : s.tree (2 * v + 1) with
      | none =>
        have g1 := hl.2 h1
        constructor
        · intro i hi
          obtain ⟨x, y⟩ := hr.1 i hi
          refine ⟨x, fun j hj hvj => ?_⟩
          rcases hspl j hvj with hc | hc
          · exact absurd hc (g1 j hj)
          · exact y j hj hc
        · intro hn j hj hvj
          rcases hspl j hvj with hc | hc
          · exact g1 j hj hc
          · exact hr.2 hn j hj hc
      | some x =>
        obtain ⟨ax, mx⟩ := hl.1 x h1
        cases h2 : s.tree (2 * v + 2) with
        | none =>
          have g2 := hr.2 h2
          constructor
          · intro i hi
            cases hi
            refine ⟨ax, fun j hj hvj => ?_⟩
            rcases hspl j hvj with hc | hc
            · exact mx j hj hc
            · exact absurd hc (g2 j hj)
          · intro hn; cases hn
        | some y =>
          obtain ⟨ay, my⟩ := hr.1 y h2
          simp only [game]
          cases hxy : lt (s.val x) (s.val y) with
          | true =>
            constructor
            · intro i hi
              cases hi
              refine ⟨ax, fun j hj hvj => ?_⟩
              rcases hspl j hvj with hc | hc
              · exact mx j hj hc
              · exact hlt.negtrans _ _ _ (my j hj hc) (hlt.asymm _ _ hxy)
            · intro hn; cases hn
          | false =>
            constructor
            · intro i hi
              cases hi
              refine ⟨ay, fun j hj hvj => ?_⟩
              rcases hspl j hvj with hc | hc
              · exact hlt.negtrans _ _ _ (mx j hj hc) hxy
              · exact my j hj hc
            · intro hn; cases hn
    · obtain ⟨j0, rfl⟩ : ∃ j0, v = s.slots - 1 + j0 := ⟨v - (s.slots - 1), by omega⟩
      have hj0 : j0 < s.slots := by omega
      have hun : ∀ j, j < s.slots → Anc (s.slots - 1 + j0) (s.slots - 1 + j) → j = j0 := by
        intro j hj ha
        rcases ha.split with h | h | h
        · omega
        · have := h.le; omega
        · have := h.le; omega
      constructor
      · intro i hi
        by_cases hact : a.act j0
        · rw [(h.leaf j0 hj0).1 hact] at hi
          cases hi
          refine ⟨hact, fun j hj ha => ?_⟩
          rw [hun j (h.act_lt j hj) ha]
          exact hlt.irrefl _
        · rw [(h.leaf j0 hj0).2 hact] at hi; cases hi
      · intro hn j hj ha
        have := hun j (h.act_lt j hj) ha
        subst this
        rw [(h.leaf j hj0).1 hj] at hn; cases hn

end Stxxl.WinnerTree
