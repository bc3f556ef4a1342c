import Verif.CountingPtr.Model
import Mathlib.Data.Finset.Card
import Mathlib.Data.Finset.Insert
import Mathlib.Tactic.SplitIfs
import Mathlib.Tactic.Common

/-! # Invariant of the reference counts -/

namespace Stxxl.CountingPtr

/-- Object on which the thread holds a reference of its own (incremented, not yet stored). -/
def Ph.tok : Ph → Option Nat
  | .aDec _ p | .aDel _ p _ | .aStore _ p => p
  | _ => none

/-- Object with count zero the thread is responsible for. -/
def Ph.zer : Ph → Option Nat
  | .rInc _ o | .nInc _ o | .aDel _ _ o | .dDel _ o => some o
  | _ => none

/-- Handle whose own reference was already given up. -/
def Ph.post : Ph → Option Nat
  | .aDel d _ _ | .aStore d _ | .dDel d _ => some d
  | _ => none

/-- Handle that was read, and its contents. -/
def Ph.rd : Ph → Option (Nat × Option Nat)
  | .cInc _ r p | .aInc _ r p => some (r, p)
  | _ => none

/-- Handle under construction. -/
def Ph.ctor : Ph → Option Nat
  | .cInc d _ _ | .rInc d _ => some d
  | _ => none

theorem post_dst {p : Ph} {h : Nat} (hp : p.post = some h) : p.dst = some h := by cases p <;> simp_all [Ph.post, Ph.dst]
theorem ctor_dst {p : Ph} {h : Nat} (hp : p.ctor = some h) : p.dst = some h := by cases p <;> simp_all [Ph.ctor, Ph.dst]
theorem rd_src {p : Ph} {r : Nat} {q : Option Nat} (hp : p.rd = some (r, q)) : p.src = some r := by
  cases p <;> simp_all [Ph.rd, Ph.src]
theorem src_rd {p : Ph} {r : Nat} (hp : p.src = some r) : ∃ q, p.rd = some (r, q) := by
  cases p <;> simp_all [Ph.rd, Ph.src]

abbrev Tok := Nat ⊕ Nat

structure Inv (s : S) (own : Nat → Finset Tok) : Prop where
  cnt : ∀ o n, s.rc o = some n → (own o).card = n
  dead : ∀ o, s.rc o = none → own o = ∅
  tokH : ∀ h o, Sum.inl h ∈ own o ↔ s.hd h = some (some o) ∧ ∀ t, (s.ph t).post ≠ some h
  tokT : ∀ t o, Sum.inr t ∈ own o ↔ (s.ph t).tok = some o
  z0 : ∀ t o, (s.ph t).zer = some o → s.rc o = some 0
  zu : ∀ t t' o, (s.ph t).zer = some o → (s.ph t').zer = some o → t = t'
  zex : ∀ o, s.rc o = some 0 → ∃ t, (s.ph t).zer = some o
  du : ∀ t t' h, (s.ph t).dst = some h → (s.ph t').dst = some h → t = t'
  ds : ∀ t t' h, (s.ph t).dst = some h → (s.ph t').src = some h → t = t'
  rdv : ∀ t r p, (s.ph t).rd = some (r, p) → s.hd r = some p
  ctor : ∀ t d, (s.ph t).ctor = some d → s.hd d = none
  live : ∀ t d, (s.ph t).dst = some d → (s.ph t).ctor = none → s.hd d ≠ none
  fresh : ∀ o, s.rc o ≠ none → o < s.next

theorem upd_same {β : Type} (f : Nat → β) (i : Nat) (b : β) : upd f i b i = b := by simp [upd]
theorem upd_ne {β : Type} (f : Nat → β) {i j : Nat} (b : β) (h : j ≠ i) : upd f i b j = f j := by simp [upd, h]

/-- A live object with a token has a positive count. -/
theorem Inv.pos {s : S} {own : Nat → Finset Tok} (h : Inv s own) {x : Tok} {o : Nat} (hx : x ∈ own o) :
    ∃ n, s.rc o = some (n + 1) := by
  cases hr : s.rc o with
  | none => rw [h.dead o hr] at hx; simp at hx
  | some n =>
    have := h.cnt o n hr
    have hp := Finset.card_pos.2 ⟨x, hx⟩
    obtain ⟨m, rfl⟩ : ∃ m, n = m + 1 := ⟨n - 1, by omega⟩
    exact ⟨m, rfl⟩

/-- Only the phase of an idle thread changes, to one that just began. -/
theorem Inv.begin {s : S} {own : Nat → Finset Tok} (h : Inv s own) {t : Nat} (ht : s.ph t = .idle) {p : Ph}
    (h1 : p.tok = none) (h2 : p.zer = none) (h3 : p.post = none)
    (h4 : ∀ d, p.dst = some d → Free s d) (h5 : ∀ r, p.src = some r → Readable s r)
    (h6 : ∀ r q, p.rd = some (r, q) → s.hd r = some q) (h7 : ∀ d, p.ctor = some d → s.hd d = none)
    (h8 : ∀ d, p.dst = some d → p.ctor = none → s.hd d ≠ none) :
    Inv { s with ph := upd s.ph t p } own := by
  have e : ∀ t', t' ≠ t → upd s.ph t p t' = s.ph t' := fun t' hn => upd_ne _ _ hn
  have e0 := upd_same s.ph t p
  have hidle : (s.ph t).tok = none ∧ (s.ph t).zer = none ∧ (s.ph t).post = none := by rw [ht]; exact ⟨rfl, rfl, rfl⟩
  have hpost : ∀ h', (∀ t', (upd s.ph t p t').post ≠ some h') ↔ ∀ t', (s.ph t').post ≠ some h' := by
    intro h'
    refine forall_congr' fun t' => ?_
    by_cases hn : t' = t
    · subst hn; rw [e0, h3, hidle.2.2]
    · rw [e t' hn]
  refine ⟨h.cnt, h.dead, ?_, ?_, ?_, ?_, ?_, ?_, ?_, ?_, ?_, ?_, h.fresh⟩
  · intro h' o; rw [h.tokH]; dsimp only; rw [hpost]
  · intro t' o
    rw [h.tokT]; dsimp only
    by_cases hn : t' = t
    · subst hn; rw [e0, h1, hidle.1]
    · rw [e t' hn]
  · intro t' o ho
    dsimp only at ho ⊢
    by_cases hn : t' = t
    · subst hn; rw [e0, h2] at ho; cases ho
    · rw [e t' hn] at ho; exact h.z0 t' o ho
  · intro t1 t2 o a b
    dsimp only at a b
    by_cases hn : t1 = t
    · subst hn; rw [e0, h2] at a; cases a
    by_cases hm : t2 = t
    · subst hm; rw [e0, h2] at b; cases b
    rw [e _ hn] at a; rw [e _ hm] at b; exact h.zu _ _ _ a b
  · intro o ho
    obtain ⟨t', ht'⟩ := h.zex o ho
    have hn : t' ≠ t := by rintro rfl; rw [hidle.2.1] at ht'; cases ht'
    exact ⟨t', by show (upd s.ph t p t').zer = _; rw [e _ hn]; exact ht'⟩
  · intro t1 t2 d a b
    dsimp only at a b
    by_cases hn : t1 = t
    · subst hn
      by_cases hm : t2 = t1
      · exact hm.symm
      · rw [e0] at a; rw [e _ hm] at b; exact absurd b (h4 _ a t2).1
    · by_cases hm : t2 = t
      · subst hm; rw [e0] at b; rw [e _ hn] at a; exact absurd a (h4 _ b t1).1
      · rw [e _ hn] at a; rw [e _ hm] at b; exact h.du _ _ _ a b
  · intro t1 t2 d a b
    dsimp only at a b
    by_cases hn : t1 = t
    · subst hn
      by_cases hm : t2 = t1
      · exact hm.symm
      · rw [e0] at a; rw [e _ hm] at b; exact absurd b (h4 _ a t2).2
    · by_cases hm : t2 = t
      · subst hm; rw [e0] at b; rw [e _ hn] at a; exact absurd a (h5 _ b t1)
      · rw [e _ hn] at a; rw [e _ hm] at b; exact h.ds _ _ _ a b
  · intro t' r q a
    dsimp only at a
    by_cases hn : t' = t
    · subst hn; rw [e0] at a; exact h6 _ _ a
    · rw [e _ hn] at a; exact h.rdv _ _ _ a
  · intro t' d a
    dsimp only at a
    by_cases hn : t' = t
    · subst hn; rw [e0] at a; exact h7 _ a
    · rw [e _ hn] at a; exact h.ctor _ _ a
  · intro t' d a b
    dsimp only at a b
    by_cases hn : t' = t
    · subst hn; rw [e0] at a b; exact h8 _ a b
    · rw [e _ hn] at a b; exact h.live _ _ a b

end Stxxl.CountingPtr
