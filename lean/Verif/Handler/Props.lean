import Verif.Handler.Model

/-!
# C100: completion handlers are values
-/
namespace Stxxl.Handler

variable {σ ρ ω : Type}

/-! ## Specification: a handler is nothing or a function object of its own -/

/-- The handlers by name: `none` if there is none, `some none` for one that does nothing. -/
abbrev Vals (σ : Type) := Nat → Option (Option σ)

def specStep (f : σ → ρ → σ × ω) (m : Vals σ) : Op σ ρ → Vals σ × Option ω
  | .default v => (fun x => if x = v then some none else m x, none)
  | .make v h => (fun x => if x = v then some (some h) else m x, none)
  | .copy v w => (fun x => if x = v then m w else m x, none)
  | .assign v w => (fun x => if x = v then m w else m x, none)
  | .call v req =>
    match m v with
    | some (some h) => (fun x => if x = v then some (some (f h req).1) else m x, some (f h req).2)
    | _ => (m, none)
  | .destroy v => (fun x => if x = v then none else m x, none)

def specRun (f : σ → ρ → σ × ω) (m : Vals σ) : List (Op σ ρ) → Vals σ × List (Option ω)
  | [] => (m, [])
  | op :: ops =>
    let r := specStep f m op
    let rest := specRun f r.1 ops
    (rest.1, r.2 :: rest.2)

/-- New handlers get unused names, the others exist. -/
def Allowed (m : Vals σ) : Op σ ρ → Prop
  | .default v => m v = none
  | .make v _ => m v = none
  | .copy v w => m v = none ∧ m w ≠ none
  | .assign v w => m v ≠ none ∧ m w ≠ none
  | .call v _ => m v ≠ none
  | .destroy v => m v ≠ none

def Proper (f : σ → ρ → σ × ω) (m : Vals σ) : List (Op σ ρ) → Prop
  | [] => True
  | op :: ops => Allowed m op ∧ Proper f (specStep f m op).1 ops

/-! ## Proofs -/

/-- What the handler `v` holds. -/
def St.val (s : St σ) (v : Nat) : Option (Option σ) :=
  match s.vars v with
  | none => none
  | some none => some none
  | some (some a) => some (s.heap a)

structure Inv (s : St σ) (m : Vals σ) : Prop where
  val : ∀ v : Nat, s.val v = m v
  inj : ∀ v w a : Nat, s.vars v = some (some a) → s.vars w = some (some a) → v = w
  owned : ∀ a : Nat, s.heap a ≠ none ↔ ∃ v : Nat, s.vars v = some (some a)
  fresh : ∀ a : Nat, s.next ≤ a → s.heap a = none

theorem upd_self {β : Type} (f : Nat → β) (a : Nat) (b : β) : upd f a b a = b := if_pos rfl
theorem upd_ne {β : Type} (f : Nat → β) {a x : Nat} (b : β) (h : x ≠ a) : upd f a b x = f x := if_neg h

theorem Inv.init : Inv (σ := σ) St.init fun _ => none :=
  ⟨fun _ => rfl, fun _ _ _ h => by simp [St.init] at h, fun a => by simp [St.init], fun _ _ => rfl⟩

theorem Inv.none_iff {s : St σ} {m : Vals σ} (h : Inv s m) (v : Nat) : m v = none ↔ s.vars v = none := by
  rw [← h.val v]
  simp only [St.val]
  split <;> simp_all

theorem Inv.alive {s : St σ} {m : Vals σ} (h : Inv s m) {v a : Nat} (hv : s.vars v = some (some a)) : ∃ x : σ, s.heap a = some x ∧ m v = some (some x) := by
  obtain ⟨x, hx⟩ := Option.ne_none_iff_exists'.1 ((h.owned a).2 ⟨v, hv⟩)
  refine ⟨x, hx, ?_⟩
  rw [← h.val v]
  simp only [St.val, hv, hx]

/-- A new object is made and stored in a handler that owns nothing so far. -/
theorem Inv.store {s : St σ} {m : Vals σ} (h : Inv s m) (v : Nat) (x : σ) (hv : s.vars v = none ∨ s.vars v = some none) :
    Inv { (s.new x).2 with vars := upd s.vars v (some (some s.next)) } fun y => if y = v then some (some x) else m y := by
  have hne : ∀ w a : Nat, s.vars w = some (some a) → a ≠ s.next := by
    intro w a hw e
    have := h.fresh a (by omega)
    exact (h.owned a).2 ⟨w, hw⟩ this
  have hvn : ∀ a : Nat, s.vars v ≠ some (some a) := by
    intro a e
    rcases hv with hv | hv <;> rw [hv] at e <;> simp at e
  refine ⟨fun w => ?_, fun w w' a h1 h2 => ?_, fun a => ?_, fun a ha => ?_⟩
  · simp only [St.val, St.new]
    by_cases hw : w = v
    · subst hw
      simp only [upd_self, if_true]
    · rw [if_neg hw, upd_ne _ _ hw, ← h.val w]
      simp only [St.val]
      rcases hs : s.vars w with _ | _ | a
      · rfl
      · rfl
      · simp only [upd_ne _ _ (hne w a hs)]
  · simp only at h1 h2
    by_cases hw : w = v <;> by_cases hw' : w' = v
    · rw [hw, hw']
    · subst hw
      rw [upd_self] at h1
      rw [upd_ne _ _ hw'] at h2
      simp only [Option.some.injEq] at h1
      exact absurd h1.symm (hne w' a h2)
    · subst hw'
      rw [upd_self] at h2
      rw [upd_ne _ _ hw] at h1
      simp only [Option.some.injEq] at h2
      exact absurd h2.symm (hne w a h1)
    · rw [upd_ne _ _ hw] at h1
      rw [upd_ne _ _ hw'] at h2
      exact h.inj w w' a h1 h2
  · simp only [St.new]
    by_cases ha : a = s.next
    · subst ha
      rw [upd_self]
      exact ⟨fun _ => ⟨v, upd_self _ _ _⟩, fun _ => by simp⟩
    · rw [upd_ne _ _ ha, h.owned a]
      constructor
      · rintro ⟨w, hw⟩
        have : w ≠ v := by rintro rfl; exact hvn a hw
        exact ⟨w, by rw [upd_ne _ _ this]; exact hw⟩
      · rintro ⟨w, hw⟩
        by_cases hwv : w = v
        · subst hwv
          rw [upd_self] at hw
          simp only [Option.some.injEq] at hw
          exact absurd hw.symm ha
        · rw [upd_ne _ _ hwv] at hw
          exact ⟨w, hw⟩
  · have ha' : s.next + 1 ≤ a := ha
    show upd s.heap s.next (some x) a = none
    rw [upd_ne _ _ (by omega)]
    exact h.fresh a (by omega)

/-- A handler gets a null pointer, or is removed, and the object it owned is deleted. -/
theorem Inv.drop {s : St σ} {m : Vals σ} (h : Inv s m) (v : Nat) (p : Option Nat) (hv : s.vars v = some p ∨ (s.vars v = none ∧ p = none))
    (r : Option (Option Nat)) (hr : r = none ∨ r = some none) :
    ∃ s1 : St σ, s.delete p = some s1 ∧ s1.vars = s.vars ∧ Inv { s1 with vars := upd s.vars v r } fun y => if y = v then r.map (fun _ => none) else m y := by
  have hrn : ∀ a : Nat, r ≠ some (some a) := by intro a e; rcases hr with hr | hr <;> rw [hr] at e <;> simp at e
  cases p with
  | none =>
    have hvn : ∀ a : Nat, s.vars v ≠ some (some a) := by
      intro a e
      rcases hv with hv | ⟨hv, _⟩ <;> rw [hv] at e <;> simp at e
    refine ⟨s, rfl, rfl, fun w => ?_, fun w w' a h1 h2 => ?_, fun a => ?_, h.fresh⟩
    · simp only [St.val]
      by_cases hw : w = v
      · subst hw
        rw [upd_self, if_pos rfl]
        rcases hr with rfl | rfl <;> rfl
      · rw [if_neg hw, upd_ne _ _ hw]
        exact h.val w
    · simp only at h1 h2
      have n1 : w ≠ v := by rintro rfl; rw [upd_self] at h1; exact hrn a h1
      have n2 : w' ≠ v := by rintro rfl; rw [upd_self] at h2; exact hrn a h2
      rw [upd_ne _ _ n1] at h1
      rw [upd_ne _ _ n2] at h2
      exact h.inj w w' a h1 h2
    · simp only
      rw [h.owned a]
      constructor
      · rintro ⟨w, hw⟩
        have : w ≠ v := by rintro rfl; exact hvn a hw
        exact ⟨w, by rw [upd_ne _ _ this]; exact hw⟩
      · rintro ⟨w, hw⟩
        have : w ≠ v := by rintro rfl; rw [upd_self] at hw; exact hrn a hw
        rw [upd_ne _ _ this] at hw
        exact ⟨w, hw⟩
  | some b =>
    have hv' : s.vars v = some (some b) := by rcases hv with hv | ⟨_, hv⟩; exact hv; simp at hv
    obtain ⟨x, hx, _⟩ := h.alive hv'
    have hne : ∀ w a : Nat, w ≠ v → s.vars w = some (some a) → a ≠ b := by
      intro w a hw hs e
      subst e
      exact hw (h.inj w v a hs hv')
    refine ⟨{ s with heap := upd s.heap b none }, by simp only [St.delete, hx], rfl, fun w => ?_, fun w w' a h1 h2 => ?_, fun a => ?_, fun a ha => ?_⟩
    · simp only [St.val]
      by_cases hw : w = v
      · subst hw
        rw [upd_self, if_pos rfl]
        rcases hr with rfl | rfl <;> rfl
      · rw [if_neg hw, upd_ne _ _ hw, ← h.val w]
        simp only [St.val]
        rcases hs : s.vars w with _ | _ | a
        · rfl
        · rfl
        · simp only [upd_ne _ _ (hne w a hw hs)]
    · simp only at h1 h2
      have n1 : w ≠ v := by rintro rfl; rw [upd_self] at h1; exact hrn a h1
      have n2 : w' ≠ v := by rintro rfl; rw [upd_self] at h2; exact hrn a h2
      rw [upd_ne _ _ n1] at h1
      rw [upd_ne _ _ n2] at h2
      exact h.inj w w' a h1 h2
    · simp only
      by_cases ha : a = b
      · subst ha
        rw [upd_self]
        refine ⟨fun e => absurd rfl e, ?_⟩
        rintro ⟨w, hw⟩
        have n : w ≠ v := by rintro rfl; rw [upd_self] at hw; exact hrn a hw
        rw [upd_ne _ _ n] at hw
        exact absurd rfl (hne w a n hw)
      · rw [upd_ne _ _ ha, h.owned a]
        constructor
        · rintro ⟨w, hw⟩
          have : w ≠ v := by
            rintro rfl
            rw [hv'] at hw
            simp only [Option.some.injEq] at hw
            exact ha hw.symm
          exact ⟨w, by rw [upd_ne _ _ this]; exact hw⟩
        · rintro ⟨w, hw⟩
          have : w ≠ v := by rintro rfl; rw [upd_self] at hw; exact hrn a hw
          rw [upd_ne _ _ this] at hw
          exact ⟨w, hw⟩
    · show upd s.heap b none a = none
      by_cases hab : a = b
      · rw [hab, upd_self]
      · rw [upd_ne _ _ hab]
        exact h.fresh a ha

theorem Inv.congr {s : St σ} {m m' : Vals σ} (h : Inv s m) (e : ∀ v : Nat, m v = m' v) : Inv s m' :=
  (funext e : m = m') ▸ h

theorem Inv.assign {s : St σ} {m : Vals σ} (h : Inv s m) (v w : Nat) (old p : Option Nat) (hv : s.vars v = some old) (hw : s.vars w = some p) :
    ∃ (q : Option Nat) (s1 s2 : St σ), s.clone p = some (q, s1) ∧ ({ s1 with vars := upd s1.vars v (some q) } : St σ).delete old = some s2 ∧
      Inv s2 fun y => if y = v then m w else m y := by
  cases p with
  | none =>
    have hm : m w = some none := by rw [← h.val w]; simp only [St.val, hw]
    obtain ⟨s1, h1, h2, h3⟩ := h.drop v old (Or.inl hv) (some none) (Or.inr rfl)
    refine ⟨none, s, { s1 with vars := upd s.vars v (some none) }, rfl, ?_, ?_⟩
    · cases old with
      | none =>
        simp only [St.delete, Option.some.injEq] at h1 ⊢
        rw [← h1]
      | some a =>
        simp only [St.delete] at h1 ⊢
        split at h1
        · simp only [Option.some.injEq] at h1
          rw [← h1]
        · simp at h1
    · rw [hm]; exact h3
  | some b =>
    obtain ⟨x, hx, hm⟩ := h.alive hw
    obtain ⟨s1, h1, h2, h3⟩ := h.drop v old (Or.inl hv) (some none) (Or.inr rfl)
    have h4 := h3.store v x (Or.inr (upd_self _ _ _))
    refine ⟨some s.next, (s.new x).2, _, by simp only [St.clone, hx]; rfl, ?_, h4.congr fun y => ?_⟩
    · cases old with
      | none =>
        simp only [St.delete, Option.some.injEq] at h1
        subst h1
        simp only [St.delete, St.new, Option.some.injEq, St.mk.injEq, true_and]
        funext y
        simp only [upd]
        split <;> rfl
      | some a =>
        have ha : a ≠ s.next := by
          intro e
          exact (h.owned a).2 ⟨v, hv⟩ (h.fresh a (by omega))
        simp only [St.delete] at h1
        split at h1
        · rename_i x' hx'
          simp only [Option.some.injEq] at h1
          subst h1
          simp only [St.delete, St.new, upd_ne _ _ ha, hx', Option.some.injEq, St.mk.injEq, true_and]
          refine ⟨?_, ?_⟩ <;> funext y <;> simp only [upd]
          · by_cases h5 : y = a
            · subst h5; rw [if_pos rfl, if_neg ha, if_pos rfl]
            · rw [if_neg h5, if_neg h5]
          · split <;> rfl
        · simp at h1
    · rw [hm]
      split <;> rfl

theorem Inv.step (f : σ → ρ → σ × ω) {s : St σ} {m : Vals σ} (h : Inv s m) (op : Op σ ρ) (ha : Allowed m op) :
    ∃ s' : St σ, step f s op = some (s', (specStep f m op).2) ∧ Inv s' (specStep f m op).1 := by
  cases op with
  | default v =>
    have hv : s.vars v = none := (h.none_iff v).1 ha
    obtain ⟨s1, h1, h2, h3⟩ := h.drop v none (Or.inr ⟨hv, rfl⟩) (some none) (Or.inr rfl)
    simp only [St.delete, Option.some.injEq] at h1
    subst h1
    exact ⟨_, rfl, h3⟩
  | make v x =>
    have hv : s.vars v = none := (h.none_iff v).1 ha
    exact ⟨_, rfl, h.store v x (Or.inl hv)⟩
  | copy v w =>
    obtain ⟨hv, hw⟩ := ha
    have hv' : s.vars v = none := (h.none_iff v).1 hv
    obtain ⟨p, hp⟩ := Option.ne_none_iff_exists'.1 (fun e => hw ((h.none_iff w).2 e))
    cases p with
    | none =>
      have hm : m w = some none := by rw [← h.val w]; simp only [St.val, hp]
      obtain ⟨s1, h1, h2, h3⟩ := h.drop v none (Or.inr ⟨hv', rfl⟩) (some none) (Or.inr rfl)
      simp only [St.delete, Option.some.injEq] at h1
      subst h1
      exact ⟨_, by simp only [Handler.step, hp, St.clone]; rfl, h3.congr fun y => by simp only [specStep, hm]; rfl⟩
    | some b =>
      obtain ⟨x, hx, hm⟩ := h.alive hp
      exact ⟨_, by simp only [Handler.step, hp, St.clone, hx]; rfl, (h.store v x (Or.inl hv')).congr fun y => by simp only [specStep, hm]⟩
  | assign v w =>
    obtain ⟨hv, hw⟩ := ha
    obtain ⟨old, ho⟩ := Option.ne_none_iff_exists'.1 (fun e => hv ((h.none_iff v).2 e))
    obtain ⟨p, hp⟩ := Option.ne_none_iff_exists'.1 (fun e => hw ((h.none_iff w).2 e))
    obtain ⟨q, s1, s2, h1, h2, h3⟩ := h.assign v w old p ho hp
    exact ⟨s2, by simp only [Handler.step, ho, hp, h1, h2]; rfl, h3⟩
  | call v req =>
    obtain ⟨p, hp⟩ := Option.ne_none_iff_exists'.1 (fun e => ha ((h.none_iff v).2 e))
    cases p with
    | none =>
      have hm : m v = some none := by rw [← h.val v]; simp only [St.val, hp]
      exact ⟨s, by simp only [Handler.step, hp, specStep, hm], by simp only [specStep, hm]; exact h⟩
    | some a =>
      obtain ⟨x, hx, hm⟩ := h.alive hp
      refine ⟨{ s with heap := upd s.heap a (some (f x req).1) }, by simp only [Handler.step, hp, hx, specStep, hm], ?_⟩
      simp only [specStep, hm]
      refine ⟨fun w => ?_, h.inj, fun b => ?_, fun b hb => ?_⟩
      · simp only [St.val]
        by_cases hw : w = v
        · subst hw
          simp only [hp, upd_self, if_true]
        · rw [if_neg hw, ← h.val w]
          simp only [St.val]
          rcases hs : s.vars w with _ | _ | b
          · rfl
          · rfl
          · have : b ≠ a := by rintro rfl; exact hw (h.inj w v b hs hp)
            simp only [upd_ne _ _ this]
      · simp only
        rw [← h.owned b]
        by_cases hb : b = a
        · subst hb; rw [upd_self, hx]; simp
        · rw [upd_ne _ _ hb]
      · have hb' : s.next ≤ b := hb
        have : b ≠ a := by
          rintro rfl
          rw [h.fresh b hb'] at hx
          simp at hx
        show upd s.heap a _ b = none
        rw [upd_ne _ _ this]
        exact h.fresh b hb'
  | destroy v =>
    obtain ⟨p, hp⟩ := Option.ne_none_iff_exists'.1 (fun e => ha ((h.none_iff v).2 e))
    obtain ⟨s1, h1, h2, h3⟩ := h.drop v p (Or.inl hp) none (Or.inl rfl)
    refine ⟨{ s1 with vars := upd s1.vars v none }, by simp only [Handler.step, hp, h1]; rfl, ?_⟩
    rw [h2]
    exact h3

/-! ## Theorems -/

/-- Completion handlers are values: however they are made, copied, assigned (also to themselves), called and destroyed, every handler behaves like a
function object of its own, with its own state, or does nothing; nothing undefined happens, no object is deleted twice, and the objects on the heap are
exactly those of the living handlers, one each. -/
theorem C100_completion_handlers_are_values (f : σ → ρ → σ × ω) (ops : List (Op σ ρ)) (h : Proper f (fun _ => none) ops) :
    ∃ (s : St σ) (os : List (Option ω)), run f .init ops = some (s, os) ∧ os = (specRun f (fun _ => none) ops).2 ∧
      (∀ v : Nat, s.val v = (specRun f (fun _ => none) ops).1 v) ∧
      (∀ a : Nat, s.heap a ≠ none ↔ ∃ v : Nat, s.vars v = some (some a)) ∧
      ∀ v w a : Nat, s.vars v = some (some a) → s.vars w = some (some a) → v = w := by
  have key : ∀ (ops : List (Op σ ρ)) (s : St σ) (m : Vals σ), Inv s m → Proper f m ops →
      ∃ s' : St σ, run f s ops = some (s', (specRun f m ops).2) ∧ Inv s' (specRun f m ops).1 := by
    intro ops
    induction ops with
    | nil => intro s m h _; exact ⟨s, rfl, h⟩
    | cons op ops ih =>
      intro s m h hp
      obtain ⟨s1, h1, h2⟩ := h.step f op hp.1
      obtain ⟨s2, h3, h4⟩ := ih s1 _ h2 hp.2
      exact ⟨s2, by simp only [run, h1, h3]; rfl, h4⟩
  obtain ⟨s, h1, h2⟩ := key ops .init _ Inv.init h
  exact ⟨s, _, h1, rfl, h2.val, h2.owned, h2.inj⟩

/-- When every handler is destroyed, nothing is left on the heap. -/
theorem C100_no_leak (f : σ → ρ → σ × ω) (ops : List (Op σ ρ)) (h : Proper f (fun _ => none) ops)
    (he : ∀ v : Nat, (specRun f (fun _ => none) ops).1 v = none) :
    ∃ (s : St σ) (os : List (Option ω)), run f .init ops = some (s, os) ∧ ∀ a : Nat, s.heap a = none := by
  obtain ⟨s, os, h1, _, h3, h4, _⟩ := C100_completion_handlers_are_values f ops h
  refine ⟨s, os, h1, fun a => ?_⟩
  apply Classical.byContradiction
  intro hn
  obtain ⟨v, hv⟩ := (h4 a).1 hn
  have := h3 v
  rw [he v] at this
  simp [St.val, hv] at this

/-! ## Non-vacuity: a counter, copied and then called -/

example : Proper (fun (n : Nat) (_ : Unit) => (n + 1, n)) (fun _ => none)
      [.make 0 5, .copy 1 0, .call 0 (), .call 0 (), .call 1 (), .assign 1 1, .assign 0 1, .call 0 (), .destroy 0, .destroy 1] ∧
    (run (fun (n : Nat) (_ : Unit) => (n + 1, n)) .init
      [.make 0 5, .copy 1 0, .call 0 (), .call 0 (), .call 1 (), .assign 1 1, .assign 0 1, .call 0 (), .destroy 0, .destroy 1]).map (·.2) =
      some [none, none, some 5, some 6, some 5, none, none, some 6, none, none] := by
  refine ⟨?_, by decide +kernel⟩
  simp [Proper, Allowed, specStep]

end Stxxl.Handler
