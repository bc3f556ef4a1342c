import Verif.Sequence.Model

/-!
# Invariant of the sequence
-/

namespace Stxxl.Sequence
open Stxxl.Pools Stxxl.ExtVector
open Stxxl.Stack (Env)

variable {α : Type} {B : Nat}

/-! ## Windows of a buffer -/

def seg (f : Nat → α) (a n : Nat) : List α := (List.range' a n).map f

@[simp] theorem seg_length (f : Nat → α) (a n : Nat) : (seg f a n).length = n := by simp [seg]
@[simp] theorem seg_zero (f : Nat → α) (a : Nat) : seg f a 0 = [] := rfl
theorem seg_cons (f : Nat → α) (a n : Nat) : seg f a (n + 1) = f a :: seg f (a + 1) n := by simp [seg, List.range'_succ]
theorem seg_append (f : Nat → α) (a n m : Nat) : seg f a (n + m) = seg f a n ++ seg f (a + n) m := by
  simp only [seg, ← List.map_append, List.range'_append_1]
theorem seg_snoc (f : Nat → α) (a n : Nat) : seg f a (n + 1) = seg f a n ++ [f (a + n)] := by
  rw [seg_append, seg_cons, seg_zero]
theorem seg_congr {f g : Nat → α} {a b n : Nat} (h : ∀ i < n, f (a + i) = g (b + i)) : seg f a n = seg g b n := by
  apply List.ext_getElem (by simp)
  intro i h1 h2
  simp [seg] at h1 ⊢
  exact h i h1
theorem seg_upd_out {f : Nat → α} {a n i : Nat} (v : α) (h : i < a ∨ a + n ≤ i) : seg (upd f i v) a n = seg f a n :=
  seg_congr (fun j hj => upd_ne _ _ (by omega))
theorem seg_eq_nil {f : Nat → α} {a n : Nat} : seg f a n = [] ↔ n = 0 := by
  rw [← List.length_eq_zero_iff, seg_length]

/-! ## `std::copy` -/

theorem copyFwd_spec (src dst : Nat) : ∀ (n : Nat) (m : Nat → Nat → α) (so d : Nat), (src ≠ dst ∨ d ≤ so) →
    (∀ i < n, copyFwd m src dst n so d dst (d + i) = m src (so + i)) ∧
    (∀ b x, (b ≠ dst ∨ x < d ∨ d + n ≤ x) → copyFwd m src dst n so d b x = m b x) := by
  intro n
  induction n with
  | zero => intro m so d _; exact ⟨by simp, fun _ _ _ => rfl⟩
  | succ n ih =>
    intro m so d h
    obtain ⟨h1, h2⟩ := ih (upd m dst (upd (m dst) d (m src so))) (so + 1) (d + 1) (by omega)
    unfold copyFwd
    refine ⟨?_, ?_⟩
    · intro i hi
      by_cases hi0 : i = 0
      · subst hi0
        simp only [Nat.add_zero]
        rw [h2 dst d (by omega), upd_same, upd_same]
      · have := h1 (i - 1) (by omega)
        rw [show d + 1 + (i - 1) = d + i from by omega, show so + 1 + (i - 1) = so + i from by omega] at this
        rw [this]
        by_cases hs : src = dst
        · rw [hs, upd_same, upd_ne _ _ (by omega)]
        · rw [upd_ne _ _ hs]
    · intro b x hbx
      rw [h2 b x (by omega)]
      by_cases hb : b = dst
      · subst hb; rw [upd_same, upd_ne _ _ (by omega)]
      · rw [upd_ne _ _ hb]

theorem copyBwd_spec (src dst : Nat) : ∀ (n : Nat) (m : Nat → Nat → α) (se de : Nat), n ≤ se → n ≤ de → (src ≠ dst ∨ se ≤ de) →
    (∀ i < n, copyBwd m src dst n se de dst (de - n + i) = m src (se - n + i)) ∧
    (∀ b x, (b ≠ dst ∨ x < de - n ∨ de ≤ x) → copyBwd m src dst n se de b x = m b x) := by
  intro n
  induction n with
  | zero => intro m se de _ _ _; exact ⟨by simp, fun _ _ _ => rfl⟩
  | succ n ih =>
    intro m se de h0 h0' h
    obtain ⟨h1, h2⟩ := ih (upd m dst (upd (m dst) (de - 1) (m src (se - 1)))) (se - 1) (de - 1) (by omega) (by omega) (by omega)
    unfold copyBwd
    refine ⟨?_, ?_⟩
    · intro i hi
      by_cases hi0 : i = n
      · subst hi0
        rw [show de - (i + 1) + i = de - 1 from by omega, show se - (i + 1) + i = se - 1 from by omega,
          h2 dst (de - 1) (by omega), upd_same, upd_same]
      · have := h1 i (by omega)
        rw [show de - 1 - n + i = de - (n + 1) + i from by omega, show se - 1 - n + i = se - (n + 1) + i from by omega] at this
        rw [this]
        by_cases hs : src = dst
        · rw [hs, upd_same, upd_ne _ _ (by omega)]
        · rw [upd_ne _ _ hs]
    · intro b x hbx
      rw [h2 b x (by omega)]
      by_cases hb : b = dst
      · subst hb; rw [upd_same, upd_ne _ _ (by omega)]
      · rw [upd_ne _ _ hb]

/-! ## The invariant -/

/-- The elements in the external blocks. -/
def flat (B : Nat) (spec : Nat → Nat → α) (bids : List Nat) : List α := bids.flatMap (fun b => seg (spec b) 0 B)

theorem flat_length (spec : Nat → Nat → α) (bids : List Nat) : (flat B spec bids).length = bids.length * B := by
  induction bids with
  | nil => simp [flat]
  | cons b bs ih => simp [flat] at ih ⊢; rw [ih, Nat.add_mul]; omega
theorem flat_congr {spec spec' : Nat → Nat → α} {bids : List Nat} (h : ∀ b ∈ bids, spec b = spec' b) : flat B spec bids = flat B spec' bids := by
  unfold flat
  rw [List.flatMap_def, List.flatMap_def]
  congr 1
  apply List.map_congr_left
  intro b hb; rw [h b hb]
@[simp] theorem flat_nil (spec : Nat → Nat → α) : flat B spec [] = [] := rfl
theorem flat_cons (spec : Nat → Nat → α) (b : Nat) (bs : List Nat) : flat B spec (b :: bs) = seg (spec b) 0 B ++ flat B spec bs := by simp [flat]
theorem flat_append (spec : Nat → Nat → α) (a b : List Nat) : flat B spec (a ++ b) = flat B spec a ++ flat B spec b := by simp [flat]

/-- What holds apart from the contents. -/
structure Base (q : Sq α) : Prop where
  ok : q.ps.Ok
  hf : q.front ∈ q.ps.cl.held
  hb : q.back ∈ q.ps.cl.held
  nod : q.bids.Nodup
  closed : ∀ b ∈ q.bids, ¬ q.ps.cl.open b
  pool : q.front = q.back → 0 < q.ps.sys.sizeWrite

inductive Cont (B : Nat) (q : Sq α) (l : List α) : Prop
  | one (h : q.front = q.back) (hb : q.bids = []) (hbe : q.be = q.fe + l.length) (hl : l = seg (q.ps.mem q.front) q.fe l.length)
  | two (h : q.front ≠ q.back) (hbe : 0 < q.be)
      (hl : l = seg (q.ps.mem q.front) q.fe (B - q.fe) ++ flat B q.ps.spec q.bids ++ seg (q.ps.mem q.back) 0 q.be)

structure Inv (B : Nat) (q : Sq α) (l : List α) : Prop where
  base : Base q
  size : q.size = l.length
  fe : q.fe < B
  be : q.be ≤ B
  cont : Cont B q l

theorem Inv.two_len {q : Sq α} {l : List α} (h : Inv B q l) (hne : q.front ≠ q.back) : l.length = (B - q.fe) + q.bids.length * B + q.be := by
  cases h.cont with
  | one h' => exact absurd h' hne
  | two _ _ hl => rw [hl]; simp [flat_length]; omega

end Stxxl.Sequence
