import Verif.Streams.Ops

/-! # `materialize` into an external vector does what `generate` does with the values of the stream -/

namespace Stxxl.Streams

open Stxxl.ExtVector Stxxl.Scan

variable {α σ : Type} {B P : Nat}

/-- Takes the values of a list one after the other. -/
def pop (d : α) (l : List α) : List α × α := (l.tail, l.headD d)

theorem genN_pop (d : α) (xs : List α) : genN (pop d) xs.length xs = ([], xs) := by
  induction xs with
  | nil => rfl
  | cons x xs ih => simp [genN, pop, ih]

/-- The stream is exhausted or the output range is full. -/
def Stop (S : Stream σ α) (t : σ) (e : Option Nat) (q : Nat) : Prop := S.empty t = true ∨ e = some q

theorem matHead_eq {S : Stream σ α} {t : σ} {e : Option Nat} {q : Nat} (d : α) (vic : Nat → Nat) (hs : Stop S t e q)
    (he : ∀ e0, e = some e0 → q ≤ e0) : ∀ (k : Nat) (s : Sys α) (a : σ) (xs : List α) (b : Nat), Gives S a xs t → b + xs.length = q →
    match genHead B P (pop d) vic q k s xs b with
    | none => matHead B P S vic e k s a b = none
    | some (s', ys, b', fin) => ∃ a', matHead B P S vic e k s a b = some (s', a', b', fin) ∧ Gives S a' ys t ∧ b' + ys.length = q := by
  intro k
  induction k with
  | zero => intro s a xs b hg hq; exact ⟨a, rfl, hg, hq⟩
  | succ k ih =>
    intro s a xs b hg hq
    unfold genHead matHead
    by_cases h0 : b % B = 0
    · simp only [if_pos h0]; exact ⟨a, rfl, hg, hq⟩
    · simp only [if_neg h0]
      cases hg with
      | nil =>
        simp only [List.length_nil, Nat.add_zero] at hq
        subst hq
        have : (S.empty t || e == some b) = true := by rcases hs with h | h <;> simp [h]
        simp only [if_true, this]
        exact ⟨t, rfl, .nil _, by simp⟩
      | cons hne hc hn hg =>
        rename_i a1 x xs
        simp only [List.length_cons] at hq
        have : (S.empty a || e == some b) = false := by
          rw [hne, Bool.false_or, beq_eq_false_iff_ne]
          intro h; have := he _ h; omega
        rw [if_neg (by omega), this, hc, hn]
        simp only [pop, List.tail_cons, List.headD_cons, Bool.false_eq_true, if_false]
        cases hw : elementWrite B P s b x (vic b) with
        | none => rfl
        | some s1 => exact ih s1 a1 xs (b + 1) hg (by omega)

theorem matLoop_eq {S : Stream σ α} {t : σ} {e : Option Nat} {q : Nat} (d : α) (hs : Stop S t e q)
    (he : ∀ e0, e = some e0 → q ≤ e0) : ∀ (xs : List α) (n : Nat) (st : St α) (a : σ) (b prev : Nat), Gives S a xs t →
    b + xs.length = q → xs.length < n →
    match genLoop B P (pop d) xs.length st xs b prev with
    | none => matLoop B P S e n st a b prev = none
    | some (st', _, prev') => matLoop B P S e n st a b prev = some (st', t, q, prev') ∧
        (prev ≤ b → prev % B = 0 → prev' ≤ q ∧ prev' % B = 0) := by
  intro xs
  induction xs with
  | nil =>
    intro n st a b prev hg hq hn
    cases hg
    simp only [List.length_nil, Nat.add_zero] at hq
    subst hq
    obtain ⟨n, rfl⟩ : ∃ m, n = m + 1 := ⟨n - 1, by omega⟩
    have : (S.empty t || e == some b) = true := by rcases hs with h | h <;> simp [h]
    simp only [List.length_nil, genLoop]
    unfold matLoop
    rw [if_pos this]
    exact ⟨rfl, fun h1 h2 => ⟨h1, h2⟩⟩
  | cons x xs ih =>
    intro n st a b prev hg hq hn
    simp only [List.length_cons] at hq hn
    obtain ⟨n, rfl⟩ : ∃ m, n = m + 1 := ⟨n - 1, by omega⟩
    cases hg with
    | cons hne hc hnx hg =>
      rename_i a1
      have : (S.empty a || e == some b) = false := by
        rw [hne, Bool.false_or, beq_eq_false_iff_ne]
        intro h; have := he _ h; omega
      simp only [List.length_cons, genLoop, pop, List.tail_cons, List.headD_cons]
      unfold matLoop
      rw [this, hc, hnx]
      simp only [Bool.false_eq_true, if_false]
      by_cases hb : b % B = 0 ∧ prev ≠ b
      · simp only [if_pos hb]
        cases pageExternallyUpdated st.sys (prev / (B * P)) with
        | none => rfl
        | some s1 =>
          dsimp only
          cases put B { st with sys := s1 } x with
          | none => rfl
          | some st1 =>
            dsimp only
            have := ih n st1 a1 (b + 1) b hg (by omega) (by omega)
            revert this
            cases genLoop B P (pop d) xs.length st1 xs (b + 1) b with
            | none => exact id
            | some r => exact fun h => ⟨h.1, fun _ _ => h.2 (by omega) hb.1⟩
      · simp only [if_neg hb]
        cases put B st x with
        | none => rfl
        | some st1 =>
          dsimp only
          have := ih n st1 a1 (b + 1) prev hg (by omega) (by omega)
          revert this
          cases genLoop B P (pop d) xs.length st1 xs (b + 1) prev with
          | none => exact id
          | some r => exact fun h => ⟨h.1, fun h1 h2 => h.2 (by omega) h2⟩

theorem genTail_out (vic : Nat → Nat) : ∀ (k : Nat) (st st' : St α) (o o' : Nat), genTail B P vic k st o = some (st', o') →
    o ≤ o' ∧ (o % B = 0 → o' = o) := by
  intro k
  induction k with
  | zero => intro st st' o o' h; cases h; exact ⟨Nat.le_refl _, fun _ => rfl⟩
  | succ k ih =>
    intro st st' o o' h
    unfold genTail at h
    by_cases h0 : o % B = 0
    · rw [if_pos h0] at h; cases h; exact ⟨Nat.le_refl _, fun _ => rfl⟩
    · rw [if_neg h0] at h
      split at h
      · cases h
      · split at h
        · cases h
        · have := ih _ _ _ _ h
          exact ⟨by omega, fun h => absurd h h0⟩

/-- What `generate` does with the list, `materialize` does with the stream. -/
theorem matVec_eq {S : Stream σ α} {a t : σ} {xs : List α} {e : Option Nat} {b n : Nat} (vic : Nat → Nat) (junk : Nat → α) {s s' : Sys α}
    {r : List α} (hg : Gives S a xs t) (hs : Stop S t e (b + xs.length)) (he : ∀ e0, e = some e0 → b + xs.length ≤ e0) (hn : xs.length < n)
    (h : generate B P s b (b + xs.length) (pop (junk 0)) xs vic junk = some (s', r)) (hB : 0 < B) :
    matVec B P S n s a b e vic junk = some (s', t, b + xs.length) := by
  unfold generate at h
  unfold matVec
  have h1 := matHead_eq (B := B) (P := P) (junk 0) vic hs he B s a xs b hg rfl
  revert h1 h
  cases hh : genHead B P (pop (junk 0)) vic (b + xs.length) B s xs b with
  | none => intro h; cases h
  | some q =>
    obtain ⟨s1, ys, b1, fin⟩ := q
    rintro h ⟨a1, h1, hg1, hq⟩
    rw [h1]
    cases fin with
    | true =>
      dsimp only at h ⊢
      cases h
      -- finished: the position is the end of the range
      have hb1 : b1 = b + xs.length := by
        clear h1 hg1 hq
        have key : ∀ (k : Nat) (s : Sys α) (xs : List α) (b q : Nat), genHead B P (pop (junk 0)) vic q k s xs b = some (s', r, b1, true) → b1 = q := by
          intro k
          induction k with
          | zero => intro s xs b q h; simp [genHead] at h
          | succ k ih =>
            intro s xs b q h
            unfold genHead at h
            by_cases h0 : b % B = 0
            · rw [if_pos h0] at h; cases h
            · rw [if_neg h0] at h
              by_cases h1 : b = q
              · rw [if_pos h1] at h; cases h; exact h1
              · rw [if_neg h1] at h
                split at h
                · cases h
                · exact ih _ _ _ _ h
        exact key _ _ _ _ _ hh
      subst hb1
      have : r = [] := List.length_eq_zero_iff.mp (by omega)
      subst this
      cases hg1
      rfl
    | false =>
      dsimp only at h ⊢
      have hbd : b1 + ys.length = b + xs.length := hq
      cases hf : flush P s1 with
      | none => rw [hf] at h; cases h
      | some s2 =>
        rw [hf] at h
        dsimp only at h ⊢
        rw [show b + xs.length - b1 = ys.length by omega] at h
        have hlen : ys.length ≤ xs.length := by
          have key : ∀ (k : Nat) (s : Sys α) (xs : List α) (b q : Nat) s' r b1 f, genHead B P (pop (junk 0)) vic q k s xs b = some (s', r, b1, f) → b ≤ b1 := by
            intro k
            induction k with
            | zero => intro s xs b q s' r b1 f h; cases h; exact Nat.le_refl _
            | succ k ih =>
              intro s xs b q s' r b1 f h
              unfold genHead at h
              by_cases h0 : b % B = 0
              · rw [if_pos h0] at h; cases h; exact Nat.le_refl _
              · rw [if_neg h0] at h
                by_cases h1 : b = q
                · rw [if_pos h1] at h; cases h; exact Nat.le_refl _
                · rw [if_neg h1] at h
                  split at h
                  · cases h
                  · have := ih _ _ _ _ _ _ _ _ h; omega
          have := key _ _ _ _ _ _ _ _ _ hh
          omega
        have h2 := matLoop_eq (B := B) (P := P) (junk 0) hs he ys n (openAt B b1 s2 junk) a1 b1 b1 hg1 hq (by omega)
        revert h h2
        cases genLoop B P (pop (junk 0)) ys.length (openAt B b1 s2 junk) ys b1 b1 with
        | none => intro h; cases h
        | some q =>
          obtain ⟨st, l, prev⟩ := q
          rintro h ⟨h2, h3⟩
          dsimp only at h h3
          rw [h2]
          dsimp only
          cases ht : genTail B P vic B st (b + xs.length) with
          | none => rw [ht] at h; cases h
          | some q =>
            obtain ⟨st2, out⟩ := q
            rw [ht] at h
            dsimp only at h ⊢
            obtain ⟨o1, o2⟩ := genTail_out vic _ _ _ _ _ ht
            have hb1 : b1 % B = 0 := by
              have key : ∀ (k : Nat) (s : Sys α) (xs : List α) (b q : Nat) s' r b1, (b % B = 0 ∨ B - b % B ≤ k) →
                  genHead B P (pop (junk 0)) vic q k s xs b = some (s', r, b1, false) → b1 % B = 0 := by
                intro k
                induction k with
                | zero =>
                  intro s xs b q s' r b1 hk h
                  have := Nat.mod_lt b hB
                  cases h
                  omega
                | succ k ih =>
                  intro s xs b q s' r b1 hk h
                  unfold genHead at h
                  by_cases h0 : b % B = 0
                  · rw [if_pos h0] at h; cases h; exact h0
                  · rw [if_neg h0] at h
                    by_cases h1 : b = q
                    · rw [if_pos h1] at h; cases h
                    · rw [if_neg h1] at h
                      split at h
                      · cases h
                      · refine ih _ _ _ _ _ _ _ ?_ h
                        have hm := Nat.mod_lt b hB
                        by_cases hx : b % B + 1 = B
                        · left
                          rw [Nat.add_mod, Nat.mod_eq_of_lt (a := 1) (by omega), hx, Nat.mod_self]
                        · right
                          rw [Nat.add_mod, Nat.mod_eq_of_lt (a := 1) (by omega), Nat.mod_eq_of_lt (by omega)]
                          omega
              exact key _ _ _ _ _ _ _ _ (.inr (by omega)) hh
            obtain ⟨p1, p2⟩ := h3 (Nat.le_refl _) hb1
            have hiff : (prev ≠ b + xs.length) ↔ prev ≠ out := by
              constructor
              · intro hne hx
                apply hne; omega
              · intro hne hx
                apply hne
                rw [o2 (by rw [← hx]; exact p2), hx]
            have hi : (if prev ≠ b + xs.length then pageExternallyUpdated st2.sys (prev / (B * P)) else some st2.sys) =
                (if prev ≠ out then pageExternallyUpdated st2.sys (prev / (B * P)) else some st2.sys) := by
              by_cases hx : prev ≠ out
              · rw [if_pos hx, if_pos (hiff.mpr hx)]
              · rw [if_neg hx, if_neg (fun h => hx (hiff.mp h))]
            rw [hi]
            revert h
            cases (if prev ≠ out then pageExternallyUpdated st2.sys (prev / (B * P)) else some st2.sys) with
            | none => intro h; cases h
            | some s3 =>
              dsimp only
              cases flush P s3 with
              | none => intro h; cases h
              | some s4 =>
                dsimp only
                by_cases h0 : st2.onum = 0
                · rw [if_pos h0, if_pos h0]; intro h; cases h; rfl
                · rw [if_neg h0]; intro h; cases h

end Stxxl.Streams
