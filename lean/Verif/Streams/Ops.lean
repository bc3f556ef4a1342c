import Verif.Streams.Spec
import Verif.Scan.Props

/-! # What the operators yield -/

namespace Stxxl.Streams

open Stxxl.ExtVector Stxxl.Scan

variable {α β σ τ ω : Type}

theorem Gives.append {S : Stream σ α} {s t u : σ} {xs ys : List α} (h : Gives S s xs t) (h' : Gives S t ys u) :
    Gives S s (xs ++ ys) u := by
  induction h with
  | nil => exact h'
  | cons he hc hn _ ih => exact .cons he hc hn (ih h')

theorem Gives.det {S : Stream σ α} {s t u : σ} {xs ys : List α} (h : Gives S s xs t) (h' : Gives S s ys u)
    (hl : xs.length = ys.length) : xs = ys ∧ t = u := by
  induction h generalizing ys with
  | nil =>
    cases h' with
    | nil => exact ⟨rfl, rfl⟩
    | cons _ _ _ _ => simp at hl
  | cons he hc hn _ ih =>
    cases h' with
    | nil => simp at hl
    | cons he' hc' hn' h'' =>
      rw [hc] at hc'; rw [hn] at hn'
      cases hc'; cases hn'
      obtain ⟨rfl, rfl⟩ := ih h'' (by simpa using hl)
      exact ⟨rfl, rfl⟩

/-- A stream yields only one list. -/
theorem Yields.det {S : Stream σ α} {s t u : σ} {xs ys : List α} (h : Yields S s xs t) (h' : Yields S s ys u) :
    xs = ys ∧ t = u := by
  obtain ⟨h, he⟩ := h
  obtain ⟨h', he'⟩ := h'
  induction h generalizing ys with
  | nil =>
    cases h' with
    | nil => exact ⟨rfl, rfl⟩
    | cons he' _ _ _ => rw [he] at he'; cases he'
  | cons hne hc hn _ ih =>
    cases h' with
    | nil => rw [hne] at he'; cases he'
    | cons _ hc' hn' h'' =>
      rw [hc] at hc'; rw [hn] at hn'
      cases hc'; cases hn'
      obtain ⟨rfl, rfl⟩ := ih he h''
      exact ⟨rfl, rfl⟩

/-! ## Sources -/

theorem ofIter_yields (l : List α) {b e : Nat} (hb : b ≤ e) (he : e ≤ l.length) :
    Yields (ofIter l e) b ((l.drop b).take (e - b)) e := by
  refine ⟨?_, by simp [ofIter]⟩
  obtain ⟨n, rfl⟩ : ∃ n, e = b + n := ⟨e - b, by omega⟩
  rw [Nat.add_sub_cancel_left]
  clear hb
  induction n generalizing b with
  | zero => simpa using Gives.nil b
  | succ n ih =>
    have hlt : b < l.length := by omega
    rw [List.drop_eq_getElem_cons hlt, List.take_succ_cons]
    refine .cons (t := b + 1) (by simp [ofIter]) (by simp [ofIter, hlt]) ?_ ?_
    · simp [ofIter]
    · have := ih (b := b + 1) (by omega)
      rwa [show b + 1 + n = b + (n + 1) by omega] at this

theorem ofGen_gives (gen : ω → ω × α) (n : Nat) (g : ω) :
    ∃ t, Gives (ofGen gen) (ofGenInit gen g) (genVals gen n g) t := by
  induction n generalizing g with
  | zero => exact ⟨_, .nil _⟩
  | succ n ih =>
    obtain ⟨t, h⟩ := ih (gen g).1
    exact ⟨t, .cons rfl rfl rfl h⟩

theorem ofVec_yields {B P : Nat} {s : Sys α} {abs : List (Option α)} {b e : Nat} {xs : List α} (h : Inv B P s abs) (hb : b ≤ e)
    (he : e ≤ abs.length) (hr : Range abs b e xs) (junk : Nat → α) :
    ∃ s' v v', ofVecInit B P s b e junk = some (s', v) ∧ Yields (ofVec B e) v xs v' ∧ Inv B P s' abs ∧ Same s s' ∧
      (b ≠ e → Flushed s') := by
  have hxl := hr.len he
  unfold ofVecInit
  by_cases hbe : b = e
  · subst hbe
    have : xs = [] := List.length_eq_zero_iff.mp (by omega)
    subst this
    refine ⟨s, _, _, by rw [if_pos rfl], ⟨.nil _, by simp [ofVec]⟩, h, Same.refl s, fun h => absurd rfl h⟩
  · rw [if_neg hbe]
    obtain ⟨s1, f1, f2, f3, f4⟩ := flush_inv h
    rw [f1]
    dsimp only
    have hB := h.hB
    obtain ⟨g1, g2⟩ := endBlock_ge hB e
    have hend : ∀ q, q < e → q / B < endBlock B e := fun q hq => endBlock_lt hB (by omega)
    rw [if_pos (hend b (by omega))]
    obtain ⟨st, r1, r2, r3, _⟩ := startR_inv (P := P) f2 hb he hr junk ()
    have hhas := hr.has he f2 f4
    have r1' : scan B (endBlock B e) (fun (_ : Unit) _ => ()) (b % B) (openAt B b s1 junk) () = some (st, ()) := r1
    rw [r1']
    dsimp only
    have key : ∀ (xs : List α) (st : St α) (p : Nat), SInv B s1 (b - b % B) [] st → st.ipos = p → p + xs.length = e → xs ≠ [] →
        Has B s1 p xs → Gives (ofVec B e) { inp := some st, pos := p } xs { inp := none, pos := e } := by
      intro xs
      induction xs with
      | nil => intro _ _ _ _ _ h; exact absurd rfl h
      | cons x xs ih =>
        intro st p hs hp hl _ hh
        simp only [List.length_cons] at hl
        obtain ⟨hx, hxs⟩ := hh.tail
        obtain ⟨st1, k1, k2, k3⟩ := get_inv hs (hi := endBlock B e) (hend _ (by omega)) (by rw [hp]; exact hx)
        have hpe : p ≠ e := by omega
        refine .cons (t := { inp := if p + 1 = e then none else some st1, pos := p + 1 }) (by simpa [ofVec] using hpe) ?_ ?_ ?_
        · simp only [ofVec, k1, Option.map_some]
        · simp only [ofVec, k1, hpe, if_false]
        · by_cases hq : xs = []
          · subst hq
            simp only [List.length_nil] at hl
            obtain rfl : p + 1 = e := by omega
            rw [if_pos rfl]
            exact .nil _
          · have : 0 < xs.length := List.length_pos_iff.mpr hq
            rw [if_neg (by omega)]
            exact ih st1 (p + 1) k2 (by omega) (by omega) hq hxs
    have hne : xs ≠ [] := by rintro rfl; simp at hxl; omega
    exact ⟨s1, _, _, rfl, ⟨key xs st b r2 r3 (by omega) hne hhas, by simp [ofVec]⟩, f2, f3, fun _ => f4⟩

/-! ## Operators -/

theorem both_gives {S : Stream σ α} {T : Stream τ β} {s s' : σ} {t t' : τ} {xs : List α} {ys : List β}
    (h : Gives S s xs s') (h' : Gives T t ys t') (hl : xs.length = ys.length) :
    Gives (both S T) (s, t) (xs.zip ys) (s', t') := by
  induction h generalizing t ys with
  | nil =>
    cases h' with
    | nil => exact .nil _
    | cons _ _ _ _ => simp at hl
  | cons he hc hn _ ih =>
    cases h' with
    | nil => simp at hl
    | cons he' hc' hn' h'' =>
      refine .cons (by simp [both, he, he']) (by simp [both, hc, hc']) ?_ (ih h'' (by simpa using hl))
      simp [both, hn, hn']

theorem both_yields {S : Stream σ α} {T : Stream τ β} {s s' : σ} {t t' : τ} {xs : List α} {ys : List β}
    (h : Gives S s xs s') (h' : Gives T t ys t') (hl : xs.length = ys.length) (he : S.empty s' = true ∨ T.empty t' = true) :
    Yields (both S T) (s, t) (xs.zip ys) (s', t') :=
  ⟨both_gives h h' hl, by rcases he with h | h <;> simp [both, h]⟩

theorem Gives.take {S : Stream σ α} {s t : σ} {xs : List α} (h : Gives S s xs t) {n : Nat} (hn : n ≤ xs.length) :
    ∃ u, Gives S s (xs.take n) u ∧ (n = xs.length → u = t) ∧ (n < xs.length → S.empty u = false) := by
  induction n generalizing s xs with
  | zero =>
    refine ⟨s, .nil s, ?_, ?_⟩
    · intro h0
      have : xs = [] := List.length_eq_zero_iff.mp h0.symm
      subst this
      cases h; rfl
    · intro hlt
      cases h with
      | nil => simp at hlt
      | cons he _ _ _ => exact he
  | succ n ih =>
    cases h with
    | nil => simp at hn
    | cons he hc hn' h' =>
      obtain ⟨u, h1, h2, h3⟩ := ih h' (by simpa using hn)
      exact ⟨u, .cons he hc hn' h1, fun h => h2 (by simpa using h), fun h => h3 (by simpa using h)⟩

theorem zip_take_right (xs : List α) (ys : List β) : xs.zip (ys.take xs.length) = xs.zip ys := by
  induction xs generalizing ys with
  | nil => simp
  | cons x xs ih => cases ys <;> simp [ih]

theorem zip_take_left (xs : List α) (ys : List β) : (xs.take ys.length).zip ys = xs.zip ys := by
  induction ys generalizing xs with
  | nil => simp
  | cons y ys ih => cases xs <;> simp [ih]

/-- Two finite streams side by side: `zip`; the longer one keeps its rest. -/
theorem both_zip {S : Stream σ α} {T : Stream τ β} {s s' : σ} {t t' : τ} {xs : List α} {ys : List β}
    (h : Yields S s xs s') (h' : Yields T t ys t') : ∃ u, Yields (both S T) (s, t) (xs.zip ys) u := by
  rcases Nat.le_total xs.length ys.length with hl | hl
  · obtain ⟨u, h1, _, _⟩ := h'.1.take hl
    refine ⟨(s', u), ?_⟩
    have := both_yields h.1 h1 (by simp [hl]) (.inl h.2)
    rwa [zip_take_right] at this
  · obtain ⟨u, h1, _, _⟩ := h.1.take hl
    refine ⟨(u, t'), ?_⟩
    have := both_yields h1 h'.1 (by simp [hl]) (.inr h'.2)
    rwa [zip_take_left] at this

/-- `transform` after its constructor: the state before `x :: xs` has `current = f x` and the functor has been called for `x`. -/
theorem transform_yields {S : Stream σ α} {s s' : σ} {xs : List α} (f : ω → α → ω × β) (h : Yields S s xs s') (o : ω) :
    ∃ t t', transformInit S f o s = some t ∧ Yields (transform S f) t (runOp f o xs).2 t' ∧ t'.op = (runOp f o xs).1 ∧
      t'.inp = s' := by
  obtain ⟨h, he⟩ := h
  unfold transformInit
  have key : ∀ (c : Option β), ∃ t t', fill S f { op := o, inp := s, current := c } = some t ∧
      Yields (transform S f) t (runOp f o xs).2 t' ∧ t'.op = (runOp f o xs).1 ∧ t'.inp = s' := by
    induction h generalizing o with
    | nil s =>
      intro c
      exact ⟨⟨o, s, c⟩, ⟨o, s, c⟩, by unfold fill; rw [if_pos he], ⟨.nil _, he⟩, rfl, rfl⟩
    | cons hne hc hn _ ih =>
      rename_i s t _ x xs _
      intro c
      obtain ⟨t1, t2, h1, h2, h3, h4⟩ := ih (f o x).1 he (some (f o x).2)
      refine ⟨{ op := (f o x).1, inp := s, current := some (f o x).2 }, t2, ?_, ⟨?_, h2.2⟩, h3, h4⟩
      · unfold fill; dsimp only; rw [if_neg (by simp [hne]), hc]
      · refine .cons (t := t1) hne rfl ?_ h2.1
        simp only [transform, hn]; exact h1
  exact key none

theorem runOp_pure (g : α → β) (xs : List α) (u : ω) : runOp (fun u x => (u, g x)) u xs = (u, xs.map g) := by
  induction xs with
  | nil => rfl
  | cons x xs ih => simp [runOp, ih]

theorem makeTuple_yields {S : Stream σ α} {s s' : σ} {xs : List α} (h : Yields S s xs s') :
    ∃ t t', makeTupleInit S s = some t ∧ Yields (makeTuple S) t xs t' ∧ t'.inp = s' := by
  obtain ⟨t, t', h1, h2, _, h4⟩ := transform_yields (fun u x => (u, x)) h ()
  rw [show (fun (u : Unit) (x : α) => (u, x)) = (fun u x => (u, id x)) from rfl, runOp_pure] at h2
  refine ⟨t, t', h1, ?_, h4⟩
  rw [List.map_id] at h2; exact h2

theorem choose_yields {S : Stream σ α} {s s' : σ} {xs : List α} (p : α → β) (h : Yields S s xs s') :
    Yields (choose S p) s (xs.map p) s' := by
  refine ⟨?_, h.2⟩
  induction h.1 with
  | nil => exact .nil _
  | cons he hc hn hg ih => exact .cons he (by simp [choose, hc]) hn (ih ⟨hg, h.2⟩)

theorem uniqueLoop_gives {S : Stream σ α} (p : α → α → Bool) (old : α) {s s' : σ} {xs : List α} (h : Yields S s xs s') {n : Nat}
    (hn : xs.length < n) (c : Option α) :
    ∃ t c', uniqueLoop S p old n s c = some (t, c') ∧ Yields S t (xs.dropWhile (fun y => p y old)) s' ∧
      ∀ y ys, xs.dropWhile (fun y => p y old) = y :: ys → c' = some y := by
  obtain ⟨h, he⟩ := h
  induction h generalizing n c with
  | nil s =>
    obtain ⟨n, rfl⟩ : ∃ m, n = m + 1 := ⟨n - 1, by omega⟩
    exact ⟨s, c, by unfold uniqueLoop; rw [if_pos he], ⟨.nil _, he⟩, by simp⟩
  | cons hne hc hnx hg ih =>
    rename_i s t _ x xs
    obtain ⟨n, rfl⟩ : ∃ m, n = m + 1 := ⟨n - 1, by omega⟩
    simp only [List.length_cons] at hn
    unfold uniqueLoop
    rw [if_neg (by simp [hne]), hc]
    dsimp only
    by_cases hp : p x old
    · rw [if_pos hp, hnx]
      dsimp only
      obtain ⟨u, c', h1, h2, h3⟩ := ih (n := n) (by omega) (some x) he
      refine ⟨u, c', h1, ?_, ?_⟩
      · rwa [List.dropWhile_cons_of_pos (p := fun y => p y old) hp]
      · rwa [List.dropWhile_cons_of_pos (p := fun y => p y old) hp]
    · rw [if_neg hp]
      refine ⟨s, some x, rfl, ?_, ?_⟩
      · rw [List.dropWhile_cons_of_neg (p := fun y => p y old) hp]; exact ⟨.cons hne hc hnx hg, he⟩
      · rw [List.dropWhile_cons_of_neg (p := fun y => p y old) hp]; intro y ys hy; cases hy; rfl

theorem destutter_dropWhile (p : α → α → Bool) (x : α) (xs : List α) :
    List.destutter' (fun a b => ¬ (p b a = true)) x xs
      = x :: (xs.dropWhile (fun y => p y x)).destutter (fun a b => ¬ (p b a = true)) := by
  induction xs with
  | nil => simp
  | cons y ys ih =>
    by_cases hp : p y x = true
    · rw [List.destutter'_cons_neg _ (by simpa using hp), ih, List.dropWhile_cons_of_pos (p := fun z => p z x) hp]
    · rw [List.destutter'_cons_pos _ hp, List.dropWhile_cons_of_neg (p := fun z => p z x) hp, List.destutter_cons']

theorem unique_yields {S : Stream σ α} (p : α → α → Bool) {s s' : σ} {xs : List α} (h : Yields S s xs s') {n : Nat}
    (hn : xs.length < n) :
    ∃ t t', uniqueInit S s = some t ∧ Yields (unique S p n) t (xs.destutter (fun a b => ¬ (p b a = true))) t' ∧ t'.1 = s' := by
  have key : ∀ (m : Nat) (xs : List α) (s : σ) (c : Option α), xs.length ≤ m → xs.length < n → Yields S s xs s' →
      (∀ y ys, xs = y :: ys → c = some y) →
      ∃ t', Yields (unique S p n) (s, c) (xs.destutter (fun a b => ¬ (p b a = true))) t' ∧ t'.1 = s' := by
    intro m
    induction m with
    | zero =>
      intro xs s c hm hn h _
      have : xs = [] := List.length_eq_zero_iff.mp (by omega)
      subst this
      cases h.1
      exact ⟨_, ⟨.nil _, h.2⟩, rfl⟩
    | succ m ih =>
      intro xs s c hm hn h hcur
      cases hx : xs with
      | nil =>
        subst hx
        cases h.1
        exact ⟨_, ⟨.nil _, h.2⟩, rfl⟩
      | cons x xs' =>
        subst hx
        have hc := hcur x xs' rfl
        subst hc
        obtain ⟨hg, he⟩ := h
        cases hg with
        | cons hne hcr hnx hg =>
          rename_i t
          have hlen : (xs'.dropWhile (fun y => p y x)).length ≤ xs'.length := (List.dropWhile_sublist _).length_le
          simp only [List.length_cons] at hm hn
          obtain ⟨u, c', h1, h2, h3⟩ := uniqueLoop_gives p x ⟨hg, he⟩ (n := n) (by omega) (some x)
          obtain ⟨t', k1, k2⟩ := ih _ u c' (by omega) (by omega) h2 h3
          refine ⟨t', ⟨?_, k1.2⟩, k2⟩
          rw [List.destutter_cons', destutter_dropWhile]
          refine .cons (t := (u, c')) hne rfl ?_ k1.1
          simp only [unique, hnx]; exact h1
  unfold uniqueInit
  obtain ⟨hg, he⟩ := h
  cases hg with
  | nil =>
    obtain ⟨t', k1, k2⟩ := key 0 [] s none (by simp) hn ⟨.nil _, he⟩ (by simp)
    exact ⟨_, t', by rw [if_pos he], k1, k2⟩
  | cons hne hc hnx hg =>
    rename_i t x xs
    obtain ⟨t', k1, k2⟩ := key _ (x :: xs) s (some x) (Nat.le_refl _) hn ⟨.cons hne hc hnx hg, he⟩ (by intro y ys h; cases h; rfl)
    exact ⟨_, t', by rw [if_neg (by simp [hne]), hc], k1, k2⟩

/-! ## Sinks -/

theorem discard_ok {S : Stream σ α} {s s' : σ} {xs : List α} (h : Yields S s xs s') {n : Nat} (hn : xs.length < n) :
    discard S n s = some s' := by
  obtain ⟨h, he⟩ := h
  induction h generalizing n with
  | nil =>
    obtain ⟨n, rfl⟩ : ∃ m, n = m + 1 := ⟨n - 1, by omega⟩
    unfold discard; rw [if_pos he]
  | cons hne hc hnx _ ih =>
    obtain ⟨n, rfl⟩ : ∃ m, n = m + 1 := ⟨n - 1, by omega⟩
    simp only [List.length_cons] at hn
    unfold discard; rw [if_neg (by simp [hne]), hc, hnx]
    exact ih (by omega) he

theorem materialize_ok {S : Stream σ α} {s s' : σ} {xs : List α} (h : Yields S s xs s') {n : Nat} (hn : xs.length < n)
    (out : List α) : materialize S n s out = some (s', out ++ xs) := by
  obtain ⟨h, he⟩ := h
  induction h generalizing n out with
  | nil =>
    obtain ⟨n, rfl⟩ : ∃ m, n = m + 1 := ⟨n - 1, by omega⟩
    unfold materialize; rw [if_pos he]; simp
  | cons hne hc hnx _ ih =>
    rename_i x _ _
    obtain ⟨n, rfl⟩ : ∃ m, n = m + 1 := ⟨n - 1, by omega⟩
    simp only [List.length_cons] at hn
    unfold materialize; rw [if_neg (by simp [hne]), hc, hnx]
    have := ih (n := n) (by omega) (out ++ [x]) he
    rw [List.append_assoc] at this
    exact this

theorem materializeTo_ok {S : Stream σ α} {s s' : σ} {xs : List α} {e : Nat} (h : Gives S s xs s') {n : Nat} (hn : xs.length < n)
    (l : List α) (o : Nat) (hle : o + xs.length ≤ e) (hl : e ≤ l.length) (hstop : S.empty s' = true ∨ o + xs.length = e) :
    materializeTo S e n s l o = some (s', l.take o ++ xs ++ l.drop (o + xs.length), o + xs.length) := by
  induction h generalizing n l o with
  | nil =>
    obtain ⟨n, rfl⟩ : ∃ m, n = m + 1 := ⟨n - 1, by omega⟩
    unfold materializeTo
    rw [if_pos (by rcases hstop with h | h <;> simp_all)]
    simp
  | cons hne hc hnx _ ih =>
    rename_i s t _ x xs _
    obtain ⟨n, rfl⟩ : ∃ m, n = m + 1 := ⟨n - 1, by omega⟩
    simp only [List.length_cons] at hn hle hstop ⊢
    unfold materializeTo
    rw [if_neg (by simp [hne]; omega), hc, hnx]
    dsimp only
    rw [if_pos (by omega), ih (by omega) (l.set o x) (o + 1) (by omega) (by simpa using hl) (by rcases hstop with h | h; exact .inl h; right; omega)]
    congr 2
    have hol : o < l.length := by omega
    rw [show o + 1 + xs.length = o + (xs.length + 1) by omega]
    congr 1
    rw [List.drop_set_of_lt (by omega), List.take_set, List.take_succ_eq_append_getElem hol, List.set_append_right _ _ (by simp; omega)]
    simp [Nat.min_eq_left (Nat.le_of_lt hol)]

end Stxxl.Streams
