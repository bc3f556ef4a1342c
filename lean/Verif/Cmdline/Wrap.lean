import Verif.Cmdline.Model
import Mathlib.Tactic.Common

namespace Stxxl.Cmdline

/-- A text printed with `output_wrap`, line by line. The first line is printed after `cur` characters and an indentation of `ind`; the
lines after a line feed of the text are indented by `inl`, other lines by `ir`. A line is only longer than `W` if it is empty. Between
line feeds a line is cut after its last space, if it has one (other than its first character), and otherwise where it is full. -/
inductive Wrapped (W ir inl : Nat) : Nat → Nat → Str → List (Nat × Str) → Prop
  | done (ind cur : Nat) : Wrapped W ir inl ind cur [] []
  | last (ind cur : Nat) (piece : Str) : piece ≠ [] → '\n' ∉ piece → cur + ind + piece.length ≤ W →
      Wrapped W ir inl ind cur piece [(ind, piece)]
  | newline (ind cur : Nat) (piece rest : Str) (ls : List (Nat × Str)) : '\n' ∉ piece → (piece = [] ∨ cur + ind + piece.length ≤ W) →
      Wrapped W ir inl inl 0 rest ls → Wrapped W ir inl ind cur (piece ++ '\n' :: rest) ((ind, piece) :: ls)
  | space (ind cur : Nat) (piece tail rest : Str) (ls : List (Nat × Str)) : '\n' ∉ piece → piece ≠ [] → '\n' ∉ tail → ' ' ∉ tail →
      rest.head? ≠ some '\n' → rest ≠ [] → cur + ind + (piece.length + 1 + tail.length) = W →
      Wrapped W ir inl ir 0 (tail ++ rest) ls →
      Wrapped W ir inl ind cur (piece ++ ' ' :: (tail ++ rest)) ((ind, piece ++ [' ']) :: ls)
  | full (ind cur : Nat) (piece rest : Str) (ls : List (Nat × Str)) : '\n' ∉ piece → ' ' ∉ piece.tail → rest ≠ [] →
      rest.head? ≠ some '\n' → piece.length = W - (cur + ind) → Wrapped W ir inl ir 0 rest ls →
      Wrapped W ir inl ind cur (piece ++ rest) ((ind, piece) :: ls)

/-- What the scan finds. -/
theorem scan_spec : ∀ (b : Nat) (s : Str) (pos lsp : Nat),
    ∃ n, n ≤ b ∧ n ≤ s.length ∧ '\n' ∉ s.take n ∧ (n = b ∨ s.drop n = [] ∨ (s.drop n).head? = some '\n') ∧
      (scan b s pos lsp).1 = pos + n ∧
      ((' ' ∉ s.take n ∧ (scan b s pos lsp).2 = lsp) ∨
        ∃ k, k < n ∧ s[k]? = some ' ' ∧ ' ' ∉ (s.take n).drop (k + 1) ∧ (scan b s pos lsp).2 = pos + k) := by
  intro b
  induction b with
  | zero => intro s pos lsp; exact ⟨0, by simp, by simp, by simp, Or.inl rfl, by simp [scan], Or.inl (by simp [scan])⟩
  | succ b ih =>
    intro s pos lsp
    cases s with
    | nil => exact ⟨0, by simp, by simp, by simp, by simp, by simp [scan], Or.inl (by simp [scan])⟩
    | cons c s =>
      by_cases hc : c = '\n'
      · refine ⟨0, by simp, by simp, by simp, by simp [hc], by simp [scan, hc], Or.inl (by simp [scan, hc])⟩
      · obtain ⟨n, h1, h2, h3, h4, h5, h6⟩ := ih s (pos + 1) (if c = ' ' then pos else lsp)
        refine ⟨n + 1, by omega, by simp; omega, ?_, ?_, ?_, ?_⟩
        · simp only [List.take_succ_cons, List.mem_cons, not_or]
          exact ⟨fun h => hc h.symm, h3⟩
        · simp only [List.drop_succ_cons]
          rcases h4 with h | h | h
          · left; omega
          · right; left; exact h
          · right; right; exact h
        · simp only [scan, if_neg hc, h5]; omega
        · simp only [scan, if_neg hc]
          rcases h6 with ⟨h, h'⟩ | ⟨k, hk, hs, ht, hl⟩
          · by_cases hsp : c = ' '
            · right
              exact ⟨0, by omega, by simp [hsp], by simpa using h, by rw [h', if_pos hsp]; rfl⟩
            · left
              refine ⟨?_, by rw [h', if_neg hsp]⟩
              simp only [List.take_succ_cons, List.mem_cons, not_or]
              exact ⟨fun h => hsp h.symm, h⟩
          · right
            exact ⟨k + 1, by omega, by simpa using hs, by simpa using ht, by rw [hl]; omega⟩

/-- Measure: every round takes a character off, or replaces a too large indentation by `ir`. -/
def pot (W : Nat) (w : WSt) : Nat := 2 * w.rem.length + (if w.indent + w.current < W then 0 else 1)

/-- One round: the shape of the line, and progress. -/
theorem wrap_step (W ir inl : Nat) (w : WSt) (hr : w.rem ≠ []) :
    (∀ ls, Wrapped W ir inl (wrapStep W ir inl w).2.indent (wrapStep W ir inl w).2.current (wrapStep W ir inl w).2.rem ls →
      Wrapped W ir inl w.indent w.current w.rem ((wrapStep W ir inl w).1 :: ls)) ∧
    (ir < W → pot W (wrapStep W ir inl w).2 < pot W w) := by
  obtain ⟨n, h1, h2, h3, h4, h5, h6⟩ := scan_spec (W - (w.current + w.indent)) w.rem 0 0
  simp only [Nat.zero_add] at h5 h6
  generalize hb : W - (w.current + w.indent) = b at *
  -- the three ends
  have hlen : n = w.rem.length ↔ w.rem.drop n = [] := by rw [List.drop_eq_nil_iff]; omega
  have hnl : w.rem[n]? = some '\n' ↔ (w.rem.drop n).head? = some '\n' := by rw [List.head?_drop]
  have ht : w.rem.take n ++ w.rem.drop n = w.rem := List.take_append_drop ..
  by_cases hc : n ≠ w.rem.length ∧ w.rem[n]? ≠ some '\n' ∧ (scan b w.rem 0 0).2 ≠ 0
  · -- cut after a space
    obtain ⟨hc1, hc2, hc3⟩ := hc
    have hnb : n = b := by
      rcases h4 with h | h | h
      · exact h
      · exact absurd (hlen.2 h) hc1
      · exact absurd (hnl.2 h) hc2
    rcases h6 with ⟨_, h⟩ | ⟨k, hk, hs, htl, hl⟩
    · exact absurd h hc3
    · have hk0 : 0 < k := by omega
      have hto : lineEnd W w = k + 1 := by
        simp only [lineEnd, hb, h5]
        rw [if_pos ⟨hc1, hc2, hc3⟩, hl]
      have hkl : k < w.rem.length := by omega
      have hpk : w.rem.take (k + 1) = w.rem.take k ++ [' '] := by
        rw [List.take_succ_eq_append_getElem hkl]
        have : w.rem[k] = ' ' := by
          rw [List.getElem?_eq_getElem hkl] at hs; simpa using hs
        rw [this]
      -- the rest is `tail ++ drop n`
      have htail : w.rem.drop (k + 1) = (w.rem.take n).drop (k + 1) ++ w.rem.drop n := by
        conv_lhs => rw [← ht]
        rw [List.drop_append_of_le_length (by simp; omega)]
      have hne : w.rem.drop n ≠ [] := fun h => hc1 (hlen.2 h)
      have hh : (w.rem.drop n).head? ≠ some '\n' := fun h => hc2 (hnl.2 h)
      have hhd : (w.rem.drop (k + 1)).head? ≠ some '\n' := by
        rw [htail]
        cases htk : (w.rem.take n).drop (k + 1) with
        | nil => simpa using hh
        | cons c l =>
          intro hcc
          simp at hcc
          subst hcc
          apply h3
          exact List.mem_of_mem_drop (i := k + 1) (by rw [htk]; simp)
      have hst : wrapStep W ir inl w = ((w.indent, w.rem.take k ++ [' ']), { rem := w.rem.drop (k + 1), indent := ir, current := 0 }) := by
        simp only [wrapStep, hto]
        rw [if_neg hhd, hpk]
      rw [hst]
      have hsplit : w.rem = w.rem.take k ++ ' ' :: ((w.rem.take n).drop (k + 1) ++ w.rem.drop n) := by
        rw [← htail]
        conv_lhs => rw [← List.take_append_drop (k + 1) w.rem, hpk]
        simp
      have hb' : w.current + w.indent + b = W := by omega
      constructor
      · intro ls hw
        simp only at hw
        rw [htail] at hw
        have key := Wrapped.space (W := W) (ir := ir) (inl := inl) w.indent w.current (w.rem.take k) ((w.rem.take n).drop (k + 1))
          (w.rem.drop n) ls (fun h => h3 (by
            have : w.rem.take k = (w.rem.take n).take k := by rw [List.take_take, Nat.min_eq_left (by omega)]
            rw [this] at h
            exact List.mem_of_mem_take h))
          (by intro h; have := congrArg List.length h; rw [List.length_take, List.length_nil] at this; omega)
          (fun h => h3 (List.mem_of_mem_drop h)) htl hh hne (by rw [List.length_take, List.length_drop, List.length_take]; omega) hw
        rw [← hsplit] at key
        exact key
      · intro hir
        simp only [pot, List.length_drop]
        split_ifs <;> omega
  · -- not cut after a space
    have hto : lineEnd W w = n := by
      simp only [lineEnd, hb, h5]
      rw [if_neg hc]
    by_cases hnl' : (w.rem.drop n).head? = some '\n'
    · -- line feed
      obtain ⟨rest, hrest⟩ : ∃ rest, w.rem.drop n = '\n' :: rest := by
        cases hd : w.rem.drop n with
        | nil => simp [hd] at hnl'
        | cons c l => simp [hd] at hnl'; subst hnl'; exact ⟨l, rfl⟩
      have hst : wrapStep W ir inl w = ((w.indent, w.rem.take n), { rem := rest, indent := inl, current := 0 }) := by
        simp only [wrapStep, hto]
        rw [if_pos hnl', hrest]; rfl
      rw [hst]
      have hl : rest.length + 1 + n = w.rem.length := by
        have := congrArg List.length hrest
        simp at this; omega
      constructor
      · intro ls hw
        have key := Wrapped.newline (W := W) (ir := ir) (inl := inl) w.indent w.current (w.rem.take n) rest ls h3 (by
          by_cases hn0 : n = 0
          · left; simp [hn0]
          · right; simp; omega) hw
        rw [← hrest, ht] at key
        exact key
      · intro hir
        simp only [pot]
        split_ifs <;> omega
    · have hst : wrapStep W ir inl w = ((w.indent, w.rem.take n), { rem := w.rem.drop n, indent := ir, current := 0 }) := by
        simp only [wrapStep, hto]
        rw [if_neg hnl']
      rw [hst]
      by_cases hd : w.rem.drop n = []
      · -- end of text
        have hnn := hlen.2 hd
        constructor
        · intro ls hw
          simp only [hd] at hw
          have hls : ls = [] := by
            generalize hz : ([] : Str) = z at hw
            cases hw with
            | done => rfl
            | last _ _ _ h => exact absurd hz.symm h
            | newline => simp at hz
            | space => simp at hz
            | full _ _ piece rest _ _ _ h =>
              have h2 := (List.append_eq_nil_iff.1 hz.symm).2
              exact absurd h2 h
          subst hls
          have htk : w.rem.take n = w.rem := by rw [hnn]; simp
          rw [htk]
          refine Wrapped.last _ _ _ hr (by rw [htk] at h3; exact h3) ?_
          have : 0 < w.rem.length := List.length_pos_iff.2 hr
          clear h6
          omega
        · intro hir
          have : 0 < w.rem.length := List.length_pos_iff.2 hr
          simp only [pot, hd, List.length_nil]
          split_ifs <;> omega
      · have hnb : n = b := by
          rcases h4 with h | h | h
          · exact h
          · exact absurd h hd
          · exact absurd h hnl'
        have hl0 : (scan b w.rem 0 0).2 = 0 := by
          by_contra hne
          exact hc ⟨fun h => hd (hlen.1 h), fun h => hnl' (hnl.1 h), hne⟩
        constructor
        · intro ls hw
          have key := Wrapped.full (W := W) (ir := ir) (inl := inl) w.indent w.current (w.rem.take n) (w.rem.drop n) ls h3 (by
            rcases h6 with ⟨h, _⟩ | ⟨k, hk, hs, htl, hl⟩
            · exact fun hm => h (List.mem_of_mem_tail hm)
            · have hk0 : k = 0 := by omega
              subst hk0
              rw [← List.drop_one]
              exact htl) hd hnl' (by simp; omega) hw
          rw [ht] at key
          exact key
        · intro hir
          simp only [pot, List.length_drop]
          have : 0 < w.rem.length := List.length_pos_iff.2 hr
          split_ifs <;> omega

theorem wrap_run (W ir inl : Nat) : ∀ (n : Nat) (w : WSt), (wrapRun W ir inl n w).2.rem = [] →
    Wrapped W ir inl w.indent w.current w.rem (wrapRun W ir inl n w).1 := by
  intro n
  induction n with
  | zero =>
    intro w h
    simp only [wrapRun] at h ⊢
    rw [h]
    exact .done _ _
  | succ n ih =>
    intro w h
    simp only [wrapRun] at h ⊢
    by_cases hr : w.rem = []
    · rw [if_pos hr, hr]
      exact .done _ _
    · rw [if_neg hr] at h ⊢
      exact (wrap_step W ir inl w hr).1 _ (ih _ h)

theorem wrap_halts (W ir inl : Nat) (hir : ir < W) : ∀ (n : Nat) (w : WSt), pot W w ≤ n + 1 → (wrapRun W ir inl (n + 1) w).2.rem = [] := by
  intro n
  induction n with
  | zero =>
    intro w h
    have : w.rem = [] := by
      cases hw : w.rem with
      | nil => rfl
      | cons c l => simp only [pot, hw, List.length_cons] at h; omega
    simp [wrapRun, this]
  | succ n ih =>
    intro w h
    rw [wrapRun]
    by_cases hr : w.rem = []
    · rw [if_pos hr]; exact hr
    · rw [if_neg hr]
      have := (wrap_step W ir inl w hr).2 hir
      exact ih _ (by omega)

/-- No room: the state repeats. -/
theorem wrap_stuck (W ir inl : Nat) (w : WSt) (h0 : w.rem ≠ []) (hnl : w.rem.head? ≠ some '\n') (h1 : W ≤ w.indent + w.current) :
    wrapStep W ir inl w = ((w.indent, []), { rem := w.rem, indent := ir, current := 0 }) := by
  have hb : W - (w.current + w.indent) = 0 := by omega
  have hto : lineEnd W w = 0 := by
    simp only [lineEnd, hb, scan]
    simp
  simp only [wrapStep, hto]
  simp [hnl]

end Stxxl.Cmdline
