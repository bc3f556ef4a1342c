import Verif.Config.Lemmas
import Mathlib.Tactic.Common
import Mathlib.Tactic.Tauto

/-!
# C79: disk options survive printing and parsing. C80: the configuration file. C81: device ids

Specification used here: `List.splitOn` of the standard library, list filters, and the predicate `Printable`.
-/

namespace Stxxl.Config

open Stxxl.ParseUnits

/-- The words of a string: the pieces between spaces that are not empty. -/
def words (s : Str) : List Str := (s.splitOn ' ').filter (· ≠ [])

/-! ## C79: the option string -/

theorem splitGo_splitOn : ∀ (s : Str) (k : Nat), s.length ≤ k → splitGo ' ' k s = s.splitOn ' ' := by
  have hcut : ∀ (s : Str), (cut ' ' s = none ∧ s.splitOn ' ' = [s]) ∨
      ∃ a b, cut ' ' s = some (a, b) ∧ s.splitOn ' ' = a :: b.splitOn ' ' ∧ b.length < s.length := by
    intro s
    induction s with
    | nil => left; exact ⟨rfl, by simp [List.splitOn]⟩
    | cons c s ih =>
      unfold List.splitOn at *
      rw [List.splitOnP_cons_eq_if_modifyHead]
      by_cases hc : c = ' '
      · right; subst hc; exact ⟨[], s, by simp [cut], by simp, by simp⟩
      · rcases ih with ⟨h1, h2⟩ | ⟨a, b, h1, h2, h3⟩
        · left; simp [cut, hc, h1, h2]
        · right; exact ⟨c :: a, b, by simp [cut, hc, h1], by simp [hc, h2], by simp; omega⟩
  intro s k
  induction k generalizing s with
  | zero =>
    intro h
    have : s = [] := by simpa using h
    subst this; simp [splitGo, List.splitOn]
  | succ k ih =>
    intro h
    rcases hcut s with ⟨h1, h2⟩ | ⟨a, b, h1, h2, h3⟩
    · simp [splitGo, h1, h2]
    · simp only [splitGo, h1, h2]; rw [ih b (by omega)]

theorem applyAll_filter : ∀ (ps : List Str) (c : DiskConfig), applyAll c (ps.filter (· ≠ [])) = applyAll c ps
  | [], c => rfl
  | p :: ps, c => by
    by_cases hp : p = []
    · subst hp
      have : applyParam c [] = .ok c := by simp [applyParam]
      simp only [List.filter, ne_eq, not_true_eq_false, decide_false, applyAll, this, Res.bind]
      simpa using applyAll_filter ps c
    · have ih : ∀ c, applyAll c (ps.filter (· ≠ [])) = applyAll c ps := fun c => applyAll_filter ps c
      rw [List.filter_cons_of_pos (by simpa using hp)]
      simp only [applyAll]
      cases applyParam c p with
      | ok c' => exact ih c'
      | runtimeError => rfl
      | outOfRange => rfl

theorem splitOn_cons_ne {c : Char} {s : Str} (hc : c ≠ ' ') :
    (c :: s).splitOn ' ' = List.modifyHead (List.cons c) (s.splitOn ' ') := by
  unfold List.splitOn
  rw [List.splitOnP_cons_eq_if_modifyHead]; simp [hc]

theorem words_space (s : Str) : words (' ' :: s) = words s := by
  unfold words List.splitOn
  rw [List.splitOnP_cons_eq_if_modifyHead]; simp

theorem words_drop : ∀ (s : Str), words (s.dropWhile (· = ' ')) = words s
  | [] => rfl
  | c :: s => by
    by_cases hc : c = ' '
    · subst hc; rw [words_space]; simpa using words_drop s
    · simp [hc]

theorem words_blank : ∀ {s : Str}, s.all (· = ' ') = true → words s = []
  | [], _ => by simp [words, List.splitOn]
  | c :: s, h => by
    simp only [List.all_cons, Bool.and_eq_true, decide_eq_true_eq] at h
    rw [h.1, words_space]; exact words_blank (by simpa using h.2)

/-- A string that starts with a non-space: the first word and the others. -/
theorem words_cut {c : Char} {s : Str} (hc : c ≠ ' ') :
    (cut ' ' (c :: s) = none ∧ words (c :: s) = [c :: s]) ∨
    ∃ a b, cut ' ' (c :: s) = some (a, b) ∧ words (c :: s) = a :: words b ∧ b.length < (c :: s).length := by
  have key : ∀ s : Str, (cut ' ' s = none ∧ s.splitOn ' ' = [s]) ∨
      ∃ a b, cut ' ' s = some (a, b) ∧ s.splitOn ' ' = a :: b.splitOn ' ' ∧ b.length < s.length := by
    intro s
    induction s with
    | nil => left; exact ⟨rfl, by simp [List.splitOn]⟩
    | cons c s ih =>
      by_cases hc : c = ' '
      · right; subst hc
        exact ⟨[], s, by simp [cut], by unfold List.splitOn; rw [List.splitOnP_cons_eq_if_modifyHead]; simp, by simp⟩
      · rw [splitOn_cons_ne hc]
        rcases ih with ⟨h1, h2⟩ | ⟨a, b, h1, h2, h3⟩
        · left; simp [cut, hc, h1, h2]
        · right; exact ⟨c :: a, b, by simp [cut, hc, h1], by simp [h2], by simp; omega⟩
  rcases key (c :: s) with ⟨h1, h2⟩ | ⟨a, b, h1, h2, h3⟩
  · left; exact ⟨h1, by simp [words, h2]⟩
  · right
    refine ⟨a, b, h1, ?_, h3⟩
    have ha : a ≠ [] := by
      rintro rfl
      simp only [cut, hc, if_false, Option.map_eq_some_iff] at h1
      obtain ⟨p, _, hp⟩ := h1
      simp at hp
    simp [words, h2, ha]

/-- C79, meaning of an option string: the first word is the I/O implementation, the other words are applied one after the other to
the default options, and the number of spaces between (or before or after) the words makes no difference. -/
theorem C79_words (path : Str) (size : Nat) (s : Str) (hlen : s.length < 2 ^ 32 - 1) :
    mkConfig path size s =
      match words s with
      | [] => .outOfRange
      | io :: opts => applyAll { defaultConfig with path := path, size := size, ioImpl := io } opts := by
  unfold mkConfig parseFileio
  by_cases hb : s.all (· = ' ') = true
  · simp only [hb, if_true, words_blank hb]
  · simp only [hb]
    obtain ⟨c, r, hd, hc, hl⟩ : ∃ c r, s.dropWhile (· = ' ') = c :: r ∧ c ≠ ' ' ∧ (c :: r).length ≤ s.length := by
      cases h : s.dropWhile (· = ' ') with
      | nil =>
        exfalso; apply hb
        rw [List.all_eq_true]
        intro x hx
        have := List.dropWhile_eq_nil_iff.mp h x hx
        simpa using this
      | cons c r =>
        refine ⟨c, r, rfl, ?_, ?_⟩
        · have := List.head?_dropWhile_not (fun c : Char => decide (c = ' ')) s
          rw [h] at this; simpa using this
        · rw [← h]; exact (List.dropWhile_sublist _).length_le
    have hw : words s = words (c :: r) := by rw [← hd, words_drop]
    simp only [hd, hw]
    rcases words_cut (s := r) hc with ⟨h1, h2⟩ | ⟨a, b, h1, h2, h3⟩
    · simp [h1, h2, applyAll]
    · simp only [h1, h2]
      have hsp : split b ' ' 0 uintMax = [] ∧ b = [] ∨ split b ' ' 0 uintMax = b.splitOn ' ' := by
        unfold split
        by_cases hb0 : b = []
        · left; simp [hb0]
        · right
          rw [if_neg hb0]
          simp only [Nat.zero_sub, List.replicate_zero, List.append_nil]
          exact splitGo_splitOn b _ (by unfold uintMax; omega)
      rcases hsp with ⟨h4, rfl⟩ | h4
      · simp [h4, words, List.splitOn]
      · rw [h4]; exact (applyAll_filter _ _).symm

example : words "  syscall  autogrow=no   delete ".toList = ["syscall".toList, "autogrow=no".toList, "delete".toList] := by decide

/-- The options that the option string can express for this I/O implementation. -/
structure Printable (c : DiskConfig) : Prop where
  io_word : c.ioImpl ≠ [] ∧ ' ' ∉ c.ioImpl
  not_flash : c.flash = false
  queue_int : -(2 ^ 31) ≤ c.queue ∧ c.queue < 2 ^ 31
  /-- `-2` stands for "the queue of this linuxaio file" and is not printed. -/
  queue_own : c.queue ≠ -2
  queue_linuxaio : c.ioImpl = "linuxaio".toList → c.queue = -1
  dev_uint : c.deviceId < 2 ^ 32
  raw_syscall : c.rawDevice = true → c.ioImpl = "syscall".toList
  unlink_impl : c.unlinkOnOpen = true →
    c.ioImpl ∈ ["syscall".toList, "linuxaio".toList, "mmap".toList, "wbtl".toList]
  length_int : -(2 ^ 31) ≤ c.queueLength ∧ c.queueLength < 2 ^ 31
  length_linuxaio : c.queueLength ≠ 0 → c.ioImpl = "linuxaio".toList

def directToks : Direct → List Str
  | .off => ["direct=off".toList]
  | .try' => []
  | .on' => ["direct=on".toList]

/-- The printed words. -/
def toks (c : DiskConfig) : List Str :=
  (if c.autogrow = false then ["autogrow=no".toList] else []) ++
  ((if c.deleteOnExit = true then ["delete_on_exit".toList] else []) ++
  (directToks c.direct ++
  ((if c.queue ≠ -1 then ["queue".toList ++ '=' :: decInt c.queue] else []) ++
  ((if c.deviceId ≠ 2 ^ 32 - 1 then ["devid".toList ++ '=' :: dec c.deviceId] else []) ++
  ((if c.rawDevice = true then ["raw_device".toList] else []) ++
  ((if c.unlinkOnOpen = true then ["unlink_on_open".toList] else []) ++
  (if c.queueLength ≠ 0 then ["queue_length".toList ++ '=' :: decInt c.queueLength] else [])))))))

theorem body_append (a b : List Str) : body (a ++ b) = body a ++ body b := by simp [body]

theorem body_ite (p : Prop) [Decidable p] (t : Str) : body (if p then [t] else []) = if p then ' ' :: t else [] := by
  split <;> simp [body]

theorem fs_piece (p : Prop) [Decidable p] {t u : Str} (h : u = ' ' :: t) :
    (if p then u else []) = body (if p then [t] else []) := by
  rw [body_ite, h]

theorem fs_direct (d : Direct) :
    directString d = body (directToks d) := by
  cases d <;> decide

theorem fileioString_toks {c : DiskConfig} (h : Printable c) : fileioString c = c.ioImpl ++ body (toks c) := by
  have hq : (c.queue ≠ defaultQueue ∧ c.queue ≠ defaultLinuxaioQueue) = (c.queue ≠ -1) := by
    have := h.queue_own
    simp only [defaultQueue, defaultLinuxaioQueue, eq_iff_iff]; tauto
  have hf : (if c.flash = true then " flash".toList else []) = [] := by simp [h.not_flash]
  unfold fileioString toks
  rw [hf]
  simp only [hq]
  rw [fs_piece (c.autogrow = false) (u := " autogrow=no".toList)
      (t := "autogrow=no".toList) rfl,
    fs_piece (c.deleteOnExit = true) (u := " delete_on_exit".toList)
      (t := "delete_on_exit".toList) rfl, fs_direct,
    fs_piece (c.queue ≠ -1) (u := " queue=".toList ++ decInt c.queue)
      (t := "queue".toList ++ '=' :: decInt c.queue) rfl,
    fs_piece (c.deviceId ≠ defaultDeviceId) (u := " devid=".toList ++ dec c.deviceId)
      (t := "devid".toList ++ '=' :: dec c.deviceId) rfl,
    fs_piece (c.rawDevice = true) (u := " raw_device".toList)
      (t := "raw_device".toList) rfl,
    fs_piece (c.unlinkOnOpen = true) (u := " unlink_on_open".toList)
      (t := "unlink_on_open".toList) rfl,
    fs_piece (c.queueLength ≠ 0) (u := " queue_length=".toList ++ decInt c.queueLength)
      (t := "queue_length".toList ++ '=' :: decInt c.queueLength) rfl]
  simp only [body_append, List.append_assoc, List.append_nil, List.nil_append]
  rfl

theorem toks_nospace (c : DiskConfig) : ∀ t ∈ toks c, ' ' ∉ t := by
  have hq : ∀ q, ' ' ∉ decInt q := fun q hc => (decInt_chars q _ hc).1 rfl
  have hd : ∀ n, ' ' ∉ dec n := fun n hc => (digit_facts (decGo_digits _ _ _ hc)).1 rfl
  intro t ht
  unfold toks at ht
  simp only [List.mem_append, List.mem_ite_nil_right, List.mem_singleton] at ht
  rcases ht with h | h | h | h | h | h | h | h
  · rw [h.2]; decide
  · rw [h.2]; decide
  · cases hd' : c.direct <;> simp only [hd', directToks, List.mem_singleton, List.not_mem_nil] at h
    · rw [h]; decide
    · rw [h]; decide
  · rw [h.2]; simp [hq]
  · rw [h.2]; simp [hd]
  · rw [h.2]; decide
  · rw [h.2]; decide
  · rw [h.2]; simp [hq]

theorem toks_ne (c : DiskConfig) : ∀ t ∈ toks c, t ≠ [] := by
  intro t ht
  unfold toks at ht
  simp only [List.mem_append, List.mem_ite_nil_right, List.mem_singleton] at ht
  rcases ht with h | h | h | h | h | h | h | h
  · rw [h.2]; decide
  · rw [h.2]; decide
  · cases hd' : c.direct <;> simp only [hd', directToks, List.mem_singleton, List.not_mem_nil] at h
    · rw [h]; decide
    · rw [h]; decide
  · rw [h.2]; simp
  · rw [h.2]; simp
  · rw [h.2]; decide
  · rw [h.2]; decide
  · rw [h.2]; simp

theorem toks_length (c : DiskConfig) : (toks c).length ≤ 8 := by
  unfold toks
  simp only [List.length_append]
  cases c.direct <;> simp only [directToks] <;> split_ifs <;> simp

theorem ap_autogrow (c : DiskConfig) : applyParam c "autogrow=no".toList = .ok { c with autogrow := false } := by
  have h : split "autogrow=no".toList '=' 2 2 = ["autogrow".toList, "no".toList] := by decide
  unfold applyParam
  simp only [h]
  rfl

theorem ap_delete (c : DiskConfig) : applyParam c "delete_on_exit".toList = .ok { c with deleteOnExit := true } := by
  have h : split "delete_on_exit".toList '=' 2 2 = ["delete_on_exit".toList, []] := by decide
  unfold applyParam
  simp only [h]
  rfl

theorem ap_directOff (c : DiskConfig) : applyParam c "direct=off".toList = .ok { c with direct := .off } := by
  have h : split "direct=off".toList '=' 2 2 = ["direct".toList, "off".toList] := by decide
  unfold applyParam
  simp only [h]
  rfl

theorem ap_directOn (c : DiskConfig) : applyParam c "direct=on".toList = .ok { c with direct := .on' } := by
  have h : split "direct=on".toList '=' 2 2 = ["direct".toList, "on".toList] := by decide
  unfold applyParam
  simp only [h]
  rfl

theorem ap_raw {c : DiskConfig} (hc : c.ioImpl = "syscall".toList) :
    applyParam c "raw_device".toList = .ok { c with rawDevice := true } := by
  have h : split "raw_device".toList '=' 2 2 = ["raw_device".toList, []] := by decide
  unfold applyParam
  simp only [h, hc]
  rfl

theorem ap_unlink {c : DiskConfig} (hc : c.ioImpl ∈ ["syscall".toList, "linuxaio".toList, "mmap".toList, "wbtl".toList]) :
    applyParam c "unlink_on_open".toList = .ok { c with unlinkOnOpen := true } := by
  have h : split "unlink_on_open".toList '=' 2 2 = ["unlink_on_open".toList, []] := by decide
  unfold applyParam
  simp only [h]
  simp only [List.mem_cons, List.not_mem_nil, or_false] at hc
  rw [if_neg (by decide), if_neg (by decide), if_neg (by decide), if_neg (by decide), if_neg (by decide), if_neg (by decide),
    if_neg (by decide), if_neg (by decide), if_pos (by decide), if_pos hc]

theorem str_ne {a b : Char} {s t : Str} (h : a ≠ b) : a :: s ≠ b :: t := by
  intro e; simp at e; exact h e.1

theorem ap_queue {c : DiskConfig} {q : Int} (hc : c.ioImpl ≠ "linuxaio".toList) (h1 : -(2 ^ 31) ≤ q) (h2 : q < 2 ^ 31) :
    applyParam c ("queue".toList ++ '=' :: decInt q) = .ok { c with queue := q } := by
  obtain ⟨v, hv, hq⟩ := number_decInt h1 h2
  have h : split ("queue".toList ++ '=' :: decInt q) '=' 2 2 = ["queue".toList, decInt q] := split_eq (by decide)
  have hp : ("queue".toList ++ '=' :: decInt q) = 'q' :: 'u' :: 'e' :: 'u' :: 'e' :: '=' :: decInt q := rfl
  unfold applyParam
  simp only [h, List.getD_cons_zero, List.getD_cons_succ]
  rw [if_neg (by rw [hp]; simp), if_neg (by rw [hp]; simp), if_neg (by rw [hp]; simp), if_neg (by rw [hp]; simp),
    if_pos trivial, if_neg hc]
  simp only [hv, hq]

theorem ap_queueLength {c : DiskConfig} {q : Int} (hc : c.ioImpl = "linuxaio".toList) (h1 : -(2 ^ 31) ≤ q) (h2 : q < 2 ^ 31) :
    applyParam c ("queue_length".toList ++ '=' :: decInt q) = .ok { c with queueLength := q } := by
  obtain ⟨v, hv, hq⟩ := number_decInt h1 h2
  have h : split ("queue_length".toList ++ '=' :: decInt q) '=' 2 2 = ["queue_length".toList, decInt q] := split_eq (by decide)
  have hp : ("queue_length".toList ++ '=' :: decInt q) =
      'q' :: 'u' :: 'e' :: 'u' :: 'e' :: '_' :: ("length".toList ++ '=' :: decInt q) := rfl
  unfold applyParam
  simp only [h, List.getD_cons_zero, List.getD_cons_succ]
  rw [if_neg (by rw [hp]; simp), if_neg (by rw [hp]; simp), if_neg (by rw [hp]; simp), if_neg (by rw [hp]; simp),
    if_neg (by decide), if_pos trivial, if_neg (by simp [hc])]
  simp only [hv, hq]

theorem ap_devid {c : DiskConfig} {n : Nat} (h1 : n < 2 ^ 32) :
    applyParam c ("devid".toList ++ '=' :: dec n) = .ok { c with deviceId := n } := by
  have hv := number_dec (n := n) (by omega)
  have h : split ("devid".toList ++ '=' :: dec n) '=' 2 2 = ["devid".toList, dec n] := split_eq (by decide)
  have hp : ("devid".toList ++ '=' :: dec n) = 'd' :: 'e' :: 'v' :: 'i' :: 'd' :: '=' :: dec n := rfl
  unfold applyParam
  simp only [h, List.getD_cons_zero, List.getD_cons_succ]
  rw [if_neg (by rw [hp]; simp), if_neg (by rw [hp]; simp), if_neg (by rw [hp]; simp), if_neg (by rw [hp]; simp),
    if_neg (by decide), if_neg (by decide), if_pos (by decide)]
  simp only [hv, Nat.mod_eq_of_lt h1]

theorem applyAll_one {c c' : DiskConfig} {t : Str} {p : Prop} [Decidable p] (h1 : p → applyParam c t = .ok c') (h2 : ¬ p → c = c') :
    applyAll c (if p then [t] else []) = .ok c' := by
  split
  · rename_i h; simp [applyAll, h1 h, Res.bind]
  · rename_i h; simp [applyAll, h2 h]

/-- C79: what `fileio_string` prints, the constructor reads back: every option has the value it had. -/
theorem C79_roundtrip (c : DiskConfig) (h : Printable c) : mkConfig c.path c.size (fileioString c) = .ok c := by
  have hio := h.io_word
  have happ : applyAll { defaultConfig with path := c.path, size := c.size, ioImpl := c.ioImpl } (toks c) = .ok c := by
    unfold toks
    rw [applyAll_append, applyAll_one
      (c' := { defaultConfig with path := c.path, size := c.size, ioImpl := c.ioImpl, autogrow := c.autogrow })
      (by intro e; rw [ap_autogrow, e]) (by intro e; simp at e; rw [e]; rfl)]
    simp only [Res.bind]
    rw [applyAll_append, applyAll_one
      (c' := { defaultConfig with path := c.path, size := c.size, ioImpl := c.ioImpl, autogrow := c.autogrow, deleteOnExit := c.deleteOnExit })
      (by intro e; rw [ap_delete, e]) (by intro e; simp at e; rw [e]; rfl)]
    simp only [Res.bind]
    have hdir : ∀ x : DiskConfig, x.direct = .try' → applyAll x (directToks c.direct) = .ok { x with direct := c.direct } := by
      intro x hx
      cases hd : c.direct with
      | off => simp only [directToks, applyAll, ap_directOff, Res.bind]
      | try' => simp only [directToks, applyAll]; rw [← hx]
      | on' => simp only [directToks, applyAll, ap_directOn, Res.bind]
    rw [applyAll_append, hdir _ rfl]
    simp only [Res.bind]
    rw [applyAll_append, applyAll_one
      (c' := { defaultConfig with path := c.path, size := c.size, ioImpl := c.ioImpl, autogrow := c.autogrow, deleteOnExit := c.deleteOnExit, direct := c.direct, queue := c.queue })
      (by intro e; refine ap_queue ?_ h.queue_int.1 h.queue_int.2; exact fun hl => e (h.queue_linuxaio hl))
      (by intro e; have e : c.queue = -1 := by simpa using e
          rw [e]; rfl)]
    simp only [Res.bind]
    rw [applyAll_append, applyAll_one
      (c' := { defaultConfig with path := c.path, size := c.size, ioImpl := c.ioImpl, autogrow := c.autogrow, deleteOnExit := c.deleteOnExit, direct := c.direct, queue := c.queue, deviceId := c.deviceId })
      (by intro e; rw [ap_devid h.dev_uint])
      (by intro e; have e : c.deviceId = 2 ^ 32 - 1 := by simpa using e
          rw [e]; rfl)]
    simp only [Res.bind]
    rw [applyAll_append, applyAll_one
      (c' := { defaultConfig with path := c.path, size := c.size, ioImpl := c.ioImpl, autogrow := c.autogrow, deleteOnExit := c.deleteOnExit, direct := c.direct, queue := c.queue, deviceId := c.deviceId, rawDevice := c.rawDevice })
      (by intro e; rw [e]; refine ap_raw ?_; exact h.raw_syscall e) (by intro e; simp at e; rw [e]; rfl)]
    simp only [Res.bind]
    rw [applyAll_append, applyAll_one
      (c' := { defaultConfig with path := c.path, size := c.size, ioImpl := c.ioImpl, autogrow := c.autogrow, deleteOnExit := c.deleteOnExit, direct := c.direct, queue := c.queue, deviceId := c.deviceId, rawDevice := c.rawDevice, unlinkOnOpen := c.unlinkOnOpen })
      (by intro e; rw [e]; refine ap_unlink ?_; exact h.unlink_impl e) (by intro e; simp at e; rw [e]; rfl)]
    simp only [Res.bind]
    have hf := h.not_flash
    refine applyAll_one ?_ ?_
    · intro e
      refine (ap_queueLength ?_ h.length_int.1 h.length_int.2).trans ?_
      · exact h.length_linuxaio e
      cases c; simp_all [defaultConfig]
    · intro e
      have e : c.queueLength = 0 := by simpa using e
      cases c; simp_all [defaultConfig]
  rw [fileioString_toks h]
  unfold mkConfig parseFileio
  obtain ⟨x, xs, hx⟩ : ∃ x xs, c.ioImpl = x :: xs := by
    cases hc : c.ioImpl with
    | nil => exact absurd hc hio.1
    | cons x xs => exact ⟨x, xs, rfl⟩
  have hxs : x ≠ ' ' := fun e => hio.2 (by rw [hx, e]; simp)
  have hall : (c.ioImpl ++ body (toks c)).all (fun c => decide (c = ' ')) = false := by rw [hx]; simp [hxs]
  have hdrop : (c.ioImpl ++ body (toks c)).dropWhile (fun c => decide (c = ' ')) = c.ioImpl ++ body (toks c) := by
    rw [hx]; simp [hxs]
  simp only [hall, hdrop]
  cases ht : toks c with
  | nil =>
    rw [ht] at happ
    simp only [applyAll] at happ
    simp only [body, List.flatMap_nil, List.append_nil, cut_none hio.2]
    simpa using happ
  | cons t ts =>
    have hb : body (t :: ts) = ' ' :: (t ++ body ts) := by simp [body]
    have htl := toks_length c
    rw [ht] at htl
    have hsp : split (t ++ body ts) ' ' 0 uintMax = t :: ts := by
      unfold split
      have htn := toks_ne c t (by rw [ht]; simp)
      rw [if_neg (by simp [htn])]
      rw [splitGo_body ts t _ (by simp at htl; unfold uintMax; omega) (toks_nospace c t (by rw [ht]; simp))
        (fun u hu => toks_nospace c u (by rw [ht]; simp [hu]))]
      simp
    simp only [hb, cut_some _ hio.2, hsp]
    rw [ht] at happ
    simpa using happ

/-- An example with many options. -/
def sample : DiskConfig :=
  { path := "/tmp/x".toList, size := 1000, ioImpl := "syscall".toList, autogrow := false, deleteOnExit := true, direct := .on',
    flash := false, queue := 7, deviceId := 3, rawDevice := true, unlinkOnOpen := true, queueLength := 0 }

example : Printable sample := by
  constructor <;> first | decide | (intros; decide)

example : fileioString sample =
    "syscall autogrow=no delete_on_exit direct=on queue=7 devid=3 raw_device unlink_on_open".toList := by decide +kernel

/-- The option words without a number, and their meaning. -/
def flagWords : List (String × (DiskConfig → DiskConfig)) :=
  [("autogrow", fun c => { c with autogrow := true }), ("autogrow=on", fun c => { c with autogrow := true }),
   ("autogrow=yes", fun c => { c with autogrow := true }), ("noautogrow", fun c => { c with autogrow := false }),
   ("autogrow=off", fun c => { c with autogrow := false }), ("autogrow=no", fun c => { c with autogrow := false }),
   ("delete", fun c => { c with deleteOnExit := true }), ("delete_on_exit", fun c => { c with deleteOnExit := true }),
   ("direct", fun c => { c with direct := .on' }), ("direct=on", fun c => { c with direct := .on' }),
   ("direct=yes", fun c => { c with direct := .on' }), ("nodirect", fun c => { c with direct := .off }),
   ("direct=off", fun c => { c with direct := .off }), ("direct=no", fun c => { c with direct := .off }),
   ("direct=try", fun c => { c with direct := .try' })]

/-- C79, the words without a number mean what they say, for every I/O implementation. -/
theorem C79_flag_words (c : DiskConfig) (w : String × (DiskConfig → DiskConfig)) (hw : w ∈ flagWords) :
    applyParam c w.1.toList = .ok (w.2 c) := by
  simp only [flagWords, List.mem_cons, List.not_mem_nil, or_false] at hw
  rcases hw with rfl | rfl | rfl | rfl | rfl | rfl | rfl | rfl | rfl | rfl | rfl | rfl | rfl | rfl | rfl <;>
    (unfold applyParam; dsimp only; rfl)

/-- C79, the words that depend on the I/O implementation: `raw_device` needs `syscall`, `unlink` one of four, `queue=n` any but
`linuxaio`, `queue_length=n` needs `linuxaio`; numbers are read like `strtoul` and anything after them is an error. -/
theorem C79_restricted_words (c : DiskConfig) (v : Str) :
    applyParam c "raw_device".toList =
      (if c.ioImpl = "syscall".toList then .ok { c with rawDevice := true } else .runtimeError) ∧
    (∀ w ∈ ["unlink", "unlink_on_open"], applyParam c w.toList =
      (if c.ioImpl ∈ ["syscall".toList, "linuxaio".toList, "mmap".toList, "wbtl".toList] then .ok { c with unlinkOnOpen := true }
       else .runtimeError)) ∧
    applyParam c ("queue".toList ++ '=' :: v) =
      (if c.ioImpl = "linuxaio".toList then .runtimeError
       else match number v with
        | some n => .ok { c with queue := toInt n }
        | none => .runtimeError) ∧
    applyParam c ("queue_length".toList ++ '=' :: v) =
      (if c.ioImpl = "linuxaio".toList then (match number v with
        | some n => .ok { c with queueLength := toInt n }
        | none => .runtimeError)
       else .runtimeError) ∧
    (∀ k ∈ ["device_id", "devid"], applyParam c (k.toList ++ '=' :: v) =
      (match number v with
        | some n => .ok { c with deviceId := n % 2 ^ 32 }
        | none => .runtimeError)) := by
  refine ⟨?_, ?_, ?_, ?_, ?_⟩
  · have h : split "raw_device".toList '=' 2 2 = ["raw_device".toList, []] := by decide
    unfold applyParam
    simp only [h]
    rw [if_neg (by decide), if_neg (by decide), if_neg (by decide), if_neg (by decide), if_neg (by decide), if_neg (by decide),
      if_neg (by decide), if_pos (by decide)]
  · intro w hw
    simp only [List.mem_cons, List.not_mem_nil, or_false] at hw ⊢
    rcases hw with rfl | rfl
    · have h : split "unlink".toList '=' 2 2 = ["unlink".toList, []] := by decide
      unfold applyParam
      simp only [h]
      rw [if_neg (by decide), if_neg (by decide), if_neg (by decide), if_neg (by decide), if_neg (by decide), if_neg (by decide),
        if_neg (by decide), if_neg (by decide), if_pos (by decide)]
    · have h : split "unlink_on_open".toList '=' 2 2 = ["unlink_on_open".toList, []] := by decide
      unfold applyParam
      simp only [h]
      rw [if_neg (by decide), if_neg (by decide), if_neg (by decide), if_neg (by decide), if_neg (by decide), if_neg (by decide),
        if_neg (by decide), if_neg (by decide), if_pos (by decide)]
  · have h : split ("queue".toList ++ '=' :: v) '=' 2 2 = ["queue".toList, v] := split_eq (by decide)
    have hp : ("queue".toList ++ '=' :: v) = 'q' :: 'u' :: 'e' :: 'u' :: 'e' :: '=' :: v := rfl
    unfold applyParam
    simp only [h, List.getD_cons_zero, List.getD_cons_succ]
    rw [if_neg (by rw [hp]; simp), if_neg (by rw [hp]; simp), if_neg (by rw [hp]; simp), if_neg (by rw [hp]; simp),
      if_pos trivial]
    cases number v <;> rfl
  · have h : split ("queue_length".toList ++ '=' :: v) '=' 2 2 = ["queue_length".toList, v] := split_eq (by decide)
    have hp : ("queue_length".toList ++ '=' :: v) =
        'q' :: 'u' :: 'e' :: 'u' :: 'e' :: '_' :: ("length".toList ++ '=' :: v) := rfl
    unfold applyParam
    simp only [h, List.getD_cons_zero, List.getD_cons_succ]
    rw [if_neg (by rw [hp]; simp), if_neg (by rw [hp]; simp), if_neg (by rw [hp]; simp), if_neg (by rw [hp]; simp),
      if_neg (by decide), if_pos trivial]
    simp only [ite_not]
    cases number v <;> rfl
  · intro k hk
    simp only [List.mem_cons, List.not_mem_nil, or_false] at hk
    rcases hk with rfl | rfl
    · have h : split ("device_id".toList ++ '=' :: v) '=' 2 2 = ["device_id".toList, v] := split_eq (by decide)
      have hp : ("device_id".toList ++ '=' :: v) = 'd' :: 'e' :: 'v' :: ("ice_id".toList ++ '=' :: v) := rfl
      unfold applyParam
      simp only [h, List.getD_cons_zero, List.getD_cons_succ]
      rw [if_neg (by rw [hp]; simp), if_neg (by rw [hp]; simp), if_neg (by rw [hp]; simp), if_neg (by rw [hp]; simp),
        if_neg (by decide), if_neg (by decide), if_pos (by decide)]
      cases number v <;> rfl
    · have h : split ("devid".toList ++ '=' :: v) '=' 2 2 = ["devid".toList, v] := split_eq (by decide)
      have hp : ("devid".toList ++ '=' :: v) = 'd' :: 'e' :: 'v' :: ("id".toList ++ '=' :: v) := rfl
      unfold applyParam
      simp only [h, List.getD_cons_zero, List.getD_cons_succ]
      rw [if_neg (by rw [hp]; simp), if_neg (by rw [hp]; simp), if_neg (by rw [hp]; simp), if_neg (by rw [hp]; simp),
        if_neg (by decide), if_neg (by decide), if_pos (by decide)]
      cases number v <;> rfl

theorem sign_cases (s : Str) : ∃ sg r neg, s = sg ++ r ∧ Sign sg neg ∧ sign s = (neg, r) := by
  unfold sign
  split
  · rename_i r; exact ⟨['-'], r, true, rfl, .minus, rfl⟩
  · rename_i r; exact ⟨['+'], r, false, rfl, .plus, rfl⟩
  · exact ⟨[], s, false, rfl, .none, rfl⟩

/-- C79, numbers: the text after the `=` (up to a NUL character) must be empty, which counts as 0, or white space, an optional sign
and at least one digit, with nothing behind; the value saturates and `-` negates modulo `2^64` as in `strtoul`. -/
theorem C79_number (v : Str) (n : Nat) :
    number v = some n ↔
      (v.takeWhile (· ≠ '\x00') = [] ∧ n = 0) ∨
      ∃ ws sg ds neg, v.takeWhile (· ≠ '\x00') = ws ++ (sg ++ ds) ∧ (∀ c ∈ ws, isSpace c = true) ∧ Sign sg neg ∧
        (∀ c ∈ ds, isDigit c = true) ∧ ds ≠ [] ∧ n = signedVal neg (num ds) := by
  unfold number
  generalize v.takeWhile (· ≠ '\x00') = s
  dsimp only
  constructor
  · intro h
    split at h
    · rename_i hr
      simp only [Option.some.injEq] at h
      unfold strtoul at h hr
      dsimp only at h hr
      obtain ⟨sg, r, neg, h1, h2, h3⟩ := sign_cases (s.dropWhile isSpace)
      rw [h3] at h hr
      split at hr
      · rename_i hd
        rw [if_pos hd] at h
        left; exact ⟨hr, h.symm⟩
      · rename_i hd
        rw [if_neg hd] at h
        right
        dsimp only at h hr hd
        have hall : ∀ c ∈ r, isDigit c = true := List.dropWhile_eq_nil_iff.mp hr
        have htw : r.takeWhile isDigit = r := List.takeWhile_eq_self_iff.mpr hall
        rw [htw] at h hd
        refine ⟨s.takeWhile isSpace, sg, r, neg, ?_, fun c hc => ?_, h2, hall, hd, ?_⟩
        · rw [← h1, List.takeWhile_append_dropWhile]
        · exact List.mem_takeWhile_imp hc
        · rw [← h, digitsVal_eq]; rfl
    · simp at h
  · rintro (⟨rfl, rfl⟩ | ⟨ws, sg, ds, neg, rfl, h1, h2, h3, h4, rfl⟩)
    · rfl
    · have := strtoul_spec (r := []) h1 h2 h3 h4 (by simp)
      rw [List.append_nil] at this
      rw [this]; rfl

example : number "12x".toList = none ∧ number " +12".toList = some 12 ∧ number "-1".toList = some (2 ^ 64 - 1) := by decide

/-- C79, every other word is refused: the part before the first `=` (the whole word if there is none) must be a known name. -/
theorem C79_unknown_word_refused (c : DiskConfig) (p : Str) (hp : p ≠ [])
    (hk : ∀ k ∈ ["autogrow", "noautogrow", "delete", "delete_on_exit", "direct", "nodirect", "queue", "queue_length", "device_id",
      "devid", "raw_device", "unlink", "unlink_on_open"], p.takeWhile (· ≠ '=') ≠ k.toList) :
    applyParam c p = .runtimeError := by
  have h0 : (split p '=' 2 2).getD 0 [] = p.takeWhile (· ≠ '=') := by
    have hc : ∀ s : Str, (splitGo '=' 1 s).getD 0 [] = s.takeWhile (· ≠ '=') ∧ splitGo '=' 1 s ≠ [] := by
      intro s
      induction s with
      | nil => simp [splitGo, cut]
      | cons x s ih =>
        by_cases hx : x = '='
        · simp [splitGo, cut, hx]
        · cases hcut : cut '=' s with
          | none =>
            simp only [splitGo, hcut] at ih
            simp [splitGo, cut, hx, hcut]; simpa using ih.1
          | some ab =>
            simp only [splitGo, hcut] at ih
            simp [splitGo, cut, hx, hcut]; simpa using ih.1
    unfold split
    rw [if_neg hp]
    obtain ⟨h1, h2⟩ := hc p
    show (splitGo '=' 1 p ++ List.replicate (2 - (splitGo '=' 1 p).length) []).getD 0 [] = _
    rw [← h1]
    cases hg : splitGo '=' 1 p with
    | nil => exact absurd hg h2
    | cons a as => rfl
  have hne : ∀ k ∈ ["autogrow", "noautogrow", "delete", "delete_on_exit", "direct", "nodirect", "queue", "queue_length", "device_id",
      "devid", "raw_device", "unlink", "unlink_on_open"], p ≠ k.toList := by
    intro k hk' e
    refine hk k hk' ?_
    rw [e]
    simp only [List.mem_cons, List.not_mem_nil, or_false] at hk'
    rcases hk' with rfl | rfl | rfl | rfl | rfl | rfl | rfl | rfl | rfl | rfl | rfl | rfl | rfl <;> decide
  simp only [List.forall_mem_cons, List.not_mem_nil, false_imp_iff, forall_const, and_true] at hk hne
  unfold applyParam
  simp only [h0, hp, hk, hne, or_self, if_false]

/-! ## C80: the configuration file -/

/-- `flash=` and size 0 only set two flags, whatever the options say. -/
def mark (fl z : Bool) (c : DiskConfig) : DiskConfig := { c with flash := fl, deleteOnExit := c.deleteOnExit || z }

theorem applyParam_mark (fl z : Bool) (c : DiskConfig) (p : Str) :
    applyParam (mark fl z c) p = (applyParam c p).bind (fun d => .ok (mark fl z d)) := by
  have hb : ∀ (q : Prop) [Decidable q] (a b : Res DiskConfig) (f : DiskConfig → Res DiskConfig),
      (if q then a else b).bind f = if q then a.bind f else b.bind f := by
    intro q _ a b f; split <;> rfl
  unfold applyParam
  dsimp only
  generalize number ((split p '=' 2 2).getD 1 []) = n
  cases n <;> simp only [hb] <;> rfl

theorem applyAll_mark (fl z : Bool) : ∀ (ps : List Str) (c : DiskConfig),
    applyAll (mark fl z c) ps = (applyAll c ps).bind (fun d => .ok (mark fl z d))
  | [], c => rfl
  | p :: ps, c => by
    simp only [applyAll, applyParam_mark]
    cases applyParam c p with
    | ok d => exact applyAll_mark fl z ps d
    | runtimeError => rfl
    | outOfRange => rfl

theorem parseFileio_mark (fl z : Bool) (c : DiskConfig) :
    parseFileio (mark fl z c) = (parseFileio c).bind (fun d => .ok (mark fl z d)) := by
  unfold parseFileio
  have hio : (mark fl z c).ioImpl = c.ioImpl := rfl
  rw [hio]
  split
  · rfl
  · dsimp only
    split
    · rfl
    · rename_i a b _
      exact applyAll_mark fl z _ { c with ioImpl := a }

/-- C80, one line: `disk=P,S,F` (or `flash=P,S,F`), `P` and `S` without comma, describes the device with path `P` (the first `###`
replaced by the process id), with the size that `S` means (C38, default unit MiB), with the options of `F` (C79); `flash=` sets the
flash flag and size 0 makes the file temporary, nothing else. A `,` in `F` and a `=` in `P` or `F` do no harm. -/
theorem C80_line (pid P S F : Str) (fl : Bool) (hP : ',' ∉ P) (hS : ',' ∉ S) :
    parseLine pid defaultConfig ((if fl then "flash".toList else "disk".toList) ++ '=' :: (P ++ ',' :: (S ++ ',' :: F))) =
      if (parse S 'M').2 = true then
        (mkConfig (replacePid pid P) (parse S 'M').1 F).bind fun c =>
          .ok { c with flash := fl, deleteOnExit := c.deleteOnExit || decide ((parse S 'M').1 = 0) }
      else .runtimeError := by
  have h1 : split ((if fl then "flash".toList else "disk".toList) ++ '=' :: (P ++ ',' :: (S ++ ',' :: F))) '=' 2 2 =
      [if fl then "flash".toList else "disk".toList, P ++ ',' :: (S ++ ',' :: F)] :=
    split_eq (by cases fl <;> decide)
  have h2 : split (P ++ ',' :: (S ++ ',' :: F)) ',' 3 3 = [P, S, F] := by
    unfold split
    have : splitGo ',' (3 - 1) (P ++ ',' :: (S ++ ',' :: F)) = [P, S, F] := by
      show splitGo ',' 2 _ = _
      simp [splitGo, cut_some _ hP, cut_some _ hS]
    rw [if_neg (by simp), this]; rfl
  have h3 : (if (if fl then "flash".toList else "disk".toList) = "disk".toList then some false
      else if (if fl then "flash".toList else "disk".toList) = "flash".toList then some true else none) = some fl := by
    cases fl <;> decide
  unfold parseLine
  simp only [h1, h2, List.getD_cons_zero, List.getD_cons_succ]
  rw [h3]
  cases hs : (parse S 'M').2
  · simp
  · simp only [reduceCtorEq, if_false, if_true]
    exact parseFileio_mark fl (decide ((parse S 'M').1 = 0))
      { defaultConfig with path := replacePid pid P, size := (parse S 'M').1, ioImpl := F }

/-- C80, path: without `###` the path is taken as it is; otherwise its first occurrence is replaced by the process id. -/
theorem C80_pid (pid : Str) :
    (∀ P : Str, ¬ "###".toList <:+: P → replacePid pid P = P) ∧
    (∀ a b : Str, (∀ k, k < a.length → ¬ "###".toList <+: (a ++ "###".toList ++ b).drop k) →
      replacePid pid (a ++ "###".toList ++ b) = a ++ pid ++ b) := by
  have hstep : ∀ (c : Char) (r : Str), ¬ "###".toList <+: c :: r → replacePid pid (c :: r) = c :: replacePid pid r := by
    intro c r h
    rw [replacePid]
    intro r' h1 h2
    exact h ⟨r', by rw [h1, h2]; rfl⟩
  constructor
  · intro P
    induction P with
    | nil => intro _; rfl
    | cons c r ih =>
      intro h
      rw [hstep c r (fun hp => h hp.isInfix), ih (fun hp => h (hp.trans (List.suffix_cons c r).isInfix))]
  · intro a
    induction a with
    | nil => intro b _; rfl
    | cons c a ih =>
      intro b h
      have h0 := h 0 (by simp)
      simp only [List.cons_append, List.drop_zero] at h0
      simp only [List.cons_append]
      rw [hstep c _ h0, ih b (fun k hk => by simpa using h (k + 1) (by simpa using hk))]

/-- The lines that count: not empty, not starting with `#`. -/
def relevant (lines : List Str) : List Str := lines.filter (fun l => decide (l ≠ [] ∧ l.head? ≠ some '#'))

theorem loadLines_relevant (pid : Str) : ∀ (lines : List Str) (ds fs : List DiskConfig),
    loadLines pid lines ds fs = loadLines pid (relevant lines) ds fs
  | [], _, _ => rfl
  | l :: ls, ds, fs => by
    unfold relevant
    by_cases h : l = [] ∨ l.head? = some '#'
    · have hn : ¬ (l ≠ [] ∧ l.head? ≠ some '#') := by tauto
      rw [List.filter_cons_of_neg (by simpa using hn)]
      rw [loadLines, if_pos h]
      exact loadLines_relevant pid ls ds fs
    · have hp : l ≠ [] ∧ l.head? ≠ some '#' := by tauto
      rw [List.filter_cons_of_pos (by simpa using hp)]
      rw [loadLines, if_neg h, loadLines, if_neg h]
      congr 1
      funext e
      split
      · exact loadLines_relevant pid ls _ _
      · exact loadLines_relevant pid ls _ _

theorem loadLines_prefix (pid : Str) : ∀ (ls : List Str) (es : List DiskConfig) (rest : List Str) (ds fs : List DiskConfig),
    (∀ l ∈ ls, ¬ (l = [] ∨ l.head? = some '#')) →
    List.Forall₂ (fun l e => parseLine pid defaultConfig l = .ok e) ls es →
    loadLines pid (ls ++ rest) ds fs =
      loadLines pid rest (ds ++ es.filter (fun e => !e.flash)) (fs ++ es.filter (fun e => e.flash))
  | [], es, rest, ds, fs, _, h => by
    cases h; simp
  | l :: ls, es, rest, ds, fs, hl, h => by
    cases h with
    | cons h1 h2 =>
      rename_i e es'
      rw [List.cons_append, loadLines, if_neg (hl l (by simp)), h1]
      simp only [Res.bind]
      cases hf : e.flash
      · simp only [if_true]
        rw [loadLines_prefix pid ls es' rest _ _ (fun x hx => hl x (by simp [hx])) h2]
        simp [hf]
      · simp only [reduceCtorEq, if_false]
        rw [loadLines_prefix pid ls es' rest _ _ (fun x hx => hl x (by simp [hx])) h2]
        simp [hf]

theorem relevant_mem {lines : List Str} : ∀ l ∈ relevant lines, ¬ (l = [] ∨ l.head? = some '#') := by
  intro l hl
  unfold relevant at hl
  have := (List.mem_filter.mp hl).2
  simp only [decide_eq_true_eq] at this
  tauto

/-- C80, the file: when all relevant lines are well-formed, the disk list is the old one followed by the regular disks in file order
and the flash devices in file order, and `first_flash` is the position of the first flash device. A file without any device is
refused. -/
theorem C80_load (pid : Str) (old : List DiskConfig) (lines : List Str) (es : List DiskConfig)
    (h : List.Forall₂ (fun l e => parseLine pid defaultConfig l = .ok e) (relevant lines) es) :
    loadConfig pid old lines =
      if old = [] ∧ es = [] then .runtimeError
      else .ok (old ++ es.filter (fun e => !e.flash) ++ es.filter (fun e => e.flash),
        old.length + es.countP (fun e => !e.flash)) := by
  have hl := loadLines_prefix pid (relevant lines) es [] old [] relevant_mem h
  rw [List.append_nil] at hl
  unfold loadConfig
  rw [loadLines_relevant, hl]
  simp only [loadLines, Res.bind, List.nil_append, List.append_assoc, List.length_append, List.countP_eq_length_filter]
  have he : (old ++ (es.filter (fun e => !e.flash) ++ es.filter (fun e => e.flash)) = []) ↔ (old = [] ∧ es = []) := by
    simp only [List.append_eq_nil_iff, List.filter_eq_nil_iff]
    constructor
    · rintro ⟨h1, h2, h3⟩
      refine ⟨h1, ?_⟩
      cases es with
      | nil => rfl
      | cons e es =>
        have a := h2 e (by simp); have b := h3 e (by simp)
        cases hf : e.flash <;> simp [hf] at a b
    · rintro ⟨h1, rfl⟩; simp [h1]
  by_cases hc : old = [] ∧ es = []
  · rw [if_pos (he.mpr hc), if_pos hc]
  · rw [if_neg (fun x => hc (he.mp x)), if_neg hc]

/-- C80, consequence: after loading a file into an empty configuration the flash devices are exactly those at positions
`≥ first_flash`. -/
theorem C80_first_flash (pid : Str) (lines : List Str) (ds : List DiskConfig) (ff : Nat)
    (h : loadConfig pid [] lines = .ok (ds, ff)) :
    ff ≤ ds.length ∧ ∀ (i : Nat) (hi : i < ds.length), (ds[i].flash = true ↔ ff ≤ i) := by
  have key : ∀ (ls : List Str) (as bs as' bs' : List DiskConfig), (∀ e ∈ as, e.flash = false) → (∀ e ∈ bs, e.flash = true) →
      loadLines pid ls as bs = .ok (as', bs') → (∀ e ∈ as', e.flash = false) ∧ (∀ e ∈ bs', e.flash = true) := by
    intro ls
    induction ls with
    | nil =>
      intro as bs as' bs' ha hb h
      simp only [loadLines, Res.ok.injEq, Prod.mk.injEq] at h
      obtain ⟨rfl, rfl⟩ := h
      exact ⟨ha, hb⟩
    | cons l ls ih =>
      intro as bs as' bs' ha hb h
      rw [loadLines] at h
      split at h
      · exact ih _ _ _ _ ha hb h
      · cases hp : parseLine pid defaultConfig l with
        | runtimeError => simp [hp, Res.bind] at h
        | outOfRange => simp [hp, Res.bind] at h
        | ok e =>
          simp only [hp, Res.bind] at h
          split at h
          · rename_i he
            refine ih _ _ _ _ ?_ hb h
            intro x hx
            simp only [List.mem_append, List.mem_singleton] at hx
            rcases hx with hx | rfl
            · exact ha x hx
            · exact he
          · rename_i he
            refine ih _ _ _ _ ha ?_ h
            intro x hx
            simp only [List.mem_append, List.mem_singleton] at hx
            rcases hx with hx | rfl
            · exact hb x hx
            · simpa using he
  unfold loadConfig at h
  cases hl : loadLines pid lines [] [] with
  | runtimeError => simp [hl, Res.bind] at h
  | outOfRange => simp [hl, Res.bind] at h
  | ok r =>
    obtain ⟨as, bs⟩ := r
    simp only [hl, Res.bind] at h
    split at h
    · simp at h
    · simp only [Res.ok.injEq, Prod.mk.injEq] at h
      obtain ⟨rfl, rfl⟩ := h
      obtain ⟨ha, hb⟩ := key lines [] [] as bs (by simp) (by simp) hl
      refine ⟨by simp, ?_⟩
      intro i hi
      rw [List.getElem_append]
      split
      · rename_i hlt
        have := ha _ (List.getElem_mem hlt)
        simp only [this]; constructor
        · intro h; simp at h
        · omega
      · rename_i hge
        have := hb (bs[i - as.length]'(by simp at hi; omega)) (List.getElem_mem _)
        simp only [this, true_iff]; omega

/-- C80, errors: the first relevant line that is not well-formed decides the outcome, whatever follows; nothing is loaded. -/
theorem C80_bad_line (pid : Str) (old : List DiskConfig) (lines pre post : List Str) (es : List DiskConfig) (l : Str)
    (hrel : relevant lines = pre ++ l :: post)
    (hpre : List.Forall₂ (fun l e => parseLine pid defaultConfig l = .ok e) pre es) :
    (parseLine pid defaultConfig l = .runtimeError → loadConfig pid old lines = .runtimeError) ∧
    (parseLine pid defaultConfig l = .outOfRange → loadConfig pid old lines = .outOfRange) := by
  have hm := relevant_mem (lines := lines)
  rw [hrel] at hm
  have hl := loadLines_prefix pid pre es (l :: post) old [] (fun x hx => hm x (by simp [hx])) hpre
  unfold loadConfig
  rw [loadLines_relevant, hrel, hl, loadLines, if_neg (hm l (by simp))]
  constructor <;> intro h <;> rw [h] <;> rfl

/-- Example file. -/
def sampleFile : List Str :=
  ["# my disks".toList, "flash=/f0,1GiB,syscall".toList, [], "disk=/d0,20,mmap autogrow=no".toList, "disk=/d1,0,memory".toList]

example : (match loadConfig [] [] sampleFile with
    | .ok (ds, ff) => some (ds.map (fun d => (d.path, d.size, d.deleteOnExit)), ff)
    | _ => none) =
    some ([("/d0".toList, 20 * 2 ^ 20, false), ("/d1".toList, 0, true), ("/f0".toList, 2 ^ 30, false)], 2) := by decide +kernel

/-! ## C81: device ids -/

/-- C81: an automatically numbered file gets an id that no file opened before it has, as long as the counter does not overflow:
fewer than `2^32 - 1` ids in total and no explicit id so large that counting on from it leaves the 32-bit range. -/
theorem C81_automatic_id_fresh (wants : List Nat) (i j : Nat) (hij : i < j) (hj : j < wants.length)
    (hauto : wants[j] = 2 ^ 32 - 1)
    (hbig : ∀ w ∈ wants, w ≠ 2 ^ 32 - 1 → w + 1 + wants.length < 2 ^ 32) (hlen : wants.length < 2 ^ 32) :
    (openAll 0 wants)[j]? ≠ (openAll 0 wants)[i]? ∧ ((openAll 0 wants)[j]?).isSome := by
  -- bound on the counter, and ids of automatic files are at least the counter
  have key : ∀ (ws : List Nat) (c M : Nat), c + ws.length < M → M ≤ 2 ^ 32 →
      (∀ w ∈ ws, w ≠ 2 ^ 32 - 1 → w + 1 + ws.length < M) →
      ∀ j (hj : j < ws.length), ws[j] = 2 ^ 32 - 1 → ∃ v, (openAll c ws)[j]? = some v ∧ c ≤ v ∧
        ∀ i, i < j → ∀ u, (openAll c ws)[i]? = some u → u < v := by
    intro ws
    induction ws with
    | nil => intro c M _ _ _ j hj; simp at hj
    | cons w ws ih =>
      intro c M hc hM hb j hj hw
      simp only [List.length_cons] at hc hj
      have hcnext : c ≤ (nextId c w).1 ∧ (nextId c w).2 < (nextId c w).1 ∧ (nextId c w).1 + ws.length < M := by
        unfold nextId defaultDeviceId
        by_cases hd : w = 2 ^ 32 - 1
        · rw [if_pos hd]
          have : (c + 1) % 2 ^ 32 = c + 1 := Nat.mod_eq_of_lt (by omega)
          simp only [this]; omega
        · rw [if_neg hd]
          have hwb := hb w (by simp) hd
          simp only [List.length_cons] at hwb
          have : (w + 1) % 2 ^ 32 = w + 1 := Nat.mod_eq_of_lt (by omega)
          simp only [this]
          split <;> omega
      cases j with
      | zero =>
        simp only [List.getElem_cons_zero] at hw
        refine ⟨c, ?_, by omega, by intro i hi; omega⟩
        simp [openAll, nextId, defaultDeviceId, hw]
      | succ j =>
        simp only [List.getElem_cons_succ] at hw
        obtain ⟨v, h1, h2, h3⟩ := ih (nextId c w).1 M hcnext.2.2 hM
          (fun x hx hx' => by have := hb x (by simp [hx]) hx'; simp only [List.length_cons] at this; omega) j (by omega) hw
        refine ⟨v, by simpa [openAll] using h1, by omega, ?_⟩
        intro i hi u hu
        cases i with
        | zero =>
          simp only [openAll, List.getElem?_cons_zero, Option.some.injEq] at hu
          omega
        | succ i => exact h3 i (by omega) u (by simpa [openAll] using hu)
  obtain ⟨v, h1, _, h3⟩ := key wants 0 (2 ^ 32) (by omega) (Nat.le_refl _) hbig j hj hauto
  refine ⟨?_, by simp [h1]⟩
  rw [h1]
  intro h
  exact absurd (h3 i hij v h.symm) (by omega)

example : openAll 0 [2 ^ 32 - 1, 5, 2 ^ 32 - 1, 2, 2 ^ 32 - 1] = [0, 5, 6, 2, 7] := by decide

/-- C81, refuted in general: an explicit id given to a later file may be the id that an earlier file got automatically, and an
explicit id `2^32 - 2` makes the counter wrap around, after which automatic ids repeat. -/
theorem C81_collisions :
    openAll 0 [2 ^ 32 - 1, 0] = [0, 0] ∧
    openAll 0 [2 ^ 32 - 1, 2 ^ 32 - 2, 2 ^ 32 - 1, 2 ^ 32 - 1] = [0, 2 ^ 32 - 2, 2 ^ 32 - 1, 0] := by decide

/-! ## Findings about C79 -/

/-- The configuration of a plain flash device. -/
def flashSample : DiskConfig := { sample with flash := true }

/-- C79, not covered by the round trip (`not_flash`, `queue_own`): for a flash device the printed string is refused by the parser;
the queue number `-2` comes back as `-1`. -/
theorem C79_not_readable :
    mkConfig flashSample.path flashSample.size (fileioString flashSample) = .runtimeError ∧
    mkConfig sample.path sample.size (fileioString { sample with queue := -2 }) = .ok { sample with queue := -1 } := by
  constructor <;> decide +kernel

/-- C79/C80, wrong input: a missing or blank I/O implementation is reported as `std::out_of_range` instead of the
`std::runtime_error` used for every other error; `queue`, `queue=`, `devid=` without number are taken as 0; numbers are reduced
modulo `2^32` without complaint. -/
theorem C79_lenient :
    parseLine [] defaultConfig "disk=/d,1GiB".toList = .outOfRange ∧
    parseLine [] defaultConfig "disk=/d,1GiB,  ".toList = .outOfRange ∧
    mkConfig [] 1 "syscall queue".toList = mkConfig [] 1 "syscall queue=0".toList ∧
    mkConfig [] 1 "syscall queue=".toList = mkConfig [] 1 "syscall queue=0".toList ∧
    mkConfig [] 1 "syscall devid=".toList = mkConfig [] 1 "syscall devid=0".toList ∧
    mkConfig [] 1 "syscall devid=4294967299".toList = mkConfig [] 1 "syscall devid=3".toList := by
  refine ⟨?_, ?_, ?_, ?_, ?_, ?_⟩ <;> decide +kernel

/-- C79, an entry used twice: `parse_line` resets every option to its default before reading the line, except `raw_device` and
`queue_length`, which keep the values of the previous line. -/
theorem C79_reused_entry_keeps_raw :
    parseLine [] sample "disk=/d,1MiB,memory".toList = .ok
      { defaultConfig with path := "/d".toList, size := 2 ^ 20, ioImpl := "memory".toList, rawDevice := true } := by
  decide +kernel

end Stxxl.Config
