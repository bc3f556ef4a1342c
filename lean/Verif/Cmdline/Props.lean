import Verif.Cmdline.Vals
import Verif.Cmdline.Wrap

/-!
# C83, C84: the command line parser

`Spec.lean` says how words are grouped (`Parses`), which words go to which parameter (`assign`) and what a variable then holds (`after`);
`Wrapped` (in `Wrap.lean`) says what a wrapped text looks like.
-/

namespace Stxxl.Cmdline

/-- C83: `process` succeeds exactly if no word asks for help, the words can be grouped into options and positional words, there are not
too many of these, every word is a value of the type it is used for, and every required parameter has got one; then every variable holds
what it was given (a list everything, in order; other types the last word), and variables that were given nothing are unchanged. -/
theorem C83_process (lib : Lib) (opts params : List Arg) (ov pv ov' pv' : List Val) (args : List Str) (b : Bool)
    (ho : ov.length = opts.length) (hp : pv.length = params.length) :
    process lib opts params ov pv args = (b, some (ov', pv')) ↔
      (∀ a ∈ args, ¬ isHelp a) ∧ ∃ (its : List Item) (as : List (List Str)), Parses opts false args its ∧ Good lib opts params its as ∧
        ov' = optVals lib opts ov its ∧ pv' = parVals lib params pv as ∧
        (b = true ↔ ∀ (i : Nat) (p : Arg), params[i]? = some p → p.required = true → as[i]? ≠ some []) := by
  unfold process
  by_cases hh : args.any (fun a => decide (a = "-h".toList ∨ a = "--help".toList)) = true
  · rw [if_pos hh]
    constructor
    · intro h; simp at h
    · rintro ⟨h, _⟩
      obtain ⟨a, ha, h'⟩ := List.any_eq_true.1 hh
      exact absurd (by simpa [isHelp] using h') (h a ha)
  · rw [if_neg hh]
    have hno : ∀ a ∈ args, ¬ isHelp a := by
      intro a ha hc
      exact hh (List.any_eq_true.2 ⟨a, ha, by simpa [isHelp] using hc⟩)
    generalize hst0 : ({ ov := ov, pv := pv, argi := 0, found := params.map (fun _ => false), endOpt := false } : PSt) = st0
    -- what an accepting run of the loop is
    have key : ∀ st' : PSt, (∃ e, loop lib opts params args st0 = some { st' with endOpt := e }) →
        ∃ (its : List Item) (as : List (List Str)), Parses opts false args its ∧ Good lib opts params its as ∧
          st'.ov = optVals lib opts ov its ∧ st'.pv = parVals lib params pv as ∧ st'.found = as.map (fun a => !a.isEmpty) := by
      intro st' h
      obtain ⟨its, hpa, e, hr⟩ := (loop_iff lib opts params _ args (Nat.le_refl _) st0 st').1 h
      subst hst0
      rw [runItems_split] at hr
      cases hro : runOpt lib opts its ov with
      | none => simp [hro] at hr
      | some o1 =>
        simp only [hro, Option.bind_some, Option.map_eq_some_iff] at hr
        obtain ⟨⟨k, p1, f1⟩, hrp, heq⟩ := hr
        simp only [PSt.mk.injEq] at heq
        obtain ⟨e1, e2, _, e3, _⟩ := heq
        obtain ⟨g1, g2⟩ := (runOpt_iff lib opts its (parses_indexed hpa) ov o1 ho).1 hro
        obtain ⟨as, a1, a2, a3, a4⟩ := (runPar_iff lib params _ 0 pv p1 _ f1 hp (by simp)).1 ⟨k, hrp⟩
        simp only [List.drop_zero, List.take_zero, List.nil_append] at a1 a2 a3 a4
        refine ⟨its, as, hpa, ⟨g1, a1, a2⟩, by rw [← e1, g2], by rw [← e2, a3], ?_⟩
        rw [← e3, a4]
        have hl := assign_length _ _ _ a1
        clear a1 a2 a3 a4 hrp
        revert hl
        generalize params = ps
        clear * -
        revert as
        induction ps with
        | nil => intro as hl; simp at hl; subst hl; rfl
        | cons p ps ih =>
          intro as hl
          cases as with
          | nil => simp at hl
          | cons a as =>
            rw [List.map_cons, markFound_cons, ih as (by simpa using hl)]
            simp
    have conv' : ∀ (its : List Item) (as : List (List Str)), Parses opts false args its → Good lib opts params its as →
        ∃ st' : PSt, loop lib opts params args st0 = some st' ∧ st'.ov = optVals lib opts ov its ∧ st'.pv = parVals lib params pv as ∧
          st'.found = as.map (fun a => !a.isEmpty) := by
      intro its as hpa hg
      obtain ⟨g1, g2, g3⟩ := hg
      have h1 := (runOpt_iff lib opts its (parses_indexed hpa) ov _ ho).2 ⟨g1, rfl⟩
      obtain ⟨k, h2⟩ := (runPar_iff lib params (positional its) 0 pv (parVals lib params pv as) (params.map (fun _ => false))
        (markFound (params.map (fun _ => false)) as) hp (by simp)).2 ⟨as, by simpa using g2, by simpa [Readable] using g3, by simp, by simp⟩
      obtain ⟨e, h3⟩ := (loop_iff lib opts params _ args (Nat.le_refl _) st0
        { ov := optVals lib opts ov its, pv := parVals lib params pv as, argi := k, found := markFound (params.map (fun _ => false)) as, endOpt := false }).2
        ⟨its, by rw [← hst0]; exact hpa, false, by rw [← hst0, runItems_split]; simp [h1, h2]⟩
      refine ⟨_, h3, rfl, rfl, ?_⟩
      have hl := assign_length _ _ _ g2
      revert hl
      simp only
      generalize params = ps
      clear * -
      revert as
      induction ps with
      | nil => intro as hl; simp at hl; subst hl; rfl
      | cons p ps ih =>
        intro as hl
        cases as with
        | nil => simp at hl
        | cons a as =>
          rw [List.map_cons, markFound_cons, ih as (by simpa using hl)]
          simp
    have req : ∀ (as : List (List Str)), as.length = params.length →
        ((params.zip (as.map (fun a => !a.isEmpty))).all (fun pf => !pf.1.required || pf.2) = true ↔
          ∀ (i : Nat) (p : Arg), params[i]? = some p → p.required = true → as[i]? ≠ some []) := by
      intro as hl
      rw [List.all_eq_true]
      constructor
      · intro h i p hpi hrq hc
        have := h (p, false) (by
          apply List.mem_of_getElem? (i := i)
          rw [List.getElem?_zip_eq_some]
          exact ⟨hpi, by simp [List.getElem?_map, hc]⟩)
        simp [hrq] at this
      · rintro h ⟨p, f⟩ hm
        obtain ⟨i, hi⟩ := List.getElem?_of_mem hm
        rw [List.getElem?_zip_eq_some] at hi
        obtain ⟨h1, h2⟩ := hi
        simp only at h1 h2 ⊢
        cases hrq : p.required with
        | false => rfl
        | true =>
          have := h i p h1 hrq
          rw [List.getElem?_map, Option.map_eq_some_iff] at h2
          obtain ⟨a, ha, hf⟩ := h2
          rw [ha] at this
          have hane : a ≠ [] := fun h => this (by rw [h])
          rw [← hf]
          simpa using hane
    constructor
    · intro h
      cases hl : loop lib opts params args st0 with
      | none => simp [hl] at h
      | some st' =>
        simp only [hl, Prod.mk.injEq, Option.some.injEq] at h
        obtain ⟨hb, h1, h2⟩ := h
        obtain ⟨its, as, q1, q2, q3, q4, q5⟩ := key st' ⟨st'.endOpt, hl⟩
        refine ⟨hno, its, as, q1, q2, by rw [← h1, q3], by rw [← h2, q4], ?_⟩
        rw [← hb, q5]
        exact req as (assign_length _ _ _ q2.2.1)
    · rintro ⟨_, its, as, q1, q2, q3, q4, q5⟩
      obtain ⟨st', hl, r1, r2, r3⟩ := conv' its as q1 q2
      simp only [hl, Prod.mk.injEq, Option.some.injEq]
      refine ⟨?_, by rw [r1, q3], by rw [r2, q4]⟩
      rw [r3, Bool.eq_iff_iff, q5]
      exact req as (assign_length _ _ _ q2.2.1)

/-- C83: `process` returns true only with all variables set. -/
theorem C83_true (lib : Lib) (opts params : List Arg) (ov pv : List Val) (args : List Str)
    (h : (process lib opts params ov pv args).1 = true) : ∃ ov' pv', process lib opts params ov pv args = (true, some (ov', pv')) := by
  unfold process at h ⊢
  split at h
  · simp at h
  · rename_i hn
    rw [if_neg hn]
    split at h
    · simp at h
    · exact ⟨_, _, by rw [Prod.mk.injEq]; exact ⟨h, rfl⟩⟩

/-- A command line as a user writes it: option `j` by its long name, or by its key; or a positional word. -/
inductive Typed where
  | long (j : Nat) (w : Str) | short (j : Nat) (w : Str) | word (w : Str)
deriving DecidableEq, Repr

def Typed.words (opts : List Arg) : Typed → List Str
  | .long j w => (match opts[j]? with
    | none => []
    | some o => ('-' :: '-' :: o.long) :: (if o.ty = .flag then [] else [w]))
  | .short j w => (match opts[j]? with
    | none => []
    | some o => ['-', o.key] :: (if o.ty = .flag then [] else [w]))
  | .word w => [w]

def Typed.item (opts : List Arg) : Typed → Item
  | .long j w => .opt j (if (opts[j]?.map (·.ty)) = some .flag then [] else w)
  | .short j w => .opt j (if (opts[j]?.map (·.ty)) = some .flag then [] else w)
  | .word w => .par w

/-- The option exists; `-k` needs a key; positional words do not begin with a dash. -/
def Typed.ok (opts : List Arg) : Typed → Prop
  | .long j _ => j < opts.length
  | .short j _ => ∃ o, opts[j]? = some o ∧ o.key ≠ '\x00'
  | .word w => w.head? ≠ some '-'

/-- C83: if names and keys are unambiguous, every option can be given by either name, and is the option meant. -/
theorem C83_names (opts : List Arg) (hlong : (opts.map (·.long)).Nodup)
    (hkey : ∀ (i j : Nat) (a b : Arg), opts[i]? = some a → opts[j]? = some b → a.key ≠ '\x00' → a.key = b.key → i = j)
    (hdash : ∀ a ∈ opts, a.long.head? ≠ some '-' ∧ a.key ≠ '-') (ts : List Typed) (h : ∀ t ∈ ts, t.ok opts) :
    Parses opts false (ts.flatMap (Typed.words opts)) (ts.map (Typed.item opts)) := by
  induction ts with
  | nil => exact .nil _
  | cons t ts ih =>
    have ih' := ih (fun x hx => h x (List.mem_cons_of_mem _ hx))
    have ht := h t (List.mem_cons_self ..)
    rw [List.flatMap_cons, List.map_cons]
    cases t with
    | word w => exact .par false w _ _ (Or.inr ht) ih'
    | long j w =>
      have hj : j < opts.length := ht
      have hoj : opts[j]? = some opts[j] := List.getElem?_eq_getElem hj
      have hd := hdash opts[j] (List.getElem_mem hj)
      have hn : namesAt opts ('-' :: '-' :: opts[j].long) j := by
        refine ⟨⟨_, hoj, Or.inl rfl⟩, ?_⟩
        rintro i hi o hoi (hc | ⟨hk, s, hc⟩)
        · simp only [List.cons.injEq, true_and] at hc
          have h1 : (opts.map (·.long))[i]? = (opts.map (·.long))[j]? := by
            rw [List.getElem?_map, List.getElem?_map, hoi, hoj]; simp [hc]
          have := (List.getElem?_inj (by simp; omega) hlong).1 h1
          omega
        · simp only [List.cons.injEq, true_and] at hc
          exact hk hc.1.symm
      have h3 : ¬ ['-', '-', '-'] <+: '-' :: '-' :: opts[j].long := by
        rintro ⟨s, hs⟩
        simp at hs
        rw [← hs] at hd
        simp at hd
      simp only [Typed.words, Typed.item, hoj, Option.map_some, Option.some.injEq]
      by_cases hf : opts[j].ty = .flag
      · simp only [hf, if_true]
        exact .flag _ j _ _ _ h3 hn hoj hf ih'
      · simp only [hf, if_false]
        exact .value _ j _ w _ _ h3 hn hoj hf ih'
    | short j w =>
      obtain ⟨o, hoj, hk⟩ := ht
      have hd := hdash o (List.mem_of_getElem? hoj)
      have hn : namesAt opts ['-', o.key] j := by
        refine ⟨⟨_, hoj, Or.inr ⟨hd.2, [], rfl⟩⟩, ?_⟩
        rintro i hi o' hoi (hc | ⟨hk', s, hc⟩)
        · simp only [List.cons.injEq, true_and] at hc
          exact hd.2 hc.1
        · simp only [List.cons.injEq, true_and] at hc
          have := hkey j i o o' hoj hoi hk hc.1
          omega
      have h3 : ¬ ['-', '-', '-'] <+: ['-', o.key] := by
        rintro ⟨s, hs⟩
        simp at hs
      simp only [Typed.words, Typed.item, hoj, Option.map_some, Option.some.injEq]
      by_cases hf : o.ty = .flag
      · simp only [hf, if_true]
        exact .flag _ j _ _ _ h3 hn hoj hf ih'
      · simp only [hf, if_false]
        exact .value _ j _ w _ _ h3 hn hoj hf ih'

/-- C83: an option keeps the last word it was given. -/
theorem C83_last_wins (lib : Lib) (ty : Ty) (v0 v : Val) (ws : List Str) (w : Str) (ht : ty ≠ .strlist) (hr : reads lib ty w = some v) :
    after lib ty v0 (ws ++ [w]) = v := by
  simp [after, ht, hr]

/-- C83: a list keeps all of them, in order, after what it held. -/
theorem C83_list (lib : Lib) (xs ws : List Str) : after lib .strlist (.l xs) ws = .l (xs ++ ws) := by
  unfold after
  cases h : ws.getLast? with
  | none => have : ws = [] := by simpa using h
            subst this; simp
  | some w => simp [elems]

/-- C83: a variable that is given nothing is unchanged. -/
theorem C83_untouched (lib : Lib) (opts : List Arg) (ov : List Val) (its : List Item) (k : Nat) (ho : ov.length = opts.length)
    (h : given k its = []) : (optVals lib opts ov its)[k]? = ov[k]? := by
  by_cases hk : k < opts.length
  · rw [optVals_get lib opts ov its ho k opts[k] ov[k] (List.getElem?_eq_getElem hk) (List.getElem?_eq_getElem (by omega)), h, after_nil,
      List.getElem?_eq_getElem (by omega)]
  · rw [List.getElem?_eq_none (by rw [optVals_length lib opts ov its ho]; omega), List.getElem?_eq_none (by omega)]

/-! Cases. -/

/-- decimal digits only -/
def demoLib : Lib :=
  { scanInt := fun s => if s = "5".toList then some 5 else if s = "-5".toList then some (-5) else none
    scanUint := fun _ => none
    scanDbl := fun _ => none }

def demoOpts : List Arg := [⟨'v', "verbose".toList, .flag, false⟩, ⟨'n', "number".toList, .int, false⟩, ⟨'s', "size".toList, .bytes64, false⟩]
def demoParams : List Arg := [⟨'\x00', "input".toList, .str, true⟩, ⟨'\x00', "more".toList, .strlist, false⟩]
def demoOv : List Val := [.b false, .i 0, .u 1]
def demoPv : List Val := [.s [], .l []]

example : process demoLib demoOpts demoParams demoOv demoPv
    ["-v".toList, "a".toList, "--number".toList, "5".toList, "b".toList, "-s".toList, "4 KiB".toList, "c".toList] =
    (true, some ([.b true, .i 5, .u 4096], [.s "a".toList, .l ["b".toList, "c".toList]])) := by decide +kernel

/-- The hypotheses of `C83_names`. -/
example : (demoOpts.map (·.long)).Nodup ∧ (∀ a ∈ demoOpts, a.long.head? ≠ some '-' ∧ a.key ≠ '-') ∧
    (∀ t ∈ [Typed.short 0 [], .word "a".toList, .long 1 "5".toList], t.ok demoOpts) := by
  refine ⟨by decide +kernel, by decide +kernel, ?_⟩
  intro t ht
  simp only [List.mem_cons, List.not_mem_nil, or_false] at ht
  rcases ht with rfl | rfl | rfl
  · exact ⟨_, rfl, by decide⟩
  · simp [Typed.ok]
  · simp [Typed.ok, demoOpts]

/-- Missing required parameter, unknown option, bad value, missing value. -/
example : (process demoLib demoOpts demoParams demoOv demoPv ["-v".toList]).1 = false ∧
    (process demoLib demoOpts demoParams demoOv demoPv ["a".toList, "--speed".toList]).1 = false ∧
    (process demoLib demoOpts demoParams demoOv demoPv ["a".toList, "-n".toList, "x".toList]).1 = false ∧
    (process demoLib demoOpts demoParams demoOv demoPv ["a".toList, "-n".toList]).1 = false := by decide +kernel

/-- C83: surprises. `--` alone is an unknown option and does not end the options, `---` does; a lone `-` is complained about and
skipped; what follows the key of a short option is ignored; `-h` asks for help even as the value of an option; a negative number is a
value of an option, but not of a parameter. -/
theorem C83_surprises :
    (process demoLib demoOpts demoParams demoOv demoPv ["a".toList, "--".toList]).1 = false ∧
    process demoLib demoOpts demoParams demoOv demoPv ["---".toList, "-x".toList] =
      (true, some (demoOv, [.s "-x".toList, .l []])) ∧
    process demoLib demoOpts demoParams demoOv demoPv ["-".toList, "a".toList] = (true, some (demoOv, [.s "a".toList, .l []])) ∧
    process demoLib demoOpts demoParams demoOv demoPv ["-verbosity".toList, "a".toList] =
      (true, some ([.b true, .i 0, .u 1], [.s "a".toList, .l []])) ∧
    (process demoLib demoOpts demoParams demoOv demoPv ["a".toList, "-n".toList, "-h".toList]).1 = false ∧
    process demoLib demoOpts demoParams demoOv demoPv ["-n".toList, "-5".toList, "a".toList] =
      (true, some ([.b false, .i (-5), .u 1], [.s "a".toList, .l []])) ∧
    (process demoLib demoOpts [⟨'\x00', "n".toList, .int, true⟩] demoOv [.i 0] ["-5".toList]).1 = false := by
  decide +kernel

/-! ## C84 -/

/-- C84: if there is room on the lines after the first, `output_wrap` ends, and prints the text wrapped. -/
theorem C84_wrap (W indentFirst ir current inl : Nat) (text : Str) (h : ir < W) :
    (wrapRun W ir inl (2 * text.length + 2) (wrapInit text indentFirst current)).2.rem = [] ∧
    Wrapped W ir inl indentFirst current text (wrapRun W ir inl (2 * text.length + 2) (wrapInit text indentFirst current)).1 := by
  have h1 : (wrapRun W ir inl (2 * text.length + 2) (wrapInit text indentFirst current)).2.rem = [] := by
    apply wrap_halts W ir inl h (2 * text.length + 1)
    have : pot W (wrapInit text indentFirst current) ≤ 2 * text.length + 1 := by
      unfold pot wrapInit
      by_cases hh : indentFirst + current < W
      · simp only [hh, if_true]; omega
      · simp only [hh, if_false]; omega
    omega
  exact ⟨h1, wrap_run W ir inl _ _ h1⟩

/-- C84: whenever it ends, the text is printed wrapped. -/
theorem C84_wrap_ended (W indentFirst ir current inl n : Nat) (text : Str)
    (h : (wrapRun W ir inl n (wrapInit text indentFirst current)).2.rem = []) :
    Wrapped W ir inl indentFirst current text (wrapRun W ir inl n (wrapInit text indentFirst current)).1 :=
  wrap_run W ir inl _ _ h

/-- C84: no character is lost: the lines with the line feeds put back, as `Wrapped` says, are the text; and no line of text is too
long. -/
theorem C84_content (W ir inl ind cur : Nat) (text : Str) (ls : List (Nat × Str)) (h : Wrapped W ir inl ind cur text ls) :
    (ls.flatMap (·.2)) = text.filter (fun c => c ≠ '\n') ∧ (∀ l ∈ ls.tail, l.2 = [] ∨ l.1 + l.2.length ≤ W) ∧
    (∀ l ∈ ls.head?, l.2 = [] ∨ cur + l.1 + l.2.length ≤ W) := by
  have clean : ∀ p : Str, '\n' ∉ p → p.filter (fun c => decide (c ≠ '\n')) = p := by
    intro p hp
    rw [List.filter_eq_self]
    intro c hc
    simp only [decide_eq_true_eq]
    rintro rfl
    exact hp hc
  have two : ∀ (l : List (Nat × Str)), (∀ x ∈ l.tail, x.2 = [] ∨ x.1 + x.2.length ≤ W) → (∀ x ∈ l.head?, x.2 = [] ∨ 0 + x.1 + x.2.length ≤ W) →
      ∀ x ∈ l, x.2 = [] ∨ x.1 + x.2.length ≤ W := by
    intro l h1 h2 x hx
    cases l with
    | nil => simp at hx
    | cons a l =>
      rcases List.mem_cons.1 hx with rfl | hx
      · have := h2 x (by simp)
        rcases this with h | h
        · exact Or.inl h
        · exact Or.inr (by omega)
      · exact h1 x hx
  induction h with
  | done => simp
  | last ind cur piece hne hnl hl =>
    refine ⟨?_, by simp, by simp; omega⟩
    rw [clean piece hnl]; simp
  | newline ind cur piece rest ls hnl hl _ ih =>
    refine ⟨?_, two ls ih.2.1 ih.2.2, by simpa using hl⟩
    rw [List.flatMap_cons, ih.1, List.filter_append, clean piece hnl]
    simp
  | space ind cur piece tail rest ls hnl hpne htn _ _ _ hW _ ih =>
    refine ⟨?_, two ls ih.2.1 ih.2.2, by simp; omega⟩
    rw [List.flatMap_cons, ih.1, List.filter_append piece, clean piece hnl]
    simp
  | full ind cur piece rest ls hnl _ _ _ hW _ ih =>
    refine ⟨?_, two ls ih.2.1 ih.2.2, ?_⟩
    · rw [List.flatMap_cons, ih.1, List.filter_append, clean piece hnl]
    · simp only [List.head?_cons, Option.mem_some_iff, forall_eq']
      by_cases hp : piece = []
      · exact Or.inl hp
      · have := List.length_pos_iff.2 hp
        right; omega

example : (wrapRun 12 2 0 30 (wrapInit "aaaa bbbb ccccccccccccccc\nd".toList 0 3)).1 =
    [(0, "aaaa ".toList), (2, "bbbb ".toList), (2, "cccccccccc".toList), (2, "ccccc".toList), (0, "d".toList)] := by decide +kernel

/-- C84: without room it never ends: after any number of rounds all of the text is still to be printed, and only empty lines were. -/
theorem C84_wrap_never_ends (W indentFirst ir current inl : Nat) (text : Str) (h1 : W ≤ ir) (h2 : W ≤ indentFirst + current)
    (h0 : text ≠ []) (hnl : text.head? ≠ some '\n') (n : Nat) :
    (wrapRun W ir inl n (wrapInit text indentFirst current)).2.rem = text ∧
    (wrapRun W ir inl n (wrapInit text indentFirst current)).1.length = n ∧
    ∀ l ∈ (wrapRun W ir inl n (wrapInit text indentFirst current)).1, l.2 = [] := by
  have gen : ∀ (n : Nat) (w : WSt), w.rem = text → W ≤ w.indent + w.current →
      (wrapRun W ir inl n w).2.rem = text ∧ (wrapRun W ir inl n w).1.length = n ∧ ∀ l ∈ (wrapRun W ir inl n w).1, l.2 = [] := by
    intro n
    induction n with
    | zero => intro w hw _; simp [wrapRun, hw]
    | succ n ih =>
      intro w hw hi
      rw [wrapRun, if_neg (by rw [hw]; exact h0)]
      rw [wrap_stuck W ir inl w (by rw [hw]; exact h0) (by rw [hw]; exact hnl) hi]
      obtain ⟨a, b, c⟩ := ih { rem := w.rem, indent := ir, current := 0 } hw (by simpa using h1)
      refine ⟨a, by simp [b], ?_⟩
      intro l hl
      rcases List.mem_cons.1 hl with rfl | hl
      · rfl
      · exact c l hl
  exact gen n _ rfl h2

theorem maxlong_ge : ∀ (docs : List Doc) (m : Nat), m ≤ docs.foldl (fun m d => max (d.text.length + 2) m) m ∧
    ∀ d ∈ docs, d.text.length + 2 ≤ docs.foldl (fun m d => max (d.text.length + 2) m) m := by
  intro docs
  induction docs with
  | nil => intro m; simp
  | cons d docs ih =>
    intro m
    simp only [List.foldl_cons]
    obtain ⟨h1, h2⟩ := ih (max (d.text.length + 2) m)
    refine ⟨by omega, ?_⟩
    intro x hx
    rcases List.mem_cons.1 hx with rfl | hx
    · omega
    · exact h2 x hx

theorem maxlong_le (b : Nat) : ∀ (docs : List Doc) (m : Nat), m ≤ b → (∀ d ∈ docs, d.text.length + 2 ≤ b) →
    docs.foldl (fun m d => max (d.text.length + 2) m) m ≤ b := by
  intro docs
  induction docs with
  | nil => intro m hm _; simpa using hm
  | cons d docs ih =>
    intro m hm h
    simp only [List.foldl_cons]
    exact ih _ (by have := h d (List.mem_cons_self ..); omega) (fun x hx => h x (List.mem_cons_of_mem _ hx))

/-- C84: `--help` prints the options if none of them needs more than 75 characters (`-k, --name type`). -/
theorem C84_help_ends (docs : List Doc) (d : Doc) (h : ∀ x ∈ docs, x.text.length ≤ 75) :
    ∃ n, (describe docs d n).2.rem = [] ∧ Wrapped 80 (optMaxlong docs + 2) 8 0 (optMaxlong docs + 2) d.desc (describe docs d n).1 := by
  have hm : optMaxlong docs ≤ 77 := maxlong_le 77 docs 8 (by omega) (fun x hx => by have := h x hx; omega)
  exact ⟨2 * d.desc.length + 2, C84_wrap 80 0 (optMaxlong docs + 2) (optMaxlong docs + 2) 8 d.desc (by omega)⟩

/-- C84, negated: if one option needs 76 characters or more, `--help` prints empty lines for ever at the first option described (as does
every error message of `process`, which ends with the same text). -/
theorem C84_help_never_ends (docs : List Doc) (x d : Doc) (hx : x ∈ docs) (hl : 76 ≤ x.text.length) (h0 : d.desc ≠ [])
    (hnl : d.desc.head? ≠ some '\n') (n : Nat) :
    (describe docs d n).2.rem = d.desc ∧ (describe docs d n).1.length = n := by
  have hm : 78 ≤ optMaxlong docs := by
    have := (maxlong_ge docs 8).2 x hx
    unfold optMaxlong
    omega
  obtain ⟨a, b, _⟩ := C84_wrap_never_ends 80 0 (optMaxlong docs + 2) (optMaxlong docs + 2) 8 d.desc (by omega) (by omega) h0 hnl n
  exact ⟨a, b⟩

/-- Such an option: a name of 70 characters with a key. -/
example : ∃ x : Doc, 76 ≤ x.text.length ∧ x.long.length = 70 ∧ x.desc ≠ [] ∧ x.desc.head? ≠ some '\n' := by
  refine ⟨⟨'x', List.replicate 70 'a', [], "text".toList⟩, by decide +kernel, by decide +kernel, by decide, by decide⟩

end Stxxl.Cmdline
