import Verif.ParseUnits.Model

/-!
# Model of the command line parser

`/repo/lib/common/cmdline.cpp:20-60` (`output_wrap`), `:155-300` (`process`), `/repo/include/stxxl/bits/common/cmdline.h:50-350`
(arguments). A string is a list of characters without NUL. `sscanf` with `%d`, `%u`, `%lf` is a parameter (any function of the string:
`none` means that it does not return 1). What is printed is modelled for `output_wrap` only.
-/

namespace Stxxl.Cmdline

open Stxxl.ParseUnits (parse)

abbrev Str := List Char

/-- The kinds of arguments (`cmdline.h:112-347`). -/
inductive Ty where
  | flag | int | uint | dbl | bytes32 | bytes64 | str | strlist
deriving DecidableEq, Repr

/-- Contents of the variable behind an argument. -/
inductive Val where
  | b (x : Bool) | i (x : Int) | u (x : Nat) | d (x : Nat) | s (x : Str) | l (x : List Str)
deriving DecidableEq, Repr

/-- `sscanf`; a `double` is represented by its bits. -/
structure Lib where
  scanInt : Str → Option Int
  scanUint : Str → Option Nat
  scanDbl : Str → Option Nat

/-- `argument` (`cmdline.h:50-78`): `key = '\x00'` means no short name; `m_repeated` is true for string lists only. -/
structure Arg where
  key : Char
  long : Str
  ty : Ty
  required : Bool
deriving DecidableEq, Repr

def Arg.repeated (a : Arg) : Bool := decide (a.ty = .strlist)

/-- Conversion of one word and store into the variable (`cmdline.h:129-330`, the bodies of `process` when `argc != 0`). -/
def conv (lib : Lib) (ty : Ty) (cur : Val) (a : Str) : Option Val :=
  match ty with
  | .flag => some (.b true)
  | .int => (lib.scanInt a).map .i
  | .uint => (lib.scanUint a).map .u
  | .dbl => (lib.scanDbl a).map .d
  | .bytes32 => if (parse a '\x00').2 = true ∧ (parse a '\x00').1 < 2 ^ 32 then some (.u (parse a '\x00').1) else none
  | .bytes64 => if (parse a '\x00').2 = true then some (.u (parse a '\x00').1) else none
  | .str => some (.s a)
  | .strlist => some (.l ((match cur with
      | .l xs => xs
      | _ => []) ++ [a]))

/-- State of the loop: variables of the options, of the parameters, current parameter, `m_found`, `end_optlist`. -/
structure PSt where
  ov : List Val
  pv : List Val
  argi : Nat
  found : List Bool
  endOpt : Bool
deriving DecidableEq, Repr

/-- The comparison with an option (`cmdline.cpp:194, 228`): `arg + 2 == longkey`, or `arg[1] == key`. -/
def named (arg : Str) (o : Arg) : Bool :=
  match arg with
  | '-' :: '-' :: l => decide (l = o.long)
  | '-' :: c :: _ => decide (c = o.key)
  | _ => false

/-- The loop of `process` (`cmdline.cpp:178-275`); `none`: an error message was printed and `process` returns false. A flag takes no
word, every other argument one (`cmdline.h:129-330`). `---…` ends the options; a single `-` prints a message and is skipped; of a short
option only the first character counts. There is no positional flag (`cmdline.h:625-780`). -/
def loop (lib : Lib) (opts params : List Arg) : List Str → PSt → Option PSt
  | [], st => some st
  | arg :: rest, st =>
    if arg.head? = some '-' ∧ st.endOpt = false then
      if ['-', '-', '-'] <+: arg then loop lib opts params rest { st with endOpt := true }
      else if arg = ['-'] then loop lib opts params rest st
      else
        match opts.findIdx? (named arg) with
        | none => none
        | some j =>
          match opts[j]? with
          | none => none
          | some o =>
            if o.ty = .flag then loop lib opts params rest { st with ov := st.ov.set j (.b true) }
            else
              match rest with
              | [] => none
              | v :: rest' =>
                match conv lib o.ty (st.ov.getD j (.b false)) v with
                | none => none
                | some x => loop lib opts params rest' { st with ov := st.ov.set j x }
    else
      match params[st.argi]? with
      | none => none
      | some p =>
        match conv lib p.ty (st.pv.getD st.argi (.b false)) arg with
        | none => none
        | some x =>
          loop lib opts params rest
            { st with pv := st.pv.set st.argi x, found := st.found.set st.argi true, argi := if p.repeated then st.argi else st.argi + 1 }

/-- `process` (`cmdline.cpp:155-295`) on the words after the program name. Result: return value and the variables (for an early error the
variables are not given: they hold whatever was stored before). -/
def process (lib : Lib) (opts params : List Arg) (ov pv : List Val) (args : List Str) : Bool × Option (List Val × List Val) :=
  if args.any (fun a => decide (a = "-h".toList ∨ a = "--help".toList)) then (false, none)
  else
    match loop lib opts params args { ov := ov, pv := pv, argi := 0, found := params.map (fun _ => false), endOpt := false } with
    | none => (false, none)
    | some st => ((params.zip st.found).all (fun pf => !pf.1.required || pf.2), some (st.ov, st.pv))

/-! ## `output_wrap` -/

/-- The scan loop (`cmdline.cpp:32-38`): `b` is how many characters still fit (`to + current + indent < t + wraplen`). Result:
`to - t`, `lspace - t`. -/
def scan : Nat → Str → Nat → Nat → Nat × Nat
  | 0, _, pos, lsp => (pos, lsp)
  | _ + 1, [], pos, lsp => (pos, lsp)
  | b + 1, c :: s, pos, lsp => if c = '\n' then (pos, lsp) else scan b s (pos + 1) (if c = ' ' then pos else lsp)

/-- `text.substr(t)`, `indent`, `current`. -/
structure WSt where
  rem : Str
  indent : Nat
  current : Nat
deriving DecidableEq, Repr

/-- Where the line ends (`cmdline.cpp:29-42`), relative to `t`. -/
def lineEnd (wraplen : Nat) (w : WSt) : Nat :=
  let r := scan (wraplen - (w.current + w.indent)) w.rem 0 0
  if r.1 ≠ w.rem.length ∧ w.rem[r.1]? ≠ some '\n' ∧ r.2 ≠ 0 then r.2 + 1 else r.1

/-- One round of the loop (`cmdline.cpp:27-58`): the printed line (indentation, text) and the new state. -/
def wrapStep (wraplen indentRest indentNewline : Nat) (w : WSt) : (Nat × Str) × WSt :=
  let to := lineEnd wraplen w
  let rest := w.rem.drop to
  ((w.indent, w.rem.take to),
   if rest.head? = some '\n' then { rem := rest.tail, indent := indentNewline, current := 0 }
   else { rem := rest, indent := indentRest, current := 0 })

/-- The loop runs while there is text. Lines printed in at most `n` rounds, and the state then. -/
def wrapRun (wraplen indentRest indentNewline : Nat) : Nat → WSt → List (Nat × Str) × WSt
  | 0, w => ([], w)
  | n + 1, w =>
    if w.rem = [] then ([], w)
    else
      let r := wrapStep wraplen indentRest indentNewline w
      let q := wrapRun wraplen indentRest indentNewline n r.2
      (r.1 :: q.1, q.2)

/-- `output_wrap(os, text, wraplen, indent_first, indent_rest, current, indent_newline)` starts here. -/
def wrapInit (text : Str) (indentFirst current : Nat) : WSt := { rem := text, indent := indentFirst, current := current }

/-- What the help text says about an option. -/
structure Doc where
  key : Char
  long : Str
  keytype : Str
  desc : Str

/-- `option_text()` (`cmdline.h:98-113`). -/
def Doc.text (d : Doc) : Str :=
  (if d.key ≠ '\x00' then ['-', d.key, ',', ' '] else []) ++ ['-', '-'] ++ d.long ++ (if d.keytype ≠ [] then ' ' :: d.keytype else [])

/-- `m_opt_maxlong` (`cmdline.h:409-413, 441`). -/
def optMaxlong (docs : List Doc) : Nat := docs.foldl (fun m d => max (d.text.length + 2) m) 8

/-- `print_usage` describes each option with `output_wrap(os, desc, m_linewrap, 0, m_opt_maxlong + 2, m_opt_maxlong + 2, 8)`
(`cmdline.cpp:118-124`), `m_linewrap` being 80 unless the program sets it: note that `8` is passed as `indent_newline`. -/
def describe (docs : List Doc) (d : Doc) (n : Nat) : List (Nat × Str) × WSt :=
  wrapRun 80 (optMaxlong docs + 2) 8 n (wrapInit d.desc 0 (optMaxlong docs + 2))

end Stxxl.Cmdline
