import Verif.Cmdline.Model

/-! # What a command line means -/

namespace Stxxl.Cmdline

/-- `-h` and `--help` are looked for first. -/
def isHelp (a : Str) : Prop := a = "-h".toList ∨ a = "--help".toList

/-- The word `arg` names the option `o`: `--long`, or `-k` followed by anything. -/
def names (arg : Str) (o : Arg) : Prop :=
  arg = '-' :: '-' :: o.long ∨ (o.key ≠ '-' ∧ ∃ s, arg = '-' :: o.key :: s)

/-- It names the `j`th option, and no earlier one. -/
def namesAt (opts : List Arg) (arg : Str) (j : Nat) : Prop :=
  (∃ o, opts[j]? = some o ∧ names arg o) ∧ ∀ i, i < j → ∀ o, opts[i]? = some o → ¬ names arg o

/-- What the user says: give option `j` the word `w` (empty for a flag), or a positional word. -/
inductive Item where
  | opt (j : Nat) (w : Str) | par (w : Str)
deriving DecidableEq, Repr

/-- How words are grouped. The Boolean tells whether the options are over. -/
inductive Parses (opts : List Arg) : Bool → List Str → List Item → Prop
  | nil (e : Bool) : Parses opts e [] []
  | stop (s : Str) (rest : List Str) (its : List Item) : Parses opts true rest its →
      Parses opts false (('-' :: '-' :: '-' :: s) :: rest) its
  | dash (rest : List Str) (its : List Item) : Parses opts false rest its → Parses opts false (['-'] :: rest) its
  | flag (arg : Str) (j : Nat) (o : Arg) (rest : List Str) (its : List Item) : ¬ ['-', '-', '-'] <+: arg → namesAt opts arg j →
      opts[j]? = some o → o.ty = .flag → Parses opts false rest its → Parses opts false (arg :: rest) (.opt j [] :: its)
  | value (arg : Str) (j : Nat) (o : Arg) (w : Str) (rest : List Str) (its : List Item) : ¬ ['-', '-', '-'] <+: arg →
      namesAt opts arg j → opts[j]? = some o → o.ty ≠ .flag → Parses opts false rest its →
      Parses opts false (arg :: w :: rest) (.opt j w :: its)
  | par (e : Bool) (w : Str) (rest : List Str) (its : List Item) : (e = true ∨ w.head? ≠ some '-') → Parses opts e rest its →
      Parses opts e (w :: rest) (.par w :: its)

/-- The value a single word stands for. -/
def reads (lib : Lib) : Ty → Str → Option Val
  | .flag, _ => some (.b true)
  | .int, a => (lib.scanInt a).map .i
  | .uint, a => (lib.scanUint a).map .u
  | .dbl, a => (lib.scanDbl a).map .d
  | .bytes32, a => if (Stxxl.ParseUnits.parse a '\x00').2 = true ∧ (Stxxl.ParseUnits.parse a '\x00').1 < 2 ^ 32
      then some (.u (Stxxl.ParseUnits.parse a '\x00').1) else none
  | .bytes64, a => if (Stxxl.ParseUnits.parse a '\x00').2 = true then some (.u (Stxxl.ParseUnits.parse a '\x00').1) else none
  | .str, a => some (.s a)
  | .strlist, a => some (.l [a])

/-- The strings in a list variable. -/
def elems : Val → List Str
  | .l xs => xs
  | _ => []

/-- Contents of a variable that held `v0` after it was given the words `ws`: a list collects all of them, every other type keeps the
last one. -/
def after (lib : Lib) (ty : Ty) (v0 : Val) (ws : List Str) : Val :=
  match ws.getLast? with
  | none => v0
  | some w => if ty = .strlist then .l (elems v0 ++ ws) else (reads lib ty w).getD v0

/-- The words given to option `j`. -/
def given (j : Nat) : List Item → List Str
  | [] => []
  | .opt i w :: its => if i = j then w :: given j its else given j its
  | .par _ :: its => given j its

/-- The positional words. -/
def positional : List Item → List Str
  | [] => []
  | .opt _ _ :: its => positional its
  | .par w :: its => w :: positional its

/-- The words each parameter gets: one each, the first list parameter all that are left; `none` if there are too many. -/
def assign : List Arg → List Str → Option (List (List Str))
  | [], [] => some []
  | [], _ :: _ => none
  | p :: ps, ws => if p.ty = .strlist then some (ws :: ps.map (fun _ => [])) else (assign ps (ws.drop 1)).map (ws.take 1 :: ·)

/-- Every word is a value of the type of its option or parameter. -/
def Good (lib : Lib) (opts params : List Arg) (its : List Item) (as : List (List Str)) : Prop :=
  (∀ (j : Nat) (o : Arg), opts[j]? = some o → ∀ w ∈ given j its, (reads lib o.ty w).isSome) ∧
  assign params (positional its) = some as ∧
  ∀ (i : Nat) (p : Arg) (ws : List Str), params[i]? = some p → as[i]? = some ws → ∀ w ∈ ws, (reads lib p.ty w).isSome

/-- The variables of the options afterwards. -/
def optVals (lib : Lib) (opts : List Arg) (ov : List Val) (its : List Item) : List Val :=
  (opts.zip ov).mapIdx (fun j ov => after lib ov.1.ty ov.2 (given j its))

/-- The variables of the parameters afterwards. -/
def parVals (lib : Lib) (params : List Arg) (pv : List Val) (as : List (List Str)) : List Val :=
  ((params.zip pv).zip as).map (fun x => after lib x.1.1.ty x.1.2 x.2)

end Stxxl.Cmdline
