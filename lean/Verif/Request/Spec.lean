import Verif.Request.Model

/-!
# What the user of requests may rely on

Stated over the trace of observable events only.
-/

namespace Stxxl.Request

/-- What happens to one request, without its name. -/
inductive HEv where
  | submit | taken | ioEnd (e : Bool) | cancelled | handler | refRel
deriving DecidableEq, Repr

/-- The part of an event that belongs to the life of request `r`. -/
def Ev.about (r : Nat) : Ev → Option HEv
  | .submit q => if q = r then some .submit else none
  | .taken q => if q = r then some .taken else none
  | .ioEnd q e => if q = r then some (.ioEnd e) else none
  | .cancelled q => if q = r then some .cancelled else none
  | .handler q => if q = r then some .handler else none
  | .refRel q => if q = r then some .refRel else none
  | _ => none

/-- The life of request `r` in a trace (latest event first), in the order in which it happened. -/
def hist (r : Nat) (tr : List Ev) : List HEv := (tr.filterMap (Ev.about r)).reverse

/-- A request that was served: transferred exactly once, then its handler ran exactly once, then it let go of its file. -/
def servedLife (e : Bool) : List HEv := [.submit, .taken, .ioEnd e, .handler, .refRel]

/-- A request that was cancelled: never transferred, its handler never ran, it let go of its file. -/
def cancelledLife : List HEv := [.submit, .cancelled, .refRel]

/-- The transfer of `r` is over without an error, or `r` was cancelled. -/
def Finished (r : Nat) (tr : List Ev) : Prop :=
  [.submit, .taken, .ioEnd false] <+: hist r tr ∨ [.submit, .cancelled] <+: hist r tr

/-- The transfer of `r` ended with an error. -/
def Failed (r : Nat) (tr : List Ev) : Prop := [.submit, .taken, .ioEnd true] <+: hist r tr

/-- When event `e` may happen after trace `tr`. -/
def Good (spur : Bool) (tr : List Ev) : Ev → Prop
  | .waitRet _ r ok => hist r tr = servedLife (!ok) ∨ (ok = true ∧ hist r tr = cancelledLife)
  | .pollRet _ r (some true) => Finished r tr
  | .pollRet t r (some false) =>
    -- when the call began, neither had the handler run nor had the file been let go of
    ∃ post pre, tr = post ++ .pollCall t r :: pre ∧ (∀ q, .pollCall t q ∉ post) ∧
      .handler ∉ hist r pre ∧ .refRel ∉ hist r pre
  | .pollRet _ r none => Failed r tr
  | .cancelRet _ r true => hist r tr = cancelledLife
  | .cancelRet _ r false => .taken ∈ hist r tr ∨ .cancelled ∈ hist r tr
  | .anyRet _ rs (some k) => ∃ r, rs[k]? = some r ∧ Finished r tr
  | .anyRet _ _ none => spur = true
  | .anyThrow _ rs => ∃ r ∈ rs, Failed r tr
  | _ => True

/-- Every event of the trace was allowed when it happened. -/
def TraceOk (spur : Bool) (tr : List Ev) : Prop :=
  ∀ post e pre, tr = post ++ e :: pre → Good spur pre e

/-- The life of a request is at every moment the beginning of one of the possible lives. -/
def LifeOk (r : Nat) (tr : List Ev) : Prop :=
  (∃ e, hist r tr <+: servedLife e) ∨ hist r tr <+: cancelledLife

end Stxxl.Request
