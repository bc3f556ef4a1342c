import Verif.BlockSched.Model

/-!
# What a client of the block scheduler relies on

A scheduler is a table of blocks with contents.  How many of them are in memory does not appear here.
-/

namespace Stxxl.BlockSched

variable {α : Type}

/-- contents of a block: none yet, known, or unspecified -/
inductive Content (α : Type) where
  | uninit
  | known (v : α)
  | junk
  deriving DecidableEq

/-- a block as the client sees it.  The last three are about the time since the block was first
acquired: it had no contents then, the client changed it, a release said "dirty". -/
structure Ent (α : Type) where
  cur : Content α
  held : Nat
  fresh : Bool
  changed : Bool
  marked : Bool

/-- `ents i`: block `i` if allocated; `client`: external blocks of the client with their contents;
`size`: all block numbers handed out so far are below; `sim`: simulation mode -/
structure Sp (α : Type) where
  ents : Nat → Option (Ent α)
  client : List (Nat × Content α)
  size : Nat
  sim : Bool

/-- nothing allocated -/
def Sp.empty : Sp α := { ents := fun _ => none, client := [], size := 0, sim := false }

/-- an allocated block -/
def Ent.blank : Ent α := { cur := .uninit, held := 0, fresh := false, changed := false, marked := false }

/-- first or further acquire: an uninitialized block shows the default contents (if its type has
one); `uninit` says that the old contents are not needed and leaves them unspecified -/
def Ent.acquire (e : Ent α) (fill : Option α) (u : Bool) : Ent α :=
  if e.held > 0 then { e with held := e.held + 1 }
  else
    match e.cur with
    | .uninit => { cur := match fill, u with
                     | some v, false => .known v
                     | _, _ => .junk,
                   held := 1, fresh := true, changed := false, marked := false }
    | x => { cur := if u then .junk else x, held := 1, fresh := false, changed := u, marked := false }

/-- release.  At the last release the contents stay if a release said "dirty" or nothing was changed.
A block that had no contents and was never dirty has none again.  A client that changes a block
without saying so must not rely on anything. -/
def Ent.release (e : Ent α) (dirty : Bool) : Ent α :=
  if e.held > 1 then { e with held := e.held - 1, marked := e.marked || dirty }
  else if e.marked || dirty then { e with held := 0, marked := true }
  else if e.fresh then { e with held := 0, cur := .uninit }
  else if e.changed then { e with held := 0, cur := .junk }
  else { e with held := 0 }

/-- contents of an external block of the client -/
def Sp.ext (sp : Sp α) (e : Nat) : Option (Content α) := (sp.client.find? fun x => x.1 = e).map (·.2)

/-- what the client must respect -/
def Sp.pre (sp : Sp α) : Op α → Prop
  | .free i => ∃ e, sp.ents i = some e ∧ e.held = 0 ∧ (sp.sim = true → e.cur = .uninit)
  | .acquire i _ => ∃ e, sp.ents i = some e
  | .read i | .write i _ | .release i _ => ∃ e, sp.ents i = some e ∧ (sp.sim = true ∨ e.held > 0)
  | .deinit i => ∃ e, sp.ents i = some e ∧ (sp.sim = true ∨ e.held = 0)
  | .init i x => ∃ e, sp.ents i = some e ∧ (sp.sim = true ∨ (e.held = 0 ∧ e.cur = .uninit ∧ x ∈ sp.client.map (·.1)))
  | .extract i => ∃ e, sp.ents i = some e ∧ (sp.sim = true ∨ e.held = 0)
  | .isInit i => ∃ e, sp.ents i = some e
  | .readExt x | .writeExt x _ | .delExt x => x ∈ sp.client.map (·.1)
  | .toLfd (some p) => ∀ q ∈ p, q.sb < sp.size
  | _ => True

/-- put a new state of block `i` -/
def Sp.put (sp : Sp α) (i : Nat) (e : Option (Ent α)) : Sp α := { sp with ents := fun k => if k = i then e else sp.ents k }

/-- what the client is told: the result of a call and the table afterwards -/
inductive Sp.Post (fill : Option α) : Sp α → Op α → Res α → Sp α → Prop
  | alloc {sp : Sp α} {i : Nat} : sp.ents i = none → Sp.Post fill sp .alloc (.idx i)
      { sp.put i (some Ent.blank) with size := max sp.size (i + 1) }
  | free {sp : Sp α} {i : Nat} : Sp.Post fill sp (.free i) .unit (sp.put i none)
  | acquire {sp : Sp α} {i : Nat} {u : Bool} {e : Ent α} : sp.sim = false → sp.ents i = some e →
      Sp.Post fill sp (.acquire i u) .unit (sp.put i (some (e.acquire fill u)))
  | read {sp : Sp α} {i : Nat} {e : Ent α} {v : α} : sp.sim = false → sp.ents i = some e →
      (∀ w, e.cur = .known w → v = w) → Sp.Post fill sp (.read i) (.val v) sp
  | write {sp : Sp α} {i : Nat} {v : α} {e : Ent α} : sp.sim = false → sp.ents i = some e →
      Sp.Post fill sp (.write i v) .unit (sp.put i (some { e with cur := .known v, changed := true }))
  | release {sp : Sp α} {i : Nat} {d : Bool} {e : Ent α} : sp.sim = false → sp.ents i = some e →
      Sp.Post fill sp (.release i d) .unit (sp.put i (some (e.release d)))
  | deinit {sp : Sp α} {i : Nat} : sp.sim = false → Sp.Post fill sp (.deinit i) .unit (sp.put i (some Ent.blank))
  | init {sp : Sp α} {i x : Nat} {v : Content α} : sp.sim = false → sp.ext x = some v →
      Sp.Post fill sp (.init i x) .unit
        { sp.put i (some { (Ent.blank : Ent α) with cur := v }) with client := sp.client.filter fun y => y.1 ≠ x }
  | extractNone {sp : Sp α} {i : Nat} {e : Ent α} : sp.sim = false → sp.ents i = some e → e.cur = .uninit →
      Sp.Post fill sp (.extract i) (.ext none) sp
  | extractSome {sp : Sp α} {i x : Nat} {e : Ent α} : sp.sim = false → sp.ents i = some e → e.cur ≠ .uninit →
      x ∉ sp.client.map (·.1) →
      Sp.Post fill sp (.extract i) (.ext (some x)) { sp.put i (some Ent.blank) with client := (x, e.cur) :: sp.client }
  | isInit {sp : Sp α} {i : Nat} {e : Ent α} {b : Bool} : sp.sim = false → sp.ents i = some e →
      (b = true ↔ e.cur ≠ .uninit) → Sp.Post fill sp (.isInit i) (.bool b) sp
  | timestep {sp : Sp α} : Sp.Post fill sp .timestep .unit sp
  | flush {sp : Sp α} : Sp.Post fill sp .flush .unit sp
  | toLru {sp : Sp α} : Sp.Post fill sp .toLru .unit { sp with sim := false }
  | toLfd {sp : Sp α} {p : Option (List PEl)} : Sp.Post fill sp (.toLfd p) .unit { sp with sim := false }
  | toSim {sp : Sp α} : Sp.Post fill sp .toSim .unit { sp with sim := true }
  | newExt {sp : Sp α} {v : α} {x : Nat} : x ∉ sp.client.map (·.1) →
      Sp.Post fill sp (.newExt v) (.ext (some x)) { sp with client := (x, .known v) :: sp.client }
  | readExt {sp : Sp α} {x : Nat} {v : α} : (∀ w, sp.ext x = some (.known w) → v = w) →
      Sp.Post fill sp (.readExt x) (.val v) sp
  | writeExt {sp : Sp α} {x : Nat} {v : α} :
      Sp.Post fill sp (.writeExt x v) .unit { sp with client := (x, .known v) :: sp.client.filter fun y => y.1 ≠ x }
  | delExt {sp : Sp α} {x : Nat} : Sp.Post fill sp (.delExt x) .unit { sp with client := sp.client.filter fun y => y.1 ≠ x }
  /-- in simulation mode nothing happens to the blocks and nothing is known about results -/
  | simulated {sp : Sp α} {o : Op α} {r : Res α} : sp.sim = true →
      (match o with
        | .acquire .. | .read .. | .write .. | .release .. | .deinit .. | .init .. | .extract .. | .isInit .. => True
        | _ => False) → Sp.Post fill sp o r sp

/-- a history of calls with results that the table explains, from the table `sp` to the table `sp'`;
the client respects its obligations -/
inductive Accepts (fill : Option α) : Sp α → List (Op α × Res α) → Sp α → Prop
  | nil (sp : Sp α) : Accepts fill sp [] sp
  | cons {sp sp1 sp2 : Sp α} {o : Op α} {r : Res α} {tr : List (Op α × Res α)} : sp.pre o → Sp.Post fill sp o r sp1 →
      Accepts fill sp1 tr sp2 → Accepts fill sp ((o, r) :: tr) sp2

/-- the client respects its obligations at every call of the history, judging by the results so far -/
inductive Legal (fill : Option α) : Sp α → List (Op α × Res α) → Prop
  | nil (sp : Sp α) : Legal fill sp []
  | cons {sp : Sp α} {o : Op α} {r : Res α} {tr : List (Op α × Res α)} : sp.pre o →
      (∀ sp1, Sp.Post fill sp o r sp1 → Legal fill sp1 tr) → Legal fill sp ((o, r) :: tr)

/-- the calls that concern block `i` -/
def Op.touches (i : Nat) : Op α → Bool
  | .free j | .acquire j _ | .read j | .write j _ | .release j _ | .deinit j | .init j _ | .extract j => decide (j = i)
  | _ => false

/-- whether the client has acquired block `i` -/
def Sp.isHeld (sp : Sp α) (i : Nat) : Bool :=
  match sp.ents i with
  | some e => decide (e.held > 0)
  | none => false

/-- number of blocks the client has acquired -/
def Sp.heldBlocks (sp : Sp α) : Nat :=
  (List.range sp.size).countP sp.isHeld

end Stxxl.BlockSched
