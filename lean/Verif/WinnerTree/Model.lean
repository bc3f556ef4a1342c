/-!
# Model of `winner_tree`

Models `/repo/include/stxxl/bits/common/winner_tree.h`. `invalid_key` is `none`. `m_tree` is a function with a size; positions `≥ size` do
not exist. The comparator compares the *current* values of two players, which the user changes from outside (`val`). `none` as the result of an
operation is undefined behaviour: an access outside of `m_tree`, or a failed `STXXL_ASSERT`.
-/

namespace Stxxl.WinnerTree

/-- `m_tree`, `m_num_slots` (`:45-51`), and the values the comparator looks at. -/
structure S (V : Type) where
  tree : Nat → Option Nat
  size : Nat
  slots : Nat
  val : Nat → V

variable {V : Type}

def upd {β : Type} (f : Nat → β) (i : Nat) (b : β) : Nat → β := fun j => if j = i then b else f j

/-- `ilog2_floor`, `common/utils.h:178-184` (the loop that shifts by 8 only saves time). -/
def ilog2Floor (i : Nat) : Nat := if i / 2 = 0 then 0 else ilog2Floor (i / 2) + 1
termination_by i
decreasing_by omega

/-- `ilog2_ceil`, `common/utils.h:187-192`. -/
def ilog2Ceil (i : Nat) : Nat := if i ≤ 1 then 0 else ilog2Floor (i - 1) + 1

/-- Constructor, `winner_tree.h:86-94`. -/
def ctor (n : Nat) (val : Nat → V) : Option (S V) :=
  if n = 0 then none
  else
    let slots := 2 ^ ilog2Ceil n
    some { tree := fun _ => none, size := 2 * slots - 1, slots := slots, val := val }

/-- One game, `winner_tree.h:219-226,325-332`. -/
def game (lt : V → V → Bool) (val : Nat → V) (a b : Option Nat) : Option Nat :=
  match a, b with
  | none, b => b
  | some a, none => some a
  | some a, some b => if lt (val a) (val b) then some a else some b

/-- The loop of `replay_on_change`, `winner_tree.h:215-231`. -/
def replayLoop (lt : V → V → Bool) (val : Nat → V) (tree : Nat → Option Nat) (p : Nat) (top : Option Nat) : Nat → Option Nat :=
  if p = 0 then upd tree 0 top
  else
    let tree := upd tree p top
    let l := p - (p + 1) % 2
    replayLoop lt val tree (l / 2) (game lt val (tree l) (tree (l + 1)))
termination_by p
decreasing_by omega

/-- `replay_on_change(index, done)`, `winner_tree.h:202-234`. -/
def replay (lt : V → V → Bool) (s : S V) (i : Nat) (done : Bool) : Option (S V) :=
  let p := s.size / 2 + i
  if p < s.size then
    some { s with tree := replayLoop lt s.val s.tree p (if done then none else some i) }
  else none

/-- `W = 2^64`, the modulus of `unsigned_type`. -/
def W : Nat := 2 ^ 64

/-- One iteration of the first loop of `double_num_slots`, `winner_tree.h:247-252`. The condition `i >= 0` always holds, as `i` is
unsigned; `--i` wraps. `none`: access outside of `m_tree`. -/
def doubleIter (size : Nat) (x : (Nat → Option Nat) × Nat) : Option ((Nat → Option Nat) × Nat) :=
  let i := x.2
  let ni := (i + 2 ^ ilog2Floor ((i + 1) % W)) % W
  if i < size ∧ ni < size then some (upd x.1 ni (x.1 i), (i + (W - 1)) % W) else none

/-- `n` iterations of that loop. -/
def doubleIters (size : Nat) : Nat → (Nat → Option Nat) × Nat → Option ((Nat → Option Nat) × Nat)
  | 0, x => some x
  | n + 1, x => match doubleIter size x with | none => none | some x => doubleIters size n x

/-- The beginning of `double_num_slots()`, `winner_tree.h:240-246`: the state before the loop. -/
def doubleStart (s : S V) : Nat × (Nat → Option Nat) × Nat := ((s.slots * 2) * 2 - 1, s.tree, s.size - 1)

/-- `activate_player(index)`, `winner_tree.h:97-103`. `double_num_slots` has no defined result (`double_num_slots_undefined`). -/
def activate (lt : V → V → Bool) (s : S V) (i : Nat) : Option (S V) :=
  if s.slots ≤ i then none else replay lt s i false

/-- `activate_without_replay(index)`, `winner_tree.h:106-112`. -/
def activateWithoutReplay (s : S V) (i : Nat) : Option (S V) :=
  if s.slots ≤ i then none else some { s with tree := upd s.tree (s.size / 2 + i) (some i) }

/-- `deactivate_without_replay(index)`, `winner_tree.h:115-120`. -/
def deactivateWithoutReplay (s : S V) (i : Nat) : Option (S V) :=
  if s.slots ≤ i then none else some { s with tree := upd s.tree (s.size / 2 + i) none }

/-- `deactivate_player(index)` and `replay_on_deactivations(index)`, `winner_tree.h:123-128,158-163`. -/
def deactivate (lt : V → V → Bool) (s : S V) (i : Nat) : Option (S V) :=
  if s.slots ≤ i then none else replay lt s i true

/-- The loop of `deactivate_player_step`, `winner_tree.h:145-149`. -/
def stepLoop (i : Nat) (tree : Nat → Option Nat) (p : Nat) : Nat → Option Nat :=
  if p = 0 then tree
  else if tree p = some i then stepLoop i (upd tree p none) ((p - (p + 1) % 2) / 2)
  else tree
termination_by p
decreasing_by omega

/-- `deactivate_player_step(index)`, `winner_tree.h:136-155`. -/
def deactivateStep (s : S V) (i : Nat) : Option (S V) :=
  if s.slots ≤ i then none
  else
    let tree := stepLoop i s.tree (s.size / 2 + i)
    some { s with tree := if tree 0 = some i then upd tree 0 none else tree }

/-- `notify_change(index)`, `winner_tree.h:166-170`. -/
def notifyChange (lt : V → V → Bool) (s : S V) (i : Nat) : Option (S V) := replay lt s i false

/-- `top()`, `winner_tree.h:174-177`; `none` is `invalid_key`. -/
def top (s : S V) : Option Nat := s.tree 0

/-- `empty()`, `winner_tree.h:180-183`. -/
def empty (s : S V) : Bool := s.tree 0 = none

/-- `replay_on_pop()`, `winner_tree.h:192-196`. -/
def replayOnPop (lt : V → V → Bool) (s : S V) : Option (S V) :=
  match s.tree 0 with
  | none => none
  | some i => replay lt s i false

/-- `clear()`, `winner_tree.h:271-274`. -/
def clear (s : S V) : S V := { s with tree := fun _ => none }

/-- `resize(num_players)`, `winner_tree.h:276-281`: `std::vector::resize` keeps the entries at their positions. -/
def resize (s : S V) (n : Nat) : S V :=
  let slots := 2 ^ ilog2Ceil n
  { s with tree := fun j => if j < s.size then s.tree j else none, size := 2 * slots - 1, slots := slots }

/-- The loop of `rebuild`, `winner_tree.h:319-335`, for the nodes `i-1, ..., 0`. -/
def rebuildLoop (lt : V → V → Bool) (val : Nat → V) : Nat → (Nat → Option Nat) → Nat → Option Nat
  | 0, tree => tree
  | i + 1, tree => rebuildLoop lt val i (upd tree i (game lt val (tree (i * 2 + 1)) (tree (i * 2 + 2))))

/-- `rebuild()`, `winner_tree.h:311-336`. -/
def rebuild (lt : V → V → Bool) (s : S V) : S V := { s with tree := rebuildLoop lt s.val (s.size / 2) s.tree }

/-- `activate_without_replay(i)` for `i = m, ..., m+n-1`. -/
def activateRange (s : S V) (m : Nat) : Nat → Option (S V)
  | 0 => some s
  | n + 1 => match activateWithoutReplay s m with | none => none | some s => activateRange s (m + 1) n

/-- `resize_and_clear(num_players)`, `winner_tree.h:284-288`. -/
def resizeAndClear (s : S V) (n : Nat) : S V := clear (resize s n)

/-- `resize_and_rebuild(num_players)`, `winner_tree.h:290-301`. -/
def resizeAndRebuild (lt : V → V → Bool) (s : S V) (n : Nat) : Option (S V) :=
  if n = 0 then none
  else
    match activateRange (resizeAndClear s n) 0 n with
    | none => none
    | some s => some (rebuild lt s)

end Stxxl.WinnerTree
