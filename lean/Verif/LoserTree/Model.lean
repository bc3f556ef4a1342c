import Verif.Common.Order

/-!
# The loser tree

Models `/repo/include/stxxl/bits/algo/losertree.h`, `run_cursor.h` and the comparator of `sort_helper.h`.

* A `run_cursor2` is the list of the elements of its block from `pos` on; the empty list is a cursor with
  `pos == block_type::size` (either `make_inf()` or a cursor whose block ran out and for which there was no other).
* The prefetcher is the list `seq` of the blocks it has still to deliver, in consumption order
  (`block_prefetcher` delivers exactly that sequence and never blocks: C27, C28).
* The arrays `entry` and `current` are functions; that all indices stay in range is part of what is proved.
* `none` is undefined behaviour: reading through or advancing an empty cursor (`assert(!empty())`).
-/

namespace Stxxl.LT

variable {α : Type}

/-- `ilog2_ceil`, `common/utils.h:186-192`; `ilog2_floor` (`:176-184`) counts the shifts until zero, i.e. `Nat.log2`. -/
def ilog2Ceil (i : Nat) : Nat := if i ≤ 1 then 0 else Nat.log2 (i - 1) + 1

/-- State of `loser_tree` (`losertree.h:30-34`) and of its prefetcher. -/
structure State (α : Type) where
  logK : Nat
  entry : Nat → Nat
  cur : Nat → List α
  seq : List (List α)

/-- `k = 1 << logK`, `losertree.h:70`. -/
def State.k (s : State α) : Nat := 2 ^ s.logK

/-- Assignment `arr[i] = x`. -/
def upd {β : Type} (f : Nat → β) (i : Nat) (x : β) : Nat → β := fun j => if j = i then x else f j

/-- `run_cursor2_cmp::operator()`, `sort_helper.h:89-98`. -/
def curLess (lt : α → α → Bool) (a b : List α) : Bool :=
  match b with
  | [] => true
  | y :: _ =>
    match a with
    | [] => false
    | x :: _ => lt x y

/-- `init_winner`, `losertree.h:36-57`. `fuel` bounds the recursion depth (`logK + 1` levels suffice). -/
def initWinner (lt : α → α → Bool) (cur : Nat → List α) (k : Nat) : Nat → Nat → (Nat → Nat) → Nat × (Nat → Nat)
  | 0, root, entry => (root - k, entry)
  | fuel + 1, root, entry =>
    if root ≥ k then (root - k, entry)
    else
      let l := initWinner lt cur k fuel (2 * root) entry
      let r := initWinner lt cur k fuel (2 * root + 1) l.2
      if curLess lt (cur l.1) (cur r.1) then (l.1, upd r.2 root r.1)
      else (r.1, upd r.2 root l.1)

/-- The constructor, `losertree.h:63-98`: the first `nruns` cursors pull one block each from the prefetcher (`none` if
it has fewer), the others are `make_inf`. -/
def init (lt : α → α → Bool) (nruns : Nat) (seq : List (List α)) : Option (State α) :=
  let logK := ilog2Ceil nruns
  let k := 2 ^ logK
  if seq.length < nruns then none
  else
    let cur := fun i => if i < nruns then seq.getD i [] else []
    let entry0 := fun i => i - k  -- entry[kReg + i] = i; the other entries are not initialised
    let w := initWinner lt cur k (logK + 1) 1 entry0
    some { logK := logK, entry := upd w.2 0 w.1, cur := cur, seq := seq.drop nruns }

/-- `*out_first = winnerE->current(); ++(*winnerE);` with `run_cursor2::operator++`, `run_cursor.h:82-91`: when the
block is used up, take the next block of the consumption sequence if there is one. -/
def advance (cur : Nat → List α) (seq : List (List α)) (w : Nat) : Option (α × (Nat → List α) × List (List α)) :=
  match cur w with
  | [] => none
  | x :: xs =>
    match xs with
    | [] =>
      match seq with
      | [] => some (x, upd cur w [], [])
      | b :: bs => some (x, upd cur w b, bs)
    | _ :: _ => some (x, upd cur w xs, seq)

/-- One comparison of the path, `losertree.h:186-194` and the macro `TreeStep` (`:123-134`). -/
def play (lt : α → α → Bool) (cur : Nat → List α) (i : Nat) (p : (Nat → Nat) × Nat) : (Nat → Nat) × Nat :=
  if curLess lt (cur (p.1 i)) (cur p.2) then (upd p.1 i p.2, p.1 i) else p

/-- The `for (i = (winnerIndex + k) >> 1; i > 0; i >>= 1)` loop of `multi_merge_k`, `losertree.h:184-195`. -/
def climb (lt : α → α → Bool) (cur : Nat → List α) : Nat → Nat → (Nat → Nat) × Nat → (Nat → Nat) × Nat
  | 0, _, p => p
  | fuel + 1, i, p => if i = 0 then p else climb lt cur fuel (i / 2) (play lt cur i p)

/-- The unrolled `TreeStep(LogK) … TreeStep(1)`, `losertree.h:123-147`: step number `t = LogK - L + 1` uses the index
`(winnerIndex + k) >> t` computed from the *current* `winnerIndex`. -/
def treeSteps (lt : α → α → Bool) (cur : Nat → List α) (k : Nat) : List Nat → (Nat → Nat) × Nat → (Nat → Nat) × Nat
  | [], p => p
  | t :: ts, p => treeSteps lt cur k ts (play lt cur ((p.2 + k) / 2 ^ t) p)

/-- One iteration of the output loop of `multi_merge_k` (`losertree.h:177-196`). -/
def stepK (lt : α → α → Bool) (s : State α) (w : Nat) : Option (α × State α × Nat) :=
  match advance s.cur s.seq w with
  | none => none
  | some (x, cur, seq) =>
    let p := climb lt cur (s.logK + 1) ((w + s.k) / 2) (s.entry, w)
    some (x, { s with entry := p.1, cur := cur, seq := seq }, p.2)

/-- One iteration of the output loop of `multi_merge_unrolled<LogK>` (`losertree.h:115-150`). -/
def stepU (lt : α → α → Bool) (s : State α) (w : Nat) : Option (α × State α × Nat) :=
  match advance s.cur s.seq w with
  | none => none
  | some (x, cur, seq) =>
    let p := treeSteps lt cur s.k ((List.range s.logK).map (· + 1)) (s.entry, w)
    some (x, { s with entry := p.1, cur := cur, seq := seq }, p.2)

/-- One iteration of `multi_merge_unrolled_0`, `losertree.h:155-163`: there is only cursor 0. -/
def step0 (s : State α) (w : Nat) : Option (α × State α × Nat) :=
  match advance s.cur s.seq 0 with
  | none => none
  | some (x, cur, seq) => some (x, { s with cur := cur, seq := seq }, w)

/-- The output loop: `n` elements are written; `w` is `winnerIndex`. -/
def outLoop (step : State α → Nat → Option (α × State α × Nat)) : Nat → State α → Nat → Option (List α × State α × Nat)
  | 0, s, w => some ([], s, w)
  | n + 1, s, w =>
    match step s w with
    | none => none
    | some (x, s', w') =>
      match outLoop step n s' w' with
      | none => none
      | some (xs, s'', w'') => some (x :: xs, s'', w'')

/-- `multi_merge(out_first, out_first + n)`, `losertree.h:204-246`: `logK == 0` has no tree, `1 … 10` are unrolled, the
rest uses the loop. `winnerIndex` is loaded from `entry[0]` first and stored back last (not for `logK == 0`). -/
def multiMerge (lt : α → α → Bool) (s : State α) (n : Nat) : Option (List α × State α) :=
  if s.logK = 0 then
    match outLoop step0 n s 0 with
    | none => none
    | some (xs, s', _) => some (xs, s')
  else
    match outLoop (if s.logK ≤ 10 then stepU lt else stepK lt) n s (s.entry 0) with
    | none => none
    | some (xs, s', w) => some (xs, { s' with entry := upd s'.entry 0 w })

/-- A client that calls `multi_merge` with output buffers of the given sizes, one after the other. -/
def mergeCalls (lt : α → α → Bool) : List Nat → State α → Option (List (List α) × State α)
  | [], s => some ([], s)
  | n :: ns, s =>
    match multiMerge lt s n with
    | none => none
    | some (xs, s') =>
      match mergeCalls lt ns s' with
      | none => none
      | some (xss, s'') => some (xs :: xss, s'')

/-- A (non-empty) block: its first element, which is its trigger value, and the others. -/
abbrev Block (α : Type) := α × List α

/-- All elements of a block. -/
def Block.elems (b : Block α) : List α := b.1 :: b.2

/-- The consumption sequence, `sort.h:318-333`: all blocks of all runs, stably sorted by trigger value
(`std::stable_sort` with `trigger_entry_cmp`; the result of a stable sort is unique, `List.mergeSort` is one). -/
def consumeSeq (lt : α → α → Bool) (runs : List (List (Block α))) : List (Block α) :=
  runs.flatten.mergeSort fun a b => !lt b.1 a.1

/-- Merge runs, each a list of blocks, as `merge_runs` does (`sort.h:413-444`): a loser tree over the consumption
sequence, then `multi_merge` calls for output buffers of the given sizes. -/
def mergeRuns (lt : α → α → Bool) (runs : List (List (Block α))) (chunks : List Nat) : Option (List (List α)) :=
  match init lt runs.length ((consumeSeq lt runs).map Block.elems) with
  | none => none
  | some s => (mergeCalls lt chunks s).map (·.1)

end Stxxl.LT
