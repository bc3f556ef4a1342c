import Verif.LoserTree.Tree

/-!
# Model of the mergers of `stxxl::priority_queue`

`priority_queue_local::loser_tree`, `merge2_iterator`, `merge3_iterator`, `merge4_iterator`
(`include/stxxl/bits/containers/pq_mergers.h`), `int_merger` (`pq_int_merger.h`), `ext_merger` (`pq_ext_merger.h`) and
`internal_bounded_stack` (`pq_helpers.h:207-252`), in the sequential build (`STXXL_PARALLEL` off).

* Every C++ `assert` of these functions is modelled: a failing assertion, an index outside an array, and advancing a
  sequence beyond its end are the outcome `none`.
* A sequence is the list of the elements that are still to come. The sentinel behind the end of an internal array, the
  `sentinel` member that free slots point to, and the sentinel that `make_inf` writes into the first place of a block are
  the value `minv` delivered by dereferencing an exhausted sequence.
* The blocks of an external sequence are represented by their contents: that a block written through the
  `read_write_pool` is read back unchanged is the subject of C20, and is assumed here. Hints, `new_blocks`,
  `delete_block`, memory accounting (`mem_cons_`, `segment_size`) and statistics are left out.
* `unsigned_type` arithmetic is natural number arithmetic: counters do not wrap.
-/

namespace Stxxl.PQ
open Stxxl.LT (upd)

variable {α : Type}

/-- A PQ comparator: `cmp(a, b)` means `a` has lower priority than `b`; `min_value()` is the sentinel. -/
structure Cmp (α : Type) where
  less : α → α → Bool
  minv : α

/-- `is_sentinel`, `pq_mergers.h:309-312`: `!(cmp(cmp.min_value(), a))`. -/
def Cmp.isSentinel (C : Cmp α) (a : α) : Bool := !(C.less C.minv a)

/-- One slot of a merger: `current[slot]` of `int_merger` (`pq_int_merger.h:72-79`), `sequence_state` of `ext_merger`
(`pq_ext_merger.h:67-75`). `cur` is what is left of the internal array or of the current block, `bids` the contents of
the blocks that follow, `alloc` is `is_array_allocated(slot)`. -/
structure Slot (α : Type) where
  cur : List α
  bids : List (List α)
  alloc : Bool

/-- `*current[slot]` and `sequence_state::operator *`, `pq_ext_merger.h:77-81`. -/
def Slot.deref (C : Cmp α) (s : Slot α) : α := s.cur.headD C.minv

/-- `++current[slot]` and `sequence_state::operator ++`, `pq_ext_merger.h:123-161`: at the end of the block the next block
is read, or the sequence is made infinite. -/
def Slot.next (s : Slot α) : Option (Slot α) :=
  match s.cur with
  | [] => none
  | _ :: x :: t => some { s with cur := x :: t }
  | [_] =>
    match s.bids with
    | [] => some { s with cur := [] }
    | b :: bs => some { s with cur := b, bids := bs }

/-- `is_array_empty`, `pq_int_merger.h:89-92`, `pq_ext_merger.h:215-218`. -/
def Slot.isEmpty (C : Cmp α) (s : Slot α) : Bool := C.isSentinel (s.deref C)

/-- Template parameters of a merger: external or internal, `Arity`, elements per block. -/
structure MP where
  ext : Bool
  arity : Nat
  bs : Nat

/-- `max_arity = 1UL << (LOG2<Arity>::ceil)`, `pq_mergers.h:260`. -/
def MP.maxArity (p : MP) : Nat := 2 ^ LT.ilog2Ceil p.arity

/-- Number of slots: `current[MaxArity]` (`pq_int_merger.h:73`), `states[max_arity]` (`pq_ext_merger.h:171`). -/
def MP.nslots (p : MP) : Nat := if p.ext then p.maxArity else p.arity

/-- A merger together with its loser tree (`pq_mergers.h:268-298`). `free` is the stack `free_slots`, top first;
`entry n` is the pair (key, index). -/
structure Merger (α : Type) where
  k : Nat
  logK : Nat
  entry : Nat → α × Nat
  slots : Nat → Slot α
  free : List Nat
  msize : Nat

/-- The current key of a slot. -/
def keys (C : Cmp α) (sl : Nat → Slot α) (i : Nat) : α := (sl i).deref C

/-- `internal_bounded_stack::push`, `pq_helpers.h:219-223`, with its assertion. -/
def pushFree (p : MP) (i : Nat) (fr : List Nat) : Option (List Nat) :=
  if fr.length < p.arity then some (i :: fr) else none

/-- `init_winner`, `pq_mergers.h:353-385`. `fuel` bounds the recursion depth; `k ≤ max_arity` makes the second leaf test
redundant. -/
def initWinner (C : Cmp α) (key : Nat → α) (k : Nat) : Nat → Nat → (Nat → α × Nat) → Nat × (Nat → α × Nat)
  | 0, root, e => (root - k, e)
  | fuel + 1, root, e =>
    if root ≥ k then (root - k, e)
    else
      let l := initWinner C key k fuel (2 * root) e
      let r := initWinner C key k fuel (2 * root + 1) l.2
      if !(C.less (key l.1) (key r.1)) then (l.1, upd r.2 root (key r.1, r.1))
      else (r.1, upd r.2 root (key l.1, l.1))

/-- `rebuild_loser_tree`, `pq_mergers.h:341-346`. -/
def rebuild (C : Cmp α) (M : Merger α) : Merger α :=
  let w := initWinner C (keys C M.slots) M.k (M.logK + 1) 1 M.entry
  { M with entry := upd w.2 0 (keys C M.slots w.1, w.1) }

/-- `make_array_sentinel`, `pq_int_merger.h:118-123` (the slot becomes unallocated), `pq_ext_merger.h:240-243`
(`make_inf` only). -/
def mkSentinel (p : MP) (s : Slot α) : Slot α :=
  if p.ext then { s with cur := [] } else { cur := [], bids := [], alloc := false }

/-- The loops that make slots sentinels and push those below `arity` on the free stack, `pq_mergers.h:466-471` and
`:534-540`; the latter asserts that the slot is not allocated (`chk`). -/
def sentLoop (p : MP) (chk : Bool) : List Nat → (Nat → Slot α) → List Nat → Option ((Nat → Slot α) × List Nat)
  | [], sl, fr => some (sl, fr)
  | i :: is, sl, fr =>
    if chk && (sl i).alloc then none
    else if i < p.arity then
      match pushFree p i fr with
      | none => none
      | some fr' => sentLoop p chk is (upd sl i (mkSentinel p (sl i))) fr'
    else sentLoop p chk is (upd sl i (mkSentinel p (sl i))) fr

/-- `double_k`, `pq_mergers.h:457-484`. -/
def doubleK (p : MP) (C : Cmp α) (M : Merger α) : Option (Merger α) :=
  if M.k = 0 ∨ ¬ M.k < p.arity ∨ M.free ≠ [] ∨ p.nslots ≤ 2 * M.k - 1 then none
  else
    match sentLoop p false (List.range' M.k M.k).reverse M.slots M.free with
    | none => none
    | some (sl, fr) =>
      if fr = [] ∨ p.maxArity < M.k * 2 then none
      else some (rebuild C { M with k := M.k * 2, logK := M.logK + 1, slots := sl, free := fr })

/-- `new_player`, `pq_mergers.h:315-328`. -/
def newPlayer (p : MP) (C : Cmp α) (M : Merger α) : Option (Nat × Merger α) :=
  match M.free with
  | i :: fr => some (i, { M with free := fr })
  | [] =>
    match doubleK p C M with
    | none => none
    | some M' =>
      match M'.free with
      | [] => none
      | i :: fr => some (i, { M' with free := fr })

/-- `is_space_available`, `pq_mergers.h:336-339`. -/
def spaceAvail (p : MP) (M : Merger α) : Bool := decide (M.k < p.arity) || !M.free.isEmpty

/-- The compaction loop of `compact_tree`, `pq_mergers.h:492-519`, with `swap_arrays` (`pq_int_merger.h:108-114`,
`pq_ext_merger.h:234-237`). -/
def compactLoop (C : Cmp α) : List Nat → (Nat → Slot α) → Nat → Option ((Nat → Slot α) × Nat)
  | [], sl, le => some (sl, le)
  | pos :: is, sl, le =>
    if !(sl pos).isEmpty C then
      if !(sl pos).alloc then none
      else if pos ≠ le then
        if (sl le).alloc then none
        else compactLoop C is (upd (upd sl le (sl pos)) pos (sl le)) (le + 1)
      else compactLoop C is sl (le + 1)
    else compactLoop C is sl le

/-- `while ((k > 1) && last_empty <= (k / 2)) { k /= 2; logK--; }`, `pq_mergers.h:522-526`. -/
def halve (le : Nat) : Nat → Nat → Nat × Nat
  | 0, k => (k, 0)
  | L + 1, k => if k > 1 ∧ le ≤ k / 2 then halve le L (k / 2) else (k, L + 1)

/-- `compact_tree`, `pq_mergers.h:487-546`. -/
def compact (p : MP) (C : Cmp α) (M : Merger α) : Option (Merger α) :=
  if M.logK = 0 then none
  else
    match compactLoop C (List.range M.k) M.slots 0 with
    | none => none
    | some (sl, le) =>
      let kk := halve le M.logK M.k
      match sentLoop p true (List.range' le (kk.1 - le)) sl [] with
      | none => none
      | some (sl', fr) => some (rebuild C { M with k := kk.1, logK := kk.2, slots := sl', free := fr })

/-- `maybe_compact`, `pq_mergers.h:549-571`. -/
def maybeCompact (p : MP) (C : Cmp α) (M : Merger α) : Option (Merger α) :=
  let used := M.k - M.free.length
  let trigger := M.k - (3 * M.k / 5)
  if M.k > 1 ∧ (used ≤ trigger ∨ (M.k = 4 ∧ M.free ≠ [] ∧ (M.slots 3).isEmpty C = false)) then compact p C M
  else some M

/-- `free_array`, `pq_int_merger.h:126-144`, `pq_ext_merger.h:246-256`. -/
def freeArray (p : MP) (M : Merger α) (i : Nat) : Option (Merger α) :=
  if p.ext ∧ (M.slots i).alloc = false then none
  else
    match pushFree p i M.free with
    | none => none
    | some fr => some { M with slots := upd M.slots i { (M.slots i) with cur := [], alloc := false }, free := fr }

/-- `if (is_array_empty(i) && is_array_allocated(i)) free_array(i);`, e.g. `pq_mergers.h:696-697`. -/
def freeIf (p : MP) (C : Cmp α) (i : Nat) (M : Merger α) : Option (Merger α) :=
  if (M.slots i).isEmpty C ∧ (M.slots i).alloc then freeArray p M i else some M

def freeIfs (p : MP) (C : Cmp α) : List Nat → Merger α → Option (Merger α)
  | [], M => some M
  | i :: is, M =>
    match freeIf p C i M with
    | none => none
    | some M' => freeIfs p C is M'

/-- `*target = *source_i; ++source_i;`. -/
def take1 (C : Cmp α) (sl : Nat → Slot α) (i : Nat) : Option (α × (Nat → Slot α)) :=
  match (sl i).next with
  | none => none
  | some s' => some ((sl i).deref C, upd sl i s')

/-- The loop of case 0 of `multi_merge`, `pq_mergers.h:690-692`. -/
def copyN (C : Cmp α) : Nat → (Nat → Slot α) → Option (List α × (Nat → Slot α))
  | 0, sl => some ([], sl)
  | n + 1, sl =>
    match take1 C sl 0 with
    | none => none
    | some (x, sl') =>
      match copyN C n sl' with
      | none => none
      | some (xs, sl'') => some (x :: xs, sl'')

/-- `merge2_iterator`, `pq_mergers.h:40-61`. -/
def merge2 (C : Cmp α) : Nat → (Nat → Slot α) → Option (List α × (Nat → Slot α))
  | 0, sl => some ([], sl)
  | n + 1, sl =>
    match take1 C sl (if C.less (keys C sl 0) (keys C sl 1) then 1 else 0) with
    | none => none
    | some (x, sl') =>
      match merge2 C n sl' with
      | none => none
      | some (xs, sl'') => some (x :: xs, sl'')

/-- The label at which `merge3_iterator` starts, `pq_mergers.h:78-101`. -/
def start3 (C : Cmp α) (v : Nat → α) : Nat × Nat × Nat :=
  if C.less (v 1) (v 0) then
    if C.less (v 2) (v 1) then (0, 1, 2)
    else if C.less (v 0) (v 2) then (2, 0, 1) else (0, 2, 1)
  else
    if C.less (v 2) (v 1) then
      if C.less (v 2) (v 0) then (1, 0, 2) else (1, 2, 0)
    else (2, 1, 0)

/-- The `goto` at the end of `Merge3Case(a, b, c)`, `pq_mergers.h:110-114`. -/
def goto3 (C : Cmp α) (v : Nat → α) (a b c : Nat) : Nat × Nat × Nat :=
  if C.less (v b) (v a) then (a, b, c)
  else if C.less (v c) (v a) then (b, a, c)
  else (b, c, a)

/-- The label loop of `merge3_iterator`, `pq_mergers.h:103-123`. -/
def merge3Loop (C : Cmp α) : Nat → Nat × Nat × Nat → (Nat → Slot α) → Option (List α × (Nat → Slot α))
  | 0, _, sl => some ([], sl)
  | n + 1, (a, b, c), sl =>
    match take1 C sl a with
    | none => none
    | some (x, sl') =>
      match merge3Loop C n (goto3 C (keys C sl') a b c) sl' with
      | none => none
      | some (xs, sl'') => some (x :: xs, sl'')

/-- `merge3_iterator`, `pq_mergers.h:69-126`. -/
def merge3 (C : Cmp α) (n : Nat) (sl : Nat → Slot α) : Option (List α × (Nat → Slot α)) :=
  merge3Loop C n (start3 C (keys C sl)) sl

/-- The labels in the order of the `StartMerge4` tests, `pq_mergers.h:157-189`. -/
def labels4 : List (Nat × Nat × Nat × Nat) :=
  [(0,1,2,3), (1,2,3,0), (2,3,0,1), (3,0,1,2),
   (0,3,1,2), (3,1,2,0), (1,2,0,3), (2,0,3,1),
   (0,2,3,1), (2,3,1,0), (3,1,0,2), (1,0,2,3),
   (2,0,1,3), (0,1,3,2), (1,3,2,0), (3,2,0,1),
   (3,0,2,1), (0,2,1,3), (2,1,3,0), (1,3,0,2),
   (1,0,3,2), (0,3,2,1), (3,2,1,0), (2,1,0,3)]

/-- `StartMerge4(a, b, c, d)`, `pq_mergers.h:146-150`. -/
def test4 (C : Cmp α) (v : Nat → α) : Nat × Nat × Nat × Nat → Bool
  | (a, b, c, d) => !(C.less (v a) (v b)) && !(C.less (v b) (v c)) && !(C.less (v c) (v d))

/-- Where `merge4_iterator` starts: the first label that passes its test; control falls into label `s0123` otherwise. -/
def start4 (C : Cmp α) (v : Nat → α) : Nat × Nat × Nat × Nat := (labels4.find? (test4 C v)).getD (0, 1, 2, 3)

/-- The `goto` at the end of `Merge4Case(a, b, c, d)`, `pq_mergers.h:198-211`. -/
def goto4 (C : Cmp α) (v : Nat → α) (a b c d : Nat) : Nat × Nat × Nat × Nat :=
  if C.less (v c) (v a) then
    if C.less (v b) (v a) then (a, b, c, d) else (b, a, c, d)
  else
    if C.less (v d) (v a) then (b, c, a, d) else (b, c, d, a)

/-- The label loop of `merge4_iterator`, `pq_mergers.h:191-241`. -/
def merge4Loop (C : Cmp α) : Nat → Nat × Nat × Nat × Nat → (Nat → Slot α) → Option (List α × (Nat → Slot α))
  | 0, _, sl => some ([], sl)
  | n + 1, (a, b, c, d), sl =>
    match take1 C sl a with
    | none => none
    | some (x, sl') =>
      match merge4Loop C n (goto4 C (keys C sl') a b c d) sl' with
      | none => none
      | some (xs, sl'') => some (x :: xs, sl'')

/-- `merge4_iterator`, `pq_mergers.h:136-245`. -/
def merge4 (C : Cmp α) (n : Nat) (sl : Nat → Slot α) : Option (List α × (Nat → Slot α)) :=
  merge4Loop C n (start4 C (keys C sl)) sl

/-- One comparison on the way up: `(entries, winner key, winner index)`, `pq_mergers.h:601-609` and the macro `TreeStep`
(`:636-648`). -/
def play (C : Cmp α) (i : Nat) (s : (Nat → α × Nat) × α × Nat) : (Nat → α × Nat) × α × Nat :=
  if C.less s.2.1 (s.1 i).1 then (upd s.1 i s.2, s.1 i) else s

/-- `for (i = (winner_index + k) >> 1; i > 0; i >>= 1)`, `pq_mergers.h:598-610`. -/
def climb (C : Cmp α) : Nat → Nat → (Nat → α × Nat) × α × Nat → (Nat → α × Nat) × α × Nat
  | 0, _, s => s
  | fuel + 1, i, s => if i = 0 then s else climb C fuel (i / 2) (play C i s)

/-- `TreeStep(LogK) … TreeStep(1)`, `pq_mergers.h:636-660`. -/
def treeSteps (C : Cmp α) (k : Nat) : List Nat → (Nat → α × Nat) × α × Nat → (Nat → α × Nat) × α × Nat
  | [], s => s
  | t :: ts, s => treeSteps C k ts (play C ((s.2.2 + k) / 2 ^ t) s)

/-- One iteration of the loops of `multi_merge_k` (`pq_mergers.h:583-611`, `unrolled = false`) and of `multi_merge_f`
(`:622-661`): output, advance, free the slot if it ran empty, update the tree. `w` is `winner_index`; the variable
`winner_key` is overwritten before it is used. -/
def treeIter (p : MP) (C : Cmp α) (unrolled : Bool) (M : Merger α) (w : Nat) : Option (α × Merger α × α × Nat) :=
  match take1 C M.slots w with
  | none => none
  | some (x, sl) =>
    let M1 := { M with slots := sl }
    let wk := keys C sl w
    match (if C.isSentinel wk then freeArray p M1 w else some M1) with
    | none => none
    | some M2 =>
      let r := if unrolled then treeSteps C M.k ((List.range M.logK).map (· + 1)) (M2.entry, wk, w)
        else climb C (M.logK + 1) ((w + M.k) / 2) (M2.entry, wk, w)
      some (x, { M2 with entry := r.1 }, r.2)

/-- The output loop; the pair carried along is `(winner_key, winner_index)`. -/
def treeLoop (p : MP) (C : Cmp α) (unrolled : Bool) : Nat → Merger α → α × Nat → Option (List α × Merger α × α × Nat)
  | 0, M, w => some ([], M, w)
  | n + 1, M, w =>
    match treeIter p C unrolled M w.2 with
    | none => none
    | some (x, M', w') =>
      match treeLoop p C unrolled n M' w' with
      | none => none
      | some (xs, M'', w'') => some (x :: xs, M'', w'')

/-- `multi_merge_k` and `multi_merge_f<LogK>` with the final store to `entry[0]`, `pq_mergers.h:574-614`, `:617-664`. -/
def mergeTree (p : MP) (C : Cmp α) (unrolled : Bool) (M : Merger α) (n : Nat) : Option (List α × Merger α) :=
  match treeLoop p C unrolled n M (M.entry 0) with
  | none => none
  | some (xs, M', w) => some (xs, { M' with entry := upd M'.entry 0 w })

/-- A flat merge followed by `rebuild_loser_tree` and the release of the slots that ran empty, `pq_mergers.h:700-738`. -/
def mergeFlat (p : MP) (C : Cmp α) (is : List Nat)
    (f : (Nat → Slot α) → Option (List α × (Nat → Slot α))) (M : Merger α) : Option (List α × Merger α) :=
  match f M.slots with
  | none => none
  | some (xs, sl) =>
    match freeIfs p C is (rebuild C { M with slots := sl }) with
    | none => none
    | some M' => some (xs, M')

/-- Case 0 of `multi_merge`, `pq_mergers.h:681-699`. -/
def mergeOne (p : MP) (C : Cmp α) (M : Merger α) (n : Nat) : Option (List α × Merger α) :=
  if M.k ≠ 1 ∨ (M.entry 0).2 ≠ 0 ∨ M.free ≠ [] then none
  else
    match copyN C n M.slots with
    | none => none
    | some (xs, sl) =>
      match freeIf p C 0 { M with slots := sl, entry := upd M.entry 0 (keys C sl 0, (M.entry 0).2) } with
      | none => none
      | some M' => some (xs, M')

/-- The `switch (logK)` of `loser_tree::multi_merge`, `pq_mergers.h:680-762`. -/
def mergeSwitch (p : MP) (C : Cmp α) (M : Merger α) (n : Nat) : Option (List α × Merger α) :=
  if M.logK = 0 then mergeOne p C M n
  else if M.logK = 1 then (if M.k ≠ 2 then none else mergeFlat p C [0, 1] (merge2 C n) M)
  else if M.logK = 2 then
    (if M.k ≠ 4 then none
     else if (M.slots 3).isEmpty C then mergeFlat p C [0, 1, 2, 3] (merge3 C n) M
     else mergeFlat p C [0, 1, 2, 3] (merge4 C n) M)
  else if M.logK ≤ 10 then mergeTree p C true M n
  else mergeTree p C false M n

/-- `multi_merge(begin, begin + n)`: `int_merger` (`pq_int_merger.h:254-266`), `ext_merger` (`pq_ext_merger.h:410-422`) and
`loser_tree` (`pq_mergers.h:669-769`). -/
def multiMerge (p : MP) (C : Cmp α) (M : Merger α) (n : Nat) : Option (List α × Merger α) :=
  if M.msize < n then none
  else if n = 0 then some ([], M)
  else
    match mergeSwitch p C M n with
    | none => none
    | some (xs, M1) =>
      match maybeCompact p C M1 with
      | none => none
      | some M2 => some (xs, { M2 with msize := M2.msize - n })

/-- `update_on_insert`, `pq_mergers.h:399-446`. Returns the entries, the handed down old winner `(key, index)` and the
mask. For `logK = 0` the C++ code shifts by `logK - 1 = 2^64 - 1`, which is undefined, but does not use the mask. -/
def updateOnInsert (C : Cmp α) (logK : Nat) (newKey : α) (newIndex : Nat) :
    Nat → Nat → (Nat → α × Nat) → (Nat → α × Nat) × (α × Nat) × Nat
  | 0, _, e => (e, e 0, 0)
  | fuel + 1, node, e =>
    if node = 0 then
      (if C.less (e 0).1 newKey then upd e 0 (newKey, newIndex) else e, e 0, 2 ^ (logK - 1))
    else
      let r := updateOnInsert C logK newKey newIndex fuel (node / 2) e
      let loser := r.1 node
      if r.2.1.2 &&& r.2.2 ≠ newIndex &&& r.2.2 then
        let e' := if C.less loser.1 newKey then
            (if C.less r.2.1.1 newKey then upd r.1 node r.2.1 else upd r.1 node (newKey, newIndex))
          else r.1
        (e', loser, r.2.2 / 2)
      else (r.1, r.2.1, r.2.2 / 2)

/-- `tree.update_on_insert((index + tree.k) >> 1, key, index)`, `pq_mergers.h:449-455`. -/
def insertUpdate (C : Cmp α) (M : Merger α) (i : Nat) : Merger α :=
  { M with entry := (updateOnInsert C M.logK (keys C M.slots i) i (M.logK + 1) ((i + M.k) / 2) M.entry).1 }

/-- `int_merger::append_array`, `pq_int_merger.h:206-243`; the array is given by its elements, the sentinel behind them is
checked by the caller's model. -/
def appendArray (p : MP) (C : Cmp α) (M : Merger α) (xs : List α) : Option (Merger α) :=
  match xs with
  | [] => some M
  | x :: t =>
    if C.isSentinel x || C.isSentinel ((x :: t).getLast (by simp)) then none
    else
      match newPlayer p C M with
      | none => none
      | some (i, M1) =>
        if (M1.slots i).alloc then none
        else some (insertUpdate C
          { M1 with slots := upd M1.slots i { cur := x :: t, bids := [], alloc := true }, msize := M1.msize + (x :: t).length } i)

/-- The loop over the blocks in `append_merger`, `pq_ext_merger.h:384-394`. -/
def drain (po : MP) (C : Cmp α) (bs : Nat) : Nat → Merger α → Option (List (List α) × Merger α)
  | 0, O => some ([], O)
  | n + 1, O =>
    match multiMerge po C O bs with
    | none => none
    | some (b, O') =>
      match drain po C bs n O' with
      | none => none
      | some (bl, O'') => some (b :: bl, O'')

/-- `ext_merger::append_merger`, `pq_ext_merger.h:340-405`, with `insert_segment` (`:320-338`): returns the merger and
what is left of the other merger. -/
def appendMerger (p : MP) (C : Cmp α) (M : Merger α) (po : MP) (O : Merger α) (seg : Nat) :
    Option (Merger α × Merger α) :=
  if seg = 0 then some (M, O)
  else
    match newPlayer p C M with
    | none => none
    | some (i, M1) =>
      let nb := seg / p.bs
      let fs := seg % p.bs
      let first := if fs = 0 then p.bs else fs
      let nblocks := if fs = 0 then nb - 1 else nb
      match multiMerge po C O first with
      | none => none
      | some (b, O1) =>
        match drain po C p.bs nblocks O1 with
        | none => none
        | some (bl, O2) =>
          if (M1.slots i).alloc ∨ first = 0 then none
          else some (insertUpdate C
            { M1 with slots := upd M1.slots i { cur := b, bids := bl, alloc := true }, msize := M1.msize + seg } i, O2)

/-- The constructors, `pq_int_merger.h:155-168`, `pq_ext_merger.h:185-195`, `:273-299`, and `loser_tree::initialize`,
`pq_mergers.h:301-309`. The slots of an internal merger beyond the first are not initialised in C++ before `double_k`
makes them sentinels; here they start as empty slots. -/
def Merger.init (C : Cmp α) : Merger α :=
  rebuild C { k := 1, logK := 0, entry := fun _ => (C.minv, 0), slots := fun _ => ⟨[], [], false⟩, free := [0], msize := 0 }

end Stxxl.PQ
