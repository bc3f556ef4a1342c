import Verif.MultiSeq.Model
/-!
# Model of `include/stxxl/bits/parallel/multiway_merge.h`

with `losertree.h` and `merge.h` from the same directory.

Conventions. `S : List (List α)` are the sequences: `S[i]` is the list of the elements in
`[seqs_begin[i].first, seqs_begin[i].second)`, so advancing `seqs_begin[i].first` drops an element. A procedure returns the elements it
writes to `target` (in order) together with the sequences that are left, or `none` if the C++ program performs an undefined operation:
it reads at or past the end of a sequence, or through a null or invalid pointer.
-/

namespace Stxxl.MwMerge

open MultiSeq (roundUp)

variable {α : Type}

/-- What a merge procedure delivers. -/
abbrev Res (α : Type) := Option (List α × List (List α))

/-- Put `x` in front of the output. -/
def Res.push (x : α) : Res α → Res α
  | none => none
  | some (o, S) => some (x :: o, S)

/-- Put `l` in front of the output. -/
def Res.prepend (l : List α) : Res α → Res α
  | none => none
  | some (o, S) => some (l ++ o, S)

/-- The remaining elements of sequence `i`. -/
def hd (S : List (List α)) (i : Nat) : List α := S[i]?.getD []

/-! ### Two sequences: `merge_advance` (merge.h:114-160, 175-184) -/

/-- `merge_advance_movc` (merge.h:114-160): the result is the output and what is left of both sequences. The final
`std::copy(begin, begin + max_length)` is `none` if the sequence is shorter than that. -/
def mergeAdv (lt : α → α → Bool) : Nat → List α → List α → Option (List α × List α × List α)
  | n, [], b => if n ≤ b.length then some (b.take n, [], b.drop n) else none
  | n, x :: a, [] => if n ≤ (x :: a).length then some ((x :: a).take n, (x :: a).drop n, []) else none
  | 0, x :: a, y :: b => some ([], x :: a, y :: b)
  | n + 1, x :: a, y :: b =>
    if lt y x then
      match mergeAdv lt n (x :: a) b with
      | none => none
      | some (o, a', b') => some (y :: o, a', b')
    else
      match mergeAdv lt n a (y :: b) with
      | none => none
      | some (o, a', b') => some (x :: o, a', b')

/-- The call on sequences number `i` and `j` (multiway_merge.h:503-526 and the case of two sequences in `sequential_multiway_merge`). -/
def merge2 (lt : α → α → Bool) (S : List (List α)) (i j n : Nat) : Res α :=
  match mergeAdv lt n (hd S i) (hd S j) with
  | none => none
  | some (o, a, b) => some (o, (S.set i a).set j b)

/-! ### Three and four sequences -/

/-- The comparison operator chosen in a `STXXL_MERGE…CASE`. -/
inductive Op where
  | le
  | lt
deriving DecidableEq

/-- A comparison of two iterators; `none` is a read past the end. -/
abbrev Cmp (α : Type) := Op → List α → List α → Option Bool

/-- `guarded_iterator`, `operator <` (lines 124-131) and `operator <=` (lines 139-146). -/
def guarded (lt : α → α → Bool) : Cmp α
  | .lt, [], b => some b.isEmpty
  | .lt, _ :: _, [] => some true
  | .lt, x :: _, y :: _ => some (lt x y)
  | .le, a, [] => some (!a.isEmpty)
  | .le, [], _ :: _ => some false
  | .le, x :: _, y :: _ => some (!lt y x)

/-- `unguarded_iterator`, `operator <` (lines 212-216) and `operator <=` (lines 223-226). -/
def unguarded (lt : α → α → Bool) : Cmp α
  | .lt, x :: _, y :: _ => some (lt x y)
  | .le, x :: _, y :: _ => some (!lt y x)
  | _, _, _ => none

/-- `if (p) A else B`. -/
def iff' {β : Type} (p : Option Bool) (A B : Option β) : Option β :=
  match p with
  | none => none
  | some true => A
  | some false => B

/-- `STXXL_MERGE3CASE(a, b, c, c0, c1)` (lines 440-445): the operators of the six labels. -/
def table3 : Nat × Nat × Nat → Option (Op × Op)
  | (0, 1, 2) => some (.le, .le)
  | (1, 2, 0) => some (.le, .lt)
  | (2, 0, 1) => some (.lt, .lt)
  | (1, 0, 2) => some (.lt, .le)
  | (0, 2, 1) => some (.le, .le)
  | (2, 1, 0) => some (.lt, .lt)
  | _ => none

/-- The goto machine of `multiway_merge_3_variant` (lines 429-445) at label `s a b c`; `n` is `length`. The length is checked before
the comparisons. -/
def run3 (cmp : Cmp α) : Nat → Nat × Nat × Nat → List (List α) → Res α
  | 0, _, S => some ([], S)
  | n + 1, (a, b, c), S =>
    match hd S a with
    | [] => none
    | x :: xs =>
      let S := S.set a xs
      Res.push x <|
        if n = 0 then some ([], S)
        else
          match table3 (a, b, c) with
          | none => none
          | some (c0, c1) =>
            iff' (cmp c0 (hd S a) (hd S b)) (run3 cmp n (a, b, c) S) <|
            iff' (cmp c1 (hd S a) (hd S c)) (run3 cmp n (b, a, c) S) <|
            run3 cmp n (b, c, a) S

/-- The initial decision (lines 407-427). -/
def start3 (cmp : Cmp α) (S : List (List α)) : Option (Nat × Nat × Nat) :=
  iff' (cmp .le (hd S 0) (hd S 1))
    (iff' (cmp .le (hd S 1) (hd S 2)) (some (0, 1, 2))
      (iff' (cmp .lt (hd S 2) (hd S 0)) (some (2, 0, 1)) (some (0, 2, 1))))
    (iff' (cmp .le (hd S 1) (hd S 2))
      (iff' (cmp .le (hd S 0) (hd S 2)) (some (1, 0, 2)) (some (1, 2, 0)))
      (some (2, 1, 0)))

/-- `multiway_merge_3_variant` (lines 379-464). -/
def merge3 (cmp : Cmp α) (S : List (List α)) (n : Nat) : Res α :=
  if n = 0 then some ([], S)
  else match start3 cmp S with
    | none => none
    | some l => run3 cmp n l S

/-- `STXXL_MERGE4CASE(a, b, c, d, c0, c1, c2)` (lines 628-651): the operators of the 24 labels. -/
def table4 : Nat × Nat × Nat × Nat → Option (Op × Op × Op)
  | (0, 1, 2, 3) => some (.le, .le, .le)
  | (0, 1, 3, 2) => some (.le, .le, .le)
  | (0, 2, 1, 3) => some (.le, .le, .le)
  | (0, 2, 3, 1) => some (.le, .le, .le)
  | (0, 3, 1, 2) => some (.le, .le, .le)
  | (0, 3, 2, 1) => some (.le, .le, .le)
  | (1, 0, 2, 3) => some (.lt, .le, .le)
  | (1, 0, 3, 2) => some (.lt, .le, .le)
  | (1, 2, 0, 3) => some (.le, .lt, .le)
  | (1, 2, 3, 0) => some (.le, .le, .lt)
  | (1, 3, 0, 2) => some (.le, .lt, .le)
  | (1, 3, 2, 0) => some (.le, .le, .lt)
  | (2, 0, 1, 3) => some (.lt, .lt, .le)
  | (2, 0, 3, 1) => some (.lt, .le, .lt)
  | (2, 1, 0, 3) => some (.lt, .lt, .le)
  | (2, 1, 3, 0) => some (.lt, .le, .lt)
  | (2, 3, 0, 1) => some (.le, .lt, .lt)
  | (2, 3, 1, 0) => some (.le, .lt, .lt)
  | (3, 0, 1, 2) => some (.lt, .lt, .lt)
  | (3, 0, 2, 1) => some (.lt, .lt, .lt)
  | (3, 1, 0, 2) => some (.lt, .lt, .lt)
  | (3, 1, 2, 0) => some (.lt, .lt, .lt)
  | (3, 2, 0, 1) => some (.lt, .lt, .lt)
  | (3, 2, 1, 0) => some (.lt, .lt, .lt)
  | _ => none

/-- The goto machine of `multiway_merge_4_variant` (lines 616-651) at label `s a b c d`. The length is checked at the beginning of the
case, after the comparisons of the previous one. -/
def run4 (cmp : Cmp α) : Nat → Nat × Nat × Nat × Nat → List (List α) → Res α
  | 0, _, S => some ([], S)
  | n + 1, (a, b, c, d), S =>
    match hd S a with
    | [] => none
    | x :: xs =>
      let S := S.set a xs
      Res.push x <|
        match table4 (a, b, c, d) with
        | none => none
        | some (c0, c1, c2) =>
          iff' (cmp c0 (hd S a) (hd S b)) (run4 cmp n (a, b, c, d) S) <|
          iff' (cmp c1 (hd S a) (hd S c)) (run4 cmp n (b, a, c, d) S) <|
          iff' (cmp c2 (hd S a) (hd S d)) (run4 cmp n (b, c, a, d) S) <|
          run4 cmp n (b, c, d, a) S

/-- `STXXL_DECISION(a, b, c, d)` (lines 586-592). -/
def decision (cmp : Cmp α) (S : List (List α)) (a b c d : Nat) : Option (Nat × Nat × Nat × Nat) :=
  iff' (cmp .lt (hd S d) (hd S a)) (some (d, a, b, c)) <|
  iff' (cmp .lt (hd S d) (hd S b)) (some (a, d, b, c)) <|
  iff' (cmp .lt (hd S d) (hd S c)) (some (a, b, d, c)) <|
  some (a, b, c, d)

/-- The initial decision (lines 594-614). -/
def start4 (cmp : Cmp α) (S : List (List α)) : Option (Nat × Nat × Nat × Nat) :=
  iff' (cmp .le (hd S 0) (hd S 1))
    (iff' (cmp .le (hd S 1) (hd S 2)) (decision cmp S 0 1 2 3)
      (iff' (cmp .lt (hd S 2) (hd S 0)) (decision cmp S 2 0 1 3) (decision cmp S 0 2 1 3)))
    (iff' (cmp .le (hd S 1) (hd S 2))
      (iff' (cmp .le (hd S 0) (hd S 2)) (decision cmp S 1 0 2 3) (decision cmp S 1 2 0 3))
      (decision cmp S 2 1 0 3))

/-- `multiway_merge_4_variant` (lines 557-673). -/
def merge4 (cmp : Cmp α) (S : List (List α)) (n : Nat) : Res α :=
  if n = 0 then some ([], S)
  else match start4 cmp S with
    | none => none
    | some l => run4 cmp n l S

/-! ### Merging without checks for the end: the `…_combined` procedures -/

/-- The first loop of `prepare_unguarded` (lines 254-283), on the remaining sequences: `s` is the number of the first of them, `min`
the least last element so far and `m` its sequence. `inl` is an empty sequence (`return -1`). -/
def minLast (lt : α → α → Bool) : Nat → List (List α) → α → Nat → Nat ⊕ (α × Nat)
  | _, [], min, m => .inr (min, m)
  | s, l :: ls, min, m =>
    match l.getLast? with
    | none => .inl s
    | some v => if lt v min then minLast lt (s + 1) ls v s else minLast lt (s + 1) ls min m

/-- The elements from the splitting point on, in sequence `s` (lines 285-307): `std::upper_bound` if `Stable` and
`s ≤ min_sequence`, otherwise `std::lower_bound`. Simplification: on a sorted sequence the number of elements before the bound is
the number of elements not greater (less) than `min`. -/
def overhangOf (lt : α → α → Bool) (stable : Bool) (min : α) (m s : Nat) (l : List α) : Nat :=
  l.length - l.countP fun x => if stable && decide (s ≤ m) then !lt min x else lt x min

/-- `prepare_unguarded<Stable>` (lines 238-309): `min_sequence`, and the overhang (`none` for `-1`). -/
def prepare (lt : α → α → Bool) (stable : Bool) : List (List α) → Nat × Option Nat
  | [] => (0, none)
  | l :: ls =>
    match l.getLast? with
    | none => (0, none)
    | some v =>
      match minLast lt 1 ls v 0 with
      | .inl s => (s, none)
      | .inr (min, m) => (m, some (((l :: ls).mapIdx fun s l => overhangOf lt stable min m s l).sum))

/-- `total_length`, the loops of lines 482-484, 694-696, 1148-1150. -/
def total (S : List (List α)) : Nat := (S.map List.length).sum

/-- The two sequences that are merged at the end of `multiway_merge_3_combined` (lines 503-526). -/
def others3 : Nat → Option (Nat × Nat)
  | 0 => some (1, 2)
  | 1 => some (0, 2)
  | 2 => some (0, 1)
  | _ => none

/-- `multiway_merge_3_combined` (lines 466-532). -/
def combined3 (lt : α → α → Bool) (S : List (List α)) (n : Nat) : Res α :=
  let (m, ov) := prepare lt true S
  let first : Res α := match ov with
    | some ov => merge3 (unguarded lt) S (Nat.min n (total S - ov))
    | none => some ([], S)
  match first, others3 m with
  | some (o, S), some (i, j) => Res.prepend o (merge2 lt S i j (n - o.length))
  | _, _ => none

/-- `multiway_merge_4_combined` (lines 675-727): the guarded procedure on the three other sequences. -/
def combined4 (lt : α → α → Bool) (S : List (List α)) (n : Nat) : Res α :=
  let (m, ov) := prepare lt true S
  let first : Res α := match ov with
    | some ov => merge4 (unguarded lt) S (Nat.min n (total S - ov))
    | none => some ([], S)
  match first with
  | none => none
  | some (o, S) =>
    match merge3 (guarded lt) (S.eraseIdx m) (n - o.length) with
    | none => none
    | some (o', T) => some (o ++ o', T.insertIdx m (hd S m))

/-! ### `multiway_merge_bubble` (lines 743-911) -/

/-- Should the entry `p` stand before its left neighbour `q`? (lines 787-788, 798, 861-862, 898). -/
def before (lt : α → α → Bool) (stable : Bool) (p q : α × Nat) : Bool :=
  if stable then lt p.1 q.1 || (!lt q.1 p.1 && decide (p.2 < q.2)) else lt p.1 q.1

/-- One pass of the initial bubble sort (lines 786-793, 797-803): from the right end to the left, neighbours are exchanged. -/
def pass (lt : α → α → Bool) (stable : Bool) : List (α × Nat) → List (α × Nat)
  | [] => []
  | x :: l =>
    match pass lt stable l with
    | [] => [x]
    | y :: l' => if before lt stable y x then y :: x :: l' else x :: y :: l'

/-- The initial bubble sort (lines 783-805): pass number `k` works on the entries from `k` on. The first argument is the number of
entries. -/
def bubbleSort (lt : α → α → Bool) (stable : Bool) : Nat → List (α × Nat) → List (α × Nat)
  | 0, l => l
  | f + 1, l =>
    match pass lt stable l with
    | [] => []
    | y :: l' => y :: bubbleSort lt stable f l'

/-- The entry of sequence `i`: its first element, if there is one (lines 774-780). -/
def entry (i : Nat) : List α → List (α × Nat)
  | [] => []
  | x :: _ => [(x, i)]

/-- The entries of all sequences (lines 771-781). -/
def entries (S : List (List α)) : List (α × Nat) := (S.mapIdx entry).flatten

/-- "sink down" (lines 860-867, 897-903): the entry `x` is exchanged with its right neighbour as long as that one should stand before it. -/
def sinkFrom (lt : α → α → Bool) (stable : Bool) (x : α × Nat) : List (α × Nat) → List (α × Nat)
  | [] => [x]
  | y :: l => if before lt stable y x then y :: sinkFrom lt stable x l else x :: y :: l

/-- "sink down" of the first entry. -/
def sink (lt : α → α → Bool) (stable : Bool) : List (α × Nat) → List (α × Nat)
  | [] => []
  | x :: l => sinkFrom lt stable x l

/-- `source[1]`: `junk` if there is no second entry. -/
def src1 (junk : Nat) : List (α × Nat) → Nat
  | [] => junk
  | y :: _ => y.2

/-- The condition of the inner loop (lines 814, 838, 876): `nrp == 1`, or the first entry may be output. -/
def mayTake (lt : α → α → Bool) (strict : Bool) (x : α) : List (α × Nat) → Bool
  | [] => true
  | y :: _ => if strict then lt x y.1 else !lt y.1 x

/-- The inner loop (lines 814-834, 838-857, 876-895), on the first entry `x` of sequence `s` and the other entries `l`; `n` is
`length`. The result is the output, the entries, the sequences and the remaining length. -/
def inner (lt : α → α → Bool) (strict : Bool) (s : Nat) (l : List (α × Nat)) :
    Nat → α → List (List α) → Option (List α × List (α × Nat) × List (List α) × Nat)
  | 0, x, S => some ([], (x, s) :: l, S, 0)
  | n + 1, x, S =>
    if mayTake lt strict x l then
      match hd S s with
      | [] => none  -- `++POS(source[0])` past the end
      | _ :: xs =>
        let S := S.set s xs
        match xs with
        | [] => some ([x], l, S, n)
        | x' :: _ =>
          match inner lt strict s l n x' S with
          | none => none
          | some (o, e, S, n) => some (x :: o, e, S, n)
    else some ([], (x, s) :: l, S, n + 1)

/-- The outer loop (lines 809-869, 873-905). `junk n` is the content of `source[1]` when there is only one entry (it may be
uninitialised; it is read in line 812). `fuel` bounds the number of iterations; running out of it is `none`. -/
def outer (lt : α → α → Bool) (stable : Bool) (junk : Nat → Nat) : Nat → Nat → List (α × Nat) → List (List α) → Res α
  | _, _, [], S => some ([], S)
  | _, 0, _, S => some ([], S)
  | 0, _ + 1, _ :: _, _ => none
  | f + 1, n + 1, x :: l, S =>
    match inner lt (stable && !decide (x.2 < src1 (junk n) l)) x.2 l (n + 1) x.1 S with
    | none => none
    | some (o, e, S, n) => Res.prepend o (outer lt stable junk f n (sink lt stable e) S)

/-- `multiway_merge_bubble<Stable>` (lines 743-911). -/
def bubble (lt : α → α → Bool) (stable : Bool) (junk : Nat → Nat) (S : List (List α)) (n : Nat) : Res α :=
  let e := entries S
  outer lt stable junk n n (bubbleSort lt stable e.length e) S

/-! ### The guarded loser tree (losertree.h:42-304, 479-709) -/

/-- `Loser` (losertree.h:56-64, 497-505). The pointer variant keeps `&key` instead of a copy. -/
structure Node (α : Type) where
  sup : Bool
  source : Int
  key : α

/-- Array update. -/
def upd {β : Type} (f : Nat → β) (i : Nat) (v : β) : Nat → β := fun j => if j = i then v else f j

/-- `init_winner` (losertree.h:146-167, 575-596): `left` wins unless `right` is less; `k` is the (rounded) number of leaves. `fuel`
bounds the depth of the recursion. -/
def initWinner (leftWins : Node α → Node α → Bool) (k : Nat) : Nat → Nat → (Nat → Node α) → Nat × (Nat → Node α)
  | 0, root, t => (root, t)
  | f + 1, root, t =>
    if k ≤ root then (root, t)
    else
      let (l, t) := initWinner leftWins k f (2 * root) t
      let (r, t) := initWinner leftWins k f (2 * root + 1) t
      if leftWins (t l) (t r) then (l, upd t root (t r)) else (r, upd t root (t l))

/-- The condition in `init_winner` of the guarded trees (losertree.h:156-157, 585-586). -/
def leftWinsG (lt : α → α → Bool) (l r : Node α) : Bool := r.sup || (!l.sup && !lt r.key l.key)

/-- The conditions under which `delete_min_insert` promotes the loser `p` over the current player `c`: guarded and not stable
(losertree.h:219-220, 643-644), guarded and stable (losertree.h:283-287, 694-697). -/
def promoteG (lt : α → α → Bool) (stable : Bool) (p c : Node α) : Bool :=
  if stable then
    (c.sup && (!p.sup || decide (p.source < c.source))) ||
      (!c.sup && !p.sup && (lt p.key c.key || (!lt c.key p.key && decide (p.source < c.source))))
  else c.sup || (!p.sup && lt p.key c.key)

/-- The loop of `delete_min_insert` (losertree.h:216-228): from `pos` to the root, the current player and the loser of the node are
exchanged if the loser is promoted. -/
def climb (promote : Node α → Node α → Bool) : Nat → Nat → (Nat → Node α) → Node α → (Nat → Node α) × Node α
  | 0, _, t, c => (t, c)
  | f + 1, pos, t, c =>
    if pos = 0 then (t, c)
    else if promote (t pos) c then climb promote f (pos / 2) (upd t pos c) (t pos)
    else climb promote f (pos / 2) t c

/-- `delete_min_insert(key, sup)`: the winner's place is taken by the new key of the same source; at the end the new winner is stored in
`losers[0]`. -/
def deleteMinInsert (promote : Node α → Node α → Bool) (k : Nat) (t : Nat → Node α) (key : α) (sup : Bool) : Nat → Node α :=
  let source := (t 0).source
  let p := ((k : Int) + source).toNat / 2
  let (t, c) := climb promote k p t ⟨sup, source, key⟩
  upd t 0 c

/-- The main loop of `multiway_merge_loser_tree` (lines 970-987); `arb` is `*arbitrary_element`. -/
def treeLoop (lt : α → α → Bool) (stable : Bool) (k : Nat) (arb : α) : Nat → (Nat → Node α) → List (List α) → Res α
  | 0, _, S => some ([], S)
  | n + 1, t, S =>
    let source := (t 0).source
    if source < 0 then none
    else
      match hd S source.toNat with
      | [] => none
      | x :: xs =>
        let S := S.set source.toNat xs
        let t := match xs with
          | [] => deleteMinInsert (promoteG lt stable) k t arb true
          | y :: _ => deleteMinInsert (promoteG lt stable) k t y false
        Res.push x (treeLoop lt stable k arb n t S)

/-- The leaf of sequence `s` (lines 960-966). -/
def leafNode (arb : α) (i : Nat) : List α → Node α
  | [] => ⟨true, i, arb⟩
  | x :: _ => ⟨false, i, x⟩

/-- `multiway_merge_loser_tree<LT>` (lines 925-990) where `LT` is `LoserTreeCopy` or `LoserTreePointer`. The constructor marks the
leaves without a sequence as `sup` with source `-1` (losertree.h:88-92); everything else in the array is uninitialised (`junk`). If all
sequences are empty, `arbitrary_element` is a null pointer and `*arbitrary_element` undefined. -/
def loserTree (lt : α → α → Bool) (stable : Bool) (junk : Nat → Node α) (S : List (List α)) (n : Nat) : Res α :=
  let k := roundUp S.length
  match S.flatten with
  | [] => none
  | arb :: _ =>
    let t := fun pos => if pos < k then junk pos else
      match S[pos - k]? with
      | some s => leafNode arb (pos - k) s
      | none => ⟨true, -1, (junk pos).key⟩
    let (w, t) := initWinner (leftWinsG lt) k (k + 1) 1 t
    treeLoop lt stable k arb (Nat.min (total S) n) (upd t 0 (t w)) S

/-! ### The unguarded loser tree (losertree.h:712-1074) -/

/-- Which of the two families the element type selects (`loser_tree_traits_unguarded`, lines 1072-1124): integers are copied. -/
inductive Kind where
  | copy
  | pointer
deriving DecidableEq

/-- The condition in `init_winner` of the unguarded trees (losertree.h:790, 961): there is no `sup`. -/
def leftWinsU (lt : α → α → Bool) (l r : Node α) : Bool := !lt r.key l.key

/-- The condition under which `delete_min_insert` of the unguarded trees promotes the loser: not stable (losertree.h:840, 1012), stable and
copying (losertree.h:884), stable with pointers (losertree.h:1052-1053). -/
def promoteU (lt : α → α → Bool) (kind : Kind) (stable : Bool) (p c : Node α) : Bool :=
  if stable then
    match kind with
    | .copy => !lt c.key p.key && decide (p.source < c.source)
    | .pointer => lt p.key c.key || (!lt c.key p.key && decide (p.source < c.source))
  else lt p.key c.key

/-- The main loop of `multiway_merge_loser_tree_unguarded` (lines 1037-1068): after each output the next element of the same sequence is
read, without a check. -/
def treeLoopU (lt : α → α → Bool) (kind : Kind) (stable : Bool) (k : Nat) : Nat → (Nat → Node α) → List (List α) → Res α
  | 0, _, S => some ([], S)
  | n + 1, t, S =>
    let source := (t 0).source
    if source < 0 then none
    else
      match hd S source.toNat with
      | [] => none
      | x :: xs =>
        let S := S.set source.toNat xs
        match xs with
        | [] => none
        | y :: _ => Res.push x (treeLoopU lt kind stable k n (deleteMinInsert (promoteU lt kind stable) k t y false) S)

/-- `multiway_merge_loser_tree_unguarded<LT>` (lines 1005-1070): the sentinel of the leaves without a sequence is the last element of the
first sequence (line 1010), their source is `-1`. The `sup` flag of the nodes is not used. -/
def loserTreeU (lt : α → α → Bool) (kind : Kind) (stable : Bool) (junk : Nat → Node α) (S : List (List α)) (n : Nat) : Res α :=
  let k := roundUp S.length
  match (hd S 0).getLast? with
  | none => none
  | some sentinel =>
    if S.any List.isEmpty then none
    else
      let t := fun pos => if pos < k then junk pos else
        match S[pos - k]? with
        | some s => leafNode sentinel (pos - k) s
        | none => ⟨false, -1, sentinel⟩
      let (w, t) := initWinner (leftWinsU lt) k (k + 1) 1 t
      treeLoopU lt kind stable k (Nat.min (total S) n) (upd t 0 (t w)) S

/-- `multiway_merge_loser_tree_combined<Stable>` (lines 1126-1178). -/
def combinedTree (lt : α → α → Bool) (kind : Kind) (stable : Bool) (junk : Nat → Node α) (S : List (List α)) (n : Nat) : Res α :=
  let (_, ov) := prepare lt stable S
  let first : Res α := match ov with
    | some ov => loserTreeU lt kind stable junk S (Nat.min n (total S - ov))
    | none => some ([], S)
  match first with
  | none => none
  | some (o, S) => Res.prepend o (loserTree lt stable junk S (n - o.length))

/-! ### The switch -/

/-- `SETTINGS::MultiwayMergeAlgorithm` (settings.h:78). -/
inductive Algo where
  | bubble
  | loserTree
  | combined
  | sentinel
deriving DecidableEq

/-- `sequential_multiway_merge<Stable, false>` (lines 1229-1340): for sequences without sentinels `LOSER_TREE_SENTINEL` means
`LOSER_TREE_COMBINED`. `junk1`, `junk2` are the contents of uninitialised memory. -/
def sequential (lt : α → α → Bool) (kind : Kind) (stable : Bool) (algo : Algo) (junk1 : Nat → Nat) (junk2 : Nat → Node α)
    (S : List (List α)) (n : Nat) : Res α :=
  let algo := if algo = .sentinel then .combined else algo
  match S.length with
  | 0 => some ([], S)
  | 1 => if n ≤ (hd S 0).length then some ((hd S 0).take n, S.set 0 ((hd S 0).drop n)) else none
  | 2 => merge2 lt S 0 1 n
  | 3 => if algo = .combined then combined3 lt S n else merge3 (guarded lt) S n
  | 4 => if algo = .combined then combined4 lt S n else merge4 (guarded lt) S n
  | _ =>
    match algo with
    | .bubble => bubble lt stable junk1 S n
    | .loserTree => loserTree lt stable junk2 S n
    | _ => combinedTree lt kind stable junk2 S n

end Stxxl.MwMerge
