import Verif.Common.Order
/-!
# Model of `include/stxxl/bits/parallel/multiseq_selection.h`

`multiseq_partition` (lines 100-331) splits several sorted sequences at a global rank, `multiseq_selection`
(lines 346-578) finds the element of a global rank. They are the splitters used by the parallel multiway merge
and the parallel sorting of runs.

Conventions. `S : List (List α)` are the sequences `[begin_seqs[i].first, begin_seqs[i].second)`. A result `none`
means that the C++ program performs an undefined operation: it dereferences an iterator outside its sequence,
reads `sample[j]` beyond the vector, or takes `top()` of an empty queue. The arrays `a`, `b` (`new diff_type[m]`)
are functions of the sequence number, and hold naturals: a subtraction that would make an entry negative is
also `none` (stricter than the C++ code, in which `diff_type` is signed).
-/

namespace Stxxl.MultiSeq

/-- `round_up_to_power_of_two` (common/utils.h:254-262) for a 64-bit integral type: `--n`, then `n |= n >> k` for
k = 1, 2, 4, 8, 16, 32, then `++n`. On unbounded naturals (no overflow of the last increment). -/
def roundUp (n : Nat) : Nat :=
  let n := n - 1
  let n := n ||| n >>> 1
  let n := n ||| n >>> 2
  let n := n ||| n >>> 4
  let n := n ||| n >>> 8
  let n := n ||| n >>> 16
  let n := n ||| n >>> 32
  n + 1

variable {α : Type}

/-- `S(i)[k]` (line 169; 400): `none` if it is outside the sequence. -/
def rd (S : List (List α)) (i k : Nat) : Option α := (S[i]?).bind fun s => s[k]?

/-- `seqlen[i]` (lines 145-153; 376-384). -/
def slen (S : List (List α)) (i : Nat) : Nat := (S[i]?.getD []).length

/-- `N`, the number of elements (lines 128-134; 367-370). -/
def total (S : List (List α)) : Nat := (S.map List.length).sum

/-- `nmax` (lines 147-153; 378-384). -/
def nmax (S : List (List α)) : Nat := S.foldl (fun m s => Nat.max m s.length) 0

/-- `lexicographic::operator()` (lines 46-57). `lexicographic_rev` (lines 71-82) is the same with swapped arguments. -/
def lcomp (lt : α → α → Bool) (p q : α × Nat) : Bool :=
  if lt p.1 q.1 then true
  else if lt q.1 p.1 then false
  else decide (p.2 < q.2)

/-- One insertion step of the sort below. -/
def insertBy (lt : α → α → Bool) (x : α × Nat) : List (α × Nat) → List (α × Nat)
  | [] => [x]
  | y :: l => if lcomp lt x y then x :: y :: l else y :: insertBy lt x l

/-- `std::sort(sample.begin(), sample.end(), lcomp)` (line 182; 411). Simplification: an insertion sort stands for
the library's sort; the order is total on the samples (they have different sequence numbers), so the result is the same. -/
def sortBy (lt : α → α → Bool) : List (α × Nat) → List (α × Nat)
  | [] => []
  | x :: l => insertBy lt x (sortBy lt l)

/-- The priority queues (lines 240-242, 264-266; 469-471, 493-495): a multiset from which the best element is taken.
`better p q` means that `p` comes before `q`. `none` for an empty queue. -/
def popBest (better : α × Nat → α × Nat → Bool) : List (α × Nat) → Option ((α × Nat) × List (α × Nat))
  | [] => none
  | x :: l => match popBest better l with
    | none => some (x, [])
    | some (y, r) => if better y x then some (y, x :: r) else some (x, y :: r)

/-- The two arrays `a` and `b` (line 159; 390). -/
structure Arr where
  a : Nat → Nat
  b : Nat → Nat

/-- Array update. -/
def upd (f : Nat → Nat) (i v : Nat) : Nat → Nat := fun j => if j = i then v else f j

/-- First sampling loop (lines 175-180; 406-409): the samples of the sequences that are long enough. -/
def samplesLong (S : List (List α)) (n : Nat) : List Nat → Option (List (α × Nat))
  | [] => some []
  | i :: is =>
    if n < slen S i then
      match rd S i n, samplesLong S n is with
      | some v, some r => some ((v, i) :: r)
      | _, _ => none
    else samplesLong S n is

/-- Second sampling loop (lines 184-190; 413-417): the others, with the dummy element `S(i)[0]`. -/
def samplesShort (S : List (List α)) (n : Nat) : List Nat → Option (List (α × Nat))
  | [] => some []
  | i :: is =>
    if slen S i ≤ n then
      match rd S i 0, samplesShort S n is with
      | some v, some r => some ((v, i) :: r)
      | _, _ => none
    else samplesShort S n is

/-- Second initial loop (lines 197-198; 424-425): `b[sample[j].second] -= n + 1` for the remaining samples. -/
def initRight (n : Nat) : List (α × Nat) → Arr → Option Arr
  | [], A => some A
  | x :: l, A =>
    if A.b x.2 < n + 1 then none
    else initRight n l { A with b := upd A.b x.2 (A.b x.2 - (n + 1)) }

/-- First initial loop (lines 194-196; 421-423), on the remaining samples and the remaining local rank, followed by the
second. Reading `sample[j]` past the end of the vector is `none`. -/
def initLeft (S : List (List α)) (n : Nat) : Nat → List (α × Nat) → Arr → Option Arr
  | 0, l, A => initRight n l A
  | _ + 1, [], _ => none
  | k + 1, x :: l, A =>
    if n + 1 ≤ slen S x.2 then initLeft S n k l { A with a := upd A.a x.2 (A.a x.2 + (n + 1)) }
    else initRight n (x :: l) A

/-- The loop computing `lmax` (lines 206-220; 433-449, and again 523-538 for `maxleft`). The partition replaces
the candidate unless the new value is less ("favor rear sequences", line 216), the selection only if the new value is
greater (line 445): `rear` tells which. -/
def maxLeft (lt : α → α → Bool) (rear : Bool) (S : List (List α)) (A : Arr) : List Nat → Option α → Option (Option α)
  | [], m => some m
  | i :: is, m =>
    if 0 < A.a i then
      match rd S i (A.a i - 1) with
      | none => none
      | some v =>
        match m with
        | none => maxLeft lt rear S A is (some v)
        | some w =>
          if (if rear then !lt v w else lt w v) then maxLeft lt rear S A is (some v)
          else maxLeft lt rear S A is (some w)
    else maxLeft lt rear S A is m

/-- The loop computing `minright` (lines 539-551). -/
def minRight (lt : α → α → Bool) (S : List (List α)) (A : Arr) : List Nat → Option α → Option (Option α)
  | [], m => some m
  | i :: is, m =>
    if A.b i < slen S i then
      match rd S i (A.b i) with
      | none => none
      | some v =>
        match m with
        | none => minRight lt S A is (some v)
        | some w => if lt v w then minRight lt S A is (some v) else minRight lt S A is (some w)
    else minRight lt S A is m

/-- The condition `lmax && middle < seqlen[i] && comp(S(i)[middle], *lmax)` (line 225; 454), `middle = (b[i]+a[i])/2`. -/
def goesLeft (lt : α → α → Bool) (S : List (List α)) (lmax : Option α) (i middle : Nat) : Bool :=
  match lmax with
  | none => false
  | some w => if middle < slen S i then
      match rd S i middle with
      | none => false
      | some v => lt v w
    else false

/-- The loop over the midpoints (lines 222-229; 451-458). -/
def midLoop (lt : α → α → Bool) (S : List (List α)) (lmax : Option α) (n : Nat) : List Nat → Arr → Option Arr
  | [], A => some A
  | i :: is, A =>
    if goesLeft lt S lmax i ((A.b i + A.a i) / 2) then
      midLoop lt S lmax n is { A with a := upd A.a i (Nat.min (A.a i + n + 1) (slen S i)) }
    else if A.b i < n + 1 then none
    else midLoop lt S lmax n is { A with b := upd A.b i (A.b i - (n + 1)) }

/-- `leftsize` (lines 231-233; 460-462). -/
def leftSize (A : Arr) (n m : Nat) : Nat := ((List.range m).map fun i => A.a i / (n + 1)).sum

/-- Filling the queue of right neighbours (lines 244-247; 473-476). -/
def pushRights (S : List (List α)) (A : Arr) : List Nat → Option (List (α × Nat))
  | [] => some []
  | i :: is =>
    if A.b i < slen S i then
      match rd S i (A.b i), pushRights S A is with
      | some v, some r => some ((v, i) :: r)
      | _, _ => none
    else pushRights S A is

/-- Filling the queue of left neighbours (lines 268-271; 497-500). -/
def pushLefts (S : List (List α)) (A : Arr) : List Nat → Option (List (α × Nat))
  | [] => some []
  | i :: is =>
    if 0 < A.a i then
      match rd S i (A.a i - 1), pushLefts S A is with
      | some v, some r => some ((v, i) :: r)
      | _, _ => none
    else pushLefts S A is

/-- "move to the left, find smallest" (lines 249-259; 478-488). The counter is `skew`. -/
def moveLeft (lt : α → α → Bool) (S : List (List α)) (n : Nat) : Nat → Arr → List (α × Nat) → Option Arr
  | 0, A, _ => some A
  | k + 1, A, pq =>
    match popBest (lcomp lt) pq with
    | none => some A
    | some (x, pq) =>
      let A := { a := upd A.a x.2 (Nat.min (A.a x.2 + n + 1) (slen S x.2)), b := upd A.b x.2 (A.b x.2 + n + 1) : Arr }
      if A.b x.2 < slen S x.2 then
        match rd S x.2 (A.b x.2) with
        | none => none
        | some v => moveLeft lt S n k A ((v, x.2) :: pq)
      else moveLeft lt S n k A pq

/-- "move to the right, find greatest" (lines 273-283; 502-512). The counter is `-skew`; `top()` of an empty queue is `none`. -/
def moveRight (lt : α → α → Bool) (S : List (List α)) (n : Nat) : Nat → Arr → List (α × Nat) → Option Arr
  | 0, A, _ => some A
  | k + 1, A, pq =>
    match popBest (fun p q => lcomp lt q p) pq with
    | none => none
    | some (x, pq) =>
      if A.a x.2 < n + 1 ∨ A.b x.2 < n + 1 then none
      else
        let A := { a := upd A.a x.2 (A.a x.2 - (n + 1)), b := upd A.b x.2 (A.b x.2 - (n + 1)) : Arr }
        if 0 < A.a x.2 then
          match rd S x.2 (A.a x.2 - 1) with
          | none => none
          | some v => moveRight lt S n k A ((v, x.2) :: pq)
        else moveRight lt S n k A pq

/-- The skew correction (lines 235-284; 464-513). -/
def fixSkew (lt : α → α → Bool) (S : List (List α)) (rank n : Nat) (A : Arr) : Option Arr :=
  let ls := leftSize A n S.length
  let want := rank / (n + 1)
  if ls < want then
    match pushRights S A (List.range S.length) with
    | none => none
    | some pq => moveLeft lt S n (want - ls) A pq
  else if want < ls then
    match pushLefts S A (List.range S.length) with
    | none => none
    | some pq => moveRight lt S n (ls - want) A pq
  else some A

/-- The body of the refinement loop, after `n /= 2` (lines 206-284; 433-513). -/
def refineStep (lt : α → α → Bool) (rear : Bool) (S : List (List α)) (rank n : Nat) (A : Arr) : Option Arr :=
  match maxLeft lt rear S A (List.range S.length) none with
  | none => none
  | some lmax =>
    match midLoop lt S lmax n (List.range S.length) A with
    | none => none
    | some A => fixSkew lt S rank n A

/-- `while (n > 0) { n /= 2; ... }` (lines 202-285; 429-514). The first argument bounds the number of iterations; the callers
pass `n`, which is enough because `n` is at least halved every time. -/
def refine (lt : α → α → Bool) (rear : Bool) (S : List (List α)) (rank : Nat) : Nat → Nat → Arr → Option Arr
  | 0, _, A => some A
  | fuel + 1, n, A =>
    if n = 0 then some A
    else match refineStep lt rear S rank (n / 2) A with
      | none => none
      | some A => refine lt rear S rank fuel (n / 2) A

/-- `l` (line 157; 388). -/
def padLen (S : List (List α)) : Nat := roundUp (nmax S + 1) - 1

/-- The initial partition (lines 159-198; 390-425). -/
def initial (lt : α → α → Bool) (S : List (List α)) (rank : Nat) : Option Arr :=
  let l := padLen S
  let n := l / 2
  match samplesLong S n (List.range S.length), samplesShort S n (List.range S.length) with
  | some s1, some s2 => initLeft S n (rank / l) (sortBy lt s1 ++ s2) { a := fun _ => 0, b := fun _ => l }
  | _, _ => none

/-- The common part of both functions: the final arrays. -/
def split (lt : α → α → Bool) (rear : Bool) (S : List (List α)) (rank : Nat) : Option Arr :=
  match initial lt S rank with
  | none => none
  | some A => refine lt rear S rank (padLen S / 2) (padLen S / 2) A

/-- `multiseq_partition` (lines 100-331): the offsets of the splitting points in the sequences. For `rank > N` the
program is outside its assertion (line 143): `none`. The computation of `maxleft` and `minright` (lines 294-323) is
dead code in this function and left out. -/
def partition (lt : α → α → Bool) (S : List (List α)) (rank : Nat) : Option (List Nat) :=
  if rank = total S then some (S.map List.length)
  else if total S < rank then none
  else match split lt true S rank with
    | none => none
    | some A => some ((List.range S.length).map A.a)

/-- Outcome of `multiseq_selection`. -/
inductive Sel (α : Type) where
  /-- `throw std::exception()` (line 374). -/
  | thrown
  /-- The value returned and the value stored in `offset`. -/
  | found (v : α) (offset : Int)
  deriving DecidableEq

/-- `std::lower_bound(first, last, v, comp) - first` by its contract on sorted input: the number of leading elements less
than `v` (line 568). -/
def lowerBound (lt : α → α → Bool) (s : List α) (v : α) : Nat := (s.takeWhile fun x => lt x v).length

/-- The offset (lines 556-571). -/
def selOffset (lt : α → α → Bool) (S : List (List α)) (A : Arr) (maxleft : Option α) (v : α) : Int :=
  let sum := ((List.range S.length).map fun i => (A.a i : Int) - (lowerBound lt (S[i]?.getD []) v : Int)).sum
  match maxleft with
  | none => 0
  | some w => if lt v w then 0 else sum

/-- `multiseq_selection` (lines 346-578). Dereferencing a null `minright` is `none`. -/
def selection (lt : α → α → Bool) (S : List (List α)) (rank : Nat) : Option (Sel α) :=
  if S.length = 0 ∨ total S = 0 ∨ total S ≤ rank then some .thrown
  else match split lt false S rank with
    | none => none
    | some A =>
      match maxLeft lt false S A (List.range S.length) none, minRight lt S A (List.range S.length) none with
      | some maxleft, some (some v) => some (.found v (selOffset lt S A maxleft v))
      | _, _ => none

end Stxxl.MultiSeq
