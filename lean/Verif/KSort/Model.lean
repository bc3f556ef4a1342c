import Verif.Sort.Model

/-!
# `ksort`: sorting by integer keys

`include/stxxl/bits/algo/intksort.h` (counting, prefix sums, distribution, small sorts), the run creation of
`include/stxxl/bits/algo/ksort.h`, and `ksort_blocks`.  Arrays are lists; an access outside an array, a shift by a
negative number or by at least the width of the key type, and a division by zero are undefined behaviour (`none`).

Keys are unsigned numbers of `w` bits.  A `type_key` (a key with a pointer to the record, `ksort.h:79-89`) is modelled
by the record itself, whose key is `key x`.
-/

namespace Stxxl.KSort

variable {α : Type}

/-- Comparison of `type_key`s, `ksort.h:91-103`, and `key_comparison`, `ksort.h:342-354`. -/
def klt (key : α → Nat) (a b : α) : Bool := decide (key a < key b)

/-! ## `ilog2_floor`, `ilog2_ceil`: `include/stxxl/bits/common/utils.h:176-192` -/

/-- `while (i >= 256) i >>= 8, p += 8;` (the first argument bounds the iterations) -/
def ilogA : Nat → Nat → Nat → Nat × Nat
  | 0, i, p => (i, p)
  | n + 1, i, p => if i ≥ 256 then ilogA n (i / 256) (p + 8) else (i, p)

/-- `while (i >>= 1) ++p;` -/
def ilogB : Nat → Nat → Nat → Nat
  | 0, _, p => p
  | n + 1, i, p => if i / 2 ≠ 0 then ilogB n (i / 2) (p + 1) else p

/-- `ilog2_floor`: `utils.h:177-184`. -/
def ilog2Floor (i : Nat) : Nat := let r := ilogA i i 0; ilogB r.1 r.1 r.2

/-- `ilog2_ceil`: `utils.h:187-192`. -/
def ilog2Ceil (i : Nat) : Nat := if i ≤ 1 then 0 else ilog2Floor (i - 1) + 1

/-! ## `intksort.h` -/

/-- `(key - offset) >> shift` in `w`-bit unsigned arithmetic; the shift count is an `int`/`unsigned`: undefined unless
`0 ≤ shift < w`.  `intksort.h:36, 67`, `classify_block`, `intksort.h:336`. -/
def bidx (w : Nat) (off : Nat) (shift : Int) (k : Nat) : Option Nat :=
  if 0 ≤ shift ∧ shift < w then some ((k + 2 ^ w - off) % 2 ^ w / 2 ^ shift.toNat) else none

/-- `bucket[i]++`, checked. -/
def inc (bucket : List Nat) (i : Nat) : Option (List Nat) :=
  match bucket[i]? with
  | some c => some (bucket.set i (c + 1))
  | none => none

/-- `count`: `intksort.h:24-45`, after the buckets have been zeroed; also the counting in `classify_block`,
`intksort.h:327-340`. -/
def count (idx : α → Option Nat) : List α → List Nat → Option (List Nat)
  | [], bucket => some bucket
  | x :: xs, bucket =>
    match idx x with
    | none => none
    | some i =>
      match inc bucket i with
      | none => none
      | some bucket => count idx xs bucket

/-- `exclusive_prefix_sum`: `intksort.h:47-57`. -/
def prefixSum : Nat → List Nat → List Nat
  | _, [] => []
  | sum, c :: cs => sum :: prefixSum (sum + c) cs

/-- `classify`: `intksort.h:59-73`.  `b` is the output array. -/
def classify (idx : α → Option Nat) : List α → List α → List Nat → Option (List α × List Nat)
  | [], b, bucket => some (b, bucket)
  | x :: xs, b, bucket =>
    match idx x with
    | none => none
    | some i =>
      match bucket[i]? with
      | none => none
      | some bi => if bi < b.length then classify idx xs (b.set bi x) (bucket.set i (bi + 1)) else none

/-- `sort2`: `intksort.h:75-81`. -/
def sort2 (lt : α → α → Bool) (a b : α) : α × α := if lt b a then (b, a) else (a, b)

/-- `sort3`: `intksort.h:82-126`. -/
def sort3 (lt : α → α → Bool) (a b c : α) : List α :=
  if lt b a then
    if lt c a then
      if lt b c then [b, c, a] else [c, b, a]
    else [b, a, c]
  else
    if lt c a then [c, a, b]
    else if lt c b then [a, c, b] else [a, b, c]

/-- `sort4`: `intksort.h:128-178`. -/
def sort4 (lt : α → α → Bool) (a b c d : α) : List α :=
  let r := sort2 lt a b
  let s := sort2 lt c d
  let a := r.1
  let b := r.2
  let c := s.1
  let d := s.2
  if lt c a then
    if lt d a then [c, d, a, b]
    else if lt d b then [c, a, d, b] else [c, a, b, d]
  else
    if lt c b then
      if lt d b then [a, c, d, b] else [a, c, b, d]
    else [a, b, c, d]

/-- The inner loop of `insertion_sort`, `intksort.h:245-252`: walk left from the end while `t < *(pp - 1)`.  The list is
the part before `p`, reversed; running out of it is reading before the array. -/
def insRev (lt : α → α → Bool) (t : α) : List α → Option (List α)
  | [] => none
  | x :: xs => if lt t x then (insRev lt t xs).map (x :: ·) else some (t :: x :: xs)

/-- One step of `insertion_sort`, `intksort.h:231-255`: insert `t` into the sorted part (reversed). -/
def insStep (lt : α → α → Bool) (srev : List α) (t : α) : Option (List α) :=
  match srev.getLast? with
  | none => none
  | some a => if lt t a then some (srev ++ [t]) else insRev lt t srev

/-- The loop of `insertion_sort`, `intksort.h:226-256`. -/
def insLoop (lt : α → α → Bool) : List α → List α → Option (List α)
  | srev, [] => some srev.reverse
  | srev, t :: ts =>
    match insStep lt srev t with
    | none => none
    | some s => insLoop lt s ts

/-- `insertion_sort`: `intksort.h:226-256`. -/
def insertionSort (lt : α → α → Bool) : List α → Option (List α)
  | [] => some []
  | x :: xs => insLoop lt [x] xs

/-- The `switch` of `cleanup`: `intksort.h:266-303`.  `srt` is `potentially_parallel::sort`. -/
def sortSmall (lt : α → α → Bool) (srt : List α → List α) (l : List α) : Option (List α) :=
  match l with
  | [] => some []
  | [a] => some [a]
  | [a, b] => some [(sort2 lt a b).1, (sort2 lt a b).2]
  | [a, b, c] => some (sort3 lt a b c)
  | [a, b, c, d] => some (sort4 lt a b c d)
  | l => if l.length ≤ 16 then insertionSort lt l else some (srt l)

/-- `cleanup`: `intksort.h:259-306`: sort every bucket; `c` is the start of the current one, the list holds the ends. -/
def cleanup (lt : α → α → Bool) (srt : List α → List α) (b : List α) : Nat → List Nat → Option (List α)
  | _, [] => some b
  | c, e :: es =>
    match sortSmall lt srt ((b.take e).drop c) with
    | none => none
    | some s => cleanup lt srt (b.take c ++ s ++ b.drop e) e es

/-- `l1sort`: `intksort.h:308-325`.  `a` is the input, `b` the old content of the output array. -/
def l1sort (lt : α → α → Bool) (srt : List α → List α) (idx : α → Option Nat) (K : Nat) (a b : List α) : Option (List α) :=
  match count idx a (List.replicate K 0) with
  | none => none
  | some bucket =>
    match classify idx a b (prefixSum 0 bucket) with
    | none => none
    | some (b, bucket) => cleanup lt srt b 0 bucket

/-! ## `ksort.h` -/

/-- The parameters of run creation: width of the key type in bits, elements per block, `sizeof(type_key)`,
`STXXL_L2_SIZE`, raw size of a block. -/
structure RP where
  w : Nat
  B : Nat
  tk : Nat
  L2 : Nat
  raw : Nat

/-- `log_k1`: `ksort.h:208-209`. -/
def RP.logK1 (P : RP) (m2 : Nat) : Nat :=
  ilog2Ceil (if m2 * P.B * P.tk / P.L2 ≠ 0 then m2 * P.B * P.tk / P.L2 else 2)

/-- `log_k2`: `ksort.h:210`. -/
def RP.logK2 (P : RP) (m2 : Nat) : Int := (ilog2Floor (m2 * P.B) : Int) - P.logK1 m2 - 1

/-- `shift1`, `shift2`: `ksort.h:229-230`. -/
def RP.shift1 (P : RP) (m2 : Nat) : Int := (P.w : Int) - P.logK1 m2
def RP.shift2 (P : RP) (m2 : Nat) : Int := P.shift1 m2 - P.logK2 m2

/-- The loop over the buckets, `ksort.h:260-276`: `l1sort` bucket `i` from `refs2` into `refs1`, then `write_out`, which
appends to the output blocks (`ksort.h:118-173`).  The list holds the ends of the buckets. -/
def buckets (lt : α → α → Bool) (srt : List α → List α) (idx2 : Nat → α → Option Nat) (k2 : Nat) (refs1 refs2 : List α) :
    Nat → Nat → List Nat → Option (List α)
  | _, _, [] => some []
  | i, c, e :: es =>
    match l1sort lt srt (idx2 i) k2 ((refs2.take e).drop c) ((refs1.take e).drop c) with
    | none => none
    | some s =>
      match buckets lt srt idx2 k2 refs1 refs2 (i + 1) e es with
      | none => none
      | some out => some (s ++ out)

/-- What `create_runs` does to the elements of one run: `ksort.h:236-276`.  `junk` is the old content of `refs2`.
`int_type(1) << log_k2` is undefined for a negative `log_k2` (`ksort.h:213-214`). -/
def runSort (P : RP) (key : α → Nat) (srt : List α → List α) (m2 : Nat) (junk l : List α) : Option (List α) :=
  if P.logK2 m2 < 0 then none
  else
    let k1 := 2 ^ P.logK1 m2
    let k2 := 2 ^ (P.logK2 m2).toNat
    let idx1 := fun x => bidx P.w 0 (P.shift1 m2) (key x)
    match count idx1 l (List.replicate k1 0) with
    | none => none
    | some bucket1 =>
      match classify idx1 l junk (prefixSum 0 bucket1) with
      | none => none
      | some (refs2, bucket1) =>
        buckets (klt key) srt (fun i x => bidx P.w (2 ^ (P.shift1 m2).toNat * i % 2 ^ P.w) (P.shift2 m2) (key x)) k2 l refs2 0 0 bucket1

open Stxxl.Srt (D Run Pick rdAll delAll writeRun toBlocks runSizes allocRuns phases Par sortWith)

/-- One run of `create_runs`, `ksort.h:231-279`: read the input blocks, delete them, sort, write (the trigger of a block
is the key of its first element; here that element).  `rs` is `runSort`; its junk is as long as the run. -/
def createRun (rs : List α → List α → Option (List α)) (B : Nat) (d : D α) (inp out : List Nat) : Option (Run α × D α) :=
  match rdAll d inp with
  | none => none
  | some xs =>
    match delAll inp d with
    | none => none
    | some d =>
      match rs xs.flatten xs.flatten with
      | none => none
      | some l => writeRun d out (toBlocks B out.length l)

/-- `create_runs`, `ksort.h:175-295`. -/
def createRuns (rs : List α → List α → Option (List α)) (B : Nat) : D α → List Nat → List (List Nat) →
    Option (List (Run α) × D α)
  | d, _, [] => some ([], d)
  | d, inp, out :: outs =>
    match createRun rs B d (inp.take out.length) out with
    | none => none
    | some (r, d) =>
      match createRuns rs B d (inp.drop out.length) outs with
      | none => none
      | some (rs', d) => some (r :: rs', d)

/-- Blocks of a run: `ksort.h:545-550` (`div_ceil(m, 2)`, reduced because of the keys). -/
def RP.m2 (P : RP) (m : Nat) : Nat := (m + 1) / 2 * P.raw / (P.raw + P.B * P.tk)

/-- `ksort_blocks`: `ksort.h:528-700`.  `_n / m2` divides by zero if no block of a run is left.  The phases are those of
`sort_blocks` with comparison by key (vectors not backed by a file). -/
def ksortBlocks (pick : Pick) (P : RP) (key : α → Nat) (srt : List α → List α) (mf : Nat → Nat → Nat) (m : Nat)
    (d : D α) (inp : List Nat) : Option (Run α × D α) :=
  if P.m2 m = 0 then none
  else
    let sizes := runSizes inp.length (P.m2 m)
    let a := allocRuns pick sizes d
    match createRuns (runSort P key srt (P.m2 m)) P.B a.2 inp a.1 with
    | none => none
    | some (runs, d) => phases pick (klt key) P.B (mf sizes.length m) (runs.length + 1) d runs

/-- `ksort(first, last, keyobj, M)`: `ksort.h:728-1035`.  There is no `sort_memory_usage_factor()` here: `q.fac` is 1. -/
def ksort (pick : Pick) (P : RP) (key : α → Nat) (srt : List α → List α) (mf : Nat → Nat → Nat) (q : Par α) (d : D α)
    (vb : List Nat) (fb fo lb lo : Nat) : Option (List Nat × D α) :=
  sortWith pick srt (ksortBlocks pick P key srt mf) q d vb fb fo lb lo

end Stxxl.KSort
