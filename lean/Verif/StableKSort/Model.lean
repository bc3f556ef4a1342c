import Verif.KSort.Model

/-!
# `stable_ksort`: distribution sort by integer keys

`include/stxxl/bits/algo/stable_ksort.h`, on top of the primitives of `intksort.h` (`Verif.KSort.Model`).  A vector is the
list of its blocks.  Shifts by a negative number (in the code: wrapped around to at least `2^32 - 64`) or by at least the
width of the key type, accesses outside arrays and reads behind the end of a stream are undefined behaviour.
-/

namespace Stxxl.SKSort

open Stxxl.KSort

variable {α : Type}

/-- How a call ends. -/
inductive Res (β : Type) where
  | ok (x : β)
  /-- `throw bad_parameter` -/
  | throw
  /-- `abort()` -/
  | abort
  /-- undefined behaviour -/
  | undef
deriving Repr

/-- Key width in bits, elements per block, `sizeof(type_key)`, `STXXL_L2_SIZE`, memory in blocks, number of disks. -/
structure Par where
  w : Nat
  B : Nat
  tk : Nat
  L2 : Nat
  m : Nat
  ndisks : Nat

/-- `lognbuckets`: `stable_ksort.h:240-242`. -/
def Par.lognb (P : Par) : Nat := ilog2Floor (P.m - 4 * P.ndisks)

/-- `max_bucket_size_rec` before it is reduced: `stable_ksort.h:288-289`. -/
def Par.maxRec (P : Par) : Nat := (P.m - 2 * P.ndisks) / 2 * P.B

/-- `shift`: `stable_ksort.h:178, 354`. -/
def Par.shift (P : Par) : Int := (P.w : Int) - P.lognb

/-- `log_k1`, `log_k1_k`: `stable_ksort.h:350, 363`, for a bucket of `n` records. -/
def Par.logK1 (P : Par) (n : Nat) : Nat := max (ilog2Ceil (n * P.tk / P.L2)) 1

/-- The loop of `distribute`, `stable_ksort.h:181-196`: every element goes to the end of its bucket (the blocks of a bucket
are filled and written one after the other). -/
def dist (idx : α → Option Nat) : List α → List (List α) → Option (List (List α))
  | [], bs => some bs
  | x :: xs, bs =>
    match idx x with
    | none => none
    | some i =>
      match bs[i]? with
      | none => none
      | some b => dist idx xs (bs.set i (b ++ [x]))

/-- The loop over the parts of a bucket, `stable_ksort.h:394-418`.  The size of the second table depends on `bucket1[i]`,
which is the end of the part, not its size: `log_k2 = ilog2_floor(bucket1[i]) - 1` wraps around if that is at most 1.
`idx2 i log_k2` is the index in the second table. -/
def subs (lt : α → α → Bool) (srt : List α → List α) (idx2 : Nat → Nat → α → Option Nat) (refs1 refs2 : List α) :
    Nat → Nat → List Nat → Option (List α)
  | _, _, [] => some []
  | i, c, e :: es =>
    if e ≤ 1 then none
    else
      match l1sort lt srt (idx2 i (ilog2Floor e - 1)) (2 ^ (ilog2Floor e - 1)) ((refs2.take e).drop c) ((refs1.take e).drop c) with
      | none => none
      | some s =>
        match subs lt srt idx2 refs1 refs2 (i + 1) e es with
        | none => none
        | some out => some (s ++ out)

/-- Sorting bucket `k`, `stable_ksort.h:360-418`.  `shift1` is computed from the largest bucket (`lk1`), the number of
counters that are cleared from this one: counting in another one reads an uninitialised or stale counter.  An empty bucket
makes `nbucket_blocks - 1` wrap around, and the first loop then waits for a request that was never made. -/
def sortBucket (P : Par) (key : α → Nat) (srt : List α → List α) (lk1 : Nat) (k : Nat) (junk l : List α) : Option (List α) :=
  if l.length = 0 then none
  else
    let shift1 : Int := P.shift - lk1
    let off := 2 ^ P.shift.toNat * k % 2 ^ P.w
    let idx1 := fun x => bidx P.w off shift1 (key x)
    match count idx1 l (List.replicate (2 ^ P.logK1 l.length) 0) with
    | none => none
    | some bucket1 =>
      match classify idx1 l junk (prefixSum 0 bucket1) with
      | none => none
      | some (refs2, bucket1) =>
        subs (klt key) srt
          (fun i lk2 x => bidx P.w ((off + 2 ^ shift1.toNat * i) % 2 ^ P.w) (shift1 - lk2) (key x)) l refs2 0 0 bucket1

/-- The loop over the buckets, `stable_ksort.h:360-429`: everything is appended to the output stream. -/
def sortBuckets (P : Par) (key : α → Nat) (srt : List α → List α) (lk1 : Nat) : Nat → List (List α) → Option (List α)
  | _, [] => some []
  | k, l :: ls =>
    match sortBucket P key srt lk1 k l l with
    | none => none
    | some s =>
      match sortBuckets P key srt lk1 (k + 1) ls with
      | none => none
      | some out => some (s ++ out)

/-- `stable_ksort(first, last, M)`: `stable_ksort.h:214-465`.  `vb` are the blocks of the vector; the range starts at offset
`fo` of block `fb` and ends before offset `lo` of block `lb`.

The input stream has the blocks from `first.bid()` to `last.bid() + (first.block_offset() ? 1 : 0)`
(`stable_ksort.h:148-149`); opening it on blocks that do not exist, or reading behind its end, is undefined. -/
def stableKsort (P : Par) (key : α → Nat) (srt : List α → List α) (vb : List (List α)) (fb fo lb lo : Nat) : Res (List (List α)) :=
  if P.m < 4 * P.ndisks + 2 then .throw
  else
    let n := (lb * P.B + lo) - (fb * P.B + fo)
    let eb := lb + if fo ≠ 0 then 1 else 0
    if vb.length < eb then .undef
    else
      let inp := ((vb.take eb).drop fb).flatten
      if inp.length < fo + n then .undef
      else
        match dist (fun x => bidx P.w 0 P.shift (key x)) ((inp.drop fo).take n) (List.replicate (2 ^ P.lognb) []) with
        | none => .undef
        | some buckets =>
          if buckets.any (fun b => decide (P.maxRec < b.length)) then .abort
          else
            match sortBuckets P key srt (P.logK1 ((buckets.map List.length).foldr max 0)) 0 buckets with
            | none => .undef
            | some s =>
              match vb[fb]?, vb[lb]? with
              | some f, l =>
                -- the part of the first block before the range, and the part of the last block behind it
                let pre := if fo ≠ 0 then f.take fo else []
                match l, decide (lo ≠ 0) with
                | some l, true =>
                  .ok (vb.take fb ++ Srt.toBlocks P.B (lb - fb + 1) (pre ++ s ++ l.drop lo) ++ vb.drop (lb + 1))
                | none, true => .undef
                | _, false => .ok (vb.take fb ++ Srt.toBlocks P.B (lb - fb) (pre ++ s) ++ vb.drop lb)
              | none, _ => .undef

end Stxxl.SKSort
