import Verif.MwMerge.ParModel
/-!
# Model of the parallel multiway mergesort (`/repo/include/stxxl/bits/parallel/multiway_mergesort.h`)

The threads work in phases separated by barriers (lines 194, 199, 236, 256, 299): copy and sort the own chunk; choose the pieces; merge the
own pieces to the final place in the input. Before the last phase only memory of the thread itself is written (`temporaries`, `pieces[iam]`,
`samples` of the thread), so the order inside a phase does not matter; in the last phase all threads write to the input, without
synchronisation: the result is the list of these writes, and the theorems quantify over all orders. `STXXL_MULTIWAY_MERGESORT_COPY_LAST`
is 0 (compiletime_settings.h:57). `none` is an undefined operation. Not modelled: construction and destruction of elements (line 307 deletes
raw storage with `delete`, which destroys one element).
-/
namespace Stxxl.MwSort
open MwMerge
open MultiSeq (partition lowerBound)
variable {α : Type}

/-- `SETTINGS::sort_splitting` (settings.h:149: `EXACT`). -/
inductive Splitting where
  | exact | sampling
deriving DecidableEq

/-- `std::sort` and `std::stable_sort`. -/
structure Lib (α : Type) where
  sort : List α → List α
  stableSort : List α → List α

structure Conf where
  stable : Bool
  splitting : Splitting := .exact
  /-- `SETTINGS::sort_mwms_oversampling` (settings.h:155) -/
  oversampling : Nat := 10
  algo : Algo := .loserTree

/-- `starts[0 .. num_threads]` (lines 356-366). -/
def starts (n p : Nat) : List Nat := splitFrom (n / p) (n % p) (p + 1) 0 0

/-- Thread `i`'s chunk of the input (lines 159, 167-170). -/
def chunkOf (src : List α) (st : List Nat) (i : Nat) : List α := (src.drop (st.getD i 0)).take (st.getD (i + 1) 0 - st.getD i 0)

/-- All chunks after the local sort (lines 173-177). -/
def sorted (lib : Lib α) (stable : Bool) (src : List α) (p : Nat) : List (List α) :=
  (List.range p).map fun i => (if stable then lib.stableSort else lib.sort) (chunkOf src (starts src.length p) i)

/-- `determine_samples` of thread `i` (lines 107-124) with `num = num_samples`: it reads the input, which may go over its end. -/
def samplesOf (src : List α) (p num i : Nat) : Option (List α) :=
  let st := starts src.length p
  let es := equallySplit (st.getD (i + 1) 0 - st.getD i 0) (num + 1)
  collect ((List.range num).map fun j => src[st.getD i 0 + es.getD (j + 1) 0]?)

/-- `sd->samples` sorted (lines 190-198). -/
def allSamples (lib : Lib α) (src : List α) (p num : Nat) : Option (List α) :=
  match collect ((List.range p).map fun i => samplesOf src p num i) with
  | none => none
  | some ss => some (lib.sort ss.flatten)

/-- The samples used to split (lines 206-224): `samples[num_samples * i]` for `0 < i < num_threads`. -/
def splitters (samples : List α) (p num : Nat) : Option (List α) :=
  collect ((List.range (p - 1)).map fun i => samples[num * (i + 1)]?)

/-- The boundaries of the pieces: thread `i` merges of sequence `s` the elements from `bounds[i][s]` to `bounds[i+1][s]`. Sampling
(lines 201-229): both ends come from `lower_bound`. Exact splitting (lines 231-268): the end is computed, the beginning is the end of the
piece of the thread before. -/
def bounds (lt : α → α → Bool) (lib : Lib α) (c : Conf) (src : List α) (p : Nat) (S : List (List α)) : Option (List (List Nat)) :=
  match c.splitting with
  | .exact =>
    match collect ((List.range (p - 1)).map fun i => partition lt S ((starts src.length p).getD (i + 1) 0)) with
    | none => none
    | some offs => some (S.map (fun _ => 0) :: (offs ++ [S.map List.length]))
  | .sampling =>
    if c.oversampling = 0 then none
    else
      match allSamples lib src p (c.oversampling * p - 1) with
      | none => none
      | some samples =>
        match splitters samples p (c.oversampling * p - 1) with
        | none => none
        | some vs => some (S.map (fun _ => 0) :: (vs.map (fun v => S.map fun s => lowerBound lt s v) ++ [S.map List.length]))

/-- The merge of one thread (lines 272-293): `offset` is the sum of the beginnings, `length_am` the sum of the lengths. -/
def thread (lt : α → α → Bool) (kind : Kind) (c : Conf) (junk1 : Nat → Nat) (junk2 : Nat → Node α) (S : List (List α))
    (A B : List Nat) : Option (List (α × Nat)) :=
  match chunk S A B with
  | none => none
  | some C =>
    match sequential lt kind c.stable c.algo junk1 junk2 C (total C) with
    | none => none
    | some (o, _) => some (o.zipIdx A.sum)

/-- All threads. -/
def threads (lt : α → α → Bool) (kind : Kind) (c : Conf) (junk1 : Nat → Nat → Nat) (junk2 : Nat → Nat → Node α) (S : List (List α)) :
    Nat → List (List Nat) → Option (List (α × Nat))
  | i, A :: B :: cs =>
    match thread lt kind c (junk1 i) (junk2 i) S A B with
    | none => none
    | some w => (threads lt kind c junk1 junk2 S (i + 1) (B :: cs)).map (w ++ ·)
  | _, _ => some []

/-- `parallel_sort_mwms<Stable>(begin, end, comp, num_threads)` (lines 319-385): the writes to the input. -/
def sortMwms (lt : α → α → Bool) (kind : Kind) (lib : Lib α) (c : Conf) (junk1 : Nat → Nat → Nat) (junk2 : Nat → Nat → Node α)
    (src : List α) (numThreads : Nat) : Option (List (α × Nat)) :=
  if src.length ≤ 1 then some []
  else
    let p := if src.length < numThreads then src.length else numThreads
    if p = 0 then none
    else
      let S := sorted lib c.stable src p
      match bounds lt lib c src p S with
      | none => none
      | some bs => threads lt kind c junk1 junk2 S 0 bs

end Stxxl.MwSort
