import Verif.MwMerge.Model
/-!
# Model of the parallel merge and of the front-ends (multiway_merge.h:1428-1714)

The output is the list of the writes `(value, position behind target)` which the threads perform. The threads write without
synchronisation between them, so the theorems quantify over all orders of these writes. A result `none` means an undefined operation.
-/
namespace Stxxl.MwMerge
open MultiSeq (partition)
variable {α : Type}

/-- The loop of `equally_split` (equally_split.h:44-49) with `c = chunk_length`, `sp = split`; the first argument counts the rounds
left. -/
def splitFrom (c sp : Nat) : Nat → Nat → Nat → List Nat
  | 0, _, _ => []
  | f + 1, i, start => start :: splitFrom c sp f (i + 1) (start + if i < sp then c + 1 else c)

/-- `equally_split(n, p, s)` (equally_split.h:40-53). -/
def equallySplit (n p : Nat) : List Nat := splitFrom (n / p) (n % p) p 0 0 ++ [n]

/-- All of them, if none is missing. -/
def collect {β : Type} : List (Option β) → Option (List β)
  | [] => some []
  | none :: _ => none
  | some x :: l => (collect l).map (x :: ·)

/-- The boundaries of the chunks that `parallel_multiway_merge_exact_splitting` computes (lines 1428-1501): slab `i` takes of sequence `s`
the elements from `cuts[i][s]` to `cuts[i+1][s]`. Lines 1468-1480: `offsets[s]` is the partition at `ranks[s + 1]`, for every thread but
the last. If not all elements are wanted (`tight` is false), the last boundary is computed inside the same loop, hence not at all if
there is only one thread: then line 1494 reads an empty vector (`none`). -/
def cuts (lt : α → α → Bool) (S : List (List α)) (n p : Nat) : Option (List (List Nat)) :=
  let ranks := equallySplit n p
  match collect ((List.range (p - 1)).map fun s => partition lt S (ranks.getD (s + 1) 0)) with
  | none => none
  | some offsets =>
    if total S = n then some (S.map (fun _ => 0) :: (offsets ++ [S.map List.length]))
    else if p - 1 = 0 then none
    else match partition lt S n with
      | none => none
      | some last => some (S.map (fun _ => 0) :: (offsets ++ [last]))

/-- The sequences of one slab: the parts between two boundaries (lines 1482-1498). `none` if a part would end before it begins; the
merge then runs over the end of the sequence. -/
def chunk : List (List α) → List Nat → List Nat → Option (List (List α))
  | s :: S, a :: A, b :: B => if a ≤ b then (chunk S A B).map ((s.drop a).take (b - a) :: ·) else none
  | _, _, _ => some []

/-- What one thread does (lines 1594-1611): merge its chunk to its place in the output. -/
def thread (lt : α → α → Bool) (kind : Kind) (stable : Bool) (algo : Algo) (junk1 : Nat → Nat) (junk2 : Nat → Node α)
    (S : List (List α)) (n : Nat) (A B : List Nat) : Option (List (α × Nat)) :=
  match chunk S A B with
  | none => none
  | some C =>
    match sequential lt kind stable algo junk1 junk2 C (Nat.min (total C) (n - A.sum)) with
    | none => none
    | some (o, _) => some (o.zipIdx A.sum)

/-- All threads (lines 1574-1612): number `i` works between boundaries `i` and `i + 1`. `junk1 i`, `junk2 i` are its uninitialised memory. -/
def threads (lt : α → α → Bool) (kind : Kind) (stable : Bool) (algo : Algo) (junk1 : Nat → Nat → Nat) (junk2 : Nat → Nat → Node α)
    (S : List (List α)) (n : Nat) : Nat → List (List Nat) → Option (List (α × Nat))
  | i, A :: B :: cs =>
    match thread lt kind stable algo (junk1 i) (junk2 i) S n A B with
    | none => none
    | some w => (threads lt kind stable algo junk1 junk2 S n (i + 1) (B :: cs)).map (w ++ ·)
  | _, _ => some []

/-- "update ends of sequences" (lines 1619-1627): every non-empty sequence continues at its last boundary. -/
def advance : List (List α) → List Nat → List (List α)
  | [], _ => []
  | [] :: S, cs => [] :: advance S cs
  | s :: S, c :: cs => s.drop c :: advance S cs
  | s :: S, [] => s :: S

/-- `parallel_multiway_merge<Stable>` (lines 1503-1638) with exact splitting; `num` is `SETTINGS::num_threads`. -/
def parallel (lt : α → α → Bool) (kind : Kind) (stable : Bool) (algo : Algo) (junk1 : Nat → Nat → Nat) (junk2 : Nat → Nat → Node α)
    (num : Nat) (S : List (List α)) (n : Nat) : Option (List (α × Nat) × List (List α)) :=
  let ne := S.filter fun s => !s.isEmpty
  if total ne = 0 then some ([], S)
  else
    let p := Nat.min num (total ne)
    if p = 0 then none
    else match cuts lt ne n p with
      | none => none
      | some cs =>
        match threads lt kind stable algo junk1 junk2 ne n 0 cs with
        | none => none
        | some ws => some (ws, advance S (cs.getLastD []))

/-- The settings which the front-ends consult (settings.h:36, 85-121). -/
structure Settings where
  threads : Nat
  forceSequential : Bool := false
  forceParallel : Bool := false
  minimalK : Nat := 2
  minimalN : Nat := 1000
  algo : Algo := .loserTree

/-- `STXXL_PARALLEL_CONDITION` (settings.h:36) with the condition of lines 1665-1668, 1703-1706. -/
def Settings.goParallel (c : Settings) (k n : Nat) : Bool :=
  !c.forceSequential && ((decide (1 < c.threads) && (decide (c.minimalK ≤ k) && decide (c.minimalN ≤ n))) || c.forceParallel)

/-- `multiway_merge` and `multiway_merge_stable` (lines 1640-1676, 1678-1714). -/
def multiwayMerge (lt : α → α → Bool) (kind : Kind) (stable : Bool) (c : Settings) (junk1 : Nat → Nat → Nat)
    (junk2 : Nat → Nat → Node α) (S : List (List α)) (n : Nat) : Option (List (α × Nat) × List (List α)) :=
  if S.isEmpty then some ([], S)
  else if c.goParallel S.length n then parallel lt kind stable c.algo junk1 junk2 c.threads S n
  else match sequential lt kind stable c.algo (junk1 0) (junk2 0) S n with
    | none => none
    | some (o, S') => some (o.zipIdx, S')

end Stxxl.MwMerge
