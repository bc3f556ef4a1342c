import Verif.Sort.Model
import Verif.Streams.Model

/-!
# The sorter: `runs_creator`, `runs_merger`, `stream::sort`, `stxxl::sorter`

Models `/repo/include/stxxl/bits/stream/sort_stream.h`, `sorted_runs.h` and `containers/sorter.h`, on the disk of `Sort/Model.lean` (same
simplifications: synchronous I/O, sequential merge, an arbitrary sorting function `srt` and allocator `pick`).

* The double buffering of the creators is not modelled: a run is written at once.
* The prefetcher's sequence of blocks is read when the merge begins; the blocks are not changed before they are released.
* `optimal_merge_factor` (floating point) is an arbitrary function `mf`.
* Assertions that say that the user respects the interface are `ub`. `assert(merge_factor <= max_arity)` (`sort_stream.h:1355`) is not
  checked, as in a release build: see `C32_merge_factor_too_large`.
-/

namespace Stxxl.Sorter

open Stxxl.Srt Stxxl.Streams

variable {α : Type}

/-- What can go wrong: undefined behaviour or a failed assertion, `bad_parameter` (insufficient memory), or more nested mergers than the given
depth. -/
inductive Err
  | ub
  | noMem
  | depth
  deriving DecidableEq

/-- `sorted_runs`, `sorted_runs.h:40-120`; a run and its entry of `runs_sizes` are kept together. -/
structure SRuns (α : Type) where
  elements : Nat
  runs : List (Run α × Nat)
  small : List α

/-- A new `sorted_runs`, `sorted_runs.h:68-70`. -/
def SRuns.new : SRuns α := { elements := 0, runs := [], small := [] }

/-- The blocks of the runs. -/
def SRuns.bids (s : SRuns α) : List Nat := (s.runs.map (·.1)).flatten.map (·.1)

/-- `add_run`, `sorted_runs.h:93-98`. -/
def SRuns.addRun (s : SRuns α) (r : Run α) (n : Nat) : SRuns α :=
  { s with runs := s.runs ++ [(r, n)], elements := s.elements + n }

/-- Elements per block, bytes per block (`raw_size`, `sizeof(block_type)`), number of disks, `sort_memory_usage_factor()`, `cmp.max_value()`. -/
structure Par (α : Type) where
  B : Nat
  raw : Nat
  nd : Nat
  fac : Nat
  maxV : α

/-- `div_ceil`. -/
def divCeil (n b : Nat) : Nat := (n + b - 1) / b

/-- `fill_with_max_value`, `sort_stream.h:96-108`: from index `l.length` up to the end of block `nb - 1`. -/
def fillMax (P : Par α) (nb : Nat) (l : List α) : List α := l ++ List.replicate (nb * P.B - l.length) P.maxV

/-- Allocate `nb` blocks and write a run with its trigger values, `sort_stream.h:191-206`, `507-524`, `606-624`. -/
def storeRun (pick : Pick) (P : Par α) (nb : Nat) (d : D α) (l : List α) : Option (Run α × D α) :=
  writeRun (newBlocks pick nb d).2 (newBlocks pick nb d).1 (toBlocks P.B nb l)

/-! ## `runs_creator<use_push>`, `sort_stream.h:411-678` -/

/-- State: the first `m_cur_el` elements of `m_blocks1`, `m_result`, `m_result_computed`, and whether the buffers are allocated. -/
structure RC (α : Type) where
  cur : List α
  res : SRuns α
  computed : Bool
  bufs : Bool

/-- `m_el_in_run` for the given memory, `sort_stream.h:546-549`. -/
def elInRun (P : Par α) (mem : Nat) : Nat := mem / P.raw / P.fac / 2 * P.B

/-- `clear` (called by `allocate`), `sort_stream.h:569-584`, `587-599`; the old runs are deallocated (`sorted_runs::clear`). -/
def RC.allocate (d : D α) (c : RC α) : Option (RC α × D α) :=
  match delAll c.res.bids d with
  | none => none
  | some d => some ({ cur := [], res := SRuns.new, computed := false, bufs := true }, d)

/-- `compute_result`, `sort_stream.h:497-533`. `m_cur_el` is not reset. -/
def RC.compute (pick : Pick) (srt : List α → List α) (P : Par α) (d : D α) (c : RC α) : Option (RC α × D α) :=
  if c.cur.length = 0 then some (c, d)
  else
    let l := srt c.cur
    if l.length ≤ P.B ∧ c.res.elements = 0 then
      some ({ c with cur := l, res := { c.res with small := l, elements := l.length } }, d)
    else
      match storeRun pick P (divCeil l.length P.B) d (fillMax P (divCeil l.length P.B) l) with
      | none => none
      | some (r, d) => some ({ c with cur := l, res := c.res.addRun r l.length }, d)

/-- `result()`, `sort_stream.h:648-659`. -/
def RC.result (pick : Pick) (srt : List α → List α) (P : Par α) (d : D α) (c : RC α) : Option (RC α × D α) :=
  if c.computed then some (c, d)
  else
    match c.compute pick srt P d with
    | none => none
    | some (c, d) => some ({ c with computed := true }, d)

/-- `deallocate`, `sort_stream.h:602-614`. -/
def RC.deallocate (pick : Pick) (srt : List α → List α) (P : Par α) (d : D α) (c : RC α) : Option (RC α × D α) :=
  match c.result pick srt P d with
  | none => none
  | some (c, d) => some ({ c with bufs := false }, d)

/-- `push`, `sort_stream.h:618-652`. -/
def RC.push (pick : Pick) (srt : List α → List α) (P : Par α) (mem : Nat) (d : D α) (c : RC α) (v : α) : Option (RC α × D α) :=
  if c.computed ∨ ¬ c.bufs then none
  else if c.cur.length < elInRun P mem then some ({ c with cur := c.cur ++ [v] }, d)
  else if elInRun P mem ≠ c.cur.length ∨ elInRun P mem = 0 then none
  else
    match storeRun pick P (divCeil (elInRun P mem) P.B) d (srt c.cur) with
    | none => none
    | some (r, d) => some ({ c with cur := [v], res := c.res.addRun r (elInRun P mem) }, d)

/-- `size()`, `sort_stream.h:662-665`. -/
def RC.size (c : RC α) : Nat := c.res.elements + c.cur.length

/-! ## `basic_runs_creator`, `sort_stream.h:47-358`: the input is a list here (what the input stream yields, C33) -/

/-- The `while (!m_input.empty())` loop, `sort_stream.h:305-327`; `n` bounds the number of runs. -/
def bcLoop (pick : Pick) (srt : List α → List α) (P : Par α) (el : Nat) : Nat → D α → SRuns α → List α → Option (SRuns α × D α)
  | 0, _, _, _ => none
  | n + 1, d, s, inp =>
    if inp = [] then some (s, d)
    else
      let l := srt (inp.take el)
      match storeRun pick P (divCeil l.length P.B) d (fillMax P (divCeil l.length P.B) l) with
      | none => none
      | some (r, d) => bcLoop pick srt P el n d (s.addRun r l.length) (inp.drop el)

/-- `compute_result`, `sort_stream.h:168-333`. -/
def bcResult (pick : Pick) (srt : List α → List α) (P : Par α) (mem : Nat) (d : D α) (inp : List α) : Option (SRuns α × D α) :=
  let el := elInRun P mem
  let l1 := srt (inp.take el)
  let rest := inp.drop el
  if l1.length ≤ P.B ∧ rest = [] then some ({ elements := l1.length, runs := [], small := l1 }, d)
  else
    match storeRun pick P (divCeil l1.length P.B) d (fillMax P (divCeil l1.length P.B) l1) with
    | none => none
    | some (r1, d) =>
      if rest = [] then some (SRuns.new.addRun r1 l1.length, d)
      else
        let l2 := rest.take el
        let rest2 := rest.drop el
        if rest2 = [] then
          -- the whole input fits into both halves: sort it again, delete the run already written
          let l := srt (l1 ++ l2)
          match delAll (r1.map (·.1)) d with
          | none => none
          | some d =>
            match storeRun pick P (divCeil (l2.length + el) P.B) d (fillMax P (divCeil (l2.length + el) P.B) l) with
            | none => none
            | some (r, d) => some ({ elements := l2.length + el, runs := [(r, l2.length + el)], small := [] }, d)
        else
          match storeRun pick P (divCeil l2.length P.B) d (srt l2) with
          | none => none
          | some (r2, d) =>
            bcLoop pick srt P el (rest2.length + 1) d ((SRuns.new.addRun r1 l1.length).addRun r2 l2.length) rest2

/-! ## `runs_creator<from_sorted_sequences>`, `sort_stream.h:690-857` -/

/-- State: `result_`, the blocks of the current run already written, and the first `offset` elements of `cur_block`. -/
structure FS (α : Type) where
  res : SRuns α
  run : Run α
  blk : List α

/-- Write one block of the current run, `sort_stream.h:794-806`. -/
def FS.write (pick : Pick) (d : D α) (f : FS α) (x : List α) : Option (FS α × D α) :=
  match writeRun (newBlocks pick 1 d).2 (newBlocks pick 1 d).1 [x] with
  | none => none
  | some (r, d) => some ({ f with run := f.run ++ r, blk := [] }, d)

/-- `push`, `sort_stream.h:783-812`. -/
def FS.push (pick : Pick) (P : Par α) (d : D α) (f : FS α) (v : α) : Option (FS α × D α) :=
  match (if (f.blk ++ [v]).length = P.B then FS.write pick d f (f.blk ++ [v]) else some ({ f with blk := f.blk ++ [v] }, d)) with
  | none => none
  | some (f, d) => some ({ f with res := { f.res with elements := f.res.elements + 1 } }, d)

/-- `finish`, `sort_stream.h:815-850`. -/
def FS.finish (pick : Pick) (P : Par α) (d : D α) (f : FS α) : Option (FS α × D α) :=
  if f.blk.length = 0 ∧ f.run.length = 0 then some (f, d)
  else
    let n := f.run.length * P.B + f.blk.length
    match (if f.blk.length ≠ 0 then FS.write pick d f (f.blk ++ List.replicate (P.B - f.blk.length) P.maxV) else some (f, d)) with
    | none => none
    | some (f, d) => some ({ res := { f.res with runs := f.res.runs ++ [(f.run, n)] }, run := [], blk := [] }, d)

/-- `result`, `sort_stream.h:855-863`. -/
def FS.result (pick : Pick) (P : Par α) (d : D α) (f : FS α) : Option (SRuns α × D α) :=
  match f.finish pick P d with
  | none => none
  | some (f, d) => some (f.res, d)

/-! ## `basic_runs_merger`, `sort_stream.h:915-1457` -/

/-- State: `m_elements_remaining`, the elements `[m_current_ptr, m_current_end)`, the loser tree (if it exists). -/
structure MG (α : Type) where
  rem : Nat
  buf : List α
  tree : Option (LT.State α)

/-- `fill_buffer_block`, `sort_stream.h:998-1064` (native merging). -/
def fillBuffer (lt : α → α → Bool) (B : Nat) (g : MG α) : Option (MG α) :=
  match g.tree with
  | none => none
  | some t =>
    match LT.multiMerge lt t (min B g.rem) with
    | none => none
    | some (xs, t) => some { g with buf := xs, tree := if g.rem ≤ B then none else some t }

/-- The merger as a stream: `empty`, `operator *`, `operator ++`, `sort_stream.h:1266-1318`. -/
def merger (lt : α → α → Bool) (B : Nat) : Streams.Stream (MG α) α where
  empty g := g.rem == 0
  cur g := if g.rem = 0 then none else g.buf.head?
  next g :=
    if g.rem = 0 ∨ g.buf = [] then none
    else if g.buf.tail = [] ∧ g.rem - 1 ≠ 0 then fillBuffer lt B { g with rem := g.rem - 1, buf := [] }
    else some { g with rem := g.rem - 1, buf := g.buf.tail }

/-- The last part of `initialize`, `sort_stream.h:1165-1255`: consumption sequence, loser tree, first buffer. -/
def start (lt : α → α → Bool) (P : Par α) (d : D α) (s : SRuns α) : Option (MG α) :=
  let consume := (s.runs.map (·.1)).flatten.mergeSort fun a b => !lt b.2 a.2
  match rdAll d (consume.map (·.1)) with
  | none => none
  | some blocks =>
    match LT.init lt s.runs.length blocks with
    | none => none
    | some t => fillBuffer lt P.B { rem := s.elements, buf := [], tree := some t }

/-- `while (cnt != cnt_max)`, `sort_stream.h:1416-1424`: read `n` elements of the merger. -/
def readN {σ : Type} (S : Streams.Stream σ α) : Nat → σ → Option (List α × σ)
  | 0, g => some ([], g)
  | n + 1, g =>
    match S.cur g, S.next g with
    | some x, some g =>
      match readN S n g with
      | none => none
      | some (xs, g) => some (x :: xs, g)
    | _, _ => none

/-- A recursive merger: runs to a state of the merger. -/
abbrev Init (α : Type) := Nat → D α → SRuns α → Except Err (MG α × SRuns α × D α)

/-- Undefined behaviour as an error. -/
def orUb {β : Type} : Option β → Except Err β
  | none => .error .ub
  | some b => .ok b

/-- Merge one group of runs, `sort_stream.h:1375-1443`. -/
def mergeGroup (pick : Pick) (lt : α → α → Bool) (P : Par α) (init : Init α) (mem : Nat) (d : D α) (g : List (Run α × Nat)) :
    Except Err ((Run α × Nat) × D α) :=
  let n := (g.map (·.2)).sum
  let nb := divCeil n P.B
  let a := newBlocks pick nb d
  match init (mem - 2 * P.nd * P.raw) a.2 { elements := n, runs := g, small := [] } with
  | .error e => .error e
  | .ok (m, s, d) =>
    match readN (merger lt P.B) n m with
    | none => .error .ub
    | some (xs, m) =>
      if m.rem ≠ 0 then .error .ub
      else
        match writeRun d a.1 (toBlocks P.B nb (fillMax P nb xs)) with
        | none => .error .ub
        | some (r, d) =>
          -- `cur_runs` goes out of scope
          match delAll s.bids d with
          | none => .error .ub
          | some d => .ok ((r, n), d)

/-- One merge phase, `sort_stream.h:1371-1454`: `last` is `m_sruns->runs.back()`. -/
def mergeGroups (pick : Pick) (lt : α → α → Bool) (P : Par α) (init : Init α) (mem : Nat) (last : Option (Run α × Nat)) :
    D α → List (List (Run α × Nat)) → Except Err (List (Run α × Nat) × D α)
  | d, [] => .ok ([], d)
  | d, g :: gs =>
    if g.length > 1 then
      match mergeGroup pick lt P init mem d g with
      | .error e => .error e
      | .ok (r, d) =>
        match mergeGroups pick lt P init mem last d gs with
        | .error e => .error e
        | .ok (rs, d) => .ok (r :: rs, d)
    else
      -- `assert(cur_out_run + 1 == new_runs.runs.size())`
      match gs, last with
      | [], some r => .ok ([r], d)
      | _, _ => .error .ub

/-- The loop `while (nruns > max_arity)` of `merge_recursively`, `sort_stream.h:1357-1457`; `n` bounds the number of phases. -/
def mergeLoop (pick : Pick) (lt : α → α → Bool) (P : Par α) (init : Init α) (mem arity f : Nat) :
    Nat → D α → SRuns α → Except Err (SRuns α × D α)
  | 0, _, _ => .error .ub
  | n + 1, d, s =>
    if s.runs.length > arity then
      match mergeGroups pick lt P init mem s.runs.getLast? d (groups f s.runs.length s.runs) with
      | .error e => .error e
      | .ok (rs, d) =>
        -- `assert(elements_left == 0)`
        if s.elements = (s.runs.map (·.2)).sum then mergeLoop pick lt P init mem arity f n d { elements := s.elements, runs := rs, small := [] }
        else .error .ub
    else .ok (s, d)

/-- `max_arity`, `sort_stream.h:1337-1349`. -/
def maxArity (P : Par α) (mem : Nat) : Nat := (mem - (2 * P.nd + 2 * P.nd + 1) * P.raw) / P.raw

/-- `input_buffers`, `sort_stream.h:1125-1128`. -/
def inputBuffers (P : Par α) (mem : Nat) : Nat := (mem - P.raw) / P.raw

/-- `initialize`, `sort_stream.h:1096-1257`; `depth` bounds the nesting of recursive mergers. -/
def initMerger (pick : Pick) (lt : α → α → Bool) (P : Par α) (mf : Nat → Nat → Nat) : Nat → Init α
  | 0, _, _, _ => .error .depth
  | depth + 1, mem, d, s =>
    if s.elements = 0 then .ok ({ rem := 0, buf := [], tree := none }, s, d)
    else if s.small ≠ [] then
      if s.elements = s.small.length then .ok ({ rem := s.elements, buf := s.small, tree := none }, s, d) else .error .ub
    else
      match (if inputBuffers P mem < s.runs.length + 2 * P.nd then
          if mem / P.raw < 2 * (2 * P.nd) + 1 + 2 then .error .noMem
          else if mf s.runs.length (maxArity P mem) ≤ 1 then .error .ub   -- assert(merge_factor > 1)
          else mergeLoop pick lt P (initMerger pick lt P mf depth) mem (maxArity P mem) (mf s.runs.length (maxArity P mem)) (s.runs.length + 1) d s
        else .ok (s, d)) with
      | .error e => .error e
      | .ok (s, d) =>
        if s.runs.length + 2 * P.nd ≤ inputBuffers P mem then
          match start lt P d s with
          | none => .error .ub
          | some m => .ok (m, s, d)
        else .error .ub

/-! ## `stxxl::sorter`, `containers/sorter.h:66-278` -/

/-- `m_state == STATE_OUTPUT`, `m_runs_creator`, `m_runs_merger` (and its memory), and whether the merger holds the runs (`m_sruns`). -/
structure St (α : Type) where
  out : Bool
  rc : RC α
  mg : MG α
  mmem : Nat
  att : Bool

/-- Everything a sorter depends on besides its history. -/
structure Env (α : Type) where
  pick : Pick
  srt : List α → List α
  lt : α → α → Bool
  mf : Nat → Nat → Nat
  P : Par α
  /-- memory of the runs creator -/
  cmem : Nat
  depth : Nat

/-- Constructor, `sorter.h:105-118`, `sort_stream.h:542-561`. -/
def new (E : Env α) (mmem : Nat) : Except Err (St α) :=
  if ¬ (2 * E.P.raw * E.P.fac ≤ E.cmem) then .error .noMem
  else .ok { out := false, rc := { cur := [], res := SRuns.new, computed := false, bufs := true }, mg := { rem := 0, buf := [], tree := none },
             mmem := mmem, att := false }

/-- `m_runs_merger.deallocate()`, `sort_stream.h:1260-1264`. -/
def MG.dealloc (g : MG α) : MG α := { g with tree := none }

/-- `clear`, `sorter.h:126-133`. -/
def clear (st : St α) (d : D α) : Except Err (St α × D α) :=
  match st.rc.allocate d with
  | none => .error .ub
  | some (rc, d) => .ok ({ st with rc := rc, mg := if st.out then st.mg.dealloc else st.mg, att := if st.out then false else st.att, out := false }, d)

/-- `push`, `sorter.h:136-140`. -/
def push (E : Env α) (st : St α) (d : D α) (v : α) : Except Err (St α × D α) :=
  if st.out then .error .ub
  else
    match st.rc.push E.pick E.srt E.P E.cmem d v with
    | none => .error .ub
    | some (rc, d) => .ok ({ st with rc := rc }, d)

/-- `finish`, `sorter.h:146-154`. -/
def finish (E : Env α) (st : St α) (d : D α) : Except Err (St α × D α) :=
  match st.rc.deallocate E.pick E.srt E.P d with
  | none => .error .ub
  | some (rc, d) => .ok ({ st with rc := rc, mg := if st.out then st.mg.dealloc else st.mg, att := if st.out then false else st.att }, d)

/-- `finish_clear`, `sorter.h:159-168`: the runs are cleared in the output state only. -/
def finishClear (E : Env α) (st : St α) (d : D α) : Except Err (St α × D α) :=
  if st.out then
    match st.rc.result E.pick E.srt E.P d with
    | none => .error .ub
    | some (rc, d) =>
      match delAll rc.res.bids d with
      | none => .error .ub
      | some d =>
        match ({ rc with res := SRuns.new } : RC α).deallocate E.pick E.srt E.P d with
        | none => .error .ub
        | some (rc, d) => .ok ({ st with rc := rc, mg := st.mg.dealloc, att := false }, d)
  else
    match st.rc.deallocate E.pick E.srt E.P d with
    | none => .error .ub
    | some (rc, d) => .ok ({ st with rc := rc }, d)

/-- `m_runs_merger.initialize(m_runs_creator.result()); m_state = STATE_OUTPUT;`, `sorter.h:182-184`. -/
def startOutput (E : Env α) (st : St α) (d : D α) : Except Err (St α × D α) :=
  match st.rc.result E.pick E.srt E.P d with
  | none => .error .ub
  | some (rc, d) =>
    match initMerger E.pick E.lt E.P E.mf E.depth st.mmem d rc.res with
    | .error e => .error e
    | .ok (m, s, d) => .ok ({ st with rc := { rc with res := s }, mg := m, att := true, out := true }, d)

/-- `sort`, `sorter.h:173-185`. -/
def sort (E : Env α) (st : St α) (d : D α) : Except Err (St α × D α) :=
  match st.rc.deallocate E.pick E.srt E.P d with
  | none => .error .ub
  | some (rc, d) => startOutput E { st with rc := rc, mg := if st.out then st.mg.dealloc else st.mg, att := if st.out then false else st.att } d

/-- `sort_reuse`, `sorter.h:196-202`. -/
def sortReuse (E : Env α) (st : St α) (d : D α) : Except Err (St α × D α) :=
  if st.out then .error .ub else startOutput E st d

/-- `rewind`, `sorter.h:205-212`. -/
def rewind (E : Env α) (st : St α) (d : D α) : Except Err (St α × D α) :=
  if ¬ st.out then .error .ub else sort E { st with mg := st.mg.dealloc, att := false, out := false } d

/-- `size`, `sorter.h:222-228`. -/
def size (st : St α) : Nat := if st.out then st.mg.rem else st.rc.size

/-- `empty`, `sorter.h:231-235`. -/
def empty (st : St α) : Except Err Bool := if st.out then .ok (st.mg.rem == 0) else .error .ub

/-- `operator *`, `sorter.h:238-242`. -/
def deref (E : Env α) (st : St α) : Except Err α := if st.out then orUb ((merger E.lt E.P.B).cur st.mg) else .error .ub

/-- `operator ++`, `sorter.h:251-256`. -/
def next (E : Env α) (st : St α) : Except Err (St α) :=
  if st.out then
    match (merger E.lt E.P.B).next st.mg with
    | none => .error .ub
    | some m => .ok { st with mg := m }
  else .error .ub

/-! ## `stream::sort` and the generic `stxxl::sort` -/

/-- The constructor of `stream::sort`, `sort_stream.h:1554-1572`: the creator takes all elements of the input stream, the merger takes the
runs. Simplification: the input stream is read first, then the runs are written (the creator alternates). `n` bounds the reading loop. -/
def streamSort {σ : Type} (E : Env α) (mmem : Nat) (S : Streams.Stream σ α) (n : Nat) (s : σ) (d : D α) : Except Err (MG α × σ × SRuns α × D α) :=
  if ¬ (2 * E.P.raw * E.P.fac ≤ E.cmem) then .error .noMem   -- `sort_stream.h:121-125`
  else
    match materialize S n s [] with
    | none => .error .ub
    | some (s, inp) =>
      match bcResult E.pick E.srt E.P E.cmem d inp with
      | none => .error .ub
      | some (r, d) =>
        match initMerger E.pick E.lt E.P E.mf E.depth mmem d r with
        | .error e => .error e
        | .ok (m, r, d) => .ok (m, s, r, d)

/-- The destructors of the merger and the creator: the last reference to the runs goes away, `sorted_runs.h:100-120`. -/
def endSort (r : SRuns α) (d : D α) : Except Err (D α) := orUb (delAll r.bids d)

/-- `stxxl::sort<BlockSize>(begin, end, cmp, memory)`, `sort_stream.h:1636-1657`, for the range `[b, e)` of a vector. The blocks of the vector
are in the vector's own model, the runs on `d`. -/
def sortRange (E : Env α) (B P : Nat) (n : Nat) (v : ExtVector.Sys α) (b e : Nat) (vic : Nat → Nat) (junk : Nat → α) (d : D α) :
    Except Err (ExtVector.Sys α × D α) :=
  match ofVecInit B P v b e junk with
  | none => .error .ub
  | some (v, a) =>
    match streamSort E E.cmem (ofVec B e) n a d with
    | .error x => .error x
    | .ok (m, _, r, d) =>
      match matVec B P (merger E.lt E.P.B) n v m b none vic junk with
      | none => .error .ub
      | some (v, _, _) =>
        match endSort r d with
        | .error x => .error x
        | .ok d => .ok (v, d)

end Stxxl.Sorter
