import Verif.LoserTree.Model

/-!
# External sorting

Models `/repo/include/stxxl/bits/algo/sort.h` (`sort`, `sort_blocks`, `create_runs`, `merge_runs`), `inmemsort.h` and
the bid adaptor `algo/adaptor.h: runs2bid_array_adaptor2`.

Simplifications, all of them about *when* things happen and not *what* is done:
* I/O is synchronous. In the code reads of later input blocks overlap with writes of earlier runs; the blocks written
  are freshly allocated and differ from the blocks still to be read, so the reads return the same data.
* The prefetcher and the buffered writer of `merge_runs` are what C26–C28 prove them to be: they deliver the blocks in
  consumption order, and write every block given to them.
* `potentially_parallel::sort` is any function `srt` (`SortFn` says what is required of it).
* The allocator is any function `pick` of the allocation counter and the live blocks (`PickOk` says what is required:
  the new blocks are distinct and not live, C05/C06).
* Only managed blocks (not vectors mapped onto a user file), and the sequential merge (`do_parallel_merge()` false).

`none` is undefined behaviour, a failed assertion, an access to a block that is not allocated, or a double free.
-/

namespace Stxxl.Srt

variable {α : Type}

/-- Disk: contents of the blocks, the allocated blocks, and a counter of allocations. -/
structure D (α : Type) where
  disk : Nat → List α
  live : List Nat
  clk : Nat

abbrev Pick := Nat → List Nat → Nat → List Nat

/-- `block_manager::new_blocks` for `n` blocks. -/
def newBlocks (pick : Pick) (n : Nat) (d : D α) : List Nat × D α :=
  (pick d.clk d.live n, { d with live := pick d.clk d.live n ++ d.live, clk := d.clk + 1 })

/-- `block_manager::delete_block`. -/
def del (d : D α) (b : Nat) : Option (D α) :=
  if b ∈ d.live then some { d with live := d.live.erase b } else none

def delAll : List Nat → D α → Option (D α)
  | [], d => some d
  | b :: bs, d =>
    match del d b with
    | none => none
    | some d => delAll bs d

/-- Read a block. -/
def rd (d : D α) (b : Nat) : Option (List α) := if b ∈ d.live then some (d.disk b) else none

def rdAll (d : D α) : List Nat → Option (List (List α))
  | [] => some []
  | b :: bs =>
    match rd d b, rdAll d bs with
    | some x, some xs => some (x :: xs)
    | _, _ => none

/-- Write a block. -/
def wr (d : D α) (b : Nat) (x : List α) : Option (D α) :=
  if b ∈ d.live then some { d with disk := LT.upd d.disk b x } else none

/-- A run: bids and trigger values of its blocks (`trigger_entry`, `sort_helper.h:36-50`). -/
abbrev Run (α : Type) := List (Nat × α)

/-- `make_element_iterator` over an array of `n` blocks of size `B`: block `i` holds elements `[i*B, (i+1)*B)`. -/
def toBlocks (B : Nat) : Nat → List α → List (List α)
  | 0, _ => []
  | n + 1, l => l.take B :: toBlocks B n (l.drop B)

/-- `(*run)[i].value = Blocks1[i][0]; Blocks1[i].write((*run)[i].bid)` for all blocks of a run, `sort.h:124-141,158-163`. -/
def writeRun : D α → List Nat → List (List α) → Option (Run α × D α)
  | d, b :: bs, x :: xs =>
    match x with
    | [] => none
    | v :: _ =>
      match wr d b x with
      | none => none
      | some d =>
        match writeRun d bs xs with
        | none => none
        | some (r, d) => some ((b, v) :: r, d)
  | d, [], _ => some ([], d)
  | _, _ :: _, [] => none

/-- One run of `create_runs`, `sort.h:106-141`: read the input blocks, delete them, sort their elements, write. -/
def createRun (srt : List α → List α) (B : Nat) (d : D α) (inp out : List Nat) : Option (Run α × D α) :=
  match rdAll d inp with
  | none => none
  | some xs =>
    match delAll inp d with
    | none => none
    | some d => writeRun d out (toBlocks B out.length (srt xs.flatten))

/-- `create_runs`, `sort.h:59-181`: `outs` are the bids of the runs; every run takes as many input blocks as it has. -/
def createRuns (srt : List α → List α) (B : Nat) : D α → List Nat → List (List Nat) → Option (List (Run α) × D α)
  | d, _, [] => some ([], d)
  | d, inp, out :: outs =>
    match createRun srt B d (inp.take out.length) out with
    | none => none
    | some (r, d) =>
      match createRuns srt B d (inp.drop out.length) outs with
      | none => none
      | some (rs, d) => some (r :: rs, d)

/-- The output loop of `merge_runs`, `sort.h:423-442`. -/
def mergeOut (lt : α → α → Bool) (B : Nat) : List Nat → LT.State α → D α → Option (Run α × D α)
  | [], _, d => some ([], d)
  | b :: bs, s, d =>
    match LT.multiMerge lt s B with
    | none => none
    | some (xs, s) =>
      match xs with
      | [] => none
      | v :: _ =>
        match wr d b xs with
        | none => none
        | some d =>
          match mergeOut lt B bs s d with
          | none => none
          | some (r, d) => some ((b, v) :: r, d)

/-- `merge_runs`, `sort.h:303-459`: consumption sequence, loser tree, output, deletion of the input runs. -/
def mergeRuns (lt : α → α → Bool) (B : Nat) (d : D α) (runs : List (Run α)) (out : List Nat) : Option (Run α × D α) :=
  let consume := runs.flatten.mergeSort fun a b => !lt b.2 a.2
  match rdAll d (consume.map (·.1)) with
  | none => none
  | some blocks =>
    match LT.init lt runs.length blocks with
    | none => none
    | some s =>
      match mergeOut lt B out s d with
      | none => none
      | some (r, d) =>
        match delAll (runs.flatten.map (·.1)) d with
        | none => none
        | some d => some (r, d)

/-- `runs2bid_array_adaptor2::operator[]`, `algo/adaptor.h:137-146`: position `n` of the flat view of `w` runs, the last
of which has `h` blocks. Result: run and index in the run. -/
def adaptor2 (w h n : Nat) : Nat × Nat :=
  if n < w * h then (n % w, n / w) else ((n - w * h) % (w - 1), h + (n - w * h) / (w - 1))

/-- Assign the allocated bids to the entries of the new runs through the adaptor: `cells` maps run and index to a bid. -/
def distribute (w h : Nat) : Nat → List Nat → (Nat → Nat → Option Nat) → Nat → Nat → Option Nat
  | _, [], cells => cells
  | n, b :: bs, cells =>
    distribute w h (n + 1) bs fun r p => if (r, p) = adaptor2 w h n then some b else cells r p

/-- All or nothing. -/
def allSome {β : Type} : List (Option β) → Option (List β)
  | [] => some []
  | none :: _ => none
  | some b :: bs =>
    match allSome bs with
    | none => none
    | some bs => some (b :: bs)

/-- The bids of the new runs with the given sizes; `none` if some entry was not assigned. -/
def newRuns (sizes : List Nat) (bids : List Nat) : Option (List (List Nat)) :=
  let w := sizes.length
  let cells := distribute w (sizes.getLastD 0) 0 bids (fun _ _ => none)
  allSome (sizes.zipIdx.map fun s => allSome ((List.range s.1).map fun p => cells s.2 p))

/-- The groups of at most `mf` consecutive runs that are merged together, `sort.h:572-585,624-636`. -/
def groups {β : Type} (mf : Nat) : Nat → List β → List (List β)
  | 0, _ => []
  | fuel + 1, l => if l = [] then [] else l.take mf :: groups mf fuel (l.drop mf)

/-- Merge the groups one after the other, `sort.h:622-637`. -/
def mergeGroups (lt : α → α → Bool) (B : Nat) : D α → List (List (Run α)) → List (List Nat) → Option (List (Run α) × D α)
  | d, g :: gs, o :: os =>
    match mergeRuns lt B d g o with
    | none => none
    | some (r, d) =>
      match mergeGroups lt B d gs os with
      | none => none
      | some (rs, d) => some (r :: rs, d)
  | d, [], _ => some ([], d)
  | _, _ :: _, [] => none

/-- One merge phase, `sort.h:563-642`. -/
def mergePhase (pick : Pick) (lt : α → α → Bool) (B mf : Nat) (d : D α) (runs : List (Run α)) :
    Option (List (Run α) × D α) :=
  let gs := groups mf runs.length runs
  let sizes := gs.map fun g => g.flatten.length
  match newRuns sizes (newBlocks pick sizes.sum d).1 with
  | none => none
  | some outs => mergeGroups lt B (newBlocks pick sizes.sum d).2 gs outs

/-- `while (nruns > 1)`, `sort.h:561-645`; `fuel` phases at most. -/
def phases (pick : Pick) (lt : α → α → Bool) (B mf : Nat) : Nat → D α → List (Run α) → Option (Run α × D α)
  | 0, _, _ => none
  | fuel + 1, d, runs =>
    if runs.length > 1 then
      match mergePhase pick lt B mf d runs with
      | none => none
      | some (rs, d) => phases pick lt B mf fuel d rs
    else
      match runs with
      | r :: _ => some (r, d)
      | [] => none

/-- The sizes of the initial runs, `sort.h:477-490`. -/
def runSizes (n m2 : Nat) : List Nat :=
  List.replicate (n / m2) m2 ++ if n % m2 ≠ 0 then [n - n / m2 * m2] else []

/-- Allocate the blocks of every initial run, `sort.h:505-506`. -/
def allocRuns (pick : Pick) : List Nat → D α → List (List Nat) × D α
  | [], d => ([], d)
  | n :: ns, d =>
    let r := newBlocks pick n d
    let rs := allocRuns pick ns r.2
    (r.1 :: rs.1, rs.2)

/-- `sort_blocks`, `sort.h:461-661`. `m` is the memory in blocks; `mf` is the merge factor as a function of the number of
runs and `m` (`optimal_merge_factor`, `sort_base.h:42-45`, computed in floating point: only `mf ≥ 2` is assumed).
`assert(nruns >= 2)` and `assert(run_size == m2)` are those of `create_runs` (`sort.h:93-96`). -/
def sortBlocks (pick : Pick) (srt : List α → List α) (lt : α → α → Bool) (B : Nat) (mf : Nat → Nat → Nat) (m : Nat)
    (d : D α) (inp : List Nat) : Option (Run α × D α) :=
  let m2 := m / 2
  if m2 = 0 then none
  else
    let sizes := runSizes inp.length m2
    let a := allocRuns pick sizes d
    if sizes.length < 2 then none
    else if sizes.head? ≠ some m2 then none
    else
      match createRuns srt B a.2 inp a.1 with
      | none => none
      | some (runs, d) => phases pick lt B (mf sizes.length m) (runs.length + 1) d runs

/-- Everything `sort` gets besides the data: `sizeof(value_type)`, `block_type::raw_size`, `sort_memory_usage_factor()`,
the memory `M`, and the sentinels of the comparator. -/
structure Par (α : Type) where
  B : Nat
  sz : Nat
  raw : Nat
  fac : Nat
  M : Nat
  minV : α
  maxV : α

/-- `stl_in_memory_sort`, `inmemsort.h:28-57`. `vb` are the bids of the vector; the range goes from offset `fo` of block
`fb` to offset `lo` of block `lb`. -/
def inMem (srt : List α → List α) (B : Nat) (d : D α) (vb : List Nat) (fb fo lb lo : Nat) : Option (D α) :=
  let nblocks := lb - fb + if lo ≠ 0 then 1 else 0
  let bids := (vb.drop fb).take nblocks
  match rdAll d bids with
  | none => none
  | some xs =>
    let l := xs.flatten
    let corr := if lo ≠ 0 then B - lo else 0
    let e := nblocks * B - corr
    let l' := l.take fo ++ srt ((l.take e).drop fo) ++ l.drop e
    (writeAll d bids (toBlocks B nblocks l'))
where
  /-- Write the blocks back to where they came from. -/
  writeAll : D α → List Nat → List (List α) → Option (D α)
    | d, b :: bs, x :: xs =>
      match wr d b x with
      | none => none
      | some d => writeAll d bs xs
    | d, [], _ => some d
    | _, _ :: _, [] => none

/-- Replace the bids of the vector from position `i` on. -/
def setBids (vb : List Nat) (i : Nat) (new : List Nat) : List Nat := vb.take i ++ new ++ vb.drop (i + new.length)

/-- `stxxl::sort(first, last, cmp, M)`, `sort.h:683-990`, and `stxxl::ksort(first, last, keyobj, M)`, `ksort.h:728-1035`:
the two functions are the same text except for the comparator and the function that sorts whole blocks, here the
parameter `sb` (`sort_blocks` or `ksort_blocks`). Result: the bids of the vector and the disk. -/
def sortWith (pick : Pick) (srt : List α → List α) (sb : Nat → D α → List Nat → Option (Run α × D α)) (q : Par α) (d : D α)
    (vb : List Nat) (fb fo lb lo : Nat) : Option (List Nat × D α) :=
  if ((lb * q.B + lo) - (fb * q.B + fo)) * q.sz * q.fac < q.M then
    (inMem srt q.B d vb fb fo lb lo).map fun d => (vb, d)
  else if ¬ (2 * q.raw * q.fac ≤ q.M) then none   -- throw bad_parameter
  else
    let m := q.M / q.fac / q.raw
    if fo ≠ 0 then
      if lo ≠ 0 then
        -- sort.h:717-824
        match vb[fb]?, vb[lb]? with
        | some fbid, some lbid =>
          match rd d fbid, rd d lbid with
          | some x, some y =>
            let a := newBlocks pick 1 d
            let b := newBlocks pick 1 a.2
            match a.1, b.1 with
            | [fnew], [lnew] =>
              match wr b.2 fnew (List.replicate fo q.minV ++ x.drop fo) with
              | none => none
              | some d =>
                match wr d lnew (y.take lo ++ List.replicate (q.B - lo) q.maxV) with
                | none => none
                | some d =>
                  let vb' := (vb.set fb fnew).set lb lnew
                  match sb m d ((vb'.drop fb).take (lb - fb + 1)) with
                  | none => none
                  | some (out, d) =>
                    match out.head?, out.getLast? with
                    | some fe, some le =>
                      match rd d fbid, rd d fe.1, rd d lbid, rd d le.1 with
                      | some x, some sx, some y, some sy =>
                        match wr d fbid (x.take fo ++ sx.drop fo) with
                        | none => none
                        | some d =>
                          match wr d lbid (sy.take lo ++ y.drop lo) with
                          | none => none
                          | some d =>
                            match delAll [fe.1, le.1] d with
                            | none => none
                            | some d =>
                              some (setBids vb fb (fbid :: ((out.map (·.1)).drop 1).take (lb - fb - 1) ++ [lbid]), d)
                      | _, _, _, _ => none
                    | _, _ => none
            | _, _ => none
          | _, _ => none
        | _, _ => none
      else
        -- sort.h:826-899
        match vb[fb]? with
        | some fbid =>
          match rd d fbid with
          | some x =>
            let a := newBlocks pick 1 d
            match a.1 with
            | [fnew] =>
              match wr a.2 fnew (List.replicate fo q.minV ++ x.drop fo) with
              | none => none
              | some d =>
                let vb' := vb.set fb fnew
                match sb m d ((vb'.drop fb).take (lb - fb)) with
                | none => none
                | some (out, d) =>
                  match out.head? with
                  | some fe =>
                    match rd d fbid, rd d fe.1 with
                    | some x, some sx =>
                      match wr d fbid (x.take fo ++ sx.drop fo) with
                      | none => none
                      | some d =>
                        match del d fe.1 with
                        | none => none
                        | some d =>
                          -- the loop `sort.h:884-887` copies `out[1 ..]` to the positions `fb+1 .. lb-1`
                          let vb'' := setBids vb fb (fbid :: ((out.map (·.1)).drop 1).take (lb - fb - 1))
                          -- `*cur_bid = (*it).bid;` (`sort.h:889`) with `it` now `lb - fb` steps from `out->begin()`
                          match out[lb - fb]?, vb''[lb]? with
                          | some e, some _ => some (vb''.set lb e.1, d)
                          | _, _ => none
                    | _, _ => none
                  | none => none
            | _ => none
          | none => none
        | none => none
    else if lo ≠ 0 then
      -- sort.h:903-965
      match vb[lb]? with
      | some lbid =>
        match rd d lbid with
        | some y =>
          let a := newBlocks pick 1 d
          match a.1 with
          | [lnew] =>
            match wr a.2 lnew (y.take lo ++ List.replicate (q.B - lo) q.maxV) with
            | none => none
            | some d =>
              let vb' := vb.set lb lnew
              match sb m d ((vb'.drop fb).take (lb - fb + 1)) with
              | none => none
              | some (out, d) =>
                match out.getLast? with
                | some le =>
                  match rd d lbid, rd d le.1 with
                  | some y, some sy =>
                    match wr d lbid (sy.take lo ++ y.drop lo) with
                    | none => none
                    | some d =>
                      match del d le.1 with
                      | none => none
                      | some d => some (setBids vb fb ((out.map (·.1)).take (lb - fb) ++ [lbid]), d)
                  | _, _ => none
                | none => none
          | _ => none
        | none => none
      | none => none
    else
      -- sort.h:967-986
      match sb m d ((vb.drop fb).take (lb - fb)) with
      | none => none
      | some (out, d) => some (setBids vb fb ((out.map (·.1)).take (lb - fb)), d)

/-- `stxxl::sort(first, last, cmp, M)`, `sort.h:683-990`. -/
def sort (pick : Pick) (srt : List α → List α) (lt : α → α → Bool) (mf : Nat → Nat → Nat) (q : Par α) (d : D α)
    (vb : List Nat) (fb fo lb lo : Nat) : Option (List Nat × D α) :=
  sortWith pick srt (sortBlocks pick srt lt q.B mf) q d vb fb fo lb lo

end Stxxl.Srt
