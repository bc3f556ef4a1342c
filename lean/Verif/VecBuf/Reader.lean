import Verif.BufStream.Model
import Verif.ExtVector.Model
/-!
# Model of `vector_bufreader`, `vector_bufreader_reverse` and `buf_istream_reverse`

Models `/repo/include/stxxl/bits/containers/vector.h:1900-2360` and `/repo/include/stxxl/bits/mng/buf_istream_reverse.h`, on top of the
models of the prefetcher and of `buf_istream` (`Verif.BufStream.Model`) and of the vector (`Verif.ExtVector.Model`).
Iterators are positions; `bid()` of position `i` is entry `i / B` of the block list (`vector.h:1575-1579`), `block_offset()` is `i % B`
(`vector.h:343-346`). The disk is in a quiet `Io` (`io`): the constructor flushes the vector, which waits for its own requests, and
destroying a stream waits for its reads (`block_prefetcher.h:212-216`), so every new stream starts from a quiet disk with the same contents.
`none` is a deadlock, a failed assertion, an invalid access or a null pointer dereference.
-/
namespace Stxxl.VecBuf
open Stxxl.Io
open Stxxl.BufStream
variable {α : Type}

/-! ## `buf_istream_reverse` -/

/-- Constructor, `buf_istream_reverse.h:66-95`: the same as that of `buf_istream` for the reversed list of blocks (`bl k` is the `k`-th
block to be consumed); it starts at the last record of a block. -/
def rNew (bl : Nat → Nat) (B : Nat) (dev : Schedule.Disks) (junk : Nat → Bool) (tie : Nat → Nat) (srv : List Nat) (io : Io (Nat → α))
    (len ndisks mdev nbuffers : Nat) : Option (Is α × (Nat → Nat)) :=
  match Is.new bl dev junk tie srv io len ndisks mdev nbuffers with
  | none => none
  | some (s, seq) => some ({ s with elem := B - 1 }, seq)

/-- `operator >>`, `buf_istream_reverse.h:101-121`; `operator *` followed by `operator ++` does the same (lines 131-159). The index is
signed, so "below zero" is tested before subtracting. -/
def rGet (bl : Nat → Nat) (seq : Nat → Nat) (B : Nat) (srv srv' : List Nat) (s : Is α) : Option (Is α × α) :=
  if s.more then
    let x := s.pf.io.mem s.cur s.elem
    if s.elem = 0 then
      match s.pf.consumed bl seq srv srv' s.cur with
      | none => none
      | some (p, none) => some (⟨p, B - 1, s.cur, false⟩, x)
      | some (p, some b) => some (⟨p, B - 1, b, true⟩, x)
    else some ({ s with elem := s.elem - 1 }, x)
  else none

/-- Reading `n` records. -/
def rGetAll (bl : Nat → Nat) (seq : Nat → Nat) (B : Nat) (srv : Nat → List Nat × List Nat) : Nat → Is α → Option (Is α × List α)
  | 0, s => some (s, [])
  | n + 1, s =>
    match rGet bl seq B (srv n).1 (srv n).2 s with
    | none => none
    | some (s, x) =>
      match rGetAll bl seq B srv n s with
      | none => none
      | some (s, xs) => some (s, x :: xs)

/-! ## The readers -/

/-- What the environment decides when a stream is created: devices of the blocks, uninitialised memory, ties in the priority queue, requests
served meanwhile, numbers of disks. -/
structure Env where
  dev : Schedule.Disks
  junk : Nat → Bool
  tie : Nat → Nat
  srv : List Nat
  srvs : Nat → List Nat × List Nat

/-- Fixed parameters of a reader: the block list of the vector, the quiet disk, the range, `m_nbuffers`, and the configuration. -/
structure Cfg (α : Type) where
  bids : List Nat
  io : Io (Nat → α)
  first : Nat
  last : Nat
  nbuffers : Nat
  ndisks : Nat
  mdev : Nat

/-- The changing members: `m_iter` and `m_bufin` (with its prefetch order), `vector.h:1950-1962`, `2228-2240`. -/
structure Rd (α : Type) where
  iter : Nat
  bufin : Option (Is α × (Nat → Nat))

/-- Number of blocks of the range, `vector.h:2013-2016`, `2287-2290`: from `m_begin.bid()` to `end_bid`. -/
def Cfg.len (c : Cfg α) (B : Nat) : Nat := c.last / B + (if c.last % B ≠ 0 then 1 else 0) - c.first / B

/-- The `k`-th block of the range, `vector.h:2016`. -/
def Cfg.bl (c : Cfg α) (B k : Nat) : Nat := c.bids.getD (c.first / B + k) 0

/-- The `k`-th block in reverse order, `buf_istream_reverse.h:74`. -/
def Cfg.rbl (c : Cfg α) (B k : Nat) : Nat := c.bl B (c.len B - 1 - k)

/-- `m_nbuffers`: 0 means twice the number of disks, `vector.h:1979-1980`. -/
def nbufs (ndisks nbuffers : Nat) : Nat := if nbuffers = 0 then 2 * ndisks else nbuffers

/-- `rewind` of `vector_bufreader`, `vector.h:2005-2023`; also the last action of the constructors (lines 1969-1999). -/
def rewind (B : Nat) (c : Cfg α) (e : Env) (r : Rd α) : Option (Rd α) :=
  if c.first = c.last then some { r with iter := c.first }
  else
    match Is.new (c.bl B) e.dev e.junk e.tie e.srv c.io (c.len B) c.ndisks c.mdev (nbufs c.ndisks c.nbuffers) with
    | none => none
    | some (s, seq) =>
      match Is.getAll (c.bl B) seq B e.srvs (c.first % B) s with
      | none => none
      | some (s, _) => some ⟨c.first, some (s, seq)⟩

/-- `operator >>` of `vector_bufreader`, `vector.h:2030-2063`: `operator *` and `operator ++`. -/
def next (B : Nat) (c : Cfg α) (srv srv' : List Nat) (r : Rd α) : Option (Rd α × α) :=
  match r.bufin with
  | none => none
  | some (s, seq) =>
    if r.iter = c.last then none
    else match Is.get (c.bl B) seq B srv srv' s with
      | none => none
      | some (s, x) => some (⟨r.iter + 1, if r.iter + 1 = c.last then none else some (s, seq)⟩, x)

/-- `rewind` of `vector_bufreader_reverse`, `vector.h:2279-2305`. -/
def rewindR (B : Nat) (c : Cfg α) (e : Env) (r : Rd α) : Option (Rd α) :=
  if c.first = c.last then some { r with iter := c.last }
  else
    match rNew (c.rbl B) B e.dev e.junk e.tie e.srv c.io (c.len B) c.ndisks c.mdev (nbufs c.ndisks c.nbuffers) with
    | none => none
    | some (s, seq) =>
      match rGetAll (c.rbl B) seq B e.srvs (if c.last % B = 0 then 0 else B - c.last % B) s with
      | none => none
      | some (s, _) => some ⟨c.last, some (s, seq)⟩

/-- `operator >>` of `vector_bufreader_reverse`, `vector.h:2313-2345`. -/
def nextR (B : Nat) (c : Cfg α) (srv srv' : List Nat) (r : Rd α) : Option (Rd α × α) :=
  match r.bufin with
  | none => none
  | some (s, seq) =>
    if r.iter = c.first then none
    else match rGet (c.rbl B) seq B srv srv' s with
      | none => none
      | some (s, x) => some (⟨r.iter - 1, if r.iter - 1 = c.first then none else some (s, seq)⟩, x)

/-- `size()`, `vector.h:2066-2070` and `2348-2352`. -/
def Rd.size (c : Cfg α) (r : Rd α) : Nat := c.last - r.iter
def Rd.sizeR (c : Cfg α) (r : Rd α) : Nat := r.iter - c.first

/-- `empty()`, `vector.h:2073-2076` and `2355-2358`. -/
def Rd.empty (c : Cfg α) (r : Rd α) : Bool := decide (r.iter = c.last)
def Rd.emptyR (c : Cfg α) (r : Rd α) : Bool := decide (r.iter = c.first)

/-- What a user does with a reader. -/
inductive ROp where
  /-- `r >> x` -/
  | get (srv srv' : List Nat)
  | rewind (e : Env)

/-- A history of the forward reader; the second component lists the values read. -/
def runF (B : Nat) (c : Cfg α) : List ROp → Rd α → Option (Rd α × List α)
  | [], r => some (r, [])
  | .get srv srv' :: ops, r =>
    match next B c srv srv' r with
    | none => none
    | some (r, x) => (runF B c ops r).map fun p => (p.1, x :: p.2)
  | .rewind e :: ops, r =>
    match rewind B c e r with
    | none => none
    | some r => runF B c ops r

/-- A history of the reverse reader. -/
def runR (B : Nat) (c : Cfg α) : List ROp → Rd α → Option (Rd α × List α)
  | [], r => some (r, [])
  | .get srv srv' :: ops, r =>
    match nextR B c srv srv' r with
    | none => none
    | some (r, x) => (runR B c ops r).map fun p => (p.1, x :: p.2)
  | .rewind e :: ops, r =>
    match rewindR B c e r with
    | none => none
    | some r => runR B c ops r

/-- Construction of a reader on the flushed vector and a history of it (`vector.h:1969-1999`, `2246-2276`). `rqs` are earlier, finished
requests; `mem` is the memory of the buffers. -/
def reader (B P : Nat) (s : ExtVector.Sys α) (first last nbuffers ndisks mdev : Nat) (rqs : List Rq) (mem : Nat → Nat → α) (e : Env)
    (ops : List ROp) : Option (ExtVector.Sys α × Rd α × List α) :=
  match ExtVector.flush P s with
  | none => none
  | some s' =>
    let c : Cfg α := ⟨s'.vec.bids, ⟨mem, s'.disk, rqs⟩, first, last, nbuffers, ndisks, mdev⟩
    match rewind B c e ⟨0, none⟩ with
    | none => none
    | some r => (runF B c ops r).map fun p => (s', p.1, p.2)

/-- The same for the reverse reader. -/
def readerR (B P : Nat) (s : ExtVector.Sys α) (first last nbuffers ndisks mdev : Nat) (rqs : List Rq) (mem : Nat → Nat → α) (e : Env)
    (ops : List ROp) : Option (ExtVector.Sys α × Rd α × List α) :=
  match ExtVector.flush P s with
  | none => none
  | some s' =>
    let c : Cfg α := ⟨s'.vec.bids, ⟨mem, s'.disk, rqs⟩, first, last, nbuffers, ndisks, mdev⟩
    match rewindR B c e ⟨0, none⟩ with
    | none => none
    | some r => (runR B c ops r).map fun p => (s', p.1, p.2)

end Stxxl.VecBuf
