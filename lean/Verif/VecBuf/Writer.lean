import Verif.ExtVector.Model
/-!
# Model of `vector_bufwriter`

Models `/repo/include/stxxl/bits/containers/vector.h:2379-2592`, on top of the model of the vector (`Verif.ExtVector.Model`).

Of the `buf_ostream` it writes through (`/repo/include/stxxl/bits/mng/buf_ostream.h`) only what C28 says about it is used: a block that was
handed over is written at some time before the stream is destroyed, in any order. Handed-over blocks wait in `pend`; the choices `srv` say
which of them the disk threads finish meanwhile. Memory of a fresh buffer is arbitrary (`junk`). Ids of new blocks are given by `alloc`, the page
to evict by `victim`. `none` is a failed assertion or an invalid access.
-/
namespace Stxxl.VecBuf
open Stxxl.ExtVector
variable {α : Type}

/-- `buf_ostream`, `buf_ostream.h:29-42`: the current buffer, `current_elem`, `current_bid` (a position in the vector's block list), and the blocks on
their way to the disk. -/
structure Bo (α : Type) where
  cur : Nat → α
  elem : Nat
  bid : Nat
  pend : List (Nat × (Nat → α))

/-- `vector_bufwriter`, `vector.h:2406-2424`, with the vector it writes to. -/
structure Bw (α : Type) where
  sys : Sys α
  iter : Nat
  last : Nat
  grown : Bool
  prevblk : Nat
  bufout : Option (Bo α)

/-- Choices of the environment during one call. -/
structure WCh (α : Type) where
  srv : List Nat
  victim : Nat
  junk : Nat → α

/-- Pending block number `j` reaches the disk. -/
def done1 (d : (Nat → Nat → α) × List (Nat × (Nat → α))) (j : Nat) : (Nat → Nat → α) × List (Nat × (Nat → α)) :=
  match d.2[j]? with
  | none => d
  | some p => (upd d.1 p.1 p.2, d.2.eraseIdx j)

/-- Some pending blocks reach the disk. -/
def doneSome (d : (Nat → Nat → α) × List (Nat × (Nat → α))) (srv : List Nat) : (Nat → Nat → α) × List (Nat × (Nat → α)) :=
  srv.foldl done1 d

/-- All pending blocks reach the disk: the destructor of `buf_ostream`, by way of the destructor of `buffered_writer`
(`buf_writer.h:189-215`). -/
def settle (d : Nat → Nat → α) : List (Nat × (Nat → α)) → Nat → Nat → α
  | [] => d
  | p :: ps => settle (upd d p.1 p.2) ps

/-- `current_blk = writer.write(current_blk, *(current_bid++))`, `buf_ostream.h:66`, `91`, `112`. -/
def Bo.handOver (bids : List Nat) (junk : Nat → α) (o : Bo α) : Option (Bo α) :=
  match bids[o.bid]? with
  | none => none
  | some b => some ⟨junk, 0, o.bid + 1, o.pend ++ [(b, o.cur)]⟩

/-- `operator ++`, `buf_ostream.h:85-94`. -/
def Bo.advance (B : Nat) (bids : List Nat) (junk : Nat → α) (o : Bo α) : Option (Bo α) :=
  if o.elem + 1 ≥ B then Bo.handOver bids junk { o with elem := o.elem + 1 } else some { o with elem := o.elem + 1 }

/-- Disk threads make progress. -/
def Bw.progress (srv : List Nat) (w : Bw α) : Bw α :=
  match w.bufout with
  | none => w
  | some o =>
    let d := doneSome (w.sys.disk, o.pend) srv
    { w with sys := { w.sys with disk := d.1 }, bufout := some { o with pend := d.2 } }

section
variable (B P : Nat) (alloc : Sys α → Nat → List Nat)

/-- The first part of `operator *`: at the end of the vector, close the stream (`vector.h:2473-2486`). -/
def Bw.close (junk : Nat → α) (w : Bw α) : Option (Bw α) :=
  match w.bufout with
  | none => some w
  | some o =>
    if w.iter % B ≠ 0 then
      match o.handOver w.sys.vec.bids junk with
      | none => none
      | some o =>
        match pageExternallyUpdated { w.sys with disk := settle w.sys.disk o.pend } (pageOf B P w.iter) with
        | none => none
        | some s => some { w with sys := s, bufout := none }
    else if o.elem ≠ 0 then none
    else some { w with sys := { w.sys with disk := settle w.sys.disk o.pend }, bufout := none }

/-- The new size, `vector.h:2489-2494`. -/
def grownSize (n : Nat) : Nat := if n < 2 * B then 2 * B else 2 * n

/-- `operator *` at the end of the vector: enlarge it, `vector.h:2469-2497`. -/
def Bw.grow (junk : Nat → α) (w : Bw α) : Option (Bw α) :=
  match w.close B P junk with
  | none => none
  | some w =>
    let s := resizeV B P w.sys (grownSize B w.sys.vec.size) (alloc w.sys (grownSize B w.sys.vec.size))
    some { w with sys := s, last := s.vec.size, grown := true }

/-- `operator *`, the rest, followed by the assignment of `v` to the reference it returns, `vector.h:2499-2534`. -/
def Bw.set (ch : WCh α) (w : Bw α) (v : α) : Option (Bw α) :=
  if w.iter < w.last then
    match (match w.bufout with
      | some o => some (some (w, o))
      | none =>
        if w.iter % B ≠ 0 then some none
        else match flush P w.sys with
          | none => none
          | some s =>
            let o : Bo α := ⟨ch.junk, 0, w.iter / B, []⟩
            some (some ({ w with sys := s, bufout := some o, prevblk := w.iter }, o))) with
    | none => none
    | some none => (elementWrite B P w.sys w.iter v ch.victim).map fun s => { w with sys := s }
    | some (some (w, o)) =>
      let o' : Bo α := { o with cur := upd o.cur o.elem v }
      if w.iter % B = 0 ∧ w.prevblk ≠ w.iter then
        match pageExternallyUpdated w.sys (pageOf B P w.prevblk) with
        | none => none
        | some s => some { w with sys := s, prevblk := w.iter, bufout := some o' }
      else some { w with bufout := some o' }
  else none

/-- `operator * () = v`, `vector.h:2465-2534`. -/
def Bw.assign (ch : WCh α) (w : Bw α) (v : α) : Option (Bw α) :=
  match (if w.iter = w.last then w.grow B P alloc ch.junk else some w) with
  | none => none
  | some w => w.set B P ch v

/-- `operator ++`, `vector.h:2537-2546`. -/
def Bw.incr (ch : WCh α) (w : Bw α) : Option (Bw α) :=
  match w.bufout with
  | none => some { w with iter := w.iter + 1 }
  | some o =>
    match o.advance B w.sys.vec.bids ch.junk with
    | none => none
    | some o => some { w with iter := w.iter + 1, bufout := some o }

/-- `operator <<`, `vector.h:2549-2555`. -/
def Bw.put (ch : WCh α) (w : Bw α) (v : α) : Option (Bw α) :=
  match (w.progress ch.srv).assign B P alloc ch v with
  | none => none
  | some w => w.incr B ch

/-- Several of them. -/
def Bw.putAll (ch : Nat → WCh α) : List α → Bw α → Option (Bw α)
  | [], w => some w
  | v :: vs, w =>
    match w.put B P alloc (ch vs.length) v with
    | none => none
    | some w => Bw.putAll ch vs w

/-- The loop of `finish`, `vector.h:2564-2571`: fill the rest of the block with what the vector holds. It runs at most `B` times; the
first argument counts. -/
def fill (ch : Nat → WCh α) : Nat → Nat → Sys α → Bo α → Option (Sys α × Bo α)
  | f, pos, s, o =>
    if pos % B = 0 then some (s, o)
    else match f with
      | 0 => none
      | f + 1 =>
        let d := doneSome (s.disk, o.pend) (ch f).srv
        match constElement B P { s with disk := d.1 } pos (ch f).victim with
        | none => none
        | some (s, x) =>
          match Bo.advance B s.vec.bids (ch f).junk { o with cur := upd o.cur o.elem x, pend := d.2 } with
          | none => none
          | some o => fill ch f (pos + 1) s o

/-- The first part of `finish`, `vector.h:2560-2582`. -/
def Bw.finishOut (ch : Nat → WCh α) (w : Bw α) : Option (Bw α) :=
  match w.bufout with
  | none => some w
  | some o =>
    match fill B P ch B w.iter w.sys o with
    | none => none
    | some (s, o) =>
      match (if w.prevblk ≠ w.iter then pageExternallyUpdated s (pageOf B P w.prevblk) else some s) with
      | none => none
      | some s =>
        if o.elem ≠ 0 then none
        else some { w with sys := { s with disk := settle s.disk o.pend }, prevblk := w.iter, bufout := none }

/-- `finish`, `vector.h:2558-2591`; the destructor calls it (lines 2458-2461). -/
def Bw.finish (ch : Nat → WCh α) (w : Bw α) : Option (Bw α) :=
  match w.finishOut B P ch with
  | none => none
  | some w =>
    if w.grown then some { w with sys := resizeV B P w.sys w.iter (alloc w.sys w.iter), grown := false } else some w

/-- Constructors, `vector.h:2430-2456`: `b` is the position of the given iterator (0 if a vector is given). `m_prevblk` is not
initialised. -/
def Bw.new (s : Sys α) (b junk : Nat) : Option (Bw α) :=
  if b ≤ s.vec.size then some ⟨s, b, s.vec.size, false, junk, none⟩ else none

/-- Create a writer at position `b`, write `xs` with `<<`, `finish` and destroy it. -/
def bufWrite (junk : Nat) (ch fch : Nat → WCh α) (s : Sys α) (b : Nat) (xs : List α) : Option (Sys α) :=
  match Bw.new s b junk with
  | none => none
  | some w =>
    match Bw.putAll B P alloc ch xs w with
    | none => none
    | some w =>
      match w.finish B P alloc fch with
      | none => none
      | some w => (w.finish B P alloc fch).map (·.sys)

end
end Stxxl.VecBuf
