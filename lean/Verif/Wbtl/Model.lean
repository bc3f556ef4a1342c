import Verif.DiskAlloc.Model

/-!
# Model of `stxxl::wbtl_file`

Models `/repo/lib/io/wbtl_file.cpp:32-355` and `/repo/include/stxxl/bits/io/wbtl_file.h:34-110`, the file
type that collects block writes in two RAM buffers, writes whole buffers to a backend file, and remembers
where every logical block ended up.

Simplifications: addresses and sizes are `Int` (no wrap-around); the initial `offset_type(-1)` of
`buffer_address` is `none`; `address_mapping` and `reverse_mapping` are only used through `find`, `erase`
and `operator[]`, so they are partial functions; log output and statistics are dropped; a function body is
atomic (the file is served by one queue thread), except for the asynchronous write of a buffer to the
backend, whose progress is explicit; the backend file does not fail.
-/

namespace Stxxl.Wbtl

open Stxxl.DiskAlloc (FreeMap Region upperBound mapErase mapSet firstFit)

/-- Parameters of one file. `W` is `write_block_size`. `junk` says what `pred--` on `begin()`
(`wbtl_file.cpp:139-140`) yields: formally it is undefined; the red-black tree of libstdc++ yields `end()`,
or the root node if that is the first node. -/
structure Cfg where
  W : Int
  junk : Bool

/-- How a call can end. -/
inductive Err where
  /-- `bad_ext_alloc` of `check_corruption`, `wbtl_file.cpp:323-340` -/
  | doubleFree
  /-- `io_error` "OutOfSpace, probably fragmented", `wbtl_file.cpp:320` -/
  | outOfSpace
  /-- a failed `assert`: undefined behaviour in release builds -/
  | assertFailed
  deriving DecidableEq, Repr

/-- `check_corruption`, `wbtl_file.cpp:323-340`: whether it throws. -/
def corrupt (pred succ : Option Region) (pos size : Int) : Bool :=
  pred.any (fun q => q.1 ≤ pos ∧ q.1 + q.2 > pos) || succ.any (fun t => pos ≤ t.1 ∧ pos + size > t.1)

/-- `_add_free_region`, `wbtl_file.cpp:129-199`: the new `free_space` and `free_bytes`. -/
def addFree (junk : Bool) (m : FreeMap) (fb pos size : Int) : Except Err (FreeMap × Int) :=
  if m = [] then .ok (mapSet m pos size, fb + size)
  else
    let lo := (upperBound m pos).1
    let hi := (upperBound m pos).2
    let succ := hi.head?
    let pred := if lo = [] then (if junk then hi.head? else none) else lo.getLast?
    if corrupt pred succ pos size then .error .doubleFree
    else
      match succ with
      | none =>
        -- line 142-156
        match pred with
        | none => .error .assertFailed
        | some q =>
          if q.1 + q.2 = pos then .ok (mapSet (mapErase m q.1) q.1 (size + q.2), fb + size)
          else .ok (mapSet m pos size, fb + size)
      | some t =>
        if m.length > 1 then
          -- line 161-184
          let joinS := t.1 = pos + size
          let m1 := if joinS then mapErase m t.1 else m
          let size1 := if joinS then size + t.2 else size
          if lo ≠ [] then
            match pred with
            | none => .error .assertFailed
            | some q =>
              if q.1 + q.2 = pos then .ok (mapSet (mapErase m1 q.1) q.1 (size1 + q.2), fb + size)
              else .ok (mapSet m1 pos size1, fb + size)
          else .ok (mapSet m1 pos size1, fb + size)
        else
          -- line 186-193
          if t.1 = pos + size then .ok (mapSet (mapErase m t.1) pos (size + t.2), fb + size)
          else .ok (mapSet m pos size, fb + size)

/-- Data members `wbtl_file.h:41-71`. `cur = true` is `curbuf == 1`. `pending` is `backend_request`: the
buffer and the address of a backend write that may still be running. `disk` is the backend file. -/
structure State (β : Type) where
  sz : Int
  amap : Int → Option Int
  rmap : Int → Option (Int × Int)
  free : FreeMap
  freeBytes : Int
  buf : Bool → Int → β
  addr : Bool → Option Int
  cur : Bool
  curpos : Int
  pending : Option (Bool × Int)
  disk : Int → β

variable {β : Type}

/-- Pointwise update. -/
def upd {α γ : Type} [DecidableEq α] (f : α → γ) (a : α) (v : γ) : α → γ := fun x => if x = a then v else f x

/-- The constructor, `wbtl_file.cpp:32-47`; `mem` and `disk` are the arbitrary contents of the fresh buffers
and of the backend file. -/
def init (c : Cfg) (mem : Bool → Int → β) (disk : Int → β) : State β where
  sz := 0
  amap := fun _ => none
  rmap := fun _ => none
  free := []
  freeBytes := 0
  buf := mem
  addr := fun _ => none
  cur := true
  curpos := c.W
  pending := none
  disk := disk

/-- `f` with the positions `[p, p+n)` selected by `sel` replaced by `g`. -/
def overlay (f : Int → β) (p n : Int) (sel : Int → Bool) (g : Int → β) : Int → β :=
  fun x => if p ≤ x ∧ x < p + n ∧ sel x = true then g x else f x

/-- Calls `_add_free_region` on the state. -/
def freeRegion (c : Cfg) (s : State β) (pos size : Int) : Except Err (State β) :=
  match addFree c.junk s.free s.freeBytes pos size with
  | .error e => .error e
  | .ok r => .ok { s with free := r.1, freeBytes := r.2 }

/-- `set_size`, `wbtl_file.cpp:83-93`. -/
def setSize (c : Cfg) (s : State β) (n : Int) : State β × Option Err :=
  if n < s.sz then (s, some .assertFailed)
  else if s.sz < n then
    match freeRegion c s s.sz (n - s.sz) with
    | .error e => (s, some e)
    | .ok s1 => ({ s1 with sz := n }, none)
  else (s, none)

/-- `discard`, `wbtl_file.cpp:100-126`. The backend file's `discard` may change what is stored in the
discarded range: it becomes `g`. -/
def discard (c : Cfg) (s : State β) (off size : Int) (g : Int → β) : State β × Option Err :=
  match s.amap off with
  | none => (s, none)
  | some p =>
    match freeRegion c { s with amap := upd s.amap off none } p size with
    | .error e => ({ s with amap := upd s.amap off none }, some e)
    | .ok s2 =>
      -- line 120: the assert on the reverse mapping
      if (s2.rmap p).any (fun e => e.1 ≠ off) then (s2, some .assertFailed)
      else ({ s2 with rmap := upd s2.rmap p none, disk := overlay s2.disk p size (fun _ => true) g }, none)

/-- The backend write copies (some more of) the buffer to the backend file. -/
def progress (c : Cfg) (s : State β) (sel : Int → Bool) : State β :=
  match s.pending with
  | none => s
  | some (b, a) => { s with disk := overlay s.disk a c.W sel (fun x => s.buf b (x - a)) }

/-- The backend write finishes: `backend_request->wait(false)`, `wbtl_file.cpp:277-279`. -/
def finish (c : Cfg) (s : State β) : State β :=
  { progress c s (fun _ => true) with pending := none }

/-- `get_next_write_block`, `wbtl_file.cpp:301-321`. -/
def nextBlock (c : Cfg) (s : State β) : Option (State β × Int) :=
  match firstFit s.free c.W with
  | none => none
  | some r =>
    some ({ s with
        free := if r.2 > c.W then mapSet (mapErase s.free r.1) (r.1 + c.W) (r.2 - c.W)
                else mapErase s.free r.1
        freeBytes := s.freeBytes - c.W }, r.1)

/-- `wbtl_file.cpp:270-282`: the current buffer goes to the backend. -/
def flush (c : Cfg) (s : State β) : Except Err (State β) :=
  match s.addr s.cur with
  | none => .ok s
  | some a =>
    match (if s.curpos < c.W then freeRegion c s (a + s.curpos) (c.W - s.curpos) else .ok s) with
    | .error e => .error e
    | .ok s1 => .ok { finish c s1 with pending := some (s.cur, a) }

/-- `wbtl_file.cpp:266-288`: not enough space in the current write buffer. -/
def newBuffer (c : Cfg) (s : State β) : State β × Option Err :=
  match flush c s with
  | .error e => (s, some e)
  | .ok s1 =>
    match nextBlock c { s1 with cur := !s1.cur } with
    | none => ({ s1 with cur := !s1.cur }, some .outOfSpace)
    | some (s2, a) => ({ s2 with addr := upd s2.addr s2.cur (some a), curpos := 0 }, none)

/-- `wbtl_file.cpp:292-299`: write the block into the buffer and map it. -/
def place (s : State β) (off : Int) (d : List β) : State β :=
  match s.addr s.cur with
  | none => s
  | some a =>
    { s with
      buf := upd s.buf s.cur (fun x =>
        if s.curpos ≤ x then (d[(x - s.curpos).toNat]?).getD (s.buf s.cur x) else s.buf s.cur x)
      amap := upd s.amap off (some (a + s.curpos))
      rmap := upd s.rmap (a + s.curpos) (some (off, (d.length : Int)))
      curpos := s.curpos + (d.length : Int) }

/-- Second half of `swrite`, `wbtl_file.cpp:266-299`. -/
def writeTail (c : Cfg) (s : State β) (off : Int) (d : List β) : State β × Option Err :=
  let r := if (d.length : Int) > c.W - s.curpos then newBuffer c s else (s, none)
  match r.2 with
  | some e => (r.1, some e)
  | none =>
    if (d.length : Int) > c.W - r.1.curpos then (r.1, some .assertFailed)
    else (place r.1 off d, none)

/-- `swrite`, `wbtl_file.cpp:249-299`. -/
def write (c : Cfg) (s : State β) (off : Int) (d : List β) (g : Int → β) : State β × Option Err :=
  -- line 252-263: an already mapped block is discarded first
  let r := if (s.amap off).isSome then discard c s off (d.length : Int) g else (s, none)
  match r.2 with
  | some e => (r.1, some e)
  | none => writeTail c r.1 off d

/-- What a read delivers. -/
inductive ReadOut (β : Type) where
  | data (d : List β)
  /-- indeterminate bytes, `wbtl_file.cpp:233-238` -/
  | garbage
  | assertFailed
  deriving DecidableEq, Repr

/-- `n` bytes of `f` from position `p` on. -/
def slice (f : Int → β) (p : Int) (n : Nat) : List β := (List.range n).map (fun (i : Nat) => f (p + (i : Int)))

/-- The test of `wbtl_file.cpp:217-218,225-226`: is `p` in the range of the buffer at address `a`? -/
def inBuf (c : Cfg) (a : Option Int) (p : Int) : Bool := a.any (fun a => a ≤ p ∧ p < a + c.W)

/-- Copy out of a write buffer, `wbtl_file.cpp:220-223,228-231`. -/
def readBuf (c : Cfg) (s : State β) (b : Bool) (p : Int) (n : Nat) : ReadOut β :=
  match s.addr b with
  | none => .assertFailed
  | some a => if p + n ≤ a + c.W then .data (slice (s.buf b) (p - a) n) else .assertFailed

/-- `sread`, `wbtl_file.cpp:201-247`. -/
def read (c : Cfg) (s : State β) (off : Int) (n : Nat) : ReadOut β :=
  let p := (s.amap off).getD 0xffffffff
  if inBuf c (s.addr s.cur) p then readBuf c s s.cur p n
  else if inBuf c (s.addr (!s.cur)) p then readBuf c s (!s.cur) p n
  else if p = 0xffffffff then .garbage
  else .data (slice s.disk p n)

/-- What can happen to a file. -/
inductive Op (β : Type) where
  | setSize (n : Int)
  | write (off : Int) (d : List β) (g : Int → β)
  | discard (off size : Int) (g : Int → β)
  | read (off : Int) (n : Nat)
  /-- the running backend write advances -/
  | progress (sel : Int → Bool)
  /-- the running backend write finishes -/
  | finish

/-- What the caller sees. -/
inductive Out (β : Type) where
  | done
  | exc (e : Err)
  | got (r : ReadOut β)
  deriving DecidableEq, Repr

/-- The visible result of a call that may throw. -/
def outOf {β : Type} : Option Err → Out β
  | none => .done
  | some e => .exc e

/-- One event. -/
def step (c : Cfg) (s : State β) : Op β → State β × Out β
  | .setSize n => ((setSize c s n).1, outOf (setSize c s n).2)
  | .write off d g => ((write c s off d g).1, outOf (write c s off d g).2)
  | .discard off size g => ((discard c s off size g).1, outOf (discard c s off size g).2)
  | .read off n => (s, .got (read c s off n))
  | .progress sel => (progress c s sel, .done)
  | .finish => (finish c s, .done)

/-- A history: the final state and what every event returned. -/
def run (c : Cfg) (s : State β) : List (Op β) → State β × List (Out β)
  | [] => (s, [])
  | o :: os =>
    let r := step c s o
    let q := run c r.1 os
    (q.1, r.2 :: q.2)

end Stxxl.Wbtl
