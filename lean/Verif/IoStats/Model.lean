import Mathlib.Logic.Function.Basic
import Mathlib.Data.Int.Notation

/-!
# Model of the I/O statistics

`/repo/lib/io/iostats.cpp:20-320`, `/repo/include/stxxl/bits/io/iostats.h:35-400`, with their callers: the scoped timers
(`iostats.h:70-250`), which call `…_started` and later, from the same thread, `…_finished`, and `linuxaio_request`
(`linuxaio_request.cpp:28-90`), where the start is recorded by the posting thread *after* the operation was handed to the operating
system, while the end is recorded by the waiting thread.

Time is an integer (`timestamp()` has microsecond resolution); rounding of `double` is not modelled. `unsigned` counters have 32
bits; volumes are integers (`int64` overflow is not modelled). A call consists of sections, each under one mutex; the time is read
once at the beginning of the call, before any mutex is taken, so sections may be executed in an order different from their times.
-/

namespace Stxxl.IoStats

/-- One group of variables `acc_*`, `t_*`, `p_*`, `p_begin_*` (`iostats.h:50-67`). For the group `io` the code has no `t_*`. -/
structure Meter where
  acc : Int
  t : Int
  p : Int
  begin_ : Int
deriving DecidableEq, Repr

/-- All variables zero (`iostats.cpp:29-57`). -/
def Meter.init : Meter := { acc := 0, t := 0, p := 0, begin_ := 0 }

/-- `diff = now - p_begin; t += acc * diff; p_begin = now; p += (acc++) ? diff : 0` (`iostats.cpp:129-132, 137-139, 188-191,
196-198, 244-247, 250-253, 257-260`). -/
def Meter.start (m : Meter) (now : Int) : Meter :=
  { acc := m.acc + 1, t := m.t + m.acc * (now - m.begin_), p := m.p + (if m.acc ≠ 0 then now - m.begin_ else 0), begin_ := now }

/-- The same with `acc--` (`iostats.cpp:160-163, 168-170, 219-222, 227-229, 270-273, 276-279, 282-285`). -/
def Meter.finish (m : Meter) (now : Int) : Meter :=
  { acc := m.acc - 1, t := m.t + m.acc * (now - m.begin_), p := m.p + (if m.acc ≠ 0 then now - m.begin_ else 0), begin_ := now }

/-- The groups: reads, writes, all I/O, waits, waits for reads, other waits. -/
inductive Idx where
  | rd | wr | io | w | wR | wW
deriving DecidableEq, Repr

/-- What is timed. A wait for "any" is counted as a wait for a write (`iostats.cpp:255`). -/
inductive Kind where
  | io (write : Bool) (size : Nat) (cancel aio : Bool)
  | wait (forRead : Bool)
deriving DecidableEq, Repr

/-- One timed operation: kind, time passed to the start call, time read by the finish call. -/
structure Op where
  kind : Kind
  s : Int
  f : Int
deriving DecidableEq, Repr

/-- In which section of a call the group is updated: `read_started` etc. update the group of reads or writes under its mutex
(section 0) and then the group of all I/O under another (section 1) (`iostats.cpp:120-141, 155-172, 179-200, 214-231`);
`wait_started/finished` update two groups under one mutex (`iostats.cpp:238-287`). -/
def ofs : Kind → Idx → Option Nat
  | .io false _ _ _, .rd => some 0
  | .io true _ _ _, .wr => some 0
  | .io _ _ _ _, .io => some 1
  | .wait _, .w => some 0
  | .wait true, .wR => some 0
  | .wait false, .wW => some 0
  | _, _ => none

/-- The statistics object and the progress of the calls: `sS i`, `fS i` is the number of sections of the start and the finish call
of operation `i` that are done. -/
structure St where
  reads : Nat
  writes : Nat
  volR : Int
  volW : Int
  m : Idx → Meter
  sS : Nat → Nat
  fS : Nat → Nat

def St.init : St :=
  { reads := 0, writes := 0, volR := 0, volW := 0, m := fun _ => Meter.init, sS := fun _ => 0, fS := fun _ => 0 }

/-- `++` and `--` of an `unsigned int`. -/
def inc (n : Nat) : Nat := (n + 1) % 2 ^ 32
def decr (n : Nat) : Nat := (n + (2 ^ 32 - 1)) % 2 ^ 32

/-- Counting at the start (`iostats.cpp:127-128, 186-187`). -/
def countStart (k : Kind) (st : St) : St :=
  match k with
  | .io false size _ _ => { st with reads := inc st.reads, volR := st.volR + size }
  | .io true size _ _ => { st with writes := inc st.writes, volW := st.volW + size }
  | .wait _ => st

/-- `read_canceled`, `write_canceled` before they call `…_finished` (`iostats.cpp:143-152, 202-211`). -/
def countCancel (k : Kind) (st : St) : St :=
  match k with
  | .io false size true _ => { st with reads := decr st.reads, volR := st.volR - size }
  | .io true size true _ => { st with writes := decr st.writes, volW := st.volW - size }
  | _ => st

/-- Section `k` of the start call of operation `i`. -/
def startSec (op : Op) (i k : Nat) (st : St) : St :=
  let st1 := if k = 0 then countStart op.kind st else st
  { st1 with m := fun x => if ofs op.kind x = some k then (st.m x).start op.s else st.m x,
             sS := Function.update st.sS i (k + 1) }

/-- Section `k` of the finish call; section 0 is the one of `…_canceled` (nothing if the operation is not cancelled), sections 1
and 2 are those of `…_finished`. -/
def finishSec (op : Op) (i k : Nat) (st : St) : St :=
  let st1 := if k = 0 then countCancel op.kind st else st
  { st1 with m := fun x => if 0 < k ∧ ofs op.kind x = some (k - 1) then (st.m x).finish op.f else st.m x,
             fS := Function.update st.fS i (k + 1) }

/-- Is the start recorded by another thread than the end (`linuxaio_request.cpp:66-90`)? -/
def Op.racy (op : Op) : Bool :=
  match op.kind with
  | .io _ _ _ aio => aio
  | .wait _ => false

/-- Is the next section of the finish call of operation `i` possible? -/
def canFinish (ops : List Op) (st : St) (i : Nat) : Prop :=
  ∃ op, ops[i]? = some op ∧ st.fS i < 3 ∧ (op.racy = true ∨ st.sS i = 2)

/-- One section of operation `i`: of the start call (`fin = false`) or of the finish call. A section that is not possible leaves the
state as it is. -/
def step (ops : List Op) (st : St) (i : Nat) (fin : Bool) : St :=
  match ops[i]? with
  | none => st
  | some op =>
    if fin = false then
      (if st.sS i < 2 then startSec op i (st.sS i) st else st)
    else if st.fS i < 3 ∧ (op.racy = true ∨ st.sS i = 2) then finishSec op i (st.fS i) st
    else st

/-- A run: the order in which sections are executed. -/
def run (ops : List Op) : St → List (Nat × Bool) → St
  | st, [] => st
  | st, e :: es => run ops (step ops st e.1 e.2) es

/-- All calls have returned. -/
def Complete (ops : List Op) (st : St) : Prop := ∀ i, i < ops.length → st.sS i = 2 ∧ st.fS i = 3

/-- `reset` for one group: `t` and `p` are cleared, `acc` and `p_begin` are kept (`iostats.cpp:62-117`). -/
def Meter.reset (m : Meter) : Meter := { m with t := 0, p := 0 }

end Stxxl.IoStats
