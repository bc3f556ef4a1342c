/-!
# Model of `compute_prefetch_schedule`

Models `/repo/lib/algo/async_schedule.cpp:37-204` ("prudent prefetching": simulate writing the blocks in reverse order, then read them in the
reverse order of the simulated writes).

`int_type` values are natural numbers; the code's index `i` (from `L - 1` down to `-1`) is represented by `i + 1`, the number of blocks not
yet fed to the simulation. `none` is a failed assertion, or reading an array element that was never written.
-/

namespace Stxxl.Schedule

/-- Update one entry of an array. -/
def upd {β : Type} (f : Nat → β) (k : Nat) (v : β) : Nat → β := fun x => if x = k then v else f x

/-- `file::DEFAULT_DEVICE_ID`, `io/file.h:85`: "no disk". -/
abbrev Disks := Nat → Option Nat

/-- `get_disk`, `async_schedule.cpp:64-71`: `none` (the default device id) is remapped to `D`. The assertion `disk ≤ D` is a hypothesis of the theorems. -/
def getDisk (disks : Disks) (D i : Nat) : Nat := (disks i).getD D

/-- The local variables of `simulate_async_write`, `async_schedule.cpp:80-90`: event queue of (timestamp, block), a FIFO queue per disk, blocks
not fed yet, time, busy flags, output array `o_time` (only the times; `o_time[b].first` is always `b`). -/
structure Sim where
  ev : List (Nat × Nat)
  qs : Nat → List Nat
  i : Nat
  old : Nat
  busy : Nat → Bool
  o : Nat → Option Nat

/-- First loop, `async_schedule.cpp:91-97`: feed the first `m` blocks to the disk queues. -/
def fill (disk : Nat → Nat) : Nat → Sim → Sim
  | 0, s => s
  | m + 1, s => if s.i = 0 then s else
      fill disk m { s with qs := upd s.qs (disk (s.i - 1)) (s.qs (disk (s.i - 1)) ++ [s.i - 1]), i := s.i - 1 }

/-- Second loop, `async_schedule.cpp:99-106`: one event per non-empty disk queue; disks `0 .. n-1`. -/
def start : Nat → Sim → Sim
  | 0, s => s
  | n + 1, s =>
    let s := start n s
    match s.qs n with
    | [] => s
    | j :: rest => { s with ev := (1, j) :: s.ev, qs := upd s.qs n rest }

/-- Smallest timestamp. -/
def minTs : List (Nat × Nat) → Nat
  | [] => 0
  | [e] => e.1
  | e :: es => min e.1 (minTs es)

/-- `event_queue.top(); event_queue.pop();`, `async_schedule.cpp:110-111`: some event with minimal timestamp; `c` says which one. -/
def popMin (c : Nat) (ev : List (Nat × Nat)) : Option ((Nat × Nat) × List (Nat × Nat)) :=
  let cs := ev.filter (fun e => decide (e.1 = minTs ev))
  match cs[c % cs.length]? with
  | none => none
  | some e => some (e, ev.erase e)

/-- `async_schedule.cpp:112-122`: clear the busy flags when time advances, record the output time. -/
def record (s : Sim) (t b : Nat) (ev : List (Nat × Nat)) : Sim :=
  { s with ev := ev, busy := if s.old ≠ t then fun _ => false else s.busy, old := t, o := upd s.o b (some t) }

/-- `async_schedule.cpp:124-146`: a place in the buffer is free, feed the next block. -/
def letIn (disk : Nat → Nat) (s : Sim) (t : Nat) : Sim :=
  if s.i = 0 then s
  else
    let b := s.i - 1
    let d := disk b
    if s.busy d then { s with qs := upd s.qs d (s.qs d ++ [b]), i := b }
    else
      match s.qs d with
      | j :: rest => { s with ev := (t + 1, j) :: s.ev, qs := upd s.qs d rest, busy := upd s.busy d true }
      | [] => { s with ev := (t + 1, b) :: s.ev, i := b, busy := upd s.busy d true }

/-- `async_schedule.cpp:149-156`: the disk of the block just written starts its next block. -/
def next (disk : Nat → Nat) (s : Sim) (t b : Nat) : Sim :=
  let d := disk b
  if s.busy d then s
  else
    match s.qs d with
    | j :: rest => { s with ev := (t + 1, j) :: s.ev, qs := upd s.qs d rest, busy := upd s.busy d true }
    | [] => s

/-- The main loop, `async_schedule.cpp:108-157`. `ch` resolves ties in the priority queue; `fuel` bounds the number of rounds (`none` if it
is exceeded: shown impossible). -/
def loop (disk : Nat → Nat) (ch : Nat → Nat) : Nat → Sim → Option Sim
  | fuel, s =>
    if s.ev = [] then some s
    else match fuel with
      | 0 => none
      | fuel + 1 =>
        match popMin (ch fuel) s.ev with
        | none => none
        | some (e, ev) => loop disk ch fuel (next disk (letIn disk (record s e.1 e.2 ev) e.1) e.1 e.2)

/-- `simulate_async_write`, `async_schedule.cpp:73-164`. `junk` is the uninitialised content of `disk_busy` (`simple_vector` does not
initialise). The result is `o_time`; the assertions at the end are checked. -/
def simulate (disk : Nat → Nat) (junk : Nat → Bool) (ch : Nat → Nat) (L m D : Nat) : Option (Nat → Option Nat) :=
  let s0 : Sim := ⟨[], fun _ => [], L, 0, junk, fun _ => none⟩
  match loop disk ch L (start (D + 1) (fill disk m s0)) with
  | none => none
  | some s => if s.i = 0 ∧ ∀ j ≤ D, s.qs j = [] then some s.o else none

/-- `o_time` as an array of pairs; reading an entry that was never written is an error. -/
def timeArray (o : Nat → Option Nat) (L : Nat) : Option (List (Nat × Nat)) :=
  (List.range L).mapM (fun b => (o b).map (b, ·))

/-- `std::stable_sort` by `write_time_cmp` (decreasing time), `async_schedule.cpp:55-62,193`. The result of a stable sort is unique. -/
def stableSort (l : List (Nat × Nat)) : List (Nat × Nat) := l.mergeSort (fun a b => !decide (b.2 > a.2))

/-- `compute_prefetch_schedule`, `async_schedule.cpp:168-204`: the list written to `out_first`. -/
def schedule (disks : Disks) (junk : Nat → Bool) (ch : Nat → Nat) (L m D : Nat) : Option (List Nat) :=
  if L ≤ D then some (List.range L)
  else
    match simulate (getDisk disks D) junk ch L m D with
    | none => none
    | some o =>
      match timeArray o L with
      | none => none
      | some a => some ((stableSort a).map (·.1))

end Stxxl.Schedule
