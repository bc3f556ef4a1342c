import Mathlib.Data.Rat.Defs
import Mathlib.Algebra.Order.Ring.Rat
/-!
# Model of `stats_data` (`/repo/include/stxxl/bits/io/iostats.h`) and of the printing of sizes (`/repo/lib/common/utils.cpp`, `/repo/lib/io/iostats.cpp`)
-/
namespace Stxxl.StatsData

/-! ## Snapshots of the statistics: `unsigned` has 32 bits and wraps, volumes do not overflow, times are exact. -/

structure Data where
  reads : BitVec 32
  writes : BitVec 32
  volumeRead : Int
  volumeWritten : Int
  cReads : BitVec 32
  cWrites : BitVec 32
  cVolumeRead : Int
  cVolumeWritten : Int
  tReads : Rat
  tWrites : Rat
  pReads : Rat
  pWrites : Rat
  pIos : Rat
  tWait : Rat
  tWaitRead : Rat
  tWaitWrite : Rat
  elapsed : Rat

/-- `stats_data()`, iostats.h:450-468. -/
def Data.zero : Data := ⟨0, 0, 0, 0, 0, 0, 0, 0, 0, 0, 0, 0, 0, 0, 0, 0, 0⟩

/-- `operator +`, iostats.h:490-511. -/
def Data.add (d a : Data) : Data where
  reads := d.reads + a.reads
  writes := d.writes + a.writes
  volumeRead := d.volumeRead + a.volumeRead
  volumeWritten := d.volumeWritten + a.volumeWritten
  cReads := d.cReads + a.cReads
  cWrites := d.cWrites + a.cWrites
  cVolumeRead := d.cVolumeRead + a.cVolumeRead
  cVolumeWritten := d.cVolumeWritten + a.cVolumeWritten
  tReads := d.tReads + a.tReads
  tWrites := d.tWrites + a.tWrites
  pReads := d.pReads + a.pReads
  pWrites := d.pWrites + a.pWrites
  pIos := d.pIos + a.pIos
  tWait := d.tWait + a.tWait
  tWaitRead := d.tWaitRead + a.tWaitRead
  tWaitWrite := d.tWaitWrite + a.tWaitWrite
  elapsed := d.elapsed + a.elapsed

/-- `operator -`, iostats.h:513-534. -/
def Data.sub (d a : Data) : Data where
  reads := d.reads - a.reads
  writes := d.writes - a.writes
  volumeRead := d.volumeRead - a.volumeRead
  volumeWritten := d.volumeWritten - a.volumeWritten
  cReads := d.cReads - a.cReads
  cWrites := d.cWrites - a.cWrites
  cVolumeRead := d.cVolumeRead - a.cVolumeRead
  cVolumeWritten := d.cVolumeWritten - a.cVolumeWritten
  tReads := d.tReads - a.tReads
  tWrites := d.tWrites - a.tWrites
  pReads := d.pReads - a.pReads
  pWrites := d.pWrites - a.pWrites
  pIos := d.pIos - a.pIos
  tWait := d.tWait - a.tWait
  tWaitRead := d.tWaitRead - a.tWaitRead
  tWaitWrite := d.tWaitWrite - a.tWaitWrite
  elapsed := d.elapsed - a.elapsed

/-! ## Printing of sizes: `rnd` is the rounding of a division of doubles; `none` is a loop that has not ended after `k` rounds, or an access outside
of the table of endings. -/

/-- The loops in utils.cpp:101-104 and 118-121 and iostats.cpp:341-345. -/
def scaleLoop (rnd : Rat → Rat) (multiplier : Rat) : Nat → Rat → Nat → Option (Rat × Nat)
  | 0, _, _ => none
  | k + 1, numberD, scale => if numberD ≥ multiplier then scaleLoop rnd multiplier k (rnd (numberD / multiplier)) (scale + 1) else some (numberD, scale)

/-- `SIendings`, utils.cpp:98, and `IECendings`, utils.cpp:115. -/
def siEndings : List String := ["", "k", "M", "G", "T", "P", "E"]
def iecEndings : List String := ["", "Ki", "Mi", "Gi", "Ti", "Pi", "Ei"]

/-- The number printed and the ending. -/
def format (rnd : Rat → Rat) (multiplier : Rat) (endings : List String) (k : Nat) (numberD : Rat) : Option (Rat × String) :=
  match scaleLoop rnd multiplier k numberD 0 with
  | some (x, scale) =>
    match endings[scale]? with
    | some e => some (x, e)
    | none => none
  | none => none

/-- `format_SI_size`, utils.cpp:94-109, up to the printing of the number. -/
def formatSI (rnd : Rat → Rat) (k : Nat) (numberD : Rat) : Option (Rat × String) := format rnd 1000 siEndings k numberD

/-- `format_IEC_size`, utils.cpp:111-126, up to the printing of the number. -/
def formatIEC (rnd : Rat → Rat) (k : Nat) (numberD : Rat) : Option (Rat × String) := format rnd 1024 iecEndings k numberD

end Stxxl.StatsData
