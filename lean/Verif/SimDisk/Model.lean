/-!
# Model of `/repo/lib/io/simdisk_file.cpp` (the disk emulation), `/repo/lib/common/seed.cpp` and `/repo/include/stxxl/bits/common/tmeta.h`
-/
namespace Stxxl.SimDisk

/-! ## Storage

The file is the list of its bytes. `mmap` maps whole pages: bytes between the end of the file and the end of its last page read as 0 and are not
kept, an access to later pages is a bus error. The file mutex makes calls atomic. -/

inductive Res (β : Type) where
  | ok (x : β)
  /-- `io_error` is thrown -/
  | ioError
  /-- SIGBUS ends the program -/
  | bus
  deriving DecidableEq, Repr

/-- The end of the last page that `mmap` can access. -/
def pageEnd (page len : Nat) : Nat := (len + page - 1) / page * page

/-- `mmap`, simdisk_file.cpp:167-179; it fails for no bytes and for an offset that is not a multiple of the page size. -/
def mapFails (page offset bytes : Nat) : Bool := bytes = 0 || offset % page ≠ 0

/-- `serve` of a read, simdisk_file.cpp:159-193. -/
def read (page : Nat) (data : List Nat) (offset bytes : Nat) : Res (List Nat) :=
  if mapFails page offset bytes then .ioError
  else if offset + bytes ≤ pageEnd page data.length then .ok ((List.range bytes).map fun i => (data[offset + i]?).getD 0)
  else .bus

/-- `serve` of a write, simdisk_file.cpp:159-193. -/
def write (page : Nat) (data : List Nat) (offset : Nat) (buf : List Nat) : Res (List Nat) :=
  if mapFails page offset buf.length then .ioError
  else if offset + buf.length ≤ pageEnd page data.length then
    .ok ((List.range data.length).map fun i => if offset ≤ i then (buf[i - offset]?).getD ((data[i]?).getD 0) else (data[i]?).getD 0)
  else .bus

/-- `set_size`, simdisk_file.cpp:215-224: a zero byte is written at the new end if the file grows. -/
def setSize (data : List Nat) (newsize : Nat) : List Nat :=
  if newsize > data.length then data ++ List.replicate (newsize - 1 - data.length) 0 ++ [0] else data

inductive Op where
  | write (offset : Nat) (buf : List Nat)
  | setSize (n : Nat)
  deriving DecidableEq, Repr

/-- The file after a history, the latest call first, from an empty file. -/
def after (page : Nat) : List Op → Res (List Nat)
  | [] => .ok []
  | op :: earlier =>
    match after page earlier with
    | .ok data =>
      match op with
      | .write offset buf => write page data offset buf
      | .setSize n => .ok (setSize data n)
    | .ioError => .ioError
    | .bus => .bus

/-! ## Time

In microseconds, exact. `delay` is what `get_delay` returns, `elapsed` the time since `op_start` at line 197. -/

/-- The rest of `serve`, simdisk_file.cpp:195-205, without the assertion (it is compiled out with `NDEBUG`): how long it sleeps.
`sleep` takes an `unsigned`. -/
def sleeps (delay elapsed : Int) : Int :=
  let delay := delay - elapsed
  let secondsToWait := delay / 1000000
  (if secondsToWait ≠ 0 then secondsToWait % 2 ^ 32 * 1000000 else 0) + (delay - secondsToWait * 1000000)

/-- The assertion in line 199. -/
def assertion (delay elapsed : Int) : Bool := delay - elapsed > 0

/-! ## Seeds -/

/-- `set_seed`, seed.cpp:67-71, and `get_next_seed`, seed.cpp:73-77; both hold the mutex, so a history of any threads is a list of calls. -/
inductive SOp where
  | set (seed : Nat)
  | next
  deriving DecidableEq, Repr

/-- The seeds given out by a history, in order, and the next one; `unsigned` has 32 bits. -/
def seeds : Nat → List SOp → List Nat
  | _, [] => []
  | _, .set x :: ops => seeds (x % 2 ^ 32) ops
  | s, .next :: ops => s :: seeds ((s + 1) % 2 ^ 32) ops

/-! ## Metaprograms -/

/-- `LOG2_floor`, tmeta.h:97-126; the recursion by `Input / 2`, `k` bounds its depth. -/
def log2FloorAux : Nat → Nat → Nat
  | 0, _ => 0
  | k + 1, n => if n = 0 then 0 else if n = 1 then 0 else log2FloorAux k (n / 2) + 1

def log2Floor (n : Nat) : Nat := log2FloorAux n n

/-- `LOG2::floor` and `LOG2::ceil`, tmeta.h:128-158. -/
def LOG2floor (n : Nat) : Nat := if n = 0 then 0 else if n = 1 then 0 else log2Floor n
def LOG2ceil (n : Nat) : Nat := if n = 0 then 0 else if n = 1 then 0 else log2Floor (n - 1) + 1

/-- `DEFAULT`, tmeta.h:61: the smallest `int`. -/
def DEFAULT : Int := -2 ^ 31

/-- `SWITCH`, tmeta.h:65-95; a list of `CASE`s; `none` is `NilCase`. -/
def switch {β : Type} (tag : Int) : List (Int × β) → Option β
  | [] => none
  | (caseTag, t) :: next => if caseTag = tag ∨ caseTag = DEFAULT then some t else switch tag next

end Stxxl.SimDisk
