import Verif.ParseUnits.Model

/-!
# Model of the disk configuration

`/repo/lib/mng/config.cpp:36-495`, `/repo/include/stxxl/bits/mng/config.h:32-250`, `split` of
`/repo/include/stxxl/bits/common/utils.h:55-91`, device ids of `/repo/lib/io/create_file.cpp:59-68`.

A string is a list of characters. `int` and `unsigned int` have 32 bits, `unsigned long` 64. `getpid()` is a parameter. An
exception is an outcome: `runtimeError` is `std::runtime_error`, `outOfRange` is `std::out_of_range` (thrown by
`std::string::substr`). Windows branches are not modelled.
-/

namespace Stxxl.Config

open Stxxl.ParseUnits (strtoul parse)

abbrev Str := List Char

/-- Result of code that may throw. -/
inductive Res (α : Type) where
  | ok (a : α)
  | runtimeError
  | outOfRange
deriving DecidableEq, Repr

def Res.bind {α β : Type} : Res α → (α → Res β) → Res β
  | .ok a, f => f a
  | .runtimeError, _ => .runtimeError
  | .outOfRange, _ => .outOfRange

/-- `str.find(sep)` and the two parts (`utils.h:72-81`); `none` is `npos`. -/
def cut (sep : Char) : Str → Option (Str × Str)
  | [] => none
  | c :: s => if c = sep then some ([], s) else (cut sep s).map (fun p => (c :: p.1, p.2))

/-- The loop of `split` with at most `k` more separators (`utils.h:66-85`). -/
def splitGo (sep : Char) : Nat → Str → List Str
  | 0, s => [s]
  | k + 1, s =>
    match cut sep s with
    | none => [s]
    | some (a, b) => a :: splitGo sep k b

/-- `split(str, sep, min_fields, limit_fields)` with `limit_fields ≥ 1` (`utils.h:55-91`). -/
def split (str : Str) (sep : Char) (minF limitF : Nat) : List Str :=
  if str = [] then List.replicate minF []
  else
    let r := splitGo sep (limitF - 1) str
    r ++ List.replicate (minF - r.length) []

/-- `std::numeric_limits<unsigned int>::max()`, the default of `limit_fields`. -/
def uintMax : Nat := 2 ^ 32 - 1

/-- `direct_type` (`config.h:86`). -/
inductive Direct where
  | off | try' | on'
deriving DecidableEq, Repr

/-- `disk_config` (`config.h:32-115`). `queue`, `queueLength` are `int`, `deviceId` is `unsigned`. -/
structure DiskConfig where
  path : Str
  size : Nat
  ioImpl : Str
  autogrow : Bool
  deleteOnExit : Bool
  direct : Direct
  flash : Bool
  queue : Int
  deviceId : Nat
  rawDevice : Bool
  unlinkOnOpen : Bool
  queueLength : Int
deriving DecidableEq, Repr

/-- `file::DEFAULT_QUEUE`, `DEFAULT_LINUXAIO_QUEUE`, `DEFAULT_DEVICE_ID` (`file.h:82-85`). -/
def defaultQueue : Int := -1
def defaultLinuxaioQueue : Int := -2
def defaultDeviceId : Nat := 2 ^ 32 - 1

/-- The default constructor (`config.cpp:210-222`). -/
def defaultConfig : DiskConfig :=
  { path := [], size := 0, ioImpl := [], autogrow := true, deleteOnExit := false, direct := .try', flash := false,
    queue := defaultQueue, deviceId := defaultDeviceId, rawDevice := false, unlinkOnOpen := false, queueLength := 0 }

/-- `(int)` of an `unsigned long`: the low 32 bits in two's complement. -/
def toInt (v : Nat) : Int :=
  let w : Nat := v % 2 ^ 32
  if w < 2 ^ 31 then (w : Int) else (w : Int) - 2 ^ 32

/-- `strtoul(s.c_str(), &endp, 10)` and the test `endp && *endp != 0` (`config.cpp:387-392`); `none` when the test is true. -/
def number (s : Str) : Option Nat :=
  let n := strtoul (s.takeWhile (· ≠ '\x00'))
  if n.2 = [] then some n.1 else none

/-- One extra parameter (`config.cpp:345-446`). -/
def applyParam (c : DiskConfig) (p : Str) : Res DiskConfig :=
  let eq := split p '=' 2 2
  let eq0 := eq.getD 0 []
  let eq1 := eq.getD 1 []
  if p = [] then .ok c
  else if p = "autogrow".toList ∨ p = "noautogrow".toList ∨ eq0 = "autogrow".toList then
    if p = "autogrow".toList then .ok { c with autogrow := true }
    else if p = "noautogrow".toList then .ok { c with autogrow := false }
    else if eq1 = "off".toList then .ok { c with autogrow := false }
    else if eq1 = "on".toList then .ok { c with autogrow := true }
    else if eq1 = "no".toList then .ok { c with autogrow := false }
    else if eq1 = "yes".toList then .ok { c with autogrow := true }
    else .runtimeError
  else if p = "delete".toList ∨ p = "delete_on_exit".toList then .ok { c with deleteOnExit := true }
  else if p = "direct".toList ∨ p = "nodirect".toList ∨ eq0 = "direct".toList then
    if p = "direct".toList then .ok { c with direct := .on' }
    else if p = "nodirect".toList then .ok { c with direct := .off }
    else if eq1 = "off".toList then .ok { c with direct := .off }
    else if eq1 = "try".toList then .ok { c with direct := .try' }
    else if eq1 = "on".toList then .ok { c with direct := .on' }
    else if eq1 = "no".toList then .ok { c with direct := .off }
    else if eq1 = "yes".toList then .ok { c with direct := .on' }
    else .runtimeError
  else if eq0 = "queue".toList then
    if c.ioImpl = "linuxaio".toList then .runtimeError
    else match number eq1 with
      | some v => .ok { c with queue := toInt v }
      | none => .runtimeError
  else if eq0 = "queue_length".toList then
    if c.ioImpl ≠ "linuxaio".toList then .runtimeError
    else match number eq1 with
      | some v => .ok { c with queueLength := toInt v }
      | none => .runtimeError
  else if eq0 = "device_id".toList ∨ eq0 = "devid".toList then
    match number eq1 with
      | some v => .ok { c with deviceId := v % 2 ^ 32 }
      | none => .runtimeError
  else if p = "raw_device".toList then
    if c.ioImpl = "syscall".toList then .ok { c with rawDevice := true } else .runtimeError
  else if p = "unlink".toList ∨ p = "unlink_on_open".toList then
    if c.ioImpl = "syscall".toList ∨ c.ioImpl = "linuxaio".toList ∨ c.ioImpl = "mmap".toList ∨ c.ioImpl = "wbtl".toList then
      .ok { c with unlinkOnOpen := true }
    else .runtimeError
  else .runtimeError

/-- The loop over the parameters (`config.cpp:339-447`). -/
def applyAll (c : DiskConfig) : List Str → Res DiskConfig
  | [] => .ok c
  | p :: ps => (applyParam c p).bind (applyAll · ps)

/-- `parse_fileio` (`config.cpp:320-448`). `find_first_not_of(' ')` is `npos` when all characters are spaces (or there are none);
`substr(npos)` throws `out_of_range`. -/
def parseFileio (c : DiskConfig) : Res DiskConfig :=
  if c.ioImpl.all (· = ' ') then .outOfRange
  else
    let io := c.ioImpl.dropWhile (· = ' ')
    match cut ' ' io with
    | none => .ok { c with ioImpl := io }
    | some (a, b) => applyAll { c with ioImpl := a } (split b ' ' 0 uintMax)

/-- Replace the first `###` by the process id (`config.cpp:291-302`). -/
def replacePid (pid : Str) : Str → Str
  | '#' :: '#' :: '#' :: r => pid ++ r
  | c :: r => c :: replacePid pid r
  | [] => []

/-- `parse_line` on an existing entry `c` (`config.cpp:259-318`). `rawDevice` and `queueLength` are not reset. -/
def parseLine (pid : Str) (c : DiskConfig) (line : Str) : Res DiskConfig :=
  let eqf := split line '=' 2 2
  let f : Option Bool :=
    if eqf.getD 0 [] = "disk".toList then some false
    else if eqf.getD 0 [] = "flash".toList then some true else none
  match f with
  | none => .runtimeError
  | some fl =>
    let cm := split (eqf.getD 1 []) ',' 3 3
    let sz := parse (cm.getD 1 []) 'M'
    if sz.2 = false then .runtimeError
    else
      parseFileio
        { c with flash := fl, autogrow := true, deleteOnExit := decide (sz.1 = 0), direct := .try', queue := defaultQueue,
                 deviceId := defaultDeviceId, unlinkOnOpen := false, path := replacePid pid (cm.getD 0 []), size := sz.1,
                 ioImpl := cm.getD 2 [] }

/-- The constructor `disk_config(path, size, fileio)` (`config.cpp:224-242`). -/
def mkConfig (path : Str) (size : Nat) (fileio : Str) : Res DiskConfig :=
  parseFileio { defaultConfig with path := path, size := size, ioImpl := fileio }

/-- Decimal digits of a number (`operator <<` for unsigned integers); `fuel > n` suffices. -/
def decGo : Nat → Nat → Str
  | 0, _ => []
  | fuel + 1, n => if n < 10 then [Char.ofNat (48 + n)] else decGo fuel (n / 10) ++ [Char.ofNat (48 + n % 10)]

def dec (n : Nat) : Str := decGo (n + 1) n

/-- `operator <<` for `int`. -/
def decInt : Int → Str
  | .ofNat n => dec n
  | .negSucc n => '-' :: dec (n + 1)

/-- The tristate `direct` in `fileio_string` (`config.cpp:462-470`). -/
def directString : Direct → Str
  | .off => " direct=off".toList
  | .try' => []
  | .on' => " direct=on".toList

/-- `fileio_string` (`config.cpp:450-493`). -/
def fileioString (c : DiskConfig) : Str :=
  c.ioImpl ++ (if c.autogrow = false then " autogrow=no".toList else []) ++
  (if c.deleteOnExit = true then " delete_on_exit".toList else []) ++
  directString c.direct ++
  (if c.flash = true then " flash".toList else []) ++
  (if c.queue ≠ defaultQueue ∧ c.queue ≠ defaultLinuxaioQueue then " queue=".toList ++ decInt c.queue else []) ++
  (if c.deviceId ≠ defaultDeviceId then " devid=".toList ++ dec c.deviceId else []) ++
  (if c.rawDevice = true then " raw_device".toList else []) ++
  (if c.unlinkOnOpen = true then " unlink_on_open".toList else []) ++
  (if c.queueLength ≠ 0 then " queue_length=".toList ++ decInt c.queueLength else [])

/-- The reading loop of `load_config_file` (`config.cpp:144-158`): regular disks and flash devices read so far, and the rest of
the lines. -/
def loadLines (pid : Str) : List Str → List DiskConfig → List DiskConfig → Res (List DiskConfig × List DiskConfig)
  | [], ds, fs => .ok (ds, fs)
  | l :: ls, ds, fs =>
    if l = [] ∨ l.head? = some '#' then loadLines pid ls ds fs
    else (parseLine pid defaultConfig l).bind fun e =>
      if e.flash = false then loadLines pid ls (ds ++ [e]) fs else loadLines pid ls ds (fs ++ [e])

/-- `load_config_file` into a configuration with the disks `old` (`config.cpp:133-169`): the list of disks and `first_flash`. -/
def loadConfig (pid : Str) (old : List DiskConfig) (lines : List Str) : Res (List DiskConfig × Nat) :=
  (loadLines pid lines old []).bind fun r =>
    if r.1 ++ r.2 = [] then .runtimeError else .ok (r.1 ++ r.2, r.1.length)

/-- The device id counter and the ids given to the files opened so far (`create_file.cpp:59-68`, `config.cpp:171-188`,
`m_max_device_id` is an `unsigned`): `want` is the configured id. Result: new counter and the id of the file. -/
def nextId (counter want : Nat) : Nat × Nat :=
  if want = defaultDeviceId then ((counter + 1) % 2 ^ 32, counter)
  else (if counter < (want + 1) % 2 ^ 32 then (want + 1) % 2 ^ 32 else counter, want)

/-- Opening files one after the other. Result: the ids. -/
def openAll : Nat → List Nat → List Nat
  | _, [] => []
  | counter, w :: ws => (nextId counter w).2 :: openAll (nextId counter w).1 ws

end Stxxl.Config
