/-!
# The file types: `serve`, `set_size`, `discard`

The bottom layer of the library: an I/O request ends in `serve(buffer, offset, bytes, type)` of one of the file
types.  Modelled here are `syscall_file`, `mmap_file`, `boostfd_file`, `mem_file`, and `fileperblock_file` over any of
the first three.  What the operating system may do (a short `read` or `write`, an error at any call, arbitrary content
of fresh memory) is a parameter of every step: `Sys` is the behaviour of the system calls of one loop iteration, and
the theorems quantify over all of them.
-/

namespace Stxxl.FileIo

/-- A byte of a file or of a buffer. -/
abbrev Byte := UInt8

/-- How a call ended: normally, by an `io_error` exception, or in undefined behaviour (an access outside a memory
area, a bus error).  `stuck` is never reached; it stands for a loop that has not ended after `bytes` iterations. -/
inductive Out where
  | ok | throws | ub | stuck
deriving DecidableEq, Repr

/-- What the system calls of one loop iteration do: does `lseek` fail, does `read`/`write` fail (`none`) or how many
bytes is it willing to transfer, does `lseek(…, SEEK_END)` in `_size()` fail. -/
structure Sys where
  seekFails : Bool := false
  rc : Option Nat
  endFails : Bool := false
deriving Repr

/-- The environment of one call: the system calls of the successive iterations, failures of `open`, of `ftruncate`
(or of the seeks of `set_size`), of `mmap`, of `munmap`, and the content of memory nobody has written. -/
structure Env where
  sys : Nat → Sys
  openFails : Bool := false
  truncFails : Bool := false
  mapFails : Bool := false
  unmapFails : Bool := false
  junk : Nat → Byte := fun _ => 0

/-- POSIX: bytes of the file `f` at `off`, at most `n` (what `read` can deliver). -/
def avail (f : List Byte) (off n : Nat) : List Byte := (f.drop off).take n

/-- `memcpy(buf + pos, xs, |xs|)` inside the buffer. -/
def splice (buf : List Byte) (pos : Nat) (xs : List Byte) : List Byte := buf.take pos ++ xs ++ buf.drop (pos + xs.length)

/-- POSIX: the file after `write` has transferred `xs` at `off`; a gap behind the old end is filled with zeroes. -/
def pwrite (f : List Byte) (off : Nat) (xs : List Byte) : List Byte :=
  splice (f ++ List.replicate (off - f.length) 0) off xs

/-- POSIX `ftruncate`: cut, or extend by zeroes. -/
def truncate (f : List Byte) (n : Nat) : List Byte := f.take n ++ List.replicate (n - f.length) 0

/-- POSIX: the return value of `read(fd, …, bytes)` at `off`: `none` is −1; otherwise at least 1 byte and at most what
is there, so 0 exactly at or behind the end of the file. -/
def readRet (f : List Byte) (off bytes : Nat) : Option Nat → Option Nat
  | none => none
  | some k => some (min (max k 1) (avail f off bytes).length)

/-- POSIX: the return value of `write(fd, …, bytes)`: `none` is −1; otherwise any number up to `bytes`. -/
def writeRet (bytes : Nat) : Option Nat → Option Nat
  | none => none
  | some k => some (min k bytes)

/-- `syscall_file::serve` for READ: lib/io/syscall_file.cpp:35-84.  `pos` is `cbuffer - buffer`; the first argument
bounds the iterations (it is `bytes` at the start, and never the reason to stop: `C46_never_stuck`). -/
def readLoop (f : List Byte) : Nat → (Nat → Sys) → List Byte → Nat → Nat → Nat → Out × List Byte
  | 0, _, buf, _, _, bytes => (if bytes = 0 then .ok else .stuck, buf)
  | n + 1, sc, buf, pos, off, bytes =>
    if bytes = 0 then (.ok, buf)
    else if (sc 0).seekFails then (.throws, buf)
    else
      match readRet f off bytes (sc 0).rc with
      | none => (.throws, buf)
      | some k =>
        if k = 0 then (.throws, buf)
        else if bytes - k > 0 then
          if (sc 0).endFails then (.throws, splice buf pos (avail f off k))
          else if off + k = f.length then
            (.ok, splice (splice buf pos (avail f off k)) (pos + k) (List.replicate (bytes - k) 0))
          else readLoop f n (fun i => sc (i + 1)) (splice buf pos (avail f off k)) (pos + k) (off + k) (bytes - k)
        else readLoop f n (fun i => sc (i + 1)) (splice buf pos (avail f off k)) (pos + k) (off + k) (bytes - k)

/-- `syscall_file::serve` for WRITE: lib/io/syscall_file.cpp:35-50 and 85-110. -/
def writeLoop (buf : List Byte) : Nat → (Nat → Sys) → List Byte → Nat → Nat → Nat → Out × List Byte
  | 0, _, f, _, _, bytes => (if bytes = 0 then .ok else .stuck, f)
  | n + 1, sc, f, pos, off, bytes =>
    if bytes = 0 then (.ok, f)
    else if (sc 0).seekFails then (.throws, f)
    else
      match writeRet bytes (sc 0).rc with
      | none => (.throws, f)
      | some k =>
        if k = 0 then (.throws, f)
        else writeLoop buf n (fun i => sc (i + 1)) (pwrite f off (avail buf pos k)) (pos + k) (off + k) (bytes - k)

/-- READ or WRITE. -/
inductive Ty where
  | read | write
deriving DecidableEq, Repr

/-- The file types. -/
inductive Kind where
  | syscall | mmap | boostfd | mem
deriving DecidableEq, Repr

/-- `syscall_file::serve`: lib/io/syscall_file.cpp:26-112.  Result: outcome, file, buffer. -/
def syscallServe (e : Env) (f : List Byte) (ty : Ty) (off : Nat) (buf : List Byte) : Out × List Byte × List Byte :=
  match ty with
  | .read => let r := readLoop f buf.length e.sys buf 0 off buf.length; (r.1, f, r.2)
  | .write => let r := writeLoop buf buf.length e.sys f 0 off buf.length; (r.1, r.2, buf)

/-- `boostfd_file::serve`: lib/io/boostfd_file.cpp:29-96.  One seek, one transfer; anything but a complete transfer
throws, after what was transferred has reached the buffer or the file. -/
def boostfdServe (e : Env) (f : List Byte) (ty : Ty) (off : Nat) (buf : List Byte) : Out × List Byte × List Byte :=
  if (e.sys 0).seekFails then (.throws, f, buf)
  else
    match ty with
    | .read =>
      match (e.sys 0).rc with
      | none => (.throws, f, buf)
      | some k =>
        let d := avail f off (min k buf.length)
        (if d.length = buf.length then .ok else .throws, f, splice buf 0 d)
    | .write =>
      match (e.sys 0).rc with
      | none => (.throws, f, buf)
      | some k =>
        let d := avail buf 0 k
        (if d.length = buf.length then .ok else .throws, if d = [] then f else pwrite f off d, buf)

/-- Does a mapping of `n` bytes at `off` lie in pages that contain a byte of the file?  Touching a page behind the
last one is a bus error. -/
def mapOk (page size off n : Nat) : Bool := off + n ≤ (size + page - 1) / page * page

/-- `mmap_file::serve`: lib/io/mmap_file.cpp:25-66.  `mmap` fails for an offset that is no multiple of the page size,
for zero bytes, or because the system says so.  Behind the end of the file but in its last page, bytes read as zero and
written bytes are lost; in a page behind that, the access is a bus error (`ub`). -/
def mmapServe (page : Nat) (e : Env) (f : List Byte) (ty : Ty) (off : Nat) (buf : List Byte) : Out × List Byte × List Byte :=
  if e.mapFails || off % page != 0 || buf.length == 0 then (.throws, f, buf)
  else if mapOk page f.length off buf.length = false then (.ub, f, buf)
  else
    match ty with
    | .read =>
      (if e.unmapFails then .throws else .ok, f,
        avail f off buf.length ++ List.replicate (buf.length - (avail f off buf.length).length) 0)
    | .write => (if e.unmapFails then .throws else .ok, (pwrite f off buf).take f.length, buf)

/-- `mem_file::serve`: lib/io/mem_file.cpp:23-38.  `memcpy` with no check of the bounds. -/
def memServe (f : List Byte) (ty : Ty) (off : Nat) (buf : List Byte) : Out × List Byte × List Byte :=
  if off + buf.length ≤ f.length then
    match ty with
    | .read => (.ok, f, avail f off buf.length)
    | .write => (.ok, splice f off buf, buf)
  else (.ub, f, buf)

/-- `serve` of the file types that keep everything in one file. -/
def baseServe (k : Kind) (page : Nat) (e : Env) (f : List Byte) (ty : Ty) (off : Nat) (buf : List Byte) :
    Out × List Byte × List Byte :=
  match k with
  | .syscall => syscallServe e f ty off buf
  | .mmap => mmapServe page e f ty off buf
  | .boostfd => boostfdServe e f ty off buf
  | .mem => memServe f ty off buf

/-- `set_size`: `ufs_file_base::_set_size` (lib/io/ufs_file_base.cpp:222-256, neither read-only nor a device) for
syscall and mmap; `boostfd_file::set_size` (lib/io/boostfd_file.cpp:178-185) only seeks, so nothing changes;
`mem_file::set_size` (lib/io/mem_file.cpp:60-67) is a `realloc`. -/
def baseSetSize (k : Kind) (e : Env) (f : List Byte) (n : Nat) : Out × List Byte :=
  match k with
  | .syscall | .mmap => if e.truncFails then (.throws, f) else (.ok, truncate f n)
  | .boostfd => if e.truncFails then (.throws, f) else (.ok, f)
  | .mem => (.ok, f.take n ++ (List.range (n - f.length)).map e.junk)

/-- `discard`: a no-op in `file` (include/stxxl/bits/io/file.h:137-141), so for the file-descriptor types;
`mem_file::discard` (lib/io/mem_file.cpp:70-91) overwrites the region with whatever fresh memory contains, without a
check of the bounds. -/
def baseDiscard (k : Kind) (e : Env) (f : List Byte) (off len : Nat) : Out × List Byte :=
  match k with
  | .syscall | .mmap | .boostfd => (.ok, f)
  | .mem => if off + len ≤ f.length then (.ok, splice f off ((List.range len).map e.junk)) else (.ub, f)

/-- A file object: its type, whether it is a `fileperblock_file` over that type, whether it was opened with `TRUNC`,
and the page size. -/
structure Cfg where
  kind : Kind
  perBlock : Bool := false
  trunc : Bool := false
  page : Nat := 4096

/-- Contents: the one file, or the file of each offset (`none`: does not exist). -/
structure St where
  main : List Byte := []
  blocks : Nat → Option (List Byte) := fun _ => none

/-- Replace the file of offset `o`. -/
def St.setBlock (s : St) (o : Nat) (f : Option (List Byte)) : St :=
  { s with blocks := fun x => if x = o then f else s.blocks x }

/-- The file as `open(filename_for_block(offset), mode)` finds it: created if absent (mode has `CREAT`), emptied if the
mode has `TRUNC`: `ufs_file_base::ufs_file_base`, lib/io/ufs_file_base.cpp:32-118, boostfd_file.cpp:103-164. -/
def opened (c : Cfg) (s : St) (o : Nat) : List Byte := if c.trunc then [] else (s.blocks o).getD []

/-- `fileperblock_file::serve`: lib/io/fileperblock_file.cpp:80-86.  Open the block's file, give it the size of the
request, serve at 0. -/
def fpbServe (c : Cfg) (e : Env) (s : St) (ty : Ty) (off : Nat) (buf : List Byte) : Out × St × List Byte :=
  if e.openFails then (.throws, s, buf)
  else
    let f := opened c s off
    let r := baseSetSize c.kind e f buf.length
    if r.1 = .ok then
      let q := baseServe c.kind c.page e r.2 ty 0 buf
      (q.1, s.setBlock off (some q.2.1), q.2.2)
    else (r.1, s.setBlock off (some f), buf)

/-- A call on the file object: one request served, `set_size`, `discard`. -/
inductive Op where
  | read (off len : Nat)
  | write (off : Nat) (buf : List Byte)
  | setSize (n : Nat)
  | discard (off len : Nat)
deriving DecidableEq, Repr

/-- One call.  Result: outcome, contents, and the buffer of a read (`old` is its content before).  For a
`fileperblock_file`, `set_size` only records the number (fileperblock_file.h:58) and `discard` removes the file
(lib/io/fileperblock_file.cpp:109-121, a failing `remove` only prints). -/
def step (c : Cfg) (e : Env) (old : List Byte) (s : St) : Op → Out × St × List Byte
  | .read off len =>
    let buf := truncate old len
    if c.perBlock then fpbServe c e s .read off buf
    else let q := baseServe c.kind c.page e s.main .read off buf; (q.1, { s with main := q.2.1 }, q.2.2)
  | .write off buf =>
    if c.perBlock then let q := fpbServe c e s .write off buf; (q.1, q.2.1, [])
    else let q := baseServe c.kind c.page e s.main .write off buf; (q.1, { s with main := q.2.1 }, [])
  | .setSize n =>
    if c.perBlock then (.ok, s, [])
    else let r := baseSetSize c.kind e s.main n; (r.1, { s with main := r.2 }, [])
  | .discard off len =>
    if c.perBlock then (.ok, if e.openFails then s else s.setBlock off none, [])
    else let r := baseDiscard c.kind e s.main off len; (r.1, { s with main := r.2 }, [])

/-- A call together with what the system does during it, and the old content of a read's buffer. -/
structure Call where
  op : Op
  env : Env
  old : List Byte := []

/-- What is observed: the call, how it ended, the buffer of a read. -/
structure Ev where
  op : Op
  out : Out
  got : List Byte
deriving DecidableEq, Repr

/-- A history of calls; it ends at undefined behaviour. -/
def run (c : Cfg) (s : St) : List Call → List Ev × St
  | [] => ([], s)
  | q :: qs =>
    let r := step c q.env q.old s q.op
    if r.1 = .ub then ([⟨q.op, r.1, r.2.2⟩], r.2.1)
    else let t := run c r.2.1 qs; (⟨q.op, r.1, r.2.2⟩ :: t.1, t.2)

end Stxxl.FileIo
