/-!
# Model of `stxxl::disk_allocator`

Models `/repo/include/stxxl/bits/mng/disk_allocator.h` and `/repo/lib/mng/disk_allocator.cpp`.

Simplifications: `int64` is `Int` (no wrap-around); the storage file is represented only by its size,
which `grow_file` keeps equal to `disk_bytes`; log output is dropped. The mutex makes every locked section
atomic, so a locked section is one function here and a concurrent execution is a sequence of such sections.
-/

namespace Stxxl.DiskAlloc

/-- A region `(position, size)`; `disk_allocator.h:45` (`place`). -/
abbrev Region := Int × Int

/-- `sortseq free_space` (`disk_allocator.h:57,60`), a `std::map` from position to size, as the list of its
entries in iteration order. -/
abbrev FreeMap := List Region

/-- `std::map::upper_bound(p)`: the entries before the returned iterator and those from it on. -/
def upperBound (m : FreeMap) (p : Int) : FreeMap × FreeMap :=
  (m.takeWhile (fun e => e.1 ≤ p), m.dropWhile (fun e => e.1 ≤ p))

/-- `std::map::erase` of the entry with key `k`. -/
def mapErase (m : FreeMap) (k : Int) : FreeMap := m.filter (fun e => e.1 ≠ k)

/-- `std::map::operator[](k) = v`: overwrite or insert at the sorted position. -/
def mapSet : FreeMap → Int → Int → FreeMap
  | [], k, v => [(k, v)]
  | e :: m, k, v =>
    if k < e.1 then (k, v) :: e :: m
    else if k = e.1 then (k, v) :: m
    else e :: mapSet m k v

/-- The ways a call can fail. `doubleFree` and `outOfMemory` are `bad_ext_alloc` exceptions
(`disk_allocator.cpp:83,90`, `disk_allocator.h:175`); `assertFailed` is a failed `assert`
(`disk_allocator.cpp:98,133`, `disk_allocator.h:196,236,237`), undefined behaviour in release builds. -/
inductive Err where
  | doubleFree
  | outOfMemory
  | assertFailed
  deriving DecidableEq, Repr

/-- Data members `disk_allocator.h:60-65`. `cfg_bytes` is only used by the destructor and left out. -/
structure State where
  free : FreeMap
  freeBytes : Int
  diskBytes : Int
  autogrow : Bool
  deriving DecidableEq, Repr

/-- Tail of `add_free_region` (`disk_allocator.cpp:156-157`): `free_space[pos] = size; free_bytes += block_size`. -/
def put (s : State) (m : FreeMap) (pos size blockSize : Int) : State :=
  { s with free := mapSet m pos size, freeBytes := s.freeBytes + blockSize }

/-- `add_free_region`, `disk_allocator.cpp:66-160`. -/
def addFreeRegion (s : State) (pos size : Int) : Except Err State :=
  if s.free = [] then .ok (put s s.free pos size size)
  else
    let lo := (upperBound s.free pos).1
    let hi := (upperBound s.free pos).2
    let succ := hi.head?
    -- line 76-78: pred = succ, decremented unless succ is begin()
    let pred := if lo = [] then hi.head? else lo.getLast?
    -- line 79-85
    if pred.any (fun q => q.1 ≤ pos ∧ q.1 + q.2 > pos) then .error .doubleFree
    -- line 86-92
    else if succ.any (fun t => pos ≤ t.1 ∧ pos + size > t.1) then .error .doubleFree
    else
      match succ with
      | none =>
        -- line 93-107
        match pred with
        | none => .error .assertFailed
        | some q =>
          if q.1 + q.2 = pos then .ok (put s (mapErase s.free q.1) q.1 (size + q.2) size)
          else .ok (put s s.free pos size size)
      | some t =>
        if s.free.length > 1 then
          -- line 119-127
          let joinS := t.1 = pos + size
          let m1 := if joinS then mapErase s.free t.1 else s.free
          let size1 := if joinS then size + t.2 else size
          -- line 128-142
          if lo ≠ [] then
            match pred with
            | none => .error .assertFailed
            | some q =>
              if q.1 + q.2 = pos then .ok (put s (mapErase m1 q.1) q.1 (size1 + q.2) size)
              else .ok (put s m1 pos size1 size)
          else .ok (put s m1 pos size1 size)
        else
          -- line 146-151
          if t.1 = pos + size then .ok (put s (mapErase s.free t.1) pos (size + t.2) size)
          else .ok (put s s.free pos size size)

/-- `grow_file`, `disk_allocator.h:77-85`. -/
def growFile (s : State) (extend : Int) : Except Err State :=
  if extend = 0 then .ok s
  else
    match addFreeRegion s s.diskBytes extend with
    | .error e => .error e
    | .ok s' => .ok { s' with diskBytes := s.diskBytes + extend }

/-- Constructor, `disk_allocator.h:88-97`. -/
def init (cfgSize : Int) (autogrow : Bool) : Except Err State :=
  growFile { free := [], freeBytes := 0, diskBytes := 0, autogrow := autogrow } cfgSize

/-- The loop `disk_allocator.h:221-225` that assigns consecutive offsets. -/
def assign : Int → List Int → List Region
  | _, [] => []
  | pos, sz :: rest => (pos, sz) :: assign (pos + sz) rest

/-- `std::find_if` with `first_fit`, `disk_allocator.h:47-55,191,209`. -/
def firstFit (m : FreeMap) (req : Int) : Option Region := m.find? (fun e => decide (e.2 ≥ req))

/-- Outcome of one locked section of `new_blocks`. -/
inductive Try where
  /-- the blocks were placed (`disk_allocator.h:213-230`) -/
  | done (blocks : List Region)
  /-- no contiguous region: the caller must split (`disk_allocator.h:239`) -/
  | split
  deriving DecidableEq, Repr

/-- Taking `req` bytes from the found region, `disk_allocator.h:215-226`. -/
def take (s : State) (r : Region) (sizes : List Int) : State × List Region :=
  let req := sizes.sum
  let m := mapErase s.free r.1
  let m' := if r.2 > req then mapSet m (r.1 + req) (r.2 - req) else m
  ({ s with free := m', freeBytes := s.freeBytes - req }, assign r.1 sizes)

/-- The locked section of `new_blocks<BlockSize>(begin,end)`, `disk_allocator.h:163-239`, for the blocks with
the given sizes. (For `BlockSize > 0` all sizes equal `BlockSize`; for `BlockSize = 0` every `BID<0>` carries
its own size, `bid.h`.) -/
def tryAlloc (s : State) (blockSize : Int) (sizes : List Int) : Except Err (State × Try) :=
  let req := sizes.sum
  -- line 172-186
  let r1 : Except Err State :=
    if s.freeBytes < req then
      if !s.autogrow then .error .outOfMemory else growFile s req
    else .ok s
  match r1 with
  | .error e => .error e
  | .ok s1 =>
    -- line 191-211
    let r2 : Except Err (State × Option Region) :=
      match firstFit s1.free req with
      | some r => .ok (s1, some r)
      | none =>
        if req = blockSize then
          if sizes.length ≠ 1 then .error .assertFailed
          else
            match growFile s1 blockSize with
            | .error e => .error e
            | .ok s2 => .ok (s2, firstFit s2.free req)
        else .ok (s1, none)
    match r2 with
    | .error e => .error e
    | .ok (s2, some r) =>
      let res := take s2 r sizes
      .ok (res.1, .done res.2)
    | .ok (s2, none) =>
      -- line 236-239
      if ¬ (req > blockSize) ∨ ¬ (sizes.length > 1) then .error .assertFailed
      else .ok (s2, .split)

/-- `new_blocks`, `disk_allocator.h:153-244`, run without interference of other threads. On an exception the
state reached so far stays (C++ exceptions do not roll back). -/
def newBlocks (s : State) (blockSize : Int) (sizes : List Int) : State × Except Err (List Region) :=
  match tryAlloc s blockSize sizes with
  | .error e => (s, .error e)
  | .ok (s', .done bs) => (s', .ok bs)
  | .ok (s', .split) =>
    if _h : sizes.length > 1 then
      let mid := sizes.length / 2
      match newBlocks s' blockSize (sizes.take mid) with
      | (s1, .error e) => (s1, .error e)
      | (s1, .ok b1) =>
        match newBlocks s1 blockSize (sizes.drop mid) with
        | (s2, .error e) => (s2, .error e)
        | (s2, .ok b2) => (s2, .ok (b1 ++ b2))
    else (s', .error .assertFailed)
  termination_by sizes.length
  decreasing_by
    all_goals simp only [List.length_take, List.length_drop]; omega

/-- `delete_block`, `disk_allocator.h:140-150`. -/
def deleteBlock (s : State) (b : Region) : Except Err State := addFreeRegion s b.1 b.2

/-- `get_free_bytes`, `disk_allocator.h:106-109`. -/
def getFreeBytes (s : State) : Int := s.freeBytes
/-- `get_used_bytes`, `disk_allocator.h:111-114`. -/
def getUsedBytes (s : State) : Int := s.diskBytes - s.freeBytes
/-- `get_total_bytes`, `disk_allocator.h:116-119`. -/
def getTotalBytes (s : State) : Int := s.diskBytes

end Stxxl.DiskAlloc
