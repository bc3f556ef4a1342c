/-!
# Model of `binary_buffer` and `binary_reader`

Models `/repo/include/stxxl/bits/common/binary_buffer.h:41-645`. A byte is a natural number below 256; `size_t` is 64 bits wide.
Sizes of buffers are assumed not to overflow `size_t` when a buffer grows (memory would be exhausted long before), but the
arithmetic of the reader's bounds check, whose argument comes from the caller, is modelled modulo `2^64`.
-/

namespace Stxxl.BinBuf

/-! ## Writer -/

/-- Data members, `binary_buffer.h:45-51`: `mem` is the allocated memory, `m_capacity` its length. -/
structure Buf where
  mem : List Nat
  size : Nat

namespace Buf

/-- `binary_buffer()`, `binary_buffer.h:55-57`. -/
def new : Buf := ⟨[], 0⟩
/-- `m_capacity`. -/
def cap (b : Buf) : Nat := b.mem.length

/-- `alloc`, `binary_buffer.h:134-143`; `realloc` keeps the old bytes, the new ones are arbitrary (here 0). -/
def alloc (b : Buf) (n : Nat) : Buf := if b.cap < n then { b with mem := b.mem ++ List.replicate (n - b.cap) 0 } else b

/-- The loop of `dynalloc`, `binary_buffer.h:229-233`. -/
def growTo (newsize n : Nat) : Nat :=
  if newsize < n then
    growTo (if newsize < 256 then 512 else if newsize < 1024 * 1024 then 2 * newsize else newsize + 1024 * 1024) n
  else newsize
termination_by n - newsize
decreasing_by
  split
  · omega
  · split <;> omega

/-- `dynalloc`, `binary_buffer.h:222-239`. -/
def dynalloc (b : Buf) (n : Nat) : Buf := if b.cap < n then b.alloc (growTo b.cap n) else b

/-- `memcpy(m_data + pos, data, len)`; `none` if it would write outside the allocated memory. -/
def copyIn (b : Buf) (pos : Nat) (data : List Nat) : Option Buf :=
  if pos + data.length ≤ b.cap then some { b with mem := b.mem.take pos ++ data ++ b.mem.drop (pos + data.length) } else none

/-- The part of `append` after the capacity test. -/
def putAt (b : Buf) (data : List Nat) : Option Buf :=
  match b.copyIn b.size data with
  | none => none
  | some b => some { b with size := b.size + data.length }

/-- `append`, `binary_buffer.h:244-252`; also `put<Type>(item)`, `binary_buffer.h:268-278`, with the `sizeof(Type)` bytes of the item. -/
def append (b : Buf) (data : List Nat) : Option Buf :=
  putAt (if b.cap < b.size + data.length then b.dynalloc (b.size + data.length) else b) data

/-- A run of `put<uint8>`. -/
def putBytes (b : Buf) : List Nat → Option Buf
  | [] => some b
  | x :: xs => match b.append [x] with
    | none => none
    | some b => putBytes b xs

/-- `align`, `binary_buffer.h:204-219`. -/
def align (b : Buf) (n : Nat) : Option Buf :=
  let rem := b.size % n
  if rem ≠ 0 then
    let add := n - rem
    putAt (if b.cap < b.size + add then b.dynalloc (b.size + add) else b) (List.replicate add 0)
  else some b

/-- `clear`, `binary_buffer.h:166-170`. -/
def clear (b : Buf) : Buf := { b with size := 0 }

/-- `assign`, `binary_buffer.h:174-182`. -/
def assign (b : Buf) (data : List Nat) : Option Buf :=
  match (if b.cap < data.length then b.alloc data.length else b).copyIn 0 data with
  | none => none
  | some b => some { b with size := data.length }

/-- `(uint8)(((v >> k) & 0x7F) | 0x80)`. -/
def lo (v k : Nat) : Nat := ((v >>> k) &&& 0x7F) ||| 0x80
/-- `(uint8)((v >> k) & 0x7F)`. -/
def hi (v k : Nat) : Nat := (v >>> k) &&& 0x7F

/-- The bytes put by `put_varint(uint32)`, `binary_buffer.h:281-310`. -/
def varint32 (v : Nat) : List Nat :=
  if v < 128 then [v]
  else if v < 128 * 128 then [lo v 0, hi v 7]
  else if v < 128 * 128 * 128 then [lo v 0, lo v 7, hi v 14]
  else if v < 128 * 128 * 128 * 128 then [lo v 0, lo v 7, lo v 14, hi v 21]
  else [lo v 0, lo v 7, lo v 14, lo v 21, hi v 28]

/-- The bytes put by `put_varint(uint64)`, `binary_buffer.h:319-398`. -/
def varint64 (v : Nat) : List Nat :=
  if v < 128 then [v]
  else if v < 128 * 128 then [lo v 0, hi v 7]
  else if v < 128 * 128 * 128 then [lo v 0, lo v 7, hi v 14]
  else if v < 128 * 128 * 128 * 128 then [lo v 0, lo v 7, lo v 14, hi v 21]
  else if v < 128 * 128 * 128 * 128 * 128 then [lo v 0, lo v 7, lo v 14, lo v 21, hi v 28]
  else if v < 128 * 128 * 128 * 128 * 128 * 128 then [lo v 0, lo v 7, lo v 14, lo v 21, lo v 28, hi v 35]
  else if v < 128 * 128 * 128 * 128 * 128 * 128 * 128 then [lo v 0, lo v 7, lo v 14, lo v 21, lo v 28, lo v 35, hi v 42]
  else if v < 128 * 128 * 128 * 128 * 128 * 128 * 128 * 128 then [lo v 0, lo v 7, lo v 14, lo v 21, lo v 28, lo v 35, lo v 42, hi v 49]
  else if v < 128 * 128 * 128 * 128 * 128 * 128 * 128 * 128 * 128 then
    [lo v 0, lo v 7, lo v 14, lo v 21, lo v 28, lo v 35, lo v 42, lo v 49, hi v 56]
  else [lo v 0, lo v 7, lo v 14, lo v 21, lo v 28, lo v 35, lo v 42, lo v 49, lo v 56, hi v 63]

/-- `put_varint(uint32)`. -/
def putVarint32 (b : Buf) (v : Nat) : Option Buf := b.putBytes (varint32 v)
/-- `put_varint(uint64)`. -/
def putVarint64 (b : Buf) (v : Nat) : Option Buf := b.putBytes (varint64 v)
/-- `put_string`, `binary_buffer.h:401-416`: the length is cast to `uint32`. -/
def putString (b : Buf) (s : List Nat) : Option Buf :=
  match b.putVarint32 (s.length % 2 ^ 32) with
  | none => none
  | some b => b.append s

/-- `data()[0 .. size())`, `str()`, `binary_buffer.h:118-121`. -/
def str (b : Buf) : List Nat := b.mem.take b.size

end Buf

/-! ## Reader -/

/-- How a reader call ends: a result, one of the two exceptions, or undefined behaviour (access outside the buffer). -/
inductive Res (α : Type) where
  | ok (x : α)
  | underflow
  | overflow
  | ub
  deriving DecidableEq

/-- A reader call: from buffer and cursor `m_curr` to outcome and cursor (the cursor keeps its value when an exception is thrown). -/
def RM (α : Type) := List Nat → Nat → Res α × Nat

namespace RM
variable {α β : Type}
def pure (x : α) : RM α := fun _ c => (.ok x, c)
def throwOverflow : RM α := fun _ c => (.overflow, c)
def bind (m : RM α) (f : α → RM β) : RM β := fun d c =>
  match m d c with
  | (.ok x, c') => f x d c'
  | (.underflow, c') => (.underflow, c')
  | (.overflow, c') => (.overflow, c')
  | (.ub, c') => (.ub, c')
end RM

/-- `cursor_available(n)`, `binary_buffer.h:516-519`. -/
def available (d : List Nat) (c n : Nat) : Bool := decide ((c + n) % 2 ^ 64 ≤ d.length)

/-- `skip(n)`, `binary_buffer.h:536-542`. -/
def skip (n : Nat) : RM Unit := fun d c => if available d c n then (.ok (), (c + n) % 2 ^ 64) else (.underflow, c)

/-- `read(n)`, `binary_buffer.h:546-563`, and `get<Type>()`, `binary_buffer.h:567-576`, with `n = sizeof(Type)`. -/
def read (n : Nat) : RM (List Nat) := fun d c =>
  if available d c n then (if c + n ≤ d.length then (.ok ((d.drop c).take n), (c + n) % 2 ^ 64) else (.ub, c)) else (.underflow, c)

/-- `get<uint8>()`. -/
def get8 : RM Nat := RM.bind (read 1) fun l => RM.pure (l.headD 0)

/-- `v |= (u & 0x7F) << k` in `W` bits. -/
def orIn (W v u k : Nat) : Nat := v ||| (((u &&& 0x7F) <<< k) % 2 ^ W)

open RM in
/-- `get_varint()`, `binary_buffer.h:579-595`. -/
def getVarint : RM Nat :=
  bind get8 fun v =>
  if v &&& 0x80 = 0 then pure v else
  bind get8 fun u => let v := orIn 32 (v &&& 0x7F) u 7
  if u &&& 0x80 = 0 then pure v else
  bind get8 fun u => let v := orIn 32 v u 14
  if u &&& 0x80 = 0 then pure v else
  bind get8 fun u => let v := orIn 32 v u 21
  if u &&& 0x80 = 0 then pure v else
  bind get8 fun u =>
  if u &&& 0xF0 ≠ 0 then throwOverflow else pure (orIn 32 v u 28)

open RM in
/-- `get_varint64()`, `binary_buffer.h:598-624`. -/
def getVarint64 : RM Nat :=
  bind get8 fun v =>
  if v &&& 0x80 = 0 then pure v else
  bind get8 fun u => let v := orIn 64 (v &&& 0x7F) u 7
  if u &&& 0x80 = 0 then pure v else
  bind get8 fun u => let v := orIn 64 v u 14
  if u &&& 0x80 = 0 then pure v else
  bind get8 fun u => let v := orIn 64 v u 21
  if u &&& 0x80 = 0 then pure v else
  bind get8 fun u => let v := orIn 64 v u 28
  if u &&& 0x80 = 0 then pure v else
  bind get8 fun u => let v := orIn 64 v u 35
  if u &&& 0x80 = 0 then pure v else
  bind get8 fun u => let v := orIn 64 v u 42
  if u &&& 0x80 = 0 then pure v else
  bind get8 fun u => let v := orIn 64 v u 49
  if u &&& 0x80 = 0 then pure v else
  bind get8 fun u => let v := orIn 64 v u 56
  if u &&& 0x80 = 0 then pure v else
  bind get8 fun u =>
  if u &&& 0xFE ≠ 0 then throwOverflow else pure (orIn 64 v u 63)

/-- `get_string()`, `binary_buffer.h:627-631`. -/
def getString : RM (List Nat) := RM.bind getVarint fun n => read n

/-- `get_binary_buffer_ref()`, `binary_buffer.h:635-643`: a (start, length) reference, made before the bounds check. -/
def getRef : RM (Nat × Nat) := RM.bind getVarint fun n => fun d c => RM.bind (skip n) (fun _ => RM.pure (c, n)) d c

end Stxxl.BinBuf
