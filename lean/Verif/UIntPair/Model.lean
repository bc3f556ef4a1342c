/-!
# Model of `uint_pair` (`uint40`, `uint48`)

Models `/repo/include/stxxl/bits/common/uint_types.h:51-230`. `hb` is the number of bits of `HighType` (8 for `uint40`, 16 for `uint48`);
a member of an unsigned type with `k` bits is a natural number, arithmetic on it is modulo `2^k`.
-/

namespace Stxxl.UIntPair

/-- Data members, `uint_types.h:60-63`. -/
structure U where
  low : Nat
  high : Nat
  deriving DecidableEq

variable (hb : Nat)

/-- `low_max()`, `uint_types.h:66-69`. -/
def lowMax : Nat := 2 ^ 32 - 1
/-- `high_max()`, `uint_types.h:75-78`. -/
def highMax : Nat := 2 ^ hb - 1

/-- `uint_pair(uint64)`, `uint_types.h:127-133`; `none` = assertion failed. -/
def ofU64 (a : Nat) : Option U :=
  if a >>> (32 + hb) = 0 then some ⟨a &&& lowMax, (a >>> 32) &&& highMax hb⟩ else none
/-- `uint_pair(uint32)`, `uint_types.h:112-114`. -/
def ofU32 (a : Nat) : U := ⟨a, 0⟩
/-- `uint_pair(int32)`, `uint_types.h:117-124`. -/
def ofI32 (a : Int) : U := if 0 ≤ a then ⟨(a % 2 ^ 32).toNat, 0⟩ else ⟨(a % 2 ^ 32).toNat, highMax hb⟩
/-- `ull()`, `u64()`, `operator uint64`, `uint_types.h:136-151`. -/
def ull (u : U) : Nat := (u.high <<< 32) ||| u.low
/-- `operator ++`, `uint_types.h:154-161`. -/
def inc (u : U) : U := if u.low = lowMax then ⟨0, (u.high + 1) % 2 ^ hb⟩ else { u with low := (u.low + 1) % 2 ^ 32 }
/-- `operator --`, `uint_types.h:164-171`. -/
def dec (u : U) : U :=
  if u.low = 0 then ⟨lowMax, (u.high + 2 ^ hb - 1) % 2 ^ hb⟩ else { u with low := (u.low + 2 ^ 32 - 1) % 2 ^ 32 }
/-- `operator +=`, `uint_types.h:174-180`. -/
def add (u b : U) : U :=
  let add := u.low + b.low
  ⟨add &&& lowMax, (u.high + b.high + ((add >>> 32) &&& highMax hb)) % 2 ^ hb⟩
/-- `operator ==`, `uint_types.h:183-186`. -/
def eq (u b : U) : Bool := u.low == b.low && u.high == b.high
/-- `operator !=`, `uint_types.h:189-192`. -/
def ne (u b : U) : Bool := u.low != b.low || u.high != b.high
/-- `operator <`, `uint_types.h:195-198`. -/
def lt (u b : U) : Bool := decide (u.high < b.high) || (u.high == b.high && decide (u.low < b.low))
/-- `operator <=`, `uint_types.h:201-204`. -/
def le (u b : U) : Bool := decide (u.high < b.high) || (u.high == b.high && decide (u.low ≤ b.low))
/-- `operator >`, `uint_types.h:207-210`. -/
def gt (u b : U) : Bool := decide (b.high < u.high) || (u.high == b.high && decide (b.low < u.low))
/-- `operator >=`, `uint_types.h:213-216`. -/
def ge (u b : U) : Bool := decide (b.high < u.high) || (u.high == b.high && decide (b.low ≤ u.low))
/-- `min()`, `uint_types.h:225-229`. -/
def min : U := ⟨0, 0⟩
/-- `max()`, `uint_types.h:232-236`. -/
def max : U := ⟨lowMax, highMax hb⟩

end Stxxl.UIntPair
