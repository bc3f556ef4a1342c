/-!
# Model of `parse_SI_IEC_size`

Models `/repo/lib/common/utils.cpp:24-90`. A string is a list of characters; `c_str()` ends at the first NUL character.
`unsigned long`/`uint64` are 64 bits wide. `strtoul` is modelled after ISO C 7.22.1.4 with the "C" locale: leading white space, an
optional sign, digits; without digits the value is 0 and `endptr` is the *beginning of the string*; out of range gives
`ULONG_MAX`; a minus sign negates the value modulo `2^64`.
-/

namespace Stxxl.ParseUnits

/-- `isspace` in the "C" locale. -/
def isSpace (c : Char) : Bool := c = ' ' || c = '\t' || c = '\n' || c = '\x0b' || c = '\x0c' || c = '\r'

def isDigit (c : Char) : Bool := '0'.toNat ≤ c.toNat && c.toNat ≤ '9'.toNat

/-- Value of a string of digits, most significant first. -/
def digitsVal (ds : List Char) : Nat := ds.foldl (fun v c => v * 10 + (c.toNat - '0'.toNat)) 0

def W : Nat := 2 ^ 64

/-- An optional sign. Result: negative?, rest. -/
def sign : List Char → Bool × List Char
  | '-' :: r => (true, r)
  | '+' :: r => (false, r)
  | r => (false, r)

/-- `strtoul(s, &endptr, 10)`. Result: value and what `endptr` points to. -/
def strtoul (s : List Char) : Nat × List Char :=
  let r := sign (s.dropWhile isSpace)
  let ds := r.2.takeWhile isDigit
  if ds = [] then (0, s)
  else
    let v := digitsVal ds
    (if v ≥ W then W - 1 else if r.1 then (W - v) % W else v, r.2.dropWhile isDigit)

/-- `while (endptr[0] == ' ') ++endptr;`, `utils.cpp:30,81`. -/
def skipSpaces (s : List Char) : List Char := s.dropWhile (· = ' ')

/-- Power indicator, `utils.cpp:36-45`. Result: `power` and the rest. -/
def powerOf : List Char → Nat × List Char
  | c :: r =>
    if c = 'k' ∨ c = 'K' then (1, r)
    else if c = 'm' ∨ c = 'M' then (2, r)
    else if c = 'g' ∨ c = 'G' then (3, r)
    else if c = 't' ∨ c = 'T' then (4, r)
    else if c = 'p' ∨ c = 'P' then (5, r)
    else (0, c :: r)
  | [] => (0, [])

/-- `switch (def_unit)`, `utils.cpp:59-79`. Result: base and power. -/
def defUnit (c : Char) : Nat × Nat :=
  if c = 'k' then (1000, 1)
  else if c = 'm' then (1000, 2)
  else if c = 'g' then (1000, 3)
  else if c = 't' then (1000, 4)
  else if c = 'p' then (1000, 5)
  else if c = 'K' then (1024, 1)
  else if c = 'M' then (1024, 2)
  else if c = 'G' then (1024, 3)
  else if c = 'T' then (1024, 4)
  else if c = 'P' then (1024, 5)
  else (1000, 0)

/-- Base indicator, `utils.cpp:47-49`. Result: base and the rest. -/
def baseOf (power : Nat) : List Char → Nat × List Char
  | c :: r => if (c = 'i' ∨ c = 'I') ∧ power ≠ 0 then (1024, r) else (1000, c :: r)
  | [] => (1000, [])

/-- Byte indicator and default unit, `utils.cpp:51-80`. Result: base, power, rest. -/
def byteOf (defu : Char) (base power : Nat) (s : List Char) : Nat × Nat × List Char :=
  match s with
  | c :: r =>
    if c = 'b' ∨ c = 'B' then (base, power, r)
    else if power = 0 then ((defUnit defu).1, (defUnit defu).2, c :: r)
    else (base, power, c :: r)
  | [] => if power = 0 then ((defUnit defu).1, (defUnit defu).2, []) else (base, power, [])

/-- `for (p = 0; p < power; ++p) size *= base;`, `utils.cpp:84-85`. -/
def mulPow (base : Nat) : Nat → Nat → Nat
  | 0, size => size
  | p + 1, size => mulPow base p (size * base % W)

/-- `parse_SI_IEC_size(str, size, def_unit)`, `utils.cpp:24-88`. Result: `size` and the return value. The test `if (!endptr)` is never
true: `strtoul` always sets `endptr` to a pointer into the string. -/
def parse (str : List Char) (defu : Char) : Nat × Bool :=
  let s := str.takeWhile (· ≠ '\x00')
  let n := strtoul s
  let p := powerOf (skipSpaces n.2)
  let b := baseOf p.1 p.2
  let u := byteOf defu b.1 p.1 b.2
  (mulPow u.1 u.2.1 n.1, skipSpaces u.2.2 = [])

end Stxxl.ParseUnits
