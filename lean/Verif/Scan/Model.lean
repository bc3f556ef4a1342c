import Verif.ExtVector.Model

/-!
# Model of the scanning algorithms and of `random_shuffle`

Models `/repo/include/stxxl/bits/algo/scan.h` (`for_each`, `for_each_m`, `generate`, `find`) and
`/repo/include/stxxl/bits/algo/random_shuffle.h` (the version for `stxxl::vector`), on top of the model of the vector: the algorithms flush the
cache of the vector and then read and write its blocks directly on disk.

Simplifications: the streams `buf_istream` and `buf_ostream` are modelled by their effect (C28): a block is read when its first element is
asked for and written when its last element has been put. (The real streams read ahead; no algorithm here writes a block of which elements
remain to be read, so this makes no difference. They also write behind; in `generate` the page loaded at `scan.h:256-261` can therefore be
older than the blocks written before, but this copy is thrown away at `:263-264`.) Iterators are positions. The stacks of
`random_shuffle` are lists (C11-C14). `none` is undefined behaviour or a failed assertion.
-/

namespace Stxxl.Scan

open Stxxl.ExtVector

variable {α σ : Type}

/-- A vector with an input stream (position, block in memory) and an output stream (block number, element number, block in memory). -/
structure St (α : Type) where
  sys : Sys α
  ipos : Nat
  icur : Nat → α
  ok : Nat
  onum : Nat
  ocur : Nat → α

/-- `in >> tmp` / `++in`, `mng/buf_istream.h:118-150`; `hi` is the end of the stream (a block number). -/
def get (B hi : Nat) (st : St α) : Option (St α × α) :=
  let k := st.ipos / B
  if hi ≤ k then none
  else if st.ipos % B = 0 then
    match st.sys.vec.bids[k]? with
    | none => none
    | some b => some ({ st with ipos := st.ipos + 1, icur := st.sys.disk b }, st.sys.disk b 0)
  else some ({ st with ipos := st.ipos + 1 }, st.icur (st.ipos % B))

/-- `out << x`, `mng/buf_ostream.h:61-70`. -/
def put (B : Nat) (st : St α) (x : α) : Option (St α) :=
  let cur := upd st.ocur st.onum x
  if st.onum + 1 ≥ B then
    match st.sys.vec.bids[st.ok]? with
    | none => none
    | some b => some { st with sys := { st.sys with disk := upd st.sys.disk b cur }, ok := st.ok + 1, onum := 0, ocur := cur }
  else some { st with onum := st.onum + 1, ocur := cur }

/-- `n` times: read an element, apply the functor, write the element. -/
def pass (B hi : Nat) (f : σ → α → σ × α) : Nat → St α → σ → Option (St α × σ)
  | 0, st, a => some (st, a)
  | n + 1, st, a =>
    match get B hi st with
    | none => none
    | some (st, x) =>
      match put B st (f a x).2 with
      | none => none
      | some st => pass B hi f n st (f a x).1

/-- `n` times: read an element and apply the functor. -/
def scan (B hi : Nat) (f : σ → α → σ) : Nat → St α → σ → Option (St α × σ)
  | 0, st, a => some (st, a)
  | n + 1, st, a =>
    match get B hi st with
    | none => none
    | some (st, x) => scan B hi f n st (f a x)

/-- The functor that leaves elements alone. -/
def keep (a : σ) (x : α) : σ × α := (a, x)

/-- The number of the block after the range, `end.bid() + (end.block_offset() ? 1 : 0)`. -/
def endBlock (B e : Nat) : Nat := e / B + if e % B ≠ 0 then 1 else 0

/-- Streams opened at the block of position `b`. -/
def openAt (B b : Nat) (s : Sys α) (junk : Nat → α) : St α :=
  { sys := s, ipos := b - b % B, icur := junk, ok := b / B, onum := 0, ocur := junk }

/-- `for_each`, `scan.h:49-100`. -/
def forEach (B P : Nat) (s : Sys α) (b e : Nat) (f : σ → α → σ) (a : σ) (junk : Nat → α) : Option (Sys α × σ) :=
  if b = e then some (s, a)
  else
    match flush P s with
    | none => none
    | some s =>
      match scan B (endBlock B e) (fun a _ => a) (b % B) (openAt B b s junk) a with
      | none => none
      | some (st, a) =>
        match scan B (endBlock B e) f (e - b) st a with
        | none => none
        | some (st, a) =>
          if e % B ≠ 0 then
            match scan B (endBlock B e) (fun a _ => a) (B - e % B) st a with
            | none => none
            | some (st, a) => some (st.sys, a)
          else some (st.sys, a)

/-- `for_each_m`, `scan.h:123-186`; the end of the block of `out` asserts that no started block is left. -/
def forEachM (B P : Nat) (s : Sys α) (b e : Nat) (f : σ → α → σ × α) (a : σ) (junk : Nat → α) : Option (Sys α × σ) :=
  if b = e then some (s, a)
  else
    match flush P s with
    | none => none
    | some s =>
      match pass B (endBlock B e) keep (b % B) (openAt B b s junk) a with
      | none => none
      | some (st, a) =>
        match pass B (endBlock B e) f (e - b) st a with
        | none => none
        | some (st, a) =>
          if e % B ≠ 0 then
            match pass B (endBlock B e) keep (B - e % B) st a with
            | none => none
            | some (st, a) => if st.onum = 0 then some (st.sys, a) else none
          else if st.onum = 0 then some (st.sys, a) else none

/-- The search loop of `find`, `scan.h:314-321`; result: the number of elements before the hit. -/
def findLoop (B hi : Nat) (p : α → Bool) : Nat → St α → Option Nat
  | 0, _ => some 0
  | n + 1, st =>
    match get B hi st with
    | none => none
    | some (st, x) => if p x then some 0 else (findLoop B hi p n st).map (· + 1)

/-- `find`, `scan.h:288-324`. -/
def find (B P : Nat) (s : Sys α) (b e : Nat) (p : α → Bool) (junk : Nat → α) : Option (Sys α × Nat) :=
  if b = e then some (s, e)
  else
    match flush P s with
    | none => none
    | some s =>
      match scan B (endBlock B e) (fun (a : Unit) _ => a) (b % B) (openAt B b s junk) () with
      | none => none
      | some (st, _) =>
        match findLoop B (endBlock B e) p (e - b) st with
        | none => none
        | some n => some (s, b + n)

/-- The first loop of `generate`, `scan.h:216-224`: assign elements until the beginning of a block. Result: state, generator, position,
finished? `k` bounds the number of iterations (a block has `B` elements). -/
def genHead (B P : Nat) (gen : σ → σ × α) (vic : Nat → Nat) (e : Nat) : Nat → Sys α → σ → Nat → Option (Sys α × σ × Nat × Bool)
  | 0, s, a, b => some (s, a, b, false)
  | k + 1, s, a, b =>
    if b % B = 0 then some (s, a, b, false)
    else if b = e then some (s, a, b, true)
    else
      match elementWrite B P s b (gen a).2 (vic b) with
      | none => none
      | some s => genHead B P gen vic e k s (gen a).1 (b + 1)

/-- The main loop of `generate`, `scan.h:240-252`, `n` iterations from position `b`; `prev` is `prev_block`. -/
def genLoop (B P : Nat) (gen : σ → σ × α) : Nat → St α → σ → Nat → Nat → Option (St α × σ × Nat)
  | 0, st, a, _, prev => some (st, a, prev)
  | n + 1, st, a, b, prev =>
    if b % B = 0 ∧ prev ≠ b then
      match pageExternallyUpdated st.sys (prev / (B * P)) with
      | none => none
      | some s =>
        match put B { st with sys := s } (gen a).2 with
        | none => none
        | some st => genLoop B P gen n st (gen a).1 (b + 1) b
    else
      match put B st (gen a).2 with
      | none => none
      | some st => genLoop B P gen n st (gen a).1 (b + 1) prev

/-- `while (out.block_offset())`, `scan.h:256-261`: fill the rest of the block with the old elements. -/
def genTail (B P : Nat) (vic : Nat → Nat) : Nat → St α → Nat → Option (St α × Nat)
  | 0, st, out => some (st, out)
  | k + 1, st, out =>
    if out % B = 0 then some (st, out)
    else
      match constElement B P st.sys out (vic out) with
      | none => none
      | some (s, x) =>
        match put B { st with sys := s } x with
        | none => none
        | some st => genTail B P vic k st (out + 1)

/-- `generate`, `scan.h:206-267`. -/
def generate (B P : Nat) (s : Sys α) (b e : Nat) (gen : σ → σ × α) (a : σ) (vic : Nat → Nat) (junk : Nat → α) : Option (Sys α × σ) :=
  match genHead B P gen vic e B s a b with
  | none => none
  | some (s, a, _, true) => some (s, a)
  | some (s, a, b, false) =>
    match flush P s with
    | none => none
    | some s =>
      match genLoop B P gen (e - b) (openAt B b s junk) a b b with
      | none => none
      | some (st, a, prev) =>
        match genTail B P vic B st e with
        | none => none
        | some (st, out) =>
          match (if prev ≠ out then pageExternallyUpdated st.sys (prev / (B * P)) else some st.sys) with
          | none => none
          | some s =>
            match flush P s with
            | none => none
            | some s => if st.onum = 0 then some (s, a) else none

/-! ## `random_shuffle` -/

/-- Undefined behaviour, or more recursion than the given depth. -/
inductive Err
  | ub
  | depth

/-- Everything the algorithm depends on besides the vector: `R` is the state of the random number generator, `rng` is `rand(k)`, `shuf` is
`std::random_shuffle`; `BS` and `sz` are the sizes of a block and of an element in bytes; the rest describes the temporary vectors. -/
structure Env (α R : Type) where
  rng : R → Nat → Nat × R
  shuf : R → List α → List α × R
  BS : Nat
  sz : Nat
  fresh : Nat → List Nat
  s2p : Nat → Nat
  cache : Nat → Nat → α
  disk : Nat → Nat → α
  vic : Nat → Nat
  junk : Nat → α

variable {R : Type}

/-- `W = 2^64`, the modulus of `unsigned_type`. -/
def W : Nat := 2 ^ 64

/-- Distribute `n` elements to the buckets, `random_shuffle.h:262-268`; a bucket has its top element first. -/
def distribute (B hi k : Nat) (E : Env α R) : Nat → St α → R → List (List α) → Except Err (St α × R × List (List α))
  | 0, st, r, bs => .ok (st, r, bs)
  | n + 1, st, r, bs =>
    let x := E.rng r k
    match get B hi st with
    | none => .error .ub
    | some (st, v) =>
      match bs[x.1]? with
      | none => .error .ub
      | some l => distribute B hi k E n st x.2 (bs.set x.1 (v :: l))

/-- `out << x` for each element. -/
def putAll (B : Nat) : List α → St α → Option (St α)
  | [], st => some st
  | x :: xs, st =>
    match put B st x with
    | none => none
    | some st => putAll B xs st

/-- `(*temp_vector)[j] = ...` for each element, `random_shuffle.h:313-317`. -/
def writeAll (B P : Nat) (vic : Nat → Nat) : List α → Nat → Sys α → Option (Sys α)
  | [], _, s => some s
  | x :: xs, j, s =>
    match elementWrite B P s j x (vic j) with
    | none => none
    | some s => writeAll B P vic xs (j + 1) s

/-- `tmp = (*temp_vector)[j]` for `n` elements, `random_shuffle.h:330-334`. -/
def readAll (B P : Nat) (vic : Nat → Nat) : Nat → Nat → Sys α → Option (List α)
  | 0, _, _ => some []
  | n + 1, j, s =>
    match elementRead B P s j (vic j) with
    | none => none
    | some (s, x) => (readAll B P vic n (j + 1) s).map (x :: ·)

/-- The loop over the buckets, `random_shuffle.h:282-342`. `recur M s n r` is the recursive call for a vector of `n` elements. Note that
`space_left` is not reduced again after a recursive call (`:324`). -/
def buckets (B P : Nat) (E : Env α R) (recur : Nat → Sys α → Nat → R → Except Err (Sys α × R)) :
    List (List α) → Nat → St α → R → Except Err (St α × R)
  | [], _, st, r => .ok (st, r)
  | xs :: bs, space, st, r =>
    let size := xs.length
    if size * E.sz < space then
      let y := E.shuf r xs
      match putAll B y.1 st with
      | none => .error .ub
      | some st => buckets B P E recur bs ((space + E.BS) % W) st y.2
    else
      match writeAll B P E.vic xs 0 (newVec B P size 4 (E.fresh size) E.s2p E.cache E.disk) with
      | none => .error .ub
      | some tv =>
        let space := (space + P * E.BS) % W
        match recur space tv size r with
        | .error x => .error x
        | .ok (tv, r) =>
          match readAll B P E.vic size 0 tv with
          | none => .error .ub
          | some ys =>
            match putAll B ys st with
            | none => .error .ub
            | some st => buckets B P E recur bs ((space + E.BS) % W) st r

/-- `random_shuffle(first, last, rand, M)`, `random_shuffle.h:188-360`; the first argument bounds the depth of the recursion. An input stream
without blocks does not exist: `assert(seq_length > 0)`, `mng/block_prefetcher.h:124`. -/
def shuffle (B P : Nat) (E : Env α R) : Nat → Nat → Sys α → Nat → Nat → R → Except Err (Sys α × R)
  | 0, _, _, _, _, _ => .error .depth
  | d + 1, M, s, b, e, r =>
    let M := if M < 6 * E.BS + P * E.BS then 6 * E.BS + P * E.BS else M
    let k := M / (3 * E.BS)
    match flush P s with
    | none => .error .ub
    | some s =>
      if endBlock B e ≤ b / B then .error .ub
      else
      match pass B (endBlock B e) keep (b % B) (openAt B b s E.junk) () with
      | none => .error .ub
      | some (st, _) =>
        match distribute B (endBlock B e) k E (e - b) st r (List.replicate k []) with
        | .error x => .error x
        | .ok (st, r, bs) =>
          let space := (M + (W - (k * E.BS + P * E.BS) % W)) % W
          match buckets B P E (fun M tv n r => shuffle B P E d M tv 0 n r) bs space st r with
          | .error x => .error x
          | .ok (st, r) =>
            if e % B ≠ 0 then
              match pass B (endBlock B e) keep (B - e % B) st () with
              | none => .error .ub
              | some (st, _) => if st.onum = 0 then .ok (st.sys, r) else .error .ub
            else if st.onum = 0 then .ok (st.sys, r) else .error .ub

end Stxxl.Scan
