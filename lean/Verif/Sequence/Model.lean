import Verif.Pools.Client

/-!
# Model of `sequence` and `queue`

Models `/repo/include/stxxl/bits/containers/sequence.h:62-800` and `/repo/include/stxxl/bits/containers/queue.h:47-420`.
`queue::push` and `queue::pop` are, statement by statement, `sequence::push_back` and `sequence::pop_front`, and the data
members and `init` are the same, so `queue` is modelled by the same definitions (both citations are given).

`B` = `block_type::size`. A buffer is a number, a pointer into it an index. `m_back_element` may be `begin() - 1`, so it is
represented by its index plus one (`be`). The pool is the model of `read_write_pool` with asynchronous requests.
`none` = failed assertion or invalid access.
-/

namespace Stxxl.Sequence
open Stxxl.Pools Stxxl.ExtVector
open Stxxl.Stack (Env)

/-- Data members, `sequence.h:82-117`, `queue.h:68-79`. -/
structure Sq (α : Type) where
  size : Nat
  front : Nat
  back : Nat
  fe : Nat
  be : Nat
  bids : List Nat
  pref : Nat
  ps : PS α

variable {α : Type} (B : Nat)

/-- `std::copy(src + so, src + so + n, dst + d)` within memory: element by element, first to last. -/
def copyFwd (m : Nat → Nat → α) (src dst : Nat) : Nat → Nat → Nat → Nat → Nat → α
  | 0, _, _ => m
  | n + 1, so, d => copyFwd (upd m dst (upd (m dst) d (m src so))) src dst n (so + 1) (d + 1)

/-- `std::copy_backward(src + se - n, src + se, dst + de)`: last to first. -/
def copyBwd (m : Nat → Nat → α) (src dst : Nat) : Nat → Nat → Nat → Nat → Nat → α
  | 0, _, _ => m
  | n + 1, se, de => copyBwd (upd m dst (upd (m dst) (de - 1) (m src (se - 1)))) src dst n (se - 1) (de - 1)

namespace Sq

/-- Replace the whole buffer memory. -/
def setMem (p : PS α) (m : Nat → Nat → α) : PS α := { p with sys := { p.sys with io := { p.sys.io with mem := m } } }

/-- `*p = v` for a pointer to index `i` of buffer `b`. -/
def store (p : PS α) (b i : Nat) (v : α) : PS α := p.put b (upd (p.mem b) i v)

/-- `init`, `sequence.h:195-219`, `queue.h:181-202`. A pool with fewer than two write buffers is enlarged to three (`fr` are the
addresses of the new buffers). -/
def init (p : PS α) (env : Env) (fr : List Nat) (picks : Nat → Nat) (sched : Nat → Nat → List Nat) (pref : Nat) : Option (Sq α) :=
  match (if p.sys.sizeWrite < 2 then p.sys.resizeWrite 3 fr picks sched else some p.sys) with
  | none => none
  | some s =>
    match PS.steal { p with sys := s } env with
    | none => none
    | some (p1, b) => some { size := 0, front := b, back := b, fe := 0, be := 0, bids := [], pref := pref, ps := p1 }

/-- The end of `push_back`: `sequence.h:357-361`, `queue.h:272-276`. -/
def takeBack (q : Sq α) (env : Env) (v : α) : Option (Sq α) :=
  match q.ps.steal env with
  | none => none
  | some (p, b) => some { q with back := b, be := 1, size := q.size + 1, ps := store p b 0 v }

/-- Case 1.5 of `push_back`: `sequence.h:326-346`, `queue.h:240-258`. -/
def shiftBack (q : Sq α) (v : α) : Option (Sq α) :=
  let gap := q.fe
  if q.bids = [] ∧ 0 < gap then
    let m0 := q.ps.sys.io.mem
    let m1 := copyFwd m0 q.front q.front (B - q.fe) q.fe 0
    let m2 := copyFwd m1 q.back q.front gap 0 (B - gap)
    let m3 := copyFwd m2 q.back q.back (B - gap) gap 0
    some { q with fe := q.fe - gap, be := q.be - gap + 1, size := q.size + 1, ps := store (setMem q.ps m3) q.back (q.be - gap) v }
  else none

/-- Case 2 of `push_back`: `sequence.h:348-361`, `queue.h:260-276`. -/
def spillBack (q : Sq α) (env : Env) (v : α) : Option (Sq α) :=
  match q.ps.spill env q.back env.fresh (decide ((q.bids ++ [env.fresh]).length ≤ q.pref)) with
  | none => none
  | some p => takeBack { q with bids := q.bids ++ [env.fresh], ps := p } env v

/-- `push_back`, `sequence.h:316-374`; `queue::push`, `queue.h:230-285`. -/
def pushBack (q : Sq α) (env : Env) (v : α) : Option (Sq α) :=
  if q.be = B then
    if q.front = q.back then takeBack q env v
    else if q.size < 2 * B then shiftBack B q v
    else spillBack q env v
  else some { q with be := q.be + 1, size := q.size + 1, ps := store q.ps q.back q.be v }

/-- The end of `push_front`, `sequence.h:300-304`. -/
def takeFront (q : Sq α) (env : Env) (v : α) : Option (Sq α) :=
  match q.ps.steal env with
  | none => none
  | some (p, b) => some { q with front := b, fe := B - 1, size := q.size + 1, ps := store p b (B - 1) v }

/-- Case 1.5 of `push_front`, `sequence.h:265-283`. -/
def shiftFront (q : Sq α) (v : α) : Option (Sq α) :=
  let gap := B - q.be
  if q.bids = [] ∧ 0 < gap then
    let m0 := q.ps.sys.io.mem
    let m1 := copyBwd m0 q.back q.back q.be q.be B
    let m2 := copyBwd m1 q.front q.back gap B gap
    let m3 := copyBwd m2 q.front q.front (B - gap) (B - gap) B
    some { q with fe := q.fe + gap - 1, be := q.be + gap, size := q.size + 1, ps := store (setMem q.ps m3) q.front (q.fe + gap - 1) v }
  else none

/-- Case 2 of `push_front`, `sequence.h:285-304`. -/
def spillFront (q : Sq α) (env : Env) (v : α) : Option (Sq α) :=
  match q.ps.spill env q.front env.fresh (decide ((env.fresh :: q.bids).length ≤ q.pref)) with
  | none => none
  | some p => takeFront B { q with bids := env.fresh :: q.bids, ps := p } env v

/-- `push_front`, `sequence.h:246-313`. -/
def pushFront (q : Sq α) (env : Env) (v : α) : Option (Sq α) :=
  if q.fe = 0 then
    if q.size = 0 then
      if q.front = q.back then some { q with fe := B - 1, be := B, size := q.size + 1, ps := store q.ps q.front (B - 1) v } else none
    else if q.front = q.back then takeFront B q env v
    else if q.size < 2 * B then shiftFront B q v
    else spillFront B q env v
  else some { q with fe := q.fe - 1, size := q.size + 1, ps := store q.ps q.front (q.fe - 1) v }

/-- The last element of the only block is removed: `sequence.h:384-396,442-454`, `queue.h:295-307`. -/
def reset (q : Sq α) : Option (Sq α) :=
  if q.size = 1 ∧ q.be = q.fe + 1 ∧ q.bids = [] then some { q with be := 0, fe := 0, size := 0 } else none

/-- Case 3 of `pop_front`: `sequence.h:411-427`, `queue.h:319-337`. -/
def fetchFront (q : Sq α) (env : Env) : Option (Sq α) :=
  match q.bids with
  | [] => none
  | b :: rest =>
    match q.ps.fetch env q.front b (rest.take q.pref) with
    | none => none
    | some (p, f) => some { q with front := f, fe := 0, bids := rest, size := q.size - 1, ps := p }

/-- `pop_front`, `sequence.h:377-432`; `queue::pop`, `queue.h:288-342`. -/
def popFront (q : Sq α) (env : Env) : Option (Sq α) :=
  if q.size = 0 then none
  else if q.fe + 1 = B then
    if q.back = q.front then reset q
    else if q.size - 1 ≤ B then
      if q.bids = [] then some { q with front := q.back, fe := 0, size := q.size - 1, ps := q.ps.add q.front } else none
    else fetchFront q env
  else some { q with fe := q.fe + 1, size := q.size - 1 }

/-- Case 3 of `pop_back`, `sequence.h:470-486`. -/
def fetchBack (q : Sq α) (env : Env) : Option (Sq α) :=
  match q.bids.getLast? with
  | none => none
  | some b =>
    match q.ps.fetch env q.back b (q.bids.dropLast.reverse.take (min (q.pref - 1) (q.bids.length - 2))) with
    | none => none
    | some (p, f) => some { q with back := f, be := B, bids := q.bids.dropLast, size := q.size - 1, ps := p }

/-- `pop_back`, `sequence.h:435-492`. -/
def popBack (q : Sq α) (env : Env) : Option (Sq α) :=
  if q.size = 0 then none
  else if q.be = 1 then
    if q.back = q.front then reset q
    else if q.size - 1 ≤ B then
      if q.bids = [] then some { q with back := q.front, be := B, size := q.size - 1, ps := q.ps.add q.back } else none
    else fetchBack B q env
  else some { q with be := q.be - 1, size := q.size - 1 }

/-- `front()`, `sequence.h:528-540`, `queue.h:363-374`. -/
def getFront (q : Sq α) : Option α := if q.size = 0 then none else some (q.ps.mem q.front q.fe)
/-- `back()`, `sequence.h:514-526`, `queue.h:349-360`. -/
def getBack (q : Sq α) : Option α := if q.size = 0 then none else some (q.ps.mem q.back (q.be - 1))
/-- `front() = v`. -/
def setFront (q : Sq α) (v : α) : Option (Sq α) := if q.size = 0 then none else some { q with ps := store q.ps q.front q.fe v }
/-- `back() = v`. -/
def setBack (q : Sq α) (v : α) : Option (Sq α) := if q.size = 0 then none else some { q with ps := store q.ps q.back (q.be - 1) v }
/-- `empty()`, `sequence.h:503-506`, `queue.h:406-409`. -/
def isEmpty (q : Sq α) : Bool := q.size = 0
/-- `~sequence()`, `sequence.h:546-558`, `~queue()`, `queue.h:381-396`: the pool afterwards. -/
def destroy (q : Sq α) : PS α := if q.front ≠ q.back then (q.ps.add q.back).add q.front else q.ps.add q.front

end Sq

/-! ## Specification: a list, front first -/

inductive Op (α : Type) where
  | pushBack (v : α) | pushFront (v : α) | popFront | popBack
  | setFront (v : α) | setBack (v : α)

def specStep (l : List α) : Op α → List α
  | .pushBack v => l ++ [v]
  | .pushFront v => v :: l
  | .popFront => l.tail
  | .popBack => l.dropLast
  | .setFront v => v :: l.tail
  | .setBack v => l.dropLast ++ [v]

def specLegal (l : List α) : Op α → Prop
  | .pushBack _ | .pushFront _ => True
  | _ => l ≠ []

/-- The operations of a queue. -/
def Op.isQueue : Op α → Prop
  | .pushBack _ | .popFront | .setFront _ | .setBack _ => True
  | _ => False

namespace Sq

def step (q : Sq α) (env : Env) : Op α → Option (Sq α)
  | .pushBack v => pushBack B q env v
  | .pushFront v => pushFront B q env v
  | .popFront => popFront B q env
  | .popBack => popBack B q env
  | .setFront v => setFront q v
  | .setBack v => setBack q v

end Sq

/-! ## Streams -/

/-- `sequence::stream` and `sequence::reverse_stream`, `sequence.h:566-585,697-716`: number of elements left, current block and index
in it, the block ids that follow. `none` for `idx` is `m_current_element = NULL`. The sequence it refers to is passed to each
function; a stream only changes its pool. -/
structure Strm where
  left : Nat
  cur : Nat
  idx : Option Nat
  rem : List Nat

namespace Strm

/-- `stream(const sequence&)`, `sequence.h:586-594`. -/
def new (q : Sq α) : Strm := ⟨q.size, q.front, some q.fe, q.bids⟩
/-- `reverse_stream(const sequence&)`, `sequence.h:717-725`; the index is `m_back_element`'s, which is `begin() - 1` only if the
sequence is empty. -/
def newRev (q : Sq α) : Strm := ⟨q.size, q.back, some (q.be - 1), q.bids.reverse⟩

/-- `operator*`, `sequence.h:615-619,746-750`. -/
def deref (st : Strm) (q : Sq α) : Option α := if st.left = 0 then none else st.idx.map (q.ps.mem st.cur)

/-- "first own-block case", `sequence.h:652-656,783-787`: `home` is the sequence's front (reverse: back) block. -/
def own (st : Strm) (q : Sq α) (env : Env) (home : Nat) : Option (Sq α × Nat) :=
  if st.cur = home then
    match q.ps.steal env with
    | none => none
    | some (p, b) => some ({ q with ps := p }, b)
  else some (q, st.cur)

/-- "default case: fetch next block", `sequence.h:658-677,789-808`; `start` is the index the block is entered at. -/
def fetch (st : Strm) (q : Sq α) (env : Env) (home start : Nat) : Option (Strm × Sq α) :=
  match own st q env home with
  | none => none
  | some (q1, c) =>
    match st.rem with
    | [] => none
    | b :: rest =>
      match q1.ps.fetch env c b (rest.take q1.pref) with
      | none => none
      | some (p, c') => some (⟨st.left - 1, c', some start, rest⟩, { q1 with ps := p })

/-- `operator++` when the current block is used up, `sequence.h:626-677,757-808`. `home` is the block the stream started from, `last`
the block it ends in. -/
def cross (st : Strm) (q : Sq α) (env : Env) (home last start : Nat) : Option (Strm × Sq α) :=
  if st.left - 1 = 0 then
    if st.rem = [] ∧ st.cur = last then some (⟨0, st.cur, none, []⟩, q) else none
  else if st.left - 1 ≤ B then
    if st.rem = [] then
      some (⟨st.left - 1, last, some start, []⟩, if st.cur ≠ home then { q with ps := q.ps.add st.cur } else q)
    else none
  else fetch st q env home start

/-- `stream::operator++`, `sequence.h:622-683`. -/
def next (st : Strm) (q : Sq α) (env : Env) : Option (Strm × Sq α) :=
  if st.left = 0 then none
  else
    match st.idx with
    | none => none
    | some i => if i + 1 = B then cross B st q env q.front q.back 0 else some (⟨st.left - 1, st.cur, some (i + 1), st.rem⟩, q)

/-- `reverse_stream::operator++`, `sequence.h:753-814`. -/
def nextRev (st : Strm) (q : Sq α) (env : Env) : Option (Strm × Sq α) :=
  if st.left = 0 then none
  else
    match st.idx with
    | none => none
    | some i => if i = 0 then cross B st q env q.back q.front (B - 1) else some (⟨st.left - 1, st.cur, some (i - 1), st.rem⟩, q)

/-- `~stream()`, `~reverse_stream()`, `sequence.h:596-601,727-732`. -/
def destroy (st : Strm) (q : Sq α) : Sq α :=
  if st.cur ≠ q.front ∧ st.cur ≠ q.back then { q with ps := q.ps.add st.cur } else q

end Strm

/-- What may happen to the pool between two calls without touching the sequence: the disk serves requests, other clients use the
pool. They leave the buffers `keep` and the sequence's blocks alone, and leave the write pool at least `need` buffers. -/
structure Quiet (q : Sq α) (keep : List Nat) (need : Nat) (p : PS α) : Prop where
  step : Step q.ps.sys q.ps.cl q.ps.spec p.sys p.cl p.spec
  held : ∀ b ∈ keep, b ∈ p.cl.held ∧ p.mem b = q.ps.mem b
  blocks : ∀ b ∈ q.bids, p.spec b = q.ps.spec b ∧ ¬ p.cl.open b
  size : need ≤ p.sys.sizeWrite

/-- A stream in use: sequence, stream, and the elements it has still to yield. -/
inductive SReach : Bool → Sq α → List α → Sq α → Strm → List α → Prop
  | fwd {q l} : SReach true q l q (.new q) l
  | rev {q l} : SReach false q l q (.newRev q) l.reverse
  | next {q l q1 st r q2 st'} (env : Env) : SReach true q l q1 st r → r ≠ [] → Strm.next B st q1 env = some (st', q2) → SReach true q l q2 st' r.tail
  | nextRev {q l q1 st r q2 st'} (env : Env) : SReach false q l q1 st r → r ≠ [] → Strm.nextRev B st q1 env = some (st', q2) →
      SReach false q l q2 st' r.tail
  | quiet {d q l q1 st r} (p : PS α) : SReach d q l q1 st r →
      Quiet q1 [q1.front, q1.back, st.cur] (if q1.front = q1.back then 1 else 0) p → SReach d q l { q1 with ps := p } st r

/-- Reachable states of a sequence. `stream`: some stream was created, used, and destroyed. -/
inductive Reach : Sq α → List α → Prop
  | new {p : PS α} {q} (env : Env) (fr : List Nat) (picks : Nat → Nat) (sched : Nat → Nat → List Nat) (pref : Nat) :
      p.Ok → (allBufs p.sys p.cl ++ fr).Nodup → 3 - p.sys.sizeWrite ≤ fr.length → Sq.init p env fr picks sched pref = some q → Reach q []
  | step {q q' l} (env : Env) (op : Op α) : Reach q l → specLegal l op → env.fresh ∉ q.bids → ¬ q.ps.cl.open env.fresh →
      Sq.step B q env op = some q' → Reach q' (specStep l op)
  | setPref {q l} (n : Nat) : Reach q l → Reach { q with pref := n } l
  | quiet {q l} (p : PS α) : Reach q l → Quiet q [q.front, q.back] (if q.front = q.back then 1 else 0) p → Reach { q with ps := p } l
  | stream {d q l q1 st r} : Reach q l → SReach B d q l q1 st r → Reach (st.destroy q1) l

/-- Reachable states of a queue: `push` is `pushBack`, `pop` is `popFront`. -/
inductive QReach : Sq α → List α → Prop
  | new {p : PS α} {q} (env : Env) (fr : List Nat) (picks : Nat → Nat) (sched : Nat → Nat → List Nat) (pref : Nat) :
      p.Ok → (allBufs p.sys p.cl ++ fr).Nodup → 3 - p.sys.sizeWrite ≤ fr.length → Sq.init p env fr picks sched pref = some q → QReach q []
  | push {q q' l} (env : Env) (v : α) : QReach q l → env.fresh ∉ q.bids → ¬ q.ps.cl.open env.fresh →
      Sq.pushBack B q env v = some q' → QReach q' (l ++ [v])
  | pop {q q' x l} (env : Env) : QReach q (x :: l) → Sq.popFront B q env = some q' → QReach q' l
  | setFront {q q' x l} (v : α) : QReach q (x :: l) → Sq.setFront q v = some q' → QReach q' (v :: l)
  | setBack {q q' x l} (v : α) : QReach q (l ++ [x]) → Sq.setBack q v = some q' → QReach q' (l ++ [v])
  | setPref {q l} (n : Nat) : QReach q l → QReach { q with pref := n } l
  | quiet {q l} (p : PS α) : QReach q l → Quiet q [q.front, q.back] (if q.front = q.back then 1 else 0) p → QReach { q with ps := p } l

end Stxxl.Sequence
