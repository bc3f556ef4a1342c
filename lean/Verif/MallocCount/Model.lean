/-!
# Model of the malloc counter (`/repo/lib/utils/malloc_count.cpp`)

One thread at first, the counters under concurrency at the end. A block is known by the pointer the caller got; its size is the size stored in
front of it, its bytes are a function. Blocks of the C library are `real a`, those of the start-up heap `init o` with `o` the offset of the
caller's pointer in `init_heap`. The C library is the environment: its answers are arguments. The counters are unbounded integers. Messages,
sentinels (they hold as long as nobody writes outside a block) and the callback are not modelled; the three function pointers are loaded
at once (`init`, lines 313-337).
-/
namespace Stxxl.MallocCount

def W : Nat := 2 ^ 64
/-- `INIT_HEAP_SIZE`, line 55. -/
def initSize : Nat := 1024 * 1024

inductive Ptr where
  | null | init (o : Nat) | real (a : Nat)
deriving DecidableEq

def Ptr.isReal : Ptr → Bool
  | .real _ => true
  | _ => false

structure Block where
  ptr : Ptr
  size : Nat
  data : Nat → Nat

/-- `real` tells whether the functions of the C library are loaded; `blocks` are those the caller holds. -/
structure State where
  real : Bool
  initUse : Nat
  blocks : List Block
  curr : Int
  peak : Int
  total : Int

/-- `inc_count`, lines 73-85. -/
def State.inc (s : State) (n : Nat) : State :=
  { s with curr := s.curr + n, peak := if s.curr + n > s.peak then s.curr + n else s.peak, total := s.total + n }

/-- `dec_count`, lines 88-97. -/
def State.dec (s : State) (n : Nat) : State := { s with curr := s.curr - n }

def State.find (s : State) (p : Ptr) : Option Block := s.blocks.find? fun b => decide (b.ptr = p)
def State.add (s : State) (b : Block) : State := { s with blocks := b :: s.blocks }
def State.remove (s : State) (p : Ptr) : State := { s with blocks := s.blocks.filter fun b => decide (b.ptr ≠ p) }

/-- `exit`: the start-up heap is full; `undef`: undefined; `stuck`: the caller or the C library broke its contract. -/
inductive Res where
  | ok (s : State) (p : Ptr) | exit | undef | stuck

/-- `malloc`, lines 137-181. A null pointer of the C library is written to. -/
def malloc (n : Nat) (ans : Option Nat) (junk : Nat → Nat) (s : State) : Res :=
  if n = 0 then .ok s .null
  else if s.real then
    match ans with
    | none => .undef
    | some a =>
      if (s.find (.real a)).isSome then .stuck
      else if W ≤ 16 + n then .undef
      else .ok ((s.inc n).add ⟨.real a, n, junk⟩) (.real a)
  else if (s.initUse + 16 + n) % W > initSize then .exit
  else if initSize < s.initUse + 16 then .undef
  else .ok ({ s with initUse := (s.initUse + 16 + n) % W }.add ⟨.init (s.initUse + 16), n, junk⟩) (.init (s.initUse + 16))

/-- `free`, lines 184-221. Space of the start-up heap is not used again. -/
def free (p : Ptr) (s : State) : Res :=
  match p with
  | .null => .ok s .null
  | .init o => if (s.find (.init o)).isSome then .ok (s.remove (.init o)) .null else .stuck
  | .real a =>
    match s.find (.real a) with
    | none => .stuck
    | some b => if s.real then .ok ((s.dec b.size).remove (.real a)) .null else .ok (s.remove (.real a)) .null

/-- The bytes of block `p` become `f`. -/
def State.setData (s : State) (p : Ptr) (f : (Nat → Nat) → Nat → Nat) : State :=
  { s with blocks := s.blocks.map fun b => if b.ptr = p then { b with data := f b.data } else b }

/-- `calloc`, lines 225-233. -/
def calloc (nmemb size : Nat) (ans : Option Nat) (junk : Nat → Nat) (s : State) : Res :=
  let n := (size * nmemb) % W
  if n = 0 then .ok s .null
  else
    match malloc n ans junk s with
    | .ok s' p => .ok (s'.setData p fun d i => if i < n then 0 else d i) p
    | r => r

/-- `realloc`, lines 236-311. -/
def realloc (p : Ptr) (n : Nat) (ans : Option Nat) (junk : Nat → Nat) (s : State) : Res :=
  match p with
  | .init o =>
    match s.find (.init o) with
    | none => .stuck
    | some b =>
      if b.size ≥ n then .ok ((s.remove (.init o)).add { b with size := n }) (.init o)
      else
        match malloc n ans junk s with
        | .ok s' q =>
          match free (.init o) (s'.setData q fun d i => if i < b.size then b.data i else d i) with
          | .ok s'' _ => .ok s'' q
          | r => r
        | r => r
  | .null => if n = 0 then free .null s else malloc n ans junk s
  | .real a =>
    if n = 0 then free (.real a) s
    else
      match s.find (.real a) with
      | none => .stuck
      | some b =>
        match ans with
        | none => .undef
        | some a' =>
          if a' ≠ a ∧ (s.find (.real a')).isSome then .stuck
          else if W ≤ 16 + n then .undef
          else .ok ((((s.dec b.size).inc n).remove (.real a)).add ⟨.real a', n, fun i => if i < b.size then b.data i else junk i⟩) (.real a')

/-- What the program and the system do. -/
inductive Event where
  | load
  | malloc (n : Nat) (ans : Option Nat) (junk : Nat → Nat)
  | calloc (nmemb size : Nat) (ans : Option Nat) (junk : Nat → Nat)
  | realloc (p : Ptr) (n : Nat) (ans : Option Nat) (junk : Nat → Nat)
  | free (p : Ptr)
  /-- the caller writes byte `i` of a block -/
  | write (p : Ptr) (i v : Nat)
  | resetPeak

/-- One event; `resetPeak` is lines 112-115. -/
def step (s : State) : Event → Res
  | .load => .ok { s with real := true } .null
  | .malloc n ans junk => malloc n ans junk s
  | .calloc a b ans junk => calloc a b ans junk s
  | .realloc p n ans junk => realloc p n ans junk s
  | .free p => free p s
  | .write p i v =>
    match s.find p with
    | none => .stuck
    | some b => if i < b.size then .ok (s.setData p fun d j => if j = i then v else d j) .null else .stuck
  | .resetPeak => .ok { s with peak := s.curr } .null

/-- A history. -/
def run : State → List Event → Res
  | s, [] => .ok s .null
  | s, e :: es =>
    match step s e with
    | .ok s' _ => run s' es
    | r => r

/-- Program start. -/
def start : State := ⟨false, 0, [], 0, 0, 0⟩

/-! ## The counters under concurrency -/

/-- Where a thread is in `inc_count` or `dec_count` (lines 73-97, with `__sync_…_and_fetch`): `curr` is changed atomically, the comparison with
`peak`, the assignment to `peak`, the reading and the writing of `total` are separate steps. -/
inductive CPc where
  | idle | compare (my : Int) (n : Nat) | setPeak (my : Int) (n : Nat) | readTotal (n : Nat) | writeTotal (n : Nat) (t : Int)
deriving DecidableEq

structure CState where
  curr : Int
  peak : Int
  total : Int
  pcs : Nat → CPc

/-- What an idle thread does next. -/
inductive CEvent where
  | inc (t n : Nat) | dec (t n : Nat) | go (t : Nat)

def CState.at (s : CState) (t : Nat) (pc : CPc) : CState := { s with pcs := fun u => if u = t then pc else s.pcs u }

/-- One step; a thread that is not idle cannot begin a call. -/
def cstep (s : CState) : CEvent → Option CState
  | .inc t n => if s.pcs t = .idle then some ({ s with curr := s.curr + n }.at t (.compare (s.curr + n) n)) else none
  | .dec t n => if s.pcs t = .idle then some { s with curr := s.curr - n } else none
  | .go t =>
    match s.pcs t with
    | .idle => none
    | .compare my n => if my > s.peak then some (s.at t (.setPeak my n)) else some (s.at t (.readTotal n))
    | .setPeak my n => some ({ s with peak := my }.at t (.readTotal n))
    | .readTotal n => some (s.at t (.writeTotal n s.total))
    | .writeTotal n v => some ({ s with total := v + n }.at t .idle)

def crun : CState → List CEvent → Option CState
  | s, [] => some s
  | s, e :: es =>
    match cstep s e with
    | none => none
    | some s' => crun s' es

def cstart : CState := ⟨0, 0, 0, fun _ => .idle⟩

end Stxxl.MallocCount
