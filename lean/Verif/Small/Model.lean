/-!
# Model of three support classes: `/repo/include/stxxl/bits/common/external_shared_ptr.h`, `timer.h`, `simple_vector.h`
-/
namespace Stxxl.Small

/-! ## external_shared_ptr

Shared objects are numbered. `ps` lists, for every living instance of the shared pointer class `P`, the object it points to; `slots` lists, for
every living wrapper (in memory or in a block on disk), the bytes in `data`: nothing yet, or a pointer to an object. `rc` is the reference count of
an object, which is destroyed when the count becomes 0. `log` is a record of what was wrapped and unwrapped; no operation reads it.
`none` is undefined behaviour (using a destroyed object, or a wrapper without a pointer). Simplified: no null pointers. -/

inductive Ev where
  | wrapped (o : Nat)
  | unwrapped (o : Nat)
  deriving DecidableEq, Repr

structure St where
  ps : List Nat
  slots : List (Option Nat)
  rc : Nat → Nat
  next : Nat
  log : List Ev

def St.init : St := ⟨[], [], fun _ => 0, 0, []⟩

/-- Copy-construction of a `P`: the count of a living object is incremented (requirements, external_shared_ptr.h:35-39). -/
def St.inc (s : St) (o : Nat) : Option St :=
  if s.rc o = 0 then none else some { s with rc := fun x => if x = o then s.rc x + 1 else s.rc x }

/-- Destruction of a `P` (same). -/
def St.dec (s : St) (o : Nat) : Option St :=
  if s.rc o = 0 then none else some { s with rc := fun x => if x = o then s.rc x - 1 else s.rc x }

inductive Op where
  /-- a new shared object and a pointer to it -/
  | make
  /-- copy-construct a `P` from the `i`-th -/
  | copy (i : Nat)
  /-- assign the `j`-th `P` to the `i`-th -/
  | assign (i j : Nat)
  | destroy (i : Nat)
  /-- `external_shared_ptr()` -/
  | wDefault
  /-- `external_shared_ptr(P)` -/
  | wWrap (i : Nat)
  /-- copy-construct a wrapper, or read one back from disk -/
  | wCopy (k : Nat)
  | wAssign (k l : Nat)
  | wDestroy (k : Nat)
  | unwrap (k : Nat)
  | get (k : Nat)
  deriving DecidableEq, Repr

/-- `external_shared_ptr(P ptr)`, external_shared_ptr.h:75-78: `ptr` is a copy, `data` gets another one, `ptr` is destroyed. -/
def St.wrap (s : St) (o : Nat) : Option St :=
  match s.inc o with
  | some s1 =>
    match s1.inc o with
    | some s2 =>
      match s2.dec o with
      | some s3 => some { s3 with slots := s3.slots ++ [some o], log := s3.log ++ [.wrapped o] }
      | none => none
    | none => none
  | none => none

/-- `unwrap`, external_shared_ptr.h:84-88: the destructor of the `P` in `data`; the bytes stay. -/
def St.unwrap (s : St) (o : Nat) : Option St :=
  match s.dec o with
  | some s1 => some { s1 with log := s1.log ++ [.unwrapped o] }
  | none => none

/-- `get`, external_shared_ptr.h:93-97: a copy of the `P` in `data`. -/
def St.get (s : St) (o : Nat) : Option St :=
  match s.inc o with
  | some s1 => some { s1 with ps := s1.ps ++ [o] }
  | none => none

/-- `operator ==`, external_shared_ptr.h:99-105. -/
def eqW (a b : Option Nat) : Option Bool :=
  match a, b with
  | some o, some q => some (decide (o = q))
  | _, _ => none

/-- One operation. The wrappers have the copy operations and the destructor of the compiler: `data` is plain memory (line 60). -/
def step (s : St) : Op → Option St
  | .make => some { s with ps := s.ps ++ [s.next], rc := fun x => if x = s.next then 1 else s.rc x, next := s.next + 1 }
  | .copy i =>
    match s.ps[i]? with
    | some o => s.get o
    | none => none
  | .assign i j =>
    match s.ps[i]?, s.ps[j]? with
    | some o, some q =>
      match s.inc q with
      | some s1 =>
        match s1.dec o with
        | some s2 => some { s2 with ps := s2.ps.set i q }
        | none => none
      | none => none
    | _, _ => none
  | .destroy i =>
    match s.ps[i]? with
    | some o =>
      match s.dec o with
      | some s1 => some { s1 with ps := s1.ps.eraseIdx i }
      | none => none
    | none => none
  | .wDefault => some { s with slots := s.slots ++ [none] }
  | .wWrap i =>
    match s.ps[i]? with
    | some o => s.wrap o
    | none => none
  | .wCopy k =>
    match s.slots[k]? with
    | some b => some { s with slots := s.slots ++ [b] }
    | none => none
  | .wAssign k l =>
    match s.slots[l]? with
    | some b => some { s with slots := s.slots.set k b }
    | none => none
  | .wDestroy k => some { s with slots := s.slots.eraseIdx k }
  | .unwrap k =>
    match s.slots[k]? with
    | some (some o) => s.unwrap o
    | _ => none
  | .get k =>
    match s.slots[k]? with
    | some (some o) => s.get o
    | _ => none

def run (s : St) : List Op → Option St
  | [] => some s
  | op :: ops =>
    match step s op with
    | some s' => run s' ops
    | none => none

/-! ## timer

Points of time and durations are integers, multiples of a small unit: doubles are multiples of `2^-1074`. The rounding of additions and
`gettimeofday` are not modelled: every call gets the time at which it happens. -/

structure Timer where
  running : Bool
  accumulated : Int
  last : Int
  deriving DecidableEq, Repr

/-- `timer(false)`, timer.h:92-96. -/
def Timer.init : Timer := ⟨false, 0, 0⟩

/-- `start`, timer.h:99-103. -/
def Timer.start (t : Timer) (now : Int) : Timer := { t with running := true, last := now }

/-- `stop`, timer.h:106-110. -/
def Timer.stop (t : Timer) (now : Int) : Timer := { t with running := false, accumulated := t.accumulated + (now - t.last) }

/-- `reset`, timer.h:113-117. -/
def Timer.reset (t : Timer) (now : Int) : Timer := { t with accumulated := 0, last := now }

/-- `seconds`, timer.h:138-144. -/
def Timer.seconds (t : Timer) (now : Int) : Int := if t.running then t.accumulated + now - t.last else t.accumulated

/-- `mseconds`, timer.h:120-126; `useconds`, timer.h:129-135, with 1000000. -/
def Timer.scaled (f : Int) (t : Timer) (now : Int) : Int := if t.running then (t.accumulated + now - t.last) * f else t.accumulated * f

/-- `operator +=`, timer.h:147-154. -/
def Timer.add (t o : Timer) (now : Int) : Timer := { t with accumulated := t.accumulated + o.seconds now }

inductive TOp where
  | start
  | stop
  | reset
  /-- `+=` of a timer that shows `x` -/
  | add (x : Int)
  deriving DecidableEq, Repr

def Timer.step (t : Timer) : TOp × Int → Timer
  | (.start, now) => t.start now
  | (.stop, now) => t.stop now
  | (.reset, now) => t.reset now
  | (.add x, now) => t.add ⟨false, x, 0⟩ now

/-- The timer after a history, the latest call first. -/
def Timer.after : List (TOp × Int) → Timer
  | [] => .init
  | e :: earlier => (Timer.after earlier).step e

/-! ## simple_vector

`arr = none` is the null pointer. The elements of a new array are `junk`: not initialised for plain data. -/

structure SVec (α : Type) where
  size : Nat
  arr : Option (List α)

variable {α : Type}

/-- `simple_vector(sz)`, simple_vector.h:66-71, and `simple_vector()`, lines 61-63, with `sz = 0`. -/
def SVec.make (junk : Nat → α) (sz : Nat) : SVec α := ⟨sz, if sz > 0 then some ((List.range sz).map junk) else none⟩

/-- `operator []`, simple_vector.h:129-139, and reading through an iterator. -/
def SVec.get (v : SVec α) (i : Nat) : Option α :=
  match v.arr with
  | some a => a[i]?
  | none => none

/-- Writing through `operator []` or an iterator; `none` is outside of the array. -/
def SVec.set (v : SVec α) (i : Nat) (x : α) : Option (SVec α) :=
  match v.arr with
  | some a => if i < a.length then some { v with arr := some (a.set i x) } else none
  | none => none

/-- `memcpy` of `n` elements; `none` reads or writes outside. -/
def copyElems (dst src : List α) (n : Nat) : Option (List α) :=
  if n ≤ src.length ∧ n ≤ dst.length then some (src.take n ++ dst.drop n) else none

/-- `resize`, simple_vector.h:141-158, for plain data. -/
def SVec.resize (junk : Nat → α) (v : SVec α) (n : Nat) : Option (SVec α) :=
  match v.arr with
  | some tmp =>
    match copyElems ((List.range n).map junk) tmp (min v.size n) with
    | some a => some ⟨n, some a⟩
    | none => none
  | none => some ⟨n, some ((List.range n).map junk)⟩

/-- `memzero`, simple_vector.h:160-163; setting no bytes at the null pointer is taken as harmless. -/
def SVec.memzero (zero : α) (v : SVec α) : Option (SVec α) :=
  match v.arr with
  | some a => if v.size ≤ a.length then some { v with arr := some (List.replicate v.size zero ++ a.drop v.size) } else none
  | none => if v.size = 0 then some v else none

inductive VOp (α : Type) where
  | set (i : Nat) (x : α)
  | resize (n : Nat) (junk : Nat → α)
  | memzero

def SVec.step (zero : α) (v : SVec α) : VOp α → Option (SVec α)
  | .set i x => v.set i x
  | .resize n junk => v.resize junk n
  | .memzero => v.memzero zero

def SVec.run (zero : α) (v : SVec α) : List (VOp α) → Option (SVec α)
  | [] => some v
  | op :: ops =>
    match v.step zero op with
    | some v' => SVec.run zero v' ops
    | none => none

/-- Two simple vectors and `swap`, simple_vector.h:73-77. -/
def SVec.swap (v w : SVec α) : SVec α × SVec α := (⟨w.size, w.arr⟩, ⟨v.size, v.arr⟩)

/-- `resize` of a non-empty vector whose elements own a resource, simple_vector.h:143-152; an element is the number of its resource. `new` makes
elements with the resources `next`, `next+1`, …, their bytes are overwritten by `memcpy`, and `delete[] tmp` releases the resources of the old
elements, which are then recorded in `released`. -/
def resizeOwners (size : Nat) (tmp : List Nat) (next n : Nat) (released : List Nat) : Option (List Nat × List Nat) :=
  match copyElems ((List.range n).map (next + ·)) tmp (min size n) with
  | some a => some (a, released ++ tmp)
  | none => none

/-- `~simple_vector`, simple_vector.h:79-82, for such elements. -/
def deleteOwners (arr released : List Nat) : List Nat := released ++ arr

end Stxxl.Small
