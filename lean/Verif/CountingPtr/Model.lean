/-!
# Model of `counting_ptr` and the reference-counted objects

Models `/repo/include/stxxl/bits/common/counting_ptr.h`: `counting_ptr` (and `const_counting_ptr`, which has the same statements) over
`atomic_counted_object` (`:394-440`, atomic increments; also the mutex variant `:460-510`) used by any number of threads. With one thread this
is `counted_object` (`:325-380`). Objects, pointers ("handles") and threads are numbers.

An operation of a handle is split into its atomic parts: reading the other handle, `inc_reference`, `dec_reference` (which also tells
whether the count became zero), `delete`, storing `m_ptr`. Parts of operations of different threads interleave arbitrarily. As for any
C++ object, one handle must not be modified by one thread while another thread uses it: `Legal` says so.

`none` as the result of a part is undefined behaviour or a failed assertion: a count of a deleted object is touched, an object is
deleted twice, or it is deleted while its count is not zero (`assert` in the destructor, `:345`).
-/

namespace Stxxl.CountingPtr

/-- What a thread is about to do next. -/
inductive Ph
  | idle
  /-- copy constructor (`:75-76`): `m_ptr(other)` is done, next `inc_reference()` -/
  | cInc (dst src : Nat) (p : Option Nat)
  /-- constructor from a pointer to a new object (`:71-72`), next `inc_reference()` -/
  | rInc (dst o : Nat)
  /-- assignment (`:79-89`) from handle `src` with contents `p`, next `inc_reference(ptr)` -/
  | aInc (dst src : Nat) (p : Option Nat)
  /-- assignment of a pointer to a new object, next `inc_reference(ptr)` -/
  | nInc (dst o : Nat)
  /-- next `m_ptr->dec_reference()` -/
  | aDec (dst : Nat) (p : Option Nat)
  /-- next `delete m_ptr` -/
  | aDel (dst : Nat) (p : Option Nat) (o : Nat)
  /-- next `m_ptr = ptr` -/
  | aStore (dst : Nat) (p : Option Nat)
  /-- destructor (`:92-93`), next `m_ptr->dec_reference()` -/
  | dDec (dst : Nat)
  /-- next `delete m_ptr` -/
  | dDel (dst o : Nat)
deriving DecidableEq

/-- `rc o`: the reference count of the object, `none` if it does not exist (any more). `hd h`: `m_ptr` of the handle, `none` if the handle
does not exist. -/
structure S where
  rc : Nat → Option Nat
  hd : Nat → Option (Option Nat)
  ph : Nat → Ph
  next : Nat

def init : S := { rc := fun _ => none, hd := fun _ => none, ph := fun _ => .idle, next := 0 }

def upd {β : Type} (f : Nat → β) (i : Nat) (b : β) : Nat → β := fun j => if j = i then b else f j

/-- The handle an operation in progress modifies, and the one it reads. -/
def Ph.dst : Ph → Option Nat
  | .idle => none
  | .cInc d _ _ | .rInc d _ | .aInc d _ _ | .nInc d _ | .aDec d _ | .aDel d _ _ | .aStore d _ | .dDec d | .dDel d _ => some d

def Ph.src : Ph → Option Nat
  | .cInc _ s _ | .aInc _ s _ => some s
  | _ => none

/-- The operations. -/
inductive Op
  | ctorNull (h : Nat) | ctorNew (h : Nat) | copy (dst src : Nat) | assign (dst src : Nat) | assignNull (h : Nat)
  | assignNew (h : Nat) | destroy (h : Nat) | swap (a b : Nat) | unify (h : Nat)

/-- A thread starts an operation, or goes on with the one it is in. -/
inductive Act
  | start (t : Nat) (op : Op)
  | go (t : Nat)

/-- No operation in progress uses the handle. -/
def Free (s : S) (h : Nat) : Prop := ∀ t, (s.ph t).dst ≠ some h ∧ (s.ph t).src ≠ some h

/-- No operation in progress modifies the handle. -/
def Readable (s : S) (h : Nat) : Prop := ∀ t, (s.ph t).dst ≠ some h

/-- The C++ rules: handles are constructed before they are used and once only, and not modified while others use them. -/
def OpLegal (s : S) : Op → Prop
  | .ctorNull h => s.hd h = none ∧ Free s h
  | .ctorNew h => s.hd h = none ∧ Free s h
  | .copy d r => s.hd d = none ∧ Free s d ∧ s.hd r ≠ none ∧ Readable s r
  | .assign d r => s.hd d ≠ none ∧ Free s d ∧ s.hd r ≠ none ∧ Readable s r
  | .assignNull h => s.hd h ≠ none ∧ Free s h
  | .assignNew h => s.hd h ≠ none ∧ Free s h
  | .destroy h => s.hd h ≠ none ∧ Free s h
  | .swap a b => s.hd a ≠ none ∧ Free s a ∧ s.hd b ≠ none ∧ Free s b
  | .unify h => s.hd h ≠ none ∧ Free s h

def Legal (s : S) : Act → Prop
  | .start t op => s.ph t = .idle ∧ OpLegal s op
  | .go t => s.ph t ≠ .idle

/-- `new Type`: reference count zero (`:334-340`). -/
def alloc (s : S) : S := { s with rc := upd s.rc s.next (some 0), next := s.next + 1 }

/-- Start an operation: everything up to the first access to a reference count. -/
def start (s : S) (t : Nat) : Op → Option S
  | .ctorNull h => some { s with hd := upd s.hd h (some none) }
  | .ctorNew h => some { alloc s with ph := upd s.ph t (.rInc h s.next) }
  | .copy d r =>
    match s.hd r with
    | some p => some { s with ph := upd s.ph t (.cInc d r p) }
    | none => none
  | .assign d r =>
    match s.hd r with
    | some p => some { s with ph := upd s.ph t (.aInc d r p) }
    | none => none
  | .assignNull h => some { s with ph := upd s.ph t (.aDec h none) }
  | .assignNew h => some { alloc s with ph := upd s.ph t (.nInc h s.next) }
  | .destroy h => some { s with ph := upd s.ph t (.dDec h) }
  | .swap a b =>
    match s.hd a, s.hd b with
    | some p, some q => some { s with hd := upd (upd s.hd a (some q)) b (some p) }
    | _, _ => none
  | .unify h =>
    match s.hd h with
    | some none => some s
    | some (some o) =>
      match s.rc o with
      | none => none
      | some n => if n = 1 then some s else some { alloc s with ph := upd s.ph t (.nInc h s.next) }
    | none => none

/-- `inc_reference`, `:55-56,351-352`. -/
def inc (s : S) : Option Nat → Option S
  | none => some s
  | some o =>
    match s.rc o with
    | none => none
    | some n => some { s with rc := upd s.rc o (some (n + 1)) }

/-- `dec_reference`, `:357-358`: has the count become zero? -/
def dec (s : S) (o : Nat) : Option (Bool × S) :=
  match s.rc o with
  | none => none
  | some 0 => none
  | some (n + 1) => some (decide (n = 0), { s with rc := upd s.rc o (some n) })

/-- `delete m_ptr`. -/
def del (s : S) (o : Nat) : Option S :=
  match s.rc o with
  | some 0 => some { s with rc := upd s.rc o none }
  | _ => none

/-- The next part of the operation thread `t` is in. -/
def go (s : S) (t : Nat) : Option S :=
  match s.ph t with
  | .idle => none
  | .cInc d _ p => (inc s p).map fun s => { s with hd := upd s.hd d (some p), ph := upd s.ph t .idle }
  | .rInc d o => (inc s (some o)).map fun s => { s with hd := upd s.hd d (some (some o)), ph := upd s.ph t .idle }
  | .aInc d _ p => (inc s p).map fun s => { s with ph := upd s.ph t (.aDec d p) }
  | .nInc d o => (inc s (some o)).map fun s => { s with ph := upd s.ph t (.aDec d (some o)) }
  | .aDec d p =>
    match s.hd d with
    | none => none
    | some none => some { s with ph := upd s.ph t (.aStore d p) }
    | some (some o) =>
      match dec s o with
      | none => none
      | some (z, s) => some { s with ph := upd s.ph t (if z then .aDel d p o else .aStore d p) }
  | .aDel d p o => (del s o).map fun s => { s with ph := upd s.ph t (.aStore d p) }
  | .aStore d p => some { s with hd := upd s.hd d (some p), ph := upd s.ph t .idle }
  | .dDec d =>
    match s.hd d with
    | none => none
    | some none => some { s with hd := upd s.hd d none, ph := upd s.ph t .idle }
    | some (some o) =>
      match dec s o with
      | none => none
      | some (z, s) =>
        if z then some { s with ph := upd s.ph t (.dDel d o) }
        else some { s with hd := upd s.hd d none, ph := upd s.ph t .idle }
  | .dDel d o => (del s o).map fun s => { s with hd := upd s.hd d none, ph := upd s.ph t .idle }

def exec (s : S) : Act → Option S
  | .start t op => start s t op
  | .go t => go s t

inductive Reach : S → Prop
  | init : Reach init
  | step {s s' a} (h : Reach s) (hl : Legal s a) (he : exec s a = some s') : Reach s'

end Stxxl.CountingPtr
