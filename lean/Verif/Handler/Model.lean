/-!
# Model of `/repo/include/stxxl/bits/io/completion_handler.h`

A handler owns at most one object on the heap, a copy of the user's function object (with its state, of type `σ`). Handlers are named by numbers:
`vars v` is `none` if there is no handler `v`, else its `m_ptr`. `none` as a result is undefined behaviour. The pointer is a `std::unique_ptr`.
-/
namespace Stxxl.Handler

variable {σ ρ ω : Type}

structure St (σ : Type) where
  heap : Nat → Option σ
  next : Nat
  vars : Nat → Option (Option Nat)

def St.init : St σ := ⟨fun _ => none, 0, fun _ => none⟩

def upd {β : Type} (f : Nat → β) (a : Nat) (b : β) : Nat → β := fun x => if x = a then b else f x

/-- `new completion_handler1`: the address and the state. -/
def St.new (s : St σ) (x : σ) : Nat × St σ := (s.next, { s with heap := upd s.heap s.next (some x), next := s.next + 1 })

/-- `delete` through the virtual destructor; nothing for a null pointer. -/
def St.delete (s : St σ) (p : Option Nat) : Option (St σ) :=
  match p with
  | none => some s
  | some a =>
    match s.heap a with
    | some _ => some { s with heap := upd s.heap a none }
    | none => none

/-- `obj.m_ptr.get() ? obj.m_ptr.get()->clone() : NULL`, completion_handler.h:73 and 85, with `clone` of lines 45-48. -/
def St.clone (s : St σ) (p : Option Nat) : Option (Option Nat × St σ) :=
  match p with
  | none => some (none, s)
  | some a =>
    match s.heap a with
    | some x => some (some (s.new x).1, (s.new x).2)
    | none => none

inductive Op (σ ρ : Type) where
  | default (v : Nat)
  | make (v : Nat) (handler : σ)
  | copy (v w : Nat)
  | assign (v w : Nat)
  | call (v : Nat) (req : ρ)
  | destroy (v : Nat)

/-- One operation, and what the user's function did. `f` is the function object's `operator ()`. -/
def step (f : σ → ρ → σ × ω) (s : St σ) : Op σ ρ → Option (St σ × Option ω)
  /- completion_handler.h:67-69 -/
  | .default v => some ({ s with vars := upd s.vars v (some none) }, none)
  /- completion_handler.h:76-80 -/
  | .make v x => some ({ (s.new x).2 with vars := upd s.vars v (some (some (s.new x).1)) }, none)
  /- completion_handler.h:72-74 -/
  | .copy v w =>
    match s.vars w with
    | some p =>
      match s.clone p with
      | some (q, s1) => some ({ s1 with vars := upd s1.vars v (some q) }, none)
      | none => none
    | none => none
  /- completion_handler.h:83-87: `reset` stores the new pointer, then deletes the old object -/
  | .assign v w =>
    match s.vars v, s.vars w with
    | some old, some p =>
      match s.clone p with
      | some (q, s1) =>
        match ({ s1 with vars := upd s1.vars v (some q) } : St σ).delete old with
        | some s2 => some (s2, none)
        | none => none
      | none => none
    | _, _ => none
  /- completion_handler.h:90-94 -/
  | .call v req =>
    match s.vars v with
    | some none => some (s, none)
    | some (some a) =>
      match s.heap a with
      | some x => some ({ s with heap := upd s.heap a (some (f x req).1) }, some (f x req).2)
      | none => none
    | none => none
  /- the destructor of `unique_ptr` -/
  | .destroy v =>
    match s.vars v with
    | some p =>
      match s.delete p with
      | some s1 => some ({ s1 with vars := upd s1.vars v none }, none)
      | none => none
    | none => none

def run (f : σ → ρ → σ × ω) (s : St σ) : List (Op σ ρ) → Option (St σ × List (Option ω))
  | [] => some (s, [])
  | op :: ops =>
    match step f s op with
    | some (s1, o) =>
      match run f s1 ops with
      | some (s2, os) => some (s2, o :: os)
      | none => none
    | none => none

end Stxxl.Handler
