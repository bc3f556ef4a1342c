/-!
# Model of `addressable_fifo_queue` and `addressable_priority_queue`

Models `/repo/include/stxxl/bits/common/addressable_queues.h`. A node of a `std::list` / `std::set` has an identity (a number): an
iterator into `vals` is the identity of its node. `std::map` is a function with finite support. `none` as the result of an operation is
undefined behaviour: erasing through an iterator to a node that no longer exists, or `top`/`pop` of an empty queue.
-/

namespace Stxxl.AddrQueue

variable {K : Type} [DecidableEq K]

/-- `std::map<KeyType, container_iterator>`. -/
abbrev Meta (K : Type) := K → Option Nat

def Meta.set (m : Meta K) (k : K) (v : Option Nat) : Meta K := fun x => if x = k then v else m x

/-- The state of `addressable_fifo_queue`, `addressable_queues.h:31-37`; `next` is the identity of the next new node. -/
structure Fifo (K : Type) where
  vals : List (Nat × K)
  mt : Meta K
  next : Nat

def Fifo.empty : Fifo K := { vals := [], mt := fun _ => none, next := 0 }

/-- `vals.erase(it)`; `none` if there is no such node. -/
def eraseNode {V : Type} : List (Nat × V) → Nat → Option (List (Nat × V))
  | [], _ => none
  | n :: l, i =>
    if n.1 = i then some l
    else
      match eraseNode l i with
      | none => none
      | some l => some (n :: l)

/-- `insert(e)`, `addressable_queues.h:57-68`. Result: newly inserted?, state. -/
def Fifo.insert (q : Fifo K) (e : K) : Option (Bool × Fifo K) :=
  let ei := q.next
  let vals := q.vals ++ [(ei, e)]
  match q.mt e with
  | none => some (true, { vals := vals, mt := Meta.set q.mt e (some ei), next := q.next + 1 })
  | some old =>
    match eraseNode vals old with
    | none => none
    | some vals => some (false, { vals := vals, mt := Meta.set q.mt e (some ei), next := q.next + 1 })

/-- `erase(e)`, `addressable_queues.h:73-81`. Result: was it in?, state. -/
def Fifo.erase (q : Fifo K) (e : K) : Option (Bool × Fifo K) :=
  match q.mt e with
  | none => some (false, q)
  | some i =>
    match eraseNode q.vals i with
    | none => none
    | some vals => some (true, { q with vals := vals, mt := Meta.set q.mt e none })

/-- `erase(handle i)`, `addressable_queues.h:85-89`; a handle is an iterator into `meta` (`mt`), that is, a key of the map. -/
def Fifo.eraseHandle (q : Fifo K) (e : K) : Option (Fifo K) :=
  match q.mt e with
  | none => none
  | some i =>
    match eraseNode q.vals i with
    | none => none
    | some vals => some { q with vals := vals, mt := Meta.set q.mt e none }

/-- `empty()`, `addressable_queues.h:48-49`. -/
def Fifo.isEmpty (q : Fifo K) : Bool := q.vals.isEmpty

/-- `top()`, `addressable_queues.h:93-94`. -/
def Fifo.top (q : Fifo K) : Option K :=
  match q.vals with
  | [] => none
  | n :: _ => some n.2

/-- `pop()`, `addressable_queues.h:98-105`. -/
def Fifo.pop (q : Fifo K) : Option (K × Fifo K) :=
  match q.vals with
  | [] => none
  | n :: l => some (n.2, { q with vals := l, mt := Meta.set q.mt n.2 none })

/-- The state of `addressable_priority_queue`, `addressable_queues.h:115-134`: `vals` is the set in its order. -/
structure Prio (K P : Type) where
  vals : List (Nat × P × K)
  mt : Meta K
  next : Nat

variable {P : Type}

def Prio.empty : Prio K P := { vals := [], mt := fun _ => none, next := 0 }

/-- `struct cmp`, `addressable_queues.h:115-124`; `ltP` is `Cmp`, `ltK` is `operator<` of the key. -/
def cmp (ltP : P → P → Bool) (ltK : K → K → Bool) (a b : P × K) : Bool :=
  ltP a.1 b.1 || (!ltP b.1 a.1 && ltK a.2 b.2)

/-- `std::set::insert` of a new node: position by `cmp`; if an equivalent element exists, nothing is inserted and that element is
returned. Result: node, inserted?, the set. -/
def setInsert (ltP : P → P → Bool) (ltK : K → K → Bool) (n : Nat) (x : P × K) : List (Nat × P × K) → Nat × Bool × List (Nat × P × K)
  | [] => (n, true, [(n, x)])
  | y :: l =>
    if cmp ltP ltK y.2 x then
      let r := setInsert ltP ltK n x l
      (r.1, r.2.1, y :: r.2.2)
    else if cmp ltP ltK x y.2 then (n, true, (n, x) :: y :: l)
    else (y.1, false, y :: l)

/-- `insert(e, o)`, `addressable_queues.h:151-163`. Result: newly inserted?, state. -/
def Prio.insert (ltP : P → P → Bool) (ltK : K → K → Bool) (q : Prio K P) (e : K) (o : P) : Option (Bool × Prio K P) :=
  let s := setInsert ltP ltK q.next (o, e) q.vals
  match q.mt e with
  | none => some (true, { vals := s.2.2, mt := Meta.set q.mt e (some s.1), next := q.next + 1 })
  | some old =>
    if s.2.1 then
      match eraseNode s.2.2 old with
      | none => none
      | some vals => some (false, { vals := vals, mt := Meta.set q.mt e (some s.1), next := q.next + 1 })
    else some (false, { q with vals := s.2.2, next := q.next + 1 })

/-- `erase(e)`, `addressable_queues.h:168-176`. -/
def Prio.erase (q : Prio K P) (e : K) : Option (Bool × Prio K P) :=
  match q.mt e with
  | none => some (false, q)
  | some i =>
    match eraseNode q.vals i with
    | none => none
    | some vals => some (true, { q with vals := vals, mt := Meta.set q.mt e none })

/-- `erase(handle)`, `addressable_queues.h:180-184`. -/
def Prio.eraseHandle (q : Prio K P) (e : K) : Option (Prio K P) :=
  match q.mt e with
  | none => none
  | some i =>
    match eraseNode q.vals i with
    | none => none
    | some vals => some { q with vals := vals, mt := Meta.set q.mt e none }

/-- `top()`, `addressable_queues.h:188-189`. -/
def Prio.top (q : Prio K P) : Option K :=
  match q.vals with
  | [] => none
  | n :: _ => some n.2.2

/-- `pop()`, `addressable_queues.h:193-200`. -/
def Prio.pop (q : Prio K P) : Option (K × Prio K P) :=
  match q.vals with
  | [] => none
  | n :: l => some (n.2.2, { q with vals := l, mt := Meta.set q.mt n.2.2 none })

end Stxxl.AddrQueue
