import Verif.PQ.Merger

/-!
# Model of `stxxl::priority_queue`

`include/stxxl/bits/containers/priority_queue.h` and `internal_priority_queue` (`pq_helpers.h:90-183`), sequential build.

* A buffer with a current-minimum pointer (`delete_buffer`, `group_buffers[i]`) is the list of the elements from that
  pointer to the end of the buffer; the sentinel behind the end of the buffer is not part of the list.
* `int_mergers` and `ext_mergers` are one array `mg` indexed by the group number.
* The temporary arrays of `empty_insert_heap` are modelled as arrays: the last of its three merges writes over its input.
* `std::push_heap`, `std::pop_heap` and `std::sort` are the parameter `H`; what is assumed of them is `StdHeap.Ok`
  in `Verif.PQ.Spec`.
* A failing assertion, an exception, an access outside an array are the outcome `none`.
* `size_type` arithmetic does not wrap.
-/

namespace Stxxl.PQ
open Stxxl.LT (upd)

variable {α : Type}

/-- `priority_queue_config`, `priority_queue.h:40-69`; `bs` is the number of elements of a block. -/
structure Cfg where
  delSize : Nat
  N : Nat
  intK : Nat
  numInt : Nat
  bs : Nat
  extK : Nat
  numExt : Nat

/-- `total_num_groups`, `priority_queue.h:110`. -/
def Cfg.total (c : Cfg) : Nat := c.numInt + c.numExt

/-- The parameters of the merger of a group, `priority_queue.h:130-140`. -/
def Cfg.mp (c : Cfg) (level : Nat) : MP :=
  if level < c.numInt then ⟨false, c.intK, c.bs⟩ else ⟨true, c.extK, c.bs⟩

/-- The three library functions used by `internal_priority_queue`: on the range `[0, current_size)` of its array. -/
structure StdHeap (α : Type) where
  pushHeap : List α → List α
  popHeap : List α → List α
  sort : List α → List α

/-- The members of `priority_queue`, `priority_queue.h:142-167`. `heap` is the used part of the array of the insert
heap. -/
structure State (α : Type) where
  mg : Nat → Merger α
  gb : Nat → List α
  del : List α
  heap : List α
  nact : Nat
  size : Nat

/-- The constructor and `init`, `priority_queue.h:397-408`, `:430-452`. -/
def init (C : Cmp α) (H : StdHeap α) : State α :=
  { mg := fun _ => Merger.init C, gb := fun _ => [], del := [], heap := H.pushHeap [C.minv], nact := 0, size := 0 }

/-- `size()`, `priority_queue.h:324-329`. -/
def State.count (s : State α) : Nat := s.size + s.heap.length - 1 + s.del.length

/-- `top()`, `priority_queue.h:331-343`. -/
def top (C : Cmp α) (s : State α) : Option α :=
  match s.heap.head? with
  | none => none
  | some t => some (if C.less (s.del.headD C.minv) t then t else s.del.headD C.minv)

/-- `refill_group_buffer`, `priority_queue.h:467-522`: returns the number of elements now in the buffer. -/
def refillGroup (c : Cfg) (C : Cmp α) (s : State α) (i : Nat) : Option (Nat × State α) :=
  let left := (s.gb i).length
  let gs := (s.mg i).msize
  let length := if gs + left ≥ c.N then c.N - left else gs
  if length > 0 then
    match multiMerge (c.mp i) C (s.mg i) length with
    | none => none
    | some (xs, M) => some (length + left, { s with mg := upd s.mg i M, gb := upd s.gb i (s.gb i ++ xs) })
  else some (length + left, s)

/-- The loop of `refill_delete_buffer`, `priority_queue.h:531-545`: returns the sum of the group sizes. -/
def refillGroups (c : Cfg) (C : Cmp α) : List Nat → Nat → State α → Option (Nat × State α)
  | [], tot, s => some (tot, s)
  | i :: is, tot, s =>
    if (s.gb i).length < c.delSize then
      match refillGroup c C s i with
      | none => none
      | some (len, s1) =>
        let s2 := if len = 0 ∧ i = s1.nact - 1 then { s1 with nact := s1.nact - 1 } else s1
        refillGroups c C is (tot + len) s2
    else refillGroups c C is (tot + c.delSize) s

/-- A group buffer as the source of a merge. -/
def bufSlot (l : List α) : Slot α := ⟨l, [], false⟩

/-- The `switch (num_active_groups)` of `refill_delete_buffer`, `priority_queue.h:567-661`. -/
def fillFrom (C : Cmp α) (nact len : Nat) (gb : Nat → List α) : Option (List α × (Nat → List α)) :=
  let sl := fun i => bufSlot (gb i)
  let back := fun r : Option (List α × (Nat → Slot α)) =>
    match r with
    | none => none
    | some (xs, sl') => some (xs, fun i => (sl' i).cur)
  match nact with
  | 0 => if len = 0 then some ([], gb) else none
  | 1 => if (gb 0).length < len then none else some ((gb 0).take len, upd gb 0 ((gb 0).drop len))
  | 2 => back (merge2 C len sl)
  | 3 => back (merge3 C len sl)
  | 4 => back (merge4 C len sl)
  | _ => none

/-- `refill_delete_buffer`, `priority_queue.h:524-679`; it is called when the delete buffer is empty. -/
def refillDelete (c : Cfg) (C : Cmp α) (s : State α) : Option (State α) :=
  match refillGroups c C (List.range s.nact).reverse 0 s with
  | none => none
  | some (tot, s1) =>
    let full := tot ≥ c.delSize
    if (full ∧ s1.size < c.delSize) ∨ (¬ full ∧ s1.size ≠ tot) then none
    else
      let len := if full then c.delSize else tot
      let size := if full then s1.size - c.delSize else 0
      match fillFrom C s1.nact len s1.gb with
      | none => none
      | some (xs, gb) => some { s1 with del := xs, gb := gb, size := size }

/-- `pop()`, `priority_queue.h:345-361`. -/
def pop (c : Cfg) (C : Cmp α) (H : StdHeap α) (s : State α) : Option (State α) :=
  match s.heap.head? with
  | none => none
  | some t =>
    if C.less (s.del.headD C.minv) t then some { s with heap := (H.popHeap s.heap).dropLast }
    else
      match s.del with
      | [] => none
      | _ :: d =>
        let s1 := { s with del := d }
        if d = [] then refillDelete c C s1 else some s1

/-- `make_space_available`, `priority_queue.h:685-760`: returns the level where space was found. `fuel` bounds the
recursion. -/
def makeSpace (c : Cfg) (C : Cmp α) : Nat → Nat → State α → Option (Nat × State α)
  | 0, _, _ => none
  | fuel + 1, level, s =>
    if ¬ level < c.total ∨ ¬ level ≤ s.nact then none
    else
      let s0 := if level = s.nact then { s with nact := s.nact + 1 } else s
      if spaceAvail (c.mp level) (s0.mg level) then some (level, s0)
      else if level = c.total - 1 then
        if level < c.numInt then none
        else
          match appendMerger (c.mp level) C (Merger.init C) (c.mp level) (s0.mg level) (s0.mg level).msize with
          | none => none
          | some (M, _) => some (level, { s0 with mg := upd s0.mg level M })
      else
        match makeSpace c C fuel (level + 1) s0 with
        | none => none
        | some (final, s1) =>
          if level < c.numInt - 1 then
            match multiMerge (c.mp level) C (s1.mg level) (s1.mg level).msize with
            | none => none
            | some (xs, M) =>
              match appendArray (c.mp (level + 1)) C (s1.mg (level + 1)) xs with
              | none => none
              | some M' => some (final, { s1 with mg := upd (upd s1.mg level M) (level + 1) M' })
          else
            match appendMerger (c.mp (level + 1)) C (s1.mg (level + 1)) (c.mp level) (s1.mg level) (s1.mg level).msize with
            | none => none
            | some (M', M) => some (final, { s1 with mg := upd (upd s1.mg level M) (level + 1) M' })

/-- `merge2_iterator` on the arrays `t` and `s` from positions `p0`, `p1` to a separate target: the `n` elements and the
new positions. -/
def mergeRead (C : Cmp α) (t s : List α) : Nat → Nat → Nat → Option (List α × Nat × Nat)
  | 0, p0, p1 => some ([], p0, p1)
  | n + 1, p0, p1 =>
    match t[p0]?, s[p1]? with
    | some a, some b =>
      if C.less a b then
        match mergeRead C t s n p0 (p1 + 1) with
        | none => none
        | some (xs, r) => some (b :: xs, r)
      else
        match mergeRead C t s n (p0 + 1) p1 with
        | none => none
        | some (xs, r) => some (a :: xs, r)
    | _, _ => none

/-- `merge2_iterator` whose target is the array `s` itself, from position `w` on. -/
def mergeWrite (C : Cmp α) (t : List α) : Nat → Nat → Nat → Nat → List α → Option (List α)
  | 0, _, _, _, s => some s
  | n + 1, p0, p1, w, s =>
    match t[p0]?, s[p1]? with
    | some a, some b =>
      if s.length ≤ w then none
      else if C.less a b then mergeWrite C t n p0 (p1 + 1) (w + 1) (s.set w b)
      else mergeWrite C t n (p0 + 1) p1 (w + 1) (s.set w a)
    | _, _ => none

/-- `append_array(newSegment, length)` for an array with a sentinel at position `length`. -/
def appendSeg (c : Cfg) (C : Cmp α) (M : Merger α) (seg : List α) (length : Nat) : Option (Merger α) :=
  if length = 0 then some M
  else
    match seg[length]? with
    | none => none
    | some x => if C.isSentinel x then appendArray (c.mp 0) C M (seg.take length) else none

/-- `for (i = freeLevel; i >= 0; i--)`: the group buffers go to tree 0, `priority_queue.h:820-834`. -/
def dumpGroups (c : Cfg) (C : Cmp α) : List Nat → State α → Option (State α)
  | [], s => some s
  | i :: is, s =>
    match appendSeg c C (s.mg 0) (s.gb i ++ [C.minv]) (s.gb i).length with
    | none => none
    | some M => dumpGroups c C is { s with mg := upd s.mg 0 M, gb := upd s.gb i [] }

/-- `empty_insert_heap`, `priority_queue.h:762-843`. -/
def emptyHeap (c : Cfg) (C : Cmp α) (H : StdHeap α) (s : State α) : Option (State α) :=
  if s.heap.length ≠ c.N + 1 then none
  else
    let seg0 := (H.sort s.heap).reverse
    match seg0[c.N]? with
    | none => none
    | some sen =>
      let seg := seg0.set c.N C.minv
      let sz1 := s.del.length
      let sz2 := (s.gb 0).length
      let tmp := s.del ++ s.gb 0 ++ [C.minv]
      match mergeRead C tmp seg sz1 0 0 with
      | none => none
      | some (d, p0, p1) =>
        match mergeRead C tmp seg sz2 p0 p1 with
        | none => none
        | some (g, q0, q1) =>
          match mergeWrite C tmp c.N q0 q1 0 seg with
          | none => none
          | some seg' =>
            let s1 := { s with heap := H.pushHeap [sen], del := d, gb := upd s.gb 0 g }
            match makeSpace c C c.total 0 s1 with
            | none => none
            | some (lvl, s2) =>
              if lvl ≠ 0 ∧ (s2.mg 0).msize ≠ 0 then none
              else
                match appendSeg c C (s2.mg 0) seg' c.N with
                | none => none
                | some M =>
                  match dumpGroups c C (if lvl > 0 then (List.range (lvl + 1)).reverse else []) { s2 with mg := upd s2.mg 0 M } with
                  | none => none
                  | some s3 =>
                    let s4 := { s3 with size := s3.size + c.N }
                    if s4.del = [] then refillDelete c C s4 else some s4

/-- `insert_heap.push(obj)`, `pq_helpers.h:137-143`; the array has `N + 2` places. -/
def heapPush (c : Cfg) (H : StdHeap α) (s : State α) (x : α) : Option (State α) :=
  if s.heap.length < c.N + 2 then some { s with heap := H.pushHeap (s.heap ++ [x]) } else none

/-- `push()`, `priority_queue.h:363-373`. -/
def push (c : Cfg) (C : Cmp α) (H : StdHeap α) (s : State α) (x : α) : Option (State α) :=
  if C.isSentinel x then none
  else if s.heap.length = c.N + 1 then
    match emptyHeap c C H s with
    | none => none
    | some s' => if s'.heap = [] then none else heapPush c H s' x
  else if s.heap = [] then none
  else heapPush c H s x

/-- Operations of a client. -/
inductive Op (α : Type) where
  | push (x : α)
  | pop
  | top
  | size
  | isEmpty

/-- What an operation returns. -/
inductive Obs (α : Type) where
  | unit
  | val (x : α)
  | num (n : Nat)
  | bool (b : Bool)
deriving DecidableEq

def step (c : Cfg) (C : Cmp α) (H : StdHeap α) (s : State α) : Op α → Option (Obs α × State α)
  | .push x => (push c C H s x).map fun s' => (.unit, s')
  | .pop => (pop c C H s).map fun s' => (.unit, s')
  | .top => (top C s).map fun x => (.val x, s)
  | .size => some (.num s.count, s)
  | .isEmpty => some (.bool (s.count == 0), s)

def run (c : Cfg) (C : Cmp α) (H : StdHeap α) : State α → List (Op α) → Option (List (Obs α) × State α)
  | s, [] => some ([], s)
  | s, o :: os =>
    match step c C H s o with
    | none => none
    | some (b, s') =>
      match run c C H s' os with
      | none => none
      | some (bs, s'') => some (b :: bs, s'')

end Stxxl.PQ
