/-!
# Model of `aligned_alloc` and `aligned_dealloc` (`/repo/include/stxxl/bits/common/aligned_alloc.h`)

Memory is a map from addresses to cells; a pointer stored at `a` takes the cells `a … a+7`, cell `k` holding the pair of the pointer and `k`.
`malloc` and `realloc` are the environment: their answers are arguments, and an answer that the C standard forbids gives `stuck`. The variant
with `posix_memalign` is not compiled by default and not modelled, `sizeof(char*)` is 8, addresses do not wrap.
-/
namespace Stxxl.AlignedAlloc

def W : Nat := 2 ^ 64

/-- Address and length of a block handed out by `malloc`. -/
abbrev Block := Nat × Nat

def disj (a b : Block) : Prop := a.1 + a.2 ≤ b.1 ∨ b.1 + b.2 ≤ a.1
instance (a b : Block) : Decidable (disj a b) := inferInstanceAs (Decidable (_ ∨ _))

/-- The heap, `aligned_alloc_settings<int>::may_use_realloc` (aligned_alloc.h:28-34), and (ghost) the blocks nobody can free any more. -/
structure Heap where
  live : List Block
  mem : Nat → Nat × Nat
  mayRealloc : Bool
  leaked : List Block

/-- What `realloc` to a smaller size does. -/
inductive Realloc where
  | same | moved (p : Nat) | fails

/-- The answers of the C library in one attempt; `malloc` may return null. -/
structure Answer where
  malloc : Option Nat
  realloc : Realloc

/-- An address `malloc` may return. -/
def fresh (live : List Block) (p n : Nat) : Prop := p ≠ 0 ∧ p + n ≤ W ∧ ∀ b ∈ live, disj (p, n) b
instance (live : List Block) (p n : Nat) : Decidable (fresh live p n) := inferInstanceAs (Decidable (_ ∧ _ ∧ _))

/-- `[a, a+n)` is inside one block. -/
def inside (live : List Block) (a n : Nat) : Prop := ∃ b ∈ live, b.1 ≤ a ∧ a + n ≤ b.1 + b.2
instance (live : List Block) (a n : Nat) : Decidable (inside live a n) := inferInstanceAs (Decidable (∃ b ∈ live, _))

/-- `std::free`; `none` is undefined. -/
def free (h : Heap) (p : Nat) : Option Heap :=
  if p = 0 then some h
  else
    match h.live.find? (fun b => b.1 == p) with
    | none => none
    | some b => some { h with live := h.live.erase b }

/-- `*(char**)a = p`. -/
def storePtr (mem : Nat → Nat × Nat) (a p : Nat) : Nat → Nat × Nat := fun x => if a ≤ x ∧ x < a + 8 then (p, x - a) else mem x

/-- `*(char**)a`; `none` if there is no pointer. -/
def loadPtr (mem : Nat → Nat × Nat) (a : Nat) : Option Nat :=
  if (List.range 8).all (fun k => decide (mem (a + k) = ((mem a).1, k))) then some (mem a).1 else none

/-- One successful allocation: `ptr` is given to the caller, who may use `meta + size` bytes; `block` is ghost. -/
structure Area where
  ptr : Nat
  metaSize : Nat
  size : Nat
  block : Block
deriving DecidableEq

inductive Res where
  | ok (h : Heap) (r : Area)
  | badAlloc (h : Heap)
  | undef
  | stuck

/-- `result`, aligned_alloc.h:80-82. -/
def resultOf (A metaSize buffer : Nat) : Nat :=
  let reserve := buffer + 8 + metaSize
  reserve + A - reserve % A - metaSize

/-- Lines 106-117: store the pointer to the buffer, return. -/
def finish (A size metaSize : Nat) (h : Heap) (b : Block) : Res :=
  let r := resultOf A metaSize b.1
  if inside h.live (r - 8) 8 then .ok { h with mem := storePtr h.mem (r - 8) b.1 } ⟨r, metaSize, size, b⟩ else .undef

/-- `aligned_alloc<A>(size, meta_info_size)`, aligned_alloc.h:48-118. -/
def alloc (A size metaSize : Nat) : List Answer → Heap → Res
  | [], _ => .stuck
  | a :: as, h =>
    let n := (A + 8 + metaSize + size) % W
    match a.malloc with
    | none => .badAlloc h
    | some p =>
      if ¬ fresh h.live p n then .stuck
      else
        let rs := (resultOf A metaSize p - p + metaSize + size) % W
        if rs < n ∧ h.mayRealloc = true then
          match a.realloc with
          | .same => finish A size metaSize { h with live := (p, rs) :: h.live } (p, rs)
          | .moved q =>
            if q = p ∨ ¬ fresh h.live q rs then .stuck
            else
              match free { h with live := (q, rs) :: h.live } q with
              | none => .undef
              | some h' => alloc A size metaSize as { h' with mayRealloc := false }
          | .fails => alloc A size metaSize as { h with live := (p, n) :: h.live, leaked := (p, n) :: h.leaked, mayRealloc := false }
        else finish A size metaSize { h with live := (p, n) :: h.live } (p, n)

/-- `aligned_dealloc`, aligned_alloc.h:120-130; `none` is undefined. -/
def dealloc (h : Heap) (ptr : Nat) : Option Heap :=
  if ptr = 0 then some h
  else if ptr < 8 ∨ ¬ inside h.live (ptr - 8) 8 then none
  else
    match loadPtr h.mem (ptr - 8) with
    | none => none
    | some buffer => free h buffer

/-- The program: what it does with the memory. -/
inductive Event where
  | alloc (size metaSize : Nat) (answers : List Answer)
  | dealloc (i : Nat)
  | deallocNull
  | write (i off : Nat) (c : Nat × Nat)

/-- The heap and the areas the program holds. -/
structure State where
  heap : Heap
  areas : List Area

inductive Out where
  | ok (s : State) | undef | stuck

/-- One step of the program. It deallocates and writes only areas it holds; anything else is `stuck`. -/
def step (A : Nat) (s : State) : Event → Out
  | .alloc size m as =>
    match alloc A size m as s.heap with
    | .ok h r => .ok ⟨h, r :: s.areas⟩
    | .badAlloc h => .ok ⟨h, s.areas⟩
    | .undef => .undef
    | .stuck => .stuck
  | .dealloc i =>
    match s.areas[i]? with
    | none => .stuck
    | some r =>
      match dealloc s.heap r.ptr with
      | none => .undef
      | some h => .ok ⟨h, s.areas.eraseIdx i⟩
  | .deallocNull =>
    match dealloc s.heap 0 with
    | none => .undef
    | some h => .ok ⟨h, s.areas⟩
  | .write i off c =>
    match s.areas[i]? with
    | none => .stuck
    | some r =>
      if off < r.metaSize + r.size then
        if inside s.heap.live (r.ptr + off) 1 then
          .ok ⟨{ s.heap with mem := fun x => if x = r.ptr + off then c else s.heap.mem x }, s.areas⟩
        else .undef
      else .stuck

/-- A whole run. -/
def run (A : Nat) : State → List Event → Out
  | s, [] => .ok s
  | s, e :: es =>
    match step A s e with
    | .ok s' => run A s' es
    | .undef => .undef
    | .stuck => .stuck

end Stxxl.AlignedAlloc
