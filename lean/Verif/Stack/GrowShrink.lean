import Verif.Stack.NormalProps

/-!
# Model of `grow_shrink_stack` with asynchronous I/O

Models `/repo/include/stxxl/bits/containers/stack.h:289-530`. `B` = `block_type::size`, `P` = `blocks_per_page`.
`mem false`, `mem true` are the two halves of `cache`; `cb` says which one `cache_buffers` points to, the other one is
`overlap_buffers`. `reqs i` is `requests[i]`. A request is *served* at any time between its creation and the end of a
`wait()` on it: a write copies the buffer as it is at that moment to the disk, a read copies the block as it is at that
moment to the buffer. Serving steps (`serve`) interleave arbitrarily with the operations, and inside the loops that issue
requests (argument `sched`). I/O errors are not modelled.
-/

namespace Stxxl.Stack
open Stxxl.ExtVector (upd)

/-- A request on block `i` of page `page`. -/
structure Req where
  isWrite : Bool
  page : Bool
  bid : Nat
  done : Bool

/-- Data members, `stack.h:308-317`, and the disk. -/
structure Gs (α : Type) where
  size : Nat
  off : Nat
  cur : Option (Bool × Nat × Nat)
  mem : Bool → Nat → Nat → α
  cb : Bool
  reqs : Nat → Option Req
  bids : List Nat
  disk : Nat → Nat → α

namespace Gs
variable {α : Type} (B P : Nat)

/-- Default constructor, `stack.h:324-336`. -/
def new (mem : Bool → Nat → Nat → α) (disk : Nat → Nat → α) : Gs α :=
  { size := 0, off := 0, cur := none, mem := mem, cb := false, reqs := fun _ => none, bids := [], disk := disk }

/-- The disk thread serves request `i` (if it is outstanding). -/
def serve (s : Gs α) (i : Nat) : Gs α :=
  match s.reqs i with
  | none => s
  | some r =>
    if r.done then s
    else if r.isWrite then
      { s with disk := upd s.disk r.bid (s.mem r.page i), reqs := upd s.reqs i (some { r with done := true }) }
    else
      { s with mem := fun p => if p = r.page then upd (s.mem p) i (s.disk r.bid) else s.mem p
               reqs := upd s.reqs i (some { r with done := true }) }

def serveAll (s : Gs α) : List Nat → Gs α
  | [] => s
  | i :: is => serveAll (serve s i) is

/-- `requests[i]->wait()`: the request has been served when the call returns; `none` = null pointer. -/
def wait (s : Gs α) (i : Nat) : Option (Gs α) :=
  match s.reqs i with
  | none => none
  | some _ => some (serve s i)

/-- `wait_all(requests.begin(), blocks_per_page)`, `request_operations.h:31-38`: waits for requests `i, i+1, …`. -/
def waitAll (s : Gs α) : Nat → Nat → Option (Gs α)
  | 0, _ => some s
  | k + 1, i =>
    match wait s i with
    | none => none
    | some s' => waitAll s' k (i + 1)

/-- `if (requests[i].get()) requests[i]->wait();`, `stack.h:466-467`. -/
def waitIf (s : Gs α) (i : Nat) : Option (Gs α) :=
  match s.reqs i with
  | none => some s
  | some _ => wait s i

/-- `if (requests[0].get()) wait_all(requests.begin(), blocks_per_page);`, `stack.h:394-395,503-504`. -/
def waitAllIf (s : Gs α) : Option (Gs α) :=
  match s.reqs 0 with
  | none => some s
  | some _ => waitAll s P 0

/-- `requests[i] = …`: start a request. Overwriting the pointer to a request that is still outstanding would lose track
of it; the model treats that as a failure. -/
def issue (s : Gs α) (i : Nat) (r : Req) : Option (Gs α) :=
  match s.reqs i with
  | some r' => if r'.done then some { s with reqs := upd s.reqs i (some r) } else none
  | none => some { s with reqs := upd s.reqs i (some r) }

/-- The loop in `push`, `stack.h:464-470`. -/
def growLoop (sched : Nat → List Nat) : List Nat → Nat → Gs α → Option (Gs α)
  | [], _, s => some s
  | b :: bs, i, s =>
    match waitIf s i with
    | none => none
    | some s1 =>
      match issue s1 i { isWrite := true, page := s1.cb, bid := b, done := false } with
      | none => none
      | some s2 => growLoop sched bs (i + 1) (serveAll s2 (sched i))

/-- `push`, `stack.h:452-489`. -/
def push (s : Gs α) (v : α) (fresh : List Nat) (sched : Nat → List Nat) : Option (Gs α) :=
  if ¬ s.off ≤ P * B then none
  else if s.off = P * B then
    match growLoop sched fresh 0 { s with bids := s.bids ++ fresh } with
    | none => none
    | some s1 =>
      some { s1 with cb := !s1.cb, off := 1, cur := some (!s1.cb, 0, 0), size := s1.size + 1
                     mem := Normal.poke s1.mem (!s1.cb, 0, 0) v }
  else
    let c := (s.cb, s.off / B, s.off % B)
    some { s with cur := some c, mem := Normal.poke s.mem c v, size := s.size + 1, off := s.off + 1 }

/-- The prefetch loop in `pop`, `stack.h:511-513`, for `i = k-1, …, 0`; `base` is the position in `bids` of the block to
be read for `i = 0`. -/
def prefLoop (sched : Nat → List Nat) (base : Nat) : Nat → Gs α → Option (Gs α)
  | 0, s => some s
  | k + 1, s =>
    match s.bids[base + k]? with
    | none => none
    | some b =>
      match issue s k { isWrite := false, page := !s.cb, bid := b, done := false } with
      | none => none
      | some s1 => prefLoop sched base k (serveAll s1 (sched k))

/-- `pop`, `stack.h:493-527`. As in `normal_stack`, the pointer computed when the stack becomes empty is `none`. -/
def pop (s : Gs α) (sched : Nat → List Nat) : Option (Gs α) :=
  if ¬ (s.off ≤ P * B ∧ 0 < s.off ∧ 0 < s.size) then none
  else if s.off = 1 ∧ P ≤ s.bids.length then
    match waitAllIf P s with
    | none => none
    | some s1 =>
      let s2 := { s1 with cb := !s1.cb }
      match (if P < s2.bids.length then prefLoop sched (s2.bids.length - 2 * P) P s2 else some s2) with
      | none => none
      | some s3 =>
        some { s3 with bids := s3.bids.take (s3.bids.length - P), off := P * B, size := s3.size - 1
                       cur := some (s3.cb, P - 1, B - 1) }
  else
    some { s with
      size := s.size - 1
      off := s.off - 1
      cur := if s.off - 1 = 0 then none else some (s.cb, (s.off - 1 - 1) / B, (s.off - 1 - 1) % B) }

/-- `top()`, `stack.h:436-448`. -/
def top (s : Gs α) : Option α :=
  if s.size = 0 then none else s.cur.map (fun c => s.mem c.1 c.2.1 c.2.2)

/-- `top() = v`. -/
def setTop (s : Gs α) (v : α) : Option (Gs α) :=
  if s.size = 0 then none else s.cur.map (fun c => { s with mem := Normal.poke s.mem c v })

/-- `empty()` -/
def isEmpty (s : Gs α) : Bool := s.size = 0

/-- Destructor up to the deletion of the blocks, `stack.h:390-402`. -/
def destroy (s : Gs α) : Option (Gs α) := waitAllIf P s

def step (s : Gs α) (fresh : List Nat) (sched : Nat → List Nat) : Op α → Option (Gs α)
  | .push v => push B P s v fresh sched
  | .pop => pop B P s sched
  | .setTop v => setTop s v

/-- Reachable states: any operations with any schedule; at any time the disk may serve any outstanding request, and
somebody may write a block that is not the stack's. -/
inductive Reach : Gs α → List α → Prop
  | new (mem disk) : Reach (new mem disk) []
  | step {s s' l} (fresh : List Nat) (sched : Nat → List Nat) (op : Op α) :
      Reach s l → specLegal l op → fresh.length = P → fresh.Nodup → (∀ b ∈ fresh, b ∉ s.bids) →
      step B P s fresh sched op = some s' → Reach s' (specStep l op)
  | serve {s l} (i : Nat) : Reach s l → Reach (serve s i) l
  | foreign {s l} (b : Nat) (c : Nat → α) :
      Reach s l → b ∉ s.bids → Reach { s with disk := upd s.disk b c } l

end Gs
end Stxxl.Stack
