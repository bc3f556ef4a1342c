import Verif.Pools.Props
import Verif.Stack.GrowShrinkProps

/-!
# Model of `grow_shrink_stack2` on a shared `read_write_pool`

Models `/repo/include/stxxl/bits/containers/stack.h:539-812`. The pool is the model in `Verif.Pools`, so writes and
prefetches are asynchronous and other clients may use the same pool.
-/

namespace Stxxl.Stack
open Stxxl.ExtVector (upd)
open Stxxl.Pools Stxxl.Io

/-- What the environment decides during one operation: the id of a new block, which cancellations succeed, what the disk
serves in between, which write is finished first. -/
structure Env where
  fresh : Nat
  canc : Nat → Bool
  sched : List Nat
  pick : Nat
  stealSched : Nat → List Nat
  sv : Nat → List Nat

/-- Data members, `stack.h:561-568`, with the pool. `cl` and `spec` are not part of the program: they record which buffers
the pool's clients hold, and the latest content written to each block through the pool. -/
structure G2 (α : Type) where
  size : Nat
  off : Nat
  cache : Nat
  bids : List Nat
  pref : Nat
  sys : Sys (Nat → α)
  cl : Client
  spec : Nat → Nat → α

namespace G2
variable {α : Type} (B : Nat)

/-- `pool->invalidate(b)` for each `b`. -/
def invalLoop (env : Env) : List Nat → Sys (Nat → α) → Option (Sys (Nat → α))
  | [], s => some s
  | b :: bs, s =>
    match s.invalidate env.canc b with
    | none => none
    | some (s', _) => invalLoop env bs { s' with io := s'.io.serveAll (env.sv b) }

/-- `pool->hint(b)` for each `b`. -/
def hintLoop (env : Env) : List Nat → Sys (Nat → α) → Sys (Nat → α)
  | [], s => s
  | b :: bs, s => hintLoop env bs { s.hint b with io := (s.hint b).io.serveAll (env.sv b) }

/-- `rehint`, `stack.h:800-808`: the last `pref_aggr` external blocks, last one first. -/
def rehint (env : Env) (g : G2 α) : G2 α :=
  { g with sys := hintLoop env (g.bids.drop (g.bids.length - g.pref)).reverse g.sys }

/-- The growing part of `push`, `stack.h:696-712`. -/
def grow (g : G2 α) (env : Env) : Option (G2 α) :=
  match g.sys.write env.canc env.sched g.cache env.fresh with
  | none => none
  | some s1 =>
    match s1.steal env.pick env.stealSched with
    | none => none
    | some (s2, b) =>
      match invalLoop env (g.bids.drop (g.bids.length - g.pref)).reverse s2 with
      | none => none
      | some s3 =>
        some { g with sys := s3, cache := b, bids := g.bids ++ [env.fresh], off := 0
                      cl := { g.cl with held := b :: g.cl.held.erase g.cache }
                      spec := upd g.spec env.fresh (g.sys.io.mem g.cache) }

/-- `(*cache)[o] = val`. -/
def put (g : G2 α) (o : Nat) (v : α) : G2 α :=
  { g with sys := { g.sys with io := { g.sys.io with mem := upd g.sys.io.mem g.cache (upd (g.sys.io.mem g.cache) o v) } } }

/-- `(*cache)[cache_offset] = val; ++m_size; ++cache_offset;`, `stack.h:714-716`. -/
def append (g : G2 α) (v : α) : G2 α := { put g g.off v with size := g.size + 1, off := g.off + 1 }

/-- `push`, `stack.h:691-720`. -/
def push (g : G2 α) (env : Env) (v : α) : Option (G2 α) :=
  if ¬ g.off ≤ B then none
  else if g.off = B then
    match grow g env with
    | none => none
    | some g1 => some (append g1 v)
  else some (append g v)

/-- `pool->read(cache, last_block)->wait()`, `stack.h:756`. -/
def readBack (g : G2 α) (env : Env) (last : Nat) : Option (G2 α) :=
  let r := g.sys.read g.cache last
  match (r.1.io.serveAll env.sched).wait r.2.2 with
  | none => none
  | some io => some { g with sys := { r.1 with io := io }, cache := r.2.1
                             cl := { g.cl with held := r.2.1 :: g.cl.held.erase g.cache } }

/-- `pop`, `stack.h:744-764`. -/
def pop (g : G2 α) (env : Env) : Option (G2 α) :=
  if ¬ (0 < g.size ∧ 0 < g.off ∧ g.off ≤ B) then none
  else if g.off = 1 then
    match g.bids.getLast? with
    | none => some { g with off := g.off - 1, size := g.size - 1 }
    | some last =>
      match readBack { g with bids := g.bids.dropLast } env last with
      | none => none
      | some g1 => some { rehint env g1 with off := B + 1 - 1, size := g1.size - 1 }
  else some { g with off := g.off - 1, size := g.size - 1 }

/-- `set_prefetch_aggr`, `stack.h:774-788`. -/
def setPref (g : G2 α) (env : Env) (n : Nat) : Option (G2 α) :=
  if n < g.pref then
    match invalLoop env ((g.bids.take (g.bids.length - n)).drop (g.bids.length - g.pref)).reverse g.sys with
    | none => none
    | some s => some (rehint env { g with sys := s, pref := n })
  else some (rehint env { g with pref := n })

/-- `top()`, `stack.h:724-740`; `none` = failed assertion. -/
def top (g : G2 α) : Option α :=
  if 0 < g.size ∧ 0 < g.off ∧ g.off ≤ B then some (g.sys.io.mem g.cache (g.off - 1)) else none

/-- `top() = v`. -/
def setTop (g : G2 α) (v : α) : Option (G2 α) :=
  if 0 < g.size ∧ 0 < g.off ∧ g.off ≤ B then some (put g (g.off - 1) v) else none

/-- `empty()`, `stack.h:679-682`. -/
def isEmpty (g : G2 α) : Bool := g.size = 0

def step (g : G2 α) (env : Env) : Op α → Option (G2 α)
  | .push v => push B g env v
  | .pop => pop B g env
  | .setTop v => setTop B g v

/-- Reachable states: a stack is constructed on a pool in any state, with `cache` a new buffer; then any stack operations
and changes of the prefetch setting; the disk serves requests at any time; other clients use the pool and the disk, but
leave the stack's blocks and buffer alone. -/
inductive Reach : G2 α → List α → Prop
  | new {sys : Sys (Nat → α)} {c spec} (cache pref : Nat) (h : Pools.Reach sys c spec) (hc : cache ∈ c.held) :
      Reach ⟨0, 0, cache, [], pref, sys, c, spec⟩ []
  | step {g g' l} (env : Env) (op : Op α) : Reach g l → specLegal l op → env.fresh ∉ g.bids → ¬ g.cl.open env.fresh →
      step B g env op = some g' → Reach g' (specStep l op)
  | setPref {g g' l} (env : Env) (n : Nat) : Reach g l → setPref g env n = some g' → Reach g' l
  | serve {g l} (i : Nat) : Reach g l → Reach { g with sys := { g.sys with io := g.sys.io.serve i } } l
  | other {g l} {sys : Sys (Nat → α)} {c spec} : Reach g l → Step g.sys g.cl g.spec sys c spec →
      g.cache ∈ c.held → sys.io.mem g.cache = g.sys.io.mem g.cache → (∀ b ∈ g.bids, spec b = g.spec b ∧ ¬ c.open b) →
      Reach { g with sys := sys, cl := c, spec := spec } l

end G2
end Stxxl.Stack
