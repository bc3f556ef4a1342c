/-!
# Model of `singleton` (`/repo/include/stxxl/bits/singleton.h`) and its exit handlers (`/repo/lib/common/exithandler.cpp`)

Classes are numbers; `deps c` are the singletons that the constructor of `c` asks for, in order (e.g. `disk_queues` asks for `stats`,
disk_queues.h:46-49). Threads run the steps below in any interleaving; memory is sequentially consistent (`volatile` does not promise that),
constructors do not throw, `atexit` does not fail. `destroy_on_exit` is true, as for every class in the library.
-/
namespace Stxxl.Singleton

/-- The value of `singleton<…>::instance`: null, the `k`-th object made, or the bomb of singleton.h:66. -/
inductive Ptr where
  | null | obj (k : Nat) | bomb
deriving DecidableEq

/-- Where a call of `get_instance` is. -/
inductive Pc where
  /-- singleton.h:41, the test without lock -/
  | check
  /-- line 44 -/
  | ret1
  /-- line 52, waits for the mutex -/
  | lock
  /-- line 53, the test under the lock -/
  | check2
  /-- line 54, the constructor still has to ask for `rest` -/
  | build (rest : List Nat)
  /-- line 55-56 -/
  | register
  /-- line 58, return and unlock -/
  | ret2
deriving DecidableEq

/-- A thread: the calls it is in (innermost first), the calls of `get_instance` it will still make, what its calls returned. -/
structure Thread where
  stack : List (Nat × Pc)
  script : List Nat
  results : List (Nat × Ptr)

/-- Shared state. `started` and `made` list the constructors that began and ended, `handlers` the registered classes, the latest first. -/
structure State where
  inst : Nat → Ptr
  mutex : Nat → Option Nat
  started : List Nat
  made : List Nat
  handlers : List Nat
  threads : Nat → Thread

def upd {α : Type} (f : Nat → α) (c : Nat) (v : α) : Nat → α := fun x => if x = c then v else f x

/-- Thread `t` goes on with another stack. -/
def State.goto (s : State) (t : Nat) (stack : List (Nat × Pc)) : State :=
  { s with threads := upd s.threads t { s.threads t with stack := stack } }

/-- A call for `c` returns `v`. -/
def State.ret (s : State) (t : Nat) (stack : List (Nat × Pc)) (c : Nat) (v : Ptr) : State :=
  { s with threads := upd s.threads t { s.threads t with stack := stack, results := (c, v) :: (s.threads t).results } }

/-- One step of thread `t`: singleton.h:39-59, with `register_exit_handler` of exithandler.cpp:28-31. `none`: finished, or waits. -/
def step (deps : Nat → List Nat) (s : State) (t : Nat) : Option State :=
  match (s.threads t).stack with
  | [] =>
    match (s.threads t).script with
    | [] => none
    | c :: cs => some { s with threads := upd s.threads t { s.threads t with stack := [(c, .check)], script := cs } }
  | (c, .check) :: fs => if s.inst c = .null then some (s.goto t ((c, .lock) :: fs)) else some (s.goto t ((c, .ret1) :: fs))
  | (c, .ret1) :: fs => some (s.ret t fs c (s.inst c))
  | (c, .lock) :: fs =>
    if s.mutex c = none then some ({ s with mutex := upd s.mutex c (some t) }.goto t ((c, .check2) :: fs)) else none
  | (c, .check2) :: fs =>
    if s.inst c = .null then some ({ s with started := c :: s.started }.goto t ((c, .build (deps c)) :: fs))
    else some (s.goto t ((c, .ret2) :: fs))
  | (c, .build (d :: rest)) :: fs => some (s.goto t ((d, .check) :: (c, .build rest) :: fs))
  | (c, .build []) :: fs =>
    some ({ s with inst := upd s.inst c (.obj s.made.length), made := s.made ++ [c] }.goto t ((c, .register) :: fs))
  | (c, .register) :: fs => some ({ s with handlers := c :: s.handlers }.goto t ((c, .ret2) :: fs))
  | (c, .ret2) :: fs => some ({ s with mutex := upd s.mutex c none }.ret t fs c (s.inst c))

/-- The threads step in the order `ts`. -/
def exec (deps : Nat → List Nat) : State → List Nat → Option State
  | s, [] => some s
  | s, t :: ts =>
    match step deps s t with
    | none => none
    | some s' => exec deps s' ts

/-- Thread `t` will make the calls `scripts t`. -/
def start (scripts : Nat → List Nat) : State :=
  ⟨fun _ => .null, fun _ => none, [], [], [], fun t => ⟨[], scripts t, []⟩⟩

/-- The exit handlers run, the latest first; each sets the bomb, then deletes the object (singleton.h:62-68, exithandler.cpp:28-37). The result
lists the classes destroyed in order, each with the instances its destructor sees. -/
def runExit : List Nat → (Nat → Ptr) → List (Nat × (Nat → Ptr))
  | [], _ => []
  | c :: cs, inst => (c, upd inst c .bomb) :: runExit cs (upd inst c .bomb)

end Stxxl.Singleton
