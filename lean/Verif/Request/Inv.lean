import Verif.Request.Spec
import Mathlib.Tactic.Tauto

/-! # The invariant of the request protocol -/

namespace Stxxl.Request

/-- The request a thread is completing, with the phase it is in. -/
def Pc.own : Pc → Option (Nat × Nat)
  | .serve r => some (r, 1)
  | .setDone r _ => some (r, 2)
  | .handler r => some (r, 3)
  | .nLock r _ => some (r, 4)
  | .iter r _ _ => some (r, 5)
  | .notify r _ _ _ => some (r, 5)
  | .delRef r _ => some (r, 6)
  | .nullFile r _ => some (r, 7)
  | .setR2D r _ => some (r, 8)
  | _ => none

/-- Is the completion a cancellation? -/
def Pc.canc : Pc → Option Bool
  | .serve _ => some false
  | .setDone _ c => some c
  | .handler _ => some false
  | .nLock _ c => some c
  | .iter _ c _ => some c
  | .notify _ c _ _ => some c
  | .delRef _ c => some c
  | .nullFile _ c => some c
  | .setR2D _ c => some c
  | _ => none

/-- The request whose waiters' mutex a thread holds. -/
def Pc.lockOf : Pc → Option Nat
  | .iter r _ _ => some r
  | .notify r _ _ _ => some r
  | .aPoll _ _ r _ => some r
  | .aChk _ _ r _ _ => some r
  | _ => none

/-- The switch of the `wait_any` a thread is in. -/
def Pc.swOf : Pc → Option Nat
  | .aLock x _ _ => some x
  | .aPoll x _ _ _ => some x
  | .aChk x _ _ _ _ => some x
  | .aRoll x _ _ _ _ => some x
  | .aWait x _ => some x
  | .aSleep x _ => some x
  | .aDel x _ _ _ => some x
  | .aFPoll x _ _ _ => some x
  | .aFChk x _ _ _ _ => some x
  | _ => none

/-- The requests a thread refers to. -/
def Pc.refs : Pc → List Nat
  | .idle | .wIdle => []
  | .serve r | .setDone r _ | .handler r | .nLock r _ | .iter r _ _ | .notify r _ _ _ | .delRef r _ | .nullFile r _
  | .setR2D r _ | .wait r | .waitChk r | .poll r | .pollChk r _ | .cFile r | .cDeref r | .cQueue r => [r]
  | .aLock _ pre todo => pre ++ todo
  | .aPoll _ pre r todo => pre ++ r :: todo
  | .aChk _ pre r todo _ => pre ++ r :: todo
  | .aRoll _ pre r todo rem => rem ++ (pre ++ r :: todo)
  | .aWait _ rs => rs
  | .aSleep _ rs => rs
  | .aDel _ pre todo _ => pre ++ todo
  | .aFPoll _ pre r todo => pre ++ r :: todo
  | .aFChk _ pre r todo _ => pre ++ r :: todo

/-- Requests at which the switch is certainly registered. -/
def Pc.must : Pc → List Nat
  | .aLock _ pre _ => pre
  | .aPoll _ pre _ _ => pre
  | .aChk _ pre _ _ _ => pre
  | .aWait _ rs => rs
  | .aSleep _ rs => rs
  | _ => []

/-- Requests at which the switch may be registered. -/
def Pc.may : Pc → List Nat
  | .aLock _ pre _ => pre
  | .aPoll _ pre _ _ => pre
  | .aChk _ pre _ _ _ => pre
  | .aRoll _ _ _ _ rem => rem
  | .aWait _ rs => rs
  | .aSleep _ rs => rs
  | .aDel _ _ todo _ => todo
  | .aFPoll _ _ _ todo => todo
  | .aFChk _ _ _ todo _ => todo
  | _ => []

/-- The switches a notifier has still to turn on. -/
def Pc.todo : Pc → Option (Nat × List Nat)
  | .iter r _ todo => some (r, todo)
  | .notify r _ _ todo => some (r, todo)
  | _ => none

/-- Threads that run the code of a worker. -/
def Pc.worker : Pc → Bool
  | .wIdle => true
  | p => p.canc = some false

/-- The possible lives at each phase; `c`: cancelled. -/
def lifeAt (ph : Nat) (err c : Bool) : List HEv :=
  if ph = 0 then [.submit]
  else if ph = 1 then [.submit, .taken]
  else if c then
    if ph ≤ 6 then [.submit, .cancelled] else [.submit, .cancelled, .refRel]
  else if ph ≤ 3 then [.submit, .taken, .ioEnd err]
  else if ph ≤ 6 then [.submit, .taken, .ioEnd err, .handler]
  else [.submit, .taken, .ioEnd err, .handler, .refRel]

def stAt (ph : Nat) : RSt := if ph ≤ 2 then .op else if ph ≤ 8 then .done else .r2d

/-- The fields of a request agree with its phase and its life. -/
structure ReqOk (q : Req) (h : List HEv) : Prop where
  st : q.st = stAt q.ph
  file : q.file = decide (q.ph ≤ 7)
  que : q.queued = decide (q.ph = 0)
  bound : q.ph ≤ 9
  err : q.err = true → 2 ≤ q.ph
  life : h = lifeAt q.ph q.err false ∨ (h = lifeAt q.ph q.err true ∧ q.err = false ∧ 2 ≤ q.ph ∧ q.ph ≠ 3)

/-- What a thread knows at its program counter. -/
def PcOk (spur : Bool) (s : St) (t : Nat) : Pc → Prop
  | .waitChk r => 9 ≤ (s.req r).ph
  | .poll r => ∃ post pre, s.tr = post ++ .pollCall t r :: pre ∧ ∀ q, .pollCall t q ∉ post
  | .pollChk r q => (q.fin = true → 3 ≤ (s.req r).ph) ∧
      (q.fin = false → ∃ post pre, s.tr = post ++ .pollCall t r :: pre ∧ (∀ q, .pollCall t q ∉ post) ∧
        .handler ∉ hist r pre ∧ .refRel ∉ hist r pre)
  | .aChk _ _ r _ q => (q.fin = true → 3 ≤ (s.req r).ph) ∧ (q.fin = false → (s.req r).ph ≤ 4)
  | .aRoll _ _ r _ _ => 3 ≤ (s.req r).ph
  | .aDel _ pre todo (some k) => ∃ r, (pre ++ todo)[k]? = some r ∧ 3 ≤ (s.req r).ph ∧ (s.req r).err = false
  | .aDel _ _ todo none => spur = false → ∃ r ∈ todo, 3 ≤ (s.req r).ph
  | .aFPoll _ _ r todo => spur = false → ∃ r' ∈ r :: todo, 3 ≤ (s.req r').ph
  | .aFChk _ _ r todo q => (q.fin = true → 3 ≤ (s.req r).ph) ∧
      (q.fin = false → spur = false → ∃ r' ∈ todo, 3 ≤ (s.req r').ph)
  | _ => True

structure Inv (n nw : Nat) (spur : Bool) (s : St) : Prop where
  refs : ∀ t r, r ∈ (s.th t).refs → r < s.nr
  owned : ∀ t r p, (s.th t).own = some (r, p) → (s.req r).ph = p
  canc : ∀ t r p, (s.th t).own = some (r, p) →
    (s.th t).canc = some true ∧ hist r s.tr = lifeAt p (s.req r).err true ∧ (s.req r).err = false ∨
    (s.th t).canc = some false ∧ hist r s.tr = lifeAt p (s.req r).err false
  uniq : ∀ t t' r p p', (s.th t).own = some (r, p) → (s.th t').own = some (r, p') → t = t'
  owner : ∀ r, r < s.nr → 1 ≤ (s.req r).ph → (s.req r).ph ≤ 8 → ∃ t, t < n ∧ (s.th t).own = some (r, (s.req r).ph)
  req : ∀ r, r < s.nr → ReqOk (s.req r) (hist r s.tr)
  fresh : ∀ r, s.nr ≤ r → hist r s.tr = [] ∧ (s.req r).mtx = none ∧ (s.req r).ws = []
  mtx : ∀ t r, (s.req r).mtx = some t ↔ (s.th t).lockOf = some r
  sw1 : ∀ t x, (s.th t).swOf = some x → x < s.ns ∧ (s.sw x).alive = true ∧ (s.sw x).owner = t
  sw2 : ∀ x, (s.sw x).alive = true → x < s.ns ∧ (s.th (s.sw x).owner).swOf = some x
  wsLt : ∀ r x, x ∈ (s.req r).ws → x < s.ns
  ws1 : ∀ t r x, (s.th t).swOf = some x → x ∈ (s.req r).ws → r ∈ (s.th t).refs
  ws2 : ∀ t r x, (s.th t).swOf = some x → r ∈ (s.th t).must → x ∈ (s.req r).ws
  ws3 : (∃ t rs, .anyThrow t rs ∈ s.tr) ∨
    ∀ r x, x ∈ (s.req r).ws → (s.sw x).alive = true ∧ r ∈ (s.th (s.sw x).owner).may
  todoSub : ∀ t r l, (s.th t).todo = some (r, l) → ∀ x ∈ l, x ∈ (s.req r).ws
  notifySub : ∀ t r c x l, s.th t = .notify r c x l → x ∈ (s.req r).ws ∧ (s.sw x).isOn = true
  wake1 : ∀ t r x t' l, (s.th t).swOf = some x → r ∈ (s.th t).must → (s.th t').todo = some (r, l) →
    x ∈ l ∨ (s.sw x).isOn = true
  wake2 : ∀ t r x, (s.th t).swOf = some x → r ∈ (s.th t).must → 6 ≤ (s.req r).ph → (s.sw x).isOn = true
  onDone : ∀ t x, (s.th t).swOf = some x → (s.sw x).isOn = true → ∃ r ∈ (s.th t).refs, 3 ≤ (s.req r).ph
  sleep : ∀ t x rs, s.th t = .aSleep x rs → (s.sw x).isOn = true → ∃ t' r c l, t' < n ∧ s.th t' = .notify r c x l
  pcOk : ∀ t, PcOk spur s t (s.th t)
  thr : ∀ t, n ≤ t → s.th t = .idle ∨ s.th t = .wIdle
  wrk : ∀ t, (s.th t).worker = true ↔ t < nw
  trOk : TraceOk spur s.tr
  ubNull : ∀ t r, s.ub = some (.nullFile t r) → s.th t = .cDeref r ∧ 8 ≤ (s.req r).ph
  ubDead : ∀ x, s.ub = some (.deadSwitch x) → ∃ t rs, .anyThrow t rs ∈ s.tr

end Stxxl.Request
