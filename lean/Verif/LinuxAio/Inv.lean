import Verif.LinuxAio.Model
import Mathlib.Tactic.Tauto

/-! # Invariants of the Linux AIO queue -/

namespace Stxxl.LinuxAio

/-- The posting thread holds a unit of `num_waiting_requests` not matched by a request it took. -/
def tokP : PPc → Nat
  | .chk _ | .look | .back | .leave | .gone => 1
  | _ => 0

/-- The posting thread holds a unit of `num_free_events`. -/
def holdP : PPc → Nat
  | .submit _ | .reap _ | .hRel _ _ | .hDec _ _ => 1
  | _ => 0

def incP : PPc → Nat
  | .inc => 1
  | _ => 0

/-- The request the posting thread holds. -/
def hand : PPc → List Req
  | .free r | .submit r | .reap r | .hRel r _ | .hDec r _ => [r]
  | _ => []

/-- Events the posting thread has to handle. -/
def evP : PPc → List Req
  | .hRel _ es | .hDec _ es => es
  | _ => []

def decP : PPc → Nat
  | .hDec _ _ => 1
  | _ => 0

def tokW : WPc → Nat
  | .chk _ | .get | .inc _ | .leave | .gone => 1
  | _ => 0

/-- Events the waiting thread has to handle. -/
def evW : WPc → List Req
  | .inc es | .hRel es | .hDec es => es
  | _ => []

def decW : WPc → Nat
  | .hDec _ => 1
  | _ => 0

def dtokP : DPc → Nat
  | .no | .setP => 0
  | _ => 1

def dtokW : DPc → Nat
  | .joinW | .joined => 1
  | _ => 0

def isPost : UPc → Bool
  | .addPost _ => true
  | _ => false

def isWait : UPc → Bool
  | .canWait _ => true
  | _ => false

def isHold (u : UPc) : Bool := isPost u || isWait u

/-- What the destructor's progress says about the thread states. -/
def dState (s : St) : Prop :=
  match s.dtor with
  | .no => s.pts = .running ∧ s.wts = .running
  | .setP | .joinP => s.pts = (if s.ppc = .gone then .terminated else .terminating) ∧ s.wts = .running
  | .midW => s.ppc = .gone ∧ s.wts = .running
  | .setW | .joinW => s.ppc = .gone ∧ s.wts = (if s.wpc = .gone then .terminated else .terminating)
  | .joined => s.ppc = .gone ∧ s.wpc = .gone

structure Inv (C : Cfg) (s : St) : Prop where
  acctW : s.nW + tokP s.ppc + s.users.countP isPost = s.waiting.length + s.users.countP isWait + dtokP s.dtor
  acctF : s.nF + s.inflight.length + s.done.length + (evP s.ppc).length + (evW s.wpc).length + holdP s.ppc = C.max
  acctP : s.nP + tokW s.wpc + incP s.ppc = s.inflight.length + s.done.length + (evP s.ppc).length + (evW s.wpc).length
    + decP s.ppc + decW s.wpc + dtokW s.dtor
  fifo : s.pushed.filter (fun r => decide (r ∉ s.cancelled)) = s.posted ++ hand s.ppc ++ s.waiting
  part : ∀ x, s.posted.count x = s.completed.count x + s.inflight.count x + s.done.count x + (evP s.ppc).count x
    + (evW s.wpc).count x
  box : ∀ x, s.boxes.count x = s.inflight.count x + s.done.count x + (evP s.ppc).count x + (evW s.wpc).count x
    + s.refused.count x
  strict : C.strict = true → s.refused = []
  noreap : s.refused = [] → evP s.ppc = [] ∧ decP s.ppc = 0
  noreap2 : s.refused = [] → (∀ r, s.ppc ≠ .reap r) ∧ (∀ r es, s.ppc ≠ .hRel r es)
  nodup : s.pushed.Nodup
  canSub : ∀ r ∈ s.cancelled, r ∈ s.pushed
  canNodup : s.cancelled.Nodup
  failP : ∀ r ∈ s.failed, r ∈ s.posted
  errd : s.errored = []
  frsh : ∀ (i : Nat) (r : Req), s.users[i]? = some (.addPush r) → r ∉ s.pushed
  uniq : ∀ (i j : Nat) (r : Req), s.users[i]? = some (.addPush r) → s.users[j]? = some (.addPush r) → i = j
  canW : ∀ (i : Nat) (r : Req), s.users[i]? = some (.canWait r) → r ∈ s.cancelled
  own1 : ∀ (i : Nat), s.own = some i → ∃ u, s.users[i]? = some u ∧ isHold u = true
  own2 : ∀ (i : Nat) (u : UPc), s.users[i]? = some u → isHold u = true → s.own = some i
  dst : dState s
  didle : s.dtor ≠ .no → ∀ u ∈ s.users, u = .idle
  pleft : s.ppc = .leave ∨ s.ppc = .gone → s.dtor ≠ .no
  wleft : s.wpc = .leave ∨ s.wpc = .gone → s.dtor ≠ .no ∧ s.dtor ≠ .setP ∧ s.dtor ≠ .joinP ∧ s.dtor ≠ .midW
  nback : s.ppc ≠ .back
  lookW : s.ppc = .look → dtokP s.dtor = 1 → s.waiting ≠ []
  chkW : ∀ v, s.ppc = .chk v → v ≠ 0 → dtokP s.dtor = 1 → s.waiting ≠ []
  lossP : dtokP s.dtor = 1 → (s.ppc = .chk 0 ∨ s.ppc = .leave ∨ s.ppc = .gone) → (s.lateP = false ↔ s.waiting = [])
  latePb : dtokP s.dtor = 1 → s.lateP = true → (s.ppc = .chk 0 ∨ s.ppc = .leave ∨ s.ppc = .gone)
  lossW : dtokW s.dtor = 1 → (s.wpc = .chk 0 ∨ s.wpc = .leave ∨ s.wpc = .gone) →
    (s.lateW = false ↔ s.inflight = [] ∧ s.done = [])
  getW : dtokW s.dtor = 1 → (s.wpc = .get ∨ ∃ v, v ≠ 0 ∧ s.wpc = .chk v) → 0 < s.inflight.length + s.done.length
  lateWb : dtokW s.dtor = 1 → s.lateW = true → (s.wpc = .chk 0 ∨ s.wpc = .leave ∨ s.wpc = .gone)

theorem countP_set' {p : UPc → Bool} {l : List UPc} {i : Nat} {u v : UPc} (h : l[i]? = some u) :
    (l.set i v).countP p + (if p u then 1 else 0) = l.countP p + (if p v then 1 else 0) := by
  induction l generalizing i with
  | nil => simp at h
  | cons a l ih =>
    cases i with
    | zero =>
      simp only [List.getElem?_cons_zero, Option.some.injEq] at h
      subst h
      simp only [List.set_cons_zero, List.countP_cons]; omega
    | succ i =>
      simp only [List.getElem?_cons_succ] at h
      have := ih h
      simp only [List.set_cons_succ, List.countP_cons]; omega

theorem get_set {l : List UPc} {i j : Nat} {u v w : UPc} (h : l[i]? = some u) (hj : (l.set i v)[j]? = some w) :
    (j = i ∧ w = v) ∨ (j ≠ i ∧ l[j]? = some w) := by
  grind

theorem countP_idle {p : UPc → Bool} {l : List UPc} (hp : p .idle = false) (h : ∀ u ∈ l, u = .idle) : l.countP p = 0 := by
  rw [List.countP_eq_zero]
  intro u hu; rw [h u hu]; simp [hp]

theorem countP_none {p : UPc → Bool} {l : List UPc} (h : ∀ u ∈ l, p u = false) : l.countP p = 0 := by
  rw [List.countP_eq_zero]
  intro u hu; simp [h u hu]

theorem filter_cancel {l a q : List Req} {c : List Req} {r : Req}
    (hn : l.Nodup) (h : l.filter (fun x => decide (x ∉ c)) = a ++ q) (hr : r ∈ q) :
    l.filter (fun x => decide (x ∉ c ++ [r])) = a ++ q.erase r := by
  have hnd : (a ++ q).Nodup := h ▸ hn.filter _
  have h2 : l.filter (fun x => decide (x ∉ c ++ [r]))
      = (l.filter (fun x => decide (x ∉ c))).filter (fun x => x != r) := by
    rw [List.filter_filter]
    apply List.filter_congr
    intro x _
    by_cases hx : x = r <;> simp [hx]
  rw [h2, h, List.filter_append]
  have hna : r ∉ a := fun ha => (List.nodup_append.mp hnd).2.2 r ha r hr rfl
  have hq : q.Nodup := (List.nodup_append.mp hnd).2.1
  rw [hq.erase_eq_filter, List.filter_eq_self.mpr]
  intro x hx
  simp only [bne_iff_ne, ne_eq]
  rintro rfl; exact hna hx

theorem inv_init (C : Cfg) (n : Nat) : Inv C (init C n) := by
  constructor <;> simp [init, tokP, holdP, incP, hand, evP, decP, tokW, evW, decW, dtokP, dtokW, dState,
    List.countP_replicate, isPost, isWait]
  all_goals grind [List.getElem?_replicate, isHold, isPost, isWait]

/-- When nobody holds the mutex, the two user counters are 0. -/
theorem Inv.free {C : Cfg} {s : St} (I : Inv C s) (h : s.own = none) :
    s.users.countP isPost = 0 ∧ s.users.countP isWait = 0 := by
  have key : ∀ u ∈ s.users, isHold u = false := by
    intro u hu
    obtain ⟨i, hi⟩ := List.getElem?_of_mem hu
    cases hh : isHold u with
    | false => rfl
    | true => have := I.own2 i u hi hh; rw [h] at this; cases this
  exact ⟨countP_none fun u hu => by have := key u hu; simp [isHold] at this; exact this.1,
    countP_none fun u hu => by have := key u hu; simp [isHold] at this; exact this.2⟩

theorem Inv.active {C : Cfg} {s : St} (I : Inv C s) {i : Nat} {u : UPc} (h : s.users[i]? = some u) (hne : u ≠ .idle) :
    s.dtor = .no := by
  cases hd : s.dtor with
  | no => rfl
  | _ => exact absurd (I.didle (by simp [hd]) u (List.mem_of_getElem? h)) hne

end Stxxl.LinuxAio
