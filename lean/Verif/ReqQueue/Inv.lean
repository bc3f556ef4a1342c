import Verif.ReqQueue.Model

/-! # Invariants of the request queue -/

namespace Stxxl.ReqQueue

/-- The worker holds a unit of the semaphore that is not matched by a request it removed. -/
def tok : WPc → Nat
  | .look | .back | .chkInc | .leave | .gone => 1
  | _ => 0

def dtok : DPc → Nat
  | .posted | .joined => 1
  | _ => 0

def isPost : UPc → Bool
  | .addPost _ => true
  | _ => false

def isWait : UPc → Bool
  | .canWait _ => true
  | _ => false

/-- The request the thread is about to submit. -/
def sub : UPc → Option Req
  | .addLook r => some r
  | .addPush r => some r
  | _ => none

def inServ : WPc → List Req
  | .serve r => [r]
  | _ => []

/-- All requests the worker took from the queues. -/
def St.popped (s : St) : List Req := s.served ++ inServ s.wpc

def chainOk : Option Obs → List Obs → Prop
  | _, [] => True
  | p, o :: l => (∀ r, o = .pop r → r.isWrite = false → p = some (.empty true)) ∧ chainOk (some o) l

structure Inv (n : Nat) (s : St) : Prop where
  len : s.users.length = n
  acct : s.sem + tok s.wpc + s.users.countP isPost
    = (s.q true).length + (s.q false).length + s.users.countP isWait + dtok s.dtor
  fifo : ∀ k, s.pushed.filter (fun r => decide (r.isWrite = k ∧ r ∉ s.cancelled))
    = s.popped.filter (fun r => decide (r.isWrite = k)) ++ s.q k
  nodup : s.pushed.Nodup
  canSub : ∀ r ∈ s.cancelled, r ∈ s.pushed
  canNodup : s.cancelled.Nodup
  frsh : ∀ (i : Nat) (u : UPc) (r : Req), s.users[i]? = some u → sub u = some r → r ∉ s.pushed
  uniq : ∀ (i j : Nat) (u v : UPc) (r : Req), s.users[i]? = some u → s.users[j]? = some v → sub u = some r → sub v = some r → i = j
  own1 : ∀ (k : Bool) (i : Nat), s.own k = some i → ∃ r, s.users[i]? = some (.canWait r) ∧ r.isWrite = k
  own2 : ∀ (i : Nat) (r : Req), s.users[i]? = some (.canWait r) → s.own r.isWrite = some i
  dts : s.dtor = .no ↔ s.ts = .running
  didle : s.dtor ≠ .no → ∀ u ∈ s.users, u = .idle
  dterm : s.ts = .terminated → s.wpc = .gone
  djoin : s.dtor = .joined → s.wpc = .gone
  dnr : s.ts = .notRunning → s.dtor = .joined
  wterm : s.wpc = .chkDec ∨ s.wpc = .chkInc ∨ s.wpc = .leave ∨ s.wpc = .gone → s.dtor ≠ .no
  lost : s.wpc = .leave ∨ s.wpc = .gone → (s.q true).length + (s.q false).length ≤ 1
  chain : chainOk none s.obs
  last : s.phase = false → s.wpc ≠ .back → s.obs.getLast? = some (.empty true)
  lastb : s.phase = true → s.wpc = .back → s.obs.getLast? = some (.empty true)

theorem chainOk_append {p : Option Obs} {l : List Obs} {o : Obs} (h : chainOk p l)
    (ho : ∀ r, o = .pop r → r.isWrite = false → (l.getLast?.or p) = some (.empty true)) :
    chainOk p (l ++ [o]) := by
  induction l generalizing p with
  | nil => simpa [chainOk] using ho
  | cons a l ih =>
    refine ⟨h.1, ih h.2 ?_⟩
    intro r hr hw
    have := ho r hr hw
    cases l with
    | nil => simpa using this
    | cons b l => simpa [List.getLast?_cons] using this

theorem countP_set' {p : UPc → Bool} {l : List UPc} {i : Nat} {u v : UPc} (h : l[i]? = some u) :
    (l.set i v).countP p + (if p u then 1 else 0) = l.countP p + (if p v then 1 else 0) := by
  induction l generalizing i with
  | nil => simp at h
  | cons a l ih =>
    cases i with
    | zero =>
      simp only [List.getElem?_cons_zero, Option.some.injEq] at h
      subst h
      simp only [List.set_cons_zero, List.countP_cons]; omega
    | succ i =>
      simp only [List.getElem?_cons_succ] at h
      have := ih h
      simp only [List.set_cons_succ, List.countP_cons]; omega

theorem inv_init (n : Nat) : Inv n (init n) := by
  constructor <;> simp [init, tok, dtok, St.popped, inServ, chainOk, List.countP_replicate, isPost, isWait, sub]
  all_goals grind [List.getElem?_replicate, sub]

theorem countP_idle {p : UPc → Bool} {l : List UPc} (hp : p .idle = false) (h : ∀ u ∈ l, u = .idle) : l.countP p = 0 := by
  rw [List.countP_eq_zero]
  intro u hu; rw [h u hu]; simp [hp]

theorem filter_cancel {l a q : List Req} {P : Req → Prop} [DecidablePred P] {c : List Req} {r : Req}
    (hn : l.Nodup) (h : l.filter (fun x => decide (P x ∧ x ∉ c)) = a ++ q) (hr : r ∈ q) :
    l.filter (fun x => decide (P x ∧ x ∉ c ++ [r])) = a ++ q.erase r := by
  have hnd : (a ++ q).Nodup := h ▸ hn.filter _
  have h2 : l.filter (fun x => decide (P x ∧ x ∉ c ++ [r]))
      = (l.filter (fun x => decide (P x ∧ x ∉ c))).filter (fun x => x != r) := by
    rw [List.filter_filter]
    apply List.filter_congr
    intro x _
    by_cases hx : x = r <;> simp [hx, and_comm]
  rw [h2, h, List.filter_append]
  have hna : r ∉ a := fun ha => (List.nodup_append.mp hnd).2.2 r ha r hr rfl
  have hq : q.Nodup := (List.nodup_append.mp hnd).2.1
  rw [hq.erase_eq_filter, List.filter_eq_self.mpr]
  intro x hx
  simp only [bne_iff_ne, ne_eq]
  rintro rfl; exact hna hx

theorem filter_other {l b : List Req} {k : Bool} {c : List Req} {r : Req} (hk : r.isWrite ≠ k)
    (h : l.filter (fun x => decide (x.isWrite = k ∧ x ∉ c)) = b) :
    l.filter (fun x => decide (x.isWrite = k ∧ x ∉ c ++ [r])) = b := by
  rw [← h]
  apply List.filter_congr
  intro x _
  by_cases hx : x = r
  · subst hx; simp [hk]
  · simp [hx]

end Stxxl.ReqQueue
