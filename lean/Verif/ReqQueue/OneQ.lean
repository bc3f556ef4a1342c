import Verif.ReqQueue.Props

/-!
# The disk request queue with one FIFO queue

`/repo/lib/io/request_queue_impl_1q.cpp:43-180`. Same conventions as in `ReqQueue.Model`; here `add_request` does its `m_sem++`
while it still holds the mutex (`:76-79`), so pushing and posting are one step.
-/

namespace Stxxl.ReqQueue.One
open Stxxl.ReqQueue (WPc TS DPc)

abbrev Req := Nat

/-- Where a user thread is (`1q.cpp:50-115`). -/
inductive UPc where
  | idle
  /-- `add_request`: the state was `RUNNING`; next is the look for pending requests to the same block (`:62-73`) -/
  | addLook (r : Req)
  /-- next is lock, `push_back`, `m_sem++`, unlock (`:75-78`) -/
  | addPush (r : Req)
  /-- `cancel_request`: next is lock and `find` (`:92-95`) -/
  | canFind (r : Req)
  /-- erased, mutex held, next is `m_sem--` and unlock (`:100-103`) -/
  | canWait (r : Req)
deriving DecidableEq, Repr

/-- Where the worker is (`:119-163`). -/
inductive WP where
  | top | look | serve (r : Req) | back | chk | chkDec | chkInc | leave | gone
deriving DecidableEq, Repr

/-- `m_queue`, the mutex holder, `m_sem`, `m_thread_state`, the destructor, and the logs. -/
structure St where
  users : List UPc
  q : List Req
  own : Option Nat
  sem : Nat
  ts : TS
  dtor : DPc
  wpc : WP
  pushed : List Req
  served : List Req
  cancelled : List Req

def init (n : Nat) : St :=
  { users := List.replicate n .idle, q := [], own := none, sem := 0, ts := .running, dtor := .no,
    wpc := .top, pushed := [], served := [], cancelled := [] }

/-- Next step of the worker (`1q.cpp:119-163`). -/
def wstep (s : St) : Option St :=
  match s.wpc with
  | .top => if 0 < s.sem then some { s with sem := s.sem - 1, wpc := .look } else none
  | .look =>
    if s.own = none then
      match s.q with
      | r :: rest => some { s with q := rest, wpc := .serve r }
      | [] => some { s with wpc := .back }
    else none
  | .serve r => some { s with wpc := .chk, served := s.served ++ [r] }
  | .back => some { s with sem := s.sem + 1, wpc := .chk }
  | .chk => if s.ts = .terminating then some { s with wpc := .chkDec } else some { s with wpc := .top }
  | .chkDec =>
    if 0 < s.sem then
      some { s with sem := s.sem - 1, wpc := if s.sem - 1 = 0 then .leave else .chkInc }
    else none
  | .chkInc => some { s with sem := s.sem + 1, wpc := .top }
  | .leave => some { s with ts := .terminated, wpc := .gone }
  | .gone => none

/-- Next step of user thread `i` inside a call (`1q.cpp:50-112`). -/
def ustep (s : St) (i : Nat) : Option St :=
  match s.users[i]? with
  | some (.addLook r) => if s.own = none then some { s with users := s.users.set i (.addPush r) } else none
  | some (.addPush r) =>
    if s.own = none then
      some { s with users := s.users.set i .idle, q := s.q ++ [r], sem := s.sem + 1, pushed := s.pushed ++ [r] }
    else none
  | some (.canFind r) =>
    if s.own = none then
      if r ∈ s.q then
        some { s with users := s.users.set i (.canWait r), q := s.q.erase r, own := some i, cancelled := s.cancelled ++ [r] }
      else some { s with users := s.users.set i .idle }
    else none
  | some (.canWait _) =>
    if 0 < s.sem then some { s with users := s.users.set i .idle, sem := s.sem - 1, own := none } else none
  | _ => none

/-- Next step of the destructor (`request_queue_impl_worker.cpp:50-85`). -/
def dstep (s : St) : Option St :=
  match s.dtor with
  | .set => some { s with sem := s.sem + 1, dtor := .posted }
  | .posted => if s.wpc = .gone then some { s with ts := .notRunning, dtor := .joined } else none
  | _ => none

/-- The request was never submitted and no thread is about to submit it. -/
def Fresh (s : St) (r : Req) : Prop :=
  r ∉ s.pushed ∧ .addLook r ∉ s.users ∧ .addPush r ∉ s.users

inductive Step : St → St → Prop where
  | add (s : St) (i : Nat) (r : Req) (hi : s.users[i]? = some .idle) (hr : s.ts = .running) (hf : Fresh s r) :
      Step s { s with users := s.users.set i (.addLook r) }
  | cancel (s : St) (i : Nat) (r : Req) (hi : s.users[i]? = some .idle) (hr : s.ts = .running) :
      Step s { s with users := s.users.set i (.canFind r) }
  | user (s s' : St) (i : Nat) (h : ustep s i = some s') : Step s s'
  | worker (s s' : St) (h : wstep s = some s') : Step s s'
  | stop (s : St) (hi : ∀ u ∈ s.users, u = .idle) (hd : s.dtor = .no) :
      Step s { s with ts := .terminating, dtor := .set }
  | dtor (s s' : St) (h : dstep s = some s') : Step s s'

inductive Reach (n : Nat) : St → Prop where
  | init : Reach n (init n)
  | step {s s' : St} (h : Reach n s) (st : Step s s') : Reach n s'

/-! ## Invariants -/

def tok : WP → Nat
  | .look | .back | .chkInc | .leave | .gone => 1
  | _ => 0

def dtok : DPc → Nat
  | .posted | .joined => 1
  | _ => 0

def otok : Option Nat → Nat
  | some _ => 1
  | none => 0

def sub : UPc → Option Req
  | .addLook r => some r
  | .addPush r => some r
  | _ => none

def inServ : WP → List Req
  | .serve r => [r]
  | _ => []

structure Inv (s : St) : Prop where
  acct : s.sem + tok s.wpc = s.q.length + otok s.own + dtok s.dtor
  fifo : s.pushed.filter (fun r => decide (r ∉ s.cancelled)) = s.served ++ inServ s.wpc ++ s.q
  nodup : s.pushed.Nodup
  canSub : ∀ r ∈ s.cancelled, r ∈ s.pushed
  canNodup : s.cancelled.Nodup
  frsh : ∀ (i : Nat) (u : UPc) (r : Req), s.users[i]? = some u → sub u = some r → r ∉ s.pushed
  uniq : ∀ (i j : Nat) (u v : UPc) (r : Req), s.users[i]? = some u → s.users[j]? = some v → sub u = some r → sub v = some r → i = j
  own1 : ∀ i : Nat, s.own = some i → ∃ r, s.users[i]? = some (.canWait r)
  own2 : ∀ (i : Nat) (r : Req), s.users[i]? = some (.canWait r) → s.own = some i
  dts : s.dtor = .no ↔ s.ts = .running
  didle : s.dtor ≠ .no → ∀ u ∈ s.users, u = .idle
  dterm : s.ts = .terminated → s.wpc = .gone
  djoin : s.dtor = .joined → s.wpc = .gone
  wterm : s.wpc = .chkDec ∨ s.wpc = .chkInc ∨ s.wpc = .leave ∨ s.wpc = .gone → s.dtor ≠ .no
  lost : s.wpc = .leave ∨ s.wpc = .gone → s.q.length ≤ 1

theorem inv_init (n : Nat) : Inv (init n) := by
  constructor <;> simp [init, tok, dtok, otok, inServ]
  all_goals grind [List.getElem?_replicate, sub]

theorem get_set {l : List UPc} {i j : Nat} {u v w : UPc} (h : l[i]? = some u) (hj : (l.set i v)[j]? = some w) :
    (j = i ∧ w = v) ∨ (j ≠ i ∧ l[j]? = some w) := by
  grind

/-- Changing one thread that is not a waiting canceller into another such thread. -/
theorem inv_set {s : St} (I : Inv s) {i : Nat} {u v : UPc} (hi : s.users[i]? = some u) (hd : s.dtor = .no)
    (hu : ∀ r, u ≠ .canWait r) (hv : ∀ r, v ≠ .canWait r)
    (hs : ∀ r, sub v = some r → sub u = some r ∨ Fresh s r) :
    Inv { s with users := s.users.set i v } := by
  have fr : ∀ (j : Nat) (w : UPc) (r : Req), s.users[j]? = some w → sub w = some r → ¬ Fresh s r := by
    intro j w r hj hw hf
    have := List.mem_of_getElem? hj
    obtain ⟨_, h2, h3⟩ := hf
    cases w <;> simp [sub] at hw <;> subst hw <;> contradiction
  refine { I with frsh := ?_, uniq := ?_, own1 := ?_, own2 := ?_, didle := ?_ }
  · intro j w r hj hw
    rcases get_set hi hj with ⟨rfl, rfl⟩ | ⟨_, h⟩
    · rcases hs r hw with h | h
      · exact I.frsh j u r hi h
      · exact h.1
    · exact I.frsh j w r h hw
  · intro j k w x r hj hk hw hx
    rcases get_set hi hj with ⟨rfl, rfl⟩ | ⟨h1, h⟩ <;> rcases get_set hi hk with ⟨rfl, rfl⟩ | ⟨h2, h'⟩
    · rfl
    · rcases hs r hw with h | h
      · exact I.uniq _ k u x r hi h' h hx
      · exact absurd h (fr k x r h' hx)
    · rcases hs r hx with h3 | h3
      · exact I.uniq j _ w u r h hi hw h3
      · exact absurd h3 (fr j w r h hw)
    · exact I.uniq j k w x r h h' hw hx
  · intro j hj
    obtain ⟨r, h⟩ := I.own1 j hj
    have : j ≠ i := by rintro rfl; rw [hi] at h; cases h; exact hu r rfl
    exact ⟨r, by grind⟩
  · intro j r hj
    rcases get_set hi hj with ⟨rfl, h⟩ | ⟨_, h⟩
    · exact absurd h.symm (hv r)
    · exact I.own2 j r h
  · intro h; exact absurd hd h

theorem filter_cancel {l a q c : List Nat} {r : Nat}
    (hn : l.Nodup) (h : l.filter (fun x => decide (x ∉ c)) = a ++ q) (hr : r ∈ q) :
    l.filter (fun x => decide (x ∉ c ++ [r])) = a ++ q.erase r := by
  have hnd : (a ++ q).Nodup := h ▸ hn.filter _
  have h2 : l.filter (fun x => decide (x ∉ c ++ [r]))
      = (l.filter (fun x => decide (x ∉ c))).filter (fun x => x != r) := by
    rw [List.filter_filter]
    apply List.filter_congr
    intro x _
    by_cases hx : x = r <;> simp [hx]
  rw [h2, h, List.filter_append]
  have hna : r ∉ a := fun ha => (List.nodup_append.mp hnd).2.2 r ha r hr rfl
  have hq : q.Nodup := (List.nodup_append.mp hnd).2.1
  rw [hq.erase_eq_filter, List.filter_eq_self.mpr]
  intro x hx
  simp only [bne_iff_ne, ne_eq]
  rintro rfl; exact hna hx

theorem inv_user {s s' : St} (I : Inv s) {i : Nat} (h : ustep s i = some s') : Inv s' := by
  unfold ustep at h
  have hdn : ∀ u, s.users[i]? = some u → u ≠ .idle → s.dtor = .no := by
    intro u hu hne
    cases hd : s.dtor with
    | no => rfl
    | _ => exact absurd (I.didle (by simp [hd]) u (List.mem_of_getElem? hu)) hne
  split at h
  · rename_i r hi
    split at h <;> simp only [Option.some.injEq, reduceCtorEq] at h
    subst h
    exact inv_set I hi (hdn _ hi (by simp)) (by simp) (by simp) (fun _ h => .inl h)
  · rename_i r hi
    have hd := hdn _ hi (by simp)
    split at h <;> simp only [Option.some.injEq, reduceCtorEq] at h
    subst h
    have hrp : r ∉ s.pushed := I.frsh i _ r hi rfl
    have hrc : r ∉ s.cancelled := fun h => hrp (I.canSub r h)
    have I' := inv_set I (v := .idle) hi hd (by simp) (by simp) (by simp [sub])
    refine { I' with acct := ?_, fifo := ?_, nodup := ?_, canSub := ?_, frsh := ?_, lost := ?_ }
    · have := I.acct; dsimp only; rw [List.length_append]; simp only [List.length_singleton]; omega
    · show (s.pushed ++ [r]).filter _ = s.served ++ inServ s.wpc ++ (s.q ++ [r])
      rw [List.filter_append, I.fifo]
      simp [hrc]
    · show (s.pushed ++ [r]).Nodup
      rw [List.nodup_append]
      exact ⟨I.nodup, by simp, by rintro a ha b hb rfl; simp at hb; subst hb; exact hrp ha⟩
    · intro x hx; exact List.mem_append_left _ (I.canSub x hx)
    · intro j u r' hj hs
      rcases get_set hi hj with ⟨rfl, rfl⟩ | ⟨hne, h⟩
      · cases hs
      · have h1 := I.frsh j u r' h hs
        have h2 : r' ≠ r := by
          rintro rfl; exact hne (I.uniq j i _ _ r' h hi hs rfl)
        simp [h1, h2]
    · intro h; exact absurd hd (I.wterm (by tauto))
  · rename_i r hi
    have hd := hdn _ hi (by simp)
    split at h
    swap
    · simp at h
    rename_i hown
    split at h
    · rename_i hmem
      simp only [Option.some.injEq] at h
      subst h
      have hrp : r ∈ s.pushed ∧ r ∉ s.cancelled := by
        have : r ∈ s.pushed.filter (fun x => decide (x ∉ s.cancelled)) := by
          rw [I.fifo]; exact List.mem_append_right _ hmem
        simpa using this
      refine { I with acct := ?_, fifo := ?_, canSub := ?_, canNodup := ?_, frsh := ?_, uniq := ?_, own1 := ?_, own2 := ?_, didle := ?_, lost := ?_ }
      · have := I.acct; dsimp only
        have hl := List.length_erase_of_mem hmem
        have hpos : 0 < s.q.length := List.length_pos_of_mem hmem
        rw [hown] at this; simp only [otok] at this ⊢
        omega
      · exact filter_cancel I.nodup I.fifo hmem
      · intro x hx
        rcases List.mem_append.mp hx with h | h
        · exact I.canSub x h
        · simp at h; subst h; exact hrp.1
      · show (s.cancelled ++ [r]).Nodup
        rw [List.nodup_append]
        exact ⟨I.canNodup, by simp, by rintro a ha b hb rfl; simp at hb; subst hb; exact hrp.2 ha⟩
      · intro j u r' hj hs
        rcases get_set hi hj with ⟨rfl, rfl⟩ | ⟨_, h⟩
        · cases hs
        · exact I.frsh j u r' h hs
      · intro j k u v r' hj hk hu hv
        rcases get_set hi hj with ⟨rfl, rfl⟩ | ⟨h1, h⟩
        · cases hu
        rcases get_set hi hk with ⟨rfl, rfl⟩ | ⟨h2, h'⟩
        · cases hv
        exact I.uniq j k u v r' h h' hu hv
      · intro j hj
        simp only [Option.some.injEq] at hj; subst hj
        exact ⟨r, by grind⟩
      · intro j r' hj
        rcases get_set hi hj with ⟨rfl, h⟩ | ⟨hne, h⟩
        · rfl
        · have := I.own2 j r' h; rw [hown] at this; cases this
      · intro h; exact absurd hd h
      · intro h; exact absurd hd (I.wterm (by tauto))
    · simp only [Option.some.injEq] at h
      subst h
      exact inv_set I hi hd (by simp) (by simp) (by simp [sub])
  · rename_i r hi
    have hd := hdn _ hi (by simp)
    split at h <;> simp only [Option.some.injEq, reduceCtorEq] at h
    subst h
    have ho := I.own2 i r hi
    refine { I with acct := ?_, frsh := ?_, uniq := ?_, own1 := by simp, own2 := ?_, didle := ?_ }
    · have := I.acct; dsimp only; rw [ho] at this; simp only [otok] at this ⊢; omega
    · intro j u r' hj hs
      rcases get_set hi hj with ⟨rfl, rfl⟩ | ⟨_, h⟩
      · cases hs
      · exact I.frsh j u r' h hs
    · intro j k u v r' hj hk hu hv
      rcases get_set hi hj with ⟨rfl, rfl⟩ | ⟨h1, h⟩
      · cases hu
      rcases get_set hi hk with ⟨rfl, rfl⟩ | ⟨h2, h'⟩
      · cases hv
      exact I.uniq j k u v r' h h' hu hv
    · intro j r' hj
      rcases get_set hi hj with ⟨rfl, h⟩ | ⟨hne, h⟩
      · cases h
      · have := I.own2 j r' h; rw [ho] at this; simp at this; exact absurd this.symm hne
    · intro h; exact absurd hd h
  · simp at h

theorem own_none {s : St} (I : Inv s) (hi : ∀ u ∈ s.users, u = .idle) : s.own = none := by
  cases h : s.own with
  | none => rfl
  | some i =>
    obtain ⟨r, hr⟩ := I.own1 i h
    have := hi _ (List.mem_of_getElem? hr)
    cases this

theorem inv_worker {s s' : St} (I : Inv s) (h : wstep s = some s') : Inv s' := by
  have hown := fun hd => own_none I (I.didle hd)
  obtain ⟨i1, i2, i3, i4, i5, i6, i7, i8, i9, i10, i11, i12, i13, i14, i15⟩ := I
  unfold wstep at h
  split at h
  · rename_i hw
    split at h <;> simp only [Option.some.injEq, reduceCtorEq] at h
    subst h
    rw [hw] at i1 i2; simp only [tok, inServ] at i1 i2
    refine ⟨?_, i2, i3, i4, i5, i6, i7, i8, i9, i10, i11, ?_, ?_, by simp, by simp⟩
    · simp only [tok]; omega
    · intro h; have := i12 h; simp [hw] at this
    · intro h; have := i13 h; simp [hw] at this
  · rename_i hw
    rw [hw] at i1 i2; simp only [tok, inServ] at i1 i2
    split at h
    swap
    · simp at h
    split at h
    · rename_i r rest hq
      simp only [Option.some.injEq] at h
      subst h
      refine ⟨?_, ?_, i3, i4, i5, i6, i7, i8, i9, i10, i11, ?_, ?_, by simp, by simp⟩
      · rw [hq] at i1; simp only [tok, List.length_cons] at i1 ⊢; omega
      · rw [i2, hq]; simp [inServ]
      · intro h; have := i12 h; simp [hw] at this
      · intro h; have := i13 h; simp [hw] at this
    · simp only [Option.some.injEq] at h
      subst h
      refine ⟨i1, i2, i3, i4, i5, i6, i7, i8, i9, i10, i11, ?_, ?_, by simp, by simp⟩
      · intro h; have := i12 h; simp [hw] at this
      · intro h; have := i13 h; simp [hw] at this
  · rename_i r hw
    rw [hw] at i1 i2; simp only [tok, inServ] at i1 i2
    simp only [Option.some.injEq] at h
    subst h
    refine ⟨?_, ?_, i3, i4, i5, i6, i7, i8, i9, i10, i11, ?_, ?_, by simp, by simp⟩
    · simpa only [tok] using i1
    · rw [i2]; simp [inServ]
    · intro h; have := i12 h; simp [hw] at this
    · intro h; have := i13 h; simp [hw] at this
  · rename_i hw
    rw [hw] at i1 i2; simp only [tok, inServ] at i1 i2
    simp only [Option.some.injEq] at h
    subst h
    refine ⟨?_, i2, i3, i4, i5, i6, i7, i8, i9, i10, i11, ?_, ?_, by simp, by simp⟩
    · simp only [tok]; omega
    · intro h; have := i12 h; simp [hw] at this
    · intro h; have := i13 h; simp [hw] at this
  · rename_i hw
    rw [hw] at i1 i2; simp only [tok, inServ] at i1 i2
    split at h <;> simp only [Option.some.injEq] at h <;> subst h
    · rename_i ht
      refine ⟨i1, i2, i3, i4, i5, i6, i7, i8, i9, i10, i11, ?_, ?_, ?_, by simp⟩
      · intro h; have := i12 h; simp [hw] at this
      · intro h; have := i13 h; simp [hw] at this
      · intro _ h; have := i10.mp h; rw [ht] at this; cases this
    · refine ⟨i1, i2, i3, i4, i5, i6, i7, i8, i9, i10, i11, ?_, ?_, by simp, by simp⟩
      · intro h; have := i12 h; simp [hw] at this
      · intro h; have := i13 h; simp [hw] at this
  · rename_i hw
    have hd := i14 (by simp [hw])
    have ho := hown hd
    rw [hw] at i1 i2; simp only [tok, inServ] at i1 i2
    split at h <;> simp only [Option.some.injEq, reduceCtorEq] at h
    subst h
    have h12 : s.ts ≠ .terminated := fun h => by have := i12 h; simp [hw] at this
    have h13 : s.dtor ≠ .joined := fun h => by have := i13 h; simp [hw] at this
    split
    · refine ⟨?_, i2, i3, i4, i5, i6, i7, i8, i9, i10, i11, fun h => absurd h h12, fun h => absurd h h13, fun _ => hd, ?_⟩
      · simp only [tok]; omega
      · intro _; dsimp only; rw [ho] at i1; simp only [otok] at i1; omega
    · refine ⟨?_, i2, i3, i4, i5, i6, i7, i8, i9, i10, i11, fun h => absurd h h12, fun h => absurd h h13, fun _ => hd, by simp⟩
      simp only [tok]; omega
  · rename_i hw
    rw [hw] at i1 i2; simp only [tok, inServ] at i1 i2
    simp only [Option.some.injEq] at h
    subst h
    refine ⟨?_, i2, i3, i4, i5, i6, i7, i8, i9, i10, i11, ?_, ?_, by simp, by simp⟩
    · simp only [tok]; omega
    · intro h; have := i12 h; simp [hw] at this
    · intro h; have := i13 h; simp [hw] at this
  · rename_i hw
    have hd := i14 (by simp [hw])
    have hl := i15 (by simp [hw])
    rw [hw] at i1 i2; simp only [tok, inServ] at i1 i2
    simp only [Option.some.injEq] at h
    subst h
    refine ⟨i1, i2, i3, i4, i5, i6, i7, i8, i9, ?_, i11, by simp, by simp, fun _ => hd, fun _ => hl⟩
    simp [hd]
  · simp at h

theorem inv_step {s s' : St} (I : Inv s) (st : Step s s') : Inv s' := by
  cases st with
  | add i r hi hr hf =>
    exact inv_set I hi (I.dts.mpr hr) (by simp) (by simp) (by intro r' h; simp [sub] at h; subst h; exact .inr hf)
  | cancel i r hi hr => exact inv_set I hi (I.dts.mpr hr) (by simp) (by simp) (by simp [sub])
  | user _ i h => exact inv_user I h
  | worker _ h => exact inv_worker I h
  | stop hi hd =>
    have hw : ¬ (s.wpc = .chkDec ∨ s.wpc = .chkInc ∨ s.wpc = .leave ∨ s.wpc = .gone) := fun h => I.wterm h hd
    refine { I with acct := ?_, dts := by simp, didle := fun _ => hi, dterm := by simp, djoin := by simp, wterm := by simp }
    have := I.acct; rw [hd] at this; exact this
  | dtor _ h =>
    unfold dstep at h
    split at h
    · rename_i hd
      simp only [Option.some.injEq] at h
      subst h
      have hnr : s.ts ≠ .running := fun h => by have := I.dts.mpr h; rw [hd] at this; cases this
      refine { I with acct := ?_, dts := by simp [hnr], didle := fun _ => I.didle (by simp [hd]), djoin := by simp, wterm := by simp }
      have := I.acct; rw [hd] at this; simp only [dtok] at this ⊢; omega
    · rename_i hd
      split at h <;> simp only [Option.some.injEq, reduceCtorEq] at h
      rename_i hw
      subst h
      refine { I with acct := ?_, dts := by simp, didle := fun _ => I.didle (by simp [hd]), dterm := by simp, djoin := fun _ => hw, wterm := by simp }
      have := I.acct; rw [hd] at this; exact this
    · simp at h

theorem reach_inv {n : Nat} {s : St} (h : Reach n s) : Inv s := by
  induction h with
  | init => exact inv_init n
  | step _ st ih => exact inv_step ih st

/-! ## The properties -/

/-- The request the worker is working on now. -/
def St.inService (s : St) : List Req :=
  match s.wpc with
  | .serve r => [r]
  | _ => []

/-- One queue: strictly first come, first served, and nothing lost or served twice. The submitted requests are all different;
those not cancelled are, in order of submission, the served ones, the one in service, and the waiting ones; the cancelled ones
are submitted ones, each cancelled once. -/
theorem C40_one_queue_fifo {n : Nat} {s : St} (h : Reach n s) :
    s.pushed.Nodup ∧ s.pushed.filter (fun r => decide (r ∉ s.cancelled)) = s.served ++ s.inService ++ s.q ∧
      s.cancelled.Nodup ∧ ∀ r ∈ s.cancelled, r ∈ s.pushed := by
  have I := reach_inv h
  refine ⟨I.nodup, ?_, I.canNodup, I.canSub⟩
  rw [I.fifo]; unfold St.inService inServ; cases s.wpc <;> rfl

/-- When the destructor has returned, at most one submitted request was neither served nor cancelled. -/
theorem C40_one_queue_shutdown_loses_at_most_one {n : Nat} {s : St} (h : Reach n s) (hd : s.dtor = .joined) :
    ∃ rest, rest.length ≤ 1 ∧ s.pushed.filter (fun r => decide (r ∉ s.cancelled)) = s.served ++ rest := by
  have I := reach_inv h
  have hw := I.djoin hd
  refine ⟨s.q, I.lost (.inr hw), ?_⟩
  rw [I.fifo, hw]; simp [inServ]

inductive Act where
  | add (i : Nat) (r : Req)
  | cancel (i : Nat) (r : Req)
  | u (i : Nat)
  | w
  | stop
  | d

instance (s : St) (r : Req) : Decidable (Fresh s r) := by unfold Fresh; infer_instance

def act (s : St) : Act → Option St
  | .add i r =>
    if s.users[i]? = some .idle ∧ s.ts = .running ∧ Fresh s r then some { s with users := s.users.set i (.addLook r) } else none
  | .cancel i r =>
    if s.users[i]? = some .idle ∧ s.ts = .running then some { s with users := s.users.set i (.canFind r) } else none
  | .u i => ustep s i
  | .w => wstep s
  | .stop => if (∀ u ∈ s.users, u = .idle) ∧ s.dtor = .no then some { s with ts := .terminating, dtor := .set } else none
  | .d => dstep s

def runActs (s : St) : List Act → Option St
  | [] => some s
  | a :: as => (act s a).bind (fun t => runActs t as)

theorem act_step {s t : St} {a : Act} (h : act s a = some t) : Step s t := by
  cases a with
  | add i r =>
    simp only [act] at h; split at h <;> simp only [Option.some.injEq, reduceCtorEq] at h
    rename_i hc; subst h; exact .add s i r hc.1 hc.2.1 hc.2.2
  | cancel i r =>
    simp only [act] at h; split at h <;> simp only [Option.some.injEq, reduceCtorEq] at h
    rename_i hc; subst h; exact .cancel s i r hc.1 hc.2
  | u i => exact .user _ _ i h
  | w => exact .worker _ _ h
  | stop =>
    simp only [act] at h; split at h <;> simp only [Option.some.injEq, reduceCtorEq] at h
    rename_i hc; subst h; exact .stop s hc.1 hc.2
  | d => exact .dtor _ _ h

theorem runActs_reach {n : Nat} {s t : St} {as : List Act} (hr : Reach n s) (h : runActs s as = some t) : Reach n t := by
  induction as generalizing s with
  | nil => simp [runActs] at h; subst h; exact hr
  | cons a as ih =>
    simp only [runActs] at h
    cases ha : act s a with
    | none => rw [ha] at h; simp at h
    | some u => rw [ha] at h; exact ih (hr.step (act_step ha)) h

/-- Two requests; the destructor is called while the worker serves the first. -/
def lostRun : List Act :=
  [.add 0 1, .u 0, .u 0, .add 0 2, .u 0, .u 0, .w, .w, .w, .stop, .w, .w, .w, .d, .d]

/-- **The destructor can lose a request**, as with two queues. -/
theorem C40_one_queue_shutdown_can_lose_a_request :
    ∃ s, Reach 1 s ∧ s.dtor = .joined ∧ 2 ∈ s.pushed ∧ 2 ∉ s.served ∧ 2 ∉ s.cancelled := by
  cases h : runActs (init 1) lostRun with
  | none => exact absurd h (Option.isSome_iff_ne_none.mp (by decide +kernel))
  | some s =>
    refine ⟨s, runActs_reach .init h, ?_⟩
    have : ((runActs (init 1) lostRun).map (fun s => (s.dtor, s.pushed, s.served, s.cancelled)))
        = some (.joined, [1, 2], [1], []) := by decide +kernel
    rw [h] at this
    simp only [Option.map_some, Option.some.injEq, Prod.mk.injEq] at this
    obtain ⟨a, b, c, d⟩ := this
    rw [b, c, d]
    exact ⟨a, by decide, by decide, by decide⟩

inductive Steps : St → St → Prop where
  | refl (s : St) : Steps s s
  | step {s t u : St} (h : Step s t) (r : Steps t u) : Steps s u

structure Dead (i : Nat) (r : Req) (s : St) : Prop where
  wpc : s.wpc = .look
  sem : s.sem = 0
  cw : s.users[i]? = some (.canWait r)
  own : s.own = some i
  dtor : s.dtor = .no

theorem dead_step {i : Nat} {r : Req} {s t : St} (D : Dead i r s) (st : Step s t) :
    Dead i r t ∧ t.served = s.served ∧ t.pushed = s.pushed := by
  have := D.cw
  have := D.sem
  have := D.own
  have := D.wpc
  have hd := D.dtor
  cases st with
  | add j q hj _ _ => exact ⟨{ D with cw := by dsimp only; grind }, rfl, rfl⟩
  | cancel j q hj _ => exact ⟨{ D with cw := by dsimp only; grind }, rfl, rfl⟩
  | user _ j h => unfold ustep at h; split at h <;> simp_all
  | worker _ h => unfold wstep at h; simp_all
  | stop hi _ => exact absurd (hi _ (List.mem_of_getElem? D.cw)) (by simp)
  | dtor _ h => unfold dstep at h; rw [hd] at h; simp at h

theorem dead_forever {i : Nat} {r : Req} {s t : St} (D : Dead i r s) (h : Steps s t) :
    t.users[i]? = some (.canWait r) ∧ t.served = s.served ∧ t.pushed = s.pushed := by
  induction h with
  | refl => exact ⟨D.cw, rfl, rfl⟩
  | step st _ ih =>
    obtain ⟨d, e, f⟩ := dead_step D st
    obtain ⟨a, b, c⟩ := ih d
    exact ⟨a, b.trans e, c.trans f⟩

/-- The worker has taken the unit of the semaphore and not yet locked the queue when the only request is cancelled. -/
def deadRun : List Act := [.add 0 1, .u 0, .u 0, .w, .cancel 0 1, .u 0]

/-- **Cancelling can deadlock the queue**, as with two queues. -/
theorem C40_one_queue_cancel_can_deadlock :
    ∃ s, Reach 2 s ∧ s.users[0]? = some (.canWait 1) ∧
      ∀ t, Steps s t → t.users[0]? = some (.canWait 1) ∧ t.served = s.served ∧ t.pushed = s.pushed := by
  cases h : runActs (init 2) deadRun with
  | none => exact absurd h (Option.isSome_iff_ne_none.mp (by decide +kernel))
  | some s =>
    have hr : Reach 2 s := runActs_reach .init h
    have : ((runActs (init 2) deadRun).map (fun s => ((s.wpc, s.sem), (s.users, s.own, s.dtor))))
        = some ((.look, 0), ([.canWait 1, .idle], some 0, .no)) := by decide +kernel
    rw [h] at this
    simp only [Option.map_some, Option.some.injEq, Prod.mk.injEq] at this
    obtain ⟨⟨a, c⟩, d, e, f⟩ := this
    have D : Dead 0 1 s := { wpc := a, sem := c, cw := by rw [d]; rfl, own := e, dtor := f }
    exact ⟨s, hr, D.cw, fun t ht => dead_forever D ht⟩

end Stxxl.ReqQueue.One
