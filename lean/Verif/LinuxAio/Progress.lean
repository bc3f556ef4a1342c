import Verif.LinuxAio.Steps

/-! # Progress of the Linux AIO queue -/

namespace Stxxl.LinuxAio

def potU : UPc → Nat
  | .idle => 0
  | .addPush _ => 16
  | .addPost _ => 1
  | .canFind _ => 2
  | .canWait _ => 1

def potP : PPc → Nat
  | .top => 5
  | .chk _ => 4
  | .look => 3
  | .free _ => 16
  | .submit _ => 15
  | .inc => 6
  | .leave => 1
  | _ => 0

def potW : WPc → Nat
  | .top => 3
  | .chk _ => 2
  | .get => 1
  | .inc es => 5 + 2 * es.length
  | .hRel es => 4 + 2 * es.length
  | .hDec es => 5 + 2 * es.length
  | .leave => 1
  | .gone => 0

def potD : DPc → Nat
  | .no => 6
  | .setP => 5
  | .joinP => 4
  | .midW => 3
  | .setW => 2
  | .joinW => 1
  | .joined => 0

/-- An upper bound for the number of steps that can still happen without new calls. -/
def mu (s : St) : Nat :=
  14 * s.waiting.length + 8 * s.inflight.length + 7 * s.done.length + potP s.ppc + potW s.wpc + (s.users.map potU).sum
    + potD s.dtor

theorem sum_set {l : List UPc} {i : Nat} {u v : UPc} (h : l[i]? = some u) :
    ((l.set i v).map potU).sum + potU u = (l.map potU).sum + potU v := by
  induction l generalizing i with
  | nil => simp at h
  | cons a l ih =>
    cases i with
    | zero =>
      simp only [List.getElem?_cons_zero, Option.some.injEq] at h
      subst h
      simp only [List.set_cons_zero, List.map_cons, List.sum_cons]; omega
    | succ i =>
      simp only [List.getElem?_cons_succ] at h
      have := ih h
      simp only [List.set_cons_succ, List.map_cons, List.sum_cons]; omega

theorem mu_istep {C : Cfg} {s s' : St} (I : Inv C s) (hs : C.strict = true) (h : IStep C s s') : mu s' < mu s := by
  have hr := I.strict hs
  have n1 := I.noreap hr
  have n2 := I.noreap2 hr
  cases h with
  | user i h =>
    unfold ustep at h
    split at h
    · rename_i r hi
      split at h <;> simp only [Option.some.injEq, reduceCtorEq] at h
      subst h
      have := sum_set (v := .addPost r) hi
      simp only [mu, potU, List.length_append, List.length_singleton] at *
      omega
    · rename_i r hi
      simp only [Option.some.injEq] at h
      subst h
      have := sum_set (v := .idle) hi
      simp only [mu, potU] at *
      omega
    · rename_i r hi
      split at h
      swap
      · simp at h
      split at h <;> simp only [Option.some.injEq] at h <;> subst h
      · rename_i hm
        have := sum_set (v := .canWait r) hi
        have := List.length_erase_of_mem hm
        simp only [mu, potU] at *
        omega
      · have := sum_set (v := .idle) hi
        simp only [mu, potU] at *
        omega
    · rename_i r hi
      split at h <;> simp only [Option.some.injEq, reduceCtorEq] at h
      subst h
      have := sum_set (v := .idle) hi
      simp only [mu, potU] at *
      omega
    · simp at h
  | post c h =>
    unfold pstep at h
    split at h
    · rename_i hp
      split at h <;> simp only [Option.some.injEq, reduceCtorEq] at h
      subst h; simp only [mu, hp, potP]; omega
    · rename_i v hp
      split at h <;> simp only [Option.some.injEq, reduceCtorEq] at h <;> subst h <;> simp only [mu, hp, potP] <;> omega
    · rename_i hp
      split at h
      swap
      · simp at h
      rename_i ho
      split at h <;> simp only [Option.some.injEq] at h <;> subst h
      · rename_i r rest hw
        simp only [mu, hp, hw, potP, List.length_cons]; omega
      · rename_i hw
        have := (inv_post (C := C) (c := c) (s' := { s with ppc := .back }) I (by unfold pstep; rw [hp]; simp [ho, hw])).nback
        exact absurd rfl this
    · rename_i hp; exact absurd hp I.nback
    · rename_i r hp
      split at h <;> simp only [Option.some.injEq, reduceCtorEq] at h
      subst h; simp only [mu, hp, potP]; omega
    · rename_i r hp
      have hJ := I.acctF
      rw [hp] at hJ
      simp only [holdP, evP, List.length_nil] at hJ
      split at h
      · split at h <;> simp only [Option.some.injEq, reduceCtorEq] at h
        subst h; simp only [mu, hp, potP, List.length_append, List.length_singleton]; omega
      · split at h <;> simp only [Option.some.injEq, reduceCtorEq] at h
        rename_i hc
        rw [hs] at hc
        simp at hc
        omega
    · rename_i r hp; exact absurd hp (n2.1 r)
    · rename_i r hp; exact absurd hp (n2.2 r _)
    · rename_i r e es hp; exact absurd hp (n2.2 r _)
    · rename_i r es hp; rw [hp] at n1; simp [decP] at n1
    · rename_i hp
      simp only [Option.some.injEq] at h
      subst h; simp only [mu, hp, potP]; omega
    · rename_i hp
      simp only [Option.some.injEq] at h
      subst h; simp only [mu, hp, potP]; omega
    · simp at h
  | wait c h =>
    unfold wstep at h
    split at h
    · rename_i hp
      split at h <;> simp only [Option.some.injEq, reduceCtorEq] at h
      subst h; simp only [mu, hp, potW]; omega
    · rename_i v hp
      split at h <;> simp only [Option.some.injEq, reduceCtorEq] at h <;> subst h <;> simp only [mu, hp, potW] <;> omega
    · rename_i hp
      split at h <;> simp only [Option.some.injEq, reduceCtorEq] at h
      rename_i hc
      subst h
      simp only [mu, hp, potW, List.length_drop, List.length_take]; omega
    · rename_i es hp
      simp only [Option.some.injEq] at h
      subst h; simp only [mu, hp, potW]; omega
    · rename_i hp
      simp only [Option.some.injEq] at h
      subst h; simp only [mu, hp, potW, List.length_nil]; omega
    · rename_i e es hp
      simp only [Option.some.injEq] at h
      subst h; simp only [mu, hp, potW, release, List.length_cons]; omega
    · rename_i es hp
      split at h <;> simp only [Option.some.injEq, reduceCtorEq] at h
      subst h; simp only [mu, hp, potW]; omega
    · rename_i hp
      simp only [Option.some.injEq] at h
      subst h; simp only [mu, hp, potW]; omega
    · simp at h
  | os r ok h =>
    unfold kstep at h
    split at h <;> simp only [Option.some.injEq, reduceCtorEq] at h
    rename_i hm
    subst h
    have := List.length_erase_of_mem hm
    have := List.length_pos_of_mem hm
    simp only [mu, List.length_append, List.length_singleton]; omega
  | dtor h =>
    unfold dstep at h
    split at h
    · rename_i hp
      simp only [Option.some.injEq] at h
      subst h; simp only [mu, hp, potD]; omega
    · rename_i hp
      split at h <;> simp only [Option.some.injEq, reduceCtorEq] at h
      subst h; simp only [mu, hp, potD]; omega
    · rename_i hp
      simp only [Option.some.injEq] at h
      subst h; simp only [mu, hp, potD]; omega
    · rename_i hp
      simp only [Option.some.injEq] at h
      subst h; simp only [mu, hp, potD]; omega
    · rename_i hp
      split at h <;> simp only [Option.some.injEq, reduceCtorEq] at h
      subst h; simp only [mu, hp, potD]; omega
    · simp at h

/-- What blocks the posting thread. -/
theorem post_blocked {C : Cfg} {s : St} (I : Inv C s) (hs : C.strict = true)
    (h : ∀ c, pstep C s c = none) :
    (s.ppc = .top ∧ s.nW = 0) ∨ (s.ppc = .look ∧ s.own ≠ none) ∨ (∃ r, s.ppc = .free r ∧ s.nF = 0) ∨ s.ppc = .gone := by
  have hr := I.strict hs
  have n1 := I.noreap hr
  have n2 := I.noreap2 hr
  have aF := I.acctF
  have h0 := h 0
  unfold pstep at h0
  split at h0
  · rename_i hp; split at h0 <;> simp at h0; exact .inl ⟨hp, by omega⟩
  · split at h0 <;> simp at h0
  · rename_i hp
    split at h0
    · split at h0 <;> simp at h0
    · rename_i ho; exact .inr (.inl ⟨hp, ho⟩)
  · simp at h0
  · rename_i r hp; split at h0 <;> simp at h0; exact .inr (.inr (.inl ⟨r, hp, by omega⟩))
  · rename_i r hp
    rw [hp] at aF
    simp only [holdP, evP, List.length_nil] at aF
    rw [if_pos rfl, if_pos (by omega)] at h0; simp at h0
  · rename_i r hp; exact absurd hp (n2.1 r)
  · simp at h0
  · simp at h0
  · rename_i r es hp; rw [hp] at n1; simp [decP] at n1
  · simp at h0
  · simp at h0
  · rename_i hp; exact .inr (.inr (.inr hp))

/-- What blocks the waiting thread. -/
theorem wait_blocked {C : Cfg} {s : St} (hm : 0 < C.max) (h : ∀ c, wstep C s c = none) :
    (s.wpc = .top ∧ s.nP = 0) ∨ (s.wpc = .get ∧ s.done = []) ∨ (∃ es, s.wpc = .hDec es ∧ s.nP = 0) ∨ s.wpc = .gone := by
  have h0 := h 1
  unfold wstep at h0
  split at h0
  · rename_i hp; split at h0 <;> simp at h0; exact .inl ⟨hp, by omega⟩
  · split at h0 <;> simp at h0
  · rename_i hp
    split at h0
    · simp at h0
    · rename_i hc
      refine .inr (.inl ⟨hp, List.eq_nil_of_length_eq_zero ?_⟩)
      omega
  · simp at h0
  · simp at h0
  · simp at h0
  · rename_i es hp; split at h0 <;> simp at h0; exact .inr (.inr (.inl ⟨es, hp, by omega⟩))
  · simp at h0
  · rename_i hp; exact .inr (.inr (.inr hp))

theorem os_blocked {s : St} (h : ∀ r ok, kstep s r ok = none) : s.inflight = [] := by
  cases hi : s.inflight with
  | nil => rfl
  | cons r l =>
    have := h r true
    unfold kstep at this
    rw [if_pos (by rw [hi]; simp)] at this
    cases this

/-- Nothing can happen without a new call. -/
def Stuck (C : Cfg) (s : St) : Prop := ∀ t, ¬ IStep C s t

/-- The circular wait of `cancel_request` and the posting thread: the canceller holds the queue mutex and waits for
`num_waiting_requests`; the posting thread has taken the only unit and waits for the mutex. -/
def CancelDeadlock (s : St) : Prop :=
  ∃ (i : Nat) (r : Req), s.users[i]? = some (.canWait r) ∧ s.own = some i ∧ s.nW = 0 ∧ s.ppc = .look ∧ s.waiting = []

theorem opt_none {α : Type} {o : Option α} (h : ∀ a, o ≠ some a) : o = none := by
  cases o with
  | none => rfl
  | some a => exact absurd rfl (h a)

theorem countP_pos_of {p : UPc → Bool} {l : List UPc} {i : Nat} {u : UPc} (h : l[i]? = some u) (hp : p u = true) :
    0 < l.countP p := List.countP_pos_iff.mpr ⟨u, List.mem_of_getElem? h, hp⟩

theorem stuck_users {C : Cfg} {s : St} (I : Inv C s) (hs : C.strict = true) (h : Stuck C s) :
    (∀ u ∈ s.users, u = .idle) ∨ CancelDeadlock s := by
  have hu : ∀ i, ustep s i = none := fun i => opt_none fun t ht => h t (.user _ _ i ht)
  have hpb := post_blocked I hs (fun c => opt_none fun t ht => h t (.post _ _ c ht))
  cases ho : s.own with
  | none =>
    left
    intro u hm
    obtain ⟨i, hi⟩ := List.getElem?_of_mem hm
    have h0 := hu i
    unfold ustep at h0
    rw [hi] at h0
    cases u with
    | idle => rfl
    | addPush r => simp [ho] at h0
    | addPost r => simp at h0
    | canFind r =>
      dsimp only at h0
      rw [if_pos ho] at h0
      split at h0 <;> simp at h0
    | canWait r => have := I.own2 i _ hi rfl; rw [ho] at this; cases this
  | some i =>
    right
    obtain ⟨u, hi, hh⟩ := I.own1 i ho
    have h0 := hu i
    unfold ustep at h0
    rw [hi] at h0
    cases u with
    | idle => cases hh
    | addPush r => cases hh
    | addPost r => simp at h0
    | canFind r => cases hh
    | canWait r =>
      dsimp only at h0
      have hn : s.nW = 0 := by
        split at h0
        · simp at h0
        · omega
      have hd := I.active hi (by simp)
      have aW := I.acctW
      have hcw : 0 < s.users.countP isWait := countP_pos_of hi rfl
      have hcp : s.users.countP isPost = 0 := by
        apply countP_none
        intro u hm
        obtain ⟨j, hj⟩ := List.getElem?_of_mem hm
        cases hpu : isPost u with
        | false => rfl
        | true =>
          have := I.own2 j u hj (by simp [isHold, hpu])
          rw [ho] at this; cases this
          rw [hi] at hj; cases hj; cases hpu
      rw [hn, hcp, hd] at aW
      simp only [dtokP] at aW
      have htok : tokP s.ppc ≤ 1 := by cases s.ppc <;> simp [tokP]
      have ht : tokP s.ppc = 1 := by omega
      have hw : s.waiting = [] := List.eq_nil_of_length_eq_zero (by omega)
      refine ⟨i, r, hi, ho, hn, ?_, hw⟩
      rcases hpb with ⟨hp, _⟩ | ⟨hp, _⟩ | ⟨q, hp, _⟩ | hp
      · rw [hp] at ht; cases ht
      · exact hp
      · rw [hp] at ht; cases ht
      · exact absurd hd (I.pleft (.inr hp))

/-- A state of rest of a queue that is alive: both threads sleep, nothing is anywhere. -/
theorem stuck_idle {C : Cfg} {s : St} (I : Inv C s) (hs : C.strict = true) (hm : 0 < C.max) (h : Stuck C s)
    (hi : ∀ u ∈ s.users, u = .idle) :
    (s.dtor = .no ∧ s.ppc = .top ∧ s.wpc = .top ∧ s.waiting = [] ∧ s.inflight = [] ∧ s.done = []) ∨ s.dtor = .joined := by
  have hpb := post_blocked I hs (fun c => opt_none fun t ht => h t (.post _ _ c ht))
  have hwb := wait_blocked hm (fun c => opt_none fun t ht => h t (.wait _ _ c ht))
  have hkb := os_blocked (fun r ok => opt_none fun t ht => h t (.os _ _ r ok ht))
  have hdb : dstep s = none := opt_none fun t ht => h t (.dtor _ _ ht)
  have aW := I.acctW
  have aF := I.acctF
  have aP := I.acctP
  have ds := I.dst
  have hr := I.strict hs
  have n1 := I.noreap hr
  rw [countP_idle rfl hi, countP_idle rfl hi] at aW
  have hown : s.own = none := by
    cases ho : s.own with
    | none => rfl
    | some i =>
      obtain ⟨u, hu, hh⟩ := I.own1 i ho
      rw [hi u (List.mem_of_getElem? hu)] at hh; cases hh
  rw [n1.1, n1.2, hkb] at aP
  rw [n1.1, hkb] at aF
  simp only [List.length_nil] at aP aF
  have hpb' : (s.ppc = .top ∧ s.nW = 0) ∨ (∃ r, s.ppc = .free r ∧ s.nF = 0) ∨ s.ppc = .gone := by
    rcases hpb with h | h | h | h
    · exact .inl h
    · exact absurd hown h.2
    · exact .inr (.inl h)
    · exact .inr (.inr h)
  clear hpb
  have hinc : incP s.ppc = 0 := by rcases hpb' with ⟨h, _⟩ | ⟨r, h, _⟩ | h <;> rw [h] <;> rfl
  rw [hinc] at aP
  have hhold : holdP s.ppc = 0 := by rcases hpb' with ⟨h, _⟩ | ⟨r, h, _⟩ | h <;> rw [h] <;> rfl
  rw [hhold] at aF
  unfold dState at ds
  have wl := I.wleft
  have gw := I.getW
  -- while the waiting thread lives it sleeps at the top
  have hwt : dtokW s.dtor = 0 → s.wpc ≠ .gone → s.wpc = .top ∧ s.nP = 0 ∧ s.done = [] := by
    intro hd hg
    rw [hd] at aP
    rcases hwb with ⟨hw, hn⟩ | ⟨hw, hn⟩ | ⟨es, hw, hn⟩ | hw
    · rw [hw, hn] at aP
      simp only [tokW, evW, decW, List.length_nil] at aP
      exact ⟨hw, hn, List.eq_nil_of_length_eq_zero (by omega)⟩
    · rw [hw, hn] at aP
      simp [tokW, evW, decW] at aP
    · rw [hw, hn] at aP
      simp [tokW, evW, decW] at aP
    · exact absurd hw hg
  have hnof : dtokW s.dtor = 0 → s.wpc ≠ .gone → ∀ r, ¬ (s.ppc = .free r ∧ s.nF = 0) := by
    intro hd hg r ⟨_, hn⟩
    obtain ⟨h1, _, h3⟩ := hwt hd hg
    rw [hn, h1, h3] at aF
    simp [evW] at aF
    omega
  cases hd : s.dtor with
  | no =>
    left
    rw [hd] at aW wl
    have hg : s.wpc ≠ .gone := fun hx => (wl (.inr hx)).1 rfl
    obtain ⟨h1, _, h3⟩ := hwt (by rw [hd]; rfl) hg
    rcases hpb' with ⟨h, hn⟩ | ⟨r, h⟩ | h
    · rw [h, hn] at aW
      simp only [tokP, dtokP] at aW
      exact ⟨rfl, h, h1, List.eq_nil_of_length_eq_zero (by omega), hkb, h3⟩
    · exact absurd h (hnof (by rw [hd]; rfl) hg r)
    · exact absurd hd (I.pleft (.inr h))
  | setP => unfold dstep at hdb; rw [hd] at hdb; simp at hdb
  | joinP =>
    exfalso
    rw [hd] at aW wl
    have hg : s.wpc ≠ .gone := fun hx => (wl (.inr hx)).2.2.1 rfl
    unfold dstep at hdb; rw [hd] at hdb
    rcases hpb' with ⟨h, hn⟩ | ⟨r, h⟩ | h
    · rw [h, hn] at aW
      simp only [tokP, dtokP] at aW
      omega
    · exact absurd h (hnof (by rw [hd]; rfl) hg r)
    · simp [h] at hdb
  | midW => unfold dstep at hdb; rw [hd] at hdb; simp at hdb
  | setW => unfold dstep at hdb; rw [hd] at hdb; simp at hdb
  | joinW =>
    exfalso
    rw [hd] at aP gw
    unfold dstep at hdb; rw [hd] at hdb
    rcases hwb with ⟨hw, hn⟩ | ⟨hw, hn⟩ | ⟨es, hw, hn⟩ | hw
    · rw [hw, hn] at aP
      simp [tokW, evW, decW, dtokW] at aP
    · have := gw rfl (.inl hw)
      rw [hkb, hn] at this
      simp at this
    · rw [hw, hn] at aP
      simp [tokW, evW, decW, dtokW] at aP
    · simp [hw] at hdb
  | joined => exact .inr rfl

/-- `k` steps without a new call. -/
inductive IRun (C : Cfg) : Nat → St → St → Prop where
  | refl (s : St) : IRun C 0 s s
  | step {k : Nat} {s t u : St} (h : IStep C s t) (r : IRun C k t u) : IRun C (k + 1) s u

theorem IRun.inv {C : Cfg} {k : Nat} {s t : St} (I : Inv C s) (h : IRun C k s t) : Inv C t := by
  induction h with
  | refl => exact I
  | step h _ ih => exact ih (inv_istep I h)

theorem IRun.bound {C : Cfg} {k : Nat} {s t : St} (I : Inv C s) (hs : C.strict = true) (h : IRun C k s t) :
    mu t + k ≤ mu s := by
  induction h with
  | refl => omega
  | step h _ ih =>
    have := mu_istep I hs h
    have := ih (inv_istep I h)
    omega

end Stxxl.LinuxAio
