import Verif.Sync.Model
import Mathlib.Tactic.ByContra
import Mathlib.Tactic.SplitIfs
/-!
# C67-C69: semaphores, states and switches under every schedule
-/
namespace Stxxl.Sync

/-! ### Specification vocabulary -/

/-- Number of completed `operator++`. -/
def ups (l : List SEv) : Nat := l.countP fun e => match e with | .up _ => true | _ => false
/-- Number of completed `operator--`. -/
def downs (l : List SEv) : Nat := l.countP fun e => match e with | .down _ => true | _ => false
/-- Number of completed `decrement`. -/
def decs (l : List SEv) : Nat := l.countP fun e => match e with | .dec _ => true | _ => false

/-- Steps with which threads go on with what they have begun; no new calls, no spurious wake-ups. -/
def SAct.goesOn : SAct → Bool
  | .go => true
  | .notify _ => true
  | _ => false
def TAct.goesOn {V : Type} : TAct V → Bool
  | .go => true
  | .notify => true
  | _ => false
def OAct.goesOn : OAct → Bool
  | .go => true
  | .notify _ => true
  | _ => false

/-! ### Lists of threads -/

theorem countP_set {β : Type} (p : β → Bool) : ∀ (l : List β) (i : Nat) (x y : β), l[i]? = some x →
    (l.set i y).countP p + (if p x then 1 else 0) = l.countP p + (if p y then 1 else 0) := by
  intro l
  induction l with
  | nil => intro i x y h; simp at h
  | cons z l ih =>
    intro i x y h
    cases i with
    | zero =>
      simp only [List.getElem?_cons_zero, Option.some.injEq] at h
      subst h
      simp only [List.set_cons_zero, List.countP_cons]
      omega
    | succ i =>
      have := ih i x y (by simpa using h)
      simp only [List.set_cons_succ, List.countP_cons]
      omega

/-- Threads about to notify. -/
def nNotify (l : List SPc) : Nat := l.countP fun p => decide (p = .notify)
/-- Threads that were woken up. -/
def nWoken (l : List SPc) : Nat := l.countP fun p => decide (p = .woken)
/-- Threads asleep. -/
def nSleep (l : List SPc) : Nat := l.countP fun p => decide (p = .sleeping)

/-- The invariant of the semaphore. -/
structure SInv (init : Int) (s : Sem) : Prop where
  count : s.v = init + ups s.log - downs s.log - decs s.log
  pos : ∀ r, SEv.down r ∈ s.log → 0 ≤ r
  wake : 0 < nSleep s.th → s.v ≤ nNotify s.th + nWoken s.th

theorem SInv.tryDown {init : Int} {s : Sem} {t : Nat} (I : SInv init s) {p : SPc} (ht : s.th[t]? = some p) (hp : p = .idle ∨ p = .woken) :
    SInv init (s.tryDown t) := by
  unfold Sem.tryDown
  by_cases h : s.v ≤ 0
  · rw [if_pos h]
    exact ⟨I.count, I.pos, fun _ => by dsimp only; omega⟩
  · rw [if_neg h]
    have c1 := countP_set (fun p => decide (p = SPc.notify)) s.th t p .idle ht
    have c2 := countP_set (fun p => decide (p = SPc.woken)) s.th t p .idle ht
    have c3 := countP_set (fun p => decide (p = SPc.sleeping)) s.th t p .idle ht
    refine ⟨?_, ?_, ?_⟩
    · have := I.count
      simp only [ups, downs, decs, List.countP_cons] at this ⊢
      simp only [if_true, if_false, Bool.false_eq_true]
      omega
    · intro r hr
      rcases List.mem_cons.1 hr with h' | h'
      · cases h'; omega
      · exact I.pos r h'
    · have hw := I.wake
      simp only [nNotify, nWoken, nSleep] at hw ⊢
      rcases hp with rfl | rfl <;> simp at c1 c2 c3 <;> omega

theorem SInv.step {init : Int} {s s' : Sem} {t : Nat} {a : SAct} (I : SInv init s) (h : s.step t a = some s') : SInv init s' := by
  unfold Sem.step at h
  cases ht : s.th[t]? with
  | none => rw [ht] at h; cases a <;> simp at h
  | some p =>
    rw [ht] at h
    cases p <;> cases a <;> try simp only [Option.some.injEq, reduceCtorEq] at h
    · -- up
      subst h
      have c1 := countP_set (fun p => decide (p = SPc.notify)) s.th t _ .notify ht
      have c2 := countP_set (fun p => decide (p = SPc.woken)) s.th t _ .notify ht
      have c3 := countP_set (fun p => decide (p = SPc.sleeping)) s.th t _ .notify ht
      simp at c1 c2 c3
      refine ⟨?_, ?_, ?_⟩
      · have := I.count
        simp only [ups, downs, decs, List.countP_cons] at this ⊢
        simp only [if_true, if_false, Bool.false_eq_true]
        omega
      · intro r hr; exact I.pos r (by simpa using hr)
      · have hw := I.wake
        simp only [nNotify, nWoken, nSleep] at hw ⊢
        omega
    · subst h; exact I.tryDown ht (.inl rfl)
    · subst h
      refine ⟨?_, ?_, ?_⟩
      · have := I.count
        simp only [ups, downs, decs, List.countP_cons] at this ⊢
        simp only [if_true, if_false, Bool.false_eq_true]
        omega
      · intro r hr; exact I.pos r (by simpa using hr)
      · have hw := I.wake
        dsimp only
        omega
    · -- notify
      rename_i w
      have c1 := countP_set (fun p => decide (p = SPc.notify)) s.th t _ .idle ht
      have c2 := countP_set (fun p => decide (p = SPc.woken)) s.th t _ .idle ht
      have c3 := countP_set (fun p => decide (p = SPc.sleeping)) s.th t _ .idle ht
      cases w with
      | none =>
        simp only at h
        split_ifs at h with hm
        cases h
        refine ⟨I.count, I.pos, fun hpos => ?_⟩
        exfalso
        simp at c3
        have : nSleep s.th = 0 := by
          unfold nSleep
          rw [List.countP_eq_zero]
          intro p hp he
          simp only [decide_eq_true_eq] at he
          subst he; exact hm hp
        simp only [nSleep] at this hpos
        omega
      | some w =>
        simp only at h
        split_ifs at h with hm
        cases h
        have hne : w ≠ t := by rintro rfl; rw [ht] at hm; simp at hm
        have ht2 : (s.th.set w .woken)[t]? = some .notify := by rw [List.getElem?_set_ne hne]; exact ht
        have d1 := countP_set (fun p => decide (p = SPc.notify)) s.th w _ .woken hm
        have d2 := countP_set (fun p => decide (p = SPc.woken)) s.th w _ .woken hm
        have d3 := countP_set (fun p => decide (p = SPc.sleeping)) s.th w _ .woken hm
        have e1 := countP_set (fun p => decide (p = SPc.notify)) _ t _ .idle ht2
        have e2 := countP_set (fun p => decide (p = SPc.woken)) _ t _ .idle ht2
        have e3 := countP_set (fun p => decide (p = SPc.sleeping)) _ t _ .idle ht2
        simp at d1 d2 d3 e1 e2 e3
        refine ⟨I.count, I.pos, ?_⟩
        have hw := I.wake
        simp only [nNotify, nWoken, nSleep] at hw ⊢
        omega
    · subst h
      have d1 := countP_set (fun p => decide (p = SPc.notify)) s.th t _ .woken ht
      have d2 := countP_set (fun p => decide (p = SPc.woken)) s.th t _ .woken ht
      have d3 := countP_set (fun p => decide (p = SPc.sleeping)) s.th t _ .woken ht
      simp at d1 d2 d3
      refine ⟨I.count, I.pos, ?_⟩
      have hw := I.wake
      simp only [nNotify, nWoken, nSleep] at hw ⊢
      omega
    · subst h; exact I.tryDown ht (.inr rfl)

theorem SInv.run {init : Int} : ∀ (as : List (Nat × SAct)) (s s' : Sem), SInv init s → s.run as = some s' → SInv init s' := by
  intro as
  induction as with
  | nil => intro s s' I h; cases h; exact I
  | cons a as ih =>
    intro s s' I h
    simp only [Sem.run] at h
    cases hs : s.step a.1 a.2 with
    | none => rw [hs] at h; simp at h
    | some s1 => rw [hs] at h; exact ih s1 s' (I.step hs) h

theorem SInv.start (init : Int) (n : Nat) : SInv init (.start init n) := by
  refine ⟨by simp [Sem.start, ups, downs, decs], by simp [Sem.start], ?_⟩
  intro h
  simp [Sem.start, nSleep, List.countP_replicate] at h

/-! ### C67: the semaphore -/

/-- **C67.** In every execution by any number of threads, the value of the semaphore is its initial value plus the completed
increments minus the completed decrements. -/
theorem C67_semaphore_counts {init : Int} {n : Nat} {as : List (Nat × SAct)} {s : Sem} (h : (Sem.start init n).run as = some s) :
    s.v = init + ups s.log - downs s.log - decs s.log :=
  (SInv.run as _ s (SInv.start init n) h).count

/-- **C67.** `operator--` completes only when the value was positive: it never returns a negative number. -/
theorem C67_down_only_if_positive {init : Int} {n : Nat} {as : List (Nat × SAct)} {s : Sem} (h : (Sem.start init n).run as = some s) :
    ∀ r, SEv.down r ∈ s.log → 0 ≤ r :=
  (SInv.run as _ s (SInv.start init n) h).pos

/-- **C67.** Without `decrement` and from a non-negative initial value, never more threads get through `operator--` than the initial
value plus the number of `operator++`: a semaphore started with 1 is a lock. -/
theorem C67_semaphore_bounds_entries {init : Int} (h0 : 0 ≤ init) {n : Nat} {as : List (Nat × SAct)} {s : Sem}
    (h : (Sem.start init n).run as = some s) (hd : ∀ x ∈ as, x.2 ≠ .decrement) : (downs s.log : Int) ≤ init + ups s.log := by
  suffices H : ∀ (as : List (Nat × SAct)) (s s' : Sem), 0 ≤ s.v ∧ decs s.log = 0 → (∀ x ∈ as, x.2 ≠ .decrement) → s.run as = some s' →
      0 ≤ s'.v ∧ decs s'.log = 0 by
    have h1 := C67_semaphore_counts h
    have h2 := H as _ s ⟨h0, by simp [Sem.start, decs]⟩ hd h
    omega
  intro as
  induction as with
  | nil => intro s s' I _ h; cases h; exact I
  | cons a as ih =>
    intro s s' I hd h
    simp only [Sem.run] at h
    cases hs : s.step a.1 a.2 with
    | none => rw [hs] at h; simp at h
    | some s1 =>
      rw [hs] at h
      refine ih s1 s' ?_ (fun x hx => hd x (by simp [hx])) h
      have had := hd a (by simp)
      have htry : ∀ t, 0 ≤ (s.tryDown t).v ∧ decs (s.tryDown t).log = 0 := by
        intro t
        unfold Sem.tryDown
        split_ifs with hv
        · exact I
        · refine ⟨by dsimp only; omega, ?_⟩
          have := I.2
          simp only [decs, List.countP_cons] at this ⊢
          simpa using this
      unfold Sem.step at hs
      cases ht : s.th[a.1]? with
      | none => rw [ht] at hs; cases ha : a.2 <;> rw [ha] at hs <;> simp at hs
      | some p =>
        rw [ht] at hs
        cases p <;> cases ha : a.2 <;> rw [ha] at hs <;> try simp only [Option.some.injEq, reduceCtorEq] at hs
        · subst hs
          refine ⟨by dsimp only; omega, ?_⟩
          have := I.2
          simp only [decs, List.countP_cons] at this ⊢
          simpa using this
        · subst hs; exact htry _
        · exact absurd ha had
        · rename_i w
          cases w <;> simp only at hs <;> split_ifs at hs <;> cases hs <;> exact I
        · subst hs; exact I
        · subst hs; exact htry _

/-- **C67.** No wake-up is lost: if no thread can go on by itself (no pending notification, no woken thread), then nobody is asleep in
`operator--` unless the value is zero or negative. -/
theorem C67_no_lost_wakeup {init : Int} {n : Nat} {as : List (Nat × SAct)} {s : Sem} (h : (Sem.start init n).run as = some s)
    (hq : ∀ t a, SAct.goesOn a = true → s.step t a = none) : SPc.sleeping ∈ s.th → s.v ≤ 0 := by
  intro hsl
  have I := SInv.run as _ s (SInv.start init n) h
  have hn : nNotify s.th = 0 := by
    unfold nNotify
    rw [List.countP_eq_zero]
    intro p hp he
    simp only [decide_eq_true_eq] at he
    subst he
    obtain ⟨t, ht⟩ := List.getElem?_of_mem hp
    obtain ⟨w, hw⟩ := List.getElem?_of_mem hsl
    have := hq t (.notify (some w)) rfl
    unfold Sem.step at this
    rw [ht] at this
    simp only at this
    rw [if_pos hw] at this
    simp at this
  have hw : nWoken s.th = 0 := by
    unfold nWoken
    rw [List.countP_eq_zero]
    intro p hp he
    simp only [decide_eq_true_eq] at he
    subst he
    obtain ⟨t, ht⟩ := List.getElem?_of_mem hp
    have := hq t .go rfl
    unfold Sem.step at this
    rw [ht] at this
    simp at this
  have hs : 0 < nSleep s.th := by
    unfold nSleep
    exact List.countP_pos_iff.2 ⟨_, hsl, by simp⟩
  have := I.wake hs
  omega

theorem sem_measure {s s' : Sem} {t : Nat} {a : SAct} (hg : a.goesOn = true) (h : s.step t a = some s') :
    2 * nNotify s'.th + nWoken s'.th < 2 * nNotify s.th + nWoken s.th := by
  unfold Sem.step at h
  cases ht : s.th[t]? with
  | none => rw [ht] at h; cases a <;> simp at h
  | some p =>
    rw [ht] at h
    have htry : p = .woken → nNotify (s.tryDown t).th = nNotify s.th ∧ nWoken (s.tryDown t).th + 1 = nWoken s.th := by
      rintro rfl
      unfold Sem.tryDown
      split_ifs
      · have c1 := countP_set (fun p => decide (p = SPc.notify)) s.th t _ .sleeping ht
        have c2 := countP_set (fun p => decide (p = SPc.woken)) s.th t _ .sleeping ht
        simp at c1 c2
        exact ⟨c1, c2⟩
      · have c1 := countP_set (fun p => decide (p = SPc.notify)) s.th t _ .idle ht
        have c2 := countP_set (fun p => decide (p = SPc.woken)) s.th t _ .idle ht
        simp at c1 c2
        exact ⟨c1, c2⟩
    cases p <;> cases a <;> (try simp only [Option.some.injEq, reduceCtorEq] at h) <;> simp [SAct.goesOn] at hg
    · rename_i w
      cases w with
      | none =>
        simp only at h
        split_ifs at h with hm
        cases h
        have c1 := countP_set (fun p => decide (p = SPc.notify)) s.th t _ .idle ht
        have c2 := countP_set (fun p => decide (p = SPc.woken)) s.th t _ .idle ht
        simp at c1 c2
        simp only [nNotify, nWoken]; omega
      | some w =>
        simp only at h
        split_ifs at h with hm
        cases h
        have hne : w ≠ t := by rintro rfl; rw [ht] at hm; simp at hm
        have ht2 : (s.th.set w .woken)[t]? = some .notify := by rw [List.getElem?_set_ne hne]; exact ht
        have d1 := countP_set (fun p => decide (p = SPc.notify)) s.th w _ .woken hm
        have d2 := countP_set (fun p => decide (p = SPc.woken)) s.th w _ .woken hm
        have e1 := countP_set (fun p => decide (p = SPc.notify)) _ t _ .idle ht2
        have e2 := countP_set (fun p => decide (p = SPc.woken)) _ t _ .idle ht2
        simp at d1 d2 e1 e2
        simp only [nNotify, nWoken]; omega
    · subst h
      have := htry rfl
      omega

/-- **C67.** From any state the threads can go on by themselves only for a bounded number of steps (twice the number of threads), so the
situation of `C67_no_lost_wakeup` is always reached unless there are new calls or spurious wake-ups. -/
theorem C67_settles {s s' : Sem} {as : List (Nat × SAct)} (h : s.run as = some s') (hg : ∀ x ∈ as, x.2.goesOn = true) :
    as.length ≤ 2 * s.th.length := by
  have hm : ∀ (as : List (Nat × SAct)) (s s' : Sem), (∀ x ∈ as, x.2.goesOn = true) → s.run as = some s' →
      as.length ≤ 2 * nNotify s.th + nWoken s.th := by
    intro as
    induction as with
    | nil => intro s s' _ _; simp
    | cons a as ih =>
      intro s s' hg h
      simp only [Sem.run] at h
      cases hs : s.step a.1 a.2 with
      | none => rw [hs] at h; simp at h
      | some s1 =>
        rw [hs] at h
        have := ih s1 s' (fun x hx => hg x (by simp [hx])) h
        have := sem_measure (hg a (by simp)) hs
        simp only [List.length_cons]; omega
  have h1 := hm as s s' hg h
  have h2 : nNotify s.th + nWoken s.th ≤ s.th.length := by
    clear h1 h hm hg
    unfold nNotify nWoken
    induction s.th with
    | nil => simp
    | cons p l ih => cases p <;> simp [List.countP_cons] <;> omega
  omega

/-! ### C68: `state` -/

section
variable {V : Type} [DecidableEq V]

/-- The invariant of the state: a sleeping thread whose value has come is about to be notified; whoever returned, returned rightly. -/
structure TInv (s : St V) : Prop where
  wake : ∀ x, TPc.sleeping x ∈ s.th → x = s.v → TPc.notify ∈ s.th
  right : ∀ x y, TEv.waited x y ∈ s.log → x = y

theorem TInv.tryWait {s : St V} {t : Nat} {p : TPc V} {x : V} (I : TInv s) (ht : s.th[t]? = some p) (hp : p ≠ .notify) :
    TInv (s.tryWait t x) := by
  have hlt : t < s.th.length := by
    by_contra hc
    rw [List.getElem?_eq_none (by omega)] at ht; simp at ht
  have hno : ∀ q, TPc.notify ∈ s.th → TPc.notify ∈ s.th.set t q := by
    intro q hn
    obtain ⟨i, hi⟩ := List.getElem?_of_mem hn
    have hne : t ≠ i := by rintro rfl; rw [ht] at hi; exact hp (by simpa using hi)
    exact List.mem_of_getElem? (i := i) (by rw [List.getElem?_set_ne hne]; exact hi)
  unfold St.tryWait
  split_ifs with h
  · refine ⟨?_, I.right⟩
    intro y hy he
    rcases List.mem_or_eq_of_mem_set hy with h1 | h1
    · exact hno _ (I.wake y h1 he)
    · cases h1; exact absurd he h
  · refine ⟨?_, ?_⟩
    · intro y hy he
      rcases List.mem_or_eq_of_mem_set hy with h1 | h1
      · exact hno _ (I.wake y h1 he)
      · cases h1
    · intro a b hab
      rcases List.mem_cons.1 hab with h1 | h1
      · cases h1; exact not_not.1 h
      · exact I.right a b h1

theorem TInv.step {s s' : St V} {t : Nat} {a : TAct V} (I : TInv s) (h : s.step t a = some s') : TInv s' := by
  unfold St.step at h
  cases ht : s.th[t]? with
  | none => rw [ht] at h; cases a <;> simp at h
  | some p =>
    rw [ht] at h
    have hlt : t < s.th.length := by
      by_contra hc
      rw [List.getElem?_eq_none (by omega)] at ht; simp at ht
    cases p <;> cases a <;> try simp only [Option.some.injEq, reduceCtorEq] at h
    · subst h
      refine ⟨?_, ?_⟩
      · intro _ _ _
        exact List.mem_set hlt _
      · intro x y hxy; exact I.right x y (by simpa using hxy)
    · subst h; exact I.tryWait ht (by simp)
    · subst h; exact ⟨I.wake, fun x y hxy => I.right x y (by simpa using hxy)⟩
    · subst h
      refine ⟨?_, I.right⟩
      intro x hx _
      obtain ⟨q, _, hq⟩ := List.mem_map.1 hx
      cases q <;> simp [TPc.wake] at hq
    · rename_i x
      subst h
      refine ⟨?_, I.right⟩
      intro y hy he
      have hn : TPc.notify ∈ s.th := by
        rcases List.mem_or_eq_of_mem_set hy with h1 | h1
        · exact I.wake y h1 he
        · cases h1
      obtain ⟨i, hi⟩ := List.getElem?_of_mem hn
      have hne : t ≠ i := by rintro rfl; rw [ht] at hi; simp at hi
      exact List.mem_of_getElem? (i := i) (by rw [List.getElem?_set_ne hne]; exact hi)
    · subst h; exact I.tryWait ht (by simp)

theorem TInv.run : ∀ (as : List (Nat × TAct V)) (s s' : St V), TInv s → s.run as = some s' → TInv s' := by
  intro as
  induction as with
  | nil => intro s s' I h; cases h; exact I
  | cons a as ih =>
    intro s s' I h
    simp only [St.run] at h
    cases hs : s.step a.1 a.2 with
    | none => rw [hs] at h; simp at h
    | some s1 => rw [hs] at h; exact ih s1 s' (I.step hs) h

theorem TInv.start (x : V) (n : Nat) : TInv (.start x n) :=
  ⟨fun y hy => by simp [St.start] at hy, by simp [St.start]⟩

/-- **C68.** `wait_for(x)` returns only at a moment when the state is `x`, whatever the schedule and the spurious wake-ups. -/
theorem C68_wait_for_returns_rightly {x : V} {n : Nat} {as : List (Nat × TAct V)} {s : St V} (h : (St.start x n).run as = some s) :
    ∀ need cur, TEv.waited need cur ∈ s.log → need = cur :=
  (TInv.run as _ s (TInv.start x n) h).right

/-- **C68.** No wake-up is lost: if no thread can go on by itself, nobody is asleep in `wait_for` of the present state. -/
theorem C68_no_lost_wakeup {x : V} {n : Nat} {as : List (Nat × TAct V)} {s : St V} (h : (St.start x n).run as = some s)
    (hq : ∀ t a, TAct.goesOn a = true → s.step t a = none) : TPc.sleeping s.v ∉ s.th := by
  intro hs
  have hn := (TInv.run as _ s (TInv.start x n) h).wake _ hs rfl
  obtain ⟨t, ht⟩ := List.getElem?_of_mem hn
  have := hq t .notify rfl
  unfold St.step at this
  rw [ht] at this
  simp at this

/-- Threads about to notify, and woken threads. -/
def tNotify (l : List (TPc V)) : Nat := l.countP fun p => decide (p = .notify)
def TPc.isWoken : TPc V → Bool
  | .woken _ => true
  | _ => false
def tWoken (l : List (TPc V)) : Nat := l.countP TPc.isWoken

theorem st_length {s s' : St V} {t : Nat} {a : TAct V} (h : s.step t a = some s') : s'.th.length = s.th.length := by
  unfold St.step at h
  cases ht : s.th[t]? with
  | none => rw [ht] at h; cases a <;> simp at h
  | some p =>
    rw [ht] at h
    have : ∀ x, (s.tryWait t x).th.length = s.th.length := by
      intro x; unfold St.tryWait; split_ifs <;> simp
    cases p <;> cases a <;> (try simp only [Option.some.injEq, reduceCtorEq] at h) <;> subst h <;> simp [this]

theorem st_measure {s s' : St V} {t : Nat} {a : TAct V} (hg : a.goesOn = true) (h : s.step t a = some s') :
    tNotify s'.th * (s.th.length + 1) + tWoken s'.th < tNotify s.th * (s.th.length + 1) + tWoken s.th := by
  unfold St.step at h
  cases ht : s.th[t]? with
  | none => rw [ht] at h; cases a <;> simp at h
  | some p =>
    rw [ht] at h
    cases p <;> cases a <;> (try simp only [Option.some.injEq, reduceCtorEq] at h) <;> simp [TAct.goesOn] at hg
    · subst h
      have c1 := countP_set (fun p => decide (p = TPc.notify)) s.th t _ .idle ht
      simp at c1
      have h1 : tNotify ((s.th.set t .idle).map TPc.wake) = tNotify (s.th.set t .idle) := by
        unfold tNotify
        rw [List.countP_map]
        congr 1
        funext q
        cases q <;> simp [TPc.wake]
      have h2 : tWoken ((s.th.set t .idle).map TPc.wake) ≤ s.th.length := by
        unfold tWoken
        refine Nat.le_trans List.countP_le_length ?_
        simp
      dsimp only
      rw [h1]
      have h3 : tNotify s.th = tNotify (s.th.set t .idle) + 1 := by unfold tNotify; omega
      rw [h3, Nat.succ_mul]
      omega
    · rename_i x
      subst h
      unfold St.tryWait
      have key : ∀ q : TPc V, q ≠ .notify → q.isWoken = false → tNotify (s.th.set t q) * (s.th.length + 1) + tWoken (s.th.set t q) <
          tNotify s.th * (s.th.length + 1) + tWoken s.th := by
        intro q hq1 hq2
        have c1 := countP_set (fun p => decide (p = TPc.notify)) s.th t _ q ht
        have c2 := countP_set TPc.isWoken s.th t _ q ht
        rw [hq2, show (TPc.woken x).isWoken = true from rfl] at c2
        simp [hq1] at c1 c2
        unfold tNotify tWoken
        rw [c1]; omega
      split_ifs
      · exact key _ (by simp) rfl
      · exact key _ (by simp) rfl

/-- **C68.** From any state the threads can go on by themselves only for a bounded number of steps. -/
theorem C68_settles {s s' : St V} {as : List (Nat × TAct V)} (h : s.run as = some s') (hg : ∀ x ∈ as, x.2.goesOn = true) :
    as.length ≤ (s.th.length + 1) * (s.th.length + 1) := by
  have hm : ∀ (as : List (Nat × TAct V)) (s s' : St V), (∀ x ∈ as, x.2.goesOn = true) → s.run as = some s' →
      as.length ≤ tNotify s.th * (s.th.length + 1) + tWoken s.th := by
    intro as
    induction as with
    | nil => intro s s' _ _; simp
    | cons a as ih =>
      intro s s' hg h
      simp only [St.run] at h
      cases hs : s.step a.1 a.2 with
      | none => rw [hs] at h; simp at h
      | some s1 =>
        rw [hs] at h
        have h1 := ih s1 s' (fun x hx => hg x (by simp [hx])) h
        have h2 := st_measure (hg a (by simp)) hs
        rw [st_length hs] at h1
        simp only [List.length_cons]; omega
  have h1 := hm as s s' hg h
  have h2 : tNotify s.th + tWoken s.th ≤ s.th.length := by
    clear h1 h hm hg
    unfold tNotify tWoken
    induction s.th with
    | nil => simp
    | cons p l ih => cases p <;> simp [List.countP_cons, TPc.isWoken] <;> omega
  have h3 : tNotify s.th * (s.th.length + 1) ≤ s.th.length * (s.th.length + 1) := Nat.mul_le_mul_right _ (by omega)
  have h4 : (s.th.length + 1) * (s.th.length + 1) = s.th.length * (s.th.length + 1) + (s.th.length + 1) := by rw [Nat.succ_mul]
  omega

end

/-- **C68.** What is not promised: a state that holds only for a moment can be missed. Thread 1 waits for 5; thread 0 sets 5, then 6,
before thread 1 looks; thread 1 sleeps on and nothing is pending. -/
theorem C68_transient_state_missed :
    ∃ s, (St.start 0 2).run [(1, .wait 5), (0, .set 5), (0, .notify), (0, .set 6), (0, .notify), (1, .go)] = some s ∧
      TEv.set 5 ∈ s.log ∧ TPc.sleeping 5 ∈ s.th ∧ s.step 0 .notify = none ∧ s.step 1 .go = none := by
  refine ⟨_, rfl, by decide, by decide, rfl, rfl⟩

/-! ### C69: `onoff_switch` -/

/-- **C69.** `wait_for_on` tests the switch only once. If `off` is never called and there are no spurious wake-ups, it returns only when
the switch is on, in every execution by any number of threads. -/
theorem C69_wait_for_on_without_off {x : Bool} {n : Nat} {as : List (Nat × OAct)} {s : Switch} (h : (Switch.start x n).run as = some s)
    (hd : ∀ e ∈ as, e.2 ≠ .turn false ∧ e.2 ≠ .spurious) : ∀ cur, OEv.waited true cur ∈ s.log → cur = true := by
  suffices H : ∀ (as : List (Nat × OAct)) (s s' : Switch),
      ((∀ p, p = OPc.woken true ∨ p = OPc.notify → p ∈ s.th → s.isOn = true) ∧ ∀ cur, OEv.waited true cur ∈ s.log → cur = true) →
      (∀ e ∈ as, e.2 ≠ .turn false ∧ e.2 ≠ .spurious) → s.run as = some s' →
      ∀ cur, OEv.waited true cur ∈ s'.log → cur = true by
    refine H as _ s ⟨?_, by simp [Switch.start]⟩ hd h
    intro p hp hm
    simp only [Switch.start] at hm
    have := (List.mem_replicate.1 hm).2
    subst this
    simp at hp
  intro as
  induction as with
  | nil => intro s s' I _ h; cases h; exact I.2
  | cons a as ih =>
    intro s s' ⟨I1, I2⟩ hd h
    simp only [Switch.run] at h
    cases hs : s.step a.1 a.2 with
    | none => rw [hs] at h; simp at h
    | some s1 =>
      rw [hs] at h
      refine ih s1 s' ?_ (fun e he => hd e (by simp [he])) h
      obtain ⟨d1, d2⟩ := hd a (by simp)
      unfold Switch.step at hs
      cases ht : s.th[a.1]? with
      | none => rw [ht] at hs; cases ha : a.2 <;> rw [ha] at hs <;> simp at hs
      | some p =>
        have hmem := List.mem_of_getElem? ht
        rw [ht] at hs
        cases p <;> cases ha : a.2 <;> rw [ha] at hs <;> try simp only [Option.some.injEq, reduceCtorEq] at hs
        · rename_i b
          have hb : b = true := by cases b with | true => rfl | false => exact absurd ha d1
          subst hb hs
          exact ⟨fun _ _ _ => rfl, I2⟩
        · split_ifs at hs with hx
          · cases hs
            refine ⟨?_, I2⟩
            intro p hp hm
            rcases List.mem_or_eq_of_mem_set hm with h1 | h1
            · exact I1 p hp h1
            · subst h1; simp at hp
          · cases hs
            refine ⟨I1, ?_⟩
            intro cur hc
            rcases List.mem_cons.1 hc with h1 | h1
            · cases h1; exact (not_not.1 hx).symm
            · exact I2 cur h1
        · rename_i w
          cases w with
          | none =>
            simp only at hs
            split_ifs at hs
            cases hs
            refine ⟨?_, I2⟩
            intro p hp hm
            rcases List.mem_or_eq_of_mem_set hm with h1 | h1
            · exact I1 p hp h1
            · subst h1; simp at hp
          | some w =>
            have hon := I1 .notify (.inr rfl) hmem
            simp only at hs
            split at hs
            · cases hs
              exact ⟨fun _ _ _ => hon, I2⟩
            · cases hs
        · exact absurd ha d2
        · cases hs
          refine ⟨?_, ?_⟩
          · intro p hp hm
            rcases List.mem_or_eq_of_mem_set hm with h1 | h1
            · exact I1 p hp h1
            · subst h1; simp at hp
          · intro cur hc
            rcases List.mem_cons.1 hc with h1 | h1
            · cases h1; exact I1 (.woken true) (.inl rfl) hmem
            · exact I2 cur h1

/-- **C69.** One waiting thread is not forgotten: if only thread `w` ever waits, and only for ON, and `off` is never called, then when no
thread can go on by itself, `w` is not asleep while the switch is on. -/
theorem C69_single_waiter_not_forgotten {x : Bool} {n w : Nat} {as : List (Nat × OAct)} {s : Switch}
    (h : (Switch.start x n).run as = some s) (hd : ∀ e ∈ as, e.2 ≠ .turn false ∧ (∀ b, e.2 = .wait b → e.1 = w ∧ b = true))
    (hq : ∀ t a, OAct.goesOn a = true → s.step t a = none) : s.isOn = true → ∀ b, s.th[w]? ≠ some (.sleeping b) := by
  suffices H : ∀ (as : List (Nat × OAct)) (s s' : Switch),
      ((∀ t b, s.th[t]? = some (.sleeping b) → t = w ∧ b = true ∧ (s.isOn = true → OPc.notify ∈ s.th))) →
      (∀ e ∈ as, e.2 ≠ .turn false ∧ (∀ b, e.2 = .wait b → e.1 = w ∧ b = true)) → s.run as = some s' →
      ∀ t b, s'.th[t]? = some (.sleeping b) → t = w ∧ b = true ∧ (s'.isOn = true → OPc.notify ∈ s'.th) by
    intro hon b hb
    have I := H as _ s (by
      intro t b hb
      have := List.mem_of_getElem? hb
      simp [Switch.start] at this) hd h w b hb
    have hn := I.2.2 hon
    obtain ⟨t, ht⟩ := List.getElem?_of_mem hn
    have := hq t (.notify (some w)) rfl
    unfold Switch.step at this
    rw [ht] at this
    simp only at this
    rw [hb] at this
    simp at this
  intro as
  induction as with
  | nil => intro s s' I _ h; cases h; exact I
  | cons a as ih =>
    intro s s' I hd h
    simp only [Switch.run] at h
    cases hs : s.step a.1 a.2 with
    | none => rw [hs] at h; simp at h
    | some s1 =>
      rw [hs] at h
      refine ih s1 s' ?_ (fun e he => hd e (by simp [he])) h
      obtain ⟨d1, d2⟩ := hd a (by simp)
      unfold Switch.step at hs
      cases ht : s.th[a.1]? with
      | none => rw [ht] at hs; cases ha : a.2 <;> rw [ha] at hs <;> simp at hs
      | some p =>
        have hlt : a.1 < s.th.length := by
          by_contra hc
          rw [List.getElem?_eq_none (by omega)] at ht; simp at ht
        -- changing one thread that was not about to notify
        have keep : ∀ (q : OPc) (l : List OEv), p ≠ .notify → (∀ b, q ≠ .sleeping b) →
            ∀ t b, (s.th.set a.1 q)[t]? = some (.sleeping b) → t = w ∧ b = true ∧ (s.isOn = true → OPc.notify ∈ s.th.set a.1 q) := by
          intro q _ hp hq t b hb
          have hta : a.1 ≠ t := by
            rintro rfl
            rw [List.getElem?_set_self hlt] at hb
            exact hq b (by simpa using hb)
          rw [List.getElem?_set_ne hta] at hb
          obtain ⟨e1, e2, e3⟩ := I t b hb
          refine ⟨e1, e2, fun hon => ?_⟩
          obtain ⟨i, hi⟩ := List.getElem?_of_mem (e3 hon)
          have hne : a.1 ≠ i := by rintro rfl; rw [ht] at hi; exact hp (by simpa using hi)
          exact List.mem_of_getElem? (i := i) (by rw [List.getElem?_set_ne hne]; exact hi)
        rw [ht] at hs
        cases p <;> cases ha : a.2 <;> rw [ha] at hs <;> try simp only [Option.some.injEq, reduceCtorEq] at hs
        · rename_i b
          subst hs
          intro t c hc
          dsimp only at hc ⊢
          have hta : a.1 ≠ t := by
            rintro rfl
            rw [List.getElem?_set_self hlt] at hc; simp at hc
          rw [List.getElem?_set_ne hta] at hc
          obtain ⟨e1, e2, _⟩ := I t c hc
          exact ⟨e1, e2, fun _ => List.mem_set hlt _⟩
        · rename_i b
          obtain ⟨e1, e2⟩ := d2 b ha
          split_ifs at hs with hx
          · cases hs
            have hoff : s.isOn = false := by
              subst e2
              cases ho : s.isOn with
              | false => rfl
              | true => exact absurd ho.symm hx
            intro t c hc
            dsimp only at hc ⊢
            by_cases hta : a.1 = t
            · subst hta
              rw [List.getElem?_set_self hlt] at hc
              simp only [Option.some.injEq, OPc.sleeping.injEq] at hc
              exact ⟨e1, by rw [← hc, e2], fun h' => by rw [hoff] at h'; simp at h'⟩
            · rw [List.getElem?_set_ne hta] at hc
              obtain ⟨f1, f2, _⟩ := I t c hc
              exact ⟨f1, f2, fun h' => by rw [hoff] at h'; simp at h'⟩
          · cases hs; exact I
        · rename_i v
          cases v with
          | none =>
            simp only at hs
            split_ifs at hs with hany
            cases hs
            intro t c hc
            exfalso
            dsimp only at hc
            have hta : a.1 ≠ t := by
              rintro rfl
              rw [List.getElem?_set_self hlt] at hc; simp at hc
            rw [List.getElem?_set_ne hta] at hc
            exact hany (List.any_eq_true.2 ⟨_, List.mem_of_getElem? hc, rfl⟩)
          | some v =>
            simp only at hs
            split at hs
            · rename_i y hy
              cases hs
              intro t c hc
              exfalso
              dsimp only at hc
              obtain ⟨g1, _, _⟩ := I v y hy
              have hta : a.1 ≠ t := by
                rintro rfl
                rw [List.getElem?_set_self (by simpa using hlt)] at hc; simp at hc
              rw [List.getElem?_set_ne hta] at hc
              by_cases hvt : v = t
              · subst hvt
                have hvl : v < s.th.length := by
                  by_contra hcc
                  rw [List.getElem?_eq_none (by omega)] at hy; simp at hy
                rw [List.getElem?_set_self hvl] at hc; simp at hc
              · rw [List.getElem?_set_ne hvt] at hc
                have := (I t c hc).1
                omega
            · cases hs
        · cases hs; exact keep _ [] (by simp) (by simp)
        · cases hs; exact keep _ [] (by simp) (by simp)

/-- **C69.** Refuted in general, 1: a spurious wake-up makes `wait_for_on` return although the switch never was on. (The prefetcher then
hands out a block whose read has not finished.) -/
theorem C69_spurious_wakeup_returns_too_early :
    (Switch.start false 1).run [(0, .wait true), (0, .spurious), (0, .go)] = some ⟨false, [.idle], [.waited true false]⟩ := by decide

/-- **C69.** Refuted in general, 2: without any spurious wake-up, `off()` wakes a thread in `wait_for_on`, which returns while the switch
is off and never was on. -/
theorem C69_off_releases_waiter_for_on :
    (Switch.start false 2).run [(0, .wait true), (1, .turn false), (1, .notify (some 0)), (0, .go)] =
      some ⟨false, [.idle, .idle], [.waited true false]⟩ := by decide

/-- **C69.** Refuted in general, 3: with two waiting threads, one `on()` releases only one of them; the other sleeps although the switch
is on and stays on, and no thread can go on. -/
theorem C69_second_waiter_forgotten :
    (Switch.start false 3).run [(0, .wait true), (1, .wait true), (2, .turn true), (2, .notify (some 0)), (0, .go)] =
      some ⟨true, [.idle, .sleeping true, .idle], [.waited true true]⟩ := by decide

/-! ### Concrete cases meet the hypotheses -/

/-- Thread 0 waits, thread 1 waits, thread 2 increments twice. -/
def exSem : List (Nat × SAct) :=
  [(0, .down), (1, .down), (2, .up), (2, .notify (some 1)), (1, .spurious), (2, .up), (1, .go), (2, .notify (some 0)), (0, .go)]

example : ∃ s, (Sem.start 0 3).run [(0, .down), (1, .down), (2, .up), (2, .notify (some 1)), (2, .up), (1, .go), (2, .notify (some 0)), (0, .go)] = some s ∧
    s.v = 0 ∧ s.log = [.down 0, .down 1, .up 2, .up 1] := ⟨_, rfl, rfl, by decide⟩

example : ((Sem.start 0 3).run exSem).isNone = true := rfl

/-- A quiet state with a sleeping thread: the hypothesis of `C67_no_lost_wakeup` is met. -/
example : ∃ s, (Sem.start 1 2).run [(0, .down), (1, .down), (1, .spurious), (1, .go)] = some s ∧ SPc.sleeping ∈ s.th ∧
    ∀ t a, SAct.goesOn a = true → s.step t a = none := by
  refine ⟨_, rfl, by decide, ?_⟩
  intro t a ha
  match t with
  | 0 => cases a <;> first | rfl | simp [SAct.goesOn] at ha
  | 1 => cases a <;> first | rfl | simp [SAct.goesOn] at ha
  | t + 2 => cases a <;> first | rfl | simp [SAct.goesOn] at ha

example : ∃ s, (St.start 0 2).run [(1, .wait 5), (1, .spurious), (1, .go), (0, .set 5), (0, .notify), (1, .go)] = some s ∧
    s.log = [.waited 5 5, .set 5] := ⟨_, rfl, by decide⟩

example : ∃ s, (Switch.start false 2).run [(0, .wait true), (1, .turn true), (1, .notify (some 0)), (0, .go)] = some s ∧
    s.log = [.waited true true] := ⟨_, rfl, by decide⟩

end Stxxl.Sync
