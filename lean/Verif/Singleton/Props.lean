import Verif.Singleton.Model

/-!
# C90: singletons

The statements mention `exec`, `step`, `runExit`, the state, and the small specification below.
-/
namespace Stxxl.Singleton

/-! ## Specification -/

/-- Thread `t` has nothing left to do. -/
def Finished (s : State) (t : Nat) : Prop := (s.threads t).stack = [] ∧ (s.threads t).script = []

/-- The constructors do not ask for each other in a circle. -/
def Acyclic (deps : Nat → List Nat) : Prop := ∃ rank : Nat → Nat, ∀ (c : Nat), ∀ d ∈ deps c, rank d < rank c

/-! ## Invariant -/

def locked : Pc → Bool
  | .check2 | .build _ | .register | .ret2 => true
  | _ => false

/-- What is true of class `c` when `o` is the call that holds its mutex. -/
def ClassOk (s : State) (c : Nat) : Option (Nat × Pc) → Prop
  | none => s.mutex c = none ∧ ((s.inst c = .null ∧ s.started.count c = 0 ∧ c ∉ s.handlers) ∨
      (s.inst c ≠ .null ∧ s.started.count c = 1 ∧ c ∈ s.handlers))
  | some (t, pc) => s.mutex c = some t ∧
    match pc with
    | .check2 => (s.inst c = .null ∧ s.started.count c = 0 ∧ c ∉ s.handlers) ∨
      (s.inst c ≠ .null ∧ s.started.count c = 1 ∧ c ∈ s.handlers)
    | .build _ => s.inst c = .null ∧ s.started.count c = 1 ∧ c ∉ s.handlers
    | .register => s.inst c ≠ .null ∧ s.started.count c = 1 ∧ c ∉ s.handlers
    | .ret2 => s.inst c ≠ .null ∧ s.started.count c = 1 ∧ c ∈ s.handlers
    | _ => False

def Top (deps : Nat → List Nat) (inst : Nat → Ptr) (c : Nat) : Pc → Prop
  | .ret1 => inst c ≠ .null
  | .build rest => ∃ done : List Nat, deps c = done ++ rest ∧ ∀ a ∈ done, inst a ≠ .null
  | .register | .ret2 => ∀ a ∈ deps c, inst a ≠ .null ∧ a ≠ c
  | _ => True

def Below (deps : Nat → List Nat) (inst : Nat → Ptr) : Nat → List (Nat × Pc) → Prop
  | _, [] => True
  | d, (c, pc) :: fs => (∃ (done rest : List Nat), pc = .build rest ∧ deps c = done ++ d :: rest ∧ ∀ a ∈ done, inst a ≠ .null) ∧
      Below deps inst c fs

def StackOk (deps : Nat → List Nat) (inst : Nat → Ptr) : List (Nat × Pc) → Prop
  | [] => True
  | (c, pc) :: fs => Top deps inst c pc ∧ Below deps inst c fs

def lockedOf (fs : List (Nat × Pc)) : List Nat := (fs.filter fun f => locked f.2).map (·.1)

structure Inv (deps : Nat → List Nat) (s : State) (g : Nat → Option (Nat × Pc)) : Prop where
  cls : ∀ c : Nat, ClassOk s c (g c)
  frames : ∀ (t c : Nat) (pc : Pc), locked pc = true → ((c, pc) ∈ (s.threads t).stack ↔ g c = some (t, pc))
  nodup : ∀ t : Nat, (lockedOf (s.threads t).stack).Nodup
  stacks : ∀ t : Nat, StackOk deps s.inst (s.threads t).stack
  depsOk : ∀ c : Nat, s.inst c ≠ .null → ∀ a ∈ deps c, s.inst a ≠ .null ∧ a ≠ c
  made : ∀ (c k : Nat), s.inst c = .obj k ↔ s.made[k]? = some c
  nobomb : ∀ c : Nat, s.inst c ≠ .bomb
  results : ∀ (t c : Nat) (v : Ptr), (c, v) ∈ (s.threads t).results → v = s.inst c ∧ v ≠ .null
  hnodup : s.handlers.Nodup

theorem mem_lockedOf {c : Nat} {fs : List (Nat × Pc)} : c ∈ lockedOf fs ↔ ∃ pc : Pc, locked pc = true ∧ (c, pc) ∈ fs := by
  simp only [lockedOf, List.mem_map, List.mem_filter]
  constructor
  · rintro ⟨⟨c', pc⟩, ⟨h1, h2⟩, rfl⟩
    exact ⟨pc, h2, h1⟩
  · rintro ⟨pc, h1, h2⟩
    exact ⟨(c, pc), ⟨h2, h1⟩, rfl⟩

theorem Below.mono {deps : Nat → List Nat} {i j : Nat → Ptr} (h : ∀ a : Nat, i a ≠ .null → j a ≠ .null) :
    ∀ (fs : List (Nat × Pc)) (d : Nat), Below deps i d fs → Below deps j d fs
  | [], _, _ => trivial
  | (_, _) :: fs, _, ⟨⟨done, rest, h1, h2, h3⟩, h4⟩ => ⟨⟨done, rest, h1, h2, fun a ha => h a (h3 a ha)⟩, Below.mono h fs _ h4⟩

theorem Top.mono {deps : Nat → List Nat} {i j : Nat → Ptr} (h : ∀ a : Nat, i a ≠ .null → j a ≠ .null) (c : Nat) :
    ∀ pc : Pc, Top deps i c pc → Top deps j c pc
  | .check, _ => trivial
  | .lock, _ => trivial
  | .check2, _ => trivial
  | .ret1, x => h c x
  | .build _, ⟨done, h1, h2⟩ => ⟨done, h1, fun a ha => h a (h2 a ha)⟩
  | .register, x => fun a ha => ⟨h a (x a ha).1, (x a ha).2⟩
  | .ret2, x => fun a ha => ⟨h a (x a ha).1, (x a ha).2⟩

theorem StackOk.mono {deps : Nat → List Nat} {i j : Nat → Ptr} (h : ∀ a : Nat, i a ≠ .null → j a ≠ .null) :
    ∀ fs : List (Nat × Pc), StackOk deps i fs → StackOk deps j fs
  | [], _ => trivial
  | (_, _) :: fs, ⟨h1, h2⟩ => ⟨h1.mono h, Below.mono h fs _ h2⟩

theorem ClassOk.congr {s s' : State} {c : Nat} {o : Option (Nat × Pc)} (h1 : s'.inst c = s.inst c) (h2 : s'.mutex c = s.mutex c)
    (h3 : s'.started.count c = s.started.count c) (h4 : c ∈ s'.handlers ↔ c ∈ s.handlers) (h : ClassOk s c o) : ClassOk s' c o := by
  rcases o with _ | ⟨t, pc⟩
  · simp only [ClassOk, h1, h2, h3, h4] at h ⊢; exact h
  · cases pc <;> simp only [ClassOk, h1, h2, h3, h4] at h ⊢ <;> exact h

theorem Inv.make {deps : Nat → List Nat} {s s' : State} {g : Nat → Option (Nat × Pc)} (i : Inv deps s g) (t c : Nat)
    (o : Option (Nat × Pc)) (th : Thread) (hth : s'.threads = upd s.threads t th)
    (hog : ∀ (u : Nat) (pc : Pc), u ≠ t → (o = some (u, pc) ↔ g c = some (u, pc)))
    (hfs : ∀ (c' : Nat) (pc : Pc), locked pc = true →
      ((c', pc) ∈ th.stack ↔ if c' = c then o = some (t, pc) else (c', pc) ∈ (s.threads t).stack))
    (hnd : (lockedOf th.stack).Nodup)
    (hst : StackOk deps s'.inst th.stack)
    (hmono : ∀ a : Nat, s.inst a ≠ .null → s'.inst a = s.inst a)
    (hcls : ClassOk s' c o)
    (hsame : ∀ c' : Nat, c' ≠ c → s'.inst c' = s.inst c' ∧ s'.mutex c' = s.mutex c' ∧ s'.started.count c' = s.started.count c' ∧
      (c' ∈ s'.handlers ↔ c' ∈ s.handlers))
    (hdeps : s'.inst c ≠ .null → ∀ a ∈ deps c, s'.inst a ≠ .null ∧ a ≠ c)
    (hmade : ∀ (c k : Nat), s'.inst c = .obj k ↔ s'.made[k]? = some c)
    (hnb : s'.inst c ≠ .bomb)
    (hres : ∀ (c : Nat) (v : Ptr), (c, v) ∈ th.results → (c, v) ∈ (s.threads t).results ∨ (v = s.inst c ∧ v ≠ .null))
    (hhn : s'.handlers.Nodup) : Inv deps s' (upd g c o) := by
  have hne : ∀ a : Nat, s.inst a ≠ .null → s'.inst a ≠ .null := fun a h => by rw [hmono a h]; exact h
  refine ⟨?_, ?_, ?_, ?_, ?_, hmade, ?_, ?_, hhn⟩
  · intro c'
    simp only [upd]
    split
    · rename_i h; subst h; exact hcls
    · rename_i h
      obtain ⟨a1, a2, a3, a4⟩ := hsame c' h
      exact (i.cls c').congr a1 a2 a3 a4
  · intro u c' pc hpc
    have h0 := i.frames u c' pc hpc
    rw [hth]
    simp only [upd]
    by_cases hu : u = t
    · subst hu
      rw [if_pos rfl, hfs c' pc hpc]
      by_cases hc : c' = c
      · rw [if_pos hc, if_pos hc]
      · rw [if_neg hc, if_neg hc]; exact h0
    · rw [if_neg hu, h0]
      by_cases hc : c' = c
      · subst hc; rw [if_pos rfl]; exact (hog u pc hu).symm
      · rw [if_neg hc]
  · intro u
    rw [hth]
    simp only [upd]
    split
    · exact hnd
    · exact i.nodup u
  · intro u
    rw [hth]
    simp only [upd]
    split
    · exact hst
    · exact (i.stacks u).mono hne
  · intro c' hc' a ha
    by_cases hc : c' = c
    · subst hc; exact hdeps hc' a ha
    · rw [(hsame c' hc).1] at hc'
      exact ⟨hne a (i.depsOk c' hc' a ha).1, (i.depsOk c' hc' a ha).2⟩
  · intro c'
    by_cases hc : c' = c
    · subst hc; exact hnb
    · rw [(hsame c' hc).1]; exact i.nobomb c'
  · intro u c' v hv
    rw [hth] at hv
    simp only [upd] at hv
    have key : v = s.inst c' ∧ v ≠ .null := by
      split at hv
      · rcases hres c' v hv with h | h
        · exact i.results _ _ _ h
        · exact h
      · exact i.results _ _ _ hv
    refine ⟨?_, key.2⟩
    rw [hmono c' (key.1 ▸ key.2)]
    exact key.1

theorem not_mem_rest {fs : List (Nat × Pc)} {c : Nat} {pc : Pc} (hpc : locked pc = true) (h : (lockedOf ((c, pc) :: fs)).Nodup) :
    c ∉ lockedOf fs ∧ (lockedOf fs).Nodup := by
  simp only [lockedOf, List.filter_cons, hpc, if_true, List.map_cons] at h
  exact List.nodup_cons.1 h

theorem nodup_cons_locked {fs : List (Nat × Pc)} {c : Nat} {pc : Pc} (h1 : c ∉ lockedOf fs) (h2 : (lockedOf fs).Nodup) :
    (lockedOf ((c, pc) :: fs)).Nodup := by
  simp only [lockedOf, List.filter_cons]
  split
  · exact List.nodup_cons.2 ⟨h1, h2⟩
  · exact h2

theorem lockedOf_cons_free {fs : List (Nat × Pc)} {c : Nat} {pc : Pc} (h : locked pc = false) : lockedOf ((c, pc) :: fs) = lockedOf fs := by
  simp [lockedOf, List.filter_cons, h]

theorem pop_ok {deps : Nat → List Nat} {inst : Nat → Ptr} {c : Nat} (hc : inst c ≠ .null) :
    ∀ {fs : List (Nat × Pc)}, Below deps inst c fs → StackOk deps inst fs
  | [], _ => trivial
  | (_, _) :: _, ⟨⟨done, rest, h1, h2, h3⟩, h4⟩ => by
    subst h1
    refine ⟨⟨done ++ [c], by simp [h2], ?_⟩, h4⟩
    intro a ha
    rcases List.mem_append.1 ha with h | h
    · exact h3 a h
    · rw [List.mem_singleton.1 h]; exact hc

/-- A step keeps the invariant. -/
theorem Inv.step {deps : Nat → List Nat} {s s' : State} {g : Nat → Option (Nat × Pc)} (i : Inv deps s g) {t : Nat}
    (h : step deps s t = some s') : ∃ g', Inv deps s' g' := by
  have hstk := i.stacks t
  have hnd := i.nodup t
  have hfr := i.frames t
  -- steps that touch no lock
  have free : ∀ (th : Thread) (s' : State), s'.threads = upd s.threads t th → s'.inst = s.inst → s'.mutex = s.mutex →
      s'.started = s.started → s'.made = s.made → s'.handlers = s.handlers →
      (∀ (c' : Nat) (pc : Pc), locked pc = true → ((c', pc) ∈ th.stack ↔ (c', pc) ∈ (s.threads t).stack)) →
      (lockedOf th.stack).Nodup → StackOk deps s.inst th.stack →
      (∀ (c : Nat) (v : Ptr), (c, v) ∈ th.results → (c, v) ∈ (s.threads t).results ∨ (v = s.inst c ∧ v ≠ .null)) →
      ∃ g', Inv deps s' g' := by
    intro th s' e1 e2 e3 e4 e5 e6 f1 f2 f3 f4
    refine ⟨_, i.make (s' := s') t 0 (g 0) th e1 (fun _ _ _ => Iff.rfl) ?_ f2 (e2 ▸ f3) (fun a _ => by rw [e2]) ?_ ?_ ?_ ?_ ?_ f4
      (e6 ▸ i.hnodup)⟩
    · intro c' pc hpc
      rw [f1 c' pc hpc]
      split
      · rename_i h; subst h; exact hfr _ pc hpc
      · exact Iff.rfl
    · exact (i.cls 0).congr (by rw [e2]) (by rw [e3]) (by rw [e4]) (by rw [e6])
    · intro c' _
      rw [e2, e3, e4, e6]
      exact ⟨rfl, rfl, rfl, Iff.rfl⟩
    · rw [e2]; exact i.depsOk 0
    · rw [e2, e5]; exact i.made
    · rw [e2]; exact i.nobomb 0
  simp only [Stxxl.Singleton.step] at h
  rcases hs : (s.threads t).stack with _ | ⟨⟨c, pc⟩, fs⟩
  · rw [hs] at h
    dsimp only at h
    rcases hsc : (s.threads t).script with _ | ⟨c, cs⟩
    · rw [hsc] at h; simp at h
    · rw [hsc] at h
      simp only [Option.some.injEq] at h
      subst h
      refine free ⟨[(c, .check)], cs, (s.threads t).results⟩ _ rfl rfl rfl rfl rfl rfl ?_ ?_ ⟨trivial, trivial⟩ (fun _ _ h => Or.inl h)
      · intro c' pc hpc
        rw [hs]
        simp only [List.mem_singleton, List.not_mem_nil, iff_false, Prod.mk.injEq, not_and]
        rintro _ rfl
        simp [locked] at hpc
      · simp [lockedOf, locked]
  · rw [hs] at h hstk hnd
    simp only [hs] at hfr
    obtain ⟨htop, hbel⟩ := hstk
    -- what the class of the top call looks like
    have own : ∀ p : Pc, locked pc = true → c ∉ lockedOf fs ∧ (lockedOf fs).Nodup ∧ g c = some (t, pc) := fun _ hp =>
      ⟨(not_mem_rest hp hnd).1, (not_mem_rest hp hnd).2, (hfr c pc hp).1 (List.mem_cons_self ..)⟩
    have repl : ∀ (pc' : Pc), locked pc = true → ∀ (c' : Nat) (q : Pc), locked q = true →
        ((c', q) ∈ (c, pc') :: fs ↔ if c' = c then some (t, pc') = some (t, q) else (c', q) ∈ (c, pc) :: fs) := by
      intro pc' hp c' q hq
      have hn := (own pc hp).1
      by_cases hc : c' = c
      · subst hc
        rw [if_pos rfl]
        have : (c', q) ∉ fs := fun hm => hn (mem_lockedOf.2 ⟨q, hq, hm⟩)
        simp [this, eq_comm]
      · simp [hc]
    cases pc with
    | check =>
      simp only at h
      split at h
      all_goals
        simp only [Option.some.injEq] at h
        subst h
      · refine free ⟨(c, .lock) :: fs, _, _⟩ _ rfl rfl rfl rfl rfl rfl ?_ ?_ ⟨trivial, hbel⟩ (fun _ _ h => Or.inl h)
        · intro c' pc hpc
          rw [hs]
          simp only [List.mem_cons, Prod.mk.injEq]
          constructor <;> rintro (⟨_, rfl⟩ | h) <;> first | exact Or.inr h | simp [locked] at hpc
        · rw [lockedOf_cons_free rfl] at hnd ⊢; exact hnd
      · rename_i hn
        refine free ⟨(c, .ret1) :: fs, _, _⟩ _ rfl rfl rfl rfl rfl rfl ?_ ?_ ⟨hn, hbel⟩ (fun _ _ h => Or.inl h)
        · intro c' pc hpc
          rw [hs]
          simp only [List.mem_cons, Prod.mk.injEq]
          constructor <;> rintro (⟨_, rfl⟩ | h) <;> first | exact Or.inr h | simp [locked] at hpc
        · rw [lockedOf_cons_free rfl] at hnd ⊢; exact hnd
    | ret1 =>
      simp only [Option.some.injEq] at h
      subst h
      refine free ⟨fs, _, (c, s.inst c) :: (s.threads t).results⟩ _ rfl rfl rfl rfl rfl rfl ?_ ?_ ?_ ?_
      · intro c' pc hpc
        rw [hs]
        simp only [List.mem_cons, Prod.mk.injEq]
        constructor
        · exact Or.inr
        · rintro (⟨_, rfl⟩ | h)
          · simp [locked] at hpc
          · exact h
      · rw [lockedOf_cons_free rfl] at hnd; exact hnd
      · exact pop_ok htop hbel
      · intro c' v hv
        rcases List.mem_cons.1 hv with h | h
        · simp only [Prod.mk.injEq] at h
          obtain ⟨rfl, rfl⟩ := h
          exact Or.inr ⟨rfl, htop⟩
        · exact Or.inl h
    | lock =>
      simp only at h
      split at h
      · rename_i hm
        simp only [Option.some.injEq] at h
        have hg : g c = none := by
          have := i.cls c
          rcases hgc : g c with _ | ⟨u, p⟩
          · rfl
          · rw [hgc] at this
            have := this.1
            rw [hm] at this
            simp at this
        have hcl := i.cls c
        rw [hg] at hcl
        have hn : c ∉ lockedOf fs := by
          intro hx
          obtain ⟨q, hq, hmem⟩ := mem_lockedOf.1 hx
          have := (hfr c q hq).1 (List.mem_cons_of_mem _ hmem)
          rw [hg] at this
          simp at this
        rw [lockedOf_cons_free rfl] at hnd
        refine ⟨_, i.make t c (some (t, .check2)) ⟨(c, .check2) :: fs, _, _⟩ (by rw [← h]; rfl) ?_ ?_ (nodup_cons_locked hn hnd) ?_ ?_ ?_ ?_ ?_ ?_ ?_
          (fun _ _ h => Or.inl h) ?_⟩
        · intro u p hu
          rw [hg]
          simp [Ne.symm hu]
        · intro c' q hq
          by_cases hc : c' = c
          · subst hc
            rw [if_pos rfl]
            have : (c', q) ∉ fs := fun hm => hn (mem_lockedOf.2 ⟨q, hq, hm⟩)
            simp [this, eq_comm]
          · simp [hc, hs]
        all_goals subst h
        · exact ⟨trivial, hbel⟩
        · exact fun a _ => rfl
        · exact ⟨by simp [State.goto, upd], hcl.2⟩
        · intro c' hc
          exact ⟨rfl, by simp [State.goto, upd, hc], rfl, Iff.rfl⟩
        · exact i.depsOk c
        · exact i.made
        · exact i.nobomb c
        · exact i.hnodup
      · simp at h
    | check2 =>
      obtain ⟨hn, hnd', hg⟩ := own .check2 rfl
      have hcl := i.cls c
      rw [hg] at hcl
      simp only at h
      split at h
      all_goals simp only [Option.some.injEq] at h
      · rename_i hi
        refine ⟨_, i.make t c (some (t, .build (deps c))) ⟨(c, .build (deps c)) :: fs, _, _⟩ (by rw [← h]; rfl) ?_ ?_ (nodup_cons_locked hn hnd')
          ?_ ?_ ?_ ?_ ?_ ?_ ?_ (fun _ _ h => Or.inl h) ?_⟩
        · intro u p hu
          rw [hg]
          simp [Ne.symm hu]
        · rw [hs]; exact repl _ rfl
        all_goals subst h
        · exact ⟨⟨[], rfl, by simp⟩, hbel⟩
        · exact fun a _ => rfl
        · rcases hcl.2 with hc | hc
          · exact ⟨hcl.1, hc.1, by simp [State.goto, hc.2.1], hc.2.2⟩
          · exact absurd hi hc.1
        · intro c' hc
          exact ⟨rfl, rfl, by simp [State.goto, List.count_cons, Ne.symm hc], Iff.rfl⟩
        · exact i.depsOk c
        · exact i.made
        · exact i.nobomb c
        · exact i.hnodup
      · rename_i hi
        refine ⟨_, i.make t c (some (t, .ret2)) ⟨(c, .ret2) :: fs, _, _⟩ (by rw [← h]; rfl) ?_ ?_ (nodup_cons_locked hn hnd')
          ?_ ?_ ?_ ?_ ?_ ?_ ?_ (fun _ _ h => Or.inl h) ?_⟩
        · intro u p hu
          rw [hg]
          simp [Ne.symm hu]
        · rw [hs]; exact repl _ rfl
        all_goals subst h
        · exact ⟨i.depsOk c hi, hbel⟩
        · exact fun a _ => rfl
        · rcases hcl.2 with hc | hc
          · exact absurd hc.1 hi
          · exact ⟨hcl.1, hc⟩
        · intro c' hc
          exact ⟨rfl, rfl, rfl, Iff.rfl⟩
        · exact i.depsOk c
        · exact i.made
        · exact i.nobomb c
        · exact i.hnodup
    | build rest =>
      obtain ⟨hn, hnd', hg⟩ := own .check2 rfl
      have hcl := i.cls c
      rw [hg] at hcl
      obtain ⟨done, hd1, hd2⟩ := htop
      cases rest with
      | cons d rest =>
        simp only [Option.some.injEq] at h
        refine ⟨_, i.make t c (some (t, .build rest)) ⟨(d, .check) :: (c, .build rest) :: fs, _, _⟩ (by rw [← h]; rfl) ?_ ?_ ?_
          ?_ ?_ ?_ ?_ ?_ ?_ ?_ (fun _ _ h => Or.inl h) ?_⟩
        · intro u p hu
          rw [hg]
          simp [Ne.symm hu]
        · intro c' q hq
          have h2 := repl (.build rest) rfl c' q hq
          rw [hs, ← h2, List.mem_cons (a := (c', q)) (b := (d, Pc.check))]
          constructor
          · rintro (h | h)
            · simp only [Prod.mk.injEq] at h
              rw [h.2] at hq
              simp [locked] at hq
            · exact h
          · exact Or.inr
        · rw [lockedOf_cons_free rfl]; exact nodup_cons_locked hn hnd'
        all_goals subst h
        · exact ⟨trivial, ⟨done, rest, rfl, hd1, hd2⟩, hbel⟩
        · exact fun a _ => rfl
        · exact ⟨hcl.1, hcl.2⟩
        · intro c' hc
          exact ⟨rfl, rfl, rfl, Iff.rfl⟩
        · exact i.depsOk c
        · exact i.made
        · exact i.nobomb c
        · exact i.hnodup
      | nil =>
        simp only [Option.some.injEq] at h
        obtain ⟨hc1, hc2, hc3, hc4⟩ := hcl
        rw [List.append_nil] at hd1
        have hdeps : ∀ a ∈ deps c, s.inst a ≠ .null ∧ a ≠ c := by
          intro a ha
          have := hd2 a (hd1 ▸ ha)
          exact ⟨this, fun h => this (h ▸ hc2)⟩
        have hup : ∀ a : Nat, s.inst a ≠ .null → upd s.inst c (.obj s.made.length) a = s.inst a := by
          intro a ha
          simp only [upd]
          rw [if_neg]
          intro h
          exact ha (h ▸ hc2)
        have hupn : ∀ a : Nat, s.inst a ≠ .null → upd s.inst c (.obj s.made.length) a ≠ .null := fun a h => by rw [hup a h]; exact h
        refine ⟨_, i.make t c (some (t, .register)) ⟨(c, .register) :: fs, _, _⟩ (by rw [← h]; rfl) ?_ ?_ (nodup_cons_locked hn hnd')
          ?_ ?_ ?_ ?_ ?_ ?_ ?_ (fun _ _ h => Or.inl h) ?_⟩
        · intro u p hu
          rw [hg]
          simp [Ne.symm hu]
        · rw [hs]; exact repl _ rfl
        all_goals subst h
        · refine ⟨fun a ha => ⟨?_, (hdeps a ha).2⟩, Below.mono (fun a ha => ?_) fs c hbel⟩
          · exact hupn a (hdeps a ha).1
          · exact hupn a ha
        · exact hup
        · exact ⟨hc1, by simp [State.goto, upd], hc3, hc4⟩
        · intro c' hc
          exact ⟨by simp [State.goto, upd, hc], rfl, rfl, Iff.rfl⟩
        · intro _ a ha
          refine ⟨?_, (hdeps a ha).2⟩
          exact hupn a (hdeps a ha).1
        · intro c' k
          have hm := i.made c' k
          simp only [State.goto, upd]
          by_cases hc : c' = c
          · subst hc
            rw [if_pos rfl]
            rw [hc2] at hm
            by_cases hk : k < s.made.length
            · rw [List.getElem?_append_left hk]
              simp only [Ptr.obj.injEq]
              constructor
              · omega
              · intro h; exact absurd (hm.2 h) (by simp)
            · rw [List.getElem?_append_right (by omega)]
              simp only [Ptr.obj.injEq]
              constructor
              · intro h; simp [h]
              · intro h
                have := (List.getElem?_eq_some_iff.1 h).1
                simp at this; omega
          · rw [if_neg hc, hm]
            by_cases hk : k < s.made.length
            · rw [List.getElem?_append_left hk]
            · rw [List.getElem?_append_right (by omega), List.getElem?_eq_none (by omega)]
              constructor
              · intro h; simp at h
              · intro h
                have h2 := List.mem_of_getElem? h
                simp only [List.mem_singleton] at h2
                exact absurd h2 hc
        · simp [State.goto, upd]
        · exact i.hnodup
    | register =>
      obtain ⟨hn, hnd', hg⟩ := own .check2 rfl
      have hcl := i.cls c
      rw [hg] at hcl
      obtain ⟨hc1, hc2, hc3, hc4⟩ := hcl
      simp only [Option.some.injEq] at h
      refine ⟨_, i.make t c (some (t, .ret2)) ⟨(c, .ret2) :: fs, _, _⟩ (by rw [← h]; rfl) ?_ ?_ (nodup_cons_locked hn hnd')
        ?_ ?_ ?_ ?_ ?_ ?_ ?_ (fun _ _ h => Or.inl h) ?_⟩
      · intro u p hu
        rw [hg]
        simp [Ne.symm hu]
      · rw [hs]; exact repl _ rfl
      all_goals subst h
      · exact ⟨htop, hbel⟩
      · exact fun a _ => rfl
      · exact ⟨hc1, hc2, hc3, by simp [State.goto]⟩
      · intro c' hc
        exact ⟨rfl, rfl, rfl, by simp [State.goto, hc]⟩
      · exact i.depsOk c
      · exact i.made
      · exact i.nobomb c
      · exact List.nodup_cons.2 ⟨hc4, i.hnodup⟩
    | ret2 =>
      obtain ⟨hn, hnd', hg⟩ := own .check2 rfl
      have hcl := i.cls c
      rw [hg] at hcl
      obtain ⟨hc1, hc2, hc3, hc4⟩ := hcl
      simp only [Option.some.injEq] at h
      refine ⟨_, i.make t c none ⟨fs, _, (c, s.inst c) :: (s.threads t).results⟩ (by rw [← h]; rfl) ?_ ?_ hnd'
        ?_ ?_ ?_ ?_ ?_ ?_ ?_ ?_ ?_⟩
      · intro u p hu
        rw [hg]
        simp [Ne.symm hu]
      · intro c' q hq
        by_cases hc : c' = c
        · subst hc
          rw [if_pos rfl]
          have : (c', q) ∉ fs := fun hm => hn (mem_lockedOf.2 ⟨q, hq, hm⟩)
          simp [this]
        · simp [hc, hs]
      all_goals subst h
      · exact pop_ok hc2 hbel
      · exact fun a _ => rfl
      · exact ⟨by simp [State.ret, upd], Or.inr ⟨hc2, hc3, hc4⟩⟩
      · intro c' hc
        exact ⟨rfl, by simp [State.ret, upd, hc], rfl, Iff.rfl⟩
      · exact i.depsOk c
      · exact i.made
      · exact i.nobomb c
      · intro c' v hv
        rcases List.mem_cons.1 hv with h | h
        · simp only [Prod.mk.injEq] at h
          obtain ⟨rfl, rfl⟩ := h
          exact Or.inr ⟨rfl, hc2⟩
        · exact Or.inl h
      · exact i.hnodup

theorem start_inv (deps : Nat → List Nat) (scripts : Nat → List Nat) : Inv deps (start scripts) (fun _ => none) :=
  ⟨fun _ => ⟨rfl, Or.inl ⟨rfl, rfl, by simp [start]⟩⟩, by simp [start], by simp [start, lockedOf], fun _ => trivial, by simp [start],
    by simp [start], by simp [start], by simp [start], by simp [start]⟩

theorem exec_inv {deps : Nat → List Nat} : ∀ (ts : List Nat) (s s' : State) (g : Nat → Option (Nat × Pc)), Inv deps s g →
    exec deps s ts = some s' → ∃ g', Inv deps s' g'
  | [], s, s', g, i, h => by
    simp only [exec, Option.some.injEq] at h
    exact h ▸ ⟨g, i⟩
  | t :: ts, s, s', g, i, h => by
    simp only [exec] at h
    rcases hst : step deps s t with _ | s1
    · rw [hst] at h; simp at h
    · rw [hst] at h
      obtain ⟨g1, i1⟩ := i.step hst
      exact exec_inv ts s1 s' g1 i1 h

theorem Inv.handler_inst {deps : Nat → List Nat} {s : State} {g : Nat → Option (Nat × Pc)} (i : Inv deps s g) {c : Nat}
    (h : c ∈ s.handlers) : s.inst c ≠ .null := by
  have := i.cls c
  rcases hg : g c with _ | ⟨u, pc⟩
  · rw [hg] at this
    rcases this.2 with h1 | h1
    · exact absurd h h1.2.2
    · exact h1.1
  · rw [hg] at this
    cases pc <;> simp only [ClassOk] at this
    all_goals grind

theorem below_build {deps : Nat → List Nat} {inst : Nat → Ptr} {c : Nat} {q : Pc} : ∀ {fs : List (Nat × Pc)} {d : Nat},
    Below deps inst d fs → (c, q) ∈ fs → ∃ r : List Nat, q = .build r
  | (c', q') :: fs, d, ⟨⟨done, rest, h1, _, _⟩, h4⟩, hm => by
    rcases List.mem_cons.1 hm with h | h
    · simp only [Prod.mk.injEq] at h
      exact ⟨rest, h.2.trans h1⟩
    · exact below_build h4 h

theorem below_rank {deps : Nat → List Nat} {inst : Nat → Ptr} {rank : Nat → Nat} (hr : ∀ (c : Nat), ∀ d ∈ deps c, rank d < rank c)
    {c : Nat} {q : Pc} : ∀ {fs : List (Nat × Pc)} {d : Nat}, Below deps inst d fs → (c, q) ∈ fs → rank d < rank c
  | (c', q') :: fs, d, ⟨⟨done, rest, _, h2, _⟩, h4⟩, hm => by
    have h5 := hr c' d (by rw [h2]; simp)
    rcases List.mem_cons.1 hm with h | h
    · simp only [Prod.mk.injEq] at h
      rw [h.1]; exact h5
    · have := below_rank hr h4 h
      omega

/-- An object that is not registered is in the hands of the call that made it. -/
theorem Inv.unregistered {deps : Nat → List Nat} {s : State} {g : Nat → Option (Nat × Pc)} (i : Inv deps s g) {c : Nat}
    (h : s.inst c ≠ .null) (hh : c ∉ s.handlers) : ∃ (t : Nat) (fs : List (Nat × Pc)), (s.threads t).stack = (c, .register) :: fs := by
  have hc := i.cls c
  rcases hg : g c with _ | ⟨u, pc⟩
  · rw [hg] at hc
    rcases hc.2 with h1 | h1
    · exact absurd h1.1 h
    · exact absurd h1.2.2 hh
  · rw [hg] at hc
    have hpc : pc = .register := by
      cases pc <;> simp only [ClassOk] at hc
      all_goals grind
    subst hpc
    have hm := (i.frames u c .register rfl).2 hg
    refine ⟨u, ?_⟩
    have hst := i.stacks u
    rcases hs : (s.threads u).stack with _ | ⟨⟨d, q⟩, fs⟩
    · rw [hs] at hm; simp at hm
    · rw [hs] at hm hst
      rcases List.mem_cons.1 hm with he | he
      · simp only [Prod.mk.injEq] at he
        exact ⟨fs, by rw [he.1, he.2]⟩
      · exact absurd (below_build hst.2 he) (by rintro ⟨r, hr⟩; simp at hr)

theorem runExit_map (inst : Nat → Ptr) : ∀ h : List Nat, (runExit h inst).map (·.1) = h
  | [] => rfl
  | c :: cs => by simp [runExit, runExit_map _ cs]

theorem step_other {deps : Nat → List Nat} {s s' : State} {t u : Nat} (h : step deps s t = some s') (hu : u ≠ t) :
    s'.threads u = s.threads u := by
  simp only [Stxxl.Singleton.step] at h
  repeat' split at h
  all_goals first | (simp at h; done) | skip
  all_goals
    simp only [Option.some.injEq] at h
    rw [← h]
    simp [State.goto, State.ret, upd, hu]

theorem step_handlers {deps : Nat → List Nat} {s s' : State} {t : Nat} (h : step deps s t = some s') :
    s'.handlers = s.handlers ∨ ∃ (c : Nat) (fs : List (Nat × Pc)), (s.threads t).stack = (c, .register) :: fs ∧ s'.handlers = c :: s.handlers := by
  simp only [Stxxl.Singleton.step] at h
  repeat' split at h
  all_goals first | (simp at h; done) | skip
  all_goals
    simp only [Option.some.injEq] at h
    rw [← h]
    first
      | exact Or.inl rfl
      | (rename_i hs; exact Or.inr ⟨_, _, hs, rfl⟩)

/-- Everything a registered class asked for was registered before it. -/
def Ordered (deps : Nat → List Nat) (h : List Nat) : Prop :=
  ∀ (l1 : List Nat) (b : Nat) (l2 : List Nat), h = l1 ++ b :: l2 → ∀ a ∈ deps b, a ∈ l2

theorem single_inv {deps : Nat → List Nat} {t : Nat} : ∀ (n : Nat) (s s' : State) (g : Nat → Option (Nat × Pc)), Inv deps s g →
    (∀ u : Nat, u ≠ t → (s.threads u).stack = []) → Ordered deps s.handlers → exec deps s (List.replicate n t) = some s' →
    (∃ g', Inv deps s' g') ∧ Ordered deps s'.handlers
  | 0, s, s', g, i, _, ho, h => by
    simp only [List.replicate, exec, Option.some.injEq] at h
    exact h ▸ ⟨⟨g, i⟩, ho⟩
  | n + 1, s, s', g, i, hu, ho, h => by
    simp only [List.replicate, exec] at h
    rcases hst : step deps s t with _ | s1
    · rw [hst] at h; simp at h
    · rw [hst] at h
      obtain ⟨g1, i1⟩ := i.step hst
      refine single_inv n s1 s' g1 i1 (fun u h => by rw [step_other hst h]; exact hu u h) ?_ h
      rcases step_handlers hst with h1 | ⟨c, fs, h1, h2⟩
      · rw [h1]; exact ho
      · rw [h2]
        intro l1 b l2 he a ha
        cases l1 with
        | cons x l1 =>
          simp only [List.cons_append, List.cons.injEq] at he
          exact ho l1 b l2 he.2 a ha
        | nil =>
          simp only [List.nil_append, List.cons.injEq] at he
          obtain ⟨rfl, rfl⟩ := he
          have hst := i.stacks t
          rw [h1] at hst
          have hat := hst.1 a ha
          apply Classical.byContradiction
          intro hn
          obtain ⟨u, fs', hs⟩ := i.unregistered hat.1 hn
          by_cases hut : u = t
          · subst hut
            rw [h1] at hs
            simp only [List.cons.injEq, Prod.mk.injEq] at hs
            exact hat.2 hs.1.1.symm
          · rw [hu u hut] at hs; simp at hs

theorem runExit_view : ∀ (h : List Nat) (inst : Nat → Ptr) (b : Nat) (view : Nat → Ptr), (b, view) ∈ runExit h inst →
    ∃ l1 l2 : List Nat, h = l1 ++ b :: l2 ∧ ∀ a : Nat, a ∉ l1 → a ≠ b → view a = inst a
  | [], _, _, _, hm => by simp [runExit] at hm
  | c :: cs, inst, b, view, hm => by
    rcases List.mem_cons.1 hm with h | h
    · simp only [Prod.mk.injEq] at h
      obtain ⟨rfl, rfl⟩ := h
      exact ⟨[], cs, rfl, fun a _ ha => by simp [upd, ha]⟩
    · obtain ⟨l1, l2, h1, h2⟩ := runExit_view cs _ b view h
      refine ⟨c :: l1, l2, by rw [h1]; rfl, fun a ha hb => ?_⟩
      simp only [List.mem_cons, not_or] at ha
      rw [h2 a ha.2 hb]
      simp [upd, ha.1]

/-! ## Theorems -/

/-- In every schedule: the constructor of a class begins at most once, `made` lists the objects and each exists at most once, every call of
`get_instance` for a class, in whatever thread, returns the one object of that class, whose constructor has ended, and everything the
constructor asked for exists, completely constructed. -/
theorem C90_one_object_per_class (deps : Nat → List Nat) (scripts : Nat → List Nat) (ts : List Nat) (s : State)
    (h : exec deps (start scripts) ts = some s) :
    (∀ c : Nat, s.started.count c ≤ 1) ∧
    s.made.Nodup ∧
    (∀ (t c : Nat) (v : Ptr), (c, v) ∈ (s.threads t).results → ∃ k : Nat, v = .obj k ∧ s.made[k]? = some c) ∧
    (∀ (t u c : Nat) (v w : Ptr), (c, v) ∈ (s.threads t).results → (c, w) ∈ (s.threads u).results → v = w) ∧
    (∀ (c : Nat), c ∈ s.made → ∀ a ∈ deps c, a ∈ s.made) := by
  obtain ⟨g, i⟩ := exec_inv ts _ _ _ (start_inv deps scripts) h
  have hobj : ∀ c : Nat, s.inst c ≠ .null → ∃ k : Nat, s.inst c = .obj k := by
    intro c hc
    rcases hi : s.inst c with _ | k | _
    · exact absurd hi hc
    · exact ⟨k, rfl⟩
    · exact absurd hi (i.nobomb c)
  refine ⟨?_, ?_, ?_, ?_, ?_⟩
  · intro c
    have := i.cls c
    rcases hg : g c with _ | ⟨u, pc⟩
    · rw [hg] at this
      rcases this.2 with h1 | h1 <;> omega
    · rw [hg] at this
      cases pc <;> simp only [ClassOk] at this <;> first | omega | exact this.2.elim
  · refine List.pairwise_iff_getElem.2 ?_
    intro a b ha hb hab he
    have h1 := (i.made _ a).2 (List.getElem?_eq_getElem ha)
    have h2 := (i.made _ b).2 (List.getElem?_eq_getElem hb)
    rw [he, h2] at h1
    simp only [Ptr.obj.injEq] at h1
    omega
  · intro t c v hv
    obtain ⟨h1, h2⟩ := i.results t c v hv
    obtain ⟨k, hk⟩ := hobj c (h1 ▸ h2)
    exact ⟨k, h1.trans hk, (i.made c k).1 hk⟩
  · intro t u c v w hv hw
    rw [(i.results t c v hv).1, (i.results u c w hw).1]
  · intro c hc a ha
    obtain ⟨k, hk⟩ := List.mem_iff_getElem?.1 hc
    have h1 := (i.made c k).2 hk
    obtain ⟨l, hl⟩ := hobj a (i.depsOk c (by rw [h1]; simp) a ha).1
    exact List.mem_of_getElem? ((i.made a l).1 hl)

/-- If the constructors do not ask for each other in a circle, no schedule deadlocks: as long as a thread is not finished, some thread can
make a step. -/
theorem C90_no_deadlock (deps : Nat → List Nat) (hac : Acyclic deps) (scripts : Nat → List Nat) (ts : List Nat) (s : State)
    (h : exec deps (start scripts) ts = some s) (t : Nat) (ht : ¬ Finished s t) : ∃ (u : Nat) (s' : State), step deps s u = some s' := by
  obtain ⟨g, i⟩ := exec_inv ts _ _ _ (start_inv deps scripts) h
  obtain ⟨rank, hrank⟩ := hac
  -- a thread with something to do makes a step or waits for a mutex that is held
  have one : ∀ u : Nat, ¬ Finished s u → (∃ s', step deps s u = some s') ∨
      ∃ (c : Nat) (fs : List (Nat × Pc)), (s.threads u).stack = (c, .lock) :: fs ∧ s.mutex c ≠ none := by
    intro u hu
    simp only [Stxxl.Singleton.step]
    rcases hs : (s.threads u).stack with _ | ⟨⟨c, pc⟩, fs⟩
    · rcases hsc : (s.threads u).script with _ | ⟨c, cs⟩
      · exact absurd ⟨hs, hsc⟩ hu
      · exact Or.inl ⟨_, rfl⟩
    · cases pc with
      | check => left; simp only; split <;> exact ⟨_, rfl⟩
      | ret1 => exact Or.inl ⟨_, rfl⟩
      | lock =>
        by_cases hm : s.mutex c = none
        · left; simp only; rw [if_pos hm]; exact ⟨_, rfl⟩
        · exact Or.inr ⟨c, fs, rfl, hm⟩
      | check2 => left; simp only; split <;> exact ⟨_, rfl⟩
      | build rest => left; cases rest <;> exact ⟨_, rfl⟩
      | register => exact Or.inl ⟨_, rfl⟩
      | ret2 => exact Or.inl ⟨_, rfl⟩
  -- whoever holds a mutex leads to a thread that can go on
  have two : ∀ (n c : Nat), rank c < n → s.mutex c ≠ none → ∃ (u : Nat) (s' : State), Stxxl.Singleton.step deps s u = some s' := by
    intro n
    induction n with
    | zero => intro c hc; omega
    | succ n ih =>
      intro c hc hm
      have hcl := i.cls c
      rcases hg : g c with _ | ⟨u, pc⟩
      · rw [hg] at hcl; exact absurd hcl.1 hm
      · have hpc : locked pc = true := by
          rw [hg] at hcl
          cases pc <;> simp only [ClassOk] at hcl <;> first | rfl | exact hcl.2.elim
        have hmem := (i.frames u c pc hpc).2 hg
        have hnf : ¬ Finished s u := by
          intro hf
          rw [hf.1] at hmem
          simp at hmem
        rcases one u hnf with h1 | ⟨d, fs, h1, h2⟩
        · exact ⟨u, h1⟩
        · have hst := i.stacks u
          rw [h1] at hst hmem
          rcases List.mem_cons.1 hmem with he | he
          · simp only [Prod.mk.injEq] at he
            rw [he.2] at hpc
            simp [locked] at hpc
          · have := below_rank hrank hst.2 he
            exact ih d (by omega) h2
  rcases one t ht with h1 | ⟨c, _, _, h2⟩
  · exact ⟨t, h1⟩
  · exact two (rank c + 1) c (by omega) h2

/-- Once no thread is inside `get_instance`, the exit handlers destroy every object exactly once. -/
theorem C90_destroyed_exactly_once (deps : Nat → List Nat) (scripts : Nat → List Nat) (ts : List Nat) (s : State)
    (h : exec deps (start scripts) ts = some s) (hq : ∀ t : Nat, (s.threads t).stack = []) :
    ((runExit s.handlers s.inst).map (·.1)).Perm s.made := by
  obtain ⟨g, i⟩ := exec_inv ts _ _ _ (start_inv deps scripts) h
  have hnd := (C90_one_object_per_class deps scripts ts s h).2.1
  rw [runExit_map, List.perm_ext_iff_of_nodup i.hnodup hnd]
  intro c
  constructor
  · intro hc
    have h1 := i.handler_inst hc
    rcases hi : s.inst c with _ | k | _
    · exact absurd hi h1
    · exact List.mem_of_getElem? ((i.made c k).1 hi)
    · exact absurd hi (i.nobomb c)
  · intro hc
    apply Classical.byContradiction
    intro hn
    obtain ⟨k, hk⟩ := List.mem_iff_getElem?.1 hc
    obtain ⟨t, fs, hs⟩ := i.unregistered (by rw [(i.made c k).2 hk]; simp) hn
    rw [hq t] at hs
    simp at hs

/-- If one thread makes all the calls, then at exit the destructor of every object still finds everything its constructor asked for. -/
theorem C90_destroyed_before_what_it_uses (deps : Nat → List Nat) (scripts : Nat → List Nat) (t n : Nat) (s : State)
    (h : exec deps (start scripts) (List.replicate n t) = some s) (b : Nat) (view : Nat → Ptr) (hb : (b, view) ∈ runExit s.handlers s.inst)
    (a : Nat) (ha : a ∈ deps b) : ∃ k : Nat, view a = .obj k ∧ s.made[k]? = some a := by
  obtain ⟨⟨g, i⟩, ho⟩ := single_inv n _ _ _ (start_inv deps scripts) (fun _ _ => rfl) (fun l1 b l2 he => by simp [start] at he) h
  obtain ⟨l1, l2, h1, h2⟩ := runExit_view _ _ _ _ hb
  have hal := ho l1 b l2 h1 a ha
  have hnd := i.hnodup
  rw [h1] at hnd
  have hi := i.handler_inst (c := a) (by rw [h1]; simp [hal])
  have hv : view a = s.inst a := by
    refine h2 a ?_ ?_
    · intro h3
      exact (List.nodup_append.1 hnd).2.2 a h3 a (List.mem_cons_of_mem _ hal) rfl
    · rintro rfl
      exact (List.nodup_cons.1 (List.nodup_append.1 hnd).2.1).1 hal
  rw [hv]
  rcases hi' : s.inst a with _ | k | _
  · exact absurd hi' hi
  · exact ⟨k, rfl, (i.made a k).1 hi'⟩
  · exact absurd hi' (i.nobomb a)

/-! ## Non-vacuity and the limits -/

/-- As `disk_queues` asks for `stats`. -/
def demoDeps (c : Nat) : List Nat := if c = 1 then [0] else []

def demoScripts (t : Nat) : List Nat := if t = 0 then [0] else if t = 1 then [1] else []

def summary : Option State → Option (List Nat × List Nat × List (List (Nat × Ptr)))
  | none => none
  | some s => some (s.made, s.handlers, (List.range 2).map fun t => (s.threads t).results)

example : Acyclic demoDeps ∧
    summary (exec demoDeps (start demoScripts) (List.replicate 14 1 ++ List.replicate 3 0)) =
      some ([0, 1], [1, 0], [[(0, .obj 0)], [(1, .obj 1), (0, .obj 0)]]) := by
  refine ⟨⟨fun c => c, ?_⟩, by decide +kernel⟩
  intro c d hd
  simp only [demoDeps] at hd
  split at hd
  · simp only [List.mem_singleton] at hd; subst hd; rename_i h; subst h; decide
  · simp at hd

theorem wrong_order (s : State) (h : s.handlers = [0, 1]) : ∃ view : Nat → Ptr, (1, view) ∈ runExit s.handlers s.inst ∧ view 0 = .bomb := by
  rw [h]
  exact ⟨_, List.mem_cons_of_mem _ (List.mem_cons_self ..), by simp [upd]⟩

theorem exec_other {deps : Nat → List Nat} {u : Nat} : ∀ (ts : List Nat) (s s' : State), exec deps s ts = some s' → u ∉ ts →
    s'.threads u = s.threads u
  | [], s, s', h, _ => by
    simp only [exec, Option.some.injEq] at h
    rw [h]
  | t :: ts, s, s', h, hu => by
    simp only [List.mem_cons, not_or] at hu
    simp only [exec] at h
    rcases hst : step deps s t with _ | s1
    · rw [hst] at h; simp at h
    · rw [hst] at h
      rw [exec_other ts s1 s' h hu.2, step_other hst hu.1]

def wrongSchedule : List Nat := List.replicate 5 0 ++ List.replicate 10 1 ++ List.replicate 2 0

/-- With two threads the order of destruction can be wrong: between `instance = new …` and `register_exit_handler` of class 0 another thread
finds the instance, constructs class 1 with it and registers class 1 first. At exit class 0 is destroyed first, and the destructor of class 1
finds the bomb. -/
theorem C90_two_threads_wrong_order :
    ∃ (ts : List Nat) (s : State), exec demoDeps (start demoScripts) ts = some s ∧ (∀ t : Nat, Finished s t) ∧
      ∃ view : Nat → Ptr, (1, view) ∈ runExit s.handlers s.inst ∧ 0 ∈ demoDeps 1 ∧ view 0 = .bomb := by
  have hd : (exec demoDeps (start demoScripts) wrongSchedule).map (fun s => (s.handlers, (List.range 2).map fun t =>
      ((s.threads t).stack, (s.threads t).script))) = some ([0, 1], [([], []), ([], [])]) := by decide +kernel
  rcases he : exec demoDeps (start demoScripts) wrongSchedule with _ | s
  · rw [he] at hd; simp at hd
  · rw [he] at hd
    simp only [Option.map_some, Option.some.injEq, Prod.mk.injEq, List.range, List.range.loop, List.map_cons, List.map_nil, List.cons.injEq] at hd
    refine ⟨wrongSchedule, s, he, ?_, ?_⟩
    · intro t
      by_cases h0 : t = 0
      · subst h0; exact hd.2.1
      · by_cases h1 : t = 1
        · subst h1; exact hd.2.2.1
        · have := exec_other _ _ _ he (u := t) (by simp [wrongSchedule, h0, h1])
          simp [Finished, this, start, demoScripts, h0, h1]
    · obtain ⟨view, h1, h2⟩ := wrong_order s hd.1
      exact ⟨view, h1, by decide, h2⟩

/-- The calls of a circle: one thread, ten steps. -/
def circleDeps (c : Nat) : List Nat := if c = 0 then [1] else [0]

/-- Constructors that ask for each other deadlock already in one thread. -/
theorem C90_circle_deadlocks :
    ∃ (deps : Nat → List Nat) (n : Nat) (s : State), exec deps (start fun t => if t = 0 then [0] else []) (List.replicate n 0) = some s ∧
      ¬ Finished s 0 ∧ ∀ t : Nat, step deps s t = none := by
  have hd : (exec circleDeps (start fun t => if t = 0 then [0] else []) (List.replicate 10 0)).map (fun s =>
      ((s.threads 0).stack, s.mutex 0)) = some ([(0, .lock), (1, .build []), (0, .build [])], some 0) := by decide +kernel
  rcases he : exec circleDeps (start fun t => if t = 0 then [0] else []) (List.replicate 10 0) with _ | s
  · rw [he] at hd; simp at hd
  · rw [he] at hd
    simp only [Option.map_some, Option.some.injEq, Prod.mk.injEq] at hd
    refine ⟨circleDeps, 10, s, he, ?_, ?_⟩
    · intro h; rw [h.1] at hd; simp at hd
    · intro t
      by_cases h0 : t = 0
      · subst h0; simp [step, hd.1, hd.2]
      · have := exec_other _ _ _ he (u := t) (by simp [h0])
        simp [step, this, start, h0]

end Stxxl.Singleton
