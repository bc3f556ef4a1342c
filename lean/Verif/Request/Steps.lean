import Verif.Request.Inv

/-! # Every step keeps the invariant: the fields one by one -/

namespace Stxxl.Request

theorem upd_apply {β : Type} (f : Nat → β) (k : Nat) (v : β) (i : Nat) : upd f k v i = if i = k then v else f i := rfl

theorem woken_cases (x : Nat) (p : Pc) : woken x p = p ∨ ∃ rs, p = .aSleep x rs ∧ woken x p = .aDel x [] rs none := by
  unfold woken
  split
  · split
    · rename_i e; subst e; exact Or.inr ⟨_, rfl, rfl⟩
    · exact Or.inl rfl
  · exact Or.inl rfl

theorem woken_own (x p) : (woken x p).own = p.own := by
  rcases woken_cases x p with h | ⟨rs, h, h'⟩
  · rw [h]
  · rw [h', h]; rfl
theorem woken_canc (x p) : (woken x p).canc = p.canc := by
  rcases woken_cases x p with h | ⟨rs, h, h'⟩
  · rw [h]
  · rw [h', h]; rfl
theorem woken_lockOf (x p) : (woken x p).lockOf = p.lockOf := by
  rcases woken_cases x p with h | ⟨rs, h, h'⟩
  · rw [h]
  · rw [h', h]; rfl
theorem woken_swOf (x p) : (woken x p).swOf = p.swOf := by
  rcases woken_cases x p with h | ⟨rs, h, h'⟩
  · rw [h]
  · rw [h', h]; rfl
theorem woken_refs (x p) : (woken x p).refs = p.refs := by
  rcases woken_cases x p with h | ⟨rs, h, h'⟩
  · rw [h]
  · rw [h', h]; rfl
theorem woken_may (x p) : (woken x p).may = p.may := by
  rcases woken_cases x p with h | ⟨rs, h, h'⟩
  · rw [h]
  · rw [h', h]; rfl
theorem woken_todo (x p) : (woken x p).todo = p.todo := by
  rcases woken_cases x p with h | ⟨rs, h, h'⟩
  · rw [h]
  · rw [h', h]; rfl
theorem woken_worker (x p) : (woken x p).worker = p.worker := by
  rcases woken_cases x p with h | ⟨rs, h, h'⟩
  · rw [h]
  · rw [h', h]; rfl
theorem woken_must (x p r) (hr : r ∈ (woken x p).must) : r ∈ p.must := by
  rcases woken_cases x p with h | ⟨rs, h, h'⟩
  · rw [h] at hr; exact hr
  · rw [h'] at hr; simp [Pc.must] at hr
theorem woken_notify (x p r c y l) : woken x p = .notify r c y l ↔ p = .notify r c y l := by
  rcases woken_cases x p with h | ⟨rs, h, h'⟩
  · rw [h]
  · rw [h', h]; simp
theorem woken_sleep (x p y rs) (hw : woken x p = .aSleep y rs) : p = .aSleep y rs ∧ y ≠ x := by
  unfold woken at hw
  split at hw
  · split at hw
    · simp at hw
    · rename_i e; exact ⟨hw, by injection hw with h1 h2; rw [← h1]; exact e⟩
  · rename_i h; exact absurd hw (h _ _)
theorem woken_idle (x p) : woken x p = .idle ↔ p = .idle := by
  rcases woken_cases x p with h | ⟨rs, h, h'⟩
  · rw [h]
  · rw [h', h]; simp
theorem woken_wIdle (x p) : woken x p = .wIdle ↔ p = .wIdle := by
  rcases woken_cases x p with h | ⟨rs, h, h'⟩
  · rw [h]
  · rw [h', h]; simp

theorem hist_cons (r : Nat) (e : Ev) (tr : List Ev) : hist r (e :: tr) = hist r tr ++ (Ev.about r e).toList := by
  unfold hist
  rw [List.filterMap_cons]
  cases Ev.about r e <;> simp

theorem own_facts {p : Pc} {r k : Nat} (h : p.own = some (r, k)) : r ∈ p.refs ∧ 1 ≤ k ∧ k ≤ 8 := by
  cases p <;> simp_all [Pc.own, Pc.refs] <;> omega

theorem lock_facts {p : Pc} {r : Nat} (h : p.lockOf = some r) : r ∈ p.refs := by
  cases p <;> simp_all [Pc.lockOf, Pc.refs]

theorem todo_facts {p : Pc} {r : Nat} {l} (h : p.todo = some (r, l)) :
    r ∈ p.refs ∧ p.own = some (r, 5) ∧ p.lockOf = some r := by
  cases p <;> simp_all [Pc.todo, Pc.refs, Pc.own, Pc.lockOf]

theorem must_refs {p : Pc} {r : Nat} (h : r ∈ p.must) : r ∈ p.refs := by
  cases p <;> simp_all [Pc.must, Pc.refs]

macro "step_cases" h:ident : tactic => `(tactic| (
  unfold step at $h:ident
  split at $h:ident <;> (try split at $h:ident) <;> (try split at $h:ident) <;>
  first
  | (simp only [reduceCtorEq] at $h:ident; done)
  | (simp only [Option.some.injEq] at $h:ident; subst $h:ident)
  all_goals simp only [St.setTh, St.setReq, St.emit, St.kill, St.fail, St.setSw, wake, upd_apply]))

theorem refs_step {n nw spur s s' t a} (I : Inv n nw spur s) (h : step spur s t a = some s') :
   ∀ t r, r ∈ (s'.th t).refs → r < s'.nr := by
  have hr := I.refs
  have hrt := hr t
  step_cases h
  all_goals grind [Pc.refs, woken_refs]

theorem mtx_step {n nw spur s s' t a} (I : Inv n nw spur s) (h : step spur s t a = some s') :
   ∀ t r, (s'.req r).mtx = some t ↔ (s'.th t).lockOf = some r := by
  have hr := I.mtx
  have hrt := hr t
  have hf := I.fresh
  have hrf := I.refs t
  step_cases h
  all_goals grind [Pc.lockOf, Pc.refs, woken_lockOf]

theorem owned_step {n nw spur s s' t a} (I : Inv n nw spur s) (h : step spur s t a = some s') :
   ∀ t r p, (s'.th t).own = some (r, p) → (s'.req r).ph = p := by
  have hr := I.owned
  have hrt := hr t
  have hu := I.uniq t
  have hrf := I.refs
  have hq := fun r h => (I.req r h).que
  have ho := fun t r p => @own_facts (s.th t) r p
  step_cases h
  all_goals grind [Pc.own, Pc.refs, woken_own, woken_refs]

theorem uniq_step {n nw spur s s' t a} (I : Inv n nw spur s) (h : step spur s t a = some s') :
   ∀ t t' r p p', (s'.th t).own = some (r, p) → (s'.th t').own = some (r, p') → t = t' := by
  have hr := I.owned
  have hrt := hr t
  have hu := I.uniq
  have hrf := I.refs
  have hq := fun r h => (I.req r h).que
  have ho := fun t r p => @own_facts (s.th t) r p
  step_cases h
  all_goals grind [Pc.own, Pc.refs, woken_own, woken_refs]

theorem owner_step {n nw spur s s' t a} (I : Inv n nw spur s) (ht : t < n) (h : step spur s t a = some s') :
   ∀ r, r < s'.nr → 1 ≤ (s'.req r).ph → (s'.req r).ph ≤ 8 → ∃ t, t < n ∧ (s'.th t).own = some (r, (s'.req r).ph) := by
  have hr := I.owner
  have ho := I.owned t
  step_cases h
  all_goals grind [Pc.own, woken_own]

theorem sw1_step {n nw spur s s' t a} (I : Inv n nw spur s) (h : step spur s t a = some s') :
   ∀ t x, (s'.th t).swOf = some x → x < s'.ns ∧ (s'.sw x).alive = true ∧ (s'.sw x).owner = t := by
  have hr := I.sw1
  have hrt := hr t
  step_cases h
  all_goals grind [Pc.swOf, woken_swOf]

theorem sw2_step {n nw spur s s' t a} (I : Inv n nw spur s) (h : step spur s t a = some s') :
   ∀ x, (s'.sw x).alive = true → x < s'.ns ∧ (s'.th (s'.sw x).owner).swOf = some x := by
  have hr := I.sw1 t
  have h2 := I.sw2
  step_cases h
  all_goals grind [Pc.swOf, woken_swOf]

theorem wsLt_step {n nw spur s s' t a} (I : Inv n nw spur s) (h : step spur s t a = some s') :
   ∀ r x, x ∈ (s'.req r).ws → x < s'.ns := by
  have hr := I.sw1 t
  have h2 := I.wsLt
  step_cases h
  all_goals grind [Pc.swOf, insertW]

theorem ws1_step {n nw spur s s' t a} (I : Inv n nw spur s) (h : step spur s t a = some s') :
   ∀ t r x, (s'.th t).swOf = some x → x ∈ (s'.req r).ws → r ∈ (s'.th t).refs := by
  have h1 := I.sw1
  have hr := I.ws1
  have hrt := I.ws1 t
  have h2 := I.wsLt
  step_cases h
  all_goals grind [Pc.swOf, Pc.refs, woken_swOf, woken_refs, insertW]

theorem ws2_step {n nw spur s s' t a} (I : Inv n nw spur s) (h : step spur s t a = some s') :
   ∀ t r x, (s'.th t).swOf = some x → r ∈ (s'.th t).must → x ∈ (s'.req r).ws := by
  have h1 := I.sw1
  have hr := I.ws2
  have hrt := I.ws2 t
  have hm := I.refs
  have hmr := fun t r => @must_refs (s.th t) r
  step_cases h
  all_goals grind [Pc.swOf, Pc.must, woken_swOf, woken_must, insertW]

theorem todo_mtx {n nw spur s} (I : Inv n nw spur s) : ∀ t r l, (s.th t).todo = some (r, l) →
    (s.req r).mtx = some t ∧ r < s.nr ∧ (s.req r).ph = 5 := fun t r l h =>
  ⟨(I.mtx t r).2 (todo_facts h).2.2, I.refs t r (todo_facts h).1, I.owned t r 5 (todo_facts h).2.1⟩

theorem notify_mtx {n nw spur s} (I : Inv n nw spur s) : ∀ t r c x l, s.th t = .notify r c x l →
    (s.req r).mtx = some t ∧ r < s.nr ∧ (s.req r).ph = 5 := fun t r c x l h =>
  todo_mtx I t r l (by rw [h]; rfl)

/-- What is known about the request a thread is completing. -/
def PcPh (s : St) (t : Nat) : Pc → Prop
  | .serve r => (s.req r).ph = 1
  | .setDone r _ => (s.req r).ph = 2
  | .handler r => (s.req r).ph = 3
  | .nLock r _ => (s.req r).ph = 4
  | .iter r _ l => (s.req r).ph = 5 ∧ (s.req r).mtx = some t ∧ ∀ x ∈ l, x ∈ (s.req r).ws
  | .notify r _ x l => (s.req r).ph = 5 ∧ (s.req r).mtx = some t ∧ ∀ y ∈ x :: l, y ∈ (s.req r).ws
  | .delRef r _ => (s.req r).ph = 6
  | .nullFile r _ => (s.req r).ph = 7
  | .setR2D r _ => (s.req r).ph = 8
  | .cQueue r => r < s.nr
  | .aPoll _ _ r _ => (s.req r).mtx = some t
  | .aChk _ _ r _ _ => (s.req r).mtx = some t
  | _ => True

theorem pcPh {n nw spur s} (I : Inv n nw spur s) (t : Nat) : PcPh s t (s.th t) := by
  have h1 := I.owned t
  have h2 := I.mtx t
  have h3 := I.todoSub t
  have h4 := I.notifySub t
  have h5 := I.refs t
  cases h : s.th t <;> simp_all [PcPh, Pc.own, Pc.todo, Pc.lockOf, Pc.refs]
  rename_i c _ _
  cases c <;> simp_all

theorem todoSub_step {n nw spur s s' t a} (I : Inv n nw spur s) (h : step spur s t a = some s') :
   ∀ t r l, (s'.th t).todo = some (r, l) → ∀ x ∈ l, x ∈ (s'.req r).ws := by
  have hr := I.todoSub
  have hrt := I.todoSub t
  have hm := todo_mtx I
  have hrf := I.refs t
  step_cases h
  all_goals grind [Pc.todo, Pc.refs, woken_todo, insertW]

theorem notifySub_step {n nw spur s s' t a} (I : Inv n nw spur s) (h : step spur s t a = some s') :
   ∀ t r c x l, s'.th t = .notify r c x l → x ∈ (s'.req r).ws ∧ (s'.sw x).isOn = true := by
  have hr := I.notifySub
  have hrt := pcPh I t
  have hm := notify_mtx I
  have hl := I.wsLt
  step_cases h
  all_goals grind [PcPh, woken_notify, insertW]

theorem wake1_step {n nw spur s s' t a} (I : Inv n nw spur s) (h : step spur s t a = some s') :
   ∀ t r x t' l, (s'.th t).swOf = some x → r ∈ (s'.th t).must → (s'.th t').todo = some (r, l) →
    x ∈ l ∨ (s'.sw x).isOn = true := by
  have hr := I.wake1
  have h1 := I.sw1
  have h2 := I.ws2
  have hrt := pcPh I t
  have ho := todo_mtx I
  step_cases h
  all_goals grind [Pc.todo, Pc.swOf, Pc.must, woken_must, woken_swOf, woken_todo, PcPh]

theorem wake2_step {n nw spur s s' t a} (I : Inv n nw spur s) (h : step spur s t a = some s') :
   ∀ t r x, (s'.th t).swOf = some x → r ∈ (s'.th t).must → 6 ≤ (s'.req r).ph → (s'.sw x).isOn = true := by
  have hr := I.wake2
  have h1 := I.sw1
  have h2 : ∀ r c, s.th t = .iter r c [] → ∀ t' x, (s.th t').swOf = some x → r ∈ (s.th t').must →
      (s.sw x).isOn = true := fun r c e t' x hs hm =>
    (I.wake1 t' r x t [] hs hm (by rw [e]; rfl)).resolve_left (by simp)
  have hrt := pcPh I t
  have hp := I.pcOk t
  step_cases h
  all_goals grind [Pc.todo, Pc.swOf, Pc.must, woken_must, woken_swOf, PcOk, PcPh]
end Stxxl.Request
