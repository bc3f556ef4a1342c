import Verif.Request.Steps

namespace Stxxl.Request

theorem ws3_step {n nw spur s s' t a} (I : Inv n nw spur s) (h : step spur s t a = some s') :
   (∃ t rs, .anyThrow t rs ∈ s'.tr) ∨
    ∀ r x, x ∈ (s'.req r).ws → (s'.sw x).alive = true ∧ r ∈ (s'.th (s'.sw x).owner).may := by
  have hr := I.ws3
  have h1 := I.sw1
  have h2 := I.sw2
  have hrt := h1 t
  have hl := I.wsLt
  rcases hr with ⟨t0, rs0, hr⟩ | hr
  · left
    refine ⟨t0, rs0, ?_⟩
    step_cases h
    all_goals simp [hr]
  · step_cases h
    all_goals grind [Pc.swOf, Pc.may, woken_swOf, woken_may, insertW]

theorem onDone_step {n nw spur s s' t a} (I : Inv n nw spur s) (h : step spur s t a = some s') :
   ∀ t x, (s'.th t).swOf = some x → (s'.sw x).isOn = true → ∃ r ∈ (s'.th t).refs, 3 ≤ (s'.req r).ph := by
  have hr := I.onDone
  have h1 := I.sw1
  have h2 := I.ws1
  have hrt := pcPh I t
  have hrf := I.refs
  have hk : ∀ x pre r todo rem, s.th t = .aRoll x pre r todo rem → 3 ≤ (s.req r).ph := fun x pre r todo rem e => by
    have := I.pcOk t
    rw [e] at this
    exact this
  have hq : ∀ r, r < s.nr → (s.req r).queued = true → (s.req r).ph = 0 := fun r h e => by
    have := (I.req r h).que
    rw [e] at this
    simpa using this.symm
  step_cases h
  all_goals grind [Pc.swOf, Pc.refs, woken_swOf, woken_refs, PcPh]

theorem sleep_step {n nw spur s s' t a} (I : Inv n nw spur s) (ht : t < n) (h : step spur s t a = some s') :
   ∀ t x rs, s'.th t = .aSleep x rs → (s'.sw x).isOn = true → ∃ t' r c l, t' < n ∧ s'.th t' = .notify r c x l := by
  have hr := I.sleep
  have h1 : ∀ t x rs, s.th t = .aSleep x rs → x < s.ns ∧ (s.sw x).owner = t :=
    fun t x rs e => have h := I.sw1 t x (by rw [e]; rfl); ⟨h.1, h.2.2⟩
  intro t1 x rs
  by_cases hi : ∃ r c l, s.th t = .iter r c (x :: l) ∧ (s.sw x).alive = true
  · obtain ⟨r, c, l, e, ha⟩ := hi
    intro _ _
    refine ⟨t, r, c, l, ht, ?_⟩
    cases a <;> simp [step, e, ha] at h
    subst h
    simp [St.setTh, upd]
  · step_cases h
    all_goals grind [woken_notify, woken_sleep]

theorem thr_step {n nw spur s s' t a} (I : Inv n nw spur s) (ht : t < n) (h : step spur s t a = some s') :
   ∀ t, n ≤ t → s'.th t = .idle ∨ s'.th t = .wIdle := by
  have hr := I.thr
  step_cases h
  all_goals grind [woken_idle, woken_wIdle]

theorem wrk_step {n nw spur s s' t a} (I : Inv n nw spur s) (h : step spur s t a = some s') :
   ∀ t, (s'.th t).worker = true ↔ t < nw := by
  have hr := I.wrk
  have hrt := hr t
  step_cases h
  all_goals grind [Pc.worker, Pc.canc, woken_worker]

end Stxxl.Request
