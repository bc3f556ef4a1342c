import Verif.Request.Steps2

namespace Stxxl.Request

/-- What is known about the life of the request a thread is completing. -/
def PcLife (s : St) : Pc → Prop
  | .serve r => hist r s.tr = lifeAt 1 (s.req r).err false
  | .setDone r c => hist r s.tr = lifeAt 2 (s.req r).err c ∧ (c = true → (s.req r).err = false)
  | .handler r => hist r s.tr = lifeAt 3 (s.req r).err false
  | .nLock r c => hist r s.tr = lifeAt 4 (s.req r).err c ∧ (c = true → (s.req r).err = false)
  | .iter r c _ => hist r s.tr = lifeAt 5 (s.req r).err c ∧ (c = true → (s.req r).err = false)
  | .notify r c _ _ => hist r s.tr = lifeAt 5 (s.req r).err c ∧ (c = true → (s.req r).err = false)
  | .delRef r c => hist r s.tr = lifeAt 6 (s.req r).err c ∧ (c = true → (s.req r).err = false)
  | .nullFile r c => hist r s.tr = lifeAt 7 (s.req r).err c ∧ (c = true → (s.req r).err = false)
  | .setR2D r c => hist r s.tr = lifeAt 8 (s.req r).err c ∧ (c = true → (s.req r).err = false)
  | .cQueue r => (s.req r).queued = true → hist r s.tr = [.submit] ∧ (s.req r).err = false ∧ (s.req r).ph = 0
  | _ => True

theorem queued_facts {n nw spur s} (I : Inv n nw spur s) : ∀ r, r < s.nr → (s.req r).queued = true →
    hist r s.tr = [.submit] ∧ (s.req r).err = false ∧ (s.req r).ph = 0 := by
  intro r hr hq
  have ho := I.req r hr
  have h0 : (s.req r).ph = 0 := by
    have := ho.que
    rw [hq] at this
    simpa using this.symm
  have hc := ho.life
  rw [h0] at hc
  refine ⟨by simpa [lifeAt] using hc, ?_, h0⟩
  rcases Bool.eq_false_or_eq_true (s.req r).err with he | he
  · have := ho.err he
    omega
  · exact he

theorem pcLife {n nw spur s} (I : Inv n nw spur s) (t : Nat) : PcLife s (s.th t) := by
  have h1 := I.canc t
  cases h : s.th t <;> simp_all [PcLife, Pc.own, Pc.canc]
  any_goals (rcases h1 with h1 | h1 <;> simp_all; done)
  · rename_i r
    intro hq
    have hr := I.refs t r (by rw [h]; simp [Pc.refs])
    exact queued_facts I r hr hq

theorem canc_step {n nw spur s s' t a} (I : Inv n nw spur s) (h : step spur s t a = some s') :
    ∀ t r p, (s'.th t).own = some (r, p) →
    (s'.th t).canc = some true ∧ hist r s'.tr = lifeAt p (s'.req r).err true ∧ (s'.req r).err = false ∨
    (s'.th t).canc = some false ∧ hist r s'.tr = lifeAt p (s'.req r).err false := by
  have hr := I.canc
  have hu := I.uniq
  have ho := I.owned
  have hl := pcLife I t
  have hp := pcPh I t
  have hq := queued_facts I
  have hof := fun t r p => @own_facts (s.th t) r p
  have hrf := I.refs
  step_cases h
  all_goals grind [Pc.own, Pc.canc, woken_own, woken_canc, hist_cons, Ev.about, lifeAt, PcLife, PcPh]

theorem fresh_step {n nw spur s s' t a} (I : Inv n nw spur s) (h : step spur s t a = some s') :
    ∀ r, s'.nr ≤ r → hist r s'.tr = [] ∧ (s'.req r).mtx = none ∧ (s'.req r).ws = [] := by
  have hr := I.fresh
  have hrf := I.refs t
  step_cases h
  all_goals (try simp [‹s.th t = _›, Pc.refs, or_imp, forall_and] at hrf)
  all_goals grind [hist_cons, Ev.about]

theorem reqOk_iff (q : Req) (h : List HEv) : ReqOk q h ↔
    q.st = stAt q.ph ∧ q.file = decide (q.ph ≤ 7) ∧ q.queued = decide (q.ph = 0) ∧ q.ph ≤ 9 ∧
    (q.err = true → 2 ≤ q.ph) ∧
    (h = lifeAt q.ph q.err false ∨ (h = lifeAt q.ph q.err true ∧ q.err = false ∧ 2 ≤ q.ph ∧ q.ph ≠ 3)) :=
  ⟨fun h => ⟨h.1, h.2, h.3, h.4, h.5, h.6⟩, fun h => ⟨h.1, h.2.1, h.2.2.1, h.2.2.2.1, h.2.2.2.2.1, h.2.2.2.2.2⟩⟩

theorem req_step {n nw spur s s' t a} (I : Inv n nw spur s) (h : step spur s t a = some s') :
    ∀ r, r < s'.nr → ReqOk (s'.req r) (hist r s'.tr) := by
  have hr := I.req
  have hl := pcLife I t
  have hp := pcPh I t
  have hq := queued_facts I
  have hf := I.fresh
  intro r
  have hrr := hr r
  rw [reqOk_iff] at hrr
  rw [reqOk_iff]
  clear hr
  step_cases h
  all_goals grind [hist_cons, Ev.about, lifeAt, PcLife, PcPh, stAt]

end Stxxl.Request
