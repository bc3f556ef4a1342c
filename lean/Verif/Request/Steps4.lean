import Verif.Request.Steps3
import Mathlib.Tactic.ByContra
import Mathlib.Tactic.SplitIfs

namespace Stxxl.Request

theorem ph_mono {n nw spur s s' t a} (I : Inv n nw spur s) (h : step spur s t a = some s') :
    ∀ r, r < s.nr → (s.req r).ph ≤ (s'.req r).ph := by
  have hp := pcPh I t
  have hq := queued_facts I
  step_cases h
  all_goals grind [PcPh]

theorem err_mono {n nw spur s s' t a} (I : Inv n nw spur s) (h : step spur s t a = some s') :
    ∀ r, r < s.nr → 3 ≤ (s.req r).ph → (s'.req r).err = (s.req r).err := by
  have hp := pcPh I t
  have hq := queued_facts I
  step_cases h
  all_goals grind [PcPh]

theorem ph_lock {n nw spur s s' t a} (I : Inv n nw spur s) (h : step spur s t a = some s') :
    ∀ r t', t' ≠ t → (s.req r).mtx = some t' → (s.req r).ph ≤ 4 → (s'.req r).ph ≤ 4 := by
  have hp := pcPh I t
  have hf := I.fresh
  step_cases h
  all_goals grind [PcPh]

theorem tr_mono {n nw spur s s' t a} (_ : Inv n nw spur s) (h : step spur s t a = some s') :
    ∃ evs, s'.tr = evs ++ s.tr ∧ ∀ t' q, t' ≠ t → Ev.pollCall t' q ∉ evs := by
  step_cases h
  all_goals first
    | exact ⟨[], rfl, fun _ _ _ h => List.not_mem_nil h⟩
    | exact ⟨[_], rfl, fun _ _ h1 h => by rw [List.mem_singleton] at h; injection h with h2 h3; exact h1 h2⟩
    | exact ⟨[_], rfl, fun _ _ _ h => by rw [List.mem_singleton] at h; injection h⟩

theorem th_other {n nw spur s s' t a} (_ : Inv n nw spur s) (h : step spur s t a = some s') :
    ∀ t', t' ≠ t → s'.th t' = s.th t' ∨ ∃ r c x l rs, s.th t = .notify r c x l ∧ s.th t' = .aSleep x rs ∧
      s'.th t' = .aDel x [] rs none := by
  intro t' ht'
  step_cases h
  all_goals first
    | exact Or.inl rfl
    | exact Or.inl trivial
    | exact Or.inl (if_neg ht')
    | (simp [ht']; done)
    | rw [if_neg ht']
  rename_i r c x l heq _
  by_cases e : t' = (s.sw x).owner
  · rw [if_pos e, ← e]
    rcases woken_cases x (s.th t') with hw | ⟨rs, h1, h2⟩
    · exact Or.inl hw
    · exact Or.inr ⟨r, c, x, l, rs, heq, h1, h2⟩
  · rw [if_neg e]; exact Or.inl rfl

theorem pcOk_frame {n nw spur s s' t} {p : Pc} (hth : s.th t = p) (I : Inv n nw spur s)
    (h1 : ∀ r, r < s.nr → (s.req r).ph ≤ (s'.req r).ph)
    (h2 : ∀ r, r < s.nr → 3 ≤ (s.req r).ph → (s'.req r).err = (s.req r).err)
    (h3 : ∀ r, (s.req r).mtx = some t → (s.req r).ph ≤ 4 → (s'.req r).ph ≤ 4)
    (h4 : ∃ evs, s'.tr = evs ++ s.tr ∧ ∀ q, Ev.pollCall t q ∉ evs) : PcOk spur s' t p := by
  have hp := I.pcOk t
  have hrf := I.refs t
  have hm := I.mtx t
  rw [hth] at hp hrf hm
  obtain ⟨evs, h4, h5⟩ := h4
  cases p
  case aDel x pre todo res => cases res <;> grind [PcOk, Pc.refs]
  case poll r =>
    obtain ⟨post, pre, e, hn⟩ := hp
    exact ⟨evs ++ post, pre, by rw [h4, e, List.append_assoc], by simp; exact fun q => ⟨h5 q, hn q⟩⟩
  case pollChk r q =>
    refine ⟨fun e => Nat.le_trans (hp.1 e) (h1 r (hrf r (by simp [Pc.refs]))), fun e => ?_⟩
    obtain ⟨post, pre, e, hn, hh⟩ := hp.2 e
    exact ⟨evs ++ post, pre, by rw [h4, e, List.append_assoc], by simp; exact fun q => ⟨h5 q, hn q⟩, hh⟩
  all_goals simp [Pc.refs, or_imp, forall_and] at hrf
  all_goals simp [Pc.lockOf] at hm
  all_goals grind [PcOk]

theorem hist_short {n nw spur s} (I : Inv n nw spur s) {r : Nat} (hr : r < s.nr) (h : (s.req r).st.fin = false) :
    .handler ∉ hist r s.tr ∧ .refRel ∉ hist r s.tr := by
  have h1 := (I.req r hr).st
  have h2 := (I.req r hr).life
  have h3 : (s.req r).ph ≤ 2 := by
    by_contra hc
    rw [h1] at h
    unfold stAt at h
    split at h
    · omega
    · split at h <;> simp [RSt.fin] at h
  generalize (s.req r).ph = p at *
  generalize (s.req r).err = e at *
  have : p = 0 ∨ p = 1 ∨ p = 2 := by omega
  rcases this with rfl | rfl | rfl <;> rcases h2 with h2 | h2 <;> simp [h2, lifeAt]

theorem fin_ph {n nw spur s} (I : Inv n nw spur s) {r : Nat} (hr : r < s.nr) :
    ((s.req r).st.fin = true → 3 ≤ (s.req r).ph) ∧ ((s.req r).st.fin = false → (s.req r).ph ≤ 2) := by
  have h1 := (I.req r hr).st
  rw [h1]
  unfold stAt
  split
  · simp [RSt.fin]; omega
  · split <;> simp [RSt.fin] <;> omega

theorem hist_suffix (r : Nat) (post pre : List Ev) (e : HEv) (h : e ∈ hist r pre) : e ∈ hist r (post ++ pre) := by
  unfold hist at *
  rw [List.filterMap_append, List.reverse_append]
  exact List.mem_append_left _ h

theorem pcOk_self {n nw spur s s' t a} (I : Inv n nw spur s) (h : step spur s t a = some s') :
    PcOk spur s' t (s'.th t) := by
  have hp := I.pcOk t
  have hrf := I.refs t
  have hd := I.onDone t
  have hf := fun r hr => @fin_ph n nw spur s I r hr
  have hu := I.owned
  have hm := I.mtx
  step_cases h
  all_goals simp only [‹s.th t = _›] at hp hd
  all_goals (simp [‹s.th t = _›, Pc.refs, or_imp, forall_and] at hrf)
  all_goals (try simp only [reduceIte])
  all_goals try (simp only [PcOk]; done)
  all_goals try (simp only [PcOk, upd_apply] at hp ⊢; grind [Pc.refs, Pc.swOf])
  · exact ⟨[], s.tr, rfl, fun _ h => List.not_mem_nil h⟩
  · rename_i r _ hst
    have h1 := (I.req r hrf).st
    rw [hst] at h1
    simp only [PcOk]
    by_contra hc
    unfold stAt at h1
    split at h1
    · simp at h1
    · split at h1
      · simp at h1
      · omega
  · rename_i r hq
    refine ⟨(fin_ph I hrf).1, fun e => ?_⟩
    obtain ⟨post, pre, e1, e2⟩ := hp
    obtain ⟨h1, h2⟩ := hist_short I hrf e
    refine ⟨post, pre, e1, e2, fun h => h1 ?_, fun h => h2 ?_⟩
    · rw [e1, List.append_cons]; exact hist_suffix _ _ _ _ h
    · rw [e1, List.append_cons]; exact hist_suffix _ _ _ _ h

theorem pcOk_step {n nw spur s s' t a} (I : Inv n nw spur s) (h : step spur s t a = some s') :
    ∀ t, PcOk spur s' t (s'.th t) := by
  intro t'
  by_cases e : t' = t
  · subst e; exact pcOk_self I h
  obtain ⟨evs, h4, h5⟩ := tr_mono I h
  rcases th_other I h t' e with h1 | ⟨r, c, x, l, rs, h1, h2, h3⟩
  · rw [h1]
    exact pcOk_frame rfl I (ph_mono I h) (err_mono I h) (fun r => ph_lock I h r t' e) ⟨evs, h4, fun q => h5 t' q e⟩
  · rw [h3]
    intro _
    obtain ⟨hx, hon⟩ := I.notifySub t r c x l h1
    obtain ⟨r', hr', hd⟩ := I.onDone t' x (by rw [h2]; rfl) hon
    refine ⟨r', by rw [h2] at hr'; exact hr', ?_⟩
    exact Nat.le_trans hd (ph_mono I h r' (I.refs t' r' hr'))

theorem life_end {n nw spur s} (I : Inv n nw spur s) {r : Nat} (hr : r < s.nr) (h : 9 ≤ (s.req r).ph) :
    hist r s.tr = servedLife (s.req r).err ∨ (s.req r).err = false ∧ hist r s.tr = cancelledLife := by
  have h2 := (I.req r hr).life
  have h3 := (I.req r hr).bound
  have h4 : (s.req r).ph = 9 := by omega
  rw [h4] at h2
  simpa [lifeAt, servedLife, cancelledLife, and_comm] using h2

theorem finished_of {n nw spur s} (I : Inv n nw spur s) {r : Nat} (hr : r < s.nr) (h : 3 ≤ (s.req r).ph)
    (he : (s.req r).err = false) : Finished r s.tr := by
  have h2 := (I.req r hr).life
  rw [he] at h2
  unfold Finished lifeAt at *
  rcases h2 with h2 | ⟨h2, -⟩
  · left
    rw [h2, if_neg (by omega), if_neg (by omega)]
    simp only [Bool.false_eq_true, if_false]
    split
    · simp
    · split <;> simp
  · right
    rw [h2, if_neg (by omega), if_neg (by omega)]
    simp only [if_true]
    split <;> simp

theorem failed_of {n nw spur s} (I : Inv n nw spur s) {r : Nat} (hr : r < s.nr)
    (he : (s.req r).err = true) : Failed r s.tr := by
  have h2 := (I.req r hr).life
  have h := (I.req r hr).err he
  rw [he] at h2
  unfold Failed lifeAt at *
  rcases h2 with h2 | ⟨h2, h3, -⟩
  · rw [h2, if_neg (by omega), if_neg (by omega)]
    simp only [Bool.false_eq_true, if_false]
    split
    · simp
    · split <;> simp
  · simp at h3

theorem began_of {n nw spur s} (I : Inv n nw spur s) {r : Nat} (hr : r < s.nr) (h : 1 ≤ (s.req r).ph) :
    .taken ∈ hist r s.tr ∨ .cancelled ∈ hist r s.tr := by
  have h2 := (I.req r hr).life
  rcases h2 with h2 | ⟨h2, h3, h4, h5⟩
  · left
    rw [h2]
    unfold lifeAt
    simp only [Bool.false_eq_true, if_false, if_true]
    split_ifs <;> first | omega | simp
  · right
    rw [h2]
    unfold lifeAt
    simp only [Bool.false_eq_true, if_false, if_true]
    split_ifs <;> first | omega | simp

theorem traceOk_cons {spur : Bool} {tr : List Ev} {e : Ev} (h : TraceOk spur tr) (he : Good spur tr e) :
    TraceOk spur (e :: tr) := by
  intro post e' pre hs
  cases post with
  | nil => simp at hs; obtain ⟨rfl, rfl⟩ := hs; exact he
  | cons p post =>
    simp at hs
    exact h post e' pre hs.2

theorem trOk_step {n nw spur s s' t a} (I : Inv n nw spur s) (h : step spur s t a = some s') :
    TraceOk spur s'.tr := by
  have hp := I.pcOk t
  have hrf := I.refs t
  have hl := pcLife I t
  have hph := pcPh I t
  step_cases h
  all_goals try exact I.trOk
  all_goals (apply traceOk_cons I.trOk)
  all_goals try exact trivial
  all_goals simp only [‹s.th t = _›] at hp hl
  all_goals (simp [‹s.th t = _›, Pc.refs, or_imp, forall_and] at hrf)
  · rename_i r c _ hc
    subst hc
    have := hl.1
    simpa [Good, lifeAt, cancelledLife] using this
  · rename_i r _
    rcases life_end I hrf hp with h | ⟨h1, h2⟩
    · left; simpa using h
    · right; exact ⟨by rw [h1]; rfl, h2⟩
  · exact failed_of I hrf ‹_›
  · rename_i r q _ he
    rcases Bool.eq_false_or_eq_true q.fin with hq | hq
    · rw [hq]; exact finished_of I hrf (hp.1 hq) (by simpa using he)
    · rw [hq]; exact hp.2 hq
  · rename_i r _ hf
    have h1 := (I.req r hrf).file
    refine began_of I hrf ?_
    by_contra hc
    rw [decide_eq_true (by omega)] at h1
    exact hf h1
  · rename_i r _ hf
    have h1 := (I.req r hrf).que
    refine began_of I hrf ?_
    by_contra hc
    rw [decide_eq_true (by omega)] at h1
    exact hf h1
  · exact ⟨_, by simp, failed_of I hrf.2.1 ‹_›⟩
  · exact ⟨_, by simp, failed_of I hrf.2.1 ‹_›⟩
  · rename_i r _ _ he
    exact ⟨r, by simp, finished_of I hrf.2.1 hp (by simpa using he)⟩
  · rename_i x pre res _
    cases res with
    | none =>
      show spur = true
      by_contra hc
      obtain ⟨r, hr, -⟩ := hp (by simpa using hc)
      simp at hr
    | some k =>
      obtain ⟨r, h1, h2, h3⟩ := hp
      rw [List.append_nil] at h1
      exact ⟨r, h1, finished_of I (hrf r (List.mem_of_getElem? h1)) h2 h3⟩
  · exact ⟨_, by simp, failed_of I hrf.2.1 ‹_›⟩

theorem ubNull_step {n nw spur s s' t a} (I : Inv n nw spur s) (hn : s.ub = none) (h : step spur s t a = some s') :
    ∀ t r, s'.ub = some (.nullFile t r) → s'.th t = .cDeref r ∧ 8 ≤ (s'.req r).ph := by
  have hr := I.req
  have hrf := I.refs t
  have hp := pcPh I t
  have hf : ∀ r, r < s.nr → (s.req r).file = false → 8 ≤ (s.req r).ph := by
    intro r h1 h2
    have := (I.req r h1).file
    rw [h2] at this
    simp at this
    omega
  step_cases h
  all_goals (simp [‹s.th t = _›, Pc.refs, or_imp, forall_and] at hrf)
  all_goals grind [PcPh]

theorem ubDead_step {n nw spur s s' t a} (I : Inv n nw spur s) (hn : s.ub = none) (h : step spur s t a = some s') :
    ∀ x, s'.ub = some (.deadSwitch x) → ∃ t rs, .anyThrow t rs ∈ s'.tr := by
  have hp := pcPh I t
  have hw := I.ws3
  rcases hw with hw | hw
  · intro _ _
    obtain ⟨t1, rs, hw⟩ := hw
    obtain ⟨evs, h4, -⟩ := tr_mono I h
    exact ⟨t1, rs, by rw [h4]; exact List.mem_append_right _ hw⟩
  · step_cases h
    all_goals grind [PcPh]

theorem inv_step {n nw spur s s' t a} (I : Inv n nw spur s) (h : StepA n spur s t a s') : Inv n nw spur s' where
  refs := refs_step I h.2.2
  owned := owned_step I h.2.2
  canc := canc_step I h.2.2
  uniq := uniq_step I h.2.2
  owner := owner_step I h.1 h.2.2
  req := req_step I h.2.2
  fresh := fresh_step I h.2.2
  mtx := mtx_step I h.2.2
  sw1 := sw1_step I h.2.2
  sw2 := sw2_step I h.2.2
  wsLt := wsLt_step I h.2.2
  ws1 := ws1_step I h.2.2
  ws2 := ws2_step I h.2.2
  ws3 := ws3_step I h.2.2
  todoSub := todoSub_step I h.2.2
  notifySub := notifySub_step I h.2.2
  wake1 := wake1_step I h.2.2
  wake2 := wake2_step I h.2.2
  onDone := onDone_step I h.2.2
  sleep := sleep_step I h.1 h.2.2
  pcOk := pcOk_step I h.2.2
  thr := thr_step I h.1 h.2.2
  wrk := wrk_step I h.2.2
  trOk := trOk_step I h.2.2
  ubNull := ubNull_step I h.2.1 h.2.2
  ubDead := ubDead_step I h.2.1 h.2.2

theorem inv_init (n nw : Nat) (spur : Bool) : Inv n nw spur (init nw) := by
  have hth : ∀ t, (init nw).th t = .wIdle ∨ (init nw).th t = .idle := by
    intro t; show (if t < nw then Pc.wIdle else .idle) = _ ∨ (if t < nw then Pc.wIdle else .idle) = _
    split <;> simp
  have h0 : (init nw).nr = 0 := rfl
  have h1 : (init nw).req = fun _ => {} := rfl
  have h2 : (init nw).sw = fun _ => {} := rfl
  have h3 : (init nw).tr = [] := rfl
  have h4 : (init nw).ub = none := rfl
  constructor
  case wrk =>
    intro t
    show (if t < nw then Pc.wIdle else .idle).worker = true ↔ _
    split <;> simp [Pc.worker, Pc.canc, *]
  case trOk => intro post e pre h; rw [h3] at h; simp at h
  case pcOk => intro t; rcases hth t with h | h <;> rw [h] <;> trivial
  case fresh => intro r _; rw [h3, h1]; exact ⟨rfl, rfl, rfl⟩
  all_goals grind [Pc.refs, Pc.own, Pc.lockOf, Pc.swOf, Pc.todo, Pc.must]

theorem reach_inv {n nw spur s} (h : Reach n nw spur s) : Inv n nw spur s := by
  induction h with
  | init => exact inv_init n nw spur
  | step _ hs ih => exact inv_step ih hs

end Stxxl.Request
