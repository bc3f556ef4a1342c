import Verif.Request.Steps4

/-! # Progress: every internal step makes a measure smaller, and only what is finished stops -/

namespace Stxxl.Request

def sumTo : Nat → (Nat → Nat) → Nat
  | 0, _ => 0
  | n + 1, f => sumTo n f + f n

theorem sumTo_upd_ge {β : Type} (f : β → Nat) (g : Nat → β) (t : Nat) (v : β) :
    ∀ n, n ≤ t → sumTo n (fun i => f (upd g t v i)) = sumTo n (fun i => f (g i)) := by
  intro n
  induction n with
  | zero => intro _; rfl
  | succ n ih =>
    intro h
    simp only [sumTo]
    rw [ih (by omega), upd_apply, if_neg (by omega)]

theorem sumTo_upd {β : Type} (f : β → Nat) (g : Nat → β) (t : Nat) (v : β) :
    ∀ n, t < n → sumTo n (fun i => f (upd g t v i)) + f (g t) = sumTo n (fun i => f (g i)) + f v := by
  intro n
  induction n with
  | zero => intro h; omega
  | succ n ih =>
    intro h
    simp only [sumTo]
    by_cases e : t = n
    · subst e
      rw [sumTo_upd_ge f g t v t (Nat.le_refl _), upd_apply, if_pos rfl]
      omega
    · have := ih (by omega)
      rw [upd_apply, if_neg (by omega)]
      omega

/-- How many steps a thread may still take on its own. -/
def pW : Pc → Nat
  | .idle | .wIdle => 0
  | .serve _ => 12
  | .setDone _ _ => 11
  | .handler _ => 10
  | .nLock _ _ => 9
  | .iter _ _ l => 4 + 2 * l.length
  | .notify _ _ _ l => 5 + 2 * l.length
  | .delRef _ _ => 3
  | .nullFile _ _ => 2
  | .setR2D _ _ => 1
  | .wait _ => 2
  | .waitChk _ => 1
  | .poll _ => 2
  | .pollChk _ _ => 1
  | .cFile _ => 3
  | .cDeref _ => 2
  | .cQueue _ => 1
  | .aLock _ pre todo => 4 + 3 * pre.length + 9 * todo.length
  | .aPoll _ pre _ todo => 12 + 3 * pre.length + 9 * todo.length
  | .aChk _ pre _ todo _ => 11 + 3 * pre.length + 9 * todo.length
  | .aRoll _ _ _ _ rem => 1 + rem.length
  | .aWait _ rs => 3 + 3 * rs.length
  | .aSleep _ rs => 2 + 3 * rs.length
  | .aDel _ _ todo _ => 1 + 3 * todo.length
  | .aFPoll _ _ _ todo => 3 + 3 * todo.length
  | .aFChk _ _ _ todo _ => 2 + 3 * todo.length

def rW (q : Req) : Nat := (if q.queued then 40 else 0) + (if q.ph ≤ 4 then 2 * q.ws.length else 0)

def measure (n : Nat) (s : St) : Nat :=
  sumTo s.nr (fun r => rW (s.req r)) + sumTo n (fun t => pW (s.th t)) + (if s.ub = none then 1 else 0)

theorem insertW_len (x : Nat) (l : List Nat) : (insertW x l).length ≤ l.length + 1 := by
  unfold insertW
  split <;> simp

theorem pW_woken (x p) : pW (woken x p) ≤ pW p := by
  rcases woken_cases x p with h | ⟨rs, h, h'⟩
  · rw [h]; exact Nat.le_refl _
  · rw [h', h]; simp [pW]

theorem mlt_th {n : Nat} {s : St} {t : Nat} {p : Pc} {ns sw tr} (ht : t < n) (h : pW p < pW (s.th t)) :
    measure n { nr := s.nr, req := s.req, ns := ns, sw := sw, th := upd s.th t p, tr := tr, ub := s.ub } < measure n s := by
  have h1 := sumTo_upd pW s.th t p n ht
  simp only [measure]
  omega

theorem mlt_both {n : Nat} {s : St} {t r : Nat} {p : Pc} {q : Req} {ns sw tr} (ht : t < n) (hr : r < s.nr)
    (h : pW p + rW q < pW (s.th t) + rW (s.req r)) :
    measure n { nr := s.nr, req := upd s.req r q, ns := ns, sw := sw, th := upd s.th t p, tr := tr, ub := s.ub } <
      measure n s := by
  have h1 := sumTo_upd pW s.th t p n ht
  have h2 := sumTo_upd rW s.req r q s.nr hr
  simp only [measure]
  omega

theorem mlt_fail {n : Nat} {s : St} {u : Ub} (h : s.ub = none) :
    measure n { s with ub := some u } < measure n s := by
  simp [measure, h]

attribute [local irreducible] measure sumTo pW rW in
set_option maxHeartbeats 1600000 in
theorem measure_step {n nw spur s s' t a} (I : Inv n nw spur s) (h : StepA n spur s t a s') (ha : a.external = false) :
    measure n s' < measure n s := by
  obtain ⟨ht, hn, h⟩ := h
  have hrf := I.refs t
  have hp := pcPh I t
  have hq := queued_facts I
  have hi := insertW_len
  have hfl : ∀ x (l : List Nat), (l.filter (· ≠ x)).length ≤ l.length := fun x l => List.length_filter_le _ _
  unfold step at h
  split at h <;> (try split at h) <;> (try split at h) <;> first
  | (simp only [reduceCtorEq] at h; done)
  | (simp only [Option.some.injEq] at h; subst h)
  all_goals first
    | (simp [Act.external] at ha; done)
    | skip
  case h_13.isTrue =>
    rename_i r c x l heq hal
    simp only [measure, St.setTh, wake, hn]
    have e1 := sumTo_upd pW (upd s.th (s.sw x).owner (woken x (s.th (s.sw x).owner))) t (.iter r c l) n ht
    have e2 : sumTo n (fun i => pW (upd s.th (s.sw x).owner (woken x (s.th (s.sw x).owner)) i)) ≤
        sumTo n (fun i => pW (s.th i)) := by
      by_cases ho : (s.sw x).owner < n
      · have := sumTo_upd pW s.th (s.sw x).owner (woken x (s.th (s.sw x).owner)) n ho
        have := pW_woken x (s.th (s.sw x).owner)
        omega
      · rw [sumTo_upd_ge _ _ _ _ _ (by omega)]
        exact Nat.le_refl _
    have e3 : pW (upd s.th (s.sw x).owner (woken x (s.th (s.sw x).owner)) t) = pW (s.th t) := by
      rw [upd_apply]
      split
      · rename_i e; rw [← e, heq]; rfl
      · rfl
    rw [e3, heq] at e1
    have e4 : pW (.notify r c x l) = 5 + 2 * l.length := by simp [pW]
    have e5 : pW (.iter r c l) = 4 + 2 * l.length := by simp [pW]
    omega
  all_goals (simp [‹s.th t = _›, Pc.refs, or_imp, forall_and] at hrf)
  all_goals simp only [‹s.th t = _›, PcPh] at hp
  all_goals simp only [St.setTh, St.setReq, St.emit, St.kill, St.fail, St.setSw]
  all_goals first
    | with_reducible exact mlt_fail hn
    | (with_reducible refine mlt_th ht ?_; simp [‹s.th t = _›, pW]; done)
    | (with_reducible refine mlt_th ht ?_; simp [‹s.th t = _›, pW]; omega)
    | (with_reducible refine mlt_both ht (by first | exact hrf | exact hrf.2.1 | exact hrf.1 | grind) ?_; grind [pW, rW])

/-- No thread can take a step that is not a new call by a user. -/
def Quiet (n : Nat) (spur : Bool) (s : St) : Prop :=
  ∀ t a s', StepA n spur s t a s' → a.external = true

theorem quiet_go {n spur s t a s'} (hq : Quiet n spur s) (hu : s.ub = none) (ht : t < n) (ha : a.external = false) :
    step spur s t a ≠ some s' := fun h => by
  have := hq t a s' ⟨ht, hu, h⟩
  rw [ha] at this
  exact Bool.false_ne_true this

theorem th_lt {n nw spur s} (I : Inv n nw spur s) {t : Nat} (h1 : s.th t ≠ .idle) (h2 : s.th t ≠ .wIdle) : t < n := by
  by_contra hc
  rcases I.thr t (by omega) with h | h
  · exact h1 h
  · exact h2 h

theorem quiet_mtx {n nw spur s} (I : Inv n nw spur s) (hu : s.ub = none) (hq : Quiet n spur s) (r : Nat) :
    (s.req r).mtx = none := by
  cases hm : (s.req r).mtx with
  | none => rfl
  | some t =>
    exfalso
    have hl := (I.mtx t r).1 hm
    have ht : t < n := th_lt I (fun e => by rw [e] at hl; simp [Pc.lockOf] at hl)
      (fun e => by rw [e] at hl; simp [Pc.lockOf] at hl)
    have hg := fun s' => @quiet_go n spur s t .go s' hq hu ht rfl
    cases hp : s.th t <;> rw [hp] at hl <;> simp [Pc.lockOf] at hl
    case iter q c l => cases l <;> simp [step, hp] at hg <;> split at hg <;> simp at hg
    case notify q c x l => simp [step, hp] at hg; split at hg <;> simp at hg
    case aPoll => simp [step, hp] at hg
    case aChk => simp [step, hp] at hg; split at hg <;> (try split at hg) <;> simp at hg

theorem quiet_own {n nw spur s} (I : Inv n nw spur s) (hu : s.ub = none) (hq : Quiet n spur s) (t : Nat) :
    (s.th t).own = none := by
  cases ho : (s.th t).own with
  | none => rfl
  | some rp =>
    exfalso
    have ht : t < n := th_lt I (fun e => by rw [e] at ho; simp [Pc.own] at ho)
      (fun e => by rw [e] at ho; simp [Pc.own] at ho)
    have hg := fun s' => @quiet_go n spur s t .go s' hq hu ht rfl
    have hi := fun s' => @quiet_go n spur s t (.io false) s' hq hu ht rfl
    have hm := quiet_mtx I hu hq
    cases hp : s.th t <;> rw [hp] at ho <;> simp [Pc.own] at ho
    case serve => simp [step, hp] at hi; split at hi <;> simp at hi
    case iter q c l => cases l <;> simp [step, hp] at hg <;> split at hg <;> simp at hg
    case notify q c x l => simp [step, hp] at hg; split at hg <;> simp at hg
    case nLock => simp [step, hp, hm] at hg
    case delRef => simp [step, hp] at hg; split at hg <;> simp at hg
    case setR2D => simp [step, hp] at hg; split at hg <;> simp at hg
    all_goals simp [step, hp] at hg

theorem quiet_ph {n nw spur s} (I : Inv n nw spur s) (hu : s.ub = none) (hq : Quiet n spur s) (hw : 0 < nw)
    (hn : nw ≤ n) (r : Nat) (hr : r < s.nr) : (s.req r).ph = 9 := by
  have hb := (I.req r hr).bound
  by_contra hc
  have h0 : (s.req r).ph = 0 := by
    by_contra h0
    obtain ⟨t, -, ht⟩ := I.owner r hr (by omega) (by omega)
    rw [quiet_own I hu hq t] at ht
    simp at ht
  have h1 : (s.req r).queued = true := by rw [(I.req r hr).que, h0]; rfl
  have hw0 := (I.wrk 0).2 hw
  have ho := quiet_own I hu hq 0
  have hidle : s.th 0 = .wIdle := by
    cases hp : s.th 0 <;> rw [hp] at hw0 ho <;> simp [Pc.worker, Pc.canc, Pc.own] at hw0 ho
  exact quiet_go (s' := _) hq hu (by omega : 0 < n) (a := .take r) rfl (by simp [step, hidle, hr, h1]; rfl)

theorem quiet_th {n nw spur s} (I : Inv n nw spur s) (hu : s.ub = none) (hq : Quiet n spur s) (hw : 0 < nw)
    (hn : nw ≤ n) (t : Nat) : s.th t = .idle ∨ s.th t = .wIdle ∨ ∃ x, s.th t = .aSleep x [] := by
  by_cases ht : t < n
  · have hg := fun s' => @quiet_go n spur s t .go s' hq hu ht rfl
    have hm := quiet_mtx I hu hq
    have ho := quiet_own I hu hq t
    have hrf := I.refs t
    have hph := quiet_ph I hu hq hw hn
    cases hp : s.th t <;> rw [hp] at ho hrf <;> simp [Pc.own] at ho
    case idle => exact Or.inl rfl
    case wIdle => exact Or.inr (Or.inl rfl)
    case aSleep x rs =>
      cases rs with
      | nil => exact Or.inr (Or.inr ⟨x, rfl⟩)
      | cons r rs =>
        exfalso
        have hr : r < s.nr := hrf r (by simp [Pc.refs])
        have h1 := I.wake2 t r x (by rw [hp]; rfl) (by rw [hp]; simp [Pc.must]) (by rw [hph r hr]; omega)
        obtain ⟨t', r', c, l, -, ht'⟩ := I.sleep t x (r :: rs) hp h1
        have := quiet_own I hu hq t'
        rw [ht'] at this
        simp [Pc.own] at this
    case wait r =>
      exfalso
      have hr : r < s.nr := hrf r (by simp [Pc.refs])
      have h1 := (I.req r hr).st
      rw [hph r hr] at h1
      simp [stAt] at h1
      simp [step, hp, h1] at hg
    case aLock x pre todo => cases todo <;> simp [step, hp, hm] at hg
    case aRoll x pre r todo rem =>
      cases rem <;> simp [step, hp, hm] at hg
      split at hg <;> simp at hg
    case aDel x pre todo res => cases todo <;> simp [step, hp, hm] at hg
    case cFile => simp [step, hp] at hg; split at hg <;> simp at hg
    case cDeref => simp [step, hp] at hg; split at hg <;> simp at hg
    case cQueue => simp [step, hp] at hg; split at hg <;> simp at hg
    case aWait => simp [step, hp] at hg; split at hg <;> simp at hg
    case aChk => simp [step, hp] at hg; split at hg <;> (try split at hg) <;> simp at hg
    case aFChk => simp [step, hp] at hg; split at hg <;> simp at hg
    all_goals simp [step, hp] at hg
  · rcases I.thr t (by omega) with h | h
    · exact Or.inl h
    · exact Or.inr (Or.inl h)

end Stxxl.Request
