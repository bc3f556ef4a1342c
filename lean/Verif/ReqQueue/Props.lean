import Verif.ReqQueue.Progress

/-!
# C40: the disk request queue

The statements speak about the logs of a run: `pushed` (requests in the order in which `add_request` put them into the
queues), `served` (in order of completion), `cancelled` (those for which `cancel_request` succeeded), and `q` (still waiting).
-/

namespace Stxxl.ReqQueue

/-- The request the worker is working on now. -/
def St.inService (s : St) : List Req :=
  match s.wpc with
  | .serve r => [r]
  | _ => []

theorem inService_eq (s : St) : s.inService = inServ s.wpc := by
  unfold St.inService inServ; cases s.wpc <;> rfl

theorem filter_perm {l a b c : List Req} (p : Req → Bool) (h1 : l.filter p = a) (h2 : l.filter (fun x => !p x) = b)
    (hc : a ++ b = c) : l.Perm c := by
  subst h1 h2 hc
  exact (List.filter_append_perm p l).symm

/-- Exactly once, never both: in every reachable state of every schedule, the submitted requests are all different, and they
are exactly the served ones, the one in service, the cancelled ones and the waiting ones, each in one of these places once. -/
theorem C40_each_request_in_exactly_one_place {n : Nat} {s : St} (h : Reach n s) :
    s.pushed.Nodup ∧ s.pushed.Perm (s.served ++ s.inService ++ s.cancelled ++ s.q true ++ s.q false) := by
  have I := reach_inv h
  refine ⟨I.nodup, ?_⟩
  rw [inService_eq]
  have e : s.served ++ inServ s.wpc = s.popped := rfl
  rw [e]
  have h1 : s.pushed.Perm (s.pushed.filter (fun r => decide (r ∈ s.cancelled)) ++ s.pushed.filter (fun r => !decide (r ∈ s.cancelled))) :=
    (List.filter_append_perm _ _).symm
  have h2 : (s.pushed.filter (fun r => decide (r ∈ s.cancelled))).Perm s.cancelled := by
    apply (List.perm_ext_iff_of_nodup (I.nodup.filter _) I.canNodup).mpr
    intro a; simp; exact I.canSub a
  have h3 : (s.pushed.filter (fun r => !decide (r ∈ s.cancelled))).Perm
      ((s.popped.filter (fun r => decide (r.isWrite = true)) ++ s.q true) ++
       (s.popped.filter (fun r => decide (r.isWrite = false)) ++ s.q false)) := by
    rw [← I.fifo true, ← I.fifo false]
    refine (List.filter_append_perm (fun r => decide (r.isWrite = true)) _).symm.trans ?_
    rw [List.filter_filter, List.filter_filter]
    apply List.Perm.of_eq
    congr 1 <;> apply List.filter_congr <;> intro x _ <;> cases x.isWrite <;> simp
  have h4 : (s.popped.filter (fun r => decide (r.isWrite = true)) ++ s.popped.filter (fun r => decide (r.isWrite = false))).Perm s.popped := by
    refine List.Perm.trans (List.Perm.of_eq ?_) (List.filter_append_perm (fun r => decide (r.isWrite = true)) s.popped)
    congr 1; apply List.filter_congr; intro x _; cases x.isWrite <;> simp
  refine h1.trans ((h2.append h3).trans ?_)
  rw [List.perm_iff_count]
  intro a
  have := List.perm_iff_count.mp h4 a
  simp only [List.count_append] at this ⊢
  omega

/-- First come, first served among the requests of one kind: the submitted writes that were not cancelled are, in order of
submission, the writes taken by the worker followed by those waiting; and the same for reads. -/
theorem C40_fifo_within_reads_and_writes {n : Nat} {s : St} (h : Reach n s) (k : Bool) :
    s.pushed.filter (fun r => decide (r.isWrite = k ∧ r ∉ s.cancelled))
      = (s.served ++ s.inService).filter (fun r => decide (r.isWrite = k)) ++ s.q k := by
  rw [inService_eq]; exact (reach_inv h).fifo k

theorem chainOk_get {p : Option Obs} {l : List Obs} (h : chainOk p l) {i : Nat} {r : Req}
    (hi : l[i]? = some (.pop r)) (hr : r.isWrite = false) :
    (i = 0 ∧ p = some (.empty true)) ∨ ∃ j, i = j + 1 ∧ l[j]? = some (.empty true) := by
  induction l generalizing p i with
  | nil => simp at hi
  | cons o l ih =>
    cases i with
    | zero => simp at hi; exact .inl ⟨rfl, h.1 r hi hr⟩
    | succ i =>
      simp at hi
      rcases ih h.2 hi with ⟨rfl, h'⟩ | ⟨j, rfl, h'⟩
      · right; exact ⟨0, rfl, by simpa using h'⟩
      · right; exact ⟨j + 1, rfl, by simpa using h'⟩

/-- Writes have priority: the worker takes a read only right after it has found the write queue empty, with no other look at
a queue in between. -/
theorem C40_write_priority {n : Nat} {s : St} (h : Reach n s) {i : Nat} {r : Req}
    (hi : s.obs[i]? = some (.pop r)) (hr : r.isWrite = false) :
    ∃ j, i = j + 1 ∧ s.obs[j]? = some (.empty true) := by
  rcases chainOk_get (reach_inv h).chain hi hr with ⟨_, h'⟩ | h'
  · cases h'
  · exact h'

/-- Nothing is forgotten while the queue lives: from every reachable state without active calls, the worker alone, whatever
it was doing, serves everything that was submitted and not cancelled, and then sleeps. (The worker is deterministic, so this
is what it does when it is scheduled.) -/
theorem C40_worker_serves_everything {n : Nat} {s : St} (h : Reach n s) (hi : ∀ u ∈ s.users, u = .idle)
    (hd : s.dtor = .no) :
    ∃ t, WRun s t ∧ t.q true = [] ∧ t.q false = [] ∧ t.pushed = s.pushed ∧ t.cancelled = s.cancelled ∧
      t.pushed.Perm (t.served ++ t.cancelled) ∧ t.wpc = .top ∧ wstep t = none := by
  -- at `top`
  have top : ∀ m (s : St), Reach n s → (∀ u ∈ s.users, u = .idle) → s.dtor = .no → s.wpc = .top → qlen s = m →
      ∃ t, WRun s t ∧ t.wpc = .top ∧ qlen t = 0 := by
    intro m
    induction m with
    | zero => intro s _ _ _ hw hm; exact ⟨s, .refl s, hw, hm⟩
    | succ m ih =>
      intro s hr hi hd hw hm
      obtain ⟨t, hrun, ht, hl⟩ := round hr hi (.inl hd) hw (by omega)
      obtain ⟨f1, f2, _, _⟩ := hrun.frame
      have I := reach_inv (hrun.reach hr)
      have hts := I.dts.mp (f2.trans hd)
      have h1 : WRun s { t with wpc := .top } :=
        hrun.trans (.step (by unfold wstep; rw [ht]; dsimp only; rw [if_neg (by rw [hts]; simp)]) (.refl _))
      obtain ⟨u, hu, hu2, hu3⟩ := ih { t with wpc := .top } (h1.reach hr) (by rw [show ({ t with wpc := .top } : St).users = t.users from rfl, f1]; exact hi)
        (f2.trans hd) rfl (by unfold qlen at hl hm ⊢; dsimp only; omega)
      exact ⟨u, h1.trans hu, hu2, hu3⟩
  have I := reach_inv h
  have hts := I.dts.mp hd
  have chk : ∀ s : St, Reach n s → (∀ u ∈ s.users, u = .idle) → s.dtor = .no → s.wpc = .chk →
      ∃ t, WRun s t ∧ t.wpc = .top ∧ qlen t = 0 := by
    intro s hr hi hd hw
    have hts := (reach_inv hr).dts.mp hd
    have h1 : WRun s { s with wpc := .top } :=
      .step (by unfold wstep; rw [hw]; dsimp only; rw [if_neg (by rw [hts]; simp)]) (.refl _)
    obtain ⟨u, hu, hu2, hu3⟩ := top _ { s with wpc := .top } (h1.reach hr) hi hd rfl rfl
    exact ⟨u, h1.trans hu, hu2, hu3⟩
  have via : ∀ {s t : St}, wstep s = some t → t.wpc = .chk → Reach n s → (∀ u ∈ s.users, u = .idle) → s.dtor = .no →
      ∃ t, WRun s t ∧ t.wpc = .top ∧ qlen t = 0 := by
    intro s t hs ht hr hi hd
    obtain ⟨f1, f2, _, _⟩ := wstep_frame hs
    obtain ⟨u, hu, hu2, hu3⟩ := chk t (hr.step (.worker _ _ hs)) (f1 ▸ hi) (f2.trans hd) ht
    exact ⟨u, .step hs hu, hu2, hu3⟩
  have any : ∃ t, WRun s t ∧ t.wpc = .top ∧ qlen t = 0 := by
    cases hw : s.wpc with
    | top => exact top _ s h hi hd hw rfl
    | look =>
      cases hqp : s.q s.phase with
      | nil =>
        have h1 : wstep s = some { s with wpc := .back, obs := s.obs ++ [.empty s.phase] } := by
          unfold wstep; rw [hw]; dsimp only; rw [if_pos (own_none I hi _), hqp]
        obtain ⟨u, hu, hu2, hu3⟩ := via (s := { s with wpc := .back, obs := s.obs ++ [.empty s.phase] }) rfl rfl
          (h.step (.worker _ _ h1)) hi hd
        exact ⟨u, .step h1 hu, hu2, hu3⟩
      | cons r rest =>
        have h1 : wstep s = some { s with q := upd s.q s.phase rest, wpc := .serve r, obs := s.obs ++ [.pop r], phase := true } := by
          unfold wstep; rw [hw]; dsimp only; rw [if_pos (own_none I hi _), hqp]
        obtain ⟨u, hu, hu2, hu3⟩ := via (s := { s with q := upd s.q s.phase rest, wpc := .serve r, obs := s.obs ++ [.pop r], phase := true }) rfl rfl
          (h.step (.worker _ _ h1)) hi hd
        exact ⟨u, .step h1 hu, hu2, hu3⟩
    | serve r =>
      exact via (t := { s with wpc := .chk, served := s.served ++ [r] }) (by unfold wstep; rw [hw]) rfl h hi hd
    | back =>
      exact via (t := { s with sem := s.sem + 1, wpc := .chk, phase := !s.phase }) (by unfold wstep; rw [hw]) rfl h hi hd
    | chk => exact chk s h hi hd hw
    | chkDec => exact absurd hd (I.wterm (by simp [hw]))
    | chkInc => exact absurd hd (I.wterm (by simp [hw]))
    | leave => exact absurd hd (I.wterm (by simp [hw]))
    | gone => exact absurd hd (I.wterm (by simp [hw]))
  obtain ⟨t, hrun, ht, hq⟩ := any
  obtain ⟨f1, f2, f3, f4⟩ := hrun.frame
  have hrt := hrun.reach h
  have hq1 : t.q true = [] := List.length_eq_zero_iff.mp (by unfold qlen at hq; omega)
  have hq2 : t.q false = [] := List.length_eq_zero_iff.mp (by unfold qlen at hq; omega)
  refine ⟨t, hrun, hq1, hq2, f3, f4, ?_, ht, ?_⟩
  · have := (C40_each_request_in_exactly_one_place hrt).2
    rw [hq1, hq2, inService_eq, ht] at this
    simpa [inServ] using this
  · have := sem_idle (reach_inv hrt) (f1 ▸ hi)
    rw [ht, f2, hd, hq] at this
    simp only [tok, dtok] at this
    unfold wstep; rw [ht]; dsimp only; rw [if_neg (by omega)]

/-! ## Shutting down -/

/-- When the destructor has returned, at most one submitted request was neither served nor cancelled. -/
theorem C40_shutdown_loses_at_most_one {n : Nat} {s : St} (h : Reach n s) (hd : s.dtor = .joined) :
    s.pushed.length ≤ s.served.length + s.cancelled.length + 1 := by
  have I := reach_inv h
  have hw := I.djoin hd
  have := (C40_each_request_in_exactly_one_place h).2.length_eq
  rw [inService_eq, hw] at this
  have hl := I.lost (.inr hw)
  simp [inServ] at this
  omega

/-- The worker leaves with nothing waiting if the destructor's `sem++` came before the worker's last `m_sem--`. -/
theorem C40_shutdown_complete_when_signal_first {n : Nat} {s t : St} (h : Reach n s) (hw : s.wpc = .chkDec)
    (hp : s.dtor = .posted) (hs : wstep s = some t) (ht : t.wpc = .leave) :
    t.q true = [] ∧ t.q false = [] ∧ t.pushed.Perm (t.served ++ t.cancelled) := by
  have I := reach_inv h
  have hi := I.didle (by simp [hp])
  have hsem := sem_idle I hi
  rw [hw, hp] at hsem
  simp only [tok, dtok] at hsem
  have hrt := h.step (.worker _ _ hs)
  have hs0 := hs
  unfold wstep at hs
  rw [hw] at hs
  dsimp only at hs
  split at hs <;> simp only [Option.some.injEq, reduceCtorEq] at hs
  have hz : s.sem - 1 = 0 := by
    subst hs
    dsimp only at ht
    split at ht
    · assumption
    · cases ht
  have hq : qlen s = 0 := by omega
  have hqt : t.q = s.q := by subst hs; rfl
  have hq1 : t.q true = [] := by rw [hqt]; exact List.length_eq_zero_iff.mp (by unfold qlen at hq; omega)
  have hq2 : t.q false = [] := by rw [hqt]; exact List.length_eq_zero_iff.mp (by unfold qlen at hq; omega)
  refine ⟨hq1, hq2, ?_⟩
  have := (C40_each_request_in_exactly_one_place hrt).2
  rw [hq1, hq2, inService_eq, ht] at this
  simpa [inServ] using this

/-- The destructor returns: once it has done its `sem++`, the worker alone reaches its end. -/
theorem C40_shutdown_terminates {n : Nat} {s : St} (h : Reach n s) (hp : s.dtor = .posted) :
    ∃ t, WRun s t ∧ t.wpc = .gone := by
  have hiOf : ∀ s : St, Reach n s → s.dtor = .posted → ∀ u ∈ s.users, u = .idle :=
    fun s h hp => (reach_inv h).didle (by simp [hp])
  have tsOf : ∀ s : St, Reach n s → s.dtor = .posted → s.wpc ≠ .gone → s.ts = .terminating := by
    intro s h hp hg
    have I := reach_inv h
    have h1 : s.ts ≠ .running := fun h => by have := I.dts.mpr h; rw [hp] at this; cases this
    have h2 : s.ts ≠ .terminated := fun h => hg (I.dterm h)
    have h3 : s.ts ≠ .notRunning := fun h => by have := I.dnr h; rw [hp] at this; cases this
    cases h : s.ts <;> simp_all
  have leave : ∀ s : St, s.wpc = .leave → ∃ t, WRun s t ∧ t.wpc = .gone := fun s hw =>
    ⟨{ s with ts := .terminated, wpc := .gone }, .step (by unfold wstep; rw [hw]) (.refl _), rfl⟩
  -- from the termination test: leave, or back to `top`, by induction on the number of waiting requests
  have main : ∀ m (s : St), Reach n s → s.dtor = .posted → (s.wpc = .chkDec ∨ s.wpc = .chkInc ∨ s.wpc = .top) → qlen s = m →
      ∃ t, WRun s t ∧ t.wpc = .gone := by
    intro m
    induction m using Nat.strongRecOn with
    | ind m ih =>
      intro s hr hp hw hm
      -- at `top`
      have top : ∀ s : St, Reach n s → s.dtor = .posted → s.wpc = .top → qlen s = m → ∃ t, WRun s t ∧ t.wpc = .gone := by
        intro s hr hp hw hm
        have hi := hiOf s hr hp
        have hts := tsOf s hr hp (by simp [hw])
        by_cases hz : m = 0
        · -- nothing waits: the worker takes the destructor's unit, finds nothing, puts it back, and leaves
          have I := reach_inv hr
          have hs := sem_idle I hi
          rw [hw, hp] at hs; simp only [tok, dtok] at hs
          have hqp : s.q s.phase = [] := by
            apply List.length_eq_zero_iff.mp
            unfold qlen at hm
            cases s.phase <;> omega
          refine ⟨{ s with sem := 0, wpc := .gone, obs := s.obs ++ [.empty s.phase], phase := !s.phase, ts := .terminated },
            .step (t := { s with sem := 0, wpc := .look }) ?_ (.step
            (t := { s with sem := 0, wpc := .back, obs := s.obs ++ [.empty s.phase] }) ?_ (.step
            (t := { s with sem := 1, wpc := .chk, obs := s.obs ++ [.empty s.phase], phase := !s.phase }) ?_ (.step
            (t := { s with sem := 1, wpc := .chkDec, obs := s.obs ++ [.empty s.phase], phase := !s.phase }) ?_ (.step
            (t := { s with sem := 0, wpc := .leave, obs := s.obs ++ [.empty s.phase], phase := !s.phase }) ?_ (.step ?_ (.refl _)))))), rfl⟩
          · unfold wstep; rw [hw]; dsimp only; rw [if_pos (by omega), show s.sem - 1 = 0 by omega]
          · unfold wstep; dsimp only; rw [if_pos (own_none I hi _), hqp]
          · unfold wstep; rfl
          · unfold wstep; dsimp only; rw [if_pos hts]
          · unfold wstep; rfl
          · unfold wstep; rfl
        · obtain ⟨t, hrun, ht, hl⟩ := round hr hi (.inr hp) hw (by omega)
          obtain ⟨f1, f2, _, _⟩ := hrun.frame
          have hrt := hrun.reach hr
          have htt := tsOf t hrt (f2.trans hp) (by simp [ht])
          have h1 : WRun s { t with wpc := .chkDec } :=
            hrun.trans (.step (by unfold wstep; rw [ht]; dsimp only; rw [if_pos htt]) (.refl _))
          obtain ⟨u, hu, hu2⟩ := ih (qlen t) (by omega) { t with wpc := .chkDec } (h1.reach hr) (f2.trans hp) (.inl rfl) rfl
          exact ⟨u, h1.trans hu, hu2⟩
      have inc : ∀ s : St, Reach n s → s.dtor = .posted → s.wpc = .chkInc → qlen s = m → ∃ t, WRun s t ∧ t.wpc = .gone := by
        intro s hr hp hw hm
        have h1 : wstep s = some { s with sem := s.sem + 1, wpc := .top } := by unfold wstep; rw [hw]
        obtain ⟨u, hu, hu2⟩ := top { s with sem := s.sem + 1, wpc := .top } (hr.step (.worker _ _ h1)) hp rfl hm
        exact ⟨u, .step h1 hu, hu2⟩
      rcases hw with hw | hw | hw
      · have hi := hiOf s hr hp
        have hs := sem_idle (reach_inv hr) hi
        rw [hw, hp] at hs; simp only [tok, dtok] at hs
        have h1 : wstep s = some { s with sem := s.sem - 1, wpc := if s.sem - 1 = 0 then .leave else .chkInc } := by
          unfold wstep; rw [hw]; dsimp only; rw [if_pos (by omega)]
        by_cases hz : s.sem - 1 = 0
        · rw [if_pos hz] at h1
          obtain ⟨u, hu, hu2⟩ := leave { s with sem := s.sem - 1, wpc := .leave } rfl
          exact ⟨u, .step h1 hu, hu2⟩
        · rw [if_neg hz] at h1
          obtain ⟨u, hu, hu2⟩ := inc { s with sem := s.sem - 1, wpc := .chkInc } (hr.step (.worker _ _ h1)) hp rfl hm
          exact ⟨u, .step h1 hu, hu2⟩
      · exact inc s hr hp hw hm
      · exact top s hr hp hw hm
  have I := reach_inv h
  have hi := hiOf s h hp
  have chk : ∀ s : St, Reach n s → s.dtor = .posted → s.wpc = .chk → ∃ t, WRun s t ∧ t.wpc = .gone := by
    intro s hr hp hw
    have hts := tsOf s hr hp (by simp [hw])
    have h1 : wstep s = some { s with wpc := .chkDec } := by unfold wstep; rw [hw]; dsimp only; rw [if_pos hts]
    obtain ⟨u, hu, hu2⟩ := main _ { s with wpc := .chkDec } (hr.step (.worker _ _ h1)) hp (.inl rfl) rfl
    exact ⟨u, .step h1 hu, hu2⟩
  have via : ∀ {s t : St}, wstep s = some t → t.wpc = .chk → Reach n s → s.dtor = .posted → ∃ t, WRun s t ∧ t.wpc = .gone := by
    intro s t hs ht hr hp
    obtain ⟨f1, f2, _, _⟩ := wstep_frame hs
    obtain ⟨u, hu, hu2⟩ := chk t (hr.step (.worker _ _ hs)) (f2.trans hp) ht
    exact ⟨u, .step hs hu, hu2⟩
  cases hw : s.wpc with
  | top => exact main _ s h hp (.inr (.inr hw)) rfl
  | look =>
    cases hqp : s.q s.phase with
    | nil =>
      have h1 : wstep s = some { s with wpc := .back, obs := s.obs ++ [.empty s.phase] } := by
        unfold wstep; rw [hw]; dsimp only; rw [if_pos (own_none I hi _), hqp]
      obtain ⟨u, hu, hu2⟩ := via (s := { s with wpc := .back, obs := s.obs ++ [.empty s.phase] }) rfl rfl (h.step (.worker _ _ h1)) hp
      exact ⟨u, .step h1 hu, hu2⟩
    | cons r rest =>
      have h1 : wstep s = some { s with q := upd s.q s.phase rest, wpc := .serve r, obs := s.obs ++ [.pop r], phase := true } := by
        unfold wstep; rw [hw]; dsimp only; rw [if_pos (own_none I hi _), hqp]
      obtain ⟨u, hu, hu2⟩ := via (s := { s with q := upd s.q s.phase rest, wpc := .serve r, obs := s.obs ++ [.pop r], phase := true }) rfl rfl
        (h.step (.worker _ _ h1)) hp
      exact ⟨u, .step h1 hu, hu2⟩
  | serve r => exact via (t := { s with wpc := .chk, served := s.served ++ [r] }) (by unfold wstep; rw [hw]) rfl h hp
  | back => exact via (t := { s with sem := s.sem + 1, wpc := .chk, phase := !s.phase }) (by unfold wstep; rw [hw]) rfl h hp
  | chk => exact chk s h hp hw
  | chkDec => exact main _ s h hp (.inl hw) rfl
  | chkInc => exact main _ s h hp (.inr (.inl hw)) rfl
  | leave => exact leave s hw
  | gone => exact ⟨s, .refl s, hw⟩

/-! ## Two runs that go wrong -/

/-- One action of a schedule: begin `add`, begin `cancel`, a step of a user, of the worker, begin the destructor, a step of
the destructor. -/
inductive Act where
  | add (i : Nat) (r : Req)
  | cancel (i : Nat) (r : Req)
  | u (i : Nat)
  | w
  | stop
  | d

instance (s : St) (r : Req) : Decidable (Fresh s r) := by unfold Fresh; infer_instance

def act (s : St) : Act → Option St
  | .add i r =>
    if s.users[i]? = some .idle ∧ s.ts = .running ∧ Fresh s r then some { s with users := s.users.set i (.addLook r) } else none
  | .cancel i r =>
    if s.users[i]? = some .idle ∧ s.ts = .running then some { s with users := s.users.set i (.canFind r) } else none
  | .u i => ustep s i
  | .w => wstep s
  | .stop => if (∀ u ∈ s.users, u = .idle) ∧ s.dtor = .no then some { s with ts := .terminating, dtor := .set } else none
  | .d => dstep s

def runActs (s : St) : List Act → Option St
  | [] => some s
  | a :: as => (act s a).bind (fun t => runActs t as)

theorem act_step {s t : St} {a : Act} (h : act s a = some t) : Step s t := by
  cases a with
  | add i r =>
    simp only [act] at h; split at h <;> simp only [Option.some.injEq, reduceCtorEq] at h
    rename_i hc; subst h; exact .add s i r hc.1 hc.2.1 hc.2.2
  | cancel i r =>
    simp only [act] at h; split at h <;> simp only [Option.some.injEq, reduceCtorEq] at h
    rename_i hc; subst h; exact .cancel s i r hc.1 hc.2
  | u i => exact .user _ _ i h
  | w => exact .worker _ _ h
  | stop =>
    simp only [act] at h; split at h <;> simp only [Option.some.injEq, reduceCtorEq] at h
    rename_i hc; subst h; exact .stop s hc.1 hc.2
  | d => exact .dtor _ _ h

theorem runActs_reach {n : Nat} {s t : St} {as : List Act} (hr : Reach n s) (h : runActs s as = some t) : Reach n t := by
  induction as generalizing s with
  | nil => simp [runActs] at h; subst h; exact hr
  | cons a as ih =>
    simp only [runActs] at h
    cases ha : act s a with
    | none => rw [ha] at h; simp at h
    | some u => rw [ha] at h; exact ih (hr.step (act_step ha)) h

def w1 : Req := ⟨1, true⟩
def w2 : Req := ⟨2, true⟩
def r1 : Req := ⟨3, false⟩
def r2 : Req := ⟨4, false⟩

/-- Two writes are submitted; the worker serves the first; the destructor sets `TERMINATING`; the worker's test takes the unit
of the second write for the destructor's signal and leaves. -/
def lostRun : List Act :=
  [.add 0 w1, .u 0, .u 0, .u 0, .add 0 w2, .u 0, .u 0, .u 0, .w, .w, .w, .stop, .w, .w, .w, .d, .d]

/-- **The destructor can lose a request**: a reachable state in which the destructor has returned although a submitted write
was neither served nor cancelled (`stop_thread` sets `TERMINATING` before its `sem++`). Whoever waits for that request waits
for ever. -/
theorem C40_shutdown_can_lose_a_request :
    ∃ s, Reach 1 s ∧ s.dtor = .joined ∧ w2 ∈ s.pushed ∧ w2 ∉ s.served ∧ w2 ∉ s.cancelled := by
  cases h : runActs (init 1) lostRun with
  | none => exact absurd h (Option.isSome_iff_ne_none.mp (by decide +kernel))
  | some s =>
    refine ⟨s, runActs_reach .init h, ?_⟩
    have : ((runActs (init 1) lostRun).map (fun s => (s.dtor, s.pushed, s.served, s.cancelled)))
        = some (.joined, [w1, w2], [w1], []) := by decide +kernel
    rw [h] at this
    simp only [Option.map_some, Option.some.injEq, Prod.mk.injEq] at this
    obtain ⟨a, b, c, d⟩ := this
    rw [b, c, d]
    exact ⟨a, by decide, by decide, by decide⟩

inductive Steps : St → St → Prop where
  | refl (s : St) : Steps s s
  | step {s t u : St} (h : Step s t) (r : Steps t u) : Steps s u

/-- The worker waits for the read mutex, whose holder (a canceller) waits for the semaphore; nobody else can post it. -/
structure Dead (i : Nat) (r : Req) (s : St) : Prop where
  wpc : s.wpc = .look
  phase : s.phase = false
  sem : s.sem = 0
  cw : s.users[i]? = some (.canWait r)
  isR : r.isWrite = false
  own : s.own false = some i
  own1 : ∀ (j : Nat) (q : Req), s.users[j]? = some (.canWait q) → s.own q.isWrite = some j
  dtor : s.dtor = .no
  noPost : ∀ q, .addPost q ∉ s.users
  noPush : ∀ q, q.isWrite = true → .addPush q ∉ s.users

theorem dead_step {i : Nat} {r : Req} {s t : St} (D : Dead i r s) (st : Step s t) :
    Dead i r t ∧ t.served = s.served ∧ t.pushed = s.pushed := by
  have key : ∀ (j : Nat) (u v : UPc), s.users[j]? = some u → (∀ q, u ≠ .canWait q) → (∀ q, v ≠ .addPost q) →
      (∀ q, q.isWrite = true → v ≠ .addPush q) → (∀ q, v ≠ .canWait q) → Dead i r { s with users := s.users.set j v } := by
    intro j u v hj hu h1 h2 h3
    have hji : j ≠ i := by rintro rfl; rw [D.cw] at hj; cases hj; exact hu r rfl
    refine { D with cw := by have := D.cw; grind, own1 := ?_, noPost := ?_, noPush := ?_ }
    · intro k q hk
      rcases get_set hj hk with ⟨_, h⟩ | ⟨_, h⟩
      · exact absurd h.symm (h3 q)
      · exact D.own1 k q h
    · intro q hq
      rcases List.mem_or_eq_of_mem_set hq with h | h
      · exact D.noPost q h
      · exact h1 q h.symm
    · intro q hw hq
      rcases List.mem_or_eq_of_mem_set hq with h | h
      · exact D.noPush q hw h
      · exact h2 q hw h.symm
  cases st with
  | add j q hj _ _ => exact ⟨key j _ _ hj (by simp) (by simp) (by simp) (by simp), rfl, rfl⟩
  | cancel j q hj _ => exact ⟨key j _ _ hj (by simp) (by simp) (by simp) (by simp), rfl, rfl⟩
  | user _ j h =>
    unfold ustep at h
    split at h
    · rename_i q hj
      split at h <;> simp only [Option.some.injEq, reduceCtorEq] at h
      rename_i ho
      subst h
      have hq : q.isWrite = false := by
        cases hw : q.isWrite with
        | false => rfl
        | true => rw [hw] at ho; simp [D.own] at ho
      refine ⟨key j _ _ hj (by simp) (by simp) ?_ (by simp), rfl, rfl⟩
      intro q' hq' he
      cases he; rw [hq] at hq'; cases hq'
    · rename_i q hj
      exfalso
      split at h <;> simp only [Option.some.injEq, reduceCtorEq] at h
      rename_i ho
      cases hw : q.isWrite with
      | false => rw [hw, D.own] at ho; cases ho
      | true => exact D.noPush q hw (List.mem_of_getElem? hj)
    · rename_i q hj
      exact absurd (List.mem_of_getElem? hj) (D.noPost q)
    · rename_i q hj
      split at h
      swap
      · simp at h
      rename_i ho
      have hq : q.isWrite = true := by
        cases hw : q.isWrite with
        | true => rfl
        | false => rw [hw, D.own] at ho; cases ho
      split at h <;> simp only [Option.some.injEq] at h <;> subst h
      · refine ⟨?_, rfl, rfl⟩
        have hji : j ≠ i := by rintro rfl; rw [D.cw] at hj; cases hj
        refine { D with cw := by have := D.cw; grind, own := ?_, own1 := ?_, noPost := ?_, noPush := ?_ }
        · simp [upd, hq, D.own]
        · intro k q' hk
          rcases get_set hj hk with ⟨rfl, h⟩ | ⟨_, h⟩
          · cases h; simp [upd]
          · have := D.own1 k q' h
            by_cases he : q'.isWrite = q.isWrite
            · rw [he, ho] at this; cases this
            · simp [upd, he, this]
        · intro q' hq'
          rcases List.mem_or_eq_of_mem_set hq' with h | h
          · exact D.noPost q' h
          · cases h
        · intro q' hw hq'
          rcases List.mem_or_eq_of_mem_set hq' with h | h
          · exact D.noPush q' hw h
          · cases h
      · exact ⟨key j _ _ hj (by simp) (by simp) (by simp) (by simp), rfl, rfl⟩
    · split at h <;> simp only [Option.some.injEq, reduceCtorEq] at h
      have := D.sem; omega
    · simp at h
  | worker _ h =>
    unfold wstep at h
    rw [D.wpc] at h
    dsimp only at h
    rw [D.phase, D.own] at h
    simp at h
  | stop hi _ => exact absurd (hi _ (List.mem_of_getElem? D.cw)) (by simp)
  | dtor _ h => unfold dstep at h; rw [D.dtor] at h; simp at h

theorem dead_forever {i : Nat} {r : Req} {s t : St} (D : Dead i r s) (h : Steps s t) :
    t.users[i]? = some (.canWait r) ∧ t.served = s.served ∧ t.pushed = s.pushed := by
  induction h with
  | refl => exact ⟨D.cw, rfl, rfl⟩
  | step st _ ih =>
    obtain ⟨d, e, f⟩ := dead_step D st
    obtain ⟨a, b, c⟩ := ih d
    exact ⟨a, b.trans e, c.trans f⟩

/-- A read is submitted; the worker takes its unit of the semaphore, finds no write, comes back for the read (its unit again in
hand); before it locks the read queue, a thread cancels the read. -/
def deadRun : List Act :=
  [.add 0 r1, .u 0, .u 0, .u 0, .w, .w, .w, .w, .w, .cancel 0 r1, .u 0]

/-- **Cancelling can deadlock the queue**: a reachable state in which a `cancel_request` call never returns, whatever happens
next and however threads are scheduled, and in which no request is ever accepted or served again. -/
theorem C40_cancel_can_deadlock :
    ∃ s, Reach 2 s ∧ s.users[0]? = some (.canWait r1) ∧
      ∀ t, Steps s t → t.users[0]? = some (.canWait r1) ∧ t.served = s.served ∧ t.pushed = s.pushed := by
  cases h : runActs (init 2) deadRun with
  | none => exact absurd h (Option.isSome_iff_ne_none.mp (by decide +kernel))
  | some s =>
    have hr : Reach 2 s := runActs_reach .init h
    have : ((runActs (init 2) deadRun).map (fun s => ((s.wpc, s.phase, s.sem), (s.users, s.own false, s.dtor))))
        = some ((.look, false, 0), ([.canWait r1, .idle], some 0, .no)) := by decide +kernel
    rw [h] at this
    simp only [Option.map_some, Option.some.injEq, Prod.mk.injEq] at this
    obtain ⟨⟨a, b, c⟩, d, e, f⟩ := this
    have D : Dead 0 r1 s :=
      { wpc := a, phase := b, sem := c, cw := by rw [d]; rfl, isR := rfl, own := e,
        own1 := (reach_inv hr).own2, dtor := f, noPost := by rw [d]; simp, noPush := by rw [d]; simp }
    exact ⟨s, hr, D.cw, fun t ht => dead_forever D ht⟩

/-! ## The theorems above are about something -/

/-- A run with two threads: a read and a write are submitted, a second read is submitted and cancelled, the worker serves the
write first, then the read. -/
def goodRun : List Act :=
  [.add 0 r1, .add 1 w1, .u 1, .u 0, .u 0, .u 1, .u 0, .u 1, .add 0 r2, .u 0, .u 0, .u 0, .cancel 1 r2, .u 1, .u 1,
   .w, .w, .w, .w, .w, .w, .w, .w, .w, .w, .w, .w]

example : (runActs (init 2) goodRun).map (fun s => ((s.pushed, s.served, s.cancelled), (s.obs, s.sem, s.wpc)))
    = some (([r1, w1, r2], [w1, r1], [r2]), ([.pop w1, .empty true, .pop r1], 0, .top)) := by decide +kernel

end Stxxl.ReqQueue
