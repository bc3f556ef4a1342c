import Verif.LinuxAio.Progress

/-!
# C76, C77, C78: the Linux AIO queue

C76: every request is in exactly one place, handed to the operating system in order, at most `max_events` at a time, completed at
most once and never both completed and cancelled. C77: progress and shutdown. C78: size negotiation and I/O errors.
`Reach C n s`: `s` is a state that any interleaving of `n` user threads, the two queue threads, the operating system and the
destructor can produce.
-/

namespace Stxxl.LinuxAio

/-! ## C76: safety -/

/-- Requests held by the queue threads: the one being posted, and the events returned by `io_getevents` whose requests were not
completed yet. -/
def St.inHands (s : St) : List Req := hand s.ppc ++ evP s.ppc ++ evW s.wpc

theorem posted_perm {C : Cfg} {s : St} (I : Inv C s) :
    s.posted.Perm (s.completed ++ s.inflight ++ s.done ++ evP s.ppc ++ evW s.wpc) := by
  rw [List.perm_iff_count]
  intro x
  have := I.part x
  simp only [List.count_append]; omega

theorem pushed_perm {C : Cfg} {s : St} (I : Inv C s) :
    s.pushed.Perm (s.cancelled ++ (s.posted ++ hand s.ppc ++ s.waiting)) := by
  have h1 : s.pushed.Perm (s.pushed.filter (fun r => decide (r ∈ s.cancelled)) ++ s.pushed.filter (fun r => !decide (r ∈ s.cancelled))) :=
    (List.filter_append_perm _ _).symm
  have h2 : (s.pushed.filter (fun r => decide (r ∈ s.cancelled))).Perm s.cancelled := by
    apply (List.perm_ext_iff_of_nodup (I.nodup.filter _) I.canNodup).mpr
    intro a; simp; exact I.canSub a
  have h3 : s.pushed.filter (fun r => !decide (r ∈ s.cancelled)) = s.posted ++ hand s.ppc ++ s.waiting := by
    rw [← I.fifo]; apply List.filter_congr; intro x _; simp
  rw [h3] at h1
  exact h1.trans (h2.append_right _)

/-- **Every request is in exactly one place**: no request was submitted twice, and the submitted requests are exactly the
cancelled ones, the completed ones, the waiting ones, those with the operating system and those in the hands of a queue
thread, each once. -/
theorem C76_each_request_in_exactly_one_place {C : Cfg} {n : Nat} {s : St} (h : Reach C n s) :
    s.pushed.Nodup ∧
      s.pushed.Perm (s.cancelled ++ s.completed ++ s.waiting ++ s.inflight ++ s.done ++ s.inHands) := by
  have I := reach_inv h
  refine ⟨I.nodup, ?_⟩
  have h1 := pushed_perm I
  have h2 := posted_perm I
  rw [List.perm_iff_count] at *
  intro x
  have a := h1 x
  have b := h2 x
  simp only [St.inHands, List.count_append] at *
  omega

/-- A request is completed at most once, cancelled at most once, never both; a cancelled request never reaches the operating
system. -/
theorem C76_completed_once {C : Cfg} {n : Nat} {s : St} (h : Reach C n s) :
    s.completed.Nodup ∧ s.cancelled.Nodup ∧ s.posted.Nodup ∧ (∀ r ∈ s.completed, r ∈ s.posted ∧ r ∈ s.pushed) ∧
      ∀ r ∈ s.cancelled, r ∈ s.pushed ∧ r ∉ s.posted ∧ r ∉ s.completed := by
  have I := reach_inv h
  have hn := (pushed_perm I).nodup I.nodup
  rw [List.nodup_append] at hn
  have hnp : s.posted.Nodup := by
    have := hn.2.1
    rw [List.append_assoc, List.nodup_append] at this
    exact this.1
  have hc := (posted_perm I).nodup hnp
  have hcp : ∀ r ∈ s.completed, r ∈ s.posted := by
    intro r hr
    apply (posted_perm I).symm.subset
    simp [hr]
  have hpp : ∀ r ∈ s.posted, r ∈ s.pushed := by
    intro r hr
    apply (pushed_perm I).symm.subset
    simp [hr]
  refine ⟨?_, I.canNodup, hnp, fun r hr => ⟨hcp r hr, hpp r (hcp r hr)⟩, ?_⟩
  · rw [List.append_assoc, List.append_assoc, List.append_assoc, List.nodup_append] at hc
    exact hc.1
  · intro r hr
    have hx : r ∉ s.posted := fun hp => hn.2.2 r hr r (by simp [hp]) rfl
    exact ⟨I.canSub r hr, hx, fun hc => hx (hcp r hc)⟩

/-- **First come, first served**: the requests that were not cancelled reach the operating system in the order of
submission. -/
theorem C76_fifo {C : Cfg} {n : Nat} {s : St} (h : Reach C n s) :
    s.posted <+: s.pushed.filter (fun r => decide (r ∉ s.cancelled)) := by
  rw [(reach_inv h).fifo, List.append_assoc]
  exact List.prefix_append _ _

/-- **Never more than `max_events` outstanding**, counting the finished ones whose events were not fetched. -/
theorem C76_at_most_max {C : Cfg} {n : Nat} {s : St} (h : Reach C n s) : s.inflight.length + s.done.length ≤ C.max := by
  have := (reach_inv h).acctF
  omega

/-- **References**: the heap objects that keep requests alive are exactly one for each request with the operating system or in
an unhandled event, and one more for each refused submission, for ever. -/
theorem C76_references {C : Cfg} {n : Nat} {s : St} (h : Reach C n s) :
    s.boxes.Perm (s.inflight ++ s.done ++ evP s.ppc ++ evW s.wpc ++ s.refused) := by
  rw [List.perm_iff_count]
  intro x
  have := (reach_inv h).box x
  simp only [List.count_append]; omega

/-- If the operating system refuses nothing below `max_events`, no completed or cancelled request keeps a heap object. -/
theorem C76_no_leak {C : Cfg} {n : Nat} {s : St} (h : Reach C n s) (hs : C.strict = true) (r : Req)
    (hr : r ∈ s.completed ∨ r ∈ s.cancelled) : r ∉ s.boxes := by
  have I := reach_inv h
  have h1 := (C76_each_request_in_exactly_one_place h)
  have hn := List.nodup_iff_count.mp h1.1 r
  have hc := List.perm_iff_count.mp h1.2 r
  have hb := I.box r
  rw [I.strict hs] at hb
  have : 0 < s.completed.count r + s.cancelled.count r := by
    rcases hr with hr | hr
    · have := List.count_pos_iff.mpr hr; omega
    · have := List.count_pos_iff.mpr hr; omega
  simp only [St.inHands, List.count_append] at hc
  rw [← List.count_eq_zero]
  simp at hb
  omega

/-- The branch of the posting thread that gives a prematurely taken unit back (`linuxaio_queue.cpp:167-173`) is never taken. -/
theorem C76_compensation_unreachable {C : Cfg} {n : Nat} {s : St} (h : Reach C n s) : s.ppc ≠ .back := (reach_inv h).nback

/-! ## C77: progress and shutdown -/

/-- Without new calls every execution ends: the number of steps is bounded, whatever the schedule and whatever the operating
system does. -/
theorem C77_every_run_ends {C : Cfg} {n : Nat} {s : St} (h : Reach C n s) (hs : C.strict = true) :
    ∃ N, ∀ k t, IRun C k s t → k ≤ N :=
  ⟨mu s, fun k t r => by have := r.bound (reach_inv h) hs; omega⟩

/-- ... and it ends in a state in which nothing can go on (so the next theorem speaks about every execution). -/
theorem C77_comes_to_rest {C : Cfg} {n : Nat} {s : St} (h : Reach C n s) (hs : C.strict = true) :
    ∃ k t, IRun C k s t ∧ Reach C n t ∧ Stuck C t := by
  generalize hm : mu s = m
  induction m using Nat.strongRecOn generalizing s with
  | _ m ih =>
    by_cases hst : Stuck C s
    · exact ⟨0, s, .refl s, h, hst⟩
    · simp only [Stuck, Classical.not_forall, Classical.not_not] at hst
      obtain ⟨t, ht⟩ := hst
      have hlt := mu_istep (reach_inv h) hs ht
      obtain ⟨k, u, hr, hu, hx⟩ := ih (mu t) (by omega) (h.step (.internal _ _ ht)) rfl
      exact ⟨k + 1, u, .step ht hr, hu, hx⟩

/-- **No request is forgotten**: when nothing can go on in a queue that is alive, no call is active and every request was
completed or cancelled, and all events are free again, or the queue is in the circular wait of `cancel_request`. -/
theorem C77_at_rest_all_done {C : Cfg} {n : Nat} {s : St} (h : Reach C n s) (hs : C.strict = true) (hm : 0 < C.max)
    (hd : s.dtor = .no) (hst : Stuck C s) :
    ((∀ u ∈ s.users, u = .idle) ∧ s.pushed.Perm (s.completed ++ s.cancelled) ∧ s.nF = C.max ∧ s.boxes = []) ∨
      CancelDeadlock s := by
  have I := reach_inv h
  rcases stuck_users I hs hst with hi | hc
  · left
    rcases stuck_idle I hs hm hst hi with ⟨_, hp, hw, h1, h2, h3⟩ | hj
    · have hh : s.inHands = [] := by simp [St.inHands, hp, hw, hand, evP, evW]
      have hp1 := (C76_each_request_in_exactly_one_place h).2
      rw [h1, h2, h3, hh] at hp1
      simp only [List.append_nil] at hp1
      refine ⟨hi, hp1.trans List.perm_append_comm, ?_, ?_⟩
      · have := I.acctF
        rw [hp, hw, h2, h3] at this
        simpa [evP, evW, holdP] using this
      · have := C76_references h
        rw [h2, h3, hp, hw, I.strict hs] at this
        simpa [evP, evW] using this
    · rw [hj] at hd; cases hd
  · exact .inr hc

/-- A queue in which nobody ever cancelled a request that was still waiting never gets stuck: at rest everything is
completed. -/
theorem C77_without_cancel_all_completed {C : Cfg} {n : Nat} {s : St} (h : Reach C n s) (hs : C.strict = true)
    (hm : 0 < C.max) (hd : s.dtor = .no) (hc : s.cancelled = []) (hst : Stuck C s) :
    (∀ u ∈ s.users, u = .idle) ∧ s.pushed.Perm s.completed := by
  rcases C77_at_rest_all_done h hs hm hd hst with ⟨a, b, _⟩ | ⟨i, r, hi, ho, hn, hp, hw⟩
  · rw [hc] at b; simp at b; exact ⟨a, b⟩
  · exfalso
    have I := reach_inv h
    have := I.canW i r hi
    rw [hc] at this; simp at this

/-- **The destructor returns**: once it was called, every execution ends, and it ends with the destructor returned. -/
theorem C77_destructor_returns {C : Cfg} {n : Nat} {s : St} (h : Reach C n s) (hs : C.strict = true) (hm : 0 < C.max)
    (hd : s.dtor ≠ .no) : (∃ N, ∀ k t, IRun C k s t → k ≤ N) ∧ (Stuck C s → s.dtor = .joined) := by
  refine ⟨C77_every_run_ends h hs, fun hst => ?_⟩
  have I := reach_inv h
  rcases stuck_idle I hs hm hst (I.didle hd) with ⟨h1, _⟩ | h1
  · exact absurd h1 hd
  · exact h1

/-- **What the destructor loses**: after it returned, every request was completed or cancelled, exactly if neither queue thread
had taken its last unit of its semaphore before the destructor raised that semaphore. -/
theorem C77_shutdown_complete_iff_not_late {C : Cfg} {n : Nat} {s : St} (h : Reach C n s) (hd : s.dtor = .joined) :
    s.pushed.Perm (s.completed ++ s.cancelled) ↔ s.lateP = false ∧ s.lateW = false := by
  have I := reach_inv h
  have ds := I.dst
  unfold dState at ds
  rw [hd] at ds
  have l1 := I.lossP (by rw [hd]; rfl) (.inr (.inr ds.1))
  have l2 := I.lossW (by rw [hd]; rfl) (.inr (.inr ds.2))
  rw [l1, l2]
  have hh : s.inHands = [] := by simp [St.inHands, ds.1, ds.2, hand, evP, evW]
  have hp := (C76_each_request_in_exactly_one_place h).2
  rw [hh] at hp
  constructor
  · intro hx
    have e1 := hp.length_eq
    have e2 := hx.length_eq
    simp only [List.length_append, List.length_nil] at e1 e2
    exact ⟨List.eq_nil_of_length_eq_zero (by omega), List.eq_nil_of_length_eq_zero (by omega),
      List.eq_nil_of_length_eq_zero (by omega)⟩
  · rintro ⟨a, b, c⟩
    rw [a, b, c] at hp
    simp only [List.append_nil] at hp
    exact hp.trans List.perm_append_comm

end Stxxl.LinuxAio
