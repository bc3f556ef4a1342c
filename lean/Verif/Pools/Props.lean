import Verif.Pools.Ops2

/-!
# C19, C20: the pools
-/

namespace Stxxl.Pools
open Stxxl.Io Stxxl.Io.Io Stxxl.ExtVector
variable {β : Type}

theorem Step.ok {s s' : Sys β} {c c' : Client} {spec spec' : Nat → β} (h : Ok s c spec) (hs : Step s c spec s' c' spec') : Ok s' c' spec' := by
  cases hs with
  | serve i => exact Inv.serve h i
  | foreign bid v h1 h2 h3 => exact Inv.foreign h v h1 h2 h3
  | newBuf buf hb =>
    refine Inv.frees (wf := s.p.wfree) (pf := s.p.pfree) (held := buf :: c.held) h ?_
    simp only [allBufs, List.cons_append]
    rw [List.nodup_cons]
    exact ⟨hb, h.nod⟩
  | fill buf v hb => exact Inv.fill h v hb
  | write canc sched buf bid hb ho r =>
    obtain ⟨s1, e, h1⟩ := Inv.write h hb ho canc sched
    rw [e] at r; cases r; exact h1
  | read buf bid hb ho => exact Inv.read h hb ho
  | wait e io up1 up2 hc r => exact Inv.waitUp h hc r
  | hint bid ho => exact Inv.hint h trivial ho
  | invalidate canc bid found ho r =>
    have h1 : Inv (fun _ => True) (fun b => b ≠ bid) s c spec := Inv.weaken h (by simp) (by simp) (by simp) (by simp)
    obtain ⟨s1, f, e, h2, _⟩ := h1.invalidate canc
    rw [e] at r; cases r; exact h2
  | steal pick sched buf r => exact Inv.steal h r
  | add buf hb =>
    refine Inv.frees (pf := s.p.pfree) h ?_
    refine List.Perm.nodup_iff ?_ |>.2 h.nod
    rw [List.perm_iff_count]
    intro a
    have := erase_perm hb a
    simp [allBufs, List.count_append, List.count_cons]
    omega
  | addPrefetch buf hb =>
    refine Inv.frees (wf := s.p.wfree) h ?_
    refine List.Perm.nodup_iff ?_ |>.2 h.nod
    rw [List.perm_iff_count]
    intro a
    have := erase_perm hb a
    simp [allBufs, List.count_append, List.count_cons]
    omega
  | stealPrefetch buf r =>
    unfold Sys.stealPrefetch at r
    split at r
    · simp at r
    · rename_i b hg
      simp at r
      obtain ⟨rfl, rfl⟩ := r
      refine Inv.frees (wf := s.p.wfree) h ?_
      refine List.Perm.nodup_iff ?_ |>.2 h.nod
      rw [List.perm_iff_count]
      intro a
      have hc := congrArg (List.count a) (getLast?_split hg)
      simp [List.count_append, List.count_cons] at hc
      simp [allBufs, List.count_append, List.count_cons]
      omega
  | resizeWrite n fresh picks sched hf hl r =>
    obtain ⟨s1, e, h1, _⟩ := Inv.resizeWrite h n picks sched hf hl
    rw [e] at r; cases r; exact h1
  | resizePrefetch n fresh hf hl => exact Inv.resizePrefetch h n hf

theorem Reach.ok {s : Sys β} {c : Client} {spec : Nat → β} (h : Reach s c spec) : Ok s c spec := by
  induction h with
  | new mem disk wb pb hn =>
    refine ⟨by simpa [allBufs] using hn, by simp, ?_, ?_, ?_, ?_, ?_, ?_, ?_, by simp, by simp⟩
    · intro b i hb; simp [ents] at hb
    · intro j r hp; simp [Pend] at hp
    · intro b _; exact ⟨fun j r hp => by simp [Pend] at hp, fun _ => rfl⟩
    · intro j r hp; simp [Pend] at hp
    · intro e he; simp at he
    · intro e he; simp at he
    · intro e he; simp at he
  | step _ hs ih => exact hs.ok ih

theorem waitReqs_ind {P : Io β → Prop} (hP : ∀ s i, P s → P (serve s i)) (l : List Nat) : ∀ {io io' : Io β}, Sys.waitReqs io l = some io' → P io → P io' := by
  induction l with
  | nil => intro io io' h hp; cases h; exact hp
  | cons i l ih =>
    intro io io' h hp
    unfold Sys.waitReqs at h
    split at h
    · simp at h
    · rename_i io1 hw
      exact ih h (wait_ind hP hw hp)

theorem waitReqs_done (l : List Nat) : ∀ {io : Io β}, (∀ i ∈ l, ∃ r, io.rqs[i]? = some r) →
    ∃ io', Sys.waitReqs io l = some io' ∧ ∀ i ∈ l, ∀ r, ¬ Pend io' i r := by
  induction l with
  | nil => intro io _; exact ⟨io, rfl, by simp⟩
  | cons i l ih =>
    intro io h
    obtain ⟨r, hr⟩ := h i (by simp)
    obtain ⟨io1, hw⟩ := wait_some hr
    obtain ⟨io', h1, h2⟩ := ih (io := io1) (by
      intro j hj
      obtain ⟨r', hr'⟩ := h j (by simp [hj])
      obtain ⟨r'', h3, _⟩ := (wait_later hw).keep j r' hr'
      exact ⟨r'', h3⟩)
    refine ⟨io', by unfold Sys.waitReqs; rw [hw]; exact h1, ?_⟩
    intro j hj
    rcases List.mem_cons.1 hj with rfl | hj
    · intro r' hp
      have hl : Later io1 io' := waitReqs_ind (P := fun x => Later io1 x) (fun x k hx => hx.trans (serve_later x k)) l h1 (Later.refl _)
      exact wait_done hw r' (hl.pend hp)
    · exact h2 j hj

end Stxxl.Pools

namespace Stxxl
open Stxxl.Io Stxxl.Pools
variable {β : Type}

/-- **C19** Whatever sequence of operations the client has performed and whatever the disk thread has served so far: when
the client waits for a read it has requested through the pool, the wait succeeds and the buffer contains the data of the
latest write to this block (`spec`, see `Pools.Step`). -/
theorem C19_read_latest {s : Sys β} {c : Client} {spec : Nat → β} (h : Reach s c spec) {e : PEntry} (he : e ∈ c.up) :
    ∃ io, s.io.wait e.req = some io ∧ io.mem e.buf = spec e.bid := by
  have hi := h.ok
  obtain ⟨r, hr, hb, hbid, hcan, h5, h6⟩ := hi.up e he
  obtain ⟨io, hw⟩ := Io.wait_some hr
  refine ⟨io, hw, ?_⟩
  have h1 := Inv.wait hi hw
  obtain ⟨r', hr', _, _, hcan', h5', _⟩ := h1.up e he
  refine h5' (.inl ?_)
  cases hst : r'.st with
  | done => rfl
  | cancelled => exact absurd hst hcan'
  | pending => exact absurd ⟨hr', hst⟩ (Io.wait_done hw r')

/-- **C19** Operations that follow the rules do not fail: `write` and `invalidate` never hit an assertion or an invalid
request pointer, and `steal` succeeds whenever the write pool owns a buffer. -/
theorem C19_no_failure {s : Sys β} {c : Client} {spec : Nat → β} (h : Reach s c spec) :
    (∀ canc sched buf bid, buf ∈ c.held → ¬ c.open bid → ∃ s', s.write canc sched buf bid = some s') ∧
    (∀ canc bid, ∃ r, s.invalidate canc bid = some r) ∧
    (∀ pick sched, 0 < s.sizeWrite → ∃ r, s.steal pick sched = some r) ∧
    (∀ n fresh picks sched, (allBufs s c ++ fresh).Nodup → n - s.sizeWrite ≤ fresh.length →
      ∃ s', s.resizeWrite n fresh picks sched = some s' ∧ s'.sizeWrite = n) := by
  have hi := h.ok
  refine ⟨?_, ?_, ?_, ?_⟩
  · intro canc sched buf bid hb ho
    obtain ⟨s', h1, _⟩ := Inv.write hi hb ho canc sched
    exact ⟨s', h1⟩
  · intro canc bid
    have h1 : Inv (fun _ => True) (fun b => b ≠ bid) s c spec := Inv.weaken hi (by simp) (by simp) (by simp) (by simp)
    obtain ⟨s1, f, e, _⟩ := h1.invalidate canc
    exact ⟨_, e⟩
  · intro pick sched hn
    obtain ⟨s', b, e⟩ := steal_some hi hn pick sched
    exact ⟨_, e⟩
  · intro n fresh picks sched hf hl
    obtain ⟨s', h1, _, h3, _⟩ := Inv.resizeWrite hi n picks sched hf hl
    exact ⟨s', h1, h3⟩

/-- **C19** When the pools are destroyed nothing is lost: afterwards every block (apart from those that the client has
itself an unfinished request for) contains on disk the data of the latest write. -/
theorem C19_destructor {s : Sys β} {c : Client} {spec : Nat → β} (h : Reach s c spec) :
    ∃ io, s.destroy = some io ∧ ∀ bid, ¬ c.open bid → io.disk bid = spec bid := by
  have hi := h.ok
  obtain ⟨io, h1, h2⟩ := waitReqs_done (s.p.wbusy.map (·.req) ++ s.p.pbusy.map (·.req)) (io := s.io) (by
    intro i hm
    rcases List.mem_append.1 hm with hm | hm
    · obtain ⟨e, he, rfl⟩ := List.mem_map.1 hm
      obtain ⟨r, hr, _⟩ := hi.ex _ _ (mem_ents_w (c := c) he)
      exact ⟨r, hr⟩
    · obtain ⟨e, he, rfl⟩ := List.mem_map.1 hm
      obtain ⟨r, hr, _⟩ := hi.ex _ _ (mem_ents_p (c := c) he)
      exact ⟨r, hr⟩)
  refine ⟨io, h1, fun bid ho => ?_⟩
  have hj : Ok { s with io := io } c spec :=
    waitReqs_ind (P := fun x => Ok { s with io := x } c spec) (fun _ i hx => Inv.serve hx i) _ h1 hi
  refine (hj.dsk bid trivial).2 ?_
  apply Classical.byContradiction
  intro hc
  obtain ⟨j, r, hp, hw, hb, hn⟩ := exists_newest hc
  subst hb
  rcases hj.last j r hp hw hn trivial with hm | hm | hm
  · exact h2 j (List.mem_append_left _ (List.mem_map.2 ⟨_, hm, rfl⟩)) r hp
  · exact h2 j (List.mem_append_right _ (List.mem_map.2 ⟨_, hm, rfl⟩)) r hp
  · exact ho ⟨_, hm, rfl⟩

/-- **C20** Every buffer is in exactly one place: the client's hands, a read the client waits for, a free list, or a busy
list. -/
theorem C20_exclusive {s : Sys β} {c : Client} {spec : Nat → β} (h : Reach s c spec) :
    (c.held ++ c.up.map (·.buf) ++ s.p.wfree ++ s.p.wbusy.map (·.buf) ++ s.p.pfree ++ s.p.pbusy.map (·.buf)).Nodup := h.ok.nod

/-- **C20** A buffer in the client's hands or in a free list has no outstanding request, so nobody's data is overwritten by
the disk thread, and no buffer is changed while it is being written. -/
theorem C20_no_io_on_free {s : Sys β} {c : Client} {spec : Nat → β} (h : Reach s c spec) {b : Nat}
    (hb : b ∈ c.held ∨ b ∈ s.p.wfree ∨ b ∈ s.p.pfree) {i : Nat} {r : Rq} (hr : s.io.rqs[i]? = some r) (hp : r.st = .pending) :
    r.buf ≠ b := by
  rintro rfl
  have hi := h.ok
  refine hi.free_not ?_ (hi.own i r ⟨hr, hp⟩)
  simp only [frees, List.mem_append]
  rcases hb with hb | hb | hb <;> simp [hb]

theorem write_perm {s s' : Sys β} {c : Client} {canc : Nat → Bool} {sched : List Nat} {buf bid : Nat} (hb : buf ∈ c.held)
    (h : s.write canc sched buf bid = some s') : (allBufs s' { c with held := c.held.erase buf }).Perm (allBufs s c) := by
  unfold Sys.write at h
  cases h1 : s.wWrite canc buf bid with
  | none => rw [h1] at h; simp at h
  | some s1 =>
    rw [h1] at h
    simp only at h
    cases h2 : ({ s1 with io := s1.io.serveAll sched } : Sys β).invalidate canc bid with
    | none => rw [h2] at h; simp at h
    | some p =>
      obtain ⟨s2, found⟩ := p
      rw [h2] at h
      have p1 : (allBufs s1 { c with held := c.held.erase buf }).Perm (allBufs s c) := by
        unfold Sys.wWrite at h1
        split at h1
        · simp at h1
        · simp at h1
          rw [← h1, List.perm_iff_count]
          intro a
          have := erase_perm hb a
          have hm := congrArg (List.count a) (map_clear bid s.p.wbusy).1
          rw [List.map_map] at hm
          simp only [allBufs, List.map_append, List.map_map]
          simp [List.count_append, List.count_cons] at hm ⊢
          omega
      have p2 := invalidate_perm (c := { c with held := c.held.erase buf }) h2
      have p3 : (allBufs s2 { c with held := c.held.erase buf }).Perm (allBufs s c) := p2.trans p1
      simp only at h
      split at h
      · cases h; exact (hint_perm s2 _ bid).trans p3
      · cases h; exact p3

/-- **C20** No operation loses or creates buffers: except for allocation by the client and the two `resize` operations, the
buffers after the step are those before it. -/
theorem C20_conserved {s s' : Sys β} {c c' : Client} {spec spec' : Nat → β} (hs : Step s c spec s' c' spec') :
    (allBufs s' c').Perm (allBufs s c) ∨
    (∃ b, b ∉ allBufs s c ∧ (allBufs s' c').Perm (b :: allBufs s c)) ∨
    (∃ n fresh picks sched, s.resizeWrite n fresh picks sched = some s') ∨ (∃ n fresh, s' = s.resizePrefetch n fresh) := by
  cases hs with
  | serve i => exact .inl (List.Perm.refl _)
  | foreign bid v h1 h2 h3 => exact .inl (List.Perm.refl _)
  | newBuf buf hb => exact .inr (.inl ⟨buf, hb, by simp [allBufs]⟩)
  | fill buf v hb => exact .inl (List.Perm.refl _)
  | write canc sched buf bid hb ho r => exact .inl (write_perm hb r)
  | read buf bid hb ho => exact .inl (read_perm s c bid hb)
  | wait e io up1 up2 hc r => exact .inl (wait_perm hc)
  | hint bid ho => exact .inl (hint_perm s c bid)
  | invalidate canc bid found ho r => exact .inl (invalidate_perm r)
  | steal pick sched buf r => exact .inl (steal_perm r).1
  | add buf hb =>
    refine .inl ?_
    rw [List.perm_iff_count]
    intro a
    have := erase_perm hb a
    simp [allBufs, Sys.add, List.count_append, List.count_cons]
    omega
  | addPrefetch buf hb =>
    refine .inl ?_
    rw [List.perm_iff_count]
    intro a
    have := erase_perm hb a
    simp [allBufs, Sys.addPrefetch, List.count_append, List.count_cons]
    omega
  | stealPrefetch buf r =>
    refine .inl ?_
    unfold Sys.stealPrefetch at r
    split at r
    · simp at r
    · rename_i b hg
      simp at r
      obtain ⟨rfl, rfl⟩ := r
      rw [List.perm_iff_count]
      intro a
      have hc := congrArg (List.count a) (getLast?_split hg)
      simp [List.count_append, List.count_cons] at hc
      simp [allBufs, List.count_append, List.count_cons]
      omega
  | resizeWrite n fresh picks sched hf hl r => exact .inr (.inr (.inl ⟨n, fresh, picks, sched, r⟩))
  | resizePrefetch n fresh hf hl => exact .inr (.inr (.inr ⟨n, fresh, rfl⟩))

theorem hint_sizes (s : Sys β) (bid : Nat) : (s.hint bid).sizeWrite = s.sizeWrite ∧ (s.hint bid).sizePrefetch = s.sizePrefetch := by
  unfold Sys.hint
  cases hf : s.pFind bid with
  | some e => exact ⟨rfl, rfl⟩
  | none =>
    cases hg : s.p.pfree.getLast? with
    | none => exact ⟨rfl, rfl⟩
    | some b =>
      have hl := congrArg List.length (getLast?_split hg)
      simp at hl
      cases hw : s.wFind bid with
      | some e =>
        obtain ⟨l1, l2, e1, e2⟩ := wFind_some hw
        simp only [Sys.sizeWrite, Sys.sizePrefetch, e2, e1]
        simp
        omega
      | none =>
        simp [Sys.sizeWrite, Sys.sizePrefetch]
        omega

theorem invalidate_sizes {s s' : Sys β} {canc : Nat → Bool} {bid : Nat} {found : Bool}
    (h : s.invalidate canc bid = some (s', found)) : s'.sizeWrite = s.sizeWrite ∧ s'.sizePrefetch = s.sizePrefetch := by
  unfold Sys.invalidate at h
  cases hf : s.pFind bid with
  | none => rw [hf] at h; simp at h; rw [← h.1]; exact ⟨rfl, rfl⟩
  | some e =>
    obtain ⟨_, l1, l2, e1, e2⟩ := pFind_some hf
    rw [hf] at h
    simp only at h
    split at h
    · simp at h
    · simp at h
      rw [← h.1]
      simp only [Sys.sizeWrite, Sys.sizePrefetch, e2, e1]
      simp
      omega

/-- **C20** Sizes: `write` adds the passed buffer to the write pool, `steal` takes one out, `read`, `hint` and `invalidate`
leave the sizes of both pools unchanged (they exchange buffers). -/
theorem C20_sizes (s : Sys β) :
    (∀ canc sched buf bid s', s.write canc sched buf bid = some s' →
      s'.sizeWrite = s.sizeWrite + 1 ∧ s'.sizePrefetch = s.sizePrefetch) ∧
    (∀ pick sched s' buf, s.steal pick sched = some (s', buf) → s'.sizeWrite + 1 = s.sizeWrite ∧ s'.sizePrefetch = s.sizePrefetch) ∧
    (∀ buf bid, (s.read buf bid).1.sizeWrite = s.sizeWrite ∧ (s.read buf bid).1.sizePrefetch = s.sizePrefetch) ∧
    (∀ bid, (s.hint bid).sizeWrite = s.sizeWrite ∧ (s.hint bid).sizePrefetch = s.sizePrefetch) ∧
    (∀ canc bid s' found, s.invalidate canc bid = some (s', found) → s'.sizeWrite = s.sizeWrite ∧ s'.sizePrefetch = s.sizePrefetch) := by
  refine ⟨?_, fun pick sched s' buf h => (steal_perm (c := ⟨[], []⟩) h).2, ?_, fun bid => hint_sizes s bid,
    fun canc bid s' found h => invalidate_sizes h⟩
  · intro canc sched buf bid s' h
    unfold Sys.write at h
    cases h1 : s.wWrite canc buf bid with
    | none => rw [h1] at h; simp at h
    | some s1 =>
      rw [h1] at h
      simp only at h
      have p1 : s1.sizeWrite = s.sizeWrite + 1 ∧ s1.sizePrefetch = s.sizePrefetch := by
        unfold Sys.wWrite at h1
        split at h1
        · simp at h1
        · simp at h1
          rw [← h1]
          simp [Sys.sizeWrite, Sys.sizePrefetch]
          omega
      cases h2 : ({ s1 with io := s1.io.serveAll sched } : Sys β).invalidate canc bid with
      | none => rw [h2] at h; simp at h
      | some p =>
        obtain ⟨s2, found⟩ := p
        rw [h2] at h
        have p2 := invalidate_sizes h2
        have e1 : ({ s1 with io := s1.io.serveAll sched } : Sys β).sizeWrite = s1.sizeWrite := rfl
        have e2 : ({ s1 with io := s1.io.serveAll sched } : Sys β).sizePrefetch = s1.sizePrefetch := rfl
        simp only at h
        split at h
        · cases h
          have := hint_sizes s2 bid
          omega
        · cases h; omega
  · intro buf bid
    unfold Sys.read
    cases hf : s.pFind bid with
    | some e =>
      obtain ⟨_, l1, l2, e1, e2⟩ := pFind_some hf
      simp only [Sys.sizeWrite, Sys.sizePrefetch, e2, e1]
      simp
      omega
    | none =>
      cases hw : s.wFind bid with
      | some e =>
        obtain ⟨l1, l2, e1, e2⟩ := wFind_some hw
        simp only [Sys.sizeWrite, Sys.sizePrefetch, e2, e1]
        simp
        omega
      | none => exact ⟨rfl, rfl⟩

/-- **C20** `resize` of the prefetch pool gives the requested size, or the number of buffers in use if that is larger. -/
theorem C20_resize_prefetch (s : Sys β) (n : Nat) (fresh : List Nat) (h : n - s.sizePrefetch ≤ fresh.length) :
    (s.resizePrefetch n fresh).sizePrefetch = max n s.p.pbusy.length := by
  unfold Sys.resizePrefetch
  split
  · rename_i hlt; simp [Sys.sizePrefetch] at *; omega
  · rename_i hlt; simp [Sys.sizePrefetch] at *; omega

theorem stealLoop_size (picks : Nat → Nat) (sched : Nat → Nat → List Nat) : ∀ (k : Nat) (s s' : Sys β),
    Sys.stealLoop picks sched k s = some s' → s'.sizeWrite + k = s.sizeWrite := by
  intro k
  induction k with
  | zero => intro s s' h; simp [Sys.stealLoop] at h; rw [h]; rfl
  | succ k ih =>
    intro s s' h
    unfold Sys.stealLoop at h
    split at h
    · simp at h
    · rename_i s1 b hs
      have h1 := ((C20_sizes s).2.1 _ _ _ _ hs).1
      have h2 := ih s1 s' h
      omega

/-- **C20** `resize_write(n)` leaves a write pool of exactly `n` buffers. -/
theorem C20_resize_write (s s' : Sys β) (n : Nat) (fresh : List Nat) (picks : Nat → Nat) (sched : Nat → Nat → List Nat)
    (h : n - s.sizeWrite ≤ fresh.length) (hr : s.resizeWrite n fresh picks sched = some s') : s'.sizeWrite = n := by
  unfold Sys.resizeWrite at hr
  split at hr
  · rename_i hlt
    cases hr
    simp [Sys.sizeWrite] at *
    omega
  · have := stealLoop_size picks sched _ _ _ hr
    omega

/-- Non-vacuity: write 7 to block 3 (outstanding), overwrite it with 8, hint it (the outstanding write is handed over to
the prefetch pool), read it: the client holds an unfinished read of block 3 whose latest value is 8, the disk still has 0. -/
example : ∃ (s : Sys Nat) (c : Client) (spec : Nat → Nat) (e : PEntry), Reach s c spec ∧ e ∈ c.up ∧ e.bid = 3 ∧ spec 3 = 8 ∧
    s.io.disk 3 = 0 ∧ s.io.poll e.req = false ∧ s.sizePrefetch = 1 := by
  have h0 : Reach (β := Nat) _ _ _ := .new (fun _ => 0) (fun _ => 0) [10] [20] (by decide)
  have h1 := h0.step (.steal 0 (fun _ => []) 10 rfl)
  have h2 := h1.step (.fill 10 7 (by simp))
  have h3 := h2.step (.write (fun _ => true) [] 10 3 (by simp) (by simp [Client.open]) rfl)
  have h4 := h3.step (.newBuf 11 (by decide))
  have h5 := h4.step (.fill 11 8 (by simp))
  have h6 := h5.step (.write (fun _ => false) [] 11 3 (by simp) (by simp [Client.open]) rfl)
  have h7 := h6.step (.hint 3 (by simp [Client.open]))
  have h8 := h7.step (.newBuf 12 (by decide))
  have h9 := h8.step (.read 12 3 (by simp) (by simp [Client.open]))
  exact ⟨_, _, _, _, h9, List.mem_cons_self, rfl, by decide, by decide, by decide, by decide⟩

end Stxxl
