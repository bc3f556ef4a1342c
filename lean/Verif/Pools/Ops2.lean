import Verif.Pools.Ops

/-!
# Writing, stealing, resizing
-/

namespace Stxxl.Pools
open Stxxl.Io Stxxl.Io.Io Stxxl.ExtVector
variable {β : Type} {D Q : Nat → Prop} {s : Sys β} {c : Client} {spec : Nat → β}

/-- Cancelling an obsolete write. -/
theorem Inv.cancelWrite (h : Inv D Q s c spec) {bid i : Nat} (hD : ¬ D bid) (hw : ∀ e ∈ s.p.wbusy, e.bid ≠ some bid)
    (hr : ∀ r, s.io.rqs[i]? = some r → r.isWrite = true ∧ r.bid = bid) (ok : Bool) :
    Inv D Q { s with io := s.io.cancel ok i } c spec := by
  have hl := cancel_later s.io ok i
  have hpw : ∀ j r, Pend s.io j r → r.bid ≠ bid → Pend (s.io.cancel ok i) j r := by
    intro j r hp hb
    refine cancel_pend _ _ _ ?_ hp
    rintro rfl
    exact hb (hr r hp.1).2
  have hne : ∀ b, D b → b ≠ bid := by rintro b hb rfl; exact hD hb
  have hnew : ∀ j b, D b → Newest (s.io.cancel ok i) j b → Newest s.io j b := by
    intro j b hb hn k r hk hw hbk
    refine hn k r (hpw k r hk ?_) hw hbk
    rw [hbk]; exact hne b hb
  refine ⟨h.nod, h.keys, ?_, fun j r hp => h.own j r (hl.pend hp), ?_, ?_, ?_, ?_, ?_, h.upD, h.QD⟩
  · intro b j hb
    obtain ⟨r, h1, h2⟩ := h.ex b j hb
    obtain ⟨r', h3, _, h4, _⟩ := hl.keep j r h1
    exact ⟨r', h3, h4.trans h2⟩
  · intro b hb
    refine ⟨fun j r hj hw hbj hn => ?_, fun hn => ?_⟩
    · dsimp only; rw [(cancel_mem _ _ _).1]
      exact (h.dsk b hb).1 j r (hl.pend hj) hw hbj (hnew j b hb hn)
    · dsimp only; rw [(cancel_mem _ _ _).2]
      refine (h.dsk b hb).2 (fun j r hj hw hbj => ?_)
      exact hn j r (hpw j r hj (by rw [hbj]; exact hne b hb)) hw hbj
  · intro j r hp hw hn hd
    exact h.last j r (hl.pend hp) hw (hnew _ _ hd hn) hd
  · intro x hx b hb
    obtain ⟨r, h1, h2, h3, h4, h5⟩ := h.wb x hx b hb
    refine ⟨r, cancel_get _ _ _ ?_ h1, h2, h3, h4, by dsimp only; rw [(cancel_mem _ _ _).1]; exact h5⟩
    intro hxe
    rw [hxe] at h1
    apply hw x hx
    rw [hb, ← h2, (hr r h1).2]
  · intro x hx hqx
    have hx' := h.pb x hx hqx
    refine hx'.cancel ?_
    intro hxe
    obtain ⟨r, h1, _, h3, _⟩ := hx'
    rw [hxe] at h1
    refine hne _ (h.QD _ hqx) ?_
    rw [← h3, (hr r h1).2]
  · intro x hx
    have hx' := h.up x hx
    refine hx'.cancel ?_
    intro hxe
    obtain ⟨r, h1, _, h3, _⟩ := hx'
    rw [hxe] at h1
    refine hne _ (h.upD x hx) ?_
    rw [← h3, (hr r h1).2]

theorem Inv.cancelAll {bid : Nat} (hD : ¬ D bid) (canc : Nat → Bool) (l : List Nat) : ∀ {s : Sys β}, Inv D Q s c spec →
    (∀ e ∈ s.p.wbusy, e.bid ≠ some bid) →
    (∀ i ∈ l, ∀ r, s.io.rqs[i]? = some r → r.isWrite = true ∧ r.bid = bid) →
    Inv D Q { s with io := Sys.cancelAll s.io canc l } c spec ∧ (Sys.cancelAll s.io canc l).mem = s.io.mem := by
  induction l with
  | nil => intro s h _ _; exact ⟨h, rfl⟩
  | cons i l ih =>
    intro s h hw hr
    have h1 := h.cancelWrite hD hw (hr i (by simp)) (canc i)
    obtain ⟨h2, h3⟩ := ih h1 hw (by
      intro j hj r hjr
      obtain ⟨r0, e0, a, _, b, _⟩ := (cancel_later s.io (canc i) i).back hjr
      have := hr j (by simp [hj]) r0 e0
      rw [a, b]; exact this)
    exact ⟨h2, by rw [Sys.cancelAll]; exact h3.trans (cancel_mem _ _ _).1⟩

/-- Submitting the new write. -/
theorem Inv.issueWrite {bid buf : Nat} (h : Inv (fun b => b ≠ bid) (fun b => b ≠ bid) s c spec) (hb : buf ∈ c.held)
    (hw : ∀ e ∈ s.p.wbusy, e.bid ≠ some bid) :
    Inv (fun _ => True) (fun b => b ≠ bid)
      { io := s.io.issue true buf bid, p := { s.p with wbusy := s.p.wbusy ++ [⟨buf, s.io.rqs.length, some bid⟩] } }
      { c with held := c.held.erase buf } (upd spec bid (s.io.mem buf)) := by
  have hnewold : ∀ j b, b ≠ bid → Newest (s.io.issue true buf bid) j b → Newest s.io j b :=
    fun j b _ hn k r hk => hn k r (pend_issue.2 (.inr hk))
  have hlt : ∀ j r, Pend s.io j r → j < s.io.rqs.length := fun j r hp => (List.getElem?_eq_some_iff.1 hp.1).1
  have hnotnew : ∀ j r, Pend s.io j r → ¬ Newest (s.io.issue true buf bid) j bid := by
    intro j r hp hn
    have := hn s.io.rqs.length _ (pend_issue.2 (.inl ⟨rfl, rfl⟩)) rfl rfl
    have := hlt j r hp
    omega
  refine ⟨?_, h.keys, ?_, ?_, ?_, ?_, ?_, ?_, ?_, by simp, by simp⟩
  · refine List.Perm.nodup_iff ?_ |>.2 h.nod
    rw [List.perm_iff_count]
    intro a
    have := erase_perm hb a
    simp [allBufs, List.count_append, List.count_cons]
    omega
  · intro b i hb'
    simp only [ents, List.map_append, List.mem_append, List.map_cons, List.map_nil, List.mem_cons, List.not_mem_nil, or_false] at hb'
    rcases hb' with (hx | hx | hx) | hx
    · obtain ⟨r, h1, h2⟩ := h.ex b i (by simp [ents, hx]); exact ⟨r, issue_get h1, h2⟩
    · obtain ⟨r, h1, h2⟩ := h.ex b i (by simp only [ents, List.mem_append]; exact .inl (.inr hx)); exact ⟨r, issue_get h1, h2⟩
    · cases hx; exact ⟨_, issue_get_new _ _ _ _, rfl⟩
    · obtain ⟨r, h1, h2⟩ := h.ex b i (by simp only [ents, List.mem_append]; exact .inr hx); exact ⟨r, issue_get h1, h2⟩
  · intro j r hp
    simp only [ents, List.map_append, List.mem_append, List.map_cons, List.map_nil, List.mem_cons, List.not_mem_nil, or_false]
    rcases pend_issue.1 hp with ⟨rfl, rfl⟩ | hp
    · exact .inl (.inr (.inr rfl))
    · have := h.own j r hp
      simp only [ents, List.mem_append] at this
      rcases this with (hx | hx) | hx
      · exact .inl (.inl hx)
      · exact .inl (.inr (.inl hx))
      · exact .inr hx
  · intro b _
    by_cases hbb : b = bid
    · subst hbb
      rw [upd_same]
      refine ⟨fun j r hj hwj hbj hn => ?_, fun hn => ?_⟩
      · rcases pend_issue.1 hj with ⟨_, rfl⟩ | hj
        · rfl
        · exact absurd hn (hnotnew j r hj)
      · exact absurd rfl (hn _ _ (pend_issue.2 (.inl ⟨rfl, rfl⟩)) rfl)
    · rw [upd_ne _ _ hbb]
      refine ⟨fun j r hj hwj hbj hn => ?_, fun hn => (h.dsk b hbb).2 (fun j r hj => hn j r (pend_issue.2 (.inr hj)))⟩
      rcases pend_issue.1 hj with ⟨_, rfl⟩ | hj
      · exact absurd hbj.symm hbb
      · exact (h.dsk b hbb).1 j r hj hwj hbj (hnewold j b hbb hn)
  · intro j r hj hwj hn _
    simp only [List.mem_append, List.mem_cons, List.not_mem_nil, or_false]
    rcases pend_issue.1 hj with ⟨rfl, rfl⟩ | hj
    · exact .inl (.inr rfl)
    · by_cases hbb : r.bid = bid
      · rw [hbb] at hn; exact absurd hn (hnotnew j r hj)
      · rcases h.last j r hj hwj (hnewold _ _ hbb hn) hbb with hm | hm | hm
        · exact .inl (.inl hm)
        · exact .inr (.inl hm)
        · exact .inr (.inr hm)
  · intro e he b hbe
    simp only [List.mem_append, List.mem_cons, List.not_mem_nil, or_false] at he
    rcases he with he | rfl
    · have hbb : b ≠ bid := by rintro rfl; exact hw e he hbe
      obtain ⟨r, h1, h2, h3, h4, h5⟩ := h.wb e he b hbe
      exact ⟨r, issue_get h1, h2, h3, h4, by rw [upd_ne _ _ hbb]; exact h5⟩
    · simp at hbe
      subst hbe
      exact ⟨_, issue_get_new _ _ _ _, rfl, rfl, by simp, by simp [issue]⟩
  · intro e he hq
    rw [upd_ne _ _ hq]
    exact (h.pb e he hq).issue (fun _ hc => hq hc.symm)
  · intro e he
    have := h.upD e he
    rw [upd_ne _ _ this]
    exact (h.up e he).issue (fun _ hc => this hc.symm)

theorem clearBid_buf (bid : Nat) (e : WEntry) : (Sys.clearBid bid e).buf = e.buf ∧ (Sys.clearBid bid e).req = e.req := by
  unfold Sys.clearBid; split <;> exact ⟨rfl, rfl⟩

theorem map_clear (bid : Nat) (l : List WEntry) :
    (l.map (Sys.clearBid bid)).map (·.buf) = l.map (·.buf) ∧
    (l.map (Sys.clearBid bid)).map (fun e => (e.buf, e.req)) = l.map (fun e => (e.buf, e.req)) := by
  constructor <;> rw [List.map_map] <;> apply List.map_congr_left <;> intro e _ <;> simp [clearBid_buf]

theorem Inv.wWrite {bid buf : Nat} (h : Ok s c spec) (hb : buf ∈ c.held) (ho : ¬ c.open bid) (canc : Nat → Bool) :
    ∃ s', s.wWrite canc buf bid = some s' ∧
      Inv (fun _ => True) (fun b => b ≠ bid) s' { c with held := c.held.erase buf } (upd spec bid (s.io.mem buf)) ∧
      s'.p.pfree = s.p.pfree ∧ s'.p.pbusy = s.p.pbusy := by
  unfold Sys.wWrite
  have hany : s.p.wbusy.any (fun e => decide (e.bid = some bid) && decide (e.buf = buf)) = false := by
    rw [List.any_eq_false]
    intro e he hc
    simp at hc
    refine h.free_not (b := buf) (i := e.req) (by simp [frees, hb]) ?_
    rw [← hc.2]; exact mem_ents_w he
  rw [if_neg (by simp [hany])]
  refine ⟨_, rfl, ?_, rfl, rfl⟩
  have h0 : Inv (fun b => b ≠ bid) (fun b => b ≠ bid) s c spec :=
    Inv.weaken h (by simp) (by simp) (fun e he hc => ho ⟨e, he, hc⟩) (by simp)
  have hmc := map_clear bid s.p.wbusy
  have h1 : Inv (fun b => b ≠ bid) (fun b => b ≠ bid) { s with p := { s.p with wbusy := s.p.wbusy.map (Sys.clearBid bid) } } c spec := by
    refine h0.move ?_ h.keys ?_ ?_ ?_ ?_ (fun e he hq => .inl ⟨he, hq⟩) (fun e he => .inl he) h0.upD h0.QD
    · simp only [allBufs, hmc.1]; exact h.nod
    · intro x hx; simp only [ents, hmc.2] at hx ⊢; exact hx
    · intro x hx _; simp only [ents, hmc.2] at hx ⊢; exact hx
    · intro b bf j r _ hbb hh
      rcases hh with hh | hh
      · refine .inl (List.mem_map.2 ⟨_, hh, ?_⟩)
        unfold Sys.clearBid
        rw [if_neg (by simp [hbb])]
      · exact .inr hh
    · intro e he hne
      obtain ⟨e0, he0, rfl⟩ := List.mem_map.1 he
      unfold Sys.clearBid at hne ⊢
      split
      · rename_i hc; rw [if_pos hc] at hne; simp at hne
      · exact he0
  have hclr : ∀ e ∈ s.p.wbusy.map (Sys.clearBid bid), e.bid ≠ some bid := by
    intro e he
    obtain ⟨e0, he0, rfl⟩ := List.mem_map.1 he
    unfold Sys.clearBid
    split
    · simp
    · assumption
  have hca := Inv.cancelAll (bid := bid) (by simp) canc
    ((s.p.wbusy.filter (fun e => decide (e.bid = some bid))).map (·.req)) h1 hclr (by
      intro i hi r hr
      obtain ⟨e, he, rfl⟩ := List.mem_map.1 hi
      simp at he
      obtain ⟨r', h1', h2', h3', _⟩ := h.wb e he.1 bid he.2
      have hr' : s.io.rqs[e.req]? = some r := hr
      rw [h1'] at hr'
      cases hr'
      exact ⟨h3', h2'⟩)
  have h2 := hca.1
  have hm := hca.2
  have h3 := h2.issueWrite hb hclr
  have hm' := congrFun hm buf
  dsimp only at hm'
  rw [← hm']
  exact h3

theorem Inv.write {bid buf : Nat} (h : Ok s c spec) (hb : buf ∈ c.held) (ho : ¬ c.open bid) (canc : Nat → Bool) (sched : List Nat) :
    ∃ s', s.write canc sched buf bid = some s' ∧ Ok s' { c with held := c.held.erase buf } (upd spec bid (s.io.mem buf)) := by
  obtain ⟨s1, e1, h1, _⟩ := Inv.wWrite h hb ho canc
  have h2 := h1.serveAll sched
  obtain ⟨s2, found, e2, h3, _⟩ := h2.invalidate canc
  unfold Sys.write
  rw [e1]
  simp only
  rw [e2]
  simp only
  split
  · exact ⟨_, rfl, Inv.hint h3 trivial ho⟩
  · exact ⟨_, rfl, h3⟩

/-! ## Stealing -/

theorem checkAllBusy_spec (sched : Nat → List Nat) (es : List WEntry) : ∀ (io : Io β),
    ∃ l, (Sys.checkAllBusy sched es io).1 = io.serveAll l ∧
      (Sys.checkAllBusy sched es io).2.2.Sublist es ∧
      (∀ a, List.count a (Sys.checkAllBusy sched es io).2.1 + List.count a ((Sys.checkAllBusy sched es io).2.2.map (·.buf)) =
        List.count a (es.map (·.buf))) ∧
      (Sys.checkAllBusy sched es io).2.1.length + (Sys.checkAllBusy sched es io).2.2.length = es.length ∧
      ∀ e ∈ es, e ∈ (Sys.checkAllBusy sched es io).2.2 ∨ ∀ r, ¬ Pend (Sys.checkAllBusy sched es io).1 e.req r := by
  induction es with
  | nil => intro io; exact ⟨[], rfl, List.Sublist.refl _, by simp [Sys.checkAllBusy], rfl, by simp⟩
  | cons e es ih =>
    intro io
    obtain ⟨l, h1, h2, h3, hlen, h4⟩ := ih (io.serveAll (sched e.req))
    have happ : ∀ (a b : List Nat) (x : Io β), x.serveAll (a ++ b) = (x.serveAll a).serveAll b := by
      intro a
      induction a with
      | nil => intro b x; rfl
      | cons y a iha => intro b x; exact iha b _
    unfold Sys.checkAllBusy
    dsimp only
    generalize Sys.checkAllBusy sched es (io.serveAll (sched e.req)) = R at *
    obtain ⟨io2, fr, bs⟩ := R
    dsimp only at *
    by_cases hp : (io.serveAll (sched e.req)).poll e.req = true
    · rw [if_pos hp]
      refine ⟨sched e.req ++ l, by rw [happ]; exact h1, h2.trans (List.sublist_cons_self _ _), ?_, by simp; omega, ?_⟩
      · intro a; have := h3 a; simp [List.count_cons] at this ⊢; omega
      · intro x hx
        rcases List.mem_cons.1 hx with rfl | hx
        · refine .inr (fun r hpd => ?_)
          rw [h1] at hpd
          have := (serveAll_later _ l).pend hpd
          unfold poll at hp
          rw [this.1] at hp
          simp [this.2] at hp
        · exact h4 x hx
    · rw [if_neg hp]
      refine ⟨sched e.req ++ l, by rw [happ]; exact h1, h2.cons_cons _, ?_, by simp; omega, ?_⟩
      · intro a; have := h3 a; simp [List.count_cons] at this ⊢; omega
      · intro x hx
        rcases List.mem_cons.1 hx with rfl | hx
        · exact .inl (by simp)
        · rcases h4 x hx with h5 | h5
          · exact .inl (by simp [h5])
          · exact .inr h5

theorem getElem?_split {α : Type} {l : List α} {n : Nat} {a : α} (h : l[n]? = some a) :
    ∃ l1 l2, l = l1 ++ a :: l2 ∧ l.eraseIdx n = l1 ++ l2 := by
  refine ⟨l.take n, l.drop (n + 1), ?_, by rw [List.eraseIdx_eq_take_drop_succ]⟩
  have hlt := (List.getElem?_eq_some_iff.1 h)
  rw [← hlt.2, List.getElem_cons_drop, List.take_append_drop]

theorem steal_perm {s s' : Sys β} {c : Client} {pick buf : Nat} {sched : Nat → List Nat} (h : s.steal pick sched = some (s', buf)) :
    (allBufs s' { c with held := buf :: c.held }).Perm (allBufs s c) ∧ s'.sizeWrite + 1 = s.sizeWrite ∧ s'.sizePrefetch = s.sizePrefetch := by
  unfold Sys.steal at h
  cases hf : s.p.wfree.getLast? with
  | some b =>
    rw [hf] at h
    simp at h
    obtain ⟨rfl, rfl⟩ := h
    have hpf := getLast?_split hf
    refine ⟨?_, ?_, rfl⟩
    · rw [List.perm_iff_count]
      intro a
      have hc := congrArg (List.count a) hpf
      simp [List.count_append, List.count_cons] at hc
      simp only [allBufs]
      simp [List.count_append, List.count_cons]
      omega
    · have := congrArg List.length hpf
      simp at this
      simp [Sys.sizeWrite]
      omega
  | none =>
    rw [hf] at h
    simp only at h
    split at h
    · simp at h
    · rename_i e he
      obtain ⟨l1, l2, e1, e2⟩ := getElem?_split he
      split at h
      · simp at h
      · rename_i io1 hw
        simp at h
        obtain ⟨rfl, rfl⟩ := h
        rw [e2]
        obtain ⟨l, h1, h2, h3, hlen, h4⟩ := checkAllBusy_spec sched (l1 ++ l2) io1
        refine ⟨?_, ?_, rfl⟩
        · rw [List.perm_iff_count]
          intro a
          have := h3 a
          simp only [allBufs]
          rw [e1]
          simp [List.count_append, List.count_cons] at this ⊢
          omega
        · simp only [Sys.sizeWrite, e1]
          simp at hlen ⊢
          omega

theorem Inv.steal (h : Ok s c spec) {pick buf : Nat} {sched : Nat → List Nat} {s' : Sys β} (hs : s.steal pick sched = some (s', buf)) :
    Ok s' { c with held := buf :: c.held } spec := by
  have hnod := (steal_perm (c := c) hs).1.nodup_iff.2 h.nod
  unfold Sys.steal at hs
  cases hf : s.p.wfree.getLast? with
  | some b =>
    rw [hf] at hs
    simp at hs
    obtain ⟨rfl, rfl⟩ := hs
    exact Inv.move h hnod h.keys (fun x hx => hx) (fun x hx _ => hx) (fun _ _ _ _ _ _ hh => hh) (fun e he _ => he)
      (fun e he hq => .inl ⟨he, hq⟩) (fun e he => .inl he) (by simp) (by simp)
  | none =>
    rw [hf] at hs
    simp only at hs
    split at hs
    · simp at hs
    · rename_i e he
      obtain ⟨l1, l2, e1, e2⟩ := getElem?_split he
      split at hs
      · simp at hs
      · rename_i io1 hw
        simp at hs
        obtain ⟨rfl, rfl⟩ := hs
        have h1 := Inv.wait h hw
        obtain ⟨l, g1, g2, g3, _, g4⟩ := checkAllBusy_spec sched (s.p.wbusy.eraseIdx (pick % s.p.wbusy.length)) io1
        generalize Sys.checkAllBusy sched (s.p.wbusy.eraseIdx (pick % s.p.wbusy.length)) io1 = R at *
        obtain ⟨io2, fr, bs⟩ := R
        simp only at *
        subst g1
        have h2 := Inv.serveAll h1 l
        have hnp : ∀ r, ¬ Pend (io1.serveAll l) e.req r := fun r hp => wait_done hw r ((serveAll_later _ l).pend hp)
        rw [e2] at g2 g4
        have hsub : ∀ x ∈ bs, x ∈ s.p.wbusy := by
          intro x hx
          have := g2.subset hx
          rw [e1]
          simp at this ⊢
          rcases this with h | h <;> simp [h]
        have hkeep : ∀ x ∈ s.p.wbusy, (∃ r, Pend (io1.serveAll l) x.req r) → x ∈ bs := by
          intro x hx ⟨r, hp⟩
          rw [e1] at hx
          have : x ∈ l1 ++ l2 ∨ x = e := by
            simp at hx ⊢
            rcases hx with h | h | h <;> simp [h]
          rcases this with hx | rfl
          · rcases g4 x hx with h5 | h5
            · exact h5
            · exact absurd hp (h5 r)
          · exact absurd hp (hnp r)
        refine Inv.move (s := { s with io := io1.serveAll l }) h2 hnod h.keys ?_ ?_ ?_ (fun e he _ => hsub e he)
          (fun e he hq => .inl ⟨he, hq⟩) (fun e he => .inl he) (by simp) (by simp)
        · intro x hx
          simp only [ents, List.mem_append, List.mem_map] at hx ⊢
          rcases hx with (hx | ⟨y, hy, rfl⟩) | hx
          · exact .inl (.inl hx)
          · exact .inl (.inr ⟨y, hsub y hy, rfl⟩)
          · exact .inr hx
        · intro x hx hp
          simp only [ents, List.mem_append, List.mem_map] at hx ⊢
          rcases hx with (hx | ⟨y, hy, rfl⟩) | hx
          · exact .inl (.inl hx)
          · exact .inl (.inr ⟨y, hkeep y hy hp, rfl⟩)
          · exact .inr hx
        · intro b bf j r hp _ hh
          rcases hh with hh | hh
          · exact .inl (hkeep _ hh ⟨r, hp⟩)
          · exact .inr hh

theorem steal_some (h : Ok s c spec) (hn : 0 < s.sizeWrite) (pick : Nat) (sched : Nat → List Nat) :
    ∃ s' buf, s.steal pick sched = some (s', buf) := by
  unfold Sys.steal
  cases hf : s.p.wfree.getLast? with
  | some b => exact ⟨_, _, rfl⟩
  | none =>
    simp only
    have : s.p.wfree = [] := List.getLast?_eq_none_iff.1 hf
    have hpos : 0 < s.p.wbusy.length := by simpa [Sys.sizeWrite, this] using hn
    have hlt := Nat.mod_lt pick hpos
    rw [List.getElem?_eq_getElem hlt]
    simp only
    obtain ⟨r, hr, _⟩ := h.ex _ _ (mem_ents_w (c := c) (List.getElem_mem hlt))
    obtain ⟨io, hw⟩ := wait_some hr
    rw [hw]
    exact ⟨_, _, rfl⟩

/-- Changing the free lists and the client's buffers only. -/
theorem Inv.frees (h : Inv D Q s c spec) {wf pf held : List Nat}
    (hnod : (allBufs { s with p := { s.p with wfree := wf, pfree := pf } } { c with held := held }).Nodup) :
    Inv D Q { s with p := { s.p with wfree := wf, pfree := pf } } { c with held := held } spec :=
  Inv.move h hnod h.keys (fun x hx => hx) (fun x hx _ => hx) (fun _ _ _ _ _ _ hh => hh) (fun e he _ => he)
    (fun e he hq => .inl ⟨he, hq⟩) (fun e he => .inl he) h.upD h.QD

theorem Inv.dropHeld {b : Nat} (h : Inv D Q s { c with held := b :: c.held } spec) : Inv D Q s c spec := by
  have := h.frees (wf := s.p.wfree) (pf := s.p.pfree) (held := c.held) (by
    refine h.nod.sublist ?_
    simp [allBufs])
  exact this

theorem Inv.stealLoop (picks : Nat → Nat) (sched : Nat → Nat → List Nat) (k : Nat) : ∀ {s : Sys β}, Ok s c spec → k ≤ s.sizeWrite →
    ∃ s', Sys.stealLoop picks sched k s = some s' ∧ Ok s' c spec ∧ s'.sizeWrite + k = s.sizeWrite ∧ s'.sizePrefetch = s.sizePrefetch := by
  induction k with
  | zero => intro s h _; exact ⟨s, rfl, h, rfl, rfl⟩
  | succ k ih =>
    intro s h hk
    obtain ⟨s1, buf, e1⟩ := steal_some h (by omega) (picks k) (sched k)
    have hp := steal_perm (c := c) e1
    have h1 := (Inv.steal h e1).dropHeld
    obtain ⟨s', e2, h2, h3, h4⟩ := ih h1 (by omega)
    refine ⟨s', ?_, h2, by omega, by omega⟩
    unfold Sys.stealLoop
    rw [e1]; exact e2

theorem Inv.resizeWrite (h : Ok s c spec) (n : Nat) {fresh : List Nat} (picks : Nat → Nat) (sched : Nat → Nat → List Nat)
    (hf : (allBufs s c ++ fresh).Nodup) (hl : n - s.sizeWrite ≤ fresh.length) :
    ∃ s', s.resizeWrite n fresh picks sched = some s' ∧ Ok s' c spec ∧ s'.sizeWrite = n ∧ s'.sizePrefetch = s.sizePrefetch := by
  unfold Sys.resizeWrite
  split
  · refine ⟨_, rfl, ?_, ?_, rfl⟩
    · refine Inv.frees (pf := s.p.pfree) (held := c.held) h ?_
      have : (allBufs s c ++ fresh.take (n - s.sizeWrite)).Nodup := hf.sublist (List.Sublist.append_left (List.take_sublist _ _) _)
      refine List.Perm.nodup_iff ?_ |>.1 this
      rw [List.perm_iff_count]
      intro a
      simp [allBufs, List.count_append]
      omega
    · simp [Sys.sizeWrite] at hl ⊢; rename_i hlt; simp [Sys.sizeWrite] at hlt; omega
  · rename_i hlt
    obtain ⟨s', h1, h2, h3, h4⟩ := Inv.stealLoop picks sched (s.sizeWrite - n) h (by omega)
    exact ⟨s', h1, h2, by omega, h4⟩

theorem Inv.resizePrefetch (h : Ok s c spec) (n : Nat) {fresh : List Nat} (hf : (allBufs s c ++ fresh).Nodup) :
    Ok (s.resizePrefetch n fresh) c spec := by
  unfold Sys.resizePrefetch
  split
  · refine Inv.frees (wf := s.p.wfree) (held := c.held) h ?_
    have : (allBufs s c ++ fresh.take (n - s.sizePrefetch)).Nodup := hf.sublist (List.Sublist.append_left (List.take_sublist _ _) _)
    refine List.Perm.nodup_iff ?_ |>.1 this
    rw [List.perm_iff_count]
    intro a
    simp [allBufs, List.count_append]
    omega
  · refine Inv.frees (wf := s.p.wfree) (held := c.held) h ?_
    refine h.nod.sublist ?_
    simp only [allBufs]
    exact List.Sublist.append_right (List.Sublist.append_left (List.take_sublist _ _) _) _

/-! ## The client's own steps -/

theorem Inv.fill (h : Ok s c spec) {buf : Nat} (v : β) (hb : buf ∈ c.held) :
    Ok { s with io := { s.io with mem := upd s.io.mem buf v } } c spec := by
  have hne : ∀ b i, (b, i) ∈ ents s c → b ≠ buf := by
    rintro b i hbi rfl
    exact h.free_not (by simp [Pools.frees, hb]) hbi
  have hrd : ∀ {bid bf i : Nat} {w : β}, (bf, i) ∈ ents s c → RdOk s.io bid bf i w →
      RdOk { s.io with mem := upd s.io.mem buf v } bid bf i w := by
    intro bid bf i w hm ⟨r, h1, h2, h3, h4, h5, h6⟩
    exact ⟨r, h1, h2, h3, h4, fun hh => by dsimp only; rw [upd_ne _ _ (hne _ _ hm)]; exact h5 hh, h6⟩
  refine ⟨h.nod, h.keys, h.ex, h.own, ?_, h.last, ?_, ?_, ?_, h.upD, h.QD⟩
  · intro b hb'
    refine ⟨fun j r hj hw hbj hn => ?_, (h.dsk b hb').2⟩
    dsimp only
    rw [upd_ne _ _ (hne _ _ (h.own j r hj))]
    exact (h.dsk b hb').1 j r hj hw hbj hn
  · intro e he b hbe
    obtain ⟨r, h1, h2, h3, h4, h5⟩ := h.wb e he b hbe
    exact ⟨r, h1, h2, h3, h4, by dsimp only; rw [upd_ne _ _ (hne _ _ (mem_ents_w (c := c) he))]; exact h5⟩
  · intro e he hq; exact hrd (mem_ents_p he) (h.pb e he hq)
  · intro e he; exact hrd (mem_ents_u he) (h.up e he)

theorem Inv.foreign (h : Ok s c spec) {bid : Nat} (v : β) (h1 : ∀ e ∈ s.p.wbusy, e.bid ≠ some bid) (h2 : ∀ e ∈ s.p.pbusy, e.bid ≠ bid)
    (h3 : ¬ c.open bid) : Ok { s with io := { s.io with disk := upd s.io.disk bid v } } c (upd spec bid v) := by
  have hno := Inv.noPW h trivial h1 h2 h3
  refine ⟨h.nod, h.keys, h.ex, h.own, ?_, h.last, ?_, ?_, ?_, h.upD, h.QD⟩
  · intro b _
    by_cases hb : b = bid
    · subst hb
      rw [upd_same]
      exact ⟨fun j r hj hw hbj _ => absurd hbj (hno j r hj hw), fun _ => by dsimp only; rw [upd_same]⟩
    · rw [upd_ne _ _ hb]
      exact ⟨(h.dsk b trivial).1, fun hn => by dsimp only; rw [upd_ne _ _ hb]; exact (h.dsk b trivial).2 hn⟩
  · intro e he b hbe
    rw [upd_ne _ _ (by rintro rfl; exact h1 e he hbe)]
    exact h.wb e he b hbe
  · intro e he hq
    rw [upd_ne _ _ (h2 e he)]
    exact h.pb e he hq
  · intro e he
    rw [upd_ne _ _ (fun hc => h3 ⟨e, he, hc⟩)]
    exact h.up e he

theorem wait_perm {e : PEntry} {io : Io β} {up1 up2 : List PEntry} (hc : c.up = up1 ++ e :: up2) :
    (allBufs { s with io := io } { held := e.buf :: c.held, up := up1 ++ up2 }).Perm (allBufs s c) := by
  rw [List.perm_iff_count]
  intro a
  simp only [allBufs, hc]
  simp [List.count_append, List.count_cons]
  omega

theorem Inv.waitUp (h : Ok s c spec) {e : PEntry} {io : Io β} {up1 up2 : List PEntry} (hc : c.up = up1 ++ e :: up2)
    (hw : s.io.wait e.req = some io) : Ok { s with io := io } { held := e.buf :: c.held, up := up1 ++ up2 } spec := by
  have h1 := Inv.wait h hw
  have hnp := wait_done hw
  refine Inv.move (s := { s with io := io }) h1 ?_ h.keys ?_ ?_ ?_ (fun e he _ => he) (fun e he hq => .inl ⟨he, hq⟩) ?_ (by simp) (by simp)
  · exact (wait_perm hc).nodup_iff.2 h.nod
  · intro x hx
    simp only [ents, hc, List.map_append, List.mem_append, List.map_cons, List.mem_cons] at hx ⊢
    rcases hx with ((hx | hx) | hx) | hx <;> simp [hx]
  · intro x hx hp
    simp only [ents, hc, List.map_append, List.mem_append, List.map_cons, List.mem_cons] at hx ⊢
    rcases hx with ((hx | hx | hx) | hx) | hx
    · simp [hx]
    · subst hx; obtain ⟨r, hp⟩ := hp; exact absurd hp (hnp r)
    · simp [hx]
    · simp [hx]
    · simp [hx]
  · intro b bf j r hp hd hh
    simp only [hc, List.mem_append, List.mem_cons] at hh ⊢
    rcases hh with hh | hh | hh | hh | hh
    · exact .inl hh
    · exact .inr (.inl hh)
    · exact .inr (.inr (.inl hh))
    · subst hh; exact absurd hp (hnp r)
    · exact .inr (.inr (.inr hh))
  · intro x hx
    refine .inl ?_
    simp only [hc, List.mem_append, List.mem_cons] at hx ⊢
    rcases hx with hx | hx <;> simp [hx]

end Stxxl.Pools
