import Verif.LinuxAio.StepsW

/-! # Every step keeps the invariants -/

namespace Stxxl.LinuxAio

theorem inv_os {C : Cfg} {s s' : St} (I : Inv C s) {r : Req} {ok : Bool} (h : kstep s r ok = some s') : Inv C s' := by
  have aF := I.acctF
  have aP := I.acctP
  have pt := I.part
  have bx := I.box
  have i11 := I.lossW
  unfold kstep at h
  split at h <;> simp only [Option.some.injEq, reduceCtorEq] at h
  rename_i hr
  subst h
  have hl := List.length_erase_of_mem hr
  have hpos := List.length_pos_of_mem hr
  have hc := count_erase' s.inflight r
  have hcp := List.count_pos_iff.mpr hr
  refine { I with acctF := ?_, acctP := ?_, part := ?_, box := ?_, lossW := ?_, getW := ?_, failP := ?_ } <;> dsimp only
  · grind
  · grind
  · grind
  · grind
  · intro x hx
    have hrp : r ∈ s.posted := by
      have := pt r
      exact List.count_pos_iff.mp (by omega)
    have := I.failP x
    split at hx
    · exact this hx
    · rcases List.mem_append.mp hx with hx | hx
      · exact this hx
      · simp at hx; subst hx; exact hrp
  · intro hd hw
    have := i11 hd hw
    constructor
    · intro hx; have := (this.1 hx).1; rw [this] at hr; simp at hr
    · intro hx; have := hx.2; simp at this
  · intro _ _; simp only [List.length_append, List.length_singleton]; omega

theorem inv_dtor {C : Cfg} {s s' : St} (I : Inv C s) (h : dstep s = some s') : Inv C s' := by
  have aW := I.acctW
  have aP := I.acctP
  have ds := I.dst
  have hi := I.didle
  have c1 : s.dtor ≠ .no → s.users.countP isPost = 0 := fun hd => countP_idle rfl (hi hd)
  have c2 : s.dtor ≠ .no → s.users.countP isWait = 0 := fun hd => countP_idle rfl (hi hd)
  unfold dstep at h
  unfold dState at ds
  split at h
  · rename_i hd
    simp only [Option.some.injEq] at h
    subst h
    rw [hd] at aW aP ds
    have c1 := c1 (by simp [hd])
    have c2 := c2 (by simp [hd])
    have pl := I.pleft
    have wl := I.wleft
    rw [hd] at pl wl
    simp only [dtokP, dtokW] at aW aP
    have hw : tokP s.ppc = 1 → s.waiting ≠ [] := by
      intro ht he
      rw [he] at aW; simp only [List.length_nil] at aW; omega
    refine { I with acctW := ?_, acctP := ?_, dst := ?_, didle := ?_, pleft := ?_, wleft := ?_, lookW := ?_, chkW := ?_, lossP := ?_, latePb := ?_, lossW := ?_, getW := ?_, lateWb := ?_ } <;> dsimp only [dtokP, dtokW, dState]
    · omega
    · omega
    · exact ds
    · exact fun _ => hi (by simp [hd])
    · simp
    · intro hx; have := wl hx; simp at this
    · intro hx _; exact hw (by rw [hx]; rfl)
    · intro v hx _ _; exact hw (by rw [hx]; rfl)
    · intro _ hx
      have := hw (by rcases hx with hx | hx | hx <;> rw [hx] <;> rfl)
      simp [hx, this]
    · intro _ hx; simpa using hx
    · simp
    · simp
    · simp
  · rename_i hd
    split at h <;> simp only [Option.some.injEq, reduceCtorEq] at h
    rename_i hg
    subst h
    have pl := I.pleft
    have wl := I.wleft
    have l1 := I.lossP
    have l2 := I.latePb
    rw [hd] at aW aP ds pl wl l1 l2
    simp only [dtokP, dtokW] at aW aP
    refine { I with acctW := ?_, acctP := ?_, dst := ?_, didle := ?_, pleft := ?_, wleft := ?_, lookW := ?_, chkW := ?_, lossP := ?_, latePb := ?_, lossW := ?_, getW := ?_, lateWb := ?_ } <;> dsimp only [dtokP, dtokW, dState]
    · omega
    · omega
    · exact ⟨hg, ds.2⟩
    · exact fun _ => hi (by simp [hd])
    · simp
    · intro hx; have := wl hx; simp at this
    · simp [hg]
    · simp [hg]
    · exact l1
    · exact l2
    · simp
    · simp
    · simp
  · rename_i hd
    simp only [Option.some.injEq] at h
    subst h
    have pl := I.pleft
    have wl := I.wleft
    have l1 := I.lossP
    have l2 := I.latePb
    rw [hd] at aW aP ds pl wl l1 l2
    simp only [dtokP, dtokW] at aW aP
    refine { I with acctW := ?_, acctP := ?_, dst := ?_, didle := ?_, pleft := ?_, wleft := ?_, lookW := ?_, chkW := ?_, lossP := ?_, latePb := ?_, lossW := ?_, getW := ?_, lateWb := ?_ } <;> dsimp only [dtokP, dtokW, dState]
    · omega
    · omega
    · refine ⟨ds.1, ?_⟩
      have : s.wpc ≠ .gone := by intro hx; have := wl (.inr hx); simp at this
      simp [this]
    · exact fun _ => hi (by simp [hd])
    · simp
    · intro hx; have := wl hx; simp at this
    · simp [ds.1]
    · simp [ds.1]
    · exact l1
    · exact l2
    · simp
    · simp
    · simp
  · rename_i hd
    simp only [Option.some.injEq] at h
    subst h
    have pl := I.pleft
    have wl := I.wleft
    have l1 := I.lossP
    have l2 := I.latePb
    rw [hd] at aW aP ds pl wl l1 l2
    simp only [dtokP, dtokW] at aW aP
    rw [ds.1] at aP
    simp only [incP, evP, decP, List.length_nil] at aP
    refine { I with acctW := ?_, acctP := ?_, dst := ?_, didle := ?_, pleft := ?_, wleft := ?_, lookW := ?_, chkW := ?_, lossP := ?_, latePb := ?_, lossW := ?_, getW := ?_, lateWb := ?_ } <;> dsimp only [dtokP, dtokW, dState]
    · omega
    · rw [ds.1]; simp only [incP, evP, decP, List.length_nil]; omega
    · exact ds
    · exact fun _ => hi (by simp [hd])
    · simp
    · simp
    · simp [ds.1]
    · simp [ds.1]
    · exact l1
    · exact l2
    · intro _ hx
      have : ¬ (s.inflight = [] ∧ s.done = []) := by
        rintro ⟨h1, h2⟩
        rw [h1, h2] at aP
        have e1 : tokW s.wpc = 1 := by rcases hx with hx | hx | hx <;> rw [hx] <;> rfl
        have e2 : evW s.wpc = [] := by rcases hx with hx | hx | hx <;> rw [hx] <;> rfl
        have e3 : decW s.wpc = 0 := by rcases hx with hx | hx | hx <;> rw [hx] <;> rfl
        rw [e1, e2, e3] at aP
        simp at aP
      simp only [decide_eq_false_iff_not, hx, not_true, false_iff]
      exact this
    · intro _ hx
      have e1 : tokW s.wpc = 1 := by rcases hx with hx | ⟨v, _, hx⟩ <;> rw [hx] <;> rfl
      have e2 : evW s.wpc = [] := by rcases hx with hx | ⟨v, _, hx⟩ <;> rw [hx] <;> rfl
      have e3 : decW s.wpc = 0 := by rcases hx with hx | ⟨v, _, hx⟩ <;> rw [hx] <;> rfl
      rw [e1, e2, e3] at aP
      simp only [List.length_nil] at aP
      omega
    · intro _ hx; simpa using hx
  · rename_i hd
    split at h <;> simp only [Option.some.injEq, reduceCtorEq] at h
    rename_i hg
    subst h
    have l1 := I.lossP
    have l2 := I.latePb
    have l3 := I.lossW
    have l4 := I.lateWb
    rw [hd] at aW aP ds l1 l2 l3 l4
    simp only [dtokP, dtokW] at aW aP
    refine { I with acctW := ?_, acctP := ?_, dst := ?_, didle := ?_, pleft := ?_, wleft := ?_, lookW := ?_, chkW := ?_, lossP := ?_, latePb := ?_, lossW := ?_, getW := ?_, lateWb := ?_ } <;> dsimp only [dtokP, dtokW, dState]
    · omega
    · omega
    · exact ⟨ds.1, hg⟩
    · exact fun _ => hi (by simp [hd])
    · simp
    · simp
    · simp [ds.1]
    · simp [ds.1]
    · exact l1
    · exact l2
    · exact l3
    · simp [hg]
    · exact l4
  · simp at h

/-- A change of one user thread that does not touch the mutex, while no destructor runs. -/
theorem inv_setUser {C : Cfg} {s : St} (I : Inv C s) {i : Nat} {u v : UPc} (hi : s.users[i]? = some u)
    (hu : isHold u = false) (hv : isHold v = false) (hd : s.dtor = .no) (hv2 : ∀ r, v = .addPush r → Fresh s r) :
    Inv C { s with users := s.users.set i v } := by
  simp only [isHold, Bool.or_eq_false_iff] at hu hv
  have c1 := countP_set' (p := isPost) (v := v) hi
  have c2 := countP_set' (p := isWait) (v := v) hi
  rw [hu.1, hv.1] at c1
  rw [hu.2, hv.2] at c2
  have aW := I.acctW
  refine { I with acctW := ?_, frsh := ?_, uniq := ?_, canW := ?_, own1 := ?_, own2 := ?_, didle := ?_ } <;> dsimp only
  · simp at c1 c2; omega
  · intro j r hj
    rcases get_set hi hj with ⟨rfl, h⟩ | ⟨_, h⟩
    · exact (hv2 r h.symm).1
    · exact I.frsh j r h
  · intro j k r hj hk
    rcases get_set hi hj with ⟨rfl, h⟩ | ⟨h1, h⟩ <;> rcases get_set hi hk with ⟨rfl, h'⟩ | ⟨h2, h'⟩
    · rfl
    · exact absurd (List.mem_of_getElem? h') (hv2 r h.symm).2
    · exact absurd (List.mem_of_getElem? h) (hv2 r h'.symm).2
    · exact I.uniq j k r h h'
  · intro j r hj
    rcases get_set hi hj with ⟨rfl, h⟩ | ⟨_, h⟩
    · rw [← h] at hv; simp [isPost, isWait] at hv
    · exact I.canW j r h
  · intro j hj
    obtain ⟨w, hw, hh⟩ := I.own1 j hj
    refine ⟨w, ?_, hh⟩
    have : j ≠ i := by
      rintro rfl
      rw [hi] at hw; cases hw
      simp [isHold, hu] at hh
    rw [List.getElem?_set_ne (by omega)]; exact hw
  · intro j w hj hh
    rcases get_set hi hj with ⟨rfl, h⟩ | ⟨_, h⟩
    · rw [h] at hh; simp [isHold, hv] at hh
    · exact I.own2 j w h hh
  · intro h; exact absurd hd h

theorem inv_user {C : Cfg} {s s' : St} (I : Inv C s) {i : Nat} (h : ustep s i = some s') : Inv C s' := by
  have aW := I.acctW
  unfold ustep at h
  split at h
  · -- addPush
    rename_i r hi
    split at h <;> simp only [Option.some.injEq, reduceCtorEq] at h
    rename_i ho
    subst h
    have hd := I.active hi (by simp)
    have c1 := countP_set' (p := isPost) (v := .addPost r) hi
    have c2 := countP_set' (p := isWait) (v := .addPost r) hi
    simp [isPost, isWait] at c1 c2
    have hfr := I.frsh i r hi
    refine { I with acctW := ?_, fifo := ?_, nodup := ?_, canSub := ?_, frsh := ?_, uniq := ?_, canW := ?_, own1 := ?_, own2 := ?_, didle := ?_, lookW := ?_, chkW := ?_, lossP := ?_ } <;> dsimp only
    · simp only [List.length_append, List.length_singleton]; omega
    · have hrc : r ∉ s.cancelled := fun hc => hfr (I.canSub r hc)
      rw [List.filter_append, I.fifo]
      simp [hrc]
    · rw [List.nodup_append]
      refine ⟨I.nodup, by simp, ?_⟩
      intro a ha b hb; simp at hb; subst hb; rintro rfl; exact hfr ha
    · intro x hx; exact List.mem_append_left _ (I.canSub x hx)
    · intro j q hj
      rcases get_set hi hj with ⟨rfl, h⟩ | ⟨hne, h⟩
      · cases h
      · have := I.frsh j q h
        simp only [List.mem_append, List.mem_singleton, not_or]
        refine ⟨this, ?_⟩
        rintro rfl; exact hne (I.uniq j i q h hi)
    · intro j k q hj hk
      rcases get_set hi hj with ⟨rfl, h⟩ | ⟨h1, h⟩
      · cases h
      rcases get_set hi hk with ⟨rfl, h'⟩ | ⟨h2, h'⟩
      · cases h'
      exact I.uniq j k q h h'
    · intro j q hj
      rcases get_set hi hj with ⟨rfl, h⟩ | ⟨hne, h⟩
      · cases h
      · exact I.canW j q h
    · intro j hj
      cases hj
      exact ⟨.addPost r, by grind, rfl⟩
    · intro j w hj hh
      rcases get_set hi hj with ⟨rfl, h⟩ | ⟨_, h⟩
      · rfl
      · have := I.own2 j w h hh; rw [ho] at this; cases this
    · intro h; exact absurd hd h
    · intro _ h; rw [hd] at h; simp [dtokP] at h
    · intro _ _ _ h; rw [hd] at h; simp [dtokP] at h
    · intro h; rw [hd] at h; simp [dtokP] at h
  · -- addPost
    rename_i r hi
    simp only [Option.some.injEq] at h
    subst h
    have hd := I.active hi (by simp)
    have c1 := countP_set' (p := isPost) (v := .idle) hi
    have c2 := countP_set' (p := isWait) (v := .idle) hi
    simp [isPost, isWait] at c1 c2
    have hoi := I.own2 i _ hi rfl
    refine { I with acctW := ?_, frsh := ?_, uniq := ?_, canW := ?_, own1 := ?_, own2 := ?_, didle := ?_ } <;> dsimp only
    · omega
    · intro j q hj
      rcases get_set hi hj with ⟨rfl, h⟩ | ⟨hne, h⟩
      · cases h
      · exact I.frsh j q h
    · intro j k q hj hk
      rcases get_set hi hj with ⟨rfl, h⟩ | ⟨h1, h⟩
      · cases h
      rcases get_set hi hk with ⟨rfl, h'⟩ | ⟨h2, h'⟩
      · cases h'
      exact I.uniq j k q h h'
    · intro j q hj
      rcases get_set hi hj with ⟨rfl, h⟩ | ⟨hne, h⟩
      · cases h
      · exact I.canW j q h
    · intro j hj; cases hj
    · intro j w hj hh
      rcases get_set hi hj with ⟨rfl, h⟩ | ⟨hne, h⟩
      · rw [h] at hh; cases hh
      · have := I.own2 j w h hh; rw [hoi] at this; cases this; exact absurd rfl hne
    · intro h; exact absurd hd h
  · -- canFind
    rename_i r hi
    have hd := I.active hi (by simp)
    split at h
    swap
    · simp at h
    rename_i ho
    split at h <;> simp only [Option.some.injEq] at h <;> subst h
    · rename_i hr
      have c1 := countP_set' (p := isPost) (v := .canWait r) hi
      have c2 := countP_set' (p := isWait) (v := .canWait r) hi
      simp [isPost, isWait] at c1 c2
      have hff := I.fifo
      have hl := List.length_erase_of_mem hr
      have hpos := List.length_pos_of_mem hr
      have hrf : r ∈ s.pushed.filter (fun r => decide (r ∉ s.cancelled)) := by
        rw [hff]; exact List.mem_append_right _ hr
      rw [List.mem_filter] at hrf
      have hrc : r ∉ s.cancelled := by simpa using hrf.2
      refine { I with acctW := ?_, fifo := ?_, canSub := ?_, canNodup := ?_, frsh := ?_, uniq := ?_, canW := ?_, own1 := ?_, own2 := ?_, didle := ?_, lookW := ?_, chkW := ?_, lossP := ?_ } <;> dsimp only
      · omega
      · exact filter_cancel I.nodup hff hr
      · intro x hx
        rcases List.mem_append.mp hx with hx | hx
        · exact I.canSub x hx
        · simp at hx; subst hx; exact hrf.1
      · rw [List.nodup_append]
        refine ⟨I.canNodup, by simp, ?_⟩
        intro a ha b hb; simp at hb; subst hb; rintro rfl; exact hrc ha
      · intro j q hj
        rcases get_set hi hj with ⟨rfl, h⟩ | ⟨hne, h⟩
        · cases h
        · exact I.frsh j q h
      · intro j k q hj hk
        rcases get_set hi hj with ⟨rfl, h⟩ | ⟨h1, h⟩
        · cases h
        rcases get_set hi hk with ⟨rfl, h'⟩ | ⟨h2, h'⟩
        · cases h'
        exact I.uniq j k q h h'
      · intro j q hj
        rcases get_set hi hj with ⟨rfl, h⟩ | ⟨hne, h⟩
        · cases h; simp
        · exact List.mem_append_left _ (I.canW j q h)
      · intro j hj
        cases hj
        exact ⟨.canWait r, by grind, rfl⟩
      · intro j w hj hh
        rcases get_set hi hj with ⟨rfl, h⟩ | ⟨_, h⟩
        · rfl
        · have := I.own2 j w h hh; rw [ho] at this; cases this
      · intro h; exact absurd hd h
      · intro _ h; rw [hd] at h; simp [dtokP] at h
      · intro _ _ _ h; rw [hd] at h; simp [dtokP] at h
      · intro h; rw [hd] at h; simp [dtokP] at h
    · exact inv_setUser I hi rfl rfl hd (by simp)
  · -- canWait
    rename_i r hi
    split at h <;> simp only [Option.some.injEq, reduceCtorEq] at h
    rename_i hn
    subst h
    have hd := I.active hi (by simp)
    have c1 := countP_set' (p := isPost) (v := .idle) hi
    have c2 := countP_set' (p := isWait) (v := .idle) hi
    simp [isPost, isWait] at c1 c2
    have hoi := I.own2 i _ hi rfl
    refine { I with acctW := ?_, frsh := ?_, uniq := ?_, canW := ?_, own1 := ?_, own2 := ?_, didle := ?_ } <;> dsimp only
    · omega
    · intro j q hj
      rcases get_set hi hj with ⟨rfl, h⟩ | ⟨hne, h⟩
      · cases h
      · exact I.frsh j q h
    · intro j k q hj hk
      rcases get_set hi hj with ⟨rfl, h⟩ | ⟨h1, h⟩
      · cases h
      rcases get_set hi hk with ⟨rfl, h'⟩ | ⟨h2, h'⟩
      · cases h'
      exact I.uniq j k q h h'
    · intro j q hj
      rcases get_set hi hj with ⟨rfl, h⟩ | ⟨hne, h⟩
      · cases h
      · exact I.canW j q h
    · intro j hj; cases hj
    · intro j w hj hh
      rcases get_set hi hj with ⟨rfl, h⟩ | ⟨hne, h⟩
      · rw [h] at hh; cases hh
      · have := I.own2 j w h hh; rw [hoi] at this; cases this; exact absurd rfl hne
    · intro h; exact absurd hd h
  · simp at h

theorem inv_stop {C : Cfg} {s : St} (I : Inv C s) (hi : ∀ u ∈ s.users, u = .idle) (hd : s.dtor = .no) :
    Inv C { s with pts := .terminating, dtor := .setP } := by
  have aW := I.acctW
  have aP := I.acctP
  have ds := I.dst
  have pl := I.pleft
  have wl := I.wleft
  unfold dState at ds
  rw [hd] at aW aP ds pl wl
  simp only [dtokP, dtokW] at aW aP
  refine { I with acctW := ?_, acctP := ?_, dst := ?_, didle := ?_, pleft := ?_, wleft := ?_, lookW := ?_, chkW := ?_, lossP := ?_, latePb := ?_, lossW := ?_, getW := ?_, lateWb := ?_ } <;> dsimp only [dtokP, dtokW, dState]
  · omega
  · omega
  · have : s.ppc ≠ .gone := by intro hx; have := pl (.inr hx); simp at this
    simp [this, ds.2]
  · exact fun _ => hi
  · simp
  · intro hx; have := wl hx; simp at this
  all_goals simp

theorem inv_istep {C : Cfg} {s s' : St} (I : Inv C s) (h : IStep C s s') : Inv C s' := by
  cases h with
  | user _ h => exact inv_user I h
  | post _ h => exact inv_post I h
  | wait _ h => exact inv_wait I h
  | os _ _ h => exact inv_os I h
  | dtor hh => exact inv_dtor I hh

theorem inv_step {C : Cfg} {s s' : St} (I : Inv C s) (h : Step C s s') : Inv C s' := by
  cases h with
  | add i r hi hd hf => exact inv_setUser I hi rfl rfl hd (by intro q hq; cases hq; exact hf)
  | cancel i r hi hd => exact inv_setUser I hi rfl rfl hd (by simp)
  | stop hi hd => exact inv_stop I hi hd
  | internal _ hh => exact inv_istep I hh

theorem reach_inv {C : Cfg} {n : Nat} {s : St} (h : Reach C n s) : Inv C s := by
  induction h with
  | init => exact inv_init C n
  | step _ st ih => exact inv_step ih st

end Stxxl.LinuxAio
