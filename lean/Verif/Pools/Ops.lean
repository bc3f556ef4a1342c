import Verif.Pools.Inv

/-!
# Every operation keeps the invariant
-/

namespace Stxxl.Pools
open Stxxl.Io Stxxl.Io.Io Stxxl.ExtVector
variable {β : Type} {D Q : Nat → Prop} {s : Sys β} {c : Client} {spec : Nat → β}

theorem Inv.weaken (h : Inv D Q s c spec) {D' Q' : Nat → Prop} (hD : ∀ b, D' b → D b) (hQ : ∀ b, Q' b → Q b)
    (hu : ∀ e ∈ c.up, D' e.bid) (hQD : ∀ b, Q' b → D' b) : Inv D' Q' s c spec :=
  ⟨h.nod, h.keys, h.ex, h.own, fun b hb => h.dsk b (hD b hb), fun j r hp hw hn hd => h.last j r hp hw hn (hD _ hd), h.wb,
    fun e he hq => h.pb e he (hQ _ hq), h.up, hu, hQD⟩

theorem exists_newest {io : Io β} {bid : Nat} (h : ¬ NoPW io bid) :
    ∃ j r, Pend io j r ∧ r.isWrite = true ∧ r.bid = bid ∧ Newest io j bid := by
  have key : ∀ n i r, io.rqs.length ≤ i + n → Pend io i r → r.isWrite = true → r.bid = bid →
      ∃ j r, Pend io j r ∧ r.isWrite = true ∧ r.bid = bid ∧ Newest io j bid := by
    intro n
    induction n with
    | zero =>
      intro i r hle hp
      have := (List.getElem?_eq_some_iff.1 hp.1).1
      omega
    | succ n ih =>
      intro i r hle hp hw hb
      by_cases hn : Newest io i bid
      · exact ⟨i, r, hp, hw, hb, hn⟩
      · simp only [Newest, Classical.not_forall] at hn
        obtain ⟨k, r', h1, h2, h3, h4⟩ := hn
        exact ih k r' (by omega) h1 h2 h3
  simp only [NoPW, Classical.not_forall, Classical.not_not] at h
  obtain ⟨i, r, h1, h2, h3⟩ := h
  exact key io.rqs.length i r (by omega) h1 h2 h3

theorem Inv.noPW (h : Inv D Q s c spec) {bid : Nat} (hD : D bid) (h1 : ∀ e ∈ s.p.wbusy, e.bid ≠ some bid)
    (h2 : ∀ e ∈ s.p.pbusy, e.bid ≠ bid) (h3 : ¬ c.open bid) : NoPW s.io bid := by
  apply Classical.byContradiction
  intro hc
  obtain ⟨j, r, hp, hw, hb, hn⟩ := exists_newest hc
  subst hb
  rcases h.last j r hp hw hn hD with hm | hm | hm
  · exact h1 _ hm rfl
  · exact h2 _ hm rfl
  · exact h3 ⟨_, hm, rfl⟩

theorem RdOk.issue {io : Io β} {bid buf i : Nat} {v : β} (h : RdOk io bid buf i v) {w : Bool} {b' bid' : Nat} (hb : w = true → bid' ≠ bid) :
    RdOk (io.issue w b' bid') bid buf i v := by
  obtain ⟨r, h1, h2, h3, h4, h5, h6⟩ := h
  refine ⟨r, issue_get h1, h2, h3, h4, h5, fun hp hw k r' hk hwk => ?_⟩
  rcases pend_issue.1 hk with ⟨_, rfl⟩ | hk
  · exact hb hwk
  · exact h6 hp hw k r' hk hwk

/-- Submitting a read of a block with no write outstanding. -/
theorem Inv.issueRead (h : Inv D Q s c spec) {buf bid : Nat} {p' : Pool} {c' : Client} (hno : NoPW s.io bid)
    (hnod : (allBufs { s with p := p' } c').Nodup)
    (hk : (p'.pbusy.map (·.bid)).Nodup)
    (he : ∀ x, x ∈ ents { s with p := p' } c' ↔ x = (buf, s.io.rqs.length) ∨ x ∈ ents s c)
    (hw : p'.wbusy = s.p.wbusy)
    (hp : ∀ e ∈ p'.pbusy, e = ⟨bid, buf, s.io.rqs.length⟩ ∨ e ∈ s.p.pbusy)
    (hp' : ∀ e ∈ s.p.pbusy, e ∈ p'.pbusy)
    (hu : ∀ e ∈ c'.up, e = ⟨bid, buf, s.io.rqs.length⟩ ∨ e ∈ c.up)
    (hu' : ∀ e ∈ c.up, e ∈ c'.up) (hD : D bid) :
    Inv D Q { io := s.io.issue false buf bid, p := p' } c' spec := by
  have hnew : RdOk (s.io.issue false buf bid) bid buf s.io.rqs.length (spec bid) := by
    refine ⟨_, issue_get_new _ _ _ _, rfl, rfl, by simp, fun hh => by simp at hh, fun _ _ k r' hk hwk => ?_⟩
    rcases pend_issue.1 hk with ⟨_, rfl⟩ | hk
    · simp at hwk
    · exact hno k r' hk hwk
  have hold : ∀ j r, Pend (s.io.issue false buf bid) j r → r.isWrite = true → Pend s.io j r := by
    intro j r hj hwj
    rcases pend_issue.1 hj with ⟨_, rfl⟩ | hj
    · simp at hwj
    · exact hj
  have hnewest : ∀ j b, Newest (s.io.issue false buf bid) j b → Newest s.io j b :=
    fun j b hn k r hk => hn k r (pend_issue.2 (.inr hk))
  refine ⟨hnod, hk, ?_, ?_, ?_, ?_, ?_, ?_, ?_, ?_, h.QD⟩
  · intro b i hb
    rcases (he _).1 hb with hb | hb
    · cases hb; exact ⟨_, issue_get_new _ _ _ _, rfl⟩
    · obtain ⟨r, h1, h2⟩ := h.ex b i hb
      exact ⟨r, issue_get h1, h2⟩
  · intro j r hj
    rcases pend_issue.1 hj with ⟨rfl, rfl⟩ | hj
    · exact (he _).2 (.inl rfl)
    · exact (he _).2 (.inr (h.own j r hj))
  · intro b hb
    refine ⟨fun j r hj hwj hbj hn => (h.dsk b hb).1 j r (hold j r hj hwj) hwj hbj (hnewest j b hn), fun hn => (h.dsk b hb).2 ?_⟩
    exact fun j r hj => hn j r (pend_issue.2 (.inr hj))
  · intro j r hj hwj hn hd
    rcases h.last j r (hold j r hj hwj) hwj (hnewest _ _ hn) hd with hm | hm | hm
    · exact .inl (by dsimp only; rw [hw]; exact hm)
    · exact .inr (.inl (hp' _ hm))
    · exact .inr (.inr (hu' _ hm))
  · intro e hem b hb
    dsimp only at hem
    rw [hw] at hem
    obtain ⟨r, h1, h2⟩ := h.wb e hem b hb
    exact ⟨r, issue_get h1, h2⟩
  · intro e hem hq
    rcases hp e hem with rfl | hem
    · exact hnew
    · exact (h.pb e hem hq).issue (by simp)
  · intro e hem
    rcases hu e hem with rfl | hem
    · exact hnew
    · exact (h.up e hem).issue (by simp)
  · intro e hem
    rcases hu e hem with rfl | hem
    · exact hD
    · exact h.upD e hem

theorem pFind_none {bid : Nat} (h : s.pFind bid = none) : ∀ e ∈ s.p.pbusy, e.bid ≠ bid := by
  intro e he hb
  have := List.find?_eq_none.1 h e he
  simp [hb] at this

theorem wFind_none {bid : Nat} (h : s.wFind bid = none) : ∀ e ∈ s.p.wbusy, e.bid ≠ some bid := by
  intro e he hb
  have := List.find?_eq_none.1 h e he
  simp [hb] at this

theorem wFind_some {bid : Nat} {e : WEntry} (h : s.wFind bid = some e) :
    ∃ l1 l2, s.p.wbusy = l1 ++ ⟨e.buf, e.req, some bid⟩ :: l2 ∧ s.wErase bid = l1 ++ l2 := by
  obtain ⟨l1, l2, h1, h2, h3, _⟩ := find_erase_split h
  simp at h3
  refine ⟨l1, l2, ?_, h2⟩
  rw [h1, ← h3]

theorem pFind_some {bid : Nat} {e : PEntry} (h : s.pFind bid = some e) :
    e.bid = bid ∧ ∃ l1 l2, s.p.pbusy = l1 ++ e :: l2 ∧ s.pErase bid = l1 ++ l2 := by
  obtain ⟨l1, l2, h1, h2, h3, _⟩ := find_erase_split h
  exact ⟨by simpa using h3, l1, l2, h1, h2⟩

theorem hint_perm (s : Sys β) (c : Client) (bid : Nat) : (allBufs (s.hint bid) c).Perm (allBufs s c) := by
  unfold Sys.hint
  cases hf : s.pFind bid with
  | some e => exact List.Perm.refl _
  | none =>
    cases hg : s.p.pfree.getLast? with
    | none => exact List.Perm.refl _
    | some b =>
      have hpf := getLast?_split hg
      cases hw : s.wFind bid with
      | some e =>
        obtain ⟨l1, l2, e1, e2⟩ := wFind_some hw
        rw [List.perm_iff_count]
        intro a
        simp only [allBufs]
        rw [e2, e1, show s.p.pfree = s.p.pfree.dropLast ++ [b] from hpf]
        simp [List.count_append, List.count_cons]
        omega
      | none =>
        rw [List.perm_iff_count]
        intro a
        simp only [allBufs]
        rw [show List.count a (c.held ++ List.map (fun x => x.buf) c.up ++ s.p.wfree ++ List.map (fun x => x.buf) s.p.wbusy ++ s.p.pfree ++
          List.map (fun x => x.buf) s.p.pbusy) = List.count a (c.held ++ List.map (fun x => x.buf) c.up ++ s.p.wfree ++ List.map (fun x => x.buf) s.p.wbusy ++ (s.p.pfree.dropLast ++ [b]) ++
          List.map (fun x => x.buf) s.p.pbusy) from by rw [← hpf]]
        simp [List.count_append, List.count_cons]


theorem Inv.hint (h : Inv D Q s c spec) {bid : Nat} (hD : D bid) (ho : ¬ c.open bid) : Inv D Q (s.hint bid) c spec := by
  have hperm := hint_perm s c bid
  have hnod := hperm.nodup_iff.2 h.nod
  unfold Sys.hint at hnod ⊢
  cases hf : s.pFind bid with
  | some e => exact h
  | none =>
    rw [hf] at hnod
    cases hg : s.p.pfree.getLast? with
    | none => exact h
    | some b =>
      rw [hg] at hnod
      have hpn := pFind_none hf
      have hkeys : (List.map (·.bid) (s.p.pbusy ++ [⟨bid, b, 0⟩])).Nodup := by
        simp only [List.map_append, List.map_cons, List.map_nil]
        rw [List.nodup_append]
        refine ⟨h.keys, by simp, ?_⟩
        intro a ha a' ha' hc
        simp at ha'
        subst ha' hc
        obtain ⟨e, he, hb⟩ := List.mem_map.1 ha
        exact hpn e he hb
      cases hw : s.wFind bid with
      | some e =>
        rw [hw] at hnod
        obtain ⟨l1, l2, e1, e2⟩ := wFind_some hw
        simp only at hnod ⊢
        refine h.move hnod ?_ ?_ ?_ ?_ ?_ ?_ ?_ h.upD h.QD
        · simpa using hkeys
        · intro x hx
          simp only [ents, e1, e2, List.map_append, List.mem_append, List.map_cons, List.mem_cons, List.map_nil, List.not_mem_nil, or_false] at hx ⊢
          rcases hx with (hx | hx | hx) | hx | hx <;> simp [hx]
        · intro x hx _
          simp only [ents, e1, e2, List.map_append, List.mem_append, List.map_cons, List.mem_cons, List.map_nil, List.not_mem_nil, or_false] at hx ⊢
          rcases hx with (hx | hx | hx | hx) | hx <;> simp [hx]
        · intro b' buf j r hp hd hh
          simp only [e1, e2, List.mem_append, List.mem_cons, List.not_mem_nil, or_false] at hh ⊢
          rcases hh with (hh | hh | hh) | hh | hh
          · exact .inl (.inl hh)
          · simp at hh; obtain ⟨rfl, rfl, rfl⟩ := hh; exact .inr (.inl (.inr rfl))
          · exact .inl (.inr hh)
          · exact .inr (.inl (.inl hh))
          · exact .inr (.inr hh)
        · intro e' he' _
          simp only [e1, e2, List.mem_append, List.mem_cons] at he' ⊢
          rcases he' with he' | he'
          · exact .inl he'
          · exact .inr (.inr he')
        · intro e' he' hq
          simp only [List.mem_append, List.mem_cons, List.not_mem_nil, or_false] at he'
          rcases he' with he' | rfl
          · exact .inl ⟨he', hq⟩
          · refine .inr ?_; rw [e1]; simp
        · intro e' he'; exact .inl he'
      | none =>
        rw [hw] at hnod
        simp only at hnod ⊢
        refine h.issueRead (h.noPW hD (wFind_none hw) hpn ho) hnod ?_ ?_ rfl ?_ ?_ (fun e he => .inr he) (fun e he => he) hD
        · simpa using hkeys
        · intro x
          simp only [ents, List.map_append, List.mem_append, List.map_cons, List.mem_cons, List.map_nil, List.not_mem_nil, or_false]
          constructor
          · rintro ((hx | hx) | hx | hx) <;> simp [hx]
          · rintro (hx | (hx | hx) | hx) <;> simp [hx]
        · intro e he
          simp only [List.mem_append, List.mem_cons, List.not_mem_nil, or_false] at he
          exact he.symm
        · intro e he; simp [he]

theorem erase_perm {l : List Nat} {b : Nat} (h : b ∈ l) (a : Nat) : List.count a l = List.count a (l.erase b) + (if b = a then 1 else 0) := by
  rw [(List.perm_cons_erase h).count_eq, List.count_cons]
  congr 1
  simp

theorem read_perm (s : Sys β) (c : Client) {buf : Nat} (bid : Nat) (hb : buf ∈ c.held) :
    (allBufs (s.read buf bid).1 { held := c.held.erase buf, up := ⟨bid, (s.read buf bid).2.1, (s.read buf bid).2.2⟩ :: c.up }).Perm (allBufs s c) := by
  unfold Sys.read
  rw [List.perm_iff_count]
  intro a
  have he := erase_perm hb a
  cases hf : s.pFind bid with
  | some e =>
    obtain ⟨_, l1, l2, e1, e2⟩ := pFind_some hf
    simp only [allBufs]
    rw [e2, e1]
    simp [List.count_append, List.count_cons]
    omega
  | none =>
    cases hw : s.wFind bid with
    | some e =>
      obtain ⟨l1, l2, e1, e2⟩ := wFind_some hw
      simp only [allBufs]
      rw [e2, e1]
      simp [List.count_append, List.count_cons]
      omega
    | none =>
      simp only [allBufs]
      simp [List.count_append, List.count_cons]
      omega

theorem Inv.read (h : Ok s c spec) {buf bid : Nat} (hb : buf ∈ c.held) (ho : ¬ c.open bid) :
    Ok (s.read buf bid).1 { held := c.held.erase buf, up := ⟨bid, (s.read buf bid).2.1, (s.read buf bid).2.2⟩ :: c.up } spec := by
  have hnod := (read_perm s c bid hb).nodup_iff.2 h.nod
  unfold Sys.read at hnod ⊢
  cases hf : s.pFind bid with
  | some e =>
    rw [hf] at hnod
    obtain ⟨hbid, l1, l2, e1, e2⟩ := pFind_some hf
    simp only at hnod ⊢
    refine Inv.move h hnod ?_ ?_ ?_ ?_ (fun e he _ => he) ?_ ?_ (by simp) (by simp)
    · have := h.keys
      simp only [e1, e2, List.map_append, List.map_cons] at this ⊢
      exact this.sublist (by simp)
    · intro x hx
      simp only [ents, e1, e2, List.map_append, List.mem_append, List.map_cons, List.mem_cons] at hx ⊢
      rcases hx with ((hx | hx) | hx) | hx | hx <;> simp [hx]
    · intro x hx _
      simp only [ents, e1, e2, List.map_append, List.mem_append, List.map_cons, List.mem_cons] at hx ⊢
      rcases hx with (hx | hx) | hx | hx | hx <;> simp [hx]
    · intro b' buf' j r hp hd hh
      simp only [e1, e2, List.mem_append, List.mem_cons] at hh ⊢
      rcases hh with hh | (hh | hh | hh) | hh
      · exact .inl hh
      · exact .inr (.inl (.inl hh))
      · subst hh; exact .inr (.inr (.inl (by simp at hbid; simp [hbid])))
      · exact .inr (.inl (.inr hh))
      · exact .inr (.inr (.inr hh))
    · intro e' he' _
      refine .inl ⟨?_, trivial⟩
      simp only [e1, e2, List.mem_append, List.mem_cons] at he' ⊢
      rcases he' with he' | he' <;> simp [he']
    · intro e' he'
      rcases List.mem_cons.1 he' with rfl | he'
      · refine .inr (.inl ⟨?_, trivial⟩)
        rw [e1]; subst hbid; simp
      · exact .inl he'
  | none =>
    rw [hf] at hnod
    have hpn := pFind_none hf
    cases hw : s.wFind bid with
    | some e =>
      rw [hw] at hnod
      obtain ⟨l1, l2, e1, e2⟩ := wFind_some hw
      simp only at hnod ⊢
      refine Inv.move h hnod h.keys ?_ ?_ ?_ ?_ (fun e he hq => .inl ⟨he, hq⟩) ?_ (by simp) (by simp)
      · intro x hx
        simp only [ents, e1, e2, List.map_append, List.mem_append, List.map_cons, List.mem_cons] at hx ⊢
        rcases hx with ((hx | hx) | hx | hx) | hx <;> simp [hx]
      · intro x hx _
        simp only [ents, e1, e2, List.map_append, List.mem_append, List.map_cons, List.mem_cons] at hx ⊢
        rcases hx with (hx | hx | hx | hx) | hx <;> simp [hx]
      · intro b' buf' j r hp hd hh
        simp only [e1, e2, List.mem_append, List.mem_cons] at hh ⊢
        rcases hh with (hh | hh | hh) | hh | hh
        · exact .inl (.inl hh)
        · simp at hh; obtain ⟨rfl, rfl, rfl⟩ := hh; exact .inr (.inr (.inl rfl))
        · exact .inl (.inr hh)
        · exact .inr (.inl hh)
        · exact .inr (.inr (.inr hh))
      · intro e' he' _
        simp only [e1, e2, List.mem_append, List.mem_cons] at he' ⊢
        rcases he' with he' | he' <;> simp [he']
      · intro e' he'
        rcases List.mem_cons.1 he' with rfl | he'
        · refine .inr (.inr ?_); rw [e1]; simp
        · exact .inl he'
    | none =>
      rw [hw] at hnod
      simp only at hnod ⊢
      refine Inv.issueRead h (h.noPW trivial (wFind_none hw) hpn ho) hnod h.keys ?_ rfl (fun e he => .inr he) (fun e he => he) ?_ ?_ trivial
      · intro x
        simp only [ents, List.map_append, List.mem_append, List.map_cons, List.mem_cons]
        constructor
        · rintro (((hx | hx) | hx) | hx) <;> simp [hx]
        · rintro (hx | (hx | hx) | hx) <;> simp [hx]
      · intro e he; exact List.mem_cons.1 he
      · intro e he; exact List.mem_cons_of_mem _ he

/-! ## Invalidate -/

theorem Inv.p_inj (h : Inv D Q s c spec) {x y : PEntry} (hx : x ∈ s.p.pbusy) (hy : y ∈ s.p.pbusy) (hb : x.buf = y.buf) : x = y := by
  have hn : (s.p.pbusy.map (·.buf)).Nodup := (List.nodup_append.1 h.nod).2.1
  obtain ⟨n, hn1⟩ := List.getElem?_of_mem hx
  obtain ⟨m, hm1⟩ := List.getElem?_of_mem hy
  have e1 : (s.p.pbusy.map (·.buf))[n]? = some x.buf := by rw [List.getElem?_map, hn1]; rfl
  have e2 : (s.p.pbusy.map (·.buf))[m]? = some x.buf := by rw [List.getElem?_map, hm1]; simp [hb]
  have := nodup_get_inj hn e1 e2
  subst this
  rw [hn1] at hm1
  simpa using hm1

theorem Inv.p_up (h : Inv D Q s c spec) {x y : PEntry} (hx : x ∈ c.up) (hy : y ∈ s.p.pbusy) : x.buf ≠ y.buf := by
  have := (List.nodup_append.1 h.nod).2.2 x.buf ?_ y.buf (List.mem_map_of_mem (f := (·.buf)) hy)
  · exact this
  · simp only [List.mem_append, List.mem_map]
    exact .inl (.inl (.inl (.inr ⟨x, hx, rfl⟩)))

theorem RdOk.cancel {io : Io β} {bid buf j : Nat} {v : β} (h : RdOk io bid buf j v) {ok : Bool} {i : Nat} (hj : j ≠ i) :
    RdOk (io.cancel ok i) bid buf j v := by
  obtain ⟨r, h1, h2, h3, h4, h5, h6⟩ := h
  refine ⟨r, cancel_get _ _ _ hj h1, h2, h3, h4, fun hh => by rw [(cancel_mem _ _ _).1]; exact h5 hh,
    fun hp hw => (h6 hp hw).later (cancel_later _ _ _)⟩

/-- Cancelling the read request of an entry of the prefetch pool that nobody will look at any more. -/
theorem Inv.cancelRead (h : Inv D Q s c spec) {e : PEntry} (he : e ∈ s.p.pbusy) (hq : ¬ Q e.bid)
    (hr : ∀ r, s.io.rqs[e.req]? = some r → r.isWrite = false) (ok : Bool) :
    Inv D Q { s with io := s.io.cancel ok e.req } c spec := by
  have hl := cancel_later s.io ok e.req
  have hpw : ∀ j r, Pend s.io j r → r.isWrite = true → Pend (s.io.cancel ok e.req) j r := by
    intro j r hp hw
    refine cancel_pend _ _ _ ?_ hp
    rintro rfl
    rw [hr r hp.1] at hw; simp at hw
  have hnew : ∀ j b, Newest (s.io.cancel ok e.req) j b → Newest s.io j b :=
    fun j b hn k r hk hw => hn k r (hpw k r hk hw) hw
  have hreq : ∀ x : PEntry, (x.buf, x.req) ∈ ents s c → x.req = e.req → x.buf = e.buf := by
    intro x hx hxe
    obtain ⟨r, h1, h2⟩ := h.ex _ _ hx
    obtain ⟨r', h1', h2'⟩ := h.ex _ _ (mem_ents_p (c := c) he)
    rw [hxe, h1'] at h1
    cases h1
    rw [← h2, ← h2']
  refine ⟨h.nod, h.keys, ?_, fun j r hp => h.own j r (hl.pend hp), ?_, ?_, ?_, ?_, ?_, h.upD, h.QD⟩
  · intro b j hb
    obtain ⟨r, h1, h2⟩ := h.ex b j hb
    obtain ⟨r', h3, _, h4, _⟩ := hl.keep j r h1
    exact ⟨r', h3, h4.trans h2⟩
  · intro b hb
    refine ⟨fun j r hj hw hbj hn => ?_, fun hn => ?_⟩
    · dsimp only; rw [(cancel_mem _ _ _).1]
      exact (h.dsk b hb).1 j r (hl.pend hj) hw hbj (hnew j b hn)
    · dsimp only; rw [(cancel_mem _ _ _).2]
      exact (h.dsk b hb).2 (fun j r hj hw => hn j r (hpw j r hj hw) hw)
  · intro j r hp hw hn hd
    exact h.last j r (hl.pend hp) hw (hnew _ _ hn) hd
  · intro x hx b hb
    obtain ⟨r, h1, h2, h3, h4, h5⟩ := h.wb x hx b hb
    refine ⟨r, cancel_get _ _ _ ?_ h1, h2, h3, h4, by dsimp only; rw [(cancel_mem _ _ _).1]; exact h5⟩
    intro hxe
    rw [hxe] at h1
    rw [hr r h1] at h3; simp at h3
  · intro x hx hqx
    refine (h.pb x hx hqx).cancel ?_
    intro hxe
    have := h.p_inj hx he (hreq x (mem_ents_p hx) hxe)
    subst this
    exact hq hqx
  · intro x hx
    refine (h.up x hx).cancel ?_
    intro hxe
    exact h.p_up hx he (hreq x (mem_ents_u hx) hxe)

theorem invalidate_perm {s s' : Sys β} {c : Client} {canc : Nat → Bool} {bid : Nat} {found : Bool}
    (h : s.invalidate canc bid = some (s', found)) : (allBufs s' c).Perm (allBufs s c) := by
  unfold Sys.invalidate at h
  cases hf : s.pFind bid with
  | none => rw [hf] at h; simp at h; rw [← h.1]
  | some e =>
    obtain ⟨_, l1, l2, e1, e2⟩ := pFind_some hf
    rw [hf] at h
    simp only at h
    split at h
    · simp at h
    · simp at h
      rw [← h.1, List.perm_iff_count]
      intro a
      simp only [allBufs]
      rw [e2, e1]
      simp [List.count_append, List.count_cons]
      omega

theorem Inv.invalidate (h : Inv (fun _ => True) (fun b => b ≠ bid) s c spec) (canc : Nat → Bool) :
    ∃ s' found, s.invalidate canc bid = some (s', found) ∧ Ok s' c spec ∧ (found = false → s' = s) := by
  unfold Sys.invalidate
  cases hf : s.pFind bid with
  | none =>
    refine ⟨s, false, rfl, ?_, fun _ => rfl⟩
    exact { h with pb := fun e he _ => h.pb e he (pFind_none hf e he), QD := by simp, upD := by simp, dsk := fun b _ => h.dsk b trivial,
                   last := fun j r a b cc _ => h.last j r a b cc trivial }
  | some e =>
    obtain ⟨hbid, l1, l2, e1, e2⟩ := pFind_some hf
    have hem : e ∈ s.p.pbusy := by rw [e1]; simp
    simp only
    have h1 : Inv (fun _ => True) (fun b => b ≠ bid)
        { s with io := if (s.io.rqs[e.req]?.any fun r => !r.isWrite) then s.io.cancel (canc e.req) e.req else s.io } c spec := by
      split
      · rename_i hc
        refine h.cancelRead hem (by simp [hbid]) ?_ _
        intro r hr
        rw [hr] at hc
        simpa using hc
      · exact h
    generalize (if (s.io.rqs[e.req]?.any fun r => !r.isWrite) then s.io.cancel (canc e.req) e.req else s.io) = io1 at h1 ⊢
    obtain ⟨r, hr, _⟩ := h1.ex e.buf e.req (mem_ents_p (s := { s with io := io1 }) hem)
    obtain ⟨io2, hw⟩ := wait_some hr
    have hw' : io1.wait e.req = some io2 := hw
    rw [hw']
    refine ⟨_, true, rfl, ?_, by simp⟩
    have h2 := h1.wait hw
    have hnp := wait_done hw
    have hkeys := h.keys
    simp only [e1, List.map_append, List.map_cons] at hkeys
    have hne : ∀ x, x ∈ l1 ∨ x ∈ l2 → x.bid ≠ bid := by
      intro x hx
      rw [← hbid]
      have h3 := List.nodup_append.1 hkeys
      rcases hx with hx | hx
      · exact h3.2.2 x.bid (List.mem_map_of_mem (f := (·.bid)) hx) e.bid (by simp)
      · have h4 := (List.nodup_cons.1 h3.2.1).1
        intro hc
        exact h4 (List.mem_map.2 ⟨x, hx, hc⟩)
    have hnp' : ∀ r, ¬ Pend io2 e.req r := hnp
    refine Inv.move (s := { s with io := io2 }) h2 ?_ ?_ ?_ ?_ ?_ (fun e he _ => he) ?_ (fun e he => .inl he) (by simp) (by simp)
    · refine List.Perm.nodup_iff ?_ |>.2 h.nod
      rw [List.perm_iff_count]
      intro a
      simp only [allBufs]
      rw [e2, e1]
      simp [List.count_append, List.count_cons]
      omega
    · simp only [e2, List.map_append]
      exact hkeys.sublist (by simp)
    · intro x hx
      simp only [ents, e1, e2, List.map_append, List.mem_append, List.map_cons, List.mem_cons] at hx ⊢
      rcases hx with (hx | hx) | hx | hx <;> simp [hx]
    · intro x hx hp
      simp only [ents, e1, e2, List.map_append, List.mem_append, List.map_cons, List.mem_cons] at hx ⊢
      rcases hx with (hx | hx) | hx | hx | hx
      · simp [hx]
      · simp [hx]
      · simp [hx]
      · subst hx; obtain ⟨r, hp⟩ := hp; exact absurd hp (hnp' r)
      · simp [hx]
    · intro b buf j r hp hd hh
      simp only [e1, e2, List.mem_append, List.mem_cons] at hh ⊢
      rcases hh with hh | (hh | hh | hh) | hh
      · exact .inl hh
      · exact .inr (.inl (.inl hh))
      · subst hh; exact absurd hp (hnp' r)
      · exact .inr (.inl (.inr hh))
      · exact .inr (.inr hh)
    · intro x hx _
      simp only [e2, List.mem_append] at hx
      refine .inl ⟨?_, hne x hx⟩
      simp only [e1, List.mem_append, List.mem_cons]
      rcases hx with hx | hx <;> simp [hx]

end Stxxl.Pools
