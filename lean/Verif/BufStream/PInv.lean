import Verif.BufStream.WInv

/-! Invariant of `block_prefetcher`. -/

namespace Stxxl.BufStream
open Stxxl.Io Stxxl.Io.Io
open Stxxl.ExtVector (upd upd_same upd_ne)

variable {β : Type}

/-- The prefetch order lists every block once. -/
structure SeqOk (seq : Nat → Nat) (len : Nat) : Prop where
  lt : ∀ j < len, seq j < len
  inj : ∀ i < len, ∀ j < len, seq i = seq j → i = j

/-- `ready`: blocks requested and not consumed, with their buffers; `held`: blocks in the client's hands. -/
structure PInv (bl seq : Nat → Nat) (bufs : Nat) (d0 : Nat → β) (p : Pf β) (held ready : List (Nat × Nat)) : Prop where
  nr : p.nread = min bufs p.len
  nd : ((held ++ ready).map Prod.snd).Nodup
  lt : ∀ x ∈ held ++ ready, x.2 < p.nread
  rnd : (ready.map Prod.fst).Nodup
  rdy : ∀ x ∈ ready, (∃ j < p.nextread, seq j = x.1) ∧ p.nextconsume ≤ x.1 ∧ p.pbuf x.1 = some x.2 ∧
    ∃ i r, p.sw x.1 = some i ∧ p.rreqs x.2 = some i ∧ p.io.rqs[i]? = some r ∧ r.isWrite = false ∧ r.buf = x.2 ∧ r.bid = bl x.1 ∧
      (r.st = .pending ∨ p.io.mem x.2 = d0 (bl x.1))
  all : ∀ j < p.nextread, p.nextconsume ≤ seq j → seq j ∈ ready.map Prod.fst
  old : ∀ k < p.nextconsume, ∃ j < p.nextread, seq j = k
  hld : ∀ x ∈ held, p.io.mem x.2 = d0 (bl x.1)
  pend : ∀ i r, Pend p.io i r → ∃ x ∈ ready, p.sw x.1 = some i
  disk : p.io.disk = d0
  sw : ∀ k, (∀ j < p.nextread, seq j ≠ k) → p.sw k = none
  valid : ∀ b i, p.rreqs b = some i → ∃ r, p.io.rqs[i]? = some r
  cl : p.nextconsume ≤ p.len

/-- How many blocks have been requested: one per buffer, and one per buffer returned by the client. -/
structure PCnt (p : Pf β) (held : List (Nat × Nat)) : Prop where
  hl : held.length ≤ p.nextconsume
  cnt : p.nextread = min p.len (p.nread + p.nextconsume - held.length)

variable {bl seq : Nat → Nat} {bufs : Nat} {d0 : Nat → β} {p : Pf β} {held ready : List (Nat × Nat)}

/-- The outstanding requests are the reads of ready blocks. -/
theorem PInv.pendRead (h : PInv bl seq bufs d0 p held ready) {i : Nat} {r : Rq} (hp : Pend p.io i r) :
    ∃ x ∈ ready, p.sw x.1 = some i ∧ r.isWrite = false ∧ r.buf = x.2 ∧ r.bid = bl x.1 := by
  obtain ⟨x, hx, hs⟩ := h.pend i r hp
  obtain ⟨-, -, -, i', r', h1, h2, h3, h4, h5, h6, -⟩ := h.rdy x hx
  rw [hs] at h1; cases h1
  rw [hp.1] at h3; cases h3
  exact ⟨x, hx, hs, h4, h5, h6⟩

theorem PInv.sndInj (h : PInv bl seq bufs d0 p held ready) {x y : Nat × Nat} (hx : x ∈ ready) (hy : y ∈ ready) (he : x.2 = y.2) : x = y := by
  have := h.nd
  rw [List.map_append] at this
  exact List.inj_on_of_nodup_map (List.nodup_append.mp this).2.1 hx hy he

theorem PInv.sndDisj (h : PInv bl seq bufs d0 p held ready) {x y : Nat × Nat} (hx : x ∈ held) (hy : y ∈ ready) : x.2 ≠ y.2 := by
  have := h.nd
  rw [List.map_append] at this
  exact (List.nodup_append.mp this).2.2 _ (List.mem_map_of_mem hx) _ (List.mem_map_of_mem hy)

theorem PInv.serve (h : PInv bl seq bufs d0 p held ready) (i : Nat) : PInv bl seq bufs d0 { p with io := p.io.serve i } held ready := by
  have hl := serve_later p.io i
  rcases serve_cases p.io i with e | ⟨r, hp, hw, hold, e⟩ | ⟨r, hp, hw, e⟩
  · rw [e]; exact h
  · obtain ⟨x, hx, -, h4, -⟩ := h.pendRead hp
    rw [h4] at hw; simp at hw
  · obtain ⟨x, hx, hsx, -, hbx, hdx⟩ := h.pendRead hp
    have hmem : (p.io.serve i).mem = upd p.io.mem r.buf (p.io.disk r.bid) := by rw [e]
    have hrqs : (p.io.serve i).rqs = p.io.rqs.set i { r with st := .done } := by rw [e]
    refine ⟨h.nr, h.nd, h.lt, h.rnd, ?_, h.all, h.old, ?_, ?_, ?_, h.sw, ?_, h.cl⟩
    · intro y hy
      obtain ⟨a1, a2, a3, i', r', b1, b2, b3, b4, b5, b6, b7⟩ := h.rdy y hy
      refine ⟨a1, a2, a3, ?_⟩
      by_cases hyx : y = x
      · subst hyx
        rw [hsx] at b1; cases b1
        refine ⟨i, { r with st := .done }, hsx, b2, ?_, hw, hbx, hdx, Or.inr ?_⟩
        · show (p.io.serve i).rqs[i]? = _
          rw [hrqs, List.getElem?_set_self]
          exact (List.getElem?_eq_some_iff.mp b3).1
        · show (p.io.serve i).mem y.2 = _
          rw [hmem, ← hbx, upd_same, h.disk, hdx]
      · have hii : i' ≠ i := by
          rintro rfl
          rw [hp.1] at b3; cases b3
          exact hyx (h.sndInj hy hx (b5.symm.trans hbx))
        refine ⟨i', r', b1, b2, ?_, b4, b5, b6, ?_⟩
        · show (p.io.serve i).rqs[i']? = _
          rw [hrqs, List.getElem?_set_ne (Ne.symm hii)]; exact b3
        · rcases b7 with b7 | b7
          · exact Or.inl b7
          · right
            show (p.io.serve i).mem y.2 = _
            rw [hmem, hbx, upd_ne _ _ (fun hc => hyx (h.sndInj hy hx hc))]; exact b7
    · intro y hy
      show (p.io.serve i).mem y.2 = _
      rw [hmem, hbx, upd_ne _ _ (h.sndDisj hy hx)]
      exact h.hld y hy
    · intro j r' hj; exact h.pend j r' (hl.pend hj)
    · show (p.io.serve i).disk = _
      rw [e]; exact h.disk
    · intro b j hb
      obtain ⟨r', hr'⟩ := h.valid b j hb
      obtain ⟨r'', hr'', -⟩ := hl.2 j r' hr'
      exact ⟨r'', hr''⟩

theorem PInv.serveAll (h : PInv bl seq bufs d0 p held ready) (l : List Nat) : PInv bl seq bufs d0 { p with io := p.io.serveAll l } held ready :=
  serveAll_ind (P := fun io => PInv bl seq bufs d0 { p with io := io } held ready) (fun _ i hs => hs.serve i) l _ h

theorem PInv.waited (h : PInv bl seq bufs d0 p held ready) {i : Nat} {io : Io β} (hw : p.io.wait i = some io) :
    PInv bl seq bufs d0 { p with io := io } held ready :=
  wait_ind (P := fun io => PInv bl seq bufs d0 { p with io := io } held ready) (fun _ i hs => hs.serve i) hw h

/-- The next block to be consumed arrives. -/
theorem PInv.next (h : PInv bl seq bufs d0 p held ready) (srv : List Nat) (hk : p.nextconsume < p.len)
    (hreq : ∃ j < p.nextread, seq j = p.nextconsume) :
    ∃ p' b ready', Pf.wait { p with io := p.io.serveAll srv, nextconsume := p.nextconsume + 1 } p.nextconsume = some (p', b) ∧
      PInv bl seq bufs d0 p' ((p.nextconsume, b) :: held) ready' ∧ p'.nextconsume = p.nextconsume + 1 ∧ p'.len = p.len ∧ p'.nextread = p.nextread ∧ p'.nread = p.nread := by
  obtain ⟨j, hj, hjk⟩ := hreq
  have hm := h.all j hj (by omega)
  rw [hjk] at hm
  obtain ⟨⟨k, b⟩, hx, hkk⟩ := List.mem_map.mp hm
  dsimp only at hkk
  subst hkk
  have h1 := h.serveAll srv
  obtain ⟨-, -, a3, i, r, b1, b2, b3, b4, b5, b6, b7⟩ := h1.rdy _ hx
  dsimp only at b1 b2 b3 b5 b6 b7
  unfold Pf.wait
  dsimp only
  rw [b1]
  dsimp only
  obtain ⟨io, hio⟩ := wait_some b3
  rw [hio]
  dsimp only
  have h2 := h1.waited hio
  obtain ⟨-, -, a3', i', r', c1, c2, c3, c4, c5, c6, c7⟩ := h2.rdy _ hx
  dsimp only at c1 c2 c3 c5 c6 c7 a3'
  rw [b1] at c1; cases c1
  rw [a3']
  dsimp only
  have hlt : b < p.nread := h.lt (p.nextconsume, b) (List.mem_append_right _ hx)
  rw [if_pos hlt]
  have hmem : io.mem b = d0 (bl p.nextconsume) := by
    rcases c7 with c7 | c7
    · exact absurd ⟨c3, c7⟩ (wait_done hio r')
    · exact c7
  have hp : ready.Perm ((p.nextconsume, b) :: ready.erase (p.nextconsume, b)) := List.perm_cons_erase hx
  have hmv : (((p.nextconsume, b) :: held) ++ ready.erase (p.nextconsume, b)).Perm (held ++ ready) := by
    refine List.Perm.trans ?_ (List.Perm.append_left held hp.symm)
    exact List.perm_middle.symm
  have hnd := (hp.map Prod.fst).nodup_iff.mp h.rnd
  rw [List.map_cons] at hnd
  refine ⟨_, b, ready.erase (p.nextconsume, b), rfl, ?_, rfl, rfl, rfl, rfl⟩
  have hck : p.nextconsume + 1 ≤ p.len := hk
  refine ⟨h.nr, (hmv.map Prod.snd).nodup_iff.mpr h.nd, fun x hx => h.lt x (hmv.mem_iff.mp hx), (List.nodup_cons.mp hnd).2, ?_, ?_, ?_, ?_, ?_,
    h2.disk, h2.sw, h2.valid, hck⟩
  · intro y hy
    obtain ⟨d1, d2, d3⟩ := h2.rdy y (List.mem_of_mem_erase hy)
    refine ⟨d1, ?_, d3⟩
    have hne : y.1 ≠ p.nextconsume := by
      intro hc
      exact (List.nodup_cons.mp hnd).1 (List.mem_map.mpr ⟨y, hy, hc⟩)
    have d2 : p.nextconsume ≤ y.1 := d2
    show p.nextconsume + 1 ≤ y.1
    omega
  · intro j' hj' hc
    have hc : p.nextconsume + 1 ≤ seq j' := hc
    have := h.all j' hj' (by omega)
    rcases List.mem_cons.mp ((hp.map Prod.fst).mem_iff.mp this) with h5 | h5
    · dsimp only at h5; omega
    · exact h5
  · intro k hk
    have hk : k < p.nextconsume + 1 := hk
    by_cases hkc : k = p.nextconsume
    · subst hkc; exact ⟨j, hj, hjk⟩
    · exact h.old k (by omega)
  · intro y hy
    rcases List.mem_cons.mp hy with rfl | hy
    · exact hmem
    · exact h2.hld y hy
  · intro j' r2 hp2
    obtain ⟨y, hy, hys⟩ := h2.pend j' r2 hp2
    refine ⟨y, ?_, hys⟩
    rcases List.mem_cons.mp (hp.mem_iff.mp hy) with rfl | h5
    · exfalso
      have hys : p.sw p.nextconsume = some j' := hys
      rw [b1] at hys; cases hys
      exact wait_done hio r2 hp2
    · exact h5

/-- With `m` spare buffers the next block has been requested. -/
theorem PInv.requested (h : PInv bl seq bufs d0 p held ready) (hc : PCnt p held) {m : Nat}
    (hseq : ∀ k < p.len, ∃ j < min (k + m) p.len, seq j = k)
    (hb : held.length + m ≤ bufs) (hk : p.nextconsume < p.len) : ∃ j < p.nextread, seq j = p.nextconsume := by
  obtain ⟨j, hj, hjk⟩ := hseq _ hk
  refine ⟨j, ?_, hjk⟩
  have h1 := hc.cnt
  have h2 := h.nr
  have h3 := hc.hl
  omega

theorem PInv.pull (h : PInv bl seq bufs d0 p held ready) (hc : PCnt p held) {m : Nat}
    (hseq : ∀ k < p.len, ∃ j < min (k + m) p.len, seq j = k)
    (hb : held.length + m ≤ bufs) (hk : p.nextconsume < p.len) (srv : List Nat) :
    ∃ p' b ready', Pf.wait { p with io := p.io.serveAll srv, nextconsume := p.nextconsume + 1 } p.nextconsume = some (p', b) ∧
      PInv bl seq bufs d0 p' ((p.nextconsume, b) :: held) ready' ∧ PCnt p' ((p.nextconsume, b) :: held) ∧
      p'.nextconsume = p.nextconsume + 1 ∧ p'.len = p.len := by
  obtain ⟨p', b, ready', h1, h2, h3, h4, h5, h6⟩ := h.next srv hk (h.requested hc hseq hb hk)
  refine ⟨p', b, ready', h1, h2, ⟨?_, ?_⟩, h3, h4⟩
  · have := hc.hl; simp only [List.length_cons]; omega
  · have := hc.cnt; simp only [List.length_cons]; omega

/-- Requesting one more block into a buffer that is not in use. -/
theorem PInv.request (hseq : SeqOk seq p.len) (h : PInv bl seq bufs d0 p held ready) (b : Nat) (hb : b < p.nread)
    (hfree : b ∉ (held ++ ready).map Prod.snd) (hnr : p.nextread < p.len) :
    PInv bl seq bufs d0 (Pf.request bl { p with nextread := p.nextread + 1 } b (seq p.nextread)) held ((seq p.nextread, b) :: ready) := by
  have hnew : ∀ j < p.nextread, seq j ≠ seq p.nextread := by
    intro j hj hc
    have := hseq.inj j (by omega) _ hnr hc
    omega
  have hnc : p.nextconsume ≤ seq p.nextread := by
    rcases Nat.lt_or_ge (seq p.nextread) p.nextconsume with h1 | h1
    · obtain ⟨j, hj, hjs⟩ := h.old _ h1
      exact absurd hjs (hnew j hj)
    · exact h1
  have hrd : ∀ y ∈ ready, y.1 ≠ seq p.nextread := by
    intro y hy hc
    obtain ⟨⟨j, hj, hjs⟩, -⟩ := h.rdy y hy
    exact hnew j hj (hjs.trans hc)
  have hbuf : ∀ y ∈ held ++ ready, y.2 ≠ b := fun y hy hc => hfree (hc ▸ List.mem_map_of_mem hy)
  have hmv : (held ++ (seq p.nextread, b) :: ready).Perm ((seq p.nextread, b) :: (held ++ ready)) := List.perm_middle
  refine ⟨h.nr, ?_, ?_, ?_, ?_, ?_, ?_, h.hld, ?_, h.disk, ?_, ?_, h.cl⟩
  · refine (hmv.map Prod.snd).nodup_iff.mpr ?_
    rw [List.map_cons, List.nodup_cons]; exact ⟨hfree, h.nd⟩
  · intro x hx
    rcases List.mem_cons.mp (hmv.mem_iff.mp hx) with rfl | hx
    · exact hb
    · exact h.lt x hx
  · rw [List.map_cons, List.nodup_cons]
    refine ⟨?_, h.rnd⟩
    intro hm
    obtain ⟨y, hy, hc⟩ := List.mem_map.mp hm
    exact hrd y hy hc
  · intro x hx
    rcases List.mem_cons.mp hx with rfl | hx
    · refine ⟨⟨p.nextread, Nat.lt_succ_self _, rfl⟩, hnc, upd_same _ _ _, p.io.rqs.length, ⟨false, b, bl (seq p.nextread), .pending⟩, upd_same _ _ _, upd_same _ _ _, issue_get_new _ _ _ _, rfl, rfl, rfl, Or.inl rfl⟩
    · obtain ⟨⟨j, hj, hjs⟩, a2, a3, i, r, b1, b2, b3, b4, b5, b6, b7⟩ := h.rdy x hx
      refine ⟨⟨j, Nat.lt_succ_of_lt hj, hjs⟩, a2, (upd_ne _ _ (hrd x hx)).trans a3, i, r, (upd_ne _ _ (hrd x hx)).trans b1,
        (upd_ne _ _ (hbuf x (List.mem_append_right _ hx))).trans b2, issue_get b3, b4, b5, b6, b7⟩
  · intro j hj hjc
    have hj : j < p.nextread + 1 := hj
    rw [List.map_cons, List.mem_cons]
    by_cases hjn : j = p.nextread
    · subst hjn; exact Or.inl rfl
    · exact Or.inr (h.all j (by omega) hjc)
  · intro k hk
    obtain ⟨j, hj, hjs⟩ := h.old k hk
    exact ⟨j, Nat.lt_succ_of_lt hj, hjs⟩
  · intro i r hp
    rcases pend_issue.mp hp with ⟨rfl, rfl⟩ | hp
    · exact ⟨_, List.mem_cons_self, upd_same _ _ _⟩
    · obtain ⟨x, hx, hs⟩ := h.pend i r hp
      exact ⟨x, List.mem_cons_of_mem _ hx, (upd_ne _ _ (hrd x hx)).trans hs⟩
  · intro k hk
    have hk : ∀ j < p.nextread + 1, seq j ≠ k := hk
    show upd p.sw _ _ k = none
    rw [upd_ne _ _ (fun hc => hk p.nextread (by omega) hc.symm)]
    exact h.sw k (fun j hj => hk j (by omega))
  · intro b' i hb'
    have hb' : upd p.rreqs b _ b' = some i := hb'
    by_cases hbb : b' = b
    · subst hbb; rw [upd_same] at hb'; cases hb'
      exact ⟨_, issue_get_new _ _ _ _⟩
    · rw [upd_ne _ _ hbb] at hb'
      obtain ⟨r, hr⟩ := h.valid b' i hb'
      exact ⟨r, issue_get hr⟩

/-- `block_consumed`: the client gives back a buffer it holds; unless everything has been consumed it gets the next block. -/
theorem PInv.consumed (hseq : SeqOk seq p.len) (h : PInv bl seq bufs d0 p held ready) (hc : PCnt p held) {m : Nat}
    (hsq : ∀ k < p.len, ∃ j < min (k + m) p.len, seq j = k)
    (x : Nat × Nat) (hx : x ∈ held) (hb : held.length + m ≤ bufs + 1) (srv srv' : List Nat) :
    (p.nextconsume < p.len ∧ ∃ p' b ready', Pf.consumed bl seq srv srv' p x.2 = some (p', some b) ∧
        PInv bl seq bufs d0 p' ((p.nextconsume, b) :: held.erase x) ready' ∧ PCnt p' ((p.nextconsume, b) :: held.erase x) ∧
        p'.nextconsume = p.nextconsume + 1 ∧ p'.len = p.len) ∨
    (p.nextconsume = p.len ∧ ∃ p' ready', Pf.consumed bl seq srv srv' p x.2 = some (p', none) ∧
        PInv bl seq bufs d0 p' (held.erase x) ready' ∧ PCnt p' (held.erase x) ∧ p'.nextconsume = p.nextconsume ∧ p'.len = p.len) := by
  have hperm : held.Perm (x :: held.erase x) := List.perm_cons_erase hx
  have hlen : held.length = (held.erase x).length + 1 := hperm.length_eq
  have h1 := h.serveAll srv
  -- waiting for the request of the buffer
  have hw : ∃ io, waitOpt (p.io.serveAll srv) (p.rreqs x.2) = some io ∧ PInv bl seq bufs d0 { p with io := io } held ready := by
    cases hr : p.rreqs x.2 with
    | none => exact ⟨_, rfl, h1⟩
    | some i =>
      obtain ⟨r, hrr⟩ := h1.valid x.2 i hr
      obtain ⟨io, hio⟩ := wait_some hrr
      exact ⟨io, hio, h1.waited hio⟩
  obtain ⟨io, hio, h2⟩ := hw
  have hxfree : x.2 ∉ ((held.erase x) ++ ready).map Prod.snd := by
    have := h.nd
    have hp : (held ++ ready).Perm (x :: (held.erase x ++ ready)) := List.Perm.append_right ready hperm
    have := (hp.map Prod.snd).nodup_iff.mp this
    rw [List.map_cons] at this
    exact (List.nodup_cons.mp this).1
  -- the client no longer holds the buffer
  have h3 : PInv bl seq bufs d0 { p with io := io, rreqs := upd p.rreqs x.2 none } (held.erase x) ready := by
    have hsub : (held.erase x ++ ready).Sublist (held ++ ready) := List.Sublist.append (List.erase_sublist) (List.Sublist.refl _)
    refine ⟨h2.nr, (hsub.map Prod.snd).nodup h2.nd, fun y hy => h2.lt y (hsub.subset hy), h2.rnd, ?_, h2.all, h2.old,
      fun y hy => h2.hld y (List.mem_of_mem_erase hy), h2.pend, h2.disk, h2.sw, ?_, h2.cl⟩
    · intro y hy
      obtain ⟨a1, a2, a3, i, r, b1, b2, b3⟩ := h2.rdy y hy
      refine ⟨a1, a2, a3, i, r, b1, ?_, b3⟩
      show upd p.rreqs x.2 none y.2 = _
      rw [upd_ne _ _ (h.sndDisj hx hy).symm]; exact b2
    · intro b i hb
      have hb : upd p.rreqs x.2 none b = some i := hb
      by_cases hbx : b = x.2
      · subst hbx; rw [upd_same] at hb; simp at hb
      · rw [upd_ne _ _ hbx] at hb; exact h2.valid b i hb
  unfold Pf.consumed
  rw [hio]
  dsimp only
  -- the next request
  have key : ∃ p1 ready1, (if p.nextread < p.len then
             if x.2 < p.nread ∧ seq p.nextread < p.len ∧ p.sw (seq p.nextread) = none then
               some (Pf.request bl { p with io := io, rreqs := upd p.rreqs x.2 none, nextread := p.nextread + 1 } x.2 (seq p.nextread))
             else none
           else some { p with io := io, rreqs := upd p.rreqs x.2 none }) = some p1 ∧ PInv bl seq bufs d0 p1 (held.erase x) ready1 ∧
      PCnt p1 (held.erase x) ∧ p1.nextconsume = p.nextconsume ∧ p1.len = p.len := by
    have hc1 := hc.hl
    have hc2 := hc.cnt
    by_cases hnr : p.nextread < p.len
    · rw [if_pos hnr]
      have hnew : ∀ j < p.nextread, seq j ≠ seq p.nextread := by
        intro j hj hc
        have := hseq.inj j (by omega) _ hnr hc
        omega
      have hlt : x.2 < p.nread := h.lt x (List.mem_append_left _ hx)
      rw [if_pos ⟨hlt, hseq.lt _ hnr, h.sw _ hnew⟩]
      refine ⟨_, _, rfl, PInv.request (p := { p with io := io, rreqs := upd p.rreqs x.2 none }) hseq h3 x.2 hlt hxfree hnr, ⟨?_, ?_⟩, rfl, rfl⟩
      · show (held.erase x).length ≤ p.nextconsume; omega
      · show p.nextread + 1 = min p.len (p.nread + p.nextconsume - (held.erase x).length); omega
    · rw [if_neg hnr]
      refine ⟨_, _, rfl, h3, ⟨?_, ?_⟩, rfl, rfl⟩
      · show (held.erase x).length ≤ p.nextconsume; omega
      · show p.nextread = min p.len (p.nread + p.nextconsume - (held.erase x).length); omega
  obtain ⟨p1, ready1, e1, h4, hc4, e2, e3⟩ := key
  rw [e1]
  dsimp only
  rw [e2, e3]
  have hcl := h.cl
  by_cases hk : p.nextconsume < p.len
  · left
    refine ⟨hk, ?_⟩
    rw [if_neg (by omega)]
    obtain ⟨p', b, ready', f1, f2, f3, f4, f5⟩ := h4.pull hc4 (m := m) (by rw [e3]; exact hsq) (by omega) (by omega) srv'
    rw [e2] at f1 f2 f3 f4
    rw [e3] at f1
    rw [f1]
    exact ⟨p', b, ready', rfl, f2, f3, f4, f5.trans e3⟩
  · right
    refine ⟨by omega, ?_⟩
    rw [if_pos (by omega)]
    exact ⟨p1, ready1, rfl, h4, hc4, e2, e3⟩

/-- The constructor. -/
theorem PInv.new (io : Io β) (hio : ∀ i r, ¬ Pend io i r) (len : Nat) (hseq : SeqOk seq len) (hl : 0 < len) (hb : 0 < bufs) :
    ∃ p ready, Pf.new bl seq io len bufs = some p ∧ PInv bl seq bufs io.disk p [] ready ∧ PCnt p [] ∧ p.nextconsume = 0 ∧ p.len = len := by
  unfold Pf.new
  rw [if_pos ⟨hl, hb⟩]
  -- the loop, with the number of requests so far in place of `nextread`
  have key : ∀ n ≤ min bufs len, ∃ p ready, Pf.init bl seq n ⟨io, len, min bufs len, min bufs len, 0, fun _ => none, fun _ => none, fun _ => none⟩ = some p ∧
      PInv bl seq bufs io.disk { p with nextread := n } [] ready ∧ p.nextread = min bufs len ∧ p.nextconsume = 0 ∧ p.len = len ∧
      p.nread = min bufs len ∧ ∀ x ∈ ready, x.2 < n := by
    intro n
    induction n with
    | zero =>
      intro _
      refine ⟨_, [], rfl, ?_, rfl, rfl, rfl, rfl, by simp⟩
      refine ⟨rfl, by simp, by simp, by simp, by simp, ?_, ?_, by simp, ?_, rfl, ?_, ?_, Nat.zero_le _⟩
      · intro j hj; exact absurd hj (Nat.not_lt_zero j)
      · intro j hj; exact absurd hj (Nat.not_lt_zero j)
      · intro i r hp; exact absurd hp (hio i r)
      · intro k _; rfl
      · intro b i hb; simp at hb
    | succ n ih =>
      intro hn
      obtain ⟨p, ready, h1, h2, h3, h4, h5, h6, h7⟩ := ih (by omega)
      unfold Pf.init
      rw [h1]
      dsimp only
      rw [h5, if_pos (hseq.lt n (by omega))]
      have hr := PInv.request (p := { p with nextread := n }) (by show SeqOk seq p.len; rw [h5]; exact hseq) h2 n
        (by show n < p.nread; rw [h6]; omega)
        (by
          intro hm
          obtain ⟨x, hx, hxn⟩ := List.mem_map.mp hm
          have := h7 x (by simpa using hx)
          omega)
        (by show n < p.len; rw [h5]; omega)
      refine ⟨_, _, rfl, hr, h3, h4, h5, h6, ?_⟩
      intro x hx
      rcases List.mem_cons.mp hx with rfl | hx
      · exact Nat.lt_succ_self _
      · exact Nat.lt_succ_of_lt (h7 x hx)
  obtain ⟨p, ready, h1, h2, h3, h4, h5, h6, h7⟩ := key _ (Nat.le_refl _)
  refine ⟨p, ready, h1, ?_, ⟨by simp, ?_⟩, h4, h5⟩
  · rw [← h3] at h2; exact h2
  · rw [h3, h5, h6, h4]; simp

end Stxxl.BufStream
