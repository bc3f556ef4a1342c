import Verif.BufStream.Model
import Verif.Io.Lemmas
import Verif.Schedule.Inv

/-! Invariant of `buffered_writer`. -/

namespace Stxxl.BufStream
open Stxxl.Io Stxxl.Io.Io
open Stxxl.ExtVector (upd upd_same upd_ne)

variable {β : Type}

/-- `held`: buffers in the client's hands; `log`: blocks handed to `write` so far; `d0`: the disk at the beginning. -/
structure WInv (w : W β) (held : List Nat) (log : List (Nat × β)) (d0 : Nat → β) : Prop where
  cnt : ∀ b, w.free.count b + w.busy.count b + (w.batch.map Prod.snd).count b + held.count b = if b < w.nw then 1 else 0
  len : w.free.length + w.busy.length + w.batch.length + held.length = w.nw
  pend : ∀ i r, Pend w.io i r → r.isWrite = true ∧ r.buf ∈ w.busy ∧ w.reqs r.buf = some i ∧ r.bid ∈ log.map Prod.fst ∧
    ∀ e ∈ w.batch, w.bids e.2 ≠ r.bid
  valid : ∀ b i, w.reqs b = some i → ∃ r, w.io.rqs[i]? = some r
  busyReq : ∀ b ∈ w.busy, w.reqs b ≠ none
  batchND : (w.batch.map (fun e => w.bids e.2)).Nodup
  batchLog : ∀ e ∈ w.batch, (w.bids e.2, w.io.mem e.2) ∈ log
  logND : (log.map Prod.fst).Nodup
  logOk : ∀ x ∈ log, (∃ e ∈ w.batch, w.bids e.2 = x.1) ∨ DiskIs w.io x.1 x.2
  frame : ∀ bid, bid ∉ log.map Prod.fst → w.io.disk bid = d0 bid

variable {w : W β} {held : List Nat} {log : List (Nat × β)} {d0 : Nat → β}

theorem WInv.noAlias (h : WInv w held log d0) : NoAlias w.io := by
  intro i j r r' hi hj he
  have h1 := (h.pend i r hi).2.2.1
  have h2 := (h.pend j r' hj).2.2.1
  rw [he, h2] at h1
  exact (Option.some.inj h1).symm

theorem WInv.serve (h : WInv w held log d0) (i : Nat) : WInv { w with io := w.io.serve i } held log d0 := by
  have hl := serve_later w.io i
  have hm : ∀ b, (w.io.serve i).mem b = w.io.mem b := fun b => serve_mem (fun j r hp hw => by
    have := (h.pend j r hp).1; rw [hw] at this; simp at this) i
  refine ⟨h.cnt, h.len, ?_, ?_, h.busyReq, h.batchND, ?_, h.logND, ?_, ?_⟩
  · intro j r hp; exact h.pend j r (hl.pend hp)
  · intro b j hb
    obtain ⟨r, hr⟩ := h.valid b j hb
    obtain ⟨r', hr', -⟩ := hl.2 j r hr
    exact ⟨r', hr'⟩
  · intro e he; show (_, (w.io.serve i).mem e.2) ∈ _; rw [hm]; exact h.batchLog e he
  · intro x hx
    rcases h.logOk x hx with h1 | h1
    · exact Or.inl h1
    · exact Or.inr (h1.serve h.noAlias i)
  · intro bid hb
    show (w.io.serve i).disk bid = _
    rcases serve_cases w.io i with e | ⟨r, hp, hw, hold, e⟩ | ⟨r, hp, hw, e⟩
    · rw [e]; exact h.frame bid hb
    · rw [e]; dsimp only
      rw [upd_ne]
      · exact h.frame bid hb
      · rintro rfl; exact hb (h.pend i r hp).2.2.2.1
    · rw [e]; exact h.frame bid hb

theorem WInv.serveAll (h : WInv w held log d0) (l : List Nat) : WInv { w with io := w.io.serveAll l } held log d0 :=
  serveAll_ind (P := fun io => WInv { w with io := io } held log d0) (fun _ i hs => hs.serve i) l _ h

theorem WInv.wait (h : WInv w held log d0) {i : Nat} {io : Io β} (hw : w.io.wait i = some io) : WInv { w with io := io } held log d0 :=
  wait_ind (P := fun io => WInv { w with io := io } held log d0) (fun _ i hs => hs.serve i) hw h

theorem WInv.waitOpt (h : WInv w held log d0) (b : Nat) : ∃ io, waitOpt w.io (w.reqs b) = some io ∧ WInv { w with io := io } held log d0 := by
  cases hb : w.reqs b with
  | none => exact ⟨_, rfl, h⟩
  | some i =>
    obtain ⟨r, hr⟩ := h.valid b i hb
    obtain ⟨io, hio⟩ := wait_some hr
    exact ⟨io, hio, h.wait hio⟩

theorem count_pos {l : List Nat} {b : Nat} (h : b ∈ l) : 0 < l.count b := List.count_pos_iff.mpr h

theorem WInv.issueTop (h : WInv w held log d0) (e : Nat × Nat) (he : e ∈ w.batch) :
    WInv { w with io := w.io.issue true e.2 (w.bids e.2), reqs := upd w.reqs e.2 (some w.io.rqs.length),
                  busy := w.busy ++ [e.2], batch := w.batch.erase e } held log d0 := by
  have hp : w.batch.Perm (e :: w.batch.erase e) := List.perm_cons_erase he
  have hnd := (hp.map (fun e => w.bids e.2)).nodup_iff.mp h.batchND
  rw [List.map_cons] at hnd
  have hnot := (List.nodup_cons.mp hnd).1
  have hlog := h.batchLog e he
  have hcb := fun b => (hp.map Prod.snd).count_eq b
  have hc := h.cnt
  have hebusy : e.2 ∉ w.busy := by
    intro hm
    have h1 := hc e.2
    have h2 := count_pos hm
    have h3 : 0 < (w.batch.map Prod.snd).count e.2 := count_pos (List.mem_map_of_mem he)
    split_ifs at h1 <;> omega
  have hnopw : NoPW w.io (w.bids e.2) := by
    intro i r hpr _ hc
    exact (h.pend i r hpr).2.2.2.2 e he hc.symm
  refine ⟨?_, ?_, ?_, ?_, ?_, (List.nodup_cons.mp hnd).2, ?_, h.logND, ?_, h.frame⟩
  · intro b
    show w.free.count b + (w.busy ++ [e.2]).count b + ((w.batch.erase e).map Prod.snd).count b + held.count b = _
    have h1 := hc b
    have h2 := hcb b
    rw [List.map_cons, List.count_cons] at h2
    rw [List.count_append, List.count_singleton]
    show _ = if b < w.nw then 1 else 0
    omega
  · show w.free.length + (w.busy ++ [e.2]).length + (w.batch.erase e).length + _ = w.nw
    have h1 := h.len
    have h2 := hp.length_eq
    simp only [List.length_append, List.length_cons, List.length_nil] at h2 ⊢
    omega
  · intro i r hpr
    rcases pend_issue.mp hpr with ⟨rfl, rfl⟩ | hpr
    · refine ⟨rfl, by simp, upd_same _ _ _, List.mem_map.mpr ⟨_, hlog, rfl⟩, ?_⟩
      intro e' he' hc
      exact hnot (List.mem_map.mpr ⟨e', he', hc⟩)
    · obtain ⟨h1, h2, h3, h4, h5⟩ := h.pend i r hpr
      refine ⟨h1, by simp [h2], ?_, h4, fun e' he' => h5 e' (List.mem_of_mem_erase he')⟩
      show upd _ _ _ _ = _
      rw [upd_ne _ _ (by rintro hc; rw [hc] at h2; exact hebusy h2)]; exact h3
  · intro b i hb
    have hb : upd w.reqs e.2 _ b = some i := hb
    by_cases hbe : b = e.2
    · subst hbe
      rw [upd_same] at hb; cases hb
      exact ⟨_, issue_get_new _ _ _ _⟩
    · rw [upd_ne _ _ hbe] at hb
      obtain ⟨r, hr⟩ := h.valid b i hb
      exact ⟨r, issue_get hr⟩
  · intro b hb
    show upd _ _ _ _ ≠ _
    by_cases hbe : b = e.2
    · subst hbe; rw [upd_same]; simp
    · rw [upd_ne _ _ hbe]
      rcases List.mem_append.mp hb with hb | hb
      · exact h.busyReq b hb
      · exact absurd (by simpa using hb) hbe
  · intro e' he'; exact h.batchLog e' (List.mem_of_mem_erase he')
  · intro x hx
    by_cases hxe : x.1 = w.bids e.2
    · right
      -- the new write is the newest one
      have hxc : x.2 = w.io.mem e.2 := by
        have : x = (w.bids e.2, w.io.mem e.2) := List.inj_on_of_nodup_map h.logND hx hlog hxe
        rw [this]
      refine ⟨?_, ?_⟩
      · intro i r hpr hw hb hn
        rcases pend_issue.mp hpr with ⟨rfl, rfl⟩ | hpr
        · exact hxc.symm
        · exact absurd (hb.trans hxe) (hnopw i r hpr hw)
      · intro hno
        exfalso
        exact hno w.io.rqs.length _ (pend_issue.mpr (Or.inl ⟨rfl, rfl⟩)) rfl hxe.symm
    · rcases h.logOk x hx with ⟨e', he', hb⟩ | hd
      · left
        have : e' ≠ e := by rintro rfl; exact hxe hb.symm
        exact ⟨e', (List.mem_erase_of_ne this).mpr he', hb⟩
      · right
        refine ⟨?_, ?_⟩
        · intro i r hpr hw hb hn
          rcases pend_issue.mp hpr with ⟨rfl, rfl⟩ | hpr
          · exact absurd hb.symm hxe
          · refine hd.1 i r hpr hw hb ?_
            intro j r' hj hw' hb'
            exact hn j r' (pend_issue.mpr (Or.inr hj)) hw' hb'
        · intro hno
          exact hd.2 (fun j r' hj => hno j r' (pend_issue.mpr (Or.inr hj)))

theorem flushBatch_ok (o : Nat → List Nat × Nat) : ∀ (n : Nat) (w : W β), WInv w held log d0 → w.batch.length = n →
    ∃ w', flushBatch o n w = some w' ∧ WInv w' held log d0 ∧ w'.batch = [] ∧ w'.nw = w.nw ∧ w'.bs = w.bs ∧ w'.io.mem = w.io.mem
  | 0, w, h, hn => ⟨w, rfl, h, List.length_eq_zero_iff.mp hn, rfl, rfl, rfl⟩
  | n + 1, w, h, hn => by
    unfold flushBatch
    obtain ⟨e, hp, he, -⟩ := Schedule.popMin_spec (o n).2 w.batch (by intro hc; rw [hc] at hn; simp at hn)
    rw [hp]
    dsimp only
    have h1 := h.serveAll (o n).1
    obtain ⟨io, hio, h2⟩ := h1.waitOpt e.2
    have hio : waitOpt (w.io.serveAll (o n).1) (w.reqs e.2) = some io := hio
    rw [hio]
    dsimp only
    have h3 := h2.issueTop e he
    have hmem : io.mem = w.io.mem := by
      have hP : ∀ s i, (WInv { w with io := s } held log d0 ∧ s.mem = w.io.mem) → (WInv { w with io := s.serve i } held log d0 ∧ (s.serve i).mem = w.io.mem) := by
        intro s i ⟨hs, hm⟩
        refine ⟨hs.serve i, ?_⟩
        funext b
        rw [← hm]
        exact serve_mem (fun j r hp hw => by have := (hs.pend j r hp).1; rw [hw] at this; simp at this) i
      have ha := serveAll_ind hP (o n).1 w.io ⟨h, rfl⟩
      cases hr : w.reqs e.2 with
      | none => rw [hr] at hio; cases hio; exact ha.2
      | some i => rw [hr] at hio; exact (wait_ind hP hio ha).2
    obtain ⟨w', hw', i1, i2, i3, i4, i5⟩ := flushBatch_ok o n _ h3 (by
      show (w.batch.erase e).length = n
      rw [List.length_erase_of_mem he]; omega)
    exact ⟨w', hw', i1, i2, i3, i4, i5.trans hmem⟩

theorem WInv.pollLoop (h : WInv w held log d0) (pick : Option Nat) :
    ∃ w', pollLoop pick w = some w' ∧ WInv w' held log d0 ∧ w'.batch = w.batch ∧ w'.nw = w.nw ∧ w'.bs = w.bs ∧ w'.io = w.io ∧ w'.bids = w.bids := by
  unfold BufStream.pollLoop
  cases pick with
  | none => exact ⟨w, rfl, h, rfl, rfl, rfl, rfl, rfl⟩
  | some k =>
    dsimp only
    cases hk : w.busy[k]? with
    | none => exact ⟨w, rfl, h, rfl, rfl, rfl, rfl, rfl⟩
    | some b =>
      dsimp only
      have hbb : b ∈ w.busy := List.mem_of_getElem? hk
      cases hr : w.reqs b with
      | none => exact absurd hr (h.busyReq b hbb)
      | some i =>
        dsimp only
        by_cases hpoll : w.io.poll i = true
        · rw [if_pos hpoll]
          have hperm : w.busy.Perm (b :: w.busy.eraseIdx k) := by
            obtain ⟨hlt, heq⟩ := List.getElem?_eq_some_iff.mp hk
            rw [← heq]; exact (List.getElem_cons_eraseIdx_perm hlt).symm
          refine ⟨_, rfl, ⟨?_, ?_, ?_, h.valid, ?_, h.batchND, h.batchLog, h.logND, h.logOk, h.frame⟩, rfl, rfl, rfl, rfl, rfl⟩
          · intro b'
            show (w.free ++ [b]).count b' + (w.busy.eraseIdx k).count b' + (w.batch.map Prod.snd).count b' + _ = if b' < w.nw then 1 else 0
            have h1 := h.cnt b'
            have h2 := hperm.count_eq b'
            rw [List.count_cons] at h2
            rw [List.count_append, List.count_singleton]
            omega
          · show (w.free ++ [b]).length + (w.busy.eraseIdx k).length + _ + _ = w.nw
            have h1 := h.len
            have h2 := hperm.length_eq
            simp only [List.length_append, List.length_cons, List.length_nil] at h2 ⊢
            omega
          · intro j r hp
            obtain ⟨h1, h2, h3, h4⟩ := h.pend j r hp
            refine ⟨h1, ?_, h3, h4⟩
            rcases List.mem_cons.mp (hperm.mem_iff.mp h2) with h5 | h5
            · exfalso
              rw [h5, hr] at h3
              cases h3
              have hp' : Pend w.io i r := hp
              unfold Io.poll at hpoll
              rw [hp'.1] at hpoll
              simp [hp'.2] at hpoll
            · exact h5
          · intro b' hb'; exact h.busyReq b' (hperm.mem_iff.mpr (List.mem_cons_of_mem _ hb'))
        · rw [if_neg hpoll]
          exact ⟨w, rfl, h, rfl, rfl, rfl, rfl, rfl⟩

/-- `get_free_block` returns a buffer nobody uses, unless all buffers are held by the client or wait in the batch. -/
theorem WInv.getFree (h : WInv w held log d0) (srv : List Nat) (pick : Option Nat) (c : Nat) (hroom : held.length + w.batch.length < w.nw) :
    ∃ w' b, getFree srv pick c w = some (w', b) ∧ WInv w' (b :: held) log d0 ∧ w'.batch = w.batch ∧ w'.nw = w.nw ∧ w'.bs = w.bs ∧
      (∀ b' ∈ held, w'.io.mem b' = w.io.mem b') := by
  unfold BufStream.getFree
  have hmemP : ∀ s i, (WInv { w with io := s } held log d0 ∧ s.mem = w.io.mem) → (WInv { w with io := s.serve i } held log d0 ∧ (s.serve i).mem = w.io.mem) := by
    intro s i ⟨hs, hm⟩
    refine ⟨hs.serve i, ?_⟩
    funext b
    rw [← hm]
    exact serve_mem (fun j r hp hw => by have := (hs.pend j r hp).1; rw [hw] at this; simp at this) i
  have hm1 := (serveAll_ind hmemP srv w.io ⟨h, rfl⟩).2
  obtain ⟨w1, hw1, h1, e1, e2, e3, e4, e5⟩ := (h.serveAll srv).pollLoop pick
  rw [hw1]
  dsimp only
  have e4 : w1.io = w.io.serveAll srv := e4
  have e1 : w1.batch = w.batch := e1
  have e2 : w1.nw = w.nw := e2
  cases hf : w1.free.getLast? with
  | some b =>
    dsimp only
    obtain ⟨ys, hys⟩ := List.getLast?_eq_some_iff.mp hf
    refine ⟨_, _, rfl, ⟨?_, ?_, h1.pend, h1.valid, h1.busyReq, h1.batchND, h1.batchLog, h1.logND, h1.logOk, h1.frame⟩, e1, e2, e3, ?_⟩
    · intro b'
      show (w1.free.dropLast).count b' + w1.busy.count b' + (w1.batch.map Prod.snd).count b' + (b :: held).count b' = if b' < w1.nw then 1 else 0
      have := h1.cnt b'
      rw [hys] at this ⊢
      rw [List.dropLast_concat, List.count_cons]
      rw [List.count_append, List.count_singleton] at this
      omega
    · show (w1.free.dropLast).length + _ + _ + (b :: held).length = w1.nw
      have := h1.len
      rw [hys] at this ⊢
      rw [List.dropLast_concat]
      simp only [List.length_append, List.length_cons, List.length_nil] at this ⊢
      omega
    · intro b' _; show w1.io.mem b' = _; rw [e4, hm1]
  | none =>
    dsimp only
    have hfe : w1.free = [] := List.getLast?_eq_none_iff.mp hf
    have hlen := h1.len
    rw [hfe, e1, e2] at hlen
    simp only [List.length_nil] at hlen
    have hk : c % w1.busy.length < w1.busy.length := Nat.mod_lt _ (by omega)
    rw [List.getElem?_eq_getElem hk]
    dsimp only
    have hbb : w1.busy[c % w1.busy.length] ∈ w1.busy := List.getElem_mem hk
    cases hr : w1.reqs w1.busy[c % w1.busy.length] with
    | none => exact absurd hr (h1.busyReq _ hbb)
    | some i =>
      dsimp only
      obtain ⟨r, hrr⟩ := h1.valid _ i hr
      obtain ⟨io, hio⟩ := wait_some hrr
      rw [hio]
      dsimp only
      have h2 := h1.wait hio
      have hm2 : io.mem = w1.io.mem := by
        have hP : ∀ s i, (WInv { w1 with io := s } held log d0 ∧ s.mem = w1.io.mem) → (WInv { w1 with io := s.serve i } held log d0 ∧ (s.serve i).mem = w1.io.mem) := by
          intro s i ⟨hs, hm⟩
          refine ⟨hs.serve i, ?_⟩
          funext b
          rw [← hm]
          exact serve_mem (fun j r hp hw => by have := (hs.pend j r hp).1; rw [hw] at this; simp at this) i
        exact (wait_ind hP hio ⟨h1, rfl⟩).2
      have hperm : w1.busy.Perm (w1.busy[c % w1.busy.length] :: w1.busy.eraseIdx (c % w1.busy.length)) :=
        (List.getElem_cons_eraseIdx_perm hk).symm
      generalize hb : w1.busy[c % w1.busy.length] = b at *
      refine ⟨_, _, rfl, ⟨?_, ?_, ?_, h2.valid, ?_, h2.batchND, h2.batchLog, h2.logND, h2.logOk, h2.frame⟩, e1, e2, e3, ?_⟩
      · intro b'
        show w1.free.count b' + (w1.busy.eraseIdx _).count b' + (w1.batch.map Prod.snd).count b' + (b :: held).count b' = if b' < w1.nw then 1 else 0
        have := h1.cnt b'
        have h3 := hperm.count_eq b'
        rw [List.count_cons] at h3 ⊢
        omega
      · show w1.free.length + (w1.busy.eraseIdx _).length + w1.batch.length + (b :: held).length = w1.nw
        have := h1.len
        have h3 := hperm.length_eq
        simp only [List.length_cons] at h3 ⊢
        omega
      · intro j r' hp
        obtain ⟨q1, q2, q3, q4⟩ := h2.pend j r' hp
        refine ⟨q1, ?_, q3, q4⟩
        rcases List.mem_cons.mp (hperm.mem_iff.mp q2) with h5 | h5
        · exfalso
          have q3 : w1.reqs r'.buf = some j := q3
          rw [h5, hr] at q3
          cases q3
          exact wait_done hio r' hp
        · exact h5
      · intro b' hb'; exact h2.busyReq b' (hperm.mem_iff.mpr (List.mem_cons_of_mem _ hb'))
      · intro b' _; show io.mem b' = _; rw [hm2, e4, hm1]

/-- `write` records the block and returns another buffer, if the batch is smaller than the number of buffers not held. -/
theorem WInv.write (offs : Nat → Nat) (ch : Ch) (b bid : Nat) (h : WInv w (b :: held) log d0) (hbatch : w.batch.length ≤ w.bs)
    (hroom : held.length + w.bs < w.nw) (hbs : 1 ≤ w.bs) (hfresh : bid ∉ log.map Prod.fst) :
    ∃ w' b', write offs ch w b bid = some (w', b') ∧ WInv w' (b' :: held) ((bid, w.io.mem b) :: log) d0 ∧ w'.batch.length ≤ w'.bs ∧
      w'.nw = w.nw ∧ w'.bs = w.bs ∧ ∀ x ∈ held, w'.io.mem x = w.io.mem x := by
  unfold BufStream.write
  have key : ∃ w1, (if w.batch.length ≥ w.bs then flushBatch ch.o w.batch.length w else some w) = some w1 ∧ WInv w1 (b :: held) log d0 ∧
      w1.batch.length < w.bs ∧ w1.nw = w.nw ∧ w1.bs = w.bs ∧ w1.io.mem = w.io.mem := by
    split
    · obtain ⟨w1, a1, a2, a3, a4, a5, a6⟩ := flushBatch_ok ch.o _ w h rfl
      exact ⟨w1, a1, a2, by rw [a3]; exact hbs, a4, a5, a6⟩
    · exact ⟨w, rfl, h, by omega, rfl, rfl, rfl⟩
  obtain ⟨w1, hw1, h1, g1, g2, g3, g4⟩ := key
  rw [hw1]
  dsimp only
  have hc := h1.cnt
  have hcb : w1.busy.count b = 0 ∧ (w1.batch.map Prod.snd).count b = 0 := by
    have := hc b
    rw [List.count_cons] at this
    simp only [BEq.rfl, if_true] at this
    split_ifs at this <;> omega
  have hbb : b ∉ w1.busy := List.count_eq_zero.mp hcb.1
  have hbt : ∀ e ∈ w1.batch, e.2 ≠ b := by
    intro e he hc
    exact List.count_eq_zero.mp hcb.2 (hc ▸ List.mem_map_of_mem he)
  have hbids : ∀ e ∈ w1.batch, upd w1.bids b bid e.2 = w1.bids e.2 := fun e he => upd_ne _ _ (hbt e he)
  have h2 : WInv { w1 with bids := upd w1.bids b bid, batch := (offs bid, b) :: w1.batch } held ((bid, w1.io.mem b) :: log) d0 := by
    refine ⟨?_, ?_, ?_, h1.valid, h1.busyReq, ?_, ?_, ?_, ?_, ?_⟩
    · intro b'
      show _ + _ + (List.map Prod.snd ((offs bid, b) :: w1.batch)).count b' + _ = if b' < w1.nw then 1 else 0
      have := hc b'
      rw [List.map_cons]
      rw [List.count_cons] at this ⊢
      dsimp only at this ⊢
      omega
    · show _ + _ + ((offs bid, b) :: w1.batch).length + _ = w1.nw
      have := h1.len
      simp only [List.length_cons] at this ⊢
      omega
    · intro i r hp
      obtain ⟨q1, q2, q3, q4, q5⟩ := h1.pend i r hp
      refine ⟨q1, q2, q3, List.mem_cons_of_mem _ q4, ?_⟩
      intro e he
      show upd w1.bids b bid e.2 ≠ _
      rcases List.mem_cons.mp he with rfl | he
      · rw [upd_same]; rintro rfl; exact hfresh q4
      · rw [hbids e he]; exact q5 e he
    · show (List.map (fun e => upd w1.bids b bid e.2) ((offs bid, b) :: w1.batch)).Nodup
      rw [List.map_cons, List.map_congr_left hbids, upd_same, List.nodup_cons]
      refine ⟨?_, h1.batchND⟩
      intro hm
      obtain ⟨e, he, hb⟩ := List.mem_map.mp hm
      exact hfresh (hb ▸ List.mem_map_of_mem (h1.batchLog e he))
    · intro e he
      show (upd w1.bids b bid e.2, w1.io.mem e.2) ∈ _
      rcases List.mem_cons.mp he with rfl | he
      · rw [upd_same]; exact List.mem_cons_self
      · rw [hbids e he]; exact List.mem_cons_of_mem _ (h1.batchLog e he)
    · rw [List.map_cons, List.nodup_cons]; exact ⟨hfresh, h1.logND⟩
    · intro x hx
      rcases List.mem_cons.mp hx with rfl | hx
      · exact Or.inl ⟨_, List.mem_cons_self, upd_same _ _ _⟩
      · rcases h1.logOk x hx with ⟨e, he, hb⟩ | hd
        · exact Or.inl ⟨e, List.mem_cons_of_mem _ he, (hbids e he).trans hb⟩
        · exact Or.inr hd
    · intro x hx
      exact h1.frame x (fun hm => hx (List.mem_cons_of_mem _ hm))
  obtain ⟨w2, b', q1, q2, q3, q4, q5, q6⟩ := h2.getFree ch.srv ch.pick ch.c (by
    show held.length + (w1.batch.length + 1) < w1.nw; omega)
  refine ⟨w2, b', q1, by rw [← g4]; exact q2, ?_, q4.trans g2, q5.trans g3, ?_⟩
  · rw [q3]; show w1.batch.length + 1 ≤ _; rw [q5]; show _ ≤ w1.bs; omega
  · intro x hx; rw [q6 x hx]; show w1.io.mem x = _; rw [g4]

theorem waitBusy_ok : ∀ (l : List Nat) (w : W β), WInv w held log d0 → (∀ b ∈ l, w.reqs b ≠ none) →
    ∃ io, waitBusy w.reqs l w.io = some io ∧ WInv { w with io := io } held log d0 ∧
      ∀ i r, Pend io i r → r.buf ∉ l
  | [], w, h, _ => ⟨w.io, rfl, h, by simp⟩
  | b :: l, w, h, hl => by
    unfold waitBusy
    cases hr : w.reqs b with
    | none => exact absurd hr (hl b (by simp))
    | some i =>
      dsimp only
      obtain ⟨r, hrr⟩ := h.valid b i hr
      obtain ⟨io, hio⟩ := wait_some hrr
      rw [hio]
      dsimp only
      have h1 := h.wait hio
      obtain ⟨io', a1, a2, a3⟩ := waitBusy_ok l { w with io := io } h1 (fun b' hb' => hl b' (List.mem_cons_of_mem _ hb'))
      refine ⟨io', a1, a2, ?_⟩
      intro j r' hp hmem
      rcases List.mem_cons.mp hmem with h5 | h5
      · have hp2 := a2.pend j r' hp
        have q3 : w.reqs r'.buf = some j := hp2.2.2.1
        rw [h5, hr] at q3
        cases q3
        -- request i is not outstanding in io, hence not in io'
        have hback : ∀ (l : List Nat) (s s' : Io β), waitBusy w.reqs l s = some s' → Later s s' := by
          intro l
          induction l with
          | nil => intro s s' hs; cases hs; exact Later.refl _
          | cons x l ih =>
            intro s s' hs
            unfold waitBusy at hs
            cases hx : w.reqs x with
            | none => rw [hx] at hs; simp at hs
            | some ix =>
              rw [hx] at hs; dsimp only at hs
              cases hwx : s.wait ix with
              | none => rw [hwx] at hs; simp at hs
              | some s1 => rw [hwx] at hs; exact (wait_later hwx).trans (ih s1 s' hs)
        exact wait_done hio r' ((hback l io io' a1).pend hp)
      · exact a3 j r' hp h5

/-- After `flush` (or the destructor) every block handed to `write` is on disk, and no other block has changed. -/
theorem WInv.flush (ch : Ch) (h : WInv w held log d0) :
    ∃ w', flush ch w = some w' ∧ (∀ x ∈ log, w'.io.disk x.1 = x.2) ∧ (∀ bid, bid ∉ log.map Prod.fst → w'.io.disk bid = d0 bid) ∧
      (∀ i r, ¬ Pend w'.io i r) := by
  unfold BufStream.flush
  obtain ⟨w1, a1, a2, a3, a4, a5, a6⟩ := flushBatch_ok ch.o _ w h rfl
  rw [a1]
  dsimp only
  have h2 := a2.serveAll ch.srv
  obtain ⟨io, b1, b2, b3⟩ := waitBusy_ok w1.busy _ h2 (fun b hb => h2.busyReq b hb)
  have b1 : waitBusy w1.reqs w1.busy (w1.io.serveAll ch.srv) = some io := b1
  rw [b1]
  dsimp only
  have hno : ∀ i r, ¬ Pend io i r := fun i r hp => b3 i r hp (b2.pend i r hp).2.1
  refine ⟨_, rfl, ?_, b2.frame, hno⟩
  intro x hx
  rcases b2.logOk x hx with ⟨e, he, -⟩ | hd
  · have he : e ∈ w1.batch := he
    rw [a3] at he; simp at he
  · exact hd.2 (fun i r hp => absurd hp (hno i r))

/-- The client writes into a buffer it holds. -/
theorem WInv.store (h : WInv w held log d0) (b : Nat) (hb : b ∈ held) (f : β) :
    WInv { w with io := { w.io with mem := upd w.io.mem b f } } held log d0 := by
  have hcb : w.busy.count b = 0 ∧ (w.batch.map Prod.snd).count b = 0 := by
    have h1 := h.cnt b
    have h2 := count_pos hb
    split_ifs at h1 <;> omega
  refine ⟨h.cnt, h.len, h.pend, h.valid, h.busyReq, h.batchND, ?_, h.logND, ?_, h.frame⟩
  · intro e he
    show (_, upd w.io.mem b f e.2) ∈ _
    rw [upd_ne]
    · exact h.batchLog e he
    · intro hc; exact List.count_eq_zero.mp hcb.2 (hc ▸ List.mem_map_of_mem he)
  · intro x hx
    rcases h.logOk x hx with h1 | h1
    · exact Or.inl h1
    · right
      refine ⟨?_, h1.2⟩
      intro i r hp hw hbid hn
      show upd w.io.mem b f r.buf = _
      rw [upd_ne]
      · exact h1.1 i r hp hw hbid hn
      · intro hc; exact List.count_eq_zero.mp hcb.1 (hc ▸ (h.pend i r hp).2.1)

/-- The initial state. -/
theorem WInv.new (io : Io β) (hio : ∀ i r, ¬ Pend io i r) (bufs bsz : Nat) :
    WInv (W.new io bufs bsz) [] [] io.disk := by
  refine ⟨?_, ?_, ?_, ?_, ?_, ?_, ?_, ?_, ?_, ?_⟩
  · intro b
    show (List.range (W.new io bufs bsz).nw).count b + 0 + 0 + 0 = _
    by_cases hb : b < (W.new io bufs bsz).nw
    · rw [if_pos hb]
      exact List.count_eq_one_of_mem List.nodup_range (by simpa using hb)
    · rw [if_neg hb]
      exact List.count_eq_zero.mpr (by simpa using hb)
  · simp [W.new]
  · intro i r hp; exact absurd hp (hio i r)
  · intro b i hb; simp [W.new] at hb
  · simp [W.new]
  · simp [W.new]
  · simp [W.new]
  · simp
  · simp
  · intro bid _; rfl

end Stxxl.BufStream
