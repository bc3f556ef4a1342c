import Verif.Io.Lemmas
import Verif.Pools.Model

/-!
# Invariant of the pools
-/

namespace Stxxl.Io.Io
open Stxxl.ExtVector (upd)
variable {β : Type}

theorem newest_serve {s : Io β} {i j : Nat} {r : Rq} (hp : Pend (serve s i) j r) (hw : r.isWrite = true)
    (hn : Newest (serve s i) j r.bid) : Newest s j r.bid := by
  have hp0 := (serve_later s i).pend hp
  intro k r' hk hwk hbk
  rcases serve_cases s i with e | ⟨r1, h1, hw1, hold, e⟩ | ⟨r1, h1, hw1, e⟩
  · rw [e] at hn; exact hn k r' hk hwk hbk
  · rw [e] at hn hp
    have hpe := pend_set h1 (st := .done) (by simp) s.mem (upd s.disk r1.bid (s.mem r1.buf))
    by_cases hki : k = i
    · subst hki
      have := hk.uniq h1; subst this
      rcases Nat.lt_or_ge j k with hlt | hge
      · exact absurd hbk.symm (hold j r hlt hp0 hw)
      · exact hge
    · exact hn k r' ((hpe k r').2 ⟨hki, hk⟩) hwk hbk
  · rw [e] at hn
    have hpe := pend_set h1 (st := .done) (by simp) (upd s.mem r1.buf (s.disk r1.bid)) s.disk
    by_cases hki : k = i
    · subst hki; have := hk.uniq h1; subst this; rw [hw1] at hwk; simp at hwk
    · exact hn k r' ((hpe k r').2 ⟨hki, hk⟩) hwk hbk

/-- Serving only turns pending requests into done ones. -/
theorem serve_get {s : Io β} (i : Nat) {j : Nat} {r : Rq} (h : s.rqs[j]? = some r) :
    (serve s i).rqs[j]? = some r ∨
    (j = i ∧ r.st = .pending ∧ (serve s i).rqs[j]? = some { r with st := .done } ∧
      (r.isWrite = false → (serve s i).mem r.buf = s.disk r.bid) ∧ (r.isWrite = true → (serve s i).mem = s.mem)) := by
  rcases serve_cases s i with e | ⟨r1, h1, hw1, hold, e⟩ | ⟨r1, h1, hw1, e⟩
  · rw [e]; exact .inl h
  · rw [e]
    dsimp only
    rw [List.getElem?_set]
    by_cases hij : i = j
    · subst hij
      have : r1 = r := by have := h1.1.symm.trans h; simpa using this
      subst this
      rw [if_pos rfl, if_pos (List.getElem?_eq_some_iff.1 h).1]
      exact .inr ⟨rfl, h1.2, rfl, by simp [hw1], fun _ => rfl⟩
    · rw [if_neg hij]; exact .inl h
  · rw [e]
    dsimp only
    rw [List.getElem?_set]
    by_cases hij : i = j
    · subst hij
      have : r1 = r := by have := h1.1.symm.trans h; simpa using this
      subst this
      rw [if_pos rfl, if_pos (List.getElem?_eq_some_iff.1 h).1]
      exact .inr ⟨rfl, h1.2, rfl, fun _ => ExtVector.upd_same _ _ _, by simp [hw1]⟩
    · rw [if_neg hij]; exact .inl h

end Stxxl.Io.Io

namespace Stxxl.Pools
open Stxxl.Io Stxxl.Io.Io Stxxl.ExtVector
variable {β : Type}

/-- Buffers with a request. -/
def ents (s : Sys β) (c : Client) : List (Nat × Nat) :=
  c.up.map (fun e => (e.buf, e.req)) ++ s.p.wbusy.map (fun e => (e.buf, e.req)) ++ s.p.pbusy.map (fun e => (e.buf, e.req))

/-- Buffers without a request. -/
def frees (s : Sys β) (c : Client) : List Nat := c.held ++ s.p.wfree ++ s.p.pfree

theorem allBufs_perm (s : Sys β) (c : Client) : (frees s c ++ (ents s c).map Prod.fst).Perm (allBufs s c) := by
  rw [List.perm_iff_count]
  intro a
  simp [frees, ents, allBufs, List.count_append, Function.comp_def]
  omega

/-- A copy of block `bid` in buffer `buf` with request `i`: once the request is done, the buffer contains `c`. -/
def RdOk (io : Io β) (bid buf i : Nat) (c : β) : Prop :=
  ∃ r, io.rqs[i]? = some r ∧ r.buf = buf ∧ r.bid = bid ∧ r.st ≠ .cancelled ∧
    ((r.st = .done ∨ r.isWrite = true) → io.mem buf = c) ∧ (r.st = .pending → r.isWrite = false → NoPW io bid)

/-- `D`: blocks about which everything is in order; `Q`: blocks whose copy in the prefetch pool is up to date (all blocks,
except in the middle of an operation). -/
structure Inv (D Q : Nat → Prop) (s : Sys β) (c : Client) (spec : Nat → β) : Prop where
  nod : (allBufs s c).Nodup
  keys : (s.p.pbusy.map (·.bid)).Nodup
  ex : ∀ b i, (b, i) ∈ ents s c → ∃ r, s.io.rqs[i]? = some r ∧ r.buf = b
  own : ∀ j r, Pend s.io j r → (r.buf, j) ∈ ents s c
  dsk : ∀ b, D b → DiskIs s.io b (spec b)
  last : ∀ j r, Pend s.io j r → r.isWrite = true → Newest s.io j r.bid → D r.bid →
    ⟨r.buf, j, some r.bid⟩ ∈ s.p.wbusy ∨ ⟨r.bid, r.buf, j⟩ ∈ s.p.pbusy ∨ ⟨r.bid, r.buf, j⟩ ∈ c.up
  wb : ∀ e ∈ s.p.wbusy, ∀ b, e.bid = some b →
    ∃ r, s.io.rqs[e.req]? = some r ∧ r.bid = b ∧ r.isWrite = true ∧ r.st ≠ .cancelled ∧ s.io.mem e.buf = spec b
  pb : ∀ e ∈ s.p.pbusy, Q e.bid → RdOk s.io e.bid e.buf e.req (spec e.bid)
  up : ∀ e ∈ c.up, RdOk s.io e.bid e.buf e.req (spec e.bid)
  upD : ∀ e ∈ c.up, D e.bid
  QD : ∀ b, Q b → D b

/-- Between operations. -/
abbrev Ok (s : Sys β) (c : Client) (spec : Nat → β) : Prop := Inv (fun _ => True) (fun _ => True) s c spec

variable {D Q : Nat → Prop} {s : Sys β} {c : Client} {spec : Nat → β}

theorem Inv.nod' (h : Inv D Q s c spec) : (frees s c ++ (ents s c).map Prod.fst).Nodup :=
  (allBufs_perm s c).nodup_iff.2 h.nod

theorem Inv.ents_inj (h : Inv D Q s c spec) {b i j : Nat} (hi : (b, i) ∈ ents s c) (hj : (b, j) ∈ ents s c) : i = j := by
  have hn : ((ents s c).map Prod.fst).Nodup := (List.nodup_append.1 h.nod').2.1
  obtain ⟨n, hn1⟩ := List.getElem?_of_mem hi
  obtain ⟨m, hm1⟩ := List.getElem?_of_mem hj
  have e1 : ((ents s c).map Prod.fst)[n]? = some b := by rw [List.getElem?_map, hn1]; rfl
  have e2 : ((ents s c).map Prod.fst)[m]? = some b := by rw [List.getElem?_map, hm1]; rfl
  have := ExtVector.nodup_get_inj hn e1 e2
  subst this
  rw [hn1] at hm1
  simpa using hm1

theorem Inv.free_not (h : Inv D Q s c spec) {b i : Nat} (hb : b ∈ frees s c) (hi : (b, i) ∈ ents s c) : False := by
  have := (List.nodup_append.1 h.nod').2.2 b hb b (List.mem_map_of_mem (f := Prod.fst) hi)
  exact this rfl

theorem Inv.noAlias (h : Inv D Q s c spec) : NoAlias s.io := by
  intro i j r r' hi hj he
  have h1 := h.own i r hi
  have h2 := h.own j r' hj
  rw [he] at h1
  exact h.ents_inj h1 h2

theorem mem_ents_w {e : WEntry} (h : e ∈ s.p.wbusy) : (e.buf, e.req) ∈ ents s c := by
  simp only [ents, List.mem_append, List.mem_map]; exact .inl (.inr ⟨e, h, rfl⟩)
theorem mem_ents_p {e : PEntry} (h : e ∈ s.p.pbusy) : (e.buf, e.req) ∈ ents s c := by
  simp only [ents, List.mem_append, List.mem_map]; exact .inr ⟨e, h, rfl⟩
theorem mem_ents_u {e : PEntry} (h : e ∈ c.up) : (e.buf, e.req) ∈ ents s c := by
  simp only [ents, List.mem_append, List.mem_map]; exact .inl (.inl ⟨e, h, rfl⟩)

/-- Serving a request keeps a copy in order. -/
theorem RdOk.serve {io : Io β} {bid buf j : Nat} {v : β} (h : RdOk io bid buf j v)
    (hown : ∀ k r, Pend io k r → r.buf = buf → k = j) (hd : DiskIs io bid v) (i : Nat) : RdOk (io.serve i) bid buf j v := by
  obtain ⟨r, h1, h2, h3, h4, h5, h6⟩ := h
  rcases serve_get i h1 with e | ⟨hji, hp, e, e1, e2⟩
  · refine ⟨r, e, h2, h3, h4, fun hd' => ?_, fun hp hw => (h6 hp hw).later (serve_later _ _)⟩
    rw [serve_mem]
    · exact h5 hd'
    · intro k r' hk hw hb
      have := hown k r' hk hb
      subst this
      have : r' = r := by have := hk.1.symm.trans h1; simpa using this
      subst this
      rcases hd' with hd' | hd'
      · rw [hk.2] at hd'; simp at hd'
      · rw [hw] at hd'; simp at hd'
  · refine ⟨_, e, h2, h3, by simp, fun _ => ?_, fun hp' => by simp at hp'⟩
    cases hw : r.isWrite with
    | true => rw [e2 hw]; exact h5 (.inr hw)
    | false =>
      rw [← h2, e1 hw, h3]
      exact hd.2 (h6 hp hw)

theorem Inv.serve (h : Inv D Q s c spec) (i : Nat) : Inv D Q { s with io := s.io.serve i } c spec := by
  have hl := serve_later s.io i
  have hown : ∀ {b j}, (b, j) ∈ ents s c → ∀ k r, Pend s.io k r → r.buf = b → k = j := by
    intro b j hb k r hk hbuf
    have := h.own k r hk
    rw [hbuf] at this
    exact h.ents_inj this hb
  refine ⟨h.nod, h.keys, ?_, ?_, fun b hb => (h.dsk b hb).serve h.noAlias i, ?_, ?_, ?_, ?_, h.upD, h.QD⟩
  · intro b j hb
    obtain ⟨r, h1, h2⟩ := h.ex b j hb
    obtain ⟨r', h3, _, h4, _⟩ := hl.keep j r h1
    exact ⟨r', h3, h4.trans h2⟩
  · intro j r hp; exact h.own j r (hl.pend hp)
  · intro j r hp hw hn hD
    exact h.last j r (hl.pend hp) hw (newest_serve hp hw hn) hD
  · intro e he b hb
    obtain ⟨r, h1, h2, h3, h4, h5⟩ := h.wb e he b hb
    have hm : (s.io.serve i).mem e.buf = s.io.mem e.buf := by
      rw [serve_mem]
      intro k r' hk hw hbuf
      have := hown (mem_ents_w (c := c) he) k r' hk hbuf
      subst this
      have : r' = r := by have := hk.1.symm.trans h1; simpa using this
      subst this
      rw [hw] at h3; simp at h3
    rcases serve_get i h1 with e | ⟨hji, hp, e, e1, e2⟩
    · exact ⟨r, e, h2, h3, h4, hm.trans h5⟩
    · exact ⟨_, e, h2, h3, by simp, hm.trans h5⟩
  · intro e he hQ
    exact (h.pb e he hQ).serve (hown (mem_ents_p he)) (h.dsk _ (h.QD _ hQ)) i
  · intro e he
    exact (h.up e he).serve (hown (mem_ents_u he)) (h.dsk _ (h.upD e he)) i

theorem Inv.serveAll (h : Inv D Q s c spec) (l : List Nat) : Inv D Q { s with io := s.io.serveAll l } c spec := by
  have := serveAll_ind (P := fun io => Inv D Q { s with io := io } c spec) (fun io i h => h.serve i) l s.io h
  exact this

theorem Inv.wait (h : Inv D Q s c spec) {i : Nat} {io : Io β} (hw : s.io.wait i = some io) : Inv D Q { s with io := io } c spec :=
  wait_ind (P := fun io => Inv D Q { s with io := io } c spec) (fun _ i h => h.serve i) hw h

/-- Moving buffers and entries around without touching requests. Entries that disappear have no outstanding request. -/
theorem Inv.move (h : Inv D Q s c spec) {p' : Pool} {c' : Client} {Q' : Nat → Prop}
    (hnod : (allBufs { s with p := p' } c').Nodup)
    (hk : (p'.pbusy.map (·.bid)).Nodup)
    (he : ∀ x ∈ ents { s with p := p' } c', x ∈ ents s c)
    (ho : ∀ x ∈ ents s c, (∃ r, Pend s.io x.2 r) → x ∈ ents { s with p := p' } c')
    (hl : ∀ b buf j r, Pend s.io j r → D b → (⟨buf, j, some b⟩ ∈ s.p.wbusy ∨ ⟨b, buf, j⟩ ∈ s.p.pbusy ∨ ⟨b, buf, j⟩ ∈ c.up) →
      (⟨buf, j, some b⟩ ∈ p'.wbusy ∨ ⟨b, buf, j⟩ ∈ p'.pbusy ∨ ⟨b, buf, j⟩ ∈ c'.up))
    (hw : ∀ e ∈ p'.wbusy, e.bid ≠ none → e ∈ s.p.wbusy)
    (hp : ∀ e ∈ p'.pbusy, Q' e.bid → (e ∈ s.p.pbusy ∧ Q e.bid) ∨ ⟨e.buf, e.req, some e.bid⟩ ∈ s.p.wbusy)
    (hu : ∀ e ∈ c'.up, e ∈ c.up ∨ (e ∈ s.p.pbusy ∧ Q e.bid) ∨ ⟨e.buf, e.req, some e.bid⟩ ∈ s.p.wbusy)
    (huD : ∀ e ∈ c'.up, D e.bid) (hQ : ∀ b, Q' b → D b) :
    Inv D Q' { s with p := p' } c' spec := by
  have wr : ∀ e : PEntry, ⟨e.buf, e.req, some e.bid⟩ ∈ s.p.wbusy → RdOk s.io e.bid e.buf e.req (spec e.bid) := by
    intro e hm
    obtain ⟨r, h1, h2, h3, h4, h5⟩ := h.wb _ hm _ rfl
    obtain ⟨r', h1', h6⟩ := h.ex _ _ (mem_ents_w (c := c) hm)
    have : r' = r := by have := h1'.symm.trans h1; simpa using this
    subst this
    exact ⟨r', h1, h6, h2, h4, fun _ => h5, fun _ hf => by rw [h3] at hf; simp at hf⟩
  refine ⟨hnod, hk, fun b i hb => h.ex b i (he _ hb), fun j r hp => ho _ (h.own j r hp) ⟨r, hp⟩, h.dsk, ?_, ?_, ?_, ?_, huD, hQ⟩
  · intro j r hp hwr hn hD
    exact hl _ _ _ r hp hD (h.last j r hp hwr hn hD)
  · intro e hee b hb
    exact h.wb e (hw e hee (by rw [hb]; simp)) b hb
  · intro e hee hq
    rcases hp e hee hq with ⟨h1, h2⟩ | h1
    · exact h.pb e h1 h2
    · exact wr e h1
  · intro e hee
    rcases hu e hee with h1 | ⟨h1, h2⟩ | h1
    · exact h.up e h1
    · exact h.pb e h1 h2
    · exact wr e h1

theorem getLast?_split {α : Type} {l : List α} {b : α} (h : l.getLast? = some b) : l = l.dropLast ++ [b] := by
  have hne : l ≠ [] := by rintro rfl; simp at h
  rw [List.getLast?_eq_some_getLast hne] at h
  simp at h
  rw [← h, List.dropLast_concat_getLast hne]

theorem find_erase_split {α : Type} {p : α → Bool} : ∀ {l : List α} {a : α}, l.find? p = some a →
    ∃ l1 l2, l = l1 ++ a :: l2 ∧ l.eraseP p = l1 ++ l2 ∧ p a = true ∧ ∀ x ∈ l1, p x = false := by
  intro l
  induction l with
  | nil => intro a h; simp at h
  | cons x l ih =>
    intro a h
    by_cases hx : p x = true
    · rw [List.find?_cons_of_pos hx] at h
      simp at h; subst h
      exact ⟨[], l, rfl, by simp [hx], hx, by simp⟩
    · rw [List.find?_cons_of_neg hx] at h
      obtain ⟨l1, l2, h1, h2, h3, h4⟩ := ih h
      refine ⟨x :: l1, l2, by simp [h1], by simp [hx, h2], h3, ?_⟩
      intro y hy
      rcases List.mem_cons.1 hy with rfl | hy
      · simpa using hx
      · exact h4 y hy

end Stxxl.Pools
