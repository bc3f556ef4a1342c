import Verif.BufStream.PInv
import Verif.Schedule.Props

/-! `buf_ostream` and `buf_istream`. -/

namespace Stxxl.BufStream
open Stxxl.Io Stxxl.Io.Io
open Stxxl.ExtVector (upd upd_same upd_ne)

variable {α : Type} {bl offs : Nat → Nat} {B : Nat}

/-- State of an output stream after the records `xs`. -/
structure OInv (bl : Nat → Nat) (B : Nat) (d0 : Nat → Nat → α) (xs : List α) (s : Os α) (log : List (Nat × (Nat → α))) : Prop where
  w : WInv s.w [s.cur] log d0
  bt : s.w.batch.length ≤ s.w.bs
  bs : 1 ≤ s.w.bs
  room : s.w.bs < s.w.nw
  len : xs.length = s.pos * B + s.elem
  el : s.elem < B
  fst : ∀ bid, bid ∈ log.map Prod.fst ↔ ∃ k < s.pos, bid = bl k
  con : ∀ k < s.pos, ∃ f, (bl k, f) ∈ log ∧ ∀ i < B, xs[k * B + i]? = some (f i)
  cur : ∀ i < s.elem, xs[s.pos * B + i]? = some (s.w.io.mem s.cur i)

variable {d0 : Nat → Nat → α}

theorem onew_ok (io : Io (Nat → α)) (hio : ∀ i r, ¬ Pend io i r) (hB : 1 ≤ B) (ch : Ch) (nb : Nat) :
    ∃ s, Os.new ch io nb = some s ∧ OInv bl B io.disk [] s [] := by
  have h0 := WInv.new io hio nb (nb / 2)
  have hbs : (W.new io nb (nb / 2)).bs < (W.new io nb (nb / 2)).nw ∧ 1 ≤ (W.new io nb (nb / 2)).bs := by
    simp only [W.new]; split_ifs <;> omega
  obtain ⟨w, b, h1, h2, h3, h4, h5, h6⟩ := h0.getFree ch.srv ch.pick ch.c (by show 0 + 0 < (W.new io nb (nb / 2)).nw; omega)
  unfold Os.new
  rw [h1]
  refine ⟨_, rfl, h2, ?_, ?_, ?_, by simp, hB, by simp, by simp, by simp⟩
  · show w.batch.length ≤ _; rw [h3]; exact Nat.zero_le _
  · show 1 ≤ w.bs; rw [h5]; exact hbs.2
  · show w.bs < w.nw; rw [h4, h5]; exact hbs.1

theorem put_ok (ch : Ch) {xs : List α} {s : Os α} {log : List (Nat × (Nat → α))} (h : OInv bl B d0 xs s log) (x : α)
    (hinj : ∀ j < s.pos, bl j ≠ bl s.pos) :
    ∃ s' log', Os.put offs bl B ch s x = some s' ∧ OInv bl B d0 (xs ++ [x]) s' log' ∧
      (s'.pos = s.pos ∨ (s'.pos = s.pos + 1 ∧ s'.elem = 0)) := by
  unfold Os.put
  dsimp only
  have hst := h.w.store s.cur (by simp) (upd (s.w.io.mem s.cur) s.elem x)
  have hel := h.el
  have hlen := h.len
  have hB1 : (s.pos + 1) * B = s.pos * B + B := Nat.succ_mul _ _
  have hget : ∀ k i, k < s.pos → i < B → (xs ++ [x])[k * B + i]? = xs[k * B + i]? := by
    intro k i hk hi
    have : (k + 1) * B ≤ s.pos * B := Nat.mul_le_mul_right _ hk
    rw [Nat.succ_mul] at this
    rw [List.getElem?_append_left (by omega)]
  have hcur : ∀ i ≤ s.elem, (xs ++ [x])[s.pos * B + i]? = some (upd (s.w.io.mem s.cur) s.elem x i) := by
    intro i hi
    by_cases hie : i = s.elem
    · subst hie; rw [upd_same, ← hlen]; simp
    · rw [upd_ne _ _ hie, List.getElem?_append_left (by omega)]
      exact h.cur i (by omega)
  by_cases hc : s.elem + 1 ≥ B
  · rw [if_pos hc]
    have hfresh : bl s.pos ∉ log.map Prod.fst := by
      intro hm
      obtain ⟨k, hk, hkk⟩ := (h.fst _).mp hm
      exact hinj k hk hkk.symm
    obtain ⟨w', b', a1, a2, a3, a4, a5, a6⟩ := WInv.write offs ch s.cur (bl s.pos) (held := []) hst h.bt (by show [].length + s.w.bs < s.w.nw; have := h.room; simpa using this) h.bs hfresh
    have a1 : write offs ch { s.w with io := { s.w.io with mem := upd s.w.io.mem s.cur (upd (s.w.io.mem s.cur) s.elem x) } } s.cur (bl s.pos) = some (w', b') := a1
    rw [a1]
    dsimp only
    have hmem : ({ s.w.io with mem := upd s.w.io.mem s.cur (upd (s.w.io.mem s.cur) s.elem x) } : Io (Nat → α)).mem s.cur = upd (s.w.io.mem s.cur) s.elem x := upd_same _ _ _
    refine ⟨_, _, rfl, ⟨a2, a3, ?_, ?_, ?_, ?_, ?_, ?_, ?_⟩, Or.inr ⟨rfl, rfl⟩⟩
    · show 1 ≤ w'.bs; rw [a5]; exact h.bs
    · show w'.bs < w'.nw; rw [a4, a5]; exact h.room
    · show (xs ++ [x]).length = (s.pos + 1) * B + 0
      rw [List.length_append, List.length_singleton]; omega
    · show 0 < B; omega
    · intro bid
      show bid ∈ List.map Prod.fst ((bl s.pos, _) :: log) ↔ ∃ k < s.pos + 1, bid = bl k
      rw [List.map_cons, List.mem_cons, h.fst]
      constructor
      · rintro (rfl | ⟨k, hk, rfl⟩)
        · exact ⟨s.pos, by omega, rfl⟩
        · exact ⟨k, by omega, rfl⟩
      · rintro ⟨k, hk, rfl⟩
        by_cases hkp : k = s.pos
        · subst hkp; exact Or.inl rfl
        · exact Or.inr ⟨k, by omega, rfl⟩
    · intro k hk
      have hk : k < s.pos + 1 := hk
      by_cases hkp : k = s.pos
      · subst hkp
        refine ⟨_, List.mem_cons_self, ?_⟩
        intro i hi
        rw [hcur i (by omega)]
        dsimp only
        rw [upd_same]
      · obtain ⟨f, hf, h2⟩ := h.con k (by omega)
        exact ⟨f, List.mem_cons_of_mem _ hf, fun i hi => by rw [hget k i (by omega) hi]; exact h2 i hi⟩
    · intro i hi; exact absurd hi (Nat.not_lt_zero i)
  · rw [if_neg hc]
    refine ⟨_, log, rfl, ⟨hst, h.bt, h.bs, h.room, ?_, ?_, h.fst, ?_, ?_⟩, Or.inl rfl⟩
    · show (xs ++ [x]).length = s.pos * B + (s.elem + 1)
      rw [List.length_append, List.length_singleton]; omega
    · show s.elem + 1 < B; omega
    · intro k hk
      obtain ⟨f, hf, h2⟩ := h.con k hk
      exact ⟨f, hf, fun i hi => by rw [hget k i hk hi]; exact h2 i hi⟩
    · intro i hi
      have hi : i < s.elem + 1 := hi
      show _ = some (upd s.w.io.mem s.cur _ s.cur i)
      rw [upd_same]; exact hcur i (by omega)

/-- Bids of different positions differ, for the first `N` blocks. -/
def Distinct (bl : Nat → Nat) (N : Nat) : Prop := ∀ i < N, ∀ j < N, bl i = bl j → i = j

theorem putAll_ok (ch : Nat → Ch) {N : Nat} (hinj : Distinct bl N) : ∀ (ys xs : List α) (s : Os α) (log : List (Nat × (Nat → α))),
    OInv bl B d0 xs s log → (xs ++ ys).length ≤ N * B →
    ∃ s' log', Os.putAll offs bl B ch ys s = some s' ∧ OInv bl B d0 (xs ++ ys) s' log'
  | [], xs, s, log, h, _ => ⟨s, log, rfl, by rw [List.append_nil]; exact h⟩
  | y :: ys, xs, s, log, h, hN => by
    unfold Os.putAll
    have hlt : s.pos < N := by
      have h1 := h.len
      simp only [List.length_append, List.length_cons] at hN
      rcases Nat.lt_or_ge s.pos N with h2 | h2
      · exact h2
      · have := Nat.mul_le_mul_right B h2
        omega
    obtain ⟨s', log', h1, h2, -⟩ := put_ok (offs := offs) (ch ys.length) h y (fun j hj hc => by
      have := hinj j (by omega) _ hlt hc; omega)
    rw [h1]
    dsimp only
    obtain ⟨s'', log'', h3, h4⟩ := putAll_ok ch hinj ys (xs ++ [y]) s' log' h2 (by simpa using hN)
    exact ⟨s'', log'', h3, by simpa using h4⟩

/-- `fill` pads to the end of the block. -/
theorem fill_ok (ch : Nat → Ch) {N : Nat} (hinj : Distinct bl N) (pad : α) : ∀ (n : Nat) (xs : List α) (s : Os α) (log : List (Nat × (Nat → α))),
    OInv bl B d0 xs s log → xs.length ≤ N * B → (s.elem = 0 ∨ B ≤ s.elem + n) →
    ∃ s' log' k, Os.fill offs bl B ch pad n s = some s' ∧ OInv bl B d0 (xs ++ List.replicate k pad) s' log' ∧ s'.elem = 0 ∧ k < B
  | n, xs, s, log, h, hN, hn => by
    unfold Os.fill
    have hel := h.el
    by_cases he : s.elem = 0
    · rw [if_pos he]
      exact ⟨s, log, 0, rfl, by simpa using h, he, by omega⟩
    · rw [if_neg he]
      have hlen := h.len
      have hlt : s.pos < N := by
        rcases Nat.lt_or_ge s.pos N with h2 | h2
        · exact h2
        · have := Nat.mul_le_mul_right B h2
          omega
      cases n with
      | zero => omega
      | succ n =>
        dsimp only
        obtain ⟨s', log', h1, h2, h3⟩ := put_ok (offs := offs) (ch n) h pad (fun j hj hc => by
          have := hinj j (by omega) _ hlt hc; omega)
        rw [h1]
        dsimp only
        have hle : (s.pos + 1) * B ≤ N * B := Nat.mul_le_mul_right _ hlt
        rw [Nat.succ_mul] at hle
        have hl2 := h2.len
        have he2 := h2.el
        rw [List.length_append, List.length_singleton] at hl2
        have hcase : s'.elem = 0 ∨ (s'.pos = s.pos ∧ s'.elem = s.elem + 1) := by
          rcases h3 with h3 | ⟨-, h3⟩
          · right; refine ⟨h3, ?_⟩; rw [h3] at hl2; omega
          · exact Or.inl h3
        obtain ⟨s'', log'', k, h4, h5, h6, h7⟩ := fill_ok ch hinj pad n (xs ++ [pad]) s' log' h2
          (by rw [List.length_append, List.length_singleton]; omega)
          (by rcases hcase with hc | ⟨-, hc⟩
              · exact Or.inl hc
              · right; omega)
        refine ⟨s'', log'', k + 1, h4, by simpa [List.replicate_succ] using h5, h6, ?_⟩
        -- the number of padding records
        have hl5 := h5.len
        rw [h6] at hl5
        simp only [List.length_append, List.length_singleton, List.length_replicate] at hl5
        rcases hcase with hc | ⟨hc1, hc2⟩
        · -- nothing more to pad
          have hk0 : k = 0 := by
            rw [hc] at hl2
            by_cases hk : k = 0
            · exact hk
            · exfalso
              have : s'.pos * B + k = s''.pos * B := by omega
              rcases Nat.lt_or_ge s'.pos s''.pos with hpp | hpp
              · have := Nat.mul_le_mul_right B hpp
                rw [Nat.succ_mul] at this
                omega
              · have := Nat.mul_le_mul_right B hpp
                omega
          omega
        · -- s.pos*B + s.elem + 1 + k is a multiple of B
          have : s.pos * B + s.elem + (k + 1) = s''.pos * B := by omega
          rcases Nat.lt_or_ge s''.pos (s.pos + 2) with hpp | hpp
          · have := Nat.mul_le_mul_right B (Nat.le_of_lt_succ hpp)
            rw [Nat.succ_mul] at this
            omega
          · have := Nat.mul_le_mul_right B hpp
            have e : (s.pos + 2) * B = s.pos * B + B + B := by rw [Nat.succ_mul, Nat.succ_mul]
            omega

/-- Closing the stream: all full blocks are on disk. -/
theorem close_ok (ch : Ch) {xs : List α} {s : Os α} {log : List (Nat × (Nat → α))} (h : OInv bl B d0 xs s log) (he : s.elem = 0) :
    ∃ io, Os.close ch s = some io ∧ (∀ k < s.pos, ∀ i < B, xs[k * B + i]? = some (io.disk (bl k) i)) ∧
      (∀ bid, (∀ k < s.pos, bid ≠ bl k) → io.disk bid = d0 bid) ∧ (∀ i r, ¬ Pend io i r) := by
  unfold Os.close
  rw [if_pos he]
  obtain ⟨w', h1, h2, h3, h4⟩ := h.w.flush ch
  rw [h1]
  refine ⟨_, rfl, ?_, ?_, h4⟩
  · intro k hk i hi
    obtain ⟨f, hf, e2⟩ := h.con k hk
    have := h2 _ hf
    dsimp only at this
    rw [this]; exact e2 i hi
  · intro bid hb
    refine h3 bid ?_
    intro hm
    obtain ⟨k, hk, e⟩ := (h.fst bid).mp hm
    exact hb k hk e

/-- State of an input stream that has reached record `e` of block `a`. -/
def IInv (bl seq : Nat → Nat) (B bufs len : Nat) (d0 : Nat → Nat → α) (s : Is α) (a e : Nat) : Prop :=
  (a < len ∧ e < B ∧ s.more = true ∧ s.elem = e ∧ s.pf.len = len ∧ s.pf.nextconsume = a + 1 ∧
    ∃ ready, PInv bl seq bufs d0 s.pf [(a, s.cur)] ready ∧ PCnt s.pf [(a, s.cur)]) ∨ (a = len ∧ e = 0)

variable {seq : Nat → Nat} {bufs len : Nat}

theorem get_ok (hs : SeqOk seq len) (hsq : ∀ k < len, ∃ j < min (k + bufs) len, seq j = k) (srv srv' : List Nat) {s : Is α} {a e : Nat}
    (h : IInv bl seq B bufs len d0 s a e) (ha : a < len) :
    ∃ s', Is.get bl seq B srv srv' s = some (s', d0 (bl a) e) ∧
      ((e + 1 < B ∧ IInv bl seq B bufs len d0 s' a (e + 1)) ∨ (e + 1 = B ∧ IInv bl seq B bufs len d0 s' (a + 1) 0)) := by
  rcases h with ⟨-, he, hm, hel, hlen, hnc, ready, hp, hc⟩ | ⟨h, -⟩
  swap
  · omega
  unfold Is.get
  rw [if_pos hm]
  dsimp only
  have hval : s.pf.io.mem s.cur = d0 (bl a) := hp.hld (a, s.cur) (by simp)
  rw [hval, hel]
  by_cases hB : e + 1 ≥ B
  · rw [if_pos hB]
    rcases hp.consumed (m := bufs) (by rw [hlen]; exact hs) hc (by rw [hlen]; exact hsq) (a, s.cur) (by simp) (by simp; omega) srv srv' with
      ⟨hlt, p', b, ready', h1, h2, h3, h4, h5⟩ | ⟨hlt, p', ready', h1, h2, h3, h4, h5⟩
    · rw [h1]
      refine ⟨_, rfl, Or.inr ⟨by omega, Or.inl ⟨by omega, by omega, rfl, rfl, h5.trans hlen, by show p'.nextconsume = _; omega, ready', ?_⟩⟩⟩
      rw [hnc] at h2 h3
      simp only [List.erase_cons_head] at h2 h3
      exact ⟨h2, h3⟩
    · rw [h1]
      exact ⟨_, rfl, Or.inr ⟨by omega, Or.inr ⟨by omega, rfl⟩⟩⟩
  · rw [if_neg hB]
    exact ⟨_, rfl, Or.inl ⟨by omega, Or.inl ⟨ha, by omega, hm, rfl, hlen, hnc, ready, hp, hc⟩⟩⟩

theorem getAll_ok (hs : SeqOk seq len) (hsq : ∀ k < len, ∃ j < min (k + bufs) len, seq j = k) (hB : 1 ≤ B) (srv : Nat → List Nat × List Nat) :
    ∀ (n : Nat) (s : Is α) (a e : Nat), IInv bl seq B bufs len d0 s a e → a * B + e + n ≤ len * B →
    ∃ s', Is.getAll bl seq B srv n s = some (s', (List.range n).map fun t => d0 (bl (a + (e + t) / B)) ((e + t) % B))
  | 0, s, a, e, _, _ => ⟨s, rfl⟩
  | n + 1, s, a, e, h, hn => by
    have ha : a < len := by
      rcases Nat.lt_or_ge a len with h1 | h1
      · exact h1
      · have := Nat.mul_le_mul_right B h1; omega
    have heB : e < B := by
      rcases h with ⟨-, he, -⟩ | ⟨h, -⟩
      · exact he
      · omega
    obtain ⟨s1, h1, h2⟩ := get_ok hs hsq (srv n).1 (srv n).2 h ha
    unfold Is.getAll
    rw [h1]
    dsimp only
    rw [List.range_succ_eq_map, List.map_cons, List.map_map]
    have h0 : d0 (bl (a + (e + 0) / B)) ((e + 0) % B) = d0 (bl a) e := by
      rw [Nat.add_zero, Nat.div_eq_of_lt heB, Nat.mod_eq_of_lt heB, Nat.add_zero]
    rw [h0]
    rcases h2 with ⟨hb, h2⟩ | ⟨hb, h2⟩
    · obtain ⟨s', h3⟩ := getAll_ok hs hsq hB srv n s1 a (e + 1) h2 (by omega)
      rw [h3]
      refine ⟨s', ?_⟩
      dsimp only
      congr 3
      apply List.map_congr_left
      intro t _
      show _ = d0 (bl (a + (e + (t + 1)) / B)) ((e + (t + 1)) % B)
      rw [show e + 1 + t = e + (t + 1) by omega]
    · obtain ⟨s', h3⟩ := getAll_ok hs hsq hB srv n s1 (a + 1) 0 h2 (by rw [Nat.succ_mul]; omega)
      rw [h3]
      refine ⟨s', ?_⟩
      dsimp only
      congr 3
      apply List.map_congr_left
      intro t _
      show _ = d0 (bl (a + (e + (t + 1)) / B)) ((e + (t + 1)) % B)
      rw [show e + (t + 1) = t + B by omega, Nat.add_div_right _ (by omega), Nat.add_mod_right, Nat.zero_add,
        show a + 1 + t / B = a + (t / B).succ by omega]

/-- Opening an input stream. -/
theorem inew_ok (dev : Schedule.Disks) (junk : Nat → Bool) (tie : Nat → Nat) (srv : List Nat) (io : Io (Nat → α)) (hio : ∀ i r, ¬ Pend io i r)
    (len ndisks mdev nb : Nat) (hl : 0 < len) (hB : 1 ≤ B) (hnd : 1 ≤ ndisks) (hdev : ∀ b < len, ∀ d, dev b = some d → d ≤ mdev) :
    ∃ s seq, Is.new bl dev junk tie srv io len ndisks mdev nb = some (s, seq) ∧ SeqOk seq len ∧
      (∀ k < len, ∃ j < min (k + Is.bufs ndisks nb) len, seq j = k) ∧ IInv bl seq B (Is.bufs ndisks nb) len io.disk s 0 0 := by
  have hbufs : 1 ≤ Is.bufs ndisks nb := by unfold Is.bufs; omega
  obtain ⟨out, h1, h2, h3⟩ := Schedule.schedule_ok (L := len) (D := mdev) dev junk tie hbufs hdev
  have holen : out.length = len := by have := h2.length_eq; simpa using this
  have hout : ∀ j < len, ∃ x, out[j]? = some x := fun j hj => ⟨_, List.getElem?_eq_getElem (by omega)⟩
  have hseq : SeqOk (fun k => out.getD k 0) len := by
    refine ⟨?_, ?_⟩
    · intro j hj
      obtain ⟨x, hx⟩ := hout j hj
      have : x ∈ out := List.mem_of_getElem? hx
      have := h2.mem_iff.mp this
      show out.getD j 0 < len
      rw [List.getD_eq_getElem?_getD, hx]
      simpa using this
    · intro i hi j hj hij
      have hnd : out.Nodup := h2.nodup_iff.mpr List.nodup_range
      have hij : out.getD i 0 = out.getD j 0 := hij
      obtain ⟨x, hx⟩ := hout i hi
      obtain ⟨y, hy⟩ := hout j hj
      rw [List.getD_eq_getElem?_getD, List.getD_eq_getElem?_getD, hx, hy] at hij
      have hij : x = y := hij
      exact (List.getElem?_inj (i := i) (by omega) hnd).mp (by rw [hx, hy, hij])
  have hsq : ∀ k < len, ∃ j < min (k + Is.bufs ndisks nb) len, (fun k => out.getD k 0) j = k := by
    intro k hk
    obtain ⟨p, hp, hpk⟩ := h3 k hk
    have := (List.getElem?_eq_some_iff.mp hpk).1
    refine ⟨p, by omega, ?_⟩
    show out.getD p 0 = k
    rw [List.getD_eq_getElem?_getD, hpk]; rfl
  unfold Is.new
  rw [h1]
  dsimp only
  obtain ⟨p, ready, e1, e2, e3, e4, e5⟩ := PInv.new (bl := bl) io hio len hseq hl hbufs
  rw [e1]
  dsimp only
  obtain ⟨p', b, ready', f1, f2, f3, f4, f5⟩ := e2.pull e3 (m := Is.bufs ndisks nb) (by rw [e5]; exact hsq) (by simp) (by omega) srv
  unfold Pf.pull
  rw [f1]
  refine ⟨_, _, rfl, hseq, hsq, Or.inl ⟨hl, by omega, rfl, rfl, f5.trans e5, by show p'.nextconsume = _; omega, ready', ?_⟩⟩
  rw [e4] at f2 f3
  exact ⟨f2, f3⟩

end Stxxl.BufStream
