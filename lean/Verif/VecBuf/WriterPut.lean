import Verif.VecBuf.WriterStr
/-! One element through the buffered writer. -/
namespace Stxxl.VecBuf
open Stxxl.ExtVector
open Spec
variable {α : Type} {B P : Nat}

/-- The writer without an open stream: it writes by way of the vector. -/
structure Cac (B P np b : Nat) (G : Prop) (s : Sys α) (iter last : Nat) (A : List (Option α)) : Prop where
  w : WInv B P false s A
  npg : s.vec.npages = np
  lst : last = s.vec.size
  bi : b ≤ iter
  le : iter ≤ last
  pre : iter = b ∨ (b < iter ∧ ∃ v : α, A[iter - 1]? = some (some v))
  hini : iter = b → G → b % B = 0 → b / B % P = P - 1 → last = b + B →
    ∃ (j : Nat) (v : α), j / B / P = b / B / P ∧ A[j]? = some (some v)
  gB : G → 2 ≤ P ∧ ¬ (P = 2 ∧ last = B)

/-- The writer between two elements. -/
def Mid (B P np b : Nat) (G : Prop) (w : Bw α) (A : List (Option α)) : Prop :=
  (w.bufout = none ∧ Cac B P np b G w.sys w.iter w.last A) ∨
  ∃ o, w.bufout = some o ∧ Str B P np b G w.sys w.iter w.last w.prevblk o A ∧ w.prevblk < w.iter ∧ ∃ v : α, A[w.iter - 1]? = some (some v)

/-- `operator *` and `operator ++` when the position is inside the vector. -/
def Bw.setIncr (B P : Nat) (ch : WCh α) (w : Bw α) (v : α) : Option (Bw α) :=
  match w.set B P ch v with
  | none => none
  | some w => w.incr B ch

/-- What one element does to the writer. -/
def Adv (B P np b : Nat) (G : Prop) (w : Bw α) (A : List (Option α)) (r : Option (Bw α)) : Prop :=
  ∃ w', r = some w' ∧ Mid B P np b G w' A ∧ w'.iter = w.iter + 1 ∧ w'.last = w.last ∧ w'.grown = w.grown

theorem set_get {A : List (Option α)} {i : Nat} (v : α) (h : i < A.length) : (A.set i (some v))[i + 1 - 1]? = some (some v) := by
  rw [Nat.add_sub_cancel, List.getElem?_set, if_pos rfl, if_pos h]

theorem set_open {w : Bw α} {ch : WCh α} {v : α} {s' : Sys α} (hb : w.bufout = none) (hi : w.iter % B = 0) (hl : w.iter < w.last)
    (hf : flush P w.sys = some s') :
    w.set B P ch v = some { w with sys := s', prevblk := w.iter, bufout := some ⟨upd ch.junk 0 v, 0, w.iter / B, []⟩ } := by
  unfold Bw.set
  rw [if_pos hl, hb]
  dsimp only
  rw [if_neg (by simp [hi]), hf]
  dsimp only
  rw [if_neg (by simp)]

/-- Opening a stream. -/
theorem open_put {np b : Nat} {G : Prop} {w : Bw α} {A : List (Option α)} (ch : WCh α) (v : α) {s' : Sys α} (hb : w.bufout = none)
    (hi : w.iter % B = 0) (hl : w.iter < w.last) (hf : flush P w.sys = some s')
    (hs : Str B P np b G s' w.iter w.last w.iter ⟨ch.junk, 0, w.iter / B, []⟩ A) :
    Adv B P np b G w (A.set w.iter (some v)) (w.setIncr B P ch v) := by
  have hB := hs.hB
  obtain ⟨o', h1, h2⟩ := put_core hs v ch.junk (by omega) hl
  unfold Bw.setIncr
  rw [set_open hb hi hl hf]
  dsimp only
  unfold Bw.incr
  dsimp only
  dsimp only at h1
  rw [h1]
  refine ⟨_, rfl, .inr ⟨o', rfl, h2, ?_, ⟨v, set_get v ?_⟩⟩, rfl, rfl, rfl⟩
  · exact Nat.lt_succ_self _
  · rw [hs.len, ← hs.lst]; exact hl

theorem cac_put {np b : Nat} {G : Prop} {w : Bw α} {A : List (Option α)} (ch : WCh α) (v : α) (hb : w.bufout = none)
    (h : Cac B P np b G w.sys w.iter w.last A) (hl : w.iter < w.last) (hv : ch.victim < np) :
    Adv B P np b G w (A.set w.iter (some v)) (w.setIncr B P ch v) := by
  have hB := h.w.inv.hB
  have hP := h.w.inv.hP
  have hsz : w.iter < w.sys.vec.size := by rw [← h.lst]; exact hl
  have hlen : w.iter < A.length := by rw [h.w.inv.len]; exact hsz
  by_cases hi : w.iter % B = 0
  · obtain ⟨s', f1, f2, f3, f4⟩ := flush_inv h.w.inv
    have hw := h.w.ofSame f2 f3
    refine open_put ch v hb hi hl f1 (open_str ch.junk (WInv.base hw) f4 (by rw [f3.npages]; exact h.npg) (by rw [f3.size]; exact h.w.inv.len)
      (by rw [f3.size]; exact h.lst) hl hi h.bi ?_ ?_ ?_ h.gB)
    · exact fun i x hx => (calm_facts hw f4 hx).2
    · exact fun i x hx => .inl (calm_facts hw f4 hx).1
    · intro g hk hlst
      rcases h.pre with hp | ⟨hp, x, hx⟩
      · rw [hp] at hi hk hlst ⊢
        obtain ⟨j, x, hj, hx⟩ := h.hini hp g hi hk hlst
        rw [← hj]; exact (calm_facts hw f4 hx).1
      · have := (calm_facts hw f4 hx).1
        have e1 : w.iter - 1 + 1 = w.iter := by omega
        have e2 : (w.iter - 1) / B + 1 = w.iter / B := by
          have := Nat.mod_lt (w.iter - 1) hB
          have : ¬ (w.iter - 1) % B + 1 < B := by
            intro hlt
            have := (step_in hlt).1
            rw [e1, hi] at this
            omega
          have := (step_wrap hB (show (w.iter - 1) % B + 1 ≥ B by omega)).2
          rw [e1] at this
          omega
        rw [← e2] at hk ⊢
        rw [prev_page (h.gB g).1 hk]
        exact this
  · obtain ⟨s', f1, f2, f3⟩ := elementWrite_inv h.w.inv v hsz (victim := ch.victim) (by rw [h.npg]; exact hv)
    have hset : w.set B P ch v = some { w with sys := s' } := by
      unfold Bw.set
      rw [if_pos hl, hb]
      dsimp only
      rw [if_pos hi]
      dsimp only
      rw [f1]
      rfl
    unfold Bw.setIncr
    rw [hset]
    dsimp only
    unfold Bw.incr
    dsimp only
    rw [hb]
    refine ⟨_, rfl, .inl ⟨rfl, ?_⟩, rfl, rfl, rfl⟩
    exact ⟨h.w.ofSame f2 f3, by rw [← h.npg]; exact f3.npages, by rw [h.lst]; exact f3.size.symm, Nat.le_succ_of_le h.bi, hl,
      .inr ⟨Nat.lt_succ_of_le h.bi, v, set_get v hlen⟩, fun e => absurd h.bi (by simp only at e; omega), h.gB⟩

theorem str_put {np b : Nat} {G : Prop} {w : Bw α} {A : List (Option α)} {o : Bo α} (ch : WCh α) (v : α) (hb : w.bufout = some o)
    (h : Str B P np b G w.sys w.iter w.last w.prevblk o A) (hp : w.prevblk < w.iter) (hl : w.iter < w.last) :
    Adv B P np b G w (A.set w.iter (some v)) (w.setIncr B P ch v) := by
  have hB := h.hB
  have hlen : w.iter < A.length := by rw [h.len, ← h.lst]; exact hl
  by_cases hi : w.iter % B = 0
  · obtain ⟨s', h1, h2⟩ := mark_str h hi (Nat.ne_of_lt hp) hl
    obtain ⟨o', h3, h4⟩ := put_core h2 v ch.junk (by omega) hl
    have hset : w.set B P ch v = some { w with sys := s', prevblk := w.iter, bufout := some { o with cur := upd o.cur o.elem v } } := by
      unfold Bw.set
      rw [if_pos hl, hb]
      dsimp only
      rw [if_pos ⟨hi, Nat.ne_of_lt hp⟩, h1]
    unfold Bw.setIncr
    rw [hset]
    dsimp only
    unfold Bw.incr
    dsimp only
    rw [h3]
    exact ⟨_, rfl, .inr ⟨o', rfl, h4, Nat.lt_succ_self _, v, set_get v hlen⟩, rfl, rfl, rfl⟩
  · have hlt : w.iter < w.prevblk + B := by
      rcases Nat.lt_or_ge w.iter (w.prevblk + B) with q | q
      · exact q
      · have e : w.iter = w.prevblk + B := Nat.le_antisymm h.p2 q
        exact absurd (by rw [e, Nat.add_mod_right]; exact h.pm) hi
    obtain ⟨o', h3, h4⟩ := put_core h v ch.junk hlt hl
    have hset : w.set B P ch v = some { w with bufout := some { o with cur := upd o.cur o.elem v } } := by
      unfold Bw.set
      rw [if_pos hl, hb]
      dsimp only
      rw [if_neg (fun q => hi q.1)]
    unfold Bw.setIncr
    rw [hset]
    dsimp only
    unfold Bw.incr
    dsimp only
    rw [h3]
    exact ⟨_, rfl, .inr ⟨o', rfl, h4, Nat.lt_succ_of_lt hp, v, set_get v hlen⟩, rfl, rfl, rfl⟩

/-! ### Growth -/

theorem resizeV_grow {s : Sys α} {n : Nat} (fresh : List Nat) (h : (reserve B P s n fresh).vec.size ≤ n) :
    resizeV B P s n fresh = { reserve B P s n fresh with vec := { (reserve B P s n fresh).vec with size := n } } := by
  unfold resizeV
  dsimp only
  rw [if_neg (by omega)]

/-- Enlarging a vector without cached pages. -/
theorem resize_calm {s : Sys α} {n : Nat} {fresh : List Nat} (h : Base B P s) (c : Calm s) (hn : s.vec.size ≤ n) (hf : FreshIds B s n fresh) :
    Base B P (resizeV B P s n fresh) ∧ Calm (resizeV B P s n fresh) ∧ (resizeV B P s n fresh).vec.size = n ∧
    (resizeV B P s n fresh).vec.npages = s.vec.npages ∧ (resizeV B P s n fresh).disk = s.disk ∧
    (∀ (k x : Nat), s.vec.bids[k]? = some x → (resizeV B P s n fresh).vec.bids[k]? = some x) ∧
    (∀ (p : Nat) (st : Status), s.vec.status[p]? = some st → (resizeV B P s n fresh).vec.status[p]? = some st) := by
  obtain ⟨s', r, h1, h2⟩ := step_ok h (.resize n fresh) ⟨hf, by simp⟩
  have hs' : s' = resizeV B P s n fresh := (by simpa [step] using h1.symm : _ ∧ _).1
  subst hs'
  have hcut := h.noCut n (by simp)
  obtain ⟨_, q2, q3, q4, q5, q6, q7⟩ := reserve_inv h.inv hf hcut h.ids
  have e := resizeV_grow (B := B) (P := P) (s := s) (n := n) fresh (by rw [q3]; exact hn)
  refine ⟨WInv.base h2, ?_, by rw [e], by rw [e]; exact q4, by rw [e]; exact q7, ?_, ?_⟩
  · intro p t
    rw [e]
    dsimp only
    unfold reserve
    by_cases hle : n ≤ capacity B s.vec
    · rw [if_pos hle]; exact c p t
    · rw [if_neg hle]
      have hlen : s.vec.p2s.length ≤ divCeil (divCeil n B) P := by rw [← h.inv.lens]; exact hcut (by omega)
      have hg := resizeList_get s.vec.p2s (divCeil (divCeil n B) P) none hlen p
      have key : (resizeList s.vec.p2s (divCeil (divCeil n B) P) none)[p]? ≠ some (some t) := by
        rw [hg]
        split
        · exact c p t
        · split <;> simp
      dsimp only
      split <;> exact key
  · intro k x hk
    rw [e]
    dsimp only
    unfold reserve
    have hlt := (List.getElem?_eq_some_iff.1 hk).1
    split
    · exact hk
    · dsimp only
      split <;> (dsimp only; rw [List.getElem?_append_left hlt]; exact hk)
  · intro p st hp
    rw [e]
    dsimp only
    unfold reserve
    by_cases hle : n ≤ capacity B s.vec
    · rw [if_pos hle]; exact hp
    · rw [if_neg hle]
      have hlen : s.vec.status.length ≤ divCeil (divCeil n B) P := hcut (by omega)
      have hg := resizeList_get s.vec.status (divCeil (divCeil n B) P) .uninit hlen p
      have key : (resizeList s.vec.status (divCeil (divCeil n B) P) .uninit)[p]? = some st := by
        rw [hg, if_pos (List.getElem?_eq_some_iff.1 hp).1]; exact hp
      dsimp only
      split <;> exact key

theorem grown_lt {n : Nat} (hB : 0 < B) : n < grownSize B n := by
  unfold grownSize; split <;> omega

theorem grown_ne {n : Nat} (hB : 0 < B) : grownSize B n ≠ B := by
  unfold grownSize; split <;> omega

/-- The growth reaches one block only if the vector had one block. -/
theorem grown_one {n : Nat} (hB : 0 < B) (h : grownSize B n = n + B) : n = B := by
  unfold grownSize at h; split at h <;> omega

theorem one_block {P b : Nat} (hB : 0 < B) (hP : 2 ≤ P) (hb : b = B) (h : b / B % P = P - 1) : P = 2 := by
  subst hb
  rw [Nat.div_self hB, Nat.mod_eq_of_lt (by omega)] at h
  omega

/-- The array after growth. -/
def grownArr (B : Nat) (A : List (Option α)) : List (Option α) := A ++ List.replicate (grownSize B A.length - A.length) none

theorem grownArr_len (hB : 0 < B) (A : List (Option α)) : (grownArr B A).length = grownSize B A.length := by
  have := grown_lt (n := A.length) hB
  simp [grownArr]; omega

theorem grownArr_get {A : List (Option α)} {i : Nat} {v : α} (h : A[i]? = some (some v)) : (grownArr B A)[i]? = some (some v) := by
  unfold grownArr
  rw [List.getElem?_append_left (List.getElem?_eq_some_iff.1 h).1]; exact h

theorem grownArr_some {A : List (Option α)} {i : Nat} {v : α} (h : (grownArr B A)[i]? = some (some v)) : A[i]? = some (some v) := by
  unfold grownArr at h
  rw [List.getElem?_append] at h
  split at h
  · exact h
  · exact absurd h rep_none

theorem grownArr_eq {A : List (Option α)} (hB : 0 < B) : absResize A (grownSize B A.length) = grownArr B A := by
  have := grown_lt (n := A.length) hB
  unfold absResize grownArr
  rw [List.take_of_length_le (by omega)]

/-- Growth of a vector whose content is complete. -/
theorem cac_grow {np b : Nat} {G : Prop} {s : Sys α} {iter last : Nat} {A : List (Option α)} {alloc : Sys α → Nat → List Nat}
    (hal : ∀ s n, FreshIds B s n (alloc s n)) (g : G) (hi : iter = last) (h : Cac B P np b G s iter last A) :
    Cac B P np b G (resizeV B P s (grownSize B s.vec.size) (alloc s (grownSize B s.vec.size))) iter
      (resizeV B P s (grownSize B s.vec.size) (alloc s (grownSize B s.vec.size))).vec.size (grownArr B A) := by
  have hB := h.w.inv.hB
  have hcut := h.w.noCut (grownSize B s.vec.size) (by simp)
  obtain ⟨s', r, h1, h2⟩ := step_ok h.w (.resize (grownSize B s.vec.size) (alloc s (grownSize B s.vec.size))) ⟨hal _ _, by simp⟩
  obtain ⟨i1, i2, i3, i4, i5, i6⟩ := resizeV_inv h.w.inv (hal s (grownSize B s.vec.size)) hcut h.w.ids
  have hs' : s' = resizeV B P s (grownSize B s.vec.size) (alloc s (grownSize B s.vec.size)) := (by simpa [step] using h1.symm : _ ∧ _).1
  subst hs'
  have hA : absStep B A (.resize (grownSize B s.vec.size) (alloc s (grownSize B s.vec.size))) = grownArr B A := by
    rw [← grownArr_eq hB, h.w.inv.len]; rfl
  rw [hA] at h2
  have hsz : (resizeV B P s (grownSize B s.vec.size) (alloc s (grownSize B s.vec.size))).vec.size = grownSize B s.vec.size := by
    rw [← h2.inv.len, grownArr_len hB, h.w.inv.len]
  have hlast := h.lst
  have hgB := h.gB g
  refine ⟨h2, by rw [i2]; exact h.npg, rfl, h.bi, ?_, ?_, ?_, ?_⟩
  · rw [hsz]; have := grown_lt (n := s.vec.size) hB; omega
  · exact h.pre.imp_right fun ⟨q, v, hv⟩ => ⟨q, v, grownArr_get hv⟩
  · intro hib _ hb0 hk hl
    rw [hsz] at hl
    have hbs : b = s.vec.size := by omega
    rw [← hbs] at hl
    have hbB := grown_one hB hl
    exact absurd ⟨one_block hB hgB.1 hbB hk, by omega⟩ hgB.2
  · intro _
    exact ⟨hgB.1, fun q => grown_ne (n := s.vec.size) hB (by rw [← hsz]; exact q.2)⟩

theorem grow_eq {w w1 : Bw α} {alloc : Sys α → Nat → List Nat} {junk : Nat → α} (h : w.close B P junk = some w1) :
    w.grow B P alloc junk = some { w1 with
      sys := resizeV B P w1.sys (grownSize B w1.sys.vec.size) (alloc w1.sys (grownSize B w1.sys.vec.size))
      last := (resizeV B P w1.sys (grownSize B w1.sys.vec.size) (alloc w1.sys (grownSize B w1.sys.vec.size))).vec.size
      grown := true } := by
  unfold Bw.grow
  rw [h]

/-- One element at the end of the vector. -/
theorem grow_put {np b : Nat} {G : Prop} {w : Bw α} {A : List (Option α)} {alloc : Sys α → Nat → List Nat}
    (hal : ∀ s n, FreshIds B s n (alloc s n)) (g : G) (ch : WCh α) (v : α)
    (h : Mid B P np b G w A) (hi : w.iter = w.last) (hv : ch.victim < np) :
    ∃ w1, w.grow B P alloc ch.junk = some w1 ∧ w1.grown = true ∧ w1.iter = w.iter ∧ w1.last = grownSize B w.last ∧
      Adv B P np b G w1 ((grownArr B A).set w.iter (some v)) (w1.setIncr B P ch v) := by
  rcases h with ⟨hb, h⟩ | ⟨o, hb, h, hp, hpre⟩
  · have hB := h.w.inv.hB
    have hc := cac_grow hal g hi h
    have hsz : (resizeV B P w.sys (grownSize B w.sys.vec.size) (alloc w.sys (grownSize B w.sys.vec.size))).vec.size = grownSize B w.last := by
      rw [← hc.w.inv.len, grownArr_len hB, h.w.inv.len, h.lst]
    refine ⟨_, grow_eq (w1 := w) (by unfold Bw.close; rw [hb]), rfl, rfl, hsz, ?_⟩
    refine cac_put ch v hb hc ?_ hv
    exact Nat.lt_of_lt_of_eq (by rw [hi]; exact grown_lt hB) hsz.symm
  · have hB := h.hB
    have hP := h.hP
    have hgB := h.gB g
    have hlst := h.lst
    have hps : w.prevblk < w.sys.vec.size := by rw [← h.lst]; exact h.pl
    by_cases h0 : w.iter % B = 0
    · -- the stream is closed without marking the page
      have hcl : w.close B P ch.junk = some { w with sys := { w.sys with disk := settle w.sys.disk o.pend }, bufout := none } := by
        unfold Bw.close
        rw [hb]
        dsimp only
        rw [if_neg (by simp [h0]), if_neg (by rw [h.elem, h0]; simp)]
      have hnx := next_block hB h.pm h0 hp h.p2
      have hb1 := base_of (s := { w.sys with disk := settle w.sys.disk o.pend }) h.base h.calm rfl rfl rfl rfl rfl rfl rfl
        (fun p => Calm.not_dirty h.base.inv h.calm p) (List.Perm.refl _)
      have hr := resize_calm (n := grownSize B w.sys.vec.size)
        (fresh := alloc { w.sys with disk := settle w.sys.disk o.pend } (grownSize B w.sys.vec.size)) hb1.1 hb1.2
        (Nat.le_of_lt (grown_lt hB)) (hal _ _)
      obtain ⟨r1, r2, r3, r4, r5, r6, r7⟩ := hr
      obtain ⟨f1, f2⟩ := flush_calm r1 r2
      refine ⟨_, grow_eq hcl, rfl, rfl, r3.trans (by rw [h.lst]), ?_⟩
      have hit : w.iter < (resizeV B P { w.sys with disk := settle w.sys.disk o.pend } (grownSize B w.sys.vec.size)
          (alloc { w.sys with disk := settle w.sys.disk o.pend } (grownSize B w.sys.vec.size))).vec.size := by
        rw [r3, hi, hlst]; exact grown_lt hB
      have hb2 := base_of (s := { (resizeV B P { w.sys with disk := settle w.sys.disk o.pend } (grownSize B w.sys.vec.size)
          (alloc { w.sys with disk := settle w.sys.disk o.pend } (grownSize B w.sys.vec.size))) with
            vec := { (resizeV B P { w.sys with disk := settle w.sys.disk o.pend } (grownSize B w.sys.vec.size)
              (alloc { w.sys with disk := settle w.sys.disk o.pend } (grownSize B w.sys.vec.size))).vec with
                free := List.range (resizeV B P { w.sys with disk := settle w.sys.disk o.pend } (grownSize B w.sys.vec.size)
                  (alloc { w.sys with disk := settle w.sys.disk o.pend } (grownSize B w.sys.vec.size))).vec.npages } }) r1 r2 rfl rfl rfl rfl rfl rfl rfl
        (fun p => Calm.not_dirty r1.inv r2 p) f2
      have hblk : w.iter / B = w.prevblk / B + 1 := by rw [hnx, add_block hB]
      refine open_put ch v rfl h0 hit f1 (open_str ch.junk hb2.1 hb2.2 (r4.trans h.npg) ?_ rfl hit h0 (Nat.le_trans h.bp h.p1) ?_ ?_ ?_ ?_)
      · exact ((grownArr_len hB A).trans (by rw [h.len])).trans r3.symm
      · intro i x hx c hc
        have hx := grownArr_some hx
        have hlt : i < w.sys.vec.size := by rw [← h.len]; exact (List.getElem?_eq_some_iff.1 hx).1
        have hk := List.getElem?_eq_getElem (h.base.inv.lt_cap hlt)
        have hc2 := r6 _ _ hk
        dsimp only at hc
        rw [hc2] at hc
        cases hc
        refine (congrFun (congrFun r5 _) _).trans (h.val i x hx ?_ _ hk)
        rintro ⟨q1, q2⟩
        have h3 := Nat.div_add_mod i B
        have h4 := Nat.div_add_mod w.iter B
        rw [q2] at h3
        omega
      · intro i x hx
        have hx := grownArr_some hx
        rcases h.stat i x hx with q | ⟨q1, q2⟩
        · exact .inl (r7 _ _ q)
        · by_cases hm : w.prevblk / B % P = P - 1
          · exact .inl (r7 _ _ (by rw [q2]; exact h.lastp g hm (by omega)))
          · refine .inr ⟨q1, ?_⟩
            dsimp only
            rw [hblk, next_page hP hm]; exact q2
      · intro _ hk hl
        exfalso
        dsimp only at hk hl
        rw [r3, ← hlst, ← hi] at hl
        have hbB := grown_one hB hl
        exact hgB.2 ⟨one_block hB hgB.1 hbB hk, by omega⟩
      · intro _
        exact ⟨hgB.1, fun q => grown_ne (n := w.sys.vec.size) hB (by rw [← r3]; exact q.2)⟩
    · -- the last block is not full
      have hlt : w.iter < w.prevblk + B := by
        rcases Nat.lt_or_ge w.iter (w.prevblk + B) with q | q
        · exact q
        · have e : w.iter = w.prevblk + B := Nat.le_antisymm h.p2 q
          exact absurd (by rw [e, Nat.add_mod_right]; exact h.pm) h0
      have hpg : w.iter / B = w.prevblk / B := same_block h.pm h.p1 hlt
      have hk := List.getElem?_eq_getElem (h.base.inv.lt_cap hps)
      have hpl : w.iter / B / P < w.sys.vec.status.length := by rw [hpg]; exact h.base.inv.page_lt (h.base.inv.lt_cap hps)
      have hb1 := base_of (s := { w.sys with disk := settle w.sys.disk (o.pend ++ [(w.sys.vec.bids[w.prevblk / B]'(h.base.inv.lt_cap hps), o.cur)]) })
        h.base h.calm rfl rfl rfl rfl rfl rfl rfl (fun p => Calm.not_dirty h.base.inv h.calm p) (List.Perm.refl _)
      have hmk := mark_calm hb1.1 hb1.2 hpl
      have hcl : w.close B P ch.junk = some { w with
          sys := { w.sys with
            disk := settle w.sys.disk (o.pend ++ [(w.sys.vec.bids[w.prevblk / B]'(h.base.inv.lt_cap hps), o.cur)])
            vec := { w.sys.vec with status := w.sys.vec.status.set (w.iter / B / P) .valid } }
          bufout := none } := by
        unfold Bw.close
        rw [hb]
        dsimp only
        rw [if_pos h0]
        unfold Bo.handOver
        rw [show w.sys.vec.bids[o.bid]? = some (w.sys.vec.bids[w.prevblk / B]'(h.base.inv.lt_cap hps)) by rw [h.bid, hpg]; exact hk]
        dsimp only
        rw [pageOf_eq, hmk]
      have hnd : ∀ p : Nat, (w.sys.vec.status.set (w.iter / B / P) .valid)[p]? ≠ some .dirty := by
        intro p
        rw [List.getElem?_set]
        have := h.calm.not_dirty h.base.inv p
        split
        · simp
        · exact this
      have hb2 := base_of (s := { w.sys with
            disk := settle w.sys.disk (o.pend ++ [(w.sys.vec.bids[w.prevblk / B]'(h.base.inv.lt_cap hps), o.cur)])
            vec := { w.sys.vec with status := w.sys.vec.status.set (w.iter / B / P) .valid } })
        h.base h.calm rfl rfl rfl rfl rfl rfl (by simp) hnd (List.Perm.refl _)
      have hw : WInv B P false { w.sys with
            disk := settle w.sys.disk (o.pend ++ [(w.sys.vec.bids[w.prevblk / B]'(h.base.inv.lt_cap hps), o.cur)])
            vec := { w.sys.vec with status := w.sys.vec.status.set (w.iter / B / P) .valid } } A := by
        refine calm_inv hb2.1 hb2.2 h.len ?_
        intro i x hx
        refine ⟨?_, ?_⟩
        · dsimp only
          rw [List.getElem?_set]
          by_cases hpp : w.iter / B / P = i / B / P
          · rw [if_pos hpp, if_pos hpl]
          · rw [if_neg hpp]
            rcases h.stat i x hx with q | ⟨_, q⟩
            · exact q
            · exact absurd (by rw [q, hpg]) hpp
        · intro c hc
          dsimp only at hc ⊢
          rw [settle_append]
          by_cases hib : i / B = w.prevblk / B
          · rw [hib, hk] at hc
            cases hc
            rw [upd_same]
            refine h.cur i x hx ?_ (by rw [hpg]; exact hib)
            have : i < w.sys.vec.size := by rw [← h.len]; exact (List.getElem?_eq_some_iff.1 hx).1
            omega
          · rw [upd_ne]
            · exact h.val i x hx (fun q => hib (by rw [← hpg]; exact q.2)) c hc
            · rintro rfl
              exact hib (nodup_get_inj h.base.inv.nod hc hk)
      have hcac : Cac B P np b G _ w.iter w.last A := ⟨hw, h.npg, h.lst, Nat.le_trans h.bp h.p1, h.le,
        .inr ⟨Nat.lt_of_le_of_lt h.bp hp, hpre⟩, fun e => absurd (Nat.lt_of_le_of_lt h.bp hp) (by omega), h.gB⟩
      have hc := cac_grow hal g hi hcac
      have hsz := hc.w.inv.len
      rw [grownArr_len hB, hcac.w.inv.len] at hsz
      refine ⟨_, grow_eq hcl, rfl, rfl, ?_, ?_⟩
      · exact hsz.symm.trans (congrArg (grownSize B) hlst.symm)
      · refine cac_put ch v rfl hc ?_ hv
        refine Nat.lt_of_lt_of_eq (m := grownSize B w.sys.vec.size) ?_ hsz
        show w.iter < _
        rw [hi, h.lst]; exact grown_lt hB

end Stxxl.VecBuf
