import Verif.VecBuf.WriterFin
/-! A whole session of the buffered writer. -/
namespace Stxxl.VecBuf
open Stxxl.ExtVector
open Spec
variable {α : Type} {B P : Nat}

/-- Preconditions of writing `n` values from position `b` on. Inside the vector there are none. A session that makes the vector grow needs
pages of at least two blocks, must not start from a vector of one block with pages of two, and must not begin exactly at the start of the
vector's last block when that is the last block of a page to which nothing was ever assigned. -/
structure WLegal (B P : Nat) (s : Sys α) (A : List (Option α)) (b n : Nat) : Prop where
  inside : b ≤ s.vec.size
  grow : s.vec.size < b + n → 2 ≤ P ∧ ¬ (P = 2 ∧ s.vec.size = B) ∧
    (s.vec.size = b + B → b % B = 0 → b / B % P = P - 1 → ∃ (j : Nat) (v : α), j / B / P = b / B / P ∧ A[j]? = some (some v))

theorem progress_mid {np b : Nat} {G : Prop} {w : Bw α} {A : List (Option α)} (srv : List Nat) (h : Mid B P np b G w A) :
    Mid B P np b G (w.progress srv) A ∧ (w.progress srv).iter = w.iter ∧ (w.progress srv).last = w.last ∧ (w.progress srv).grown = w.grown := by
  rcases h with ⟨hb, h⟩ | ⟨o, hb, h, hp, hpre⟩
  · have e : w.progress srv = w := by unfold Bw.progress; rw [hb]
    rw [e]
    exact ⟨.inl ⟨hb, h⟩, rfl, rfl, rfl⟩
  · have e : w.progress srv = { w with sys := { w.sys with disk := (doneSome (w.sys.disk, o.pend) srv).1 }, bufout := some { o with pend := (doneSome (w.sys.disk, o.pend) srv).2 } } := by
      unfold Bw.progress; rw [hb]
    rw [e]
    exact ⟨.inr ⟨_, rfl, progress_str h srv, hp, hpre⟩, rfl, rfl, rfl⟩

theorem put_eq {w w1 : Bw α} {alloc : Sys α → Nat → List Nat} {ch : WCh α} {v : α}
    (h : (if (w.progress ch.srv).iter = (w.progress ch.srv).last then (w.progress ch.srv).grow B P alloc ch.junk else some (w.progress ch.srv)) = some w1) :
    w.put B P alloc ch v = w1.setIncr B P ch v := by
  unfold Bw.put Bw.assign Bw.setIncr
  rw [h]
  rfl

theorem Mid.last_eq {np b : Nat} {G : Prop} {w : Bw α} {A : List (Option α)} (h : Mid B P np b G w A) :
    A.length = w.last ∧ w.iter ≤ w.last ∧ 0 < B := by
  rcases h with ⟨hb, h⟩ | ⟨o, hb, h, hp, hpre⟩
  · exact ⟨h.w.inv.len.trans h.lst.symm, h.le, h.w.inv.hB⟩
  · exact ⟨h.len.trans h.lst.symm, h.le, h.hB⟩

theorem put_ok {np b : Nat} {G : Prop} {w : Bw α} {A : List (Option α)} {alloc : Sys α → Nat → List Nat}
    (hal : ∀ s n, FreshIds B s n (alloc s n)) (ch : WCh α) (v : α) (h : Mid B P np b G w A) (hg : w.iter = w.last → G) (hv : ch.victim < np) :
    ∃ w', w.put B P alloc ch v = some w' ∧ w'.iter = w.iter + 1 ∧
      (w.iter < w.last → Mid B P np b G w' (A.set w.iter (some v)) ∧ w'.grown = w.grown) ∧
      (w.iter = w.last → Mid B P np b G w' ((grownArr B A).set w.iter (some v)) ∧ w'.grown = true) := by
  obtain ⟨m1, m2, m3, m4⟩ := progress_mid ch.srv h
  by_cases he : w.iter = w.last
  · obtain ⟨w1, g1, g2, g3, g4, w', a1, a2, a3, a4, a5⟩ := grow_put hal (hg he) ch v m1 (by rw [m2, m3]; exact he) hv
    rw [m2] at a2 g3
    refine ⟨w', ?_, by rw [a3, g3], fun q => by omega, fun _ => ⟨a2, by rw [a5, g2]⟩⟩
    rw [put_eq (w1 := w1) (by rw [if_pos (by rw [m2, m3]; exact he)]; exact g1)]
    exact a1
  · have hl : w.iter < w.last := Nat.lt_of_le_of_ne h.last_eq.2.1 he
    have key : Adv B P np b G (w.progress ch.srv) (A.set (w.progress ch.srv).iter (some v)) ((w.progress ch.srv).setIncr B P ch v) := by
      rcases m1 with ⟨hb, h1⟩ | ⟨o, hb, h1, hp, hpre⟩
      · exact cac_put ch v hb h1 (by rw [m2, m3]; exact hl) hv
      · exact str_put ch v hb h1 hp (by rw [m2, m3]; exact hl)
    obtain ⟨w', a1, a2, a3, a4, a5⟩ := key
    rw [m2] at a2 a3
    refine ⟨w', ?_, a3, fun _ => ⟨a2, by rw [a5, m4]⟩, fun q => absurd q he⟩
    rw [put_eq (w1 := w.progress ch.srv) (by rw [if_neg (by rw [m2, m3]; exact he)])]
    exact a1

/-- How the array relates to the values written so far. -/
def Track (A0 : List (Option α)) (b : Nat) (xs : List α) (w : Bw α) (A : List (Option α)) : Prop :=
  w.iter = b + xs.length ∧ ∃ m, A = writeAt A0 b xs ++ List.replicate m none ∧ (w.grown = false → m = 0) ∧ (w.grown = true → A0.length ≤ w.iter)

theorem writeAt_len (A0 : List (Option α)) {b : Nat} (xs : List α) (hb : b ≤ A0.length) :
    (writeAt A0 b xs).length = b + xs.length + (A0.length - (b + xs.length)) := by
  simp [writeAt]; omega

theorem writeAt_in {A0 : List (Option α)} {b : Nat} {xs : List α} (v : α) (hb : b ≤ A0.length) (h : b + xs.length < A0.length) :
    (writeAt A0 b xs).set (b + xs.length) (some v) = writeAt A0 b (xs ++ [v]) := by
  unfold writeAt
  have hd : A0.drop (b + xs.length) = A0[b + xs.length] :: A0.drop (b + xs.length + 1) := List.drop_eq_getElem_cons h
  have hl : (A0.take b ++ xs.map some).length = b + xs.length := by simp; omega
  rw [hd, List.set_append, if_neg (by omega), hl, Nat.sub_self, List.set_cons_zero]
  simp [Nat.add_assoc]

theorem writeAt_out {A0 : List (Option α)} {b : Nat} {xs : List α} (v : α) (hb : b ≤ A0.length) (h : A0.length ≤ b + xs.length) (m : Nat) :
    (writeAt A0 b xs ++ List.replicate (m + 1) none).set (b + xs.length) (some v) = writeAt A0 b (xs ++ [v]) ++ List.replicate m none := by
  have hl : (writeAt A0 b xs).length = b + xs.length := by rw [writeAt_len A0 xs hb]; omega
  rw [List.set_append, if_neg (by omega), hl, Nat.sub_self, List.replicate_succ, List.set_cons_zero]
  unfold writeAt
  rw [List.drop_of_length_le h, List.drop_of_length_le (by simp; omega)]
  simp

theorem putAll_ok {np b : Nat} {G : Prop} {A0 : List (Option α)} {alloc : Sys α → Nat → List Nat} (hal : ∀ s n, FreshIds B s n (alloc s n))
    (ch : Nat → WCh α) (hv : ∀ i, (ch i).victim < np) (hb : b ≤ A0.length) : ∀ (vs xs : List α) (w : Bw α) (A : List (Option α)),
    Mid B P np b G w A → Track A0 b xs w A → (A0.length < b + (xs ++ vs).length → G) →
    ∃ w' A', Bw.putAll B P alloc ch vs w = some w' ∧ Mid B P np b G w' A' ∧ Track A0 b (xs ++ vs) w' A' := by
  intro vs
  induction vs with
  | nil => intro xs w A h ht _; exact ⟨w, A, rfl, h, by simpa using ht⟩
  | cons v vs ih =>
    intro xs w A h ht hG
    obtain ⟨t1, m, t2, t3, t4⟩ := ht
    obtain ⟨l1, l2, hB⟩ := h.last_eq
    have hlen : A.length = b + xs.length + (A0.length - (b + xs.length)) + m := by
      rw [t2, List.length_append, writeAt_len A0 xs hb, List.length_replicate]
    obtain ⟨w1, p1, p2, p3, p4⟩ := put_ok hal (ch vs.length) v h (fun he => hG (by simp; omega)) (hv _)
    have ex : xs ++ v :: vs = (xs ++ [v]) ++ vs := by simp
    rw [ex] at hG ⊢
    have fin : ∀ A1, Mid B P np b G w1 A1 → Track A0 b (xs ++ [v]) w1 A1 →
        ∃ w' A', Bw.putAll B P alloc ch (v :: vs) w = some w' ∧ Mid B P np b G w' A' ∧ Track A0 b (xs ++ [v] ++ vs) w' A' := by
      intro A1 q1 q2
      obtain ⟨w', A', r1, r2, r3⟩ := ih (xs ++ [v]) w1 A1 q1 q2 hG
      refine ⟨w', A', ?_, r2, r3⟩
      rw [Bw.putAll, p1]
      exact r1
    rcases Nat.lt_or_ge w.iter w.last with hl | hl
    · obtain ⟨q1, q2⟩ := p3 hl
      refine fin _ q1 ⟨by rw [p2, t1]; simp [Nat.add_assoc], ?_⟩
      cases hgr : w.grown with
      | false =>
        have hm := t3 hgr
        subst hm
        refine ⟨0, ?_, fun _ => rfl, by rw [q2, hgr]; simp⟩
        rw [t2, t1]
        simp only [List.replicate_zero, List.append_nil]
        exact writeAt_in v hb (by omega)
      | true =>
        have h4 := t4 hgr
        obtain ⟨m', rfl⟩ : ∃ m', m = m' + 1 := ⟨m - 1, by omega⟩
        refine ⟨m', ?_, by rw [q2, hgr]; simp, fun _ => by rw [p2]; omega⟩
        rw [t2, t1]
        exact writeAt_out v hb (by omega) m'
    · have he : w.iter = w.last := Nat.le_antisymm l2 hl
      obtain ⟨q1, q2⟩ := p4 he
      refine fin _ q1 ⟨by rw [p2, t1]; simp [Nat.add_assoc], ?_⟩
      have hgl := grown_lt (n := A.length) hB
      obtain ⟨m', hm'⟩ : ∃ m', m + (grownSize B A.length - A.length) = m' + 1 := ⟨m + (grownSize B A.length - A.length) - 1, by omega⟩
      refine ⟨m', ?_, by rw [q2]; simp, fun _ => by rw [p2]; omega⟩
      have e : grownArr B A = writeAt A0 b xs ++ List.replicate (m' + 1) none := by
        unfold grownArr
        conv => lhs; lhs; rw [t2]
        rw [List.append_assoc, List.replicate_append_replicate, hm']
      rw [e, t1]
      exact writeAt_out v hb (by omega) m'

theorem bufWrite_ok {s : Sys α} {A0 : List (Option α)} (h : WInv B P false s A0) {alloc : Sys α → Nat → List Nat}
    (hal : ∀ s n, FreshIds B s n (alloc s n)) (junk : Nat) (ch fch : Nat → WCh α) (hv : ∀ i, (ch i).victim < s.vec.npages)
    (b : Nat) (xs : List α) (hl : WLegal B P s A0 b xs.length) :
    ∃ s', bufWrite B P alloc junk ch fch s b xs = some s' ∧ WInv B P false s' (writeAt A0 b xs) ∧ s'.vec.npages = s.vec.npages := by
  have hb : b ≤ A0.length := by rw [h.inv.len]; exact hl.inside
  have hm : Mid B P s.vec.npages b (A0.length < b + xs.length) (⟨s, b, s.vec.size, false, junk, none⟩ : Bw α) A0 := by
    have hg : A0.length < b + xs.length → s.vec.size < b + xs.length := fun q => by rw [← h.inv.len]; exact q
    exact .inl ⟨rfl, h, rfl, rfl, Nat.le_refl _, hl.inside, .inl rfl, fun _ q q0 qk ql => (hl.grow (hg q)).2.2 ql q0 qk,
      fun q => ⟨(hl.grow (hg q)).1, (hl.grow (hg q)).2.1⟩⟩
  have ht : Track A0 b [] (⟨s, b, s.vec.size, false, junk, none⟩ : Bw α) A0 := by
    refine ⟨by simp, 0, ?_, fun _ => rfl, by simp⟩
    simp [writeAt]
  obtain ⟨w1, A1, p1, p2, t1, m, t2, t3, t4⟩ := putAll_ok hal ch hv hb xs [] _ _ hm ht (by simp)
  simp only [List.nil_append] at t1 t2
  obtain ⟨w2, f1, f2, f3, f4, f5, f6, f7⟩ := finishOut_ok fch p2
  have hfin2 : ∀ w : Bw α, w.bufout = none → w.grown = false → w.finish B P alloc fch = some w := by
    intro w q1 q2
    unfold Bw.finish Bw.finishOut
    rw [q1]
    dsimp only
    rw [q2]
    simp
  unfold bufWrite Bw.new
  rw [if_pos hl.inside]
  dsimp only
  rw [p1]
  dsimp only
  cases hgr : w1.grown with
  | false =>
    have hm0 := t3 hgr
    subst hm0
    have e : w1.finish B P alloc fch = some w2 := by
      unfold Bw.finish
      rw [f1]
      dsimp only
      rw [f4, hgr]
      simp
    rw [e]
    dsimp only
    rw [hfin2 w2 f2 (by rw [f4]; exact hgr)]
    exact ⟨w2.sys, rfl, by simpa [t2] using f5, f6⟩
  | true =>
    have e : w1.finish B P alloc fch = some { w2 with sys := resizeV B P w2.sys w2.iter (alloc w2.sys w2.iter), grown := false } := by
      unfold Bw.finish
      rw [f1]
      dsimp only
      rw [f4, hgr]
      simp
    rw [e]
    dsimp only
    rw [hfin2 { w2 with sys := resizeV B P w2.sys w2.iter (alloc w2.sys w2.iter), grown := false } f2 rfl]
    obtain ⟨s', r, h1, h2⟩ := step_ok f5 (.resize w2.iter (alloc w2.sys w2.iter)) ⟨hal _ _, by simp⟩
    have hs' : s' = resizeV B P w2.sys w2.iter (alloc w2.sys w2.iter) := (by simpa [step] using h1.symm : _ ∧ _).1
    have hcut := f5.noCut w2.iter (by simp)
    obtain ⟨_, i2, _⟩ := resizeV_inv f5.inv (hal w2.sys w2.iter) hcut f5.ids
    refine ⟨s', by rw [hs']; rfl, ?_, by rw [hs', i2]; exact f6⟩
    have hA : absStep B A1 (.resize w2.iter (alloc w2.sys w2.iter)) = writeAt A0 b xs := by
      show A1.take w2.iter ++ List.replicate (w2.iter - A1.length) none = _
      have hwl : (writeAt A0 b xs).length = w2.iter := by
        rw [writeAt_len A0 xs hb, f3]
        have := t4 hgr
        omega
      rw [show w2.iter - A1.length = 0 by rw [f3]; omega, List.replicate_zero, List.append_nil, t2, ← hwl, List.take_left]
    rw [← hA]; exact h2

end Stxxl.VecBuf
