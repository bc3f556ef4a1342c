import Verif.Scan.Model
import Verif.Scan.Spec
import Verif.ExtVector.Spec
import Mathlib.Tactic.ByContra

/-! # Streams over the blocks of a flushed vector. -/

namespace Stxxl.Scan

open Stxxl.ExtVector

variable {α σ : Type} {B P : Nat}

/-- Element at position `p` on the disk of `s`. -/
def dElem (B : Nat) (s : Sys α) (p : Nat) : Option α := (s.vec.bids[p / B]?).map (fun b => s.disk b (p % B))

/-- The streams have been opened on `s1` at position `p0` (the beginning of a block); `ws` has been written. -/
structure SInv (B : Nat) (s1 : Sys α) (p0 : Nat) (ws : List α) (st : St α) : Prop where
  hB : 0 < B
  nod : s1.vec.bids.Nodup
  al : p0 % B = 0
  vec : st.sys = { s1 with disk := st.sys.disk }
  blk : st.ok = p0 / B + ws.length / B
  num : st.onum = ws.length % B
  lag : p0 + ws.length ≤ st.ipos
  cur : st.ipos % B ≠ 0 → ∃ b, s1.vec.bids[st.ipos / B]? = some b ∧ st.icur = s1.disk b
  old : ∀ j b, s1.vec.bids[j]? = some b → j < p0 / B ∨ p0 / B + ws.length / B ≤ j → st.sys.disk b = s1.disk b
  oth : ∀ b, b ∉ s1.vec.bids → st.sys.disk b = s1.disk b
  done : ∀ j, j / B < ws.length / B → ∀ b, s1.vec.bids[p0 / B + j / B]? = some b → ws[j]? = some (st.sys.disk b (j % B))
  part : ∀ j x, ws[j]? = some x → j / B = ws.length / B → st.ocur (j % B) = x

theorem sinv_open {s1 : Sys α} (hB : 0 < B) (nod : s1.vec.bids.Nodup) (b : Nat) (junk : Nat → α) :
    SInv B s1 (b - b % B) [] (openAt B b s1 junk) := by
  have h1 : (b - b % B) % B = 0 := by
    rw [show b - b % B = B * (b / B) by have := Nat.div_add_mod b B; omega, Nat.mul_mod_right]
  have h2 : (b - b % B) / B = b / B := by
    rw [show b - b % B = B * (b / B) by have := Nat.div_add_mod b B; omega, Nat.mul_div_cancel_left _ hB]
  refine ⟨hB, nod, h1, rfl, ?_, ?_, ?_, ?_, ?_, ?_, ?_, ?_⟩
  · simp [openAt, h2]
  · simp [openAt]
  · simp [openAt]
  · intro h; exact absurd h1 h
  · intro j b _ _; rfl
  · intro b _; rfl
  · intro j hj; simp at hj
  · intro j x hx; simp at hx

theorem get_inv {s1 : Sys α} {p0 : Nat} {ws : List α} {st : St α} (h : SInv B s1 p0 ws st) {hi : Nat} (hhi : st.ipos / B < hi)
    {x : α} (hx : dElem B s1 st.ipos = some x) :
    ∃ st', get B hi st = some (st', x) ∧ SInv B s1 p0 ws st' ∧ st'.ipos = st.ipos + 1 := by
  have hB := h.hB
  obtain ⟨b, hb, hbx⟩ := Option.map_eq_some_iff.1 hx
  have hbids : st.sys.vec.bids = s1.vec.bids := by rw [h.vec]
  unfold get
  dsimp only
  rw [if_neg (by omega)]
  have hsucc : ∀ q : Nat, (q + 1) % B ≠ 0 → (q + 1) / B = q / B := by
    intro q hq
    rw [Nat.succ_div]
    have : ¬ B ∣ q + 1 := fun hd => hq (Nat.mod_eq_zero_of_dvd hd)
    simp [this]
  by_cases hm : st.ipos % B = 0
  · rw [if_pos hm, hbids, hb]
    dsimp only
    have hd : st.sys.disk b = s1.disk b := by
      refine h.old _ b hb (Or.inr ?_)
      have := h.lag
      rw [Nat.le_div_iff_mul_le hB, Nat.add_mul]
      have e1 := Nat.div_mul_le_self p0 B
      have e2 := Nat.div_mul_le_self ws.length B
      omega
    refine ⟨{ st with ipos := st.ipos + 1, icur := st.sys.disk b }, ?_, ⟨hB, h.nod, h.al, h.vec, h.blk, h.num, ?_, ?_, h.old, h.oth, h.done, h.part⟩, rfl⟩
    · rw [hd]; rw [hm] at hbx; rw [← hbx]
    · have := h.lag; show p0 + ws.length ≤ st.ipos + 1; omega
    · intro hn
      refine ⟨b, ?_, ?_⟩
      · have hn : (st.ipos + 1) % B ≠ 0 := hn
        show s1.vec.bids[(st.ipos + 1) / B]? = some b
        rw [hsucc _ hn]; exact hb
      · exact hd
  · rw [if_neg hm]
    obtain ⟨b', hb', hc⟩ := h.cur hm
    rw [hb] at hb'
    cases hb'
    refine ⟨{ st with ipos := st.ipos + 1 }, by rw [hc, hbx], ⟨hB, h.nod, h.al, h.vec, h.blk, h.num, ?_, ?_, h.old, h.oth, h.done, h.part⟩, rfl⟩
    · have := h.lag; show p0 + ws.length ≤ st.ipos + 1; omega
    · intro hn
      have hn : (st.ipos + 1) % B ≠ 0 := hn
      refine ⟨b, ?_, hc⟩
      show s1.vec.bids[(st.ipos + 1) / B]? = some b
      rw [hsucc _ hn]; exact hb

theorem put_inv {s1 : Sys α} {p0 : Nat} {ws : List α} {st : St α} (h : SInv B s1 p0 ws st) (hlag : p0 + ws.length < st.ipos)
    (hlen : p0 / B + ws.length / B < s1.vec.bids.length) (x : α) :
    ∃ st', put B st x = some st' ∧ SInv B s1 p0 (ws ++ [x]) st' ∧ st'.ipos = st.ipos := by
  have hB := h.hB
  have hbids : st.sys.vec.bids = s1.vec.bids := by rw [h.vec]
  obtain ⟨b, hb⟩ : ∃ b, s1.vec.bids[p0 / B + ws.length / B]? = some b := ⟨_, List.getElem?_eq_getElem hlen⟩
  have hlt := Nat.mod_lt ws.length hB
  have hdm := Nat.div_add_mod ws.length B
  have hon := h.num
  unfold put
  dsimp only
  by_cases hfull : st.onum + 1 ≥ B
  · rw [if_pos hfull, hbids, h.blk, hb]
    dsimp only
    have hd : (ws.length + 1) / B = ws.length / B + 1 := by
      rw [show ws.length + 1 = B * (ws.length / B + 1) by rw [Nat.mul_add, Nat.mul_one]; omega, Nat.mul_div_cancel_left _ hB]
    have hr : (ws.length + 1) % B = 0 := by
      rw [show ws.length + 1 = B * (ws.length / B + 1) by rw [Nat.mul_add, Nat.mul_one]; omega, Nat.mul_mod_right]
    refine ⟨{ st with sys := { st.sys with disk := upd st.sys.disk b (upd st.ocur st.onum x) }, ok := st.ok + 1, onum := 0, ocur := upd st.ocur st.onum x },
      by rw [h.blk], ⟨hB, h.nod, h.al, ?_, ?_, ?_, ?_, h.cur, ?_, ?_, ?_, ?_⟩, rfl⟩
    · show ({ st.sys with disk := _ } : Sys α) = { s1 with disk := _ }
      rw [h.vec]
    · rw [List.length_append, List.length_singleton, hd]; show st.ok + 1 = _; rw [h.blk]; omega
    · rw [List.length_append, List.length_singleton, hr]
    · rw [List.length_append, List.length_singleton]; show _ ≤ st.ipos; omega
    · intro j b' hb' hj
      rw [List.length_append, List.length_singleton, hd] at hj
      show upd st.sys.disk b _ b' = _
      rw [ExtVector.upd_ne]
      · exact h.old j b' hb' (by omega)
      · rintro rfl
        have := nodup_get_inj h.nod hb hb'
        generalize ws.length / B = q2 at *
        generalize p0 / B = q1 at *
        omega
    · intro b' hb'
      show upd st.sys.disk b _ b' = _
      rw [ExtVector.upd_ne]
      · exact h.oth b' hb'
      · rintro rfl; exact hb' (List.mem_of_getElem? hb)
    · intro j hj b' hb'
      rw [List.length_append, List.length_singleton, hd] at hj
      show (ws ++ [x])[j]? = some (upd st.sys.disk b _ b' (j % B))
      by_cases hjb : j / B = ws.length / B
      · rw [hjb, hb] at hb'
        cases hb'
        rw [ExtVector.upd_same]
        have hjlt : j < ws.length + 1 := by
          have e1 := Nat.div_add_mod j B
          have e2 := Nat.mod_lt j hB
          rw [hjb] at e1
          omega
        by_cases hjw : j = ws.length
        · subst hjw
          rw [List.getElem?_concat_length, hon, ExtVector.upd_same]
        · have hjl : j < ws.length := by omega
          rw [List.getElem?_append_left hjl]
          rw [ExtVector.upd_ne]
          · obtain ⟨y, hy⟩ : ∃ y, ws[j]? = some y := ⟨_, List.getElem?_eq_getElem hjl⟩
            rw [hy, h.part j y hy hjb]
          · rw [hon]
            intro hc
            apply hjw
            have e1 := Nat.div_add_mod j B
            rw [hjb] at e1
            omega
      · have hjlt : j / B < ws.length / B := by omega
        have hjl : j < ws.length := by
          by_contra hc
          have : ws.length / B ≤ j / B := Nat.div_le_div_right (by omega)
          omega
        rw [List.getElem?_append_left hjl, ExtVector.upd_ne]
        · exact h.done j hjlt b' hb'
        · rintro rfl
          have := nodup_get_inj h.nod hb hb'
          omega
    · intro j y hy hj
      rw [List.length_append, List.length_singleton, hd] at hj
      have hjl : j < (ws ++ [x]).length := (List.getElem?_eq_some_iff.1 hy).1
      rw [List.length_append, List.length_singleton] at hjl
      have : j / B ≤ ws.length / B := Nat.div_le_div_right (by omega)
      omega
  · rw [if_neg hfull]
    have hd : (ws.length + 1) / B = ws.length / B := by
      have : ws.length + 1 = B * (ws.length / B) + (ws.length % B + 1) := by omega
      rw [this, Nat.mul_add_div hB, Nat.div_eq_of_lt (show ws.length % B + 1 < B by omega), Nat.add_zero]
    have hr : (ws.length + 1) % B = ws.length % B + 1 := by
      have : ws.length + 1 = B * (ws.length / B) + (ws.length % B + 1) := by omega
      rw [this, Nat.mul_add_mod, Nat.mod_eq_of_lt (by omega)]
    refine ⟨{ st with onum := st.onum + 1, ocur := upd st.ocur st.onum x }, rfl,
      ⟨hB, h.nod, h.al, h.vec, ?_, ?_, ?_, h.cur, ?_, h.oth, ?_, ?_⟩, rfl⟩
    · rw [List.length_append, List.length_singleton, hd]; exact h.blk
    · rw [List.length_append, List.length_singleton, hr]; show st.onum + 1 = _; omega
    · rw [List.length_append, List.length_singleton]; show _ ≤ st.ipos; omega
    · intro j b' hb' hj
      rw [List.length_append, List.length_singleton, hd] at hj
      exact h.old j b' hb' hj
    · intro j hj b' hb'
      rw [List.length_append, List.length_singleton, hd] at hj
      have hjl : j < ws.length := by
        by_contra hc
        have : ws.length / B ≤ j / B := Nat.div_le_div_right (by omega)
        omega
      rw [List.getElem?_append_left hjl]
      exact h.done j hj b' hb'
    · intro j y hy hj
      rw [List.length_append, List.length_singleton, hd] at hj
      show upd st.ocur st.onum x (j % B) = y
      have hjl : j < (ws ++ [x]).length := (List.getElem?_eq_some_iff.1 hy).1
      rw [List.length_append, List.length_singleton] at hjl
      by_cases hjw : j = ws.length
      · subst hjw
        rw [List.getElem?_concat_length] at hy
        cases hy
        rw [hon, ExtVector.upd_same]
      · rw [List.getElem?_append_left (by omega)] at hy
        rw [ExtVector.upd_ne]
        · exact h.part j y hy hj
        · rw [hon]
          intro hc
          apply hjw
          have e1 := Nat.div_add_mod j B
          rw [hj] at e1
          omega

theorem mapAccum_length (f : σ → α → σ × α) (a : σ) (xs : List α) : (mapAccum f a xs).2.length = xs.length := by
  induction xs generalizing a with
  | nil => rfl
  | cons x xs ih => simp [mapAccum, ih]

theorem mapAccum_keep (a : σ) (xs : List α) : mapAccum keep a xs = (a, xs) := by
  induction xs generalizing a with
  | nil => rfl
  | cons x xs ih => simp [mapAccum, keep, ih]

/-- The disk has the elements `xs` from position `p` on. -/
def Has (B : Nat) (s : Sys α) (p : Nat) (xs : List α) : Prop := ∀ j x, xs[j]? = some x → dElem B s (p + j) = some x

theorem Has.tail {s : Sys α} {p : Nat} {x : α} {xs : List α} (h : Has B s p (x :: xs)) : dElem B s p = some x ∧ Has B s (p + 1) xs := by
  refine ⟨h 0 x rfl, fun j y hy => ?_⟩
  have := h (j + 1) y (by simpa using hy)
  rwa [show p + 1 + j = p + (j + 1) by omega]

theorem dElem_bids {s : Sys α} {p : Nat} {x : α} (h : dElem B s p = some x) : p / B < s.vec.bids.length := by
  obtain ⟨b, hb, _⟩ := Option.map_eq_some_iff.1 h
  exact (List.getElem?_eq_some_iff.1 hb).1

/-- Where the output stream is when it has caught up with the input. -/
theorem blk_eq {p0 n q : Nat} (hB : 0 < B) (hal : p0 % B = 0) (h : q = p0 + n) : p0 / B + n / B = q / B := by
  subst h
  have e := Nat.div_add_mod p0 B
  rw [hal, Nat.add_zero] at e
  rw [← e, Nat.mul_div_cancel_left _ hB, Nat.mul_add_div hB]

theorem pass_inv {s1 : Sys α} {p0 hi : Nat} (f : σ → α → σ × α) : ∀ (xs : List α) (ws : List α) (st : St α) (a : σ),
    SInv B s1 p0 ws st → st.ipos = p0 + ws.length → Has B s1 st.ipos xs →
    (∀ q, q < st.ipos + xs.length → st.ipos ≤ q → q / B < hi) →
    ∃ st', pass B hi f xs.length st a = some (st', (mapAccum f a xs).1) ∧ SInv B s1 p0 (ws ++ (mapAccum f a xs).2) st' ∧
      st'.ipos = st.ipos + xs.length := by
  intro xs
  induction xs with
  | nil =>
    intro ws st a h _ _ _
    exact ⟨st, rfl, by simpa [mapAccum] using h, rfl⟩
  | cons x xs ih =>
    intro ws st a h hp hh hhi
    obtain ⟨hx, hxs⟩ := hh.tail
    obtain ⟨st1, g1, g2, g3⟩ := get_inv h (hi := hi) (hhi st.ipos (by simp) (Nat.le_refl _)) hx
    obtain ⟨st2, p1, p2, p3⟩ := put_inv g2 (by omega)
      (by rw [blk_eq h.hB h.al hp]; exact dElem_bids hx) (f a x).2
    obtain ⟨st3, r1, r2, r3⟩ := ih (ws ++ [(f a x).2]) st2 (f a x).1 p2 (by rw [p3, g3]; simp; omega)
      (by rw [p3, g3]; exact hxs)
      (by intro q hq1 hq2; refine hhi q ?_ ?_ <;> simp at * <;> omega)
    refine ⟨st3, ?_, ?_, ?_⟩
    · simp only [List.length_cons, pass, g1, p1, mapAccum]
      exact r1
    · simpa [mapAccum] using r2
    · rw [r3, p3, g3]; simp; omega

/-- What is on disk when all blocks have been filled. -/
structure Wrote (B : Nat) (s1 s' : Sys α) (k0 : Nat) (ws : List α) : Prop where
  vec : s' = { s1 with disk := s'.disk }
  old : ∀ j b, s1.vec.bids[j]? = some b → j < k0 ∨ k0 * B + ws.length ≤ j * B → s'.disk b = s1.disk b
  oth : ∀ b, b ∉ s1.vec.bids → s'.disk b = s1.disk b
  new : ∀ j x, ws[j]? = some x → dElem B s' (k0 * B + j) = some x

theorem SInv.wrote {s1 : Sys α} {p0 : Nat} {ws : List α} {st : St α} (h : SInv B s1 p0 ws st) (hon : st.onum = 0)
    (hfit : p0 + ws.length ≤ s1.vec.bids.length * B) : Wrote B s1 st.sys (p0 / B) ws := by
  have hB := h.hB
  have hm : ws.length % B = 0 := by rw [← h.num]; exact hon
  have e1 := Nat.div_add_mod ws.length B
  rw [hm, Nat.add_zero] at e1
  have e2 := Nat.div_add_mod p0 B
  rw [h.al, Nat.add_zero] at e2
  refine ⟨h.vec, ?_, h.oth, ?_⟩
  · intro j b hb hj
    refine h.old j b hb (hj.imp id (fun hj => ?_))
    rw [← e1, Nat.mul_comm B, ← Nat.add_mul] at hj
    exact Nat.le_of_mul_le_mul_right hj hB
  · intro j x hx
    have hj : j < ws.length := (List.getElem?_eq_some_iff.1 hx).1
    have hjB : j / B < ws.length / B := by
      rw [Nat.div_lt_iff_lt_mul hB, Nat.mul_comm, e1]; exact hj
    have hk : (p0 / B * B + j) / B = p0 / B + j / B := by
      rw [Nat.mul_comm, Nat.mul_add_div hB]
    have hk2 : (p0 / B * B + j) % B = j % B := by
      rw [Nat.mul_comm, Nat.mul_add_mod]
    have hlt : p0 / B + j / B < s1.vec.bids.length := by
      have : (p0 / B + ws.length / B) * B ≤ s1.vec.bids.length * B := by
        rw [Nat.add_mul, Nat.mul_comm (p0 / B), Nat.mul_comm (ws.length / B), e1, e2]; exact hfit
      have := Nat.le_of_mul_le_mul_right this hB
      omega
    unfold dElem
    rw [hk, hk2, show st.sys.vec.bids = s1.vec.bids by rw [h.vec], List.getElem?_eq_getElem hlt]
    have := h.done j hjB _ (List.getElem?_eq_getElem hlt)
    rw [hx] at this
    simp only [Option.map_some]
    rw [Option.some.inj this]

/-- Nothing is cached. -/
def Flushed (s : Sys α) : Prop := ∀ p t : Nat, s.vec.p2s[p]? ≠ some (some t)

theorem Flushed.status {s : Sys α} {abs} (h : Inv B P s abs) (hf : Flushed s) (p : Nat) : s.vec.status[p]? ≠ some .dirty := by
  intro hd
  obtain ⟨⟨t, ht⟩, _⟩ := h.dirtyC p hd
  exact hf p t ht

/-- Elements of a flushed vector are on disk. -/
theorem Flushed.elem {s : Sys α} {abs} (h : Inv B P s abs) (hf : Flushed s) {i : Nat} {v : α} (hi : abs[i]? = some (some v)) :
    dElem B s i = some v ∧ s.vec.status[i / B / P]? = some .valid := by
  obtain ⟨st, c1, c2, _, c4⟩ := h.content i v hi
  have hv : st = .valid := by
    cases st with
    | valid => rfl
    | uninit => exact absurd rfl c2
    | dirty => exact absurd c1 (hf.status h _)
  have hlt := h.lt_cap (h.idx hi)
  refine ⟨?_, by rw [← hv]; exact c1⟩
  unfold dElem
  rw [List.getElem?_eq_getElem hlt]
  simp only [Option.map_some]
  rw [c4 hv _ (List.getElem?_eq_getElem hlt)]

/-- The invariant after blocks of a flushed vector have been rewritten. -/
theorem wrote_inv {s1 s' : Sys α} {abs abs' : List (Option α)} {k0 : Nat} {ws : List α} (h : Inv B P s1 abs) (hf : Flushed s1)
    (hw : Wrote B s1 s' k0 ws) (hm : ws.length % B = 0) (hlen : abs'.length = abs.length)
    (hin : ∀ j v, abs'[k0 * B + j]? = some (some v) → j < ws.length → ws[j]? = some v)
    (hst : ∀ i v, abs'[i]? = some (some v) → k0 * B ≤ i → i < k0 * B + ws.length → s1.vec.status[i / B / P]? = some .valid)
    (hout : ∀ i v, abs'[i]? = some (some v) → i < k0 * B ∨ k0 * B + ws.length ≤ i → abs[i]? = some (some v)) :
    Inv B P s' abs' := by
  have hv : s'.vec = s1.vec := by rw [hw.vec]
  refine ⟨h.hB, h.hP, by rw [hv]; exact h.np, by rw [hv, hlen]; exact h.len, by rw [hv]; exact h.cap, by rw [hv]; exact h.nod,
    by rw [hv]; exact h.lens, by rw [hv]; exact h.pages, by rw [hv]; exact h.map, by rw [hv]; exact h.freeLt,
    by rw [hv]; exact h.freeNd, by rw [hv]; exact h.slots, by rw [hv]; exact h.dirtyC, ?_⟩
  intro i v hi
  rw [hv]
  have hilt : i < s1.vec.size := by rw [← h.len, ← hlen]; exact (List.getElem?_eq_some_iff.1 hi).1
  have hkl := h.lt_cap hilt
  have hB := h.hB
  have e1 := Nat.div_add_mod i B
  have e1' := Nat.mod_lt i hB
  by_cases hc : k0 * B ≤ i ∧ i < k0 * B + ws.length
  · obtain ⟨j, rfl⟩ : ∃ j, i = k0 * B + j := ⟨i - k0 * B, by omega⟩
    have hx := hin j v hi (by omega)
    have hd := hw.new j v hx
    refine ⟨.valid, hst _ v hi (by omega) (by omega), by simp, fun t ht => absurd ht (hf _ t), fun _ b hb => ?_⟩
    unfold dElem at hd
    rw [hv, hb] at hd
    simpa using hd
  · have hold := hout i v hi (by omega)
    obtain ⟨st, c1, c2, c3, c4⟩ := h.content i v hold
    refine ⟨st, c1, c2, c3, fun hst b hb => ?_⟩
    rw [hw.old (i / B) b hb ?_]
    · exact c4 hst b hb
    · by_cases hlt : i < k0 * B
      · left; rw [Nat.div_lt_iff_lt_mul hB]; exact hlt
      · right
        have hge : k0 * B + ws.length ≤ i := by omega
        have e2 := Nat.div_add_mod ws.length B
        rw [hm, Nat.add_zero] at e2
        have : k0 + ws.length / B ≤ i / B := by
          rw [Nat.le_div_iff_mul_le hB, Nat.add_mul, Nat.mul_comm (ws.length / B), e2]; exact hge
        have := Nat.mul_le_mul_right B this
        rw [Nat.add_mul, Nat.mul_comm (ws.length / B), e2] at this
        exact this

theorem wrote_same {s1 s' : Sys α} {k0 : Nat} {ws : List α} (hw : Wrote B s1 s' k0 ws) : Same s1 s' := by
  have hv := hw.vec
  refine ⟨by rw [hv], by rw [hv], by rw [hv], by rw [hv], by rw [hv], by rw [hv], by rw [hv], ?_⟩
  intro b hb; exact hw.oth b hb

end Stxxl.Scan
