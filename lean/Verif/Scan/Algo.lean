import Verif.Scan.Lemmas
import Mathlib.Tactic.SplitIfs

/-! # The scanning algorithms keep the invariant of the vector. -/

namespace Stxxl.Scan

open Stxxl.ExtVector

variable {α σ : Type} {B P : Nat}

/-- `n` elements of the disk from position `p` on. -/
def raw (B : Nat) (s : Sys α) (p n : Nat) : List α :=
  (List.range n).map (fun j => s.disk ((s.vec.bids[(p + j) / B]?).getD 0) ((p + j) % B))

theorem raw_length (s : Sys α) (p n : Nat) : (raw B s p n).length = n := by simp [raw]

theorem raw_has {s : Sys α} {p n : Nat} (hB : 0 < B) (h : p + n ≤ s.vec.bids.length * B) : Has B s p (raw B s p n) := by
  intro j x hx
  have hj : j < n := by have := (List.getElem?_eq_some_iff.1 hx).1; rwa [raw_length] at this
  have hk : (p + j) / B < s.vec.bids.length := by rw [Nat.div_lt_iff_lt_mul hB]; omega
  unfold raw at hx
  rw [List.getElem?_map, List.getElem?_range hj, Option.map_some, List.getElem?_eq_getElem hk] at hx
  unfold dElem
  rw [List.getElem?_eq_getElem hk]
  simpa using hx

theorem raw_get {s : Sys α} {p n j : Nat} {x : α} (hB : 0 < B) (h : p + n ≤ s.vec.bids.length * B) (hj : j < n)
    (hx : dElem B s (p + j) = some x) : (raw B s p n)[j]? = some x := by
  have hl : j < (raw B s p n).length := by rw [raw_length]; exact hj
  have := raw_has hB h j _ (List.getElem?_eq_getElem hl)
  rw [hx] at this
  rw [List.getElem?_eq_getElem hl]
  exact this.symm

theorem endBlock_ge (hB : 0 < B) (e : Nat) : e ≤ endBlock B e * B ∧ endBlock B e * B = e + (if e % B ≠ 0 then B - e % B else 0) := by
  have h1 := Nat.div_add_mod e B
  have h2 := Nat.mod_lt e hB
  unfold endBlock
  split
  · rw [Nat.add_mul, Nat.mul_comm (e / B)]; omega
  · rw [Nat.add_mul, Nat.mul_comm (e / B)]; omega

theorem endBlock_le (hB : 0 < B) {e n : Nat} (h : e ≤ n * B) : endBlock B e ≤ n := by
  have h1 := Nat.div_add_mod e B
  unfold endBlock
  split
  · rename_i hm
    have : e / B < n := by
      rw [Nat.div_lt_iff_lt_mul hB]
      refine Nat.lt_of_le_of_ne h ?_
      rintro rfl
      simp at hm
    omega
  · rw [Nat.add_zero]
    have := Nat.div_le_div_right (c := B) h
    rwa [Nat.mul_div_cancel _ hB] at this

theorem endBlock_lt (hB : 0 < B) {e q : Nat} (h : q < endBlock B e * B) : q / B < endBlock B e := by
  rw [Nat.div_lt_iff_lt_mul hB]; exact h

/-- Positions of the array after the range has been replaced. -/
theorem splice_get {abs : List (Option α)} {b e : Nat} (ys : List α) (hb : b ≤ e) (he : e ≤ abs.length) (hl : ys.length = e - b) (i : Nat) :
    (abs.take b ++ ys.map some ++ abs.drop e)[i]? =
      if i < b ∨ e ≤ i then abs[i]? else (ys[i - b]?).map some := by
  have h1 : (abs.take b).length = b := by simp; omega
  by_cases hi : i < b
  · rw [if_pos (Or.inl hi), List.append_assoc, List.getElem?_append_left (by omega), List.getElem?_take, if_pos hi]
  · by_cases hi2 : e ≤ i
    · rw [if_pos (Or.inr hi2), List.getElem?_append_right (by simp; omega), List.getElem?_drop]
      congr 1
      simp; omega
    · rw [if_neg (by omega), List.append_assoc, List.getElem?_append_right (by omega), h1,
        List.getElem?_append_left (by simp; omega), List.getElem?_map]

theorem splice_len {abs : List (Option α)} {b e : Nat} (ys : List α) (hb : b ≤ e) (he : e ≤ abs.length) (hl : ys.length = e - b) :
    (abs.take b ++ ys.map some ++ abs.drop e).length = abs.length := by
  simp; omega

theorem Range.get {abs : List (Option α)} {b e : Nat} {xs : List α} (h : Range abs b e xs) (i : Nat) (h1 : b ≤ i) (h2 : i < e) :
    abs[i]? = (xs[i - b]?).map some := by
  have := congrArg (fun l => l[i - b]?) h
  simp only [List.getElem?_take, List.getElem?_drop, List.getElem?_map] at this
  rw [if_pos (by omega), show b + (i - b) = i by omega] at this
  exact this

theorem Range.len {abs : List (Option α)} {b e : Nat} {xs : List α} (h : Range abs b e xs) (he : e ≤ abs.length) : xs.length = e - b := by
  have := congrArg List.length h
  simp at this
  omega

theorem Range.has {s : Sys α} {abs : List (Option α)} {b e : Nat} {xs : List α} (h : Range abs b e xs) (he : e ≤ abs.length)
    (hi : Inv B P s abs) (hf : Flushed s) : Has B s b xs := by
  intro j x hx
  have hj : j < xs.length := (List.getElem?_eq_some_iff.1 hx).1
  have hl := h.len he
  have := h.get (b + j) (by omega) (by omega)
  rw [show b + j - b = j by omega, hx] at this
  exact (hf.elem hi this).1

theorem close_inv {s1 : Sys α} {abs : List (Option α)} {b e : Nat} {xs ys : List α} {st : St α} (h : Inv B P s1 abs) (hf : Flushed s1)
    (hb : b ≤ e) (he : e ≤ abs.length) (hr : Range abs b e xs) (hl : ys.length = xs.length)
    (hS : SInv B s1 (b - b % B) (raw B s1 (b - b % B) (b % B) ++ ys ++ raw B s1 e (endBlock B e * B - e)) st) :
    st.onum = 0 ∧ Inv B P st.sys (abs.take b ++ ys.map some ++ abs.drop e) ∧ Same s1 st.sys := by
  have hB := h.hB
  have hxl := hr.len he
  obtain ⟨g1, g2⟩ := endBlock_ge hB e
  have hcap : e ≤ s1.vec.bids.length * B := by have := h.cap; have := h.len; omega
  have hel := endBlock_le hB hcap
  have helB := Nat.mul_le_mul_right B hel
  have hbm := Nat.div_add_mod b B
  have hp0 : b - b % B = b / B * B := by rw [Nat.mul_comm]; omega
  have hbd : b / B * B + b % B = b := by rw [Nat.mul_comm]; exact hbm
  have hml := Nat.mod_lt b hB
  have hwl : (raw B s1 (b - b % B) (b % B) ++ ys ++ raw B s1 e (endBlock B e * B - e)).length =
      endBlock B e * B - b / B * B := by
    simp only [List.length_append, raw_length, hl, hxl]; omega
  have hm0 : (endBlock B e * B - b / B * B) % B = 0 := by rw [← Nat.sub_mul, Nat.mul_mod_left]
  have hon : st.onum = 0 := by rw [hS.num, hwl, hm0]
  have hk0 : (b - b % B) / B = b / B := by rw [hp0, Nat.mul_div_cancel _ hB]
  have hle2 : b / B * B ≤ endBlock B e * B := by omega
  have hw := hS.wrote hon (by rw [hwl, hp0]; omega)
  rw [hk0] at hw
  refine ⟨hon, wrote_inv h hf hw (by rw [hwl, hm0]) (splice_len ys (by omega) he (by omega)) ?_ ?_ ?_, wrote_same hw⟩
  · intro j v hv hj
    rw [hwl] at hj
    rw [splice_get ys (by omega) he (by omega)] at hv
    by_cases c1 : j < b % B
    · rw [if_pos (by omega)] at hv
      rw [List.append_assoc, List.getElem?_append_left (by rw [raw_length]; exact c1)]
      refine raw_get hB (by omega) c1 ?_
      rw [hp0]; exact (hf.elem h hv).1
    · by_cases c2 : j < b % B + (e - b)
      · rw [if_neg (by omega)] at hv
        rw [List.append_assoc, List.getElem?_append_right (by rw [raw_length]; omega), raw_length,
          List.getElem?_append_left (by omega)]
        rw [show b / B * B + j - b = j - b % B by omega] at hv
        simpa using hv
      · rw [if_pos (by omega)] at hv
        rw [List.getElem?_append_right (by simp only [List.length_append, raw_length]; omega)]
        simp only [List.length_append, raw_length]
        refine raw_get hB (by omega) (by omega) ?_
        rw [show e + (j - (b % B + ys.length)) = b / B * B + j by omega]
        exact (hf.elem h hv).1
  · intro i v hv _ _
    rw [splice_get ys (by omega) he (by omega)] at hv
    split at hv
    · exact (hf.elem h hv).2
    · have hg := hr.get i (by omega) (by omega)
      obtain ⟨x, hx⟩ : ∃ x, xs[i - b]? = some x := ⟨_, List.getElem?_eq_getElem (by omega)⟩
      rw [hx] at hg
      exact (hf.elem h hg).2
  · intro i v hv hi
    rw [hwl] at hi
    rw [splice_get ys (by omega) he (by omega), if_pos (by omega)] at hv
    exact hv

/-- A flushed vector and streams at the beginning of the range. -/
theorem start_inv {s1 : Sys α} {abs : List (Option α)} {b e : Nat} {xs : List α} (h : Inv B P s1 abs)
    (hb : b ≤ e) (he : e ≤ abs.length) (hr : Range abs b e xs) (junk : Nat → α) (a : σ) :
    ∃ st, pass B (endBlock B e) keep (b % B) (openAt B b s1 junk) a = some (st, a) ∧
      SInv B s1 (b - b % B) (raw B s1 (b - b % B) (b % B)) st ∧ st.ipos = b := by
  have hB := h.hB
  have hxl := hr.len he
  obtain ⟨g1, g2⟩ := endBlock_ge hB e
  have hcap : e ≤ s1.vec.bids.length * B := by have := h.cap; have := h.len; omega
  have hml := Nat.mod_le b B
  obtain ⟨st1, p1, p2, p3⟩ := pass_inv (hi := endBlock B e) (keep (σ := σ)) (raw B s1 (b - b % B) (b % B)) [] (openAt B b s1 junk) a
    (sinv_open hB h.nod b junk) (by simp [openAt]) (by simp only [openAt]; exact raw_has hB (by omega))
    (by intro q hq _; apply endBlock_lt hB; simp only [openAt, raw_length] at hq; omega)
  rw [raw_length] at p1 p3
  rw [mapAccum_keep] at p1 p2
  refine ⟨st1, p1, by simpa using p2, ?_⟩
  rw [p3]; simp [openAt]; omega

/-- The rest of the last block. -/
theorem finish_inv {s1 : Sys α} {abs : List (Option α)} {b e : Nat} {xs ys : List α} {st : St α} (h : Inv B P s1 abs) (hf : Flushed s1)
    (hb : b ≤ e) (he : e ≤ abs.length) (hr : Range abs b e xs) (hl : ys.length = xs.length)
    (hS : SInv B s1 (b - b % B) (raw B s1 (b - b % B) (b % B) ++ ys) st) (hp : st.ipos = e) (a : σ) :
    ∃ st', pass B (endBlock B e) keep (if e % B ≠ 0 then B - e % B else 0) st a = some (st', a) ∧ st'.onum = 0 ∧
      Inv B P st'.sys (abs.take b ++ ys.map some ++ abs.drop e) ∧ Same s1 st'.sys := by
  have hB := h.hB
  have hxl := hr.len he
  obtain ⟨g1, g2⟩ := endBlock_ge hB e
  have hcap : e ≤ s1.vec.bids.length * B := by have := h.cap; have := h.len; omega
  have helB := Nat.mul_le_mul_right B (endBlock_le hB hcap)
  have hml := Nat.mod_le b B
  obtain ⟨st1, p1, p2, p3⟩ := pass_inv (hi := endBlock B e) (keep (σ := σ)) (raw B s1 e (endBlock B e * B - e)) _ st a hS
    (by rw [hp]; simp only [List.length_append, raw_length]; omega)
    (by rw [hp]; exact raw_has hB (by omega))
    (by intro q hq _; apply endBlock_lt hB; rw [raw_length, hp] at hq; omega)
  rw [raw_length, mapAccum_keep] at p1
  rw [mapAccum_keep] at p2
  obtain ⟨c1, c2, c3⟩ := close_inv h hf hb he hr hl p2
  exact ⟨st1, by rw [← p1]; congr 1; omega, c1, c2, c3⟩

theorem forEachM_inv {s : Sys α} {abs : List (Option α)} {b e : Nat} {xs : List α} (h : Inv B P s abs) (hb : b ≤ e) (he : e ≤ abs.length)
    (hr : Range abs b e xs) (f : σ → α → σ × α) (a : σ) (junk : Nat → α) :
    ∃ s', forEachM B P s b e f a junk = some (s', (mapAccum f a xs).1) ∧
      Inv B P s' (abs.take b ++ (mapAccum f a xs).2.map some ++ abs.drop e) ∧ Same s s' := by
  have hxl := hr.len he
  unfold forEachM
  by_cases hbe : b = e
  · subst hbe
    have : xs = [] := List.length_eq_zero_iff.1 (by omega)
    subst this
    rw [if_pos rfl]
    exact ⟨s, rfl, by simpa [mapAccum] using h, Same.refl s⟩
  rw [if_neg hbe]
  have hB := h.hB
  obtain ⟨s1, f1, f2, f3, f4⟩ := flush_inv h
  rw [f1]
  dsimp only
  obtain ⟨st1, a1, a2, a3⟩ := start_inv f2 (by omega) he hr junk a
  rw [a1]
  dsimp only
  obtain ⟨g1, g2⟩ := endBlock_ge hB e
  have hml := Nat.mod_le b B
  obtain ⟨st2, b1, b2, b3⟩ := pass_inv (hi := endBlock B e) f xs _ st1 a a2
    (by rw [a3, raw_length]; omega) (by rw [a3]; exact hr.has he f2 f4)
    (by intro q hq _; apply endBlock_lt hB; omega)
  rw [← hxl, b1]
  dsimp only
  obtain ⟨st3, c1, c2, c3, c4⟩ := finish_inv f2 f4 (by omega) he hr (mapAccum_length f a xs) b2 (by omega) (mapAccum f a xs).1
  refine ⟨st3.sys, ?_, c3, f3.trans c4⟩
  by_cases hm : e % B ≠ 0
  · rw [if_pos hm] at c1 ⊢
    rw [c1]
    dsimp only
    rw [if_pos c2]
  · rw [if_neg hm] at c1 ⊢
    cases c1
    rw [if_pos c2]

/-! ## Reading only -/

theorem scan_inv {s1 : Sys α} {p0 hi : Nat} {ws : List α} (f : σ → α → σ) : ∀ (xs : List α) (st : St α) (a : σ),
    SInv B s1 p0 ws st → Has B s1 st.ipos xs → (∀ q, q < st.ipos + xs.length → st.ipos ≤ q → q / B < hi) →
    ∃ st', scan B hi f xs.length st a = some (st', xs.foldl f a) ∧ SInv B s1 p0 ws st' ∧ st'.ipos = st.ipos + xs.length ∧ st'.sys = st.sys := by
  intro xs
  induction xs with
  | nil => intro st a h _ _; exact ⟨st, rfl, h, rfl, rfl⟩
  | cons x xs ih =>
    intro st a h hh hhi
    obtain ⟨hx, hxs⟩ := hh.tail
    obtain ⟨st1, g1, g2, g3⟩ := get_inv h (hi := hi) (hhi st.ipos (by simp) (Nat.le_refl _)) hx
    have g4 : st1.sys = st.sys := by
      unfold get at g1
      dsimp only at g1
      split at g1
      · cases g1
      · split at g1
        · split at g1
          · cases g1
          · cases g1; rfl
        · cases g1; rfl
    obtain ⟨st2, r1, r2, r3, r4⟩ := ih st1 (f a x) g2 (by rw [g3]; exact hxs)
      (by intro q hq1 hq2; refine hhi q ?_ ?_ <;> simp at * <;> omega)
    refine ⟨st2, ?_, r2, by rw [r3, g3]; simp; omega, r4.trans g4⟩
    simp only [List.length_cons, scan, g1, List.foldl_cons]
    exact r1

theorem foldl_const (xs : List α) (a : σ) : xs.foldl (fun a _ => a) a = a := by
  induction xs with
  | nil => rfl
  | cons x xs ih => exact ih

/-- Streams of a reader at the beginning of the range. -/
theorem startR_inv {s1 : Sys α} {abs : List (Option α)} {b e : Nat} {xs : List α} (h : Inv B P s1 abs)
    (hb : b ≤ e) (he : e ≤ abs.length) (hr : Range abs b e xs) (junk : Nat → α) (a : σ) :
    ∃ st, scan B (endBlock B e) (fun a _ => a) (b % B) (openAt B b s1 junk) a = some (st, a) ∧
      SInv B s1 (b - b % B) [] st ∧ st.ipos = b ∧ st.sys = s1 := by
  have hB := h.hB
  obtain ⟨g1, g2⟩ := endBlock_ge hB e
  have hcap : e ≤ s1.vec.bids.length * B := by have := h.cap; have := h.len; omega
  have hml := Nat.mod_le b B
  obtain ⟨st1, p1, p2, p3, p4⟩ := scan_inv (hi := endBlock B e) (fun (a : σ) _ => a) (raw B s1 (b - b % B) (b % B)) (openAt B b s1 junk) a
    (sinv_open hB h.nod b junk) (by simp only [openAt]; exact raw_has hB (by omega))
    (by intro q hq _; apply endBlock_lt hB; simp only [openAt, raw_length] at hq; omega)
  rw [raw_length] at p1 p3
  rw [foldl_const] at p1
  refine ⟨st1, p1, p2, ?_, p4⟩
  rw [p3]; simp [openAt]; omega

theorem forEach_inv {s : Sys α} {abs : List (Option α)} {b e : Nat} {xs : List α} (h : Inv B P s abs) (hb : b ≤ e) (he : e ≤ abs.length)
    (hr : Range abs b e xs) (f : σ → α → σ) (a : σ) (junk : Nat → α) :
    ∃ s', forEach B P s b e f a junk = some (s', xs.foldl f a) ∧ Inv B P s' abs ∧ Same s s' := by
  have hxl := hr.len he
  unfold forEach
  by_cases hbe : b = e
  · subst hbe
    have : xs = [] := List.length_eq_zero_iff.1 (by omega)
    subst this
    rw [if_pos rfl]
    exact ⟨s, rfl, h, Same.refl s⟩
  rw [if_neg hbe]
  have hB := h.hB
  obtain ⟨s1, f1, f2, f3, f4⟩ := flush_inv h
  rw [f1]
  dsimp only
  obtain ⟨st1, a1, a2, a3, a4⟩ := startR_inv f2 (by omega) he hr junk a
  rw [a1]
  dsimp only
  obtain ⟨g1, g2⟩ := endBlock_ge hB e
  have hcap : e ≤ s1.vec.bids.length * B := by have := f2.cap; have := f2.len; omega
  have helB := Nat.mul_le_mul_right B (endBlock_le hB hcap)
  obtain ⟨st2, b1, b2, b3, b4⟩ := scan_inv (hi := endBlock B e) f xs st1 a a2 (by rw [a3]; exact hr.has he f2 f4)
    (by intro q hq _; apply endBlock_lt hB; omega)
  rw [← hxl, b1]
  dsimp only
  by_cases hm : e % B ≠ 0
  · rw [if_pos hm] at g2 ⊢
    obtain ⟨st3, c1, c2, c3, c4⟩ := scan_inv (hi := endBlock B e) (fun (a : σ) _ => a) (raw B s1 e (B - e % B)) st2 (xs.foldl f a) b2
      (by rw [show st2.ipos = e by omega]; exact raw_has hB (by omega))
      (by intro q hq _; apply endBlock_lt hB; rw [raw_length] at hq; omega)
    rw [raw_length, foldl_const] at c1
    rw [c1]
    exact ⟨_, rfl, by rw [c4, b4, a4]; exact f2, by rw [c4, b4, a4]; exact f3⟩
  · rw [if_neg hm]
    exact ⟨_, rfl, by rw [b4, a4]; exact f2, by rw [b4, a4]; exact f3⟩

theorem findLoop_inv {s1 : Sys α} {p0 hi : Nat} {ws : List α} (p : α → Bool) : ∀ (xs : List α) (st : St α),
    SInv B s1 p0 ws st → Has B s1 st.ipos xs → (∀ q, q < st.ipos + xs.length → st.ipos ≤ q → q / B < hi) →
    findLoop B hi p xs.length st = some (xs.findIdx p) := by
  intro xs
  induction xs with
  | nil => intro st _ _ _; rfl
  | cons x xs ih =>
    intro st h hh hhi
    obtain ⟨hx, hxs⟩ := hh.tail
    obtain ⟨st1, g1, g2, g3⟩ := get_inv h (hi := hi) (hhi st.ipos (by simp) (Nat.le_refl _)) hx
    simp only [List.length_cons, findLoop, g1, List.findIdx_cons]
    cases hp : p x with
    | true => simp
    | false =>
      rw [ih st1 g2 (by rw [g3]; exact hxs) (by intro q hq1 hq2; refine hhi q ?_ ?_ <;> simp at * <;> omega)]
      simp

theorem find_inv {s : Sys α} {abs : List (Option α)} {b e : Nat} {xs : List α} (h : Inv B P s abs) (hb : b ≤ e) (he : e ≤ abs.length)
    (hr : Range abs b e xs) (p : α → Bool) (junk : Nat → α) :
    ∃ s', find B P s b e p junk = some (s', b + xs.findIdx p) ∧ Inv B P s' abs ∧ Same s s' := by
  have hxl := hr.len he
  unfold find
  by_cases hbe : b = e
  · subst hbe
    have : xs = [] := List.length_eq_zero_iff.1 (by omega)
    subst this
    rw [if_pos rfl]
    exact ⟨s, rfl, h, Same.refl s⟩
  rw [if_neg hbe]
  have hB := h.hB
  obtain ⟨s1, f1, f2, f3, f4⟩ := flush_inv h
  rw [f1]
  dsimp only
  obtain ⟨st1, a1, a2, a3, a4⟩ := startR_inv f2 (by omega) he hr junk ()
  rw [a1]
  dsimp only
  obtain ⟨g1, g2⟩ := endBlock_ge hB e
  rw [← hxl, findLoop_inv p xs st1 a2 (by rw [a3]; exact hr.has he f2 f4) (by intro q hq _; apply endBlock_lt hB; omega)]
  exact ⟨s1, rfl, f2, f3⟩

end Stxxl.Scan
