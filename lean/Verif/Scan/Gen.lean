import Verif.Scan.Algo

/-! # `generate` -/

namespace Stxxl.Scan

open Stxxl.ExtVector

variable {α σ : Type} {B P : Nat}

theorem genN_length (gen : σ → σ × α) (n : Nat) (a : σ) : (genN gen n a).2.length = n := by
  induction n generalizing a with
  | zero => rfl
  | succ n ih => simp [genN, ih]

theorem genN_add (gen : σ → σ × α) (n m : Nat) (a : σ) :
    genN gen (n + m) a = ((genN gen m (genN gen n a).1).1, (genN gen n a).2 ++ (genN gen m (genN gen n a).1).2) := by
  induction n generalizing a with
  | zero => simp [genN]
  | succ n ih => rw [Nat.add_right_comm]; simp [genN, ih]

/-- No page is dirty. -/
def Clean (s : Sys α) : Prop := ∀ p : Nat, s.vec.status[p]? ≠ some .dirty

theorem weaken_inv {s : Sys α} {abs abs' : List (Option α)} (h : Inv B P s abs) (hl : abs'.length = abs.length)
    (hs : ∀ (i : Nat) (v : α), abs'[i]? = some (some v) → abs[i]? = some (some v)) : Inv B P s abs' :=
  ⟨h.hB, h.hP, h.np, hl.trans h.len, h.cap, h.nod, h.lens, h.pages, h.map, h.freeLt, h.freeNd, h.slots, h.dirtyC,
    fun i v hi => h.content i v (hs i v hi)⟩

theorem diskFree_inv {s : Sys α} {abs : List (Option α)} (h : Inv B P s abs) {k b : Nat} (hb : s.vec.bids[k]? = some b) (c : Nat → α)
    (hn : ∀ i v, i / B = k → abs[i]? ≠ some (some v)) : Inv B P { s with disk := upd s.disk b c } abs := by
  refine ⟨h.hB, h.hP, h.np, h.len, h.cap, h.nod, h.lens, h.pages, h.map, h.freeLt, h.freeNd, h.slots, h.dirtyC, ?_⟩
  intro i v hi
  obtain ⟨st, c1, c2, c3, c4⟩ := h.content i v hi
  refine ⟨st, c1, c2, c3, fun hv b' hb' => ?_⟩
  rw [← c4 hv b' hb']
  show upd s.disk b c b' _ = _
  rw [upd_ne]
  rintro rfl
  exact hn i v (nodup_get_inj h.nod hb' hb) hi

theorem updated_inv {s : Sys α} {abs : List (Option α)} (h : Inv B P s abs) (hc : Clean s) {k b : Nat} (hb : s.vec.bids[k]? = some b) :
    ∃ s', pageExternallyUpdated s ((k * B) / (B * P)) = some s' ∧ Inv B P s' (absBlock B abs k (s.disk b)) ∧ Same s s' ∧ Clean s' ∧
      s'.disk = s.disk := by
  have hk : k < s.vec.bids.length := (List.getElem?_eq_some_iff.1 hb).1
  obtain ⟨s', h1, h2, h3⟩ := externalWrite_inv h (s.disk b) hk (hc _)
  have hu : upd s.disk b (s.disk b) = s.disk := by
    funext x; unfold upd; split
    · rename_i hx; rw [hx]
    · rfl
  simp only [externalWrite, hb, hu] at h1
  refine ⟨s', h1, h2, h3, ?_, ?_⟩
  · intro p hp
    unfold pageExternallyUpdated at h1
    split at h1
    · split at h1
      · cases h1
      · cases h1
        rename_i st m _ _ _
        cases m <;>
        · simp only [List.getElem?_set] at hp
          split at hp
          · split at hp <;> simp at hp
          · exact hc p hp
    · cases h1
  · unfold pageExternallyUpdated at h1
    split at h1
    · split at h1
      · cases h1
      · cases h1
        rename_i st m _ _ _
        cases m <;> rfl
    · cases h1

theorem writePage_clean {s s' : Sys α} {p t : Nat} (hc : Clean s) (h : writePage P s p t = some s') : s' = s := by
  unfold writePage at h
  split at h
  · cases h
  · rename_i st hst
    split at h
    · cases h; rfl
    · rename_i hd
      exact absurd (by rw [hst]; simpa using hd) (hc p)

theorem readPage_disk {s s' : Sys α} {p t : Nat} (h : readPage P s p t = some s') : s'.disk = s.disk ∧ s'.vec.status = s.vec.status := by
  unfold readPage at h
  split at h
  · cases h
  · split at h
    · cases h; exact ⟨rfl, rfl⟩
    · split at h
      · cases h
      · cases h; exact ⟨rfl, rfl⟩

theorem fetch_clean {s s' : Sys α} {p t v : Nat} (hc : Clean s) (h : fetch P s p v = some (s', t)) : Clean s' ∧ s'.disk = s.disk := by
  unfold fetch at h
  split at h
  · cases h
  · cases h; exact ⟨hc, rfl⟩
  · split at h
    · dsimp only at h
      split at h
      · split at h
        · cases h
        · rename_i s2 hw
          have := writePage_clean (by exact hc) hw
          subst this
          split at h
          · cases h
          · rename_i s3 hr
            cases h
            obtain ⟨r1, r2⟩ := readPage_disk hr
            exact ⟨fun q hq => hc q (by rw [r2] at hq; exact hq), r1⟩
      · cases h
    · dsimp only at h
      split at h
      · cases h
      · rename_i s3 hr
        cases h
        obtain ⟨r1, r2⟩ := readPage_disk hr
        exact ⟨fun q hq => hc q (by rw [r2] at hq; exact hq), r1⟩

theorem constElement_cap {s : Sys α} {abs} (h : Inv B P s abs) (hc : Clean s) {i victim : Nat} (hi : i / B < s.vec.bids.length)
    (hv : victim < s.vec.npages) :
    ∃ s' r, constElement B P s i victim = some (s', r) ∧ Inv B P s' abs ∧ Same s s' ∧ Clean s' ∧ s'.disk = s.disk ∧
      (∀ v, abs[i]? = some (some v) → r = v) := by
  have hpg : i / B / P * P < s.vec.bids.length := by
    have := Nat.div_mul_le_self (i / B) P; omega
  obtain ⟨s', slot, h1, h2, h3, h4⟩ := fetch_inv h hv hpg
  obtain ⟨k1, k2⟩ := fetch_clean hc h1
  refine ⟨s', s'.vec.cache (slot * P + blockOf B P i) (offOf B P i), by simp only [constElement, pageOf_eq, h1], h2, h3, k1, k2, fun v hv' => ?_⟩
  obtain ⟨st, _, _, c3, _⟩ := h2.content i v hv'
  rw [blockOf_eq h.hB, offOf_eq h.hB]
  exact c3 slot h4

theorem absBlock_ne {abs : List (Option α)} {k i : Nat} {c : Nat → α} (h : i / B ≠ k) : (absBlock B abs k c)[i]? = abs[i]? := by
  simp only [absBlock, List.getElem?_mapIdx, h, if_false]; simp

theorem absBlock_eq {abs : List (Option α)} {k i : Nat} {c : Nat → α} (h : i / B = k) (hl : i < abs.length) :
    (absBlock B abs k c)[i]? = some (some (c (i % B))) := by
  simp only [absBlock, List.getElem?_mapIdx, h, if_true, List.getElem?_eq_getElem hl, Option.map_some]

/-- `abs'` is `abs` with `ys` written from position `b` on. -/
structure Filled (abs abs' : List (Option α)) (b : Nat) (ys : List α) : Prop where
  len : abs'.length = abs.length
  ins : ∀ j, j < ys.length → b + j < abs.length → abs'[b + j]? = (ys[j]?).map some
  out : ∀ i, i < b ∨ b + ys.length ≤ i → abs'[i]? = abs[i]?

/-- State of the output stream: `ys` has been put, `ys[0..q)` has been reported to the vector. -/
structure GInv (B P : Nat) (abs : List (Option α)) (s0 : Sys α) (p0 : Nat) (ys : List α) (q : Nat) (st : St α) : Prop where
  al : p0 % B = 0
  qB : q % B = 0
  lo : q ≤ ys.length
  hi : ys.length ≤ q + B
  blk : st.ok = p0 / B + ys.length / B
  num : st.onum = ys.length % B
  part : ∀ j x, ys[j]? = some x → j / B = ys.length / B → st.ocur (j % B) = x
  inv : ∃ absc, Inv B P st.sys absc ∧ absc.length = abs.length ∧ (∀ j, j < q → p0 + j < abs.length → absc[p0 + j]? = (ys[j]?).map some) ∧
    (∀ i, i < p0 ∨ p0 + q + B ≤ i → absc[i]? = abs[i]?) ∧
    (ys.length < q + B → ∀ i, p0 + q ≤ i → absc[i]? = abs[i]?)
  full : ys.length = q + B → ∀ b, st.sys.vec.bids[(p0 + q) / B]? = some b → ∀ j x, q ≤ j → ys[j]? = some x → st.sys.disk b (j % B) = x
  cl : Clean st.sys
  same : Same s0 st.sys

theorem mod_add_al {p0 : Nat} (h : p0 % B = 0) (n : Nat) : (p0 + n) % B = n % B := by
  rw [Nat.add_mod, h, Nat.zero_add, Nat.mod_mod]

theorem div_add_al {p0 : Nat} (hB : 0 < B) (h : p0 % B = 0) (n : Nat) : (p0 + n) / B = p0 / B + n / B := by
  rw [blk_eq hB h rfl]

theorem greport_inv {abs : List (Option α)} {s0 : Sys α} {p0 q : Nat} {ys : List α} {st : St α} (h : GInv B P abs s0 p0 ys q st)
    (hB : 0 < B) (hf : ys.length = q + B) (hcap : p0 + ys.length ≤ s0.vec.bids.length * B) :
    ∃ s', pageExternallyUpdated st.sys ((p0 + q) / (B * P)) = some s' ∧ GInv B P abs s0 p0 ys (q + B) { st with sys := s' } := by
  obtain ⟨absc, i1, i2, i3, i4, i5⟩ := h.inv
  have hk : (p0 + q) / B < st.sys.vec.bids.length := by
    rw [h.same.bids, Nat.div_lt_iff_lt_mul hB]; omega
  have hb := List.getElem?_eq_getElem hk
  have hkB : (p0 + q) / B * B = p0 + q := by
    have := Nat.div_add_mod (p0 + q) B
    rw [mod_add_al h.al, h.qB] at this
    rw [Nat.mul_comm]; omega
  obtain ⟨s', u1, u2, u3, u4, u5⟩ := updated_inv i1 h.cl hb
  rw [hkB] at u1
  refine ⟨s', u1, ⟨h.al, by rw [Nat.add_mod_right]; exact h.qB, by omega, by omega, h.blk, h.num, h.part, ⟨_, u2, ?_, ?_, ?_, ?_⟩, ?_, u4,
    h.same.trans u3⟩⟩
  · simpa [absBlock] using i2
  · intro j hj hjl
    by_cases hjq : j < q
    · rw [absBlock_ne, i3 j hjq hjl]
      · intro hc
        have := Nat.mod_lt (p0 + j) hB
        have e := Nat.div_add_mod (p0 + j) B
        rw [hc, Nat.mul_comm, hkB] at e
        omega
    · have hx : (p0 + j) / B = (p0 + q) / B := by
        rw [div_add_al hB h.al, div_add_al hB h.al]
        congr 1
        have e := Nat.div_add_mod q B
        rw [h.qB, Nat.add_zero] at e
        apply Nat.div_eq_of_lt_le
        · rw [Nat.mul_comm]; omega
        · rw [Nat.add_mul, Nat.mul_comm]; omega
      rw [absBlock_eq hx (by omega)]
      obtain ⟨y, hy⟩ : ∃ y, ys[j]? = some y := ⟨_, List.getElem?_eq_getElem (by omega)⟩
      rw [hy, mod_add_al h.al, h.full hf _ hb j y (by omega) hy]
      rfl
  · intro i hi
    rw [absBlock_ne, i4 i (by omega)]
    · intro hc
      have := Nat.mod_lt i hB
      have e := Nat.div_add_mod i B
      rw [hc, Nat.mul_comm, hkB] at e
      omega
  · intro _ i hi
    rw [absBlock_ne, i4 i (by omega)]
    · intro hc
      have := Nat.mod_lt i hB
      have e := Nat.div_add_mod i B
      rw [hc, Nat.mul_comm, hkB] at e
      omega
  · intro hx; omega

/-- Forget block `k`. -/
def forget (B : Nat) (abs : List (Option α)) (k : Nat) : List (Option α) := abs.mapIdx (fun i a => if i / B = k then none else a)

theorem gput_inv {abs : List (Option α)} {s0 : Sys α} {p0 q : Nat} {ys : List α} {st : St α} (h : GInv B P abs s0 p0 ys q st)
    (hB : 0 < B) (hnf : ys.length < q + B) (hcap : p0 + ys.length < s0.vec.bids.length * B) (x : α) :
    ∃ st', put B st x = some st' ∧ GInv B P abs s0 p0 (ys ++ [x]) q st' := by
  obtain ⟨absc, i1, i2, i3, i4, i5⟩ := h.inv
  have eq := Nat.div_add_mod q B
  rw [h.qB, Nat.add_zero] at eq
  have hlo := h.lo
  have hyd : ys.length / B = q / B := by
    apply Nat.div_eq_of_lt_le
    · rw [Nat.mul_comm]; omega
    · rw [Nat.add_mul, Nat.mul_comm]; omega
  have hdm := Nat.div_add_mod ys.length B
  rw [hyd, eq] at hdm
  have hlt := Nat.mod_lt ys.length hB
  have hon := h.num
  have hkd : (p0 + q) / B = p0 / B + q / B := div_add_al hB h.al q
  have hk : p0 / B + q / B < st.sys.vec.bids.length := by
    rw [← hkd, h.same.bids, Nat.div_lt_iff_lt_mul hB]; omega
  have hkB : (p0 + q) / B * B = p0 + q := by
    have := Nat.div_add_mod (p0 + q) B
    rw [mod_add_al h.al, h.qB] at this
    rw [Nat.mul_comm]; omega
  have hb := List.getElem?_eq_getElem hk
  unfold put
  dsimp only
  -- contents of the buffer
  have hbuf : ∀ j y, (ys ++ [x])[j]? = some y → q ≤ j → upd st.ocur st.onum x (j % B) = y := by
    intro j y hy hj
    have hjl : j < (ys ++ [x]).length := (List.getElem?_eq_some_iff.1 hy).1
    rw [List.length_append, List.length_singleton] at hjl
    by_cases hjw : j = ys.length
    · subst hjw
      rw [List.getElem?_concat_length] at hy
      cases hy
      rw [hon, ExtVector.upd_same]
    · have hjd : j / B = q / B := by
        apply Nat.div_eq_of_lt_le
        · rw [Nat.mul_comm]; omega
        · rw [Nat.add_mul, Nat.mul_comm]; omega
      rw [List.getElem?_append_left (by omega)] at hy
      rw [ExtVector.upd_ne]
      · exact h.part j y hy (by omega)
      · rw [hon]
        intro hc
        apply hjw
        have e1 := Nat.div_add_mod j B
        rw [hjd, eq] at e1
        omega
  have hset : ∀ (ac : List (Option α)), (∀ j, j < q → p0 + j < abs.length → ac[p0 + j]? = (ys[j]?).map some) →
      ∀ j, j < q → p0 + j < abs.length → ac[p0 + j]? = ((ys ++ [x])[j]?).map some := by
    intro ac hac j hj hjl
    rw [hac j hj hjl, List.getElem?_append_left (by omega)]
  by_cases hfull : st.onum + 1 ≥ B
  · rw [if_pos hfull, h.blk, hyd, hb]
    dsimp only
    have hlen : (ys ++ [x]).length = q + B := by rw [List.length_append, List.length_singleton]; omega
    have hfi : Inv B P st.sys (forget B absc (p0 / B + q / B)) := by
      refine weaken_inv i1 (by simp [forget]) ?_
      intro i v hv
      simp only [forget, List.getElem?_mapIdx, Option.map_eq_some_iff] at hv
      obtain ⟨a, ha, hav⟩ := hv
      split at hav
      · cases hav
      · rw [ha, hav]
    have hfo : ∀ i, i / B ≠ p0 / B + q / B → (forget B absc (p0 / B + q / B))[i]? = absc[i]? := by
      intro i hi
      simp only [forget, List.getElem?_mapIdx, hi, if_false]; simp
    have hne : ∀ i, i < p0 + q ∨ p0 + q + B ≤ i → i / B ≠ p0 / B + q / B := by
      intro i hi hc
      rw [← hkd] at hc
      have := Nat.mod_lt i hB
      have e := Nat.div_add_mod i B
      rw [hc, Nat.mul_comm, hkB] at e
      omega
    refine ⟨_, rfl, ⟨h.al, h.qB, by omega, by omega, ?_, ?_, ?_, ⟨_, diskFree_inv hfi hb _ ?_, ?_, hset _ ?_, ?_, ?_⟩, ?_, h.cl,
      h.same.trans ⟨rfl, rfl, rfl, rfl, rfl, rfl, rfl, ?_⟩⟩⟩
    · rw [hlen, Nat.add_div_right _ hB]; show _ + 1 = _; omega
    · rw [hlen, Nat.add_mod_right, h.qB]
    · intro j y hy hj
      rw [hlen, Nat.add_div_right _ hB] at hj
      have hjl : j < (ys ++ [x]).length := (List.getElem?_eq_some_iff.1 hy).1
      rw [hlen] at hjl
      have e1 := Nat.div_add_mod j B
      rw [hj, Nat.mul_succ, eq] at e1
      omega
    · intro i v hi hc
      simp only [forget, List.getElem?_mapIdx, Option.map_eq_some_iff] at hc
      obtain ⟨a, ha, hav⟩ := hc
      rw [if_pos hi] at hav; cases hav
    · simpa [forget] using i2
    · intro j hj hjl
      rw [hfo _ (hne _ (by omega))]
      exact i3 j hj hjl
    · intro i hi
      rw [hfo _ (hne _ (by omega))]
      exact i4 i hi
    · intro hx; omega
    · intro _ b' hb' j y hj hy
      rw [hkd] at hb'
      have hb' : st.sys.vec.bids[p0 / B + q / B]? = some b' := hb'
      rw [hb] at hb'
      cases hb'
      show upd st.sys.disk _ _ _ _ = _
      rw [upd_same]
      exact hbuf j y hy hj
    · intro b' hb'
      refine upd_ne _ _ ?_
      rintro rfl
      exact hb' (List.getElem_mem hk)
  · rw [if_neg hfull]
    have hlen : (ys ++ [x]).length = ys.length + 1 := by rw [List.length_append, List.length_singleton]
    have hd : (ys.length + 1) / B = q / B := by
      apply Nat.div_eq_of_lt_le
      · rw [Nat.mul_comm]; omega
      · rw [Nat.add_mul, Nat.mul_comm]; omega
    have hr : (ys.length + 1) % B = ys.length % B + 1 := by
      have := Nat.div_add_mod (ys.length + 1) B
      rw [hd, eq] at this
      omega
    refine ⟨_, rfl, ⟨h.al, h.qB, by omega, by omega, ?_, ?_, ?_, ⟨_, i1, i2, hset _ i3, i4, ?_⟩, ?_, h.cl, h.same⟩⟩
    · rw [hlen, hd, ← hyd]; exact h.blk
    · rw [hlen, hr]; show st.onum + 1 = _; omega
    · intro j y hy hj
      refine hbuf j y hy ?_
      rw [hlen, hd] at hj
      have e1 := Nat.div_add_mod j B
      rw [hj, eq] at e1
      omega
    · intro _ i hi; exact i5 hnf i hi
    · intro hx; rw [hlen] at hx; omega

theorem genLoop_inv {abs : List (Option α)} {s0 : Sys α} {p0 : Nat} (gen : σ → σ × α) (hB : 0 < B) : ∀ (n : Nat) (ys : List α) (q : Nat) (st : St α)
    (a : σ), GInv B P abs s0 p0 ys q st → p0 + ys.length + n ≤ s0.vec.bids.length * B →
    ∃ st' q', genLoop B P gen n st a (p0 + ys.length) (p0 + q) = some (st', (genN gen n a).1, p0 + q') ∧
      GInv B P abs s0 p0 (ys ++ (genN gen n a).2) q' st' := by
  intro n
  induction n with
  | zero => intro ys q st a h _; exact ⟨st, q, rfl, by simpa [genN] using h⟩
  | succ n ih =>
    intro ys q st a h hcap
    have hcond : ((p0 + ys.length) % B = 0 ∧ p0 + q ≠ p0 + ys.length) ↔ ys.length = q + B := by
      rw [mod_add_al h.al]
      have h1 := h.lo
      have h2 := h.hi
      constructor
      · rintro ⟨hm, hne⟩
        have e := Nat.div_add_mod (ys.length - q) B
        have hm2 : (ys.length - q) % B = 0 := by
          have : ys.length = q + (ys.length - q) := by omega
          rw [this, mod_add_al h.qB] at hm
          exact hm
        rw [hm2, Nat.add_zero] at e
        have : (ys.length - q) / B ≠ 0 := by intro hc; rw [hc, Nat.mul_zero] at e; omega
        have := Nat.mul_le_mul_left B (Nat.pos_of_ne_zero this)
        omega
      · intro he
        rw [he, Nat.add_mod_right]
        exact ⟨h.qB, by omega⟩
    unfold genLoop
    by_cases hc : ys.length = q + B
    · rw [if_pos (hcond.2 hc)]
      obtain ⟨s', u1, u2⟩ := greport_inv h hB hc (by omega)
      rw [u1]
      dsimp only
      obtain ⟨st', p1, p2⟩ := gput_inv u2 hB (by omega) (by omega) (gen a).2
      rw [p1]
      dsimp only
      obtain ⟨st2, q', r1, r2⟩ := ih (ys ++ [(gen a).2]) (q + B) st' (gen a).1 p2 (by simp; omega)
      refine ⟨st2, q', ?_, by simpa [genN] using r2⟩
      rw [show p0 + (ys ++ [(gen a).2]).length = p0 + ys.length + 1 by simp; omega, ← hc] at r1
      exact r1
    · rw [if_neg (fun hx => hc (hcond.1 hx))]
      obtain ⟨st', p1, p2⟩ := gput_inv h hB (by have := h.hi; omega) (by omega) (gen a).2
      rw [p1]
      dsimp only
      obtain ⟨st2, q', r1, r2⟩ := ih (ys ++ [(gen a).2]) q st' (gen a).1 p2 (by simp; omega)
      refine ⟨st2, q', ?_, by simpa [genN] using r2⟩
      rw [show p0 + (ys ++ [(gen a).2]).length = p0 + ys.length + 1 by simp; omega] at r1
      exact r1

theorem ginv_reads {abs : List (Option α)} {s0 s' : Sys α} {p0 q : Nat} {ys : List α} {st : St α} (h : GInv B P abs s0 p0 ys q st)
    (hi : ∀ ac, Inv B P st.sys ac → Inv B P s' ac) (hs : Same st.sys s') (hc : Clean s') (hd : s'.disk = st.sys.disk) :
    GInv B P abs s0 p0 ys q { st with sys := s' } := by
  obtain ⟨absc, i1, i2⟩ := h.inv
  refine ⟨h.al, h.qB, h.lo, h.hi, h.blk, h.num, h.part, ⟨absc, hi _ i1, i2⟩, ?_, hc, h.same.trans hs⟩
  intro hf b hb j x hj hx
  show s'.disk b _ = _
  rw [hd]
  exact h.full hf b (by rw [← hs.bids]; exact hb) j x hj hx

theorem genTail_inv {abs : List (Option α)} {s0 : Sys α} {p0 q : Nat} (vic : Nat → Nat) (hv : ∀ i, vic i < s0.vec.npages) (hB : 0 < B) :
    ∀ (k : Nat) (ys : List α) (st : St α), GInv B P abs s0 p0 ys q st →
      (ys.length % B = 0 ∨ ys.length < q + B ∧ B - ys.length % B < k) → p0 + q + B ≤ s0.vec.bids.length * B ∨ ys.length % B = 0 →
      ∃ st' rs, genTail B P vic k st (p0 + ys.length) = some (st', p0 + ys.length + rs.length) ∧ GInv B P abs s0 p0 (ys ++ rs) q st' ∧
        (ys.length + rs.length) % B = 0 ∧ (∀ j v, j < rs.length → abs[p0 + ys.length + j]? = some (some v) → rs[j]? = some v) := by
  intro k
  induction k with
  | zero =>
    intro ys st h hm _
    refine ⟨st, [], rfl, by simpa using h, by simpa using hm, by simp⟩
  | succ k ih =>
    intro ys st h hm hcap
    unfold genTail
    rw [mod_add_al h.al]
    by_cases h0 : ys.length % B = 0
    · rw [if_pos h0]
      exact ⟨st, [], rfl, by simpa using h, by simpa using h0, by simp⟩
    · rw [if_neg h0]
      obtain ⟨hlt, hk⟩ := hm.resolve_left h0
      have hcap := hcap.resolve_right h0
      obtain ⟨absc, i1, i2, i3, i4, i5⟩ := h.inv
      obtain ⟨s', r, c1, c2, c3, c4, c5, c6⟩ := constElement_cap i1 h.cl (i := p0 + ys.length) (victim := vic (p0 + ys.length))
        (by rw [h.same.bids, Nat.div_lt_iff_lt_mul hB]; omega) (by rw [h.same.npages]; exact hv _)
      rw [c1]
      dsimp only
      have hg : GInv B P abs s0 p0 ys q { st with sys := s' } := by
        refine ⟨h.al, h.qB, h.lo, h.hi, h.blk, h.num, h.part, ⟨absc, c2, i2, i3, i4, i5⟩, ?_, c4, h.same.trans c3⟩
        intro hf; omega
      obtain ⟨st2, p1, p2⟩ := gput_inv hg hB hlt (by omega) r
      rw [p1]
      dsimp only
      have hl1 : (ys ++ [r]).length = ys.length + 1 := by simp
      have hlo := h.lo
      have eq := Nat.div_add_mod q B
      rw [h.qB, Nat.add_zero] at eq
      have hyd : ys.length / B = q / B := by
        apply Nat.div_eq_of_lt_le
        · rw [Nat.mul_comm]; omega
        · rw [Nat.add_mul, Nat.mul_comm]; omega
      have hdm := Nat.div_add_mod ys.length B
      rw [hyd, eq] at hdm
      have hcase : (ys.length + 1) % B = 0 ∨ ys.length + 1 < q + B ∧ B - (ys.length + 1) % B < k := by
        by_cases hx : ys.length + 1 = q + B
        · left; rw [hx, Nat.add_mod_right]; exact h.qB
        · right
          have : (ys.length + 1) % B = ys.length % B + 1 := by
            have hd : (ys.length + 1) / B = q / B := by
              apply Nat.div_eq_of_lt_le
              · rw [Nat.mul_comm]; omega
              · rw [Nat.add_mul, Nat.mul_comm]; omega
            have := Nat.div_add_mod (ys.length + 1) B
            rw [hd, eq] at this
            omega
          omega
      obtain ⟨st3, rs, r1, r2, r3, r4⟩ := ih (ys ++ [r]) st2 p2 (by rw [hl1]; exact hcase) (Or.inl hcap)
      rw [hl1] at r1 r3 r4
      refine ⟨st3, r :: rs, ?_, by simpa using r2, ?_, ?_⟩
      · rw [show p0 + ys.length + 1 = p0 + (ys.length + 1) by omega, r1]
        congr 2; simp; omega
      · rw [List.length_cons, ← r3]; congr 1; omega
      · intro j v hj hjv
        cases j with
        | zero =>
          have := i5 hlt (p0 + ys.length) (by omega)
          rw [Nat.add_zero] at hjv
          rw [hjv] at this
          rw [c6 v this]; rfl
        | succ j =>
          simp only [List.getElem?_cons_succ]
          refine r4 j v (by simpa using hj) ?_
          rw [← hjv]; congr 1; omega

theorem genHead_inv {abs : List (Option α)} {e : Nat} (gen : σ → σ × α) (vic : Nat → Nat) (hB : 0 < B) : ∀ (k : Nat) (s : Sys α) (a : σ) (b : Nat)
    (abs : List (Option α)), Inv B P s abs → e ≤ abs.length → (∀ i, vic i < s.vec.npages) → b ≤ e → (b % B = 0 ∨ B - b % B < k) →
    ∃ s' n fin abs', genHead B P gen vic e k s a b = some (s', (genN gen n a).1, b + n, fin) ∧ b + n ≤ e ∧ (fin = true → b + n = e) ∧
      (fin = false → (b + n) % B = 0) ∧ Inv B P s' abs' ∧ Filled abs abs' b (genN gen n a).2 ∧ Same s s' := by
  intro k
  induction k with
  | zero =>
    intro s a b abs h _ _ hbe hm
    exact ⟨s, 0, false, abs, rfl, hbe, by simp, by intro _; simpa using hm, h, ⟨rfl, by simp [genN], by simp⟩, Same.refl s⟩
  | succ k ih =>
    intro s a b abs h he hv hbe hm
    unfold genHead
    by_cases h0 : b % B = 0
    · rw [if_pos h0]
      exact ⟨s, 0, false, abs, rfl, hbe, by simp, by intro _; simpa using h0, h, ⟨rfl, by simp [genN], by simp⟩, Same.refl s⟩
    · rw [if_neg h0]
      by_cases h1 : b = e
      · rw [if_pos h1]
        exact ⟨s, 0, true, abs, rfl, hbe, by intro _; exact h1, by simp, h, ⟨rfl, by simp [genN], by simp⟩, Same.refl s⟩
      · rw [if_neg h1]
        obtain ⟨s1, w1, w2, w3⟩ := elementWrite_inv h (gen a).2 (i := b) (victim := vic b) (by rw [← h.len]; omega) (hv b)
        rw [w1]
        dsimp only
        have hml := Nat.mod_lt b hB
        have hcase : (b + 1) % B = 0 ∨ B - (b + 1) % B < k := by
          by_cases hx : b % B + 1 = B
          · left; rw [Nat.add_mod, ← Nat.add_mod]
            have := Nat.div_add_mod b B
            rw [show b + 1 = B * (b / B + 1) by rw [Nat.mul_add]; omega, Nat.mul_mod_right]
          · right
            have : (b + 1) % B = b % B + 1 := by
              have := Nat.div_add_mod b B
              rw [show b + 1 = B * (b / B) + (b % B + 1) by omega, Nat.mul_add_mod, Nat.mod_eq_of_lt (by omega)]
            omega
        obtain ⟨s2, n, fin, abs', r1, r2, r3, r4, r5, r6, r7⟩ := ih s1 (gen a).1 (b + 1) (abs.set b (some (gen a).2)) w2 (by simpa using he)
          (by intro i; rw [w3.npages]; exact hv i) (by omega) hcase
        refine ⟨s2, n + 1, fin, abs', ?_, by omega, by intro hf; have := r3 hf; omega, ?_, r5, ?_, w3.trans r7⟩
        · rw [r1]; simp only [genN]; congr 4; omega
        · intro hf; have := r4 hf; rwa [show b + 1 + n = b + (n + 1) by omega] at this
        · refine ⟨by rw [r6.len]; simp, ?_, ?_⟩
          · intro j hj hjl
            simp only [genN] at hj ⊢
            cases j with
            | zero =>
              rw [r6.out _ (by omega), Nat.add_zero, List.getElem?_set_self (by omega)]; rfl
            | succ j =>
              have := r6.ins j (by simpa using hj) (by simp; omega)
              rw [show b + (j + 1) = b + 1 + j by omega, this]; simp
          · intro i hi
            simp only [genN, List.length_cons] at hi
            rw [r6.out i (by omega), List.getElem?_set_ne (by omega)]

theorem Filled.trans {abs abs1 abs2 : List (Option α)} {b : Nat} {ys zs : List α} (h1 : Filled abs abs1 b ys)
    (h2 : Filled abs1 abs2 (b + ys.length) zs) : Filled abs abs2 b (ys ++ zs) := by
  refine ⟨h2.len.trans h1.len, ?_, ?_⟩
  · intro j hj hjl
    rw [List.length_append] at hj
    by_cases hc : j < ys.length
    · rw [h2.out _ (by omega), h1.ins j hc hjl, List.getElem?_append_left hc]
    · have := h2.ins (j - ys.length) (by omega) (by rw [h1.len]; omega)
      rw [show b + ys.length + (j - ys.length) = b + j by omega] at this
      rw [this, List.getElem?_append_right (by omega)]
  · intro i hi
    rw [List.length_append] at hi
    rw [h2.out i (by omega), h1.out i (by omega)]

theorem Filled.splice {abs abs' : List (Option α)} {b e : Nat} {ys : List α} (h : Filled abs abs' b ys) (hb : b ≤ e) (he : e ≤ abs.length)
    (hl : ys.length = e - b) : abs' = abs.take b ++ ys.map some ++ abs.drop e := by
  apply List.ext_getElem?
  intro i
  rw [splice_get ys hb he hl]
  split
  · rw [h.out i (by omega)]
  · have := h.ins (i - b) (by omega) (by omega)
    rwa [show b + (i - b) = i by omega] at this

theorem generate_inv {s : Sys α} {abs : List (Option α)} {b e : Nat} (h : Inv B P s abs) (hb : b ≤ e) (he : e ≤ abs.length)
    (gen : σ → σ × α) (a : σ) (vic : Nat → Nat) (hv : ∀ i, vic i < s.vec.npages) (junk : Nat → α) :
    ∃ s', generate B P s b e gen a vic junk = some (s', (genN gen (e - b) a).1) ∧
      Inv B P s' (abs.take b ++ (genN gen (e - b) a).2.map some ++ abs.drop e) ∧ Same s s' := by
  have hB := h.hB
  unfold generate
  obtain ⟨s1, n, fin, abs1, h1, h2, h3, h4, h5, h6, h7⟩ := genHead_inv (abs := abs) gen vic hB B s a b abs h he hv hb
    (by by_cases hx : b % B = 0
        · exact Or.inl hx
        · right; have := Nat.mod_lt b hB; omega)
  rw [h1]
  cases fin with
  | true =>
    have hn := h3 rfl
    obtain rfl : n = e - b := by omega
    refine ⟨s1, rfl, ?_, h7⟩
    rw [← h6.splice hb he (genN_length ..)]
    exact h5
  | false =>
    have hal := h4 rfl
    obtain ⟨s2, f1, f2, f3, f4⟩ := flush_inv h5
    dsimp only
    rw [f1]
    dsimp only
    have hsize : e ≤ s2.vec.bids.length * B := by
      have := f2.cap; have := f2.len; have := h6.len; omega
    have hcl : Clean s2 := Flushed.status f2 f4
    have hg0 : GInv B P abs1 s2 (b + n) [] 0 (openAt B (b + n) s2 junk) := by
      refine ⟨hal, Nat.zero_mod _, Nat.le_refl _, by simp, by simp [openAt], by simp [openAt], by simp,
        ⟨abs1, f2, rfl, by simp, fun _ _ => rfl, fun _ _ _ => rfl⟩, ?_, hcl, Same.refl s2⟩
      intro hx; simp at hx; omega
    obtain ⟨st1, q, g1, g2⟩ := genLoop_inv gen hB (e - (b + n)) [] 0 _ (genN gen n a).1 hg0 (by simp; omega)
    simp only [List.length_nil, Nat.add_zero, List.nil_append] at g1 g2
    rw [g1]
    dsimp only
    have hll : (genN gen (e - (b + n)) (genN gen n a).1).2.length = e - (b + n) := genN_length ..
    have hq := g2.qB
    have hqlo := g2.lo
    have hqhi := g2.hi
    rw [hll] at hqlo hqhi
    have hnl : (e - (b + n)) % B ≠ 0 → e - (b + n) < q + B := by
      intro hx
      refine Nat.lt_of_le_of_ne hqhi ?_
      intro hc
      apply hx; rw [hc, Nat.add_mod_right]; exact hq
    obtain ⟨st2, rs, t1, t2, t3, t4⟩ := genTail_inv (q := q) vic (by intro i; rw [f3.npages, h7.npages]; exact hv i) hB B _ st1 g2
      (by
        rw [hll]
        by_cases hx : (e - (b + n)) % B = 0
        · exact Or.inl hx
        · right; refine ⟨hnl hx, ?_⟩; omega)
      (by
        rw [hll]
        by_cases hx : (e - (b + n)) % B = 0
        · exact Or.inr hx
        · left
          have hlt := hnl hx
          have hne : q ≠ e - (b + n) := by rintro rfl; exact hx hq
          have hm : (b + n + q) % B = 0 := by rw [mod_add_al hal]; exact hq
          have e1 := Nat.div_add_mod (b + n + q) B
          rw [hm, Nat.add_zero, Nat.mul_comm] at e1
          have : (b + n + q) / B < s2.vec.bids.length := by
            apply Nat.lt_of_mul_lt_mul_right (a := B); omega
          have := Nat.mul_le_mul_right B this
          rw [Nat.succ_mul] at this
          omega)
    rw [hll] at t1 t3 t4
    rw [show b + n + (e - (b + n)) = e by omega] at t1 t4
    rw [t1]
    dsimp only
    have hlen2 : ((genN gen (e - (b + n)) (genN gen n a).1).2 ++ rs).length = e - (b + n) + rs.length := by
      rw [List.length_append, hll]
    have l1 := t2.lo
    have l2 := t2.hi
    rw [hlen2] at l1 l2
    -- everything is reported
    have hrep : ∃ s3, (if b + n + q ≠ e + rs.length then pageExternallyUpdated st2.sys ((b + n + q) / (B * P)) else some st2.sys) = some s3 ∧
        GInv B P abs1 s2 (b + n) ((genN gen (e - (b + n)) (genN gen n a).1).2 ++ rs) (e - (b + n) + rs.length) { st2 with sys := s3 } := by
      by_cases hc : b + n + q ≠ e + rs.length
      · rw [if_pos hc]
        have hfull : e - (b + n) + rs.length = q + B := by
          have e1 := Nat.div_add_mod (e - (b + n) + rs.length - q) B
          have hm2 : (e - (b + n) + rs.length - q) % B = 0 := by
            have : e - (b + n) + rs.length = q + (e - (b + n) + rs.length - q) := by omega
            rw [this, mod_add_al hq] at t3
            exact t3
          rw [hm2, Nat.add_zero] at e1
          have : (e - (b + n) + rs.length - q) / B ≠ 0 := by intro hx; rw [hx, Nat.mul_zero] at e1; omega
          have := Nat.mul_le_mul_left B (Nat.pos_of_ne_zero this)
          omega
        obtain ⟨s3, u1, u2⟩ := greport_inv t2 hB (by rw [hlen2]; exact hfull) (by
          rw [hlen2]
          -- the last block is in the vector
          have hm : (b + n + (e - (b + n) + rs.length)) % B = 0 := by rw [mod_add_al hal]; exact t3
          have hqm : (b + n + q) % B = 0 := by rw [mod_add_al hal]; exact hq
          by_cases hz : rs.length = 0
          · omega
          · have e1 := Nat.div_add_mod (b + n + q) B
            rw [hqm, Nat.add_zero, Nat.mul_comm] at e1
            have hne : b + n + q < e := by
              by_contra hc2
              have hqe : q = e - (b + n) := by omega
              -- then the tail was empty
              have : genTail B P vic B st1 e = some (st1, e) := by
                obtain ⟨B', rfl⟩ : ∃ B', B = B' + 1 := ⟨B - 1, by omega⟩
                unfold genTail
                rw [if_pos]
                have := mod_add_al hal q
                rw [show b + n + q = e by omega, hq] at this
                exact this
              rw [t1] at this
              simp at this
              exact hz (by rw [this.2]; rfl)
            have : (b + n + q) / B < s2.vec.bids.length := by
              apply Nat.lt_of_mul_lt_mul_right (a := B); omega
            have := Nat.mul_le_mul_right B this
            rw [Nat.succ_mul] at this
            omega)
        exact ⟨s3, u1, by rw [hfull]; exact u2⟩
      · rw [if_neg hc]
        refine ⟨st2.sys, rfl, ?_⟩
        rw [show e - (b + n) + rs.length = q by omega]
        exact t2
    obtain ⟨s3, v1, v2⟩ := hrep
    rw [v1]
    dsimp only
    obtain ⟨absc, i1, i2, i3, i4, i5⟩ := v2.inv
    obtain ⟨s4, k1, k2, k3, _⟩ := flush_inv i1
    dsimp only at k1
    rw [k1]
    dsimp only
    have hon : st2.onum = 0 := by rw [t2.num, hlen2]; exact t3
    rw [if_pos hon]
    have hgn : genN gen (e - b) a = ((genN gen (e - (b + n)) (genN gen n a).1).1, (genN gen n a).2 ++ (genN gen (e - (b + n)) (genN gen n a).1).2) := by
      rw [show e - b = n + (e - (b + n)) by omega, genN_add]
    rw [hgn]
    refine ⟨s4, rfl, ?_, (h7.trans f3).trans (v2.same.trans k3)⟩
    have hl1 := h6.len
    refine weaken_inv k2 (by rw [splice_len _ hb he (by rw [List.length_append, genN_length, genN_length]; omega), i2, hl1]) ?_
    intro i v hiv
    rw [splice_get _ hb he (by rw [List.length_append, genN_length, genN_length]; omega)] at hiv
    have hnl2 : (genN gen n a).2.length = n := genN_length ..
    have hil : i < abs.length := by
      by_contra hx
      rw [if_pos (by omega), List.getElem?_eq_none (by omega)] at hiv
      cases hiv
    by_cases c1 : i < b + n
    · rw [i4 i (Or.inl c1)]
      by_cases c2 : i < b
      · rw [if_pos (by omega)] at hiv
        rw [h6.out i (by omega)]; exact hiv
      · rw [if_neg (by omega), List.getElem?_append_left (by omega)] at hiv
        have := h6.ins (i - b) (by omega) (by omega)
        rw [show b + (i - b) = i by omega] at this
        rw [this]; exact hiv
    · by_cases c2 : i < e
      · rw [if_neg (by omega), List.getElem?_append_right (by omega), hnl2] at hiv
        have := i3 (i - (b + n)) (by omega) (by omega)
        rw [show b + n + (i - (b + n)) = i by omega, List.getElem?_append_left (by omega)] at this
        rw [this, show i - (b + n) = i - b - n by omega]; exact hiv
      · rw [if_pos (by omega)] at hiv
        have ho := h6.out i (by omega)
        rw [hiv] at ho
        by_cases c3 : i < e + rs.length
        · have := i3 (i - (b + n)) (by omega) (by omega)
          rw [show b + n + (i - (b + n)) = i by omega, List.getElem?_append_right (by omega), hll] at this
          rw [this, t4 (i - (b + n) - (e - (b + n))) v (by omega) (by rw [← ho]; congr 1; omega)]
          rfl
        · rw [i5 (by rw [hlen2]; omega) i (by omega)]
          exact ho

end Stxxl.Scan
