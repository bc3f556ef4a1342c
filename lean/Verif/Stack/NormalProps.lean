import Verif.Stack.Normal

/-!
# C11: proofs for `normal_stack`
-/

namespace Stxxl.Stack
open Stxxl.ExtVector (upd writeBlocks readBlocks writeBlocks_get writeBlocks_other readBlocks_get nodup_get_inj upd_ne)

/-! ## Arithmetic -/

theorem pos_div {B : Nat} (hB : 0 < B) (q P o : Nat) : (q * (P * B) + o) / B = q * P + o / B := by
  rw [← Nat.mul_assoc, Nat.add_comm, Nat.add_mul_div_right _ _ hB, Nat.add_comm]

theorem pos_mod (B q P o : Nat) : (q * (P * B) + o) % B = o % B := by
  rw [← Nat.mul_assoc, Nat.mul_add_mod_self_right]

theorem divmod_inj {B a b : Nat} (h1 : a / B = b / B) (h2 : a % B = b % B) : a = b := by
  have e1 := Nat.div_add_mod a B
  have e2 := Nat.div_add_mod b B
  rw [h1, h2] at e1; omega

theorem div_lt_page {B P o : Nat} (hB : 0 < B) (h : o < P * B) : o / B < P := by
  rw [Nat.div_lt_iff_lt_mul hB]; exact h

theorem last_div {B P : Nat} (hB : 0 < B) (hP : 0 < P) : (P * B - 1) / B = P - 1 ∧ (P * B - 1) % B = B - 1 := by
  obtain ⟨p, rfl⟩ : ∃ p, P = p + 1 := ⟨P - 1, by omega⟩
  have e : (p + 1) * B - 1 = (B - 1) + p * B := by rw [Nat.add_mul]; omega
  rw [e]
  constructor
  · rw [Nat.add_mul_div_right _ _ hB, Nat.div_eq_of_lt (by omega)]; simp
  · rw [Nat.add_mul_mod_self_right, Nat.mod_eq_of_lt (by omega)]

namespace Normal
variable {α : Type} {B P : Nat}

theorem element_lo {s : Normal α} {o : Nat} (h : o < P * B) : element B P s o = (!s.front, o / B, o % B) := by
  simp [element, h]

theorem element_hi {s : Normal α} {o : Nat} (h : ¬ o < P * B) :
    element B P s o = (s.front, (o - P * B) / B, (o - P * B) % B) := by
  simp [element, h]

theorem element_inj {s : Normal α} {o o' : Nat} (h : element B P s o = element B P s o') : o = o' := by
  by_cases h1 : o < P * B <;> by_cases h2 : o' < P * B
  · rw [element_lo h1, element_lo h2] at h
    simp only [Prod.mk.injEq, true_and] at h
    exact divmod_inj h.1 h.2
  · rw [element_lo h1, element_hi h2] at h; simp at h
  · rw [element_hi h1, element_lo h2] at h; simp at h
  · rw [element_hi h1, element_hi h2] at h
    simp only [Prod.mk.injEq, true_and] at h
    have := divmod_inj h.1 h.2; omega

theorem poke_same (mem : Bool → Nat → Nat → α) (c : Bool × Nat × Nat) (v : α) : poke mem c v c.1 c.2.1 c.2.2 = v := by
  simp [poke]

theorem poke_ne (mem : Bool → Nat → Nat → α) {c d : Bool × Nat × Nat} (v : α) (h : d ≠ c) :
    poke mem c v d.1 d.2.1 d.2.2 = mem d.1 d.2.1 d.2.2 := by
  unfold poke
  rw [if_neg]
  rintro ⟨a, b, e⟩
  exact h (by ext <;> simp_all)

structure Inv (B P : Nat) (s : Normal α) (l : List α) (q : Nat) : Prop where
  blen : s.bids.length = q * P
  nod : s.bids.Nodup
  size : s.size = l.length
  len : l.length = q * (P * B) + s.off
  off : s.off ≤ 2 * (P * B)
  ne : 0 < q → 0 < s.off
  cur : 0 < s.off → s.cur = some (element B P s (s.off - 1))
  dsk : ∀ (j : Nat) v, j < q * (P * B) → l[j]? = some v → ∃ b, s.bids[j / B]? = some b ∧ s.disk b (j % B) = v
  mem : ∀ (o : Nat) v, o < s.off → l[q * (P * B) + o]? = some v →
    s.mem (element B P s o).1 (element B P s o).2.1 (element B P s o).2.2 = v

theorem inv_new (mem : Bool → Nat → Nat → α) (disk : Nat → Nat → α) : Inv B P (new mem disk) [] 0 := by
  refine ⟨?_, ?_, ?_, ?_, ?_, ?_, ?_, ?_, ?_⟩ <;> simp [new]

theorem push_inv (hB : 0 < B) (hP : 0 < P) {s : Normal α} {l q} (h : Inv B P s l q) (v : α) {fresh : List Nat}
    (f1 : fresh.length = P) (f2 : fresh.Nodup) (f3 : ∀ b ∈ fresh, b ∉ s.bids) :
    ∃ s' q', push B P s v fresh = some s' ∧ Inv B P s' (l ++ [v]) q' := by
  have hN : 0 < P * B := Nat.mul_pos hP hB
  have e2 : 2 * P * B = 2 * (P * B) := Nat.mul_assoc 2 P B
  unfold push
  rw [e2, if_neg (by have := h.off; omega)]
  by_cases hfull : s.off = 2 * (P * B)
  · rw [if_pos hfull]
    refine ⟨_, q + 1, rfl, ?_⟩
    have hlen : l.length = (q + 1) * (P * B) + P * B := by rw [h.len, hfull, Nat.add_mul]; omega
    refine ⟨?_, ?_, ?_, ?_, ?_, ?_, ?_, ?_, ?_⟩
    · simp [h.blen, f1, Nat.add_mul]
    · rw [List.nodup_append]
      exact ⟨h.nod, f2, fun a ha b hb hab => f3 b hb (hab ▸ ha)⟩
    · simp [h.size]
    · simp only [List.length_append, List.length_cons, List.length_nil]; omega
    · simp only; omega
    · simp
    · intro _
      simp only [Nat.add_sub_cancel]
      rw [element_hi (by omega)]; simp
    · intro j w hj hw
      have hj' : j < l.length := by omega
      rw [List.getElem?_append_left hj'] at hw
      have e3 : (q + 1) * (P * B) = q * (P * B) + P * B := by rw [Nat.add_mul]; omega
      by_cases hjq : j < q * (P * B)
      · obtain ⟨b, hb, hd⟩ := h.dsk j w hjq hw
        refine ⟨b, ?_, ?_⟩
        · simp only [List.getElem?_append_left (List.getElem?_eq_some_iff.1 hb).1, hb]
        · show writeBlocks _ fresh 0 s.disk b _ = w
          rw [writeBlocks_other]; · exact hd
          intro hm; exact f3 b hm (List.mem_of_getElem? hb)
      · obtain ⟨o, rfl, ho⟩ : ∃ o, j = q * (P * B) + o ∧ o < P * B := ⟨j - q * (P * B), by omega, by omega⟩
        have hk : o / B < fresh.length := by rw [f1]; exact div_lt_page hB ho
        rw [pos_div hB, pos_mod]
        refine ⟨fresh[o / B], ?_, ?_⟩
        · simp only
          rw [List.getElem?_append_right (by rw [h.blen]; exact Nat.le_add_right _ _), h.blen]
          simp [hk]
        · show writeBlocks _ fresh 0 s.disk _ _ = w
          rw [writeBlocks_get _ _ f2 0 _ (o / B) _ (List.getElem?_eq_getElem hk), Nat.zero_add]
          have := h.mem o w (by omega) hw
          rw [element_lo ho] at this; exact this
    · intro o w ho hw
      simp only at ho
      have e3 : (q + 1) * (P * B) = q * (P * B) + P * B := by rw [Nat.add_mul]; omega
      by_cases hlast : o < P * B
      · rw [List.getElem?_append_left (by omega)] at hw
        have := h.mem (P * B + o) w (by omega) (by rw [← hw]; congr 1; omega)
        rw [element_hi (by omega), show P * B + o - P * B = o by omega] at this
        rw [element_lo hlast]
        simp only [Bool.not_not] at this ⊢
        rw [← this]
        unfold poke
        rw [if_neg]; simp
      · have ho' : o = P * B := by omega
        subst ho'
        rw [List.getElem?_append_right (by omega)] at hw
        rw [show (q + 1) * (P * B) + P * B - l.length = 0 by omega] at hw
        simp at hw; subst hw
        rw [element_hi (by omega), Nat.sub_self]
        simp [poke]
  · rw [if_neg hfull]
    refine ⟨_, q, rfl, ?_⟩
    refine ⟨h.blen, h.nod, by simp [h.size], by simp [h.len]; omega, ?_, by simp, ?_, ?_, ?_⟩
    · have := h.off; simp only; omega
    · intro _; simp only [Nat.add_sub_cancel]; rfl
    · intro j w hj hw
      rw [List.getElem?_append_left (by rw [h.len]; omega)] at hw
      exact h.dsk j w hj hw
    · intro o w ho hw
      simp only at ho
      show poke s.mem (element B P s s.off) v (element B P s o).1 (element B P s o).2.1 (element B P s o).2.2 = w
      by_cases hlast : o = s.off
      · subst hlast
        rw [List.getElem?_append_right (by rw [h.len]; omega), ← h.len] at hw
        simp at hw
        rw [poke_same]; exact hw
      · rw [List.getElem?_append_left (by rw [h.len]; omega)] at hw
        rw [poke_ne _ _ (fun he => hlast (element_inj he))]
        exact h.mem o w (by omega) hw

theorem pop_inv (hB : 0 < B) (hP : 0 < P) {s : Normal α} {l q} (h : Inv B P s l q) (hl : l ≠ []) :
    ∃ s' q', pop B P s = some s' ∧ Inv B P s' l.dropLast q' := by
  have hN : 0 < P * B := Nat.mul_pos hP hB
  have e2 : 2 * P * B = 2 * (P * B) := Nat.mul_assoc 2 P B
  have hpos : 0 < l.length := List.length_pos_iff.2 hl
  have hoff : 0 < s.off := by
    rcases Nat.eq_zero_or_pos q with rfl | hq
    · have := h.len; simp at this; omega
    · exact h.ne hq
  unfold pop
  rw [e2, if_neg (by have := h.off; have := h.size; simp; omega)]
  have hget : ∀ (j : Nat) w, l.dropLast[j]? = some w → l[j]? = some w ∧ j < l.length - 1 := by
    intro j w hw
    rw [List.getElem?_dropLast] at hw
    split at hw
    · exact ⟨hw, by omega⟩
    · simp at hw
  by_cases hs : s.off = 1 ∧ P ≤ s.bids.length
  · rw [if_pos hs]
    obtain ⟨q, rfl⟩ : ∃ r, q = r + 1 := by
      refine ⟨q - 1, ?_⟩
      have := h.blen
      rcases Nat.eq_zero_or_pos q with rfl | hq
      · simp at this; simp [this] at hs; omega
      · omega
    have hbl : s.bids.length - P = q * P := by rw [h.blen, Nat.add_mul]; omega
    have e3 : (q + 1) * (P * B) = q * (P * B) + P * B := by rw [Nat.add_mul]; omega
    refine ⟨_, q, rfl, ?_⟩
    rw [hbl]
    refine ⟨?_, h.nod.sublist (List.take_sublist _ _), ?_, ?_, ?_, ?_, ?_, ?_, ?_⟩
    · simp only [List.length_take]; omega
    · simp [h.size]
    · simp [h.len, hs.1, e3]
    · simp only; omega
    · intro _; exact hN
    · intro _
      simp only
      rw [element_lo (by omega)]
      have := last_div hB hP
      simp [this.1, this.2]
    · intro j w hj hw
      obtain ⟨hw1, hw2⟩ := hget j w hw
      obtain ⟨b, hb, hd⟩ := h.dsk j w (by omega) hw1
      refine ⟨b, ?_, hd⟩
      have : j / B < q * P := by rw [Nat.div_lt_iff_lt_mul hB, Nat.mul_assoc]; exact hj
      simp [List.getElem?_take, this, hb]
    · intro o w ho hw
      obtain ⟨hw1, hw2⟩ := hget _ w hw
      simp only at ho
      rw [element_lo ho]
      simp only [Bool.not_not, if_true]
      obtain ⟨b, hb, hd⟩ := h.dsk (q * (P * B) + o) w (by omega) hw1
      rw [pos_div hB] at hb
      rw [pos_mod] at hd
      have hk := div_lt_page hB ho
      have hb2 : (s.bids.drop (q * P))[o / B]? = some b := by rw [List.getElem?_drop]; exact hb
      have hk2 : o / B < (s.bids.drop (q * P)).length := (List.getElem?_eq_some_iff.1 hb2).1
      rw [readBlocks_get, if_pos ⟨Nat.zero_le _, by rw [Nat.zero_add]; exact hk2⟩, Nat.sub_zero, hb2]
      exact hd
  · rw [if_neg hs]
    refine ⟨_, q, rfl, ?_⟩
    refine ⟨h.blen, h.nod, by simp [h.size], by simp [h.len]; omega, ?_, ?_, ?_, ?_, ?_⟩
    · have := h.off; simp only; omega
    · intro hq
      simp only
      have hb := h.blen
      have : 1 * P ≤ q * P := Nat.mul_le_mul_right P hq
      have : ¬ s.off = 1 := fun he => hs ⟨he, by omega⟩
      omega
    · intro ho
      simp only at ho ⊢
      rw [if_neg (by omega)]; rfl
    · intro j w hj hw
      exact h.dsk j w hj (hget j w hw).1
    · intro o w ho hw
      simp only at ho
      exact h.mem o w (by omega) (hget _ w hw).1

theorem top_inv {s : Normal α} {l q} (h : Inv B P s l q) : top s = l.getLast? := by
  unfold top
  by_cases hz : s.size = 0
  · rw [if_pos hz]
    have : l = [] := List.length_eq_zero_iff.1 (by rw [← h.size]; exact hz)
    simp [this]
  · rw [if_neg hz]
    have hoff : 0 < s.off := by
      rcases Nat.eq_zero_or_pos q with rfl | hq
      · have h1 := h.len; have h2 := h.size; rw [Nat.zero_mul] at h1; omega
      · exact h.ne hq
    rw [h.cur hoff, List.getLast?_eq_getElem?]
    have hlt : l.length - 1 < l.length := by have := h.size; omega
    rw [List.getElem?_eq_getElem hlt]
    simp only [Option.map_some, Option.some.injEq]
    refine h.mem (s.off - 1) _ (by omega) ?_
    rw [← List.getElem?_eq_getElem hlt]
    congr 1
    have := h.len; omega

theorem setTop_inv {s : Normal α} {l q} (h : Inv B P s l q) (v : α) (hl : l ≠ []) :
    ∃ s', setTop s v = some s' ∧ Inv B P s' (l.dropLast ++ [v]) q := by
  have hpos : 0 < l.length := List.length_pos_iff.2 hl
  have hoff : 0 < s.off := by
    rcases Nat.eq_zero_or_pos q with rfl | hq
    · have := h.len; simp at this; omega
    · exact h.ne hq
  unfold setTop
  rw [if_neg (by have := h.size; omega), h.cur hoff]
  refine ⟨_, rfl, ?_⟩
  have hlen : (l.dropLast ++ [v]).length = l.length := by simp; omega
  refine ⟨h.blen, h.nod, by rw [hlen]; exact h.size, by rw [hlen]; exact h.len, h.off, h.ne, fun _ => rfl, ?_, ?_⟩
  · intro j w hj hw
    refine h.dsk j w hj ?_
    rw [List.getElem?_append_left (by simp; have := h.len; omega), List.getElem?_dropLast] at hw
    split at hw
    · exact hw
    · simp at hw
  · intro o w ho hw
    simp only at ho
    show poke s.mem (element B P s (s.off - 1)) v (element B P s o).1 (element B P s o).2.1 (element B P s o).2.2 = w
    by_cases hlast : o = s.off - 1
    · subst hlast
      rw [List.getElem?_append_right (by simp; have := h.len; omega)] at hw
      have : q * (P * B) + (s.off - 1) - l.dropLast.length = 0 := by simp; have := h.len; omega
      rw [this] at hw; simp at hw
      rw [poke_same]; exact hw
    · rw [poke_ne _ _ (fun he => hlast (element_inj he))]
      refine h.mem o w ho ?_
      rw [List.getElem?_append_left (by simp; have := h.len; omega), List.getElem?_dropLast] at hw
      split at hw
      · exact hw
      · simp at hw

theorem step_ok (hB : 0 < B) (hP : 0 < P) {s : Normal α} {l q} (h : Inv B P s l q) {fresh : List Nat} {op : Op α}
    (hl : specLegal l op) (f1 : fresh.length = P) (f2 : fresh.Nodup) (f3 : ∀ b ∈ fresh, b ∉ s.bids) :
    ∃ s' q', step B P s fresh op = some s' ∧ Inv B P s' (specStep l op) q' := by
  cases op with
  | push v => exact push_inv hB hP h v f1 f2 f3
  | pop => exact pop_inv hB hP h hl
  | setTop v => obtain ⟨s', h1, h2⟩ := setTop_inv h v hl; exact ⟨s', q, h1, h2⟩

theorem reach_inv (hB : 0 < B) (hP : 0 < P) {s : Normal α} {l} (h : Reach B P s l) : ∃ q, Inv B P s l q := by
  induction h with
  | new mem disk => exact ⟨0, inv_new mem disk⟩
  | step fresh op _ hl f1 f2 f3 hs ih =>
    obtain ⟨q, hi⟩ := ih
    obtain ⟨s', q', h1, h2⟩ := step_ok hB hP hi hl f1 f2 f3
    rw [hs] at h1; cases h1
    exact ⟨q', h2⟩
  | foreign b c _ hb ih =>
    obtain ⟨q, hi⟩ := ih
    refine ⟨q, { hi with dsk := ?_ }⟩
    intro j w hj hw
    obtain ⟨b', h1, h2⟩ := hi.dsk j w hj hw
    refine ⟨b', h1, ?_⟩
    simp only
    rw [upd_ne]; · exact h2
    rintro rfl; exact hb (List.mem_of_getElem? h1)

end Normal

/-- **C11** `normal_stack`: after every history, `top()`, `size()` and `empty()` are those of the in-memory stack that
went through the same history. -/
theorem C11_observers {α : Type} {B P : Nat} (hB : 0 < B) (hP : 0 < P) {s : Normal α} {l : List α}
    (h : Normal.Reach B P s l) :
    s.top = specTop l ∧ s.size = l.length ∧ s.isEmpty = l.isEmpty := by
  obtain ⟨q, hi⟩ := Normal.reach_inv hB hP h
  refine ⟨Normal.top_inv hi, hi.size, ?_⟩
  simp only [Normal.isEmpty, hi.size]
  cases l <;> simp

/-- **C11** `normal_stack`: every operation whose precondition holds on the in-memory stack succeeds (no assertion
fails, no block or page index is out of range). -/
theorem C11_no_failure {α : Type} {B P : Nat} (hB : 0 < B) (hP : 0 < P) {s : Normal α} {l : List α}
    (h : Normal.Reach B P s l) (op : Op α) (hl : specLegal l op) (fresh : List Nat)
    (f1 : fresh.length = P) (f2 : fresh.Nodup) (f3 : ∀ b ∈ fresh, b ∉ s.bids) :
    ∃ s', Normal.step B P s fresh op = some s' ∧ Normal.Reach B P s' (specStep l op) := by
  obtain ⟨q, hi⟩ := Normal.reach_inv hB hP h
  obtain ⟨s', q', h1, _⟩ := Normal.step_ok hB hP hi hl f1 f2 f3
  exact ⟨s', h1, .step fresh op h hl f1 f2 f3 h1⟩

theorem some_getD {β : Type} {o : Option β} {d : β} (h : o.isSome = true) : o = some (o.getD d) := by
  cases o <;> simp_all

/-- Non-vacuity: block size 1, one block per page; three pushes (one overflow) and two pops (the second reads the
block back) leave 10. -/
example : ∃ s : Normal Nat, Normal.Reach 1 1 s [10] ∧ s.top = some 10 ∧ s.disk 5 0 = 10 := by
  have h0 : Normal.Reach 1 1 (Normal.new (fun _ _ _ => 0) (fun _ _ => 0)) [] := .new _ _
  have h1 := Normal.Reach.step [5] (.push 10) h0 trivial rfl (by decide) (by decide) (some_getD (d := Normal.new (fun _ _ _ => 0) (fun _ _ => 0)) (by decide))
  have h2 := Normal.Reach.step [5] (.push 11) h1 trivial rfl (by decide) (by decide) (some_getD (d := Normal.new (fun _ _ _ => 0) (fun _ _ => 0)) (by decide))
  have h3 := Normal.Reach.step [5] (.push 12) h2 trivial rfl (by decide) (by decide) (some_getD (d := Normal.new (fun _ _ _ => 0) (fun _ _ => 0)) (by decide))
  have h4 := Normal.Reach.step [8] .pop h3 (by simp [specLegal, specStep]) rfl (by decide) (by decide) (some_getD (d := Normal.new (fun _ _ _ => 0) (fun _ _ => 0)) (by decide))
  have h5 := Normal.Reach.step [8] .pop h4 (by simp [specLegal, specStep]) rfl (by decide) (by decide) (some_getD (d := Normal.new (fun _ _ _ => 0) (fun _ _ => 0)) (by decide))
  exact ⟨_, h5, by decide, by decide⟩

end Stxxl.Stack
