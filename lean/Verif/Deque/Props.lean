import Verif.Deque.Model
import Mathlib.Tactic.SplitIfs

/-! # C18: the external deque is a double-ended random access list -/

namespace Stxxl.Deque
variable {α : Type}

theorem mod2 {x n : Nat} (h : x < 2 * n) : x % n = if x < n then x else x - n := by
  split
  · exact Nat.mod_eq_of_lt (by assumption)
  · rw [Nat.mod_eq_sub_mod (by omega), Nat.mod_eq_of_lt (by omega)]

theorem copy_length (v : List (Option α)) (n src dst : Nat) : (copy v n src dst).length = v.length := by
  induction n generalizing v src dst with
  | zero => rfl
  | succ n ih => simp [copy, ih]

/-- A forward copy to a place behind the source. -/
theorem copy_get {v : List (Option α)} {n src dst : Nat} (h : src + n ≤ dst) (hd : dst + n ≤ v.length) (i : Nat) :
    (copy v n src dst)[i]? = if dst ≤ i ∧ i < dst + n then v[src + (i - dst)]? else v[i]? := by
  induction n generalizing v src dst with
  | zero => simp [copy]; intro a b; omega
  | succ n ih =>
    rw [copy, ih (by omega) (by simp; omega)]
    by_cases h1 : i = dst
    · subst h1
      rw [if_neg (by omega), if_pos (by omega), List.getElem?_set_self (by omega), Nat.sub_self, Nat.add_zero,
        List.getElem?_eq_getElem (by omega)]
      rfl
    · by_cases h2 : dst ≤ i ∧ i < dst + (n + 1)
      · rw [if_pos (by omega), if_pos h2, List.getElem?_set_ne (by omega)]
        congr 1; omega
      · rw [if_neg (by omega), if_neg h2, List.getElem?_set_ne (by omega)]

theorem grow_length {v : List (Option α)} {n : Nat} (h : v.length ≤ n) : (grow v n).length = n := by simp [grow]; omega
theorem grow_get {v : List (Option α)} {n i : Nat} (h : v.length ≤ n) (hi : i < v.length) : (grow v n)[i]? = v[i]? := by
  rw [grow, List.getElem?_append_left (by simp; omega), List.getElem?_take_of_lt (by omega)]

/-- Representation invariant. -/
structure Inv (d : Dq α) (l : List (Option α)) : Prop where
  bl : d.b < d.vec.length
  sz : d.size < d.vec.length
  el : d.e = if d.b + d.size < d.vec.length then d.b + d.size else d.b + d.size - d.vec.length
  len : l.length = d.size
  val : ∀ (i : Nat) (x : α), l[i]? = some (some x) → d.vec[if d.b + i < d.vec.length then d.b + i else d.b + i - d.vec.length]? = some (some x)

theorem lt_of_get {l : List (Option α)} {i : Nat} {x : Option α} (h : l[i]? = some x) : i < l.length := by
  obtain ⟨h, _⟩ := List.getElem?_eq_some_iff.1 h; exact h

/-- Growing the array and moving the tail part keeps the contents. -/
theorem Inv.realloc {d : Dq α} {l} (h : Inv d l) {m : Nat} (hm : 2 * d.vec.length ≤ m) :
    Inv (if d.e < d.b then { d with vec := copy (grow d.vec m) (d.vec.length - d.b) d.b (m - d.vec.length + d.b), b := m - d.vec.length + d.b }
      else { d with vec := grow d.vec m }) l ∧
    (if d.e < d.b then ({ d with vec := copy (grow d.vec m) (d.vec.length - d.b) d.b (m - d.vec.length + d.b), b := m - d.vec.length + d.b } : Dq α)
      else { d with vec := grow d.vec m }).vec.length = m := by
  have h1 := h.bl; have h2 := h.sz; have h3 := h.el; have h4 := h.len
  have hg := grow_length (v := d.vec) (n := m) (by omega)
  split
  · have hc := copy_length (grow d.vec m) (d.vec.length - d.b) d.b (m - d.vec.length + d.b)
    refine ⟨⟨?_, ?_, ?_, h4, ?_⟩, ?_⟩
    · show m - d.vec.length + d.b < _; dsimp only; omega
    · show d.size < _; dsimp only; omega
    · dsimp only; rw [hc, hg]; split_ifs at h3 ⊢ <;> omega
    · intro i x hx
      have hi := lt_of_get hx
      have hv := h.val i x hx
      dsimp only
      rw [hc, hg]
      by_cases hw : d.b + i < d.vec.length
      · rw [if_pos hw] at hv
        rw [if_pos (by omega), copy_get (by omega) (by omega), if_pos (by omega)]
        rw [grow_get (by omega) (by omega), ← hv]
        congr 1; omega
      · rw [if_neg hw] at hv
        rw [if_neg (by omega), copy_get (by omega) (by omega), if_neg (by split_ifs at h3 <;> omega),
          grow_get (by omega) (by omega), ← hv]
        congr 1; omega
    · dsimp only; omega
  · refine ⟨⟨?_, ?_, ?_, h4, ?_⟩, hg⟩
    · dsimp only; omega
    · dsimp only; omega
    · dsimp only; rw [hg, h3]; split_ifs at * <;> omega
    · intro i x hx
      have hi := lt_of_get hx
      have hv := h.val i x hx
      dsimp only
      rw [hg]
      have : d.b + i < d.vec.length := by split_ifs at h3 <;> omega
      rw [if_pos this] at hv
      rw [if_pos (by omega), grow_get (by omega) this, hv]

theorem double_inv {d : Dq α} {l} (h : Inv d l) : Inv d.doubleArray l ∧ d.doubleArray.vec.length = 2 * d.vec.length := by
  have := h.realloc (m := 2 * d.vec.length) (Nat.le_refl _)
  have e : 2 * d.vec.length - d.vec.length + d.b = d.vec.length + d.b := by omega
  rw [e] at this
  exact this

theorem putFront_inv {d : Dq α} {l} (h : Inv d l) (hs : d.size + 1 < d.vec.length) (x : α) :
    ∃ d', d.putFront x = some d' ∧ Inv d' (some x :: l) := by
  have h1 := h.bl; have h2 := h.sz; have h3 := h.el; have h4 := h.len
  have hb := mod2 (x := d.b + d.vec.length - 1) (n := d.vec.length) (by omega)
  unfold Dq.putFront
  rw [hb]
  refine ⟨_, if_pos (by split <;> omega), ?_⟩
  refine ⟨?_, ?_, ?_, by simp [h4], ?_⟩
  · simp only [List.length_set]; split <;> omega
  · simp only [List.length_set]; omega
  · simp only [List.length_set]; rw [h3]; split_ifs <;> omega
  · intro i y hy
    simp only [List.length_set]
    cases i with
    | zero =>
      simp only [List.getElem?_cons_zero, Option.some.injEq] at hy
      subst hy
      have hlt : (if d.b + d.vec.length - 1 < d.vec.length then d.b + d.vec.length - 1 else d.b + d.vec.length - 1 - d.vec.length) < d.vec.length := by
        split <;> omega
      generalize (if d.b + d.vec.length - 1 < d.vec.length then d.b + d.vec.length - 1 else d.b + d.vec.length - 1 - d.vec.length) = k at *
      rw [Nat.add_zero, if_pos hlt, List.getElem?_set_self hlt]
    | succ i =>
      rw [List.getElem?_cons_succ] at hy
      have hi := lt_of_get hy
      have hv := h.val i y hy
      rw [List.getElem?_set_ne (by split_ifs <;> omega), ← hv]
      congr 1; split_ifs <;> omega

theorem putBack_inv {d : Dq α} {l} (h : Inv d l) (hs : d.size + 1 < d.vec.length) (x : α) :
    ∃ d', d.putBack x = some d' ∧ Inv d' (l ++ [some x]) := by
  have h1 := h.bl; have h2 := h.sz; have h3 := h.el; have h4 := h.len
  have he : d.e < d.vec.length := by split_ifs at h3 <;> omega
  have hb := mod2 (x := d.e + 1) (n := d.vec.length) (by omega)
  unfold Dq.putBack
  rw [hb]
  refine ⟨_, if_pos he, ?_⟩
  refine ⟨?_, ?_, ?_, by simp [h4], ?_⟩
  · simpa only [List.length_set]
  · simp only [List.length_set]; omega
  · simp only [List.length_set]; rw [h3]; split_ifs <;> omega
  · intro i y hy
    simp only [List.length_set]
    have hi := lt_of_get hy
    simp only [List.length_append, List.length_singleton] at hi
    by_cases hl : i < l.length
    · rw [List.getElem?_append_left hl] at hy
      rw [List.getElem?_set_ne (by split_ifs at * <;> omega), h.val i y hy]
    · have : i = l.length := by omega
      subst this
      simp only [List.getElem?_append_right (Nat.le_refl _), Nat.sub_self, List.getElem?_cons_zero, Option.some.injEq] at hy
      subst hy
      rw [h4, ← h3, List.getElem?_set_self he]

theorem pushFront_inv {d : Dq α} {l} (h : Inv d l) (x : α) : ∃ d', d.pushFront x = some d' ∧ Inv d' (some x :: l) := by
  have h1 := h.bl; have h2 := h.sz; have h3 := h.el; have h4 := h.len
  unfold Dq.pushFront
  have hb := mod2 (x := d.b + d.vec.length - 1) (n := d.vec.length) (by omega)
  split
  · have hd := double_inv h
    have : d.doubleArray.size = d.size := by unfold Dq.doubleArray; dsimp only; split <;> rfl
    exact putFront_inv hd.1 (by omega) x
  · next hn =>
    refine putFront_inv h ?_ x
    rw [hb, h3] at hn
    split_ifs at hn <;> omega

theorem pushBack_inv {d : Dq α} {l} (h : Inv d l) (x : α) : ∃ d', d.pushBack x = some d' ∧ Inv d' (l ++ [some x]) := by
  have h1 := h.bl; have h2 := h.sz; have h3 := h.el; have h4 := h.len
  unfold Dq.pushBack
  have hb := mod2 (x := d.e + 1) (n := d.vec.length) (by split_ifs at h3 <;> omega)
  split
  · have hd := double_inv h
    have : d.doubleArray.size = d.size := by unfold Dq.doubleArray; dsimp only; split <;> rfl
    exact putBack_inv hd.1 (by omega) x
  · next hn =>
    refine putBack_inv h ?_ x
    rw [hb, h3] at hn
    split_ifs at hn <;> omega

theorem popFront_inv {d : Dq α} {l} (h : Inv d l) (hl : l ≠ []) : ∃ d', d.popFront = some d' ∧ Inv d' l.tail := by
  have h1 := h.bl; have h2 := h.sz; have h3 := h.el; have h4 := h.len
  have hp := List.length_pos_iff.2 hl
  have hb := mod2 (x := d.b + 1) (n := d.vec.length) (by omega)
  refine ⟨_, if_neg (by omega), ?_⟩
  rw [hb]
  refine ⟨?_, ?_, ?_, by simp [h4], ?_⟩
  · dsimp only; split <;> omega
  · dsimp only; omega
  · dsimp only; rw [h3]; split_ifs <;> omega
  · intro i y hy
    rw [List.getElem?_tail] at hy
    have hi := lt_of_get hy
    rw [← h.val _ y hy]
    dsimp only; congr 1; split_ifs <;> omega

theorem popBack_inv {d : Dq α} {l} (h : Inv d l) (hl : l ≠ []) :
    ∃ d', d.popBack = some d' ∧ Inv d' l.dropLast ∧ d'.size = d.size - 1 := by
  have h1 := h.bl; have h2 := h.sz; have h3 := h.el; have h4 := h.len
  have hp := List.length_pos_iff.2 hl
  have hb := mod2 (x := d.e + d.vec.length - 1) (n := d.vec.length) (by split_ifs at h3 <;> omega)
  refine ⟨_, if_neg (by omega), ?_, rfl⟩
  rw [hb]
  refine ⟨h1, ?_, ?_, by simp [h4], ?_⟩
  · dsimp only; omega
  · dsimp only; split_ifs at * <;> omega
  · intro i y hy
    have hi := lt_of_get hy
    rw [List.length_dropLast] at hi
    rw [List.getElem?_dropLast, if_pos (by omega)] at hy
    exact h.val i y hy

theorem popLoop_inv {k : Nat} {d : Dq α} {l} (h : Inv d l) (hk : k ≤ d.size) :
    ∃ d', Dq.popLoop k d = some d' ∧ Inv d' (l.take (l.length - k)) := by
  induction k generalizing d l with
  | zero => exact ⟨d, rfl, by rwa [Nat.sub_zero, List.take_length]⟩
  | succ k ih =>
    have h4 := h.len
    obtain ⟨d1, e1, i1, s1⟩ := popBack_inv h (by intro hl; subst hl; simp at h4; omega)
    obtain ⟨d2, e2, i2⟩ := ih i1 (by omega)
    refine ⟨d2, by simp [Dq.popLoop, e1, e2], ?_⟩
    rw [List.length_dropLast, List.dropLast_eq_take, List.take_take] at i2
    rwa [show min (l.length - 1 - k) (l.length - 1) = l.length - (k + 1) by omega] at i2

theorem resize_inv {d : Dq α} {l} (h : Inv d l) (n : Nat) :
    ∃ d', d.resize n = some d' ∧ Inv d' (l.take n ++ List.replicate (n - l.length) none) := by
  have h4 := h.len
  unfold Dq.resize
  split
  · next hn =>
    obtain ⟨d', e1, i1⟩ := popLoop_inv h (k := d.size - n) (by omega)
    refine ⟨d', e1, ?_⟩
    rw [h4, show n - d.size = 0 by omega, List.replicate_zero, List.append_nil]
    rwa [h4, show d.size - (d.size - n) = n by omega] at i1
  · next hn =>
    refine ⟨_, rfl, ?_⟩
    have hr : Inv (d.regrow n) l ∧ n < (d.regrow n).vec.length ∧ (d.regrow n).size = d.size := by
      unfold Dq.regrow
      have := h.sz
      split
      · next hlt =>
        have := h.realloc (m := 2 * n) (by omega)
        dsimp only
        rw [grow_length (by omega)]
        refine ⟨this.1, by rw [this.2]; omega, by split <;> rfl⟩
      · exact ⟨h, by omega, rfl⟩
    generalize d.regrow n = d1 at *
    obtain ⟨h, hn1, hsz⟩ := hr
    have h1 := h.bl; have h2 := h.sz; have h3 := h.el; have h4' := h.len
    have hb := mod2 (x := d1.e + n - d1.size) (n := d1.vec.length) (by split_ifs at h3 <;> omega)
    rw [hb]
    refine ⟨h1, hn1, ?_, by simp; omega, ?_⟩
    · dsimp only; split_ifs at * <;> omega
    · intro i y hy
      by_cases hi : i < l.length
      · rw [List.getElem?_append_left (by simp; omega), List.getElem?_take_of_lt (by omega)] at hy
        exact h.val i y hy
      · rw [List.getElem?_append_right (by simp; omega), List.getElem?_replicate] at hy
        split at hy <;> simp at hy

theorem idx_mod {d : Dq α} {l} (h : Inv d l) {i : Nat} (hi : i ≤ d.size) :
    (d.b + i) % d.vec.length = if d.b + i < d.vec.length then d.b + i else d.b + i - d.vec.length :=
  mod2 (by have := h.bl; have := h.sz; omega)

theorem setAt_inv {d : Dq α} {l} (h : Inv d l) {i : Nat} (hi : i < l.length) (x : α) :
    ∃ d', d.setAt i x = some d' ∧ Inv d' (l.set i (some x)) := by
  have h1 := h.bl; have h2 := h.sz; have h3 := h.el; have h4 := h.len
  unfold Dq.setAt
  rw [idx_mod h (by omega)]
  refine ⟨_, if_pos ⟨by omega, by split_ifs <;> omega⟩, ?_⟩
  refine ⟨by simpa using h1, by simpa using h2, by simpa using h3, by simpa using h4, ?_⟩
  intro j y hy
  simp only [List.length_set]
  have hj := lt_of_get hy
  rw [List.length_set] at hj
  by_cases e : i = j
  · subst e
    rw [List.getElem?_set_self hi] at hy
    rw [List.getElem?_set_self (by split_ifs <;> omega), hy]
  · rw [List.getElem?_set_ne e] at hy
    rw [List.getElem?_set_ne (by split_ifs <;> omega), h.val j y hy]

theorem empty_inv {N0 : Nat} (hN : 0 < N0) : Inv (Dq.empty N0 : Dq α) [] := by
  refine ⟨?_, ?_, ?_, rfl, by simp⟩ <;> simp [Dq.empty, hN]

theorem step_inv {N0 : Nat} (hN : 0 < N0) {d : Dq α} {l} (h : Inv d l) (op : Op α) (hl : specLegal l op) :
    ∃ d', step N0 d op = some d' ∧ Inv d' (specStep l op) := by
  cases op with
  | pushFront x => exact pushFront_inv h x
  | pushBack x => exact pushBack_inv h x
  | popFront => exact popFront_inv h hl
  | popBack => obtain ⟨d', a, b, _⟩ := popBack_inv h hl; exact ⟨d', a, b⟩
  | setAt i x => exact setAt_inv h hl x
  | clear => exact ⟨_, rfl, empty_inv hN⟩
  | resize n => exact resize_inv h n

theorem reach_inv {N0 : Nat} (hN : 0 < N0) {d : Dq α} {l} (h : Reach N0 d l) : Inv d l := by
  induction h with
  | empty => exact empty_inv hN
  | sized n =>
    refine ⟨?_, ?_, ?_, by simp [Dq.sized], ?_⟩ <;> simp only [Dq.sized, List.length_replicate]
    · omega
    · omega
    · rw [if_pos (by omega)]; omega
    · intro i x hx
      rw [List.getElem?_replicate] at hx
      split at hx <;> simp at hx
  | step op _ hl e ih =>
    obtain ⟨d', e', i'⟩ := step_inv hN ih op hl
    rw [e] at e'; cases e'; exact i'

/-- **C18** No legal call ever fails (asserts, or accesses the array out of bounds). -/
theorem C18_no_failure {N0 : Nat} (hN : 0 < N0) {d : Dq α} {l} (h : Reach N0 d l) (op : Op α) (hl : specLegal l op) :
    ∃ d', step N0 d op = some d' ∧ Reach N0 d' (specStep l op) := by
  obtain ⟨d', e, _⟩ := step_inv hN (reach_inv hN h) op hl
  exact ⟨d', e, .step op h hl e⟩

theorem get_of {d : Dq α} {l} (h : Inv d l) {i : Nat} {x : α} (hx : l[i]? = some (some x)) : d.get i = some (some x) := by
  have hi := lt_of_get hx
  rw [h.len] at hi
  unfold Dq.get
  rw [if_pos hi, idx_mod h (by omega), h.val i x hx]

/-- **C18** `size()`, `empty()`, `operator[]`, `front()` and `back()` are those of the in-memory deque `l`; in particular element `i` has the
value last assigned to it. -/
theorem C18_observers {N0 : Nat} (hN : 0 < N0) {d : Dq α} {l} (h : Reach N0 d l) :
    d.size = l.length ∧ (∀ (i : Nat) (x : α), l[i]? = some (some x) → d.get i = some (some x)) ∧
    (∀ x : α, l.head? = some (some x) → d.front = some (some x)) ∧ (∀ x : α, l.getLast? = some (some x) → d.back = some (some x)) ∧
    (∀ i, i < l.length → (d.get i).isSome) := by
  have hi := reach_inv hN h
  have h1 := hi.bl; have h2 := hi.sz; have h3 := hi.el; have h4 := hi.len
  refine ⟨hi.len.symm, fun i x hx => get_of hi hx, fun x hx => ?_, fun x hx => ?_, fun i hl => ?_⟩
  · rw [List.head?_eq_getElem?] at hx
    have := hi.val 0 x hx
    have hp := lt_of_get hx
    rw [Nat.add_zero, if_pos hi.bl] at this
    rw [Dq.front, if_neg (by omega), this]
  · rw [List.getLast?_eq_getElem?] at hx
    have := hi.val _ x hx
    have hp := lt_of_get hx
    rw [Dq.back, if_neg (by omega), mod2 (by split_ifs at h3 <;> omega), ← this]
    congr 1; split_ifs at * <;> omega
  · rw [Dq.get, if_pos (by omega), idx_mod hi (by omega), List.getElem?_eq_getElem (by split_ifs <;> omega)]
    rfl

/-- **C18** Iterators. Write `it i` for `begin() + i`. Then `end()` is `it size()`, `*it i` is element `i`, `++`/`+=` and `--`/`-=` move by
elements, `it i - it j` is `i - j`, and `<`, `==` compare positions. -/
theorem C18_iterators {N0 : Nat} (hN : 0 < N0) {d : Dq α} {l} (h : Reach N0 d l) :
    d.itAdd d.b 0 = d.b ∧ d.itAdd d.b l.length = d.e ∧
    (∀ i, i < l.length → d.itDeref (d.itAdd d.b i) = d.get i) ∧
    (∀ i k, i + k ≤ l.length → d.itAdd (d.itAdd d.b i) k = d.itAdd d.b (i + k) ∧ d.itSub (d.itAdd d.b (i + k)) k = d.itAdd d.b i) ∧
    (∀ i j, i ≤ l.length → j ≤ l.length → d.itDiff (d.itAdd d.b i) (d.itAdd d.b j) = (i : Int) - j ∧
      (d.itLt (d.itAdd d.b i) (d.itAdd d.b j) = true ↔ i < j) ∧ (d.itAdd d.b i = d.itAdd d.b j ↔ i = j)) := by
  have hi := reach_inv hN h
  have h1 := hi.bl; have h2 := hi.sz; have h3 := hi.el; have h4 := hi.len
  refine ⟨?_, ?_, fun i hl => ?_, fun i k hl => ?_, fun i j hl hj => ?_⟩
  · simp [Dq.itAdd, Nat.mod_eq_of_lt h1]
  · rw [Dq.itAdd, h4, idx_mod hi (Nat.le_refl _), h3]
  · rw [Dq.get, if_pos (by omega)]; rfl
  · simp only [Dq.itAdd, Dq.itSub]
    rw [idx_mod hi (i := i) (by omega), idx_mod hi (i := i + k) (by omega)]
    rw [mod2 (by split_ifs <;> omega), mod2 (by split_ifs <;> omega)]
    constructor <;> split_ifs <;> omega
  · have ei : d.itAdd d.b i = _ := idx_mod hi (i := i) (by omega)
    have ej : d.itAdd d.b j = _ := idx_mod hi (i := j) (by omega)
    generalize d.itAdd d.b i = o at *
    generalize d.itAdd d.b j = p at *
    unfold Dq.itLt Dq.itDiff Dq.absOff
    rw [decide_eq_true_eq]
    refine ⟨?_, ?_, ?_⟩ <;> split_ifs at ei ej ⊢ <;> omega

theorem eqLoop_spec [DecidableEq α] {a b : Dq α} {la lb : List α} (ha : Inv a (la.map some)) (hb : Inv b (lb.map some)) (hl : la.length = lb.length)
    (fuel i : Nat) (hi : i ≤ la.length) (hf : la.length - i < fuel) :
    Dq.eqLoop a b fuel (a.itAdd a.b i) (b.itAdd b.b i) = some (decide (la.drop i = lb.drop i)) := by
  induction fuel generalizing i with
  | zero => omega
  | succ fuel ih =>
    have a4 := ha.len; have b4 := hb.len
    simp only [List.length_map] at a4 b4
    have a1 := ha.bl; have a2 := ha.sz; have a3 := ha.el
    have b1 := hb.bl; have b2 := hb.sz
    rw [Dq.eqLoop]
    have hend : a.itAdd a.b i = a.e ↔ i = la.length := by
      rw [Dq.itAdd, idx_mod ha (by omega), a3]
      split_ifs <;> omega
    by_cases he : i = la.length
    · rw [if_pos (hend.2 he), he, List.drop_length, hl, List.drop_length]; simp
    · rw [if_neg (fun h => he (hend.1 h))]
      have hx : (la.map some)[i]? = some (some (la[i]'(by omega))) := by rw [List.getElem?_map, List.getElem?_eq_getElem (by omega)]; rfl
      have hy : (lb.map some)[i]? = some (some (lb[i]'(by omega))) := by rw [List.getElem?_map, List.getElem?_eq_getElem (by omega)]; rfl
      have ex : a.itDeref (a.itAdd a.b i) = some (some (la[i]'(by omega))) := by
        rw [Dq.itDeref, Dq.itAdd, idx_mod ha (by omega), ha.val i _ hx]
      have ey : b.itDeref (b.itAdd b.b i) = some (some (lb[i]'(by omega))) := by
        rw [Dq.itDeref, Dq.itAdd, idx_mod hb (by omega), hb.val i _ hy]
      have na : a.itAdd (a.itAdd a.b i) 1 = a.itAdd a.b (i + 1) := by
        simp only [Dq.itAdd]
        rw [idx_mod ha (i := i) (by omega), idx_mod ha (i := i + 1) (by omega), mod2 (by split_ifs <;> omega)]
        split_ifs <;> omega
      have nb : b.itAdd (b.itAdd b.b i) 1 = b.itAdd b.b (i + 1) := by
        simp only [Dq.itAdd]
        rw [idx_mod hb (i := i) (by omega), idx_mod hb (i := i + 1) (by omega), mod2 (by split_ifs <;> omega)]
        split_ifs <;> omega
      rw [ex, ey]
      dsimp only
      rw [na, nb, ih (i + 1) (by omega) (by omega)]
      rw [List.drop_eq_getElem_cons (l := la) (i := i) (by omega), List.drop_eq_getElem_cons (l := lb) (i := i) (by omega)]
      by_cases hxy : la[i]'(by omega) = lb[i]'(by omega)
      · rw [if_pos hxy]; simp only [List.cons.injEq, hxy, true_and]
      · rw [if_neg hxy]; simp only [List.cons.injEq, hxy, false_and, decide_false]

/-- **C18** `==` on deques of the same size decides equality of the contents. -/
theorem C18_equality [DecidableEq α] {N0 : Nat} (hN : 0 < N0) {a b : Dq α} {la lb : List α} (ha : Reach N0 a (la.map some))
    (hb : Reach N0 b (lb.map some)) (hl : la.length = lb.length) : a.eq b = some (decide (la = lb)) := by
  have ia := reach_inv hN ha
  have ib := reach_inv hN hb
  have := eqLoop_spec ia ib hl (a.vec.length + 1) 0 (Nat.zero_le _) (by have := ia.len; have := ia.sz; simp at *; omega)
  have h1 := ia.bl; have h2 := ib.bl
  simp only [Dq.itAdd, Nat.add_zero, Nat.mod_eq_of_lt h1, Nat.mod_eq_of_lt h2, List.drop_zero] at this
  exact this

/-- **C18, defect.** `==` does not compare sizes (`deque.h:682-686` is `std::equal` on the left range only): an empty deque is "equal"
to a non-empty one. -/
theorem C18_equality_ignores_size : ∃ a b : Dq Nat, Reach 4 a [] ∧ Reach 4 b [some 1] ∧ a.size ≠ b.size ∧ a.eq b = some true :=
  ⟨_, _, .empty, .step (.pushBack 1) .empty trivial rfl, by decide, by decide⟩

/-- Non-vacuity: array of 2; wraps around at the front, doubles twice, and keeps the order. -/
example : ∃ d : Dq Nat, Reach 2 d [some 3, some 1, some 2, some 4] ∧ d.b = 6 ∧ d.e = 2 ∧ d.vec.length = 8 ∧ d.get 3 = some (some 4) ∧
    d.front = some (some 3) :=
  ⟨_, .step (.pushBack 4) (.step (.pushFront 3) (.step (.pushBack 2) (.step (.pushFront 1) .empty trivial rfl) trivial rfl) trivial rfl) trivial rfl,
    by decide, by decide, by decide, by decide, by decide⟩

end Stxxl.Deque
