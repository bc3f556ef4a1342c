import Verif.Scan.Gen
import Mathlib.Data.List.Perm.Basic
import Mathlib.Tactic.SplitIfs

/-! # `random_shuffle` permutes the range. -/

namespace Stxxl.Scan

open Stxxl.ExtVector

variable {α R : Type} {B P : Nat}

/-- What is assumed of the generator, of `std::random_shuffle`, and of the temporary vectors (C06, C07). -/
structure EnvOk (B : Nat) (E : Env α R) : Prop where
  rng : ∀ r k, 0 < k → (E.rng r k).1 < k
  shuf : ∀ r xs, (E.shuf r xs).1.Perm xs
  vic : ∀ j, E.vic j < 4
  fresh : ∀ n, (E.fresh n).length = divCeil n B ∧ (E.fresh n).Nodup
  BS : 0 < E.BS

theorem flatten_set_perm {l : List α} {v : α} : ∀ {bs : List (List α)} {x : Nat}, bs[x]? = some l →
    (bs.set x (v :: l)).flatten.Perm (v :: bs.flatten) := by
  intro bs
  induction bs with
  | nil => intro x h; simp at h
  | cons c bs ih =>
    intro x h
    cases x with
    | zero => simp at h; subst h; simp
    | succ x =>
      simp at h
      simp only [List.set_cons_succ, List.flatten_cons]
      exact ((ih h).append_left c).trans List.perm_middle

theorem distribute_inv {s1 : Sys α} {p0 hi k : Nat} {ws : List α} (E : Env α R) (hE : EnvOk B E) (hk : 0 < k) : ∀ (xs : List α) (st : St α) (r : R)
    (bs : List (List α)), SInv B s1 p0 ws st → Has B s1 st.ipos xs → (∀ q, q < st.ipos + xs.length → st.ipos ≤ q → q / B < hi) → bs.length = k →
    ∃ st' r' bs', distribute B hi k E xs.length st r bs = .ok (st', r', bs') ∧ SInv B s1 p0 ws st' ∧ st'.ipos = st.ipos + xs.length ∧
      bs'.length = k ∧ bs'.flatten.Perm (xs ++ bs.flatten) := by
  intro xs
  induction xs with
  | nil => intro st r bs h _ _ hl; exact ⟨st, r, bs, rfl, h, rfl, hl, List.Perm.refl _⟩
  | cons x xs ih =>
    intro st r bs h hh hhi hl
    obtain ⟨hx, hxs⟩ := hh.tail
    obtain ⟨st1, g1, g2, g3⟩ := get_inv h (hi := hi) (hhi st.ipos (by simp) (Nat.le_refl _)) hx
    have hlt : (E.rng r k).1 < bs.length := by rw [hl]; exact hE.rng r k hk
    have hb := List.getElem?_eq_getElem hlt
    obtain ⟨st2, r', bs', d1, d2, d3, d4, d5⟩ := ih st1 (E.rng r k).2 (bs.set (E.rng r k).1 (x :: bs[(E.rng r k).1])) g2
      (by rw [g3]; exact hxs) (by intro q hq1 hq2; refine hhi q ?_ ?_ <;> simp at * <;> omega) (by simpa using hl)
    refine ⟨st2, r', bs', ?_, d2, by rw [d3, g3]; simp; omega, d4, ?_⟩
    · simp only [List.length_cons, distribute, g1, hb]
      exact d1
    · refine d5.trans ?_
      refine ((flatten_set_perm hb).append_left xs).trans ?_
      exact List.perm_middle

theorem putAll_inv {s1 : Sys α} {p0 : Nat} : ∀ (xs ws : List α) (st : St α), SInv B s1 p0 ws st → p0 + ws.length + xs.length ≤ st.ipos →
    st.ipos ≤ s1.vec.bids.length * B →
    ∃ st', putAll B xs st = some st' ∧ SInv B s1 p0 (ws ++ xs) st' ∧ st'.ipos = st.ipos := by
  intro xs
  induction xs with
  | nil => intro ws st h _ _; exact ⟨st, rfl, by simpa using h, rfl⟩
  | cons x xs ih =>
    intro ws st h hl hc
    simp only [List.length_cons] at hl
    obtain ⟨st1, p1, p2, p3⟩ := put_inv h (by omega)
      (by rw [blk_eq h.hB h.al rfl, Nat.div_lt_iff_lt_mul h.hB]; omega) x
    obtain ⟨st2, r1, r2, r3⟩ := ih (ws ++ [x]) st1 p2 (by simp; omega) (by omega)
    refine ⟨st2, ?_, by simpa using r2, by rw [r3, p3]⟩
    simp only [putAll, p1]; exact r1

theorem writeAll_inv {vic : Nat → Nat} : ∀ (xs : List α) (j : Nat) (s : Sys α) (abs : List (Option α)), Inv B P s abs → j + xs.length ≤ abs.length →
    (∀ i, vic i < s.vec.npages) →
    ∃ s' abs', writeAll B P vic xs j s = some s' ∧ Inv B P s' abs' ∧ Filled abs abs' j xs ∧ Same s s' := by
  intro xs
  induction xs with
  | nil => intro j s abs h _ _; exact ⟨s, abs, rfl, h, ⟨rfl, by simp, by simp⟩, Same.refl s⟩
  | cons x xs ih =>
    intro j s abs h hl hv
    simp only [List.length_cons] at hl
    obtain ⟨s1, w1, w2, w3⟩ := elementWrite_inv h x (i := j) (victim := vic j) (by rw [← h.len]; omega) (hv j)
    obtain ⟨s2, abs2, r1, r2, r3, r4⟩ := ih (j + 1) s1 _ w2 (by simp; omega) (by intro i; rw [w3.npages]; exact hv i)
    refine ⟨s2, abs2, by simp only [writeAll, w1]; exact r1, r2, ?_, w3.trans r4⟩
    refine Filled.trans (ys := [x]) (zs := xs) ⟨by simp, ?_, ?_⟩ r3
    · intro i hi hil
      simp at hi
      subst hi
      rw [Nat.add_zero, List.getElem?_set_self (by omega)]; rfl
    · intro i hi
      simp at hi
      rw [List.getElem?_set_ne (by omega)]

theorem readAll_inv {vic : Nat → Nat} {zs : List α} : ∀ (n j : Nat) (s : Sys α), Inv B P s (zs.map some) → j + n ≤ zs.length →
    (∀ i, vic i < s.vec.npages) → readAll B P vic n j s = some ((zs.drop j).take n) := by
  intro n
  induction n with
  | zero => intro j s _ _ _; simp [readAll]
  | succ n ih =>
    intro j s h hl hv
    obtain ⟨s1, x, r1, r2, r3, r4⟩ := elementRead_inv h (i := j) (victim := vic j) (by rw [← h.len]; simp; omega) (hv j)
    have hx : x = zs[j]'(by omega) := by
      apply r4
      rw [List.getElem?_map, List.getElem?_eq_getElem (by omega)]; rfl
    simp only [readAll, r1]
    rw [ih (j + 1) s1 r2 (by omega) (by intro i; rw [r3.npages]; exact hv i)]
    rw [Option.map_some, hx, List.drop_eq_getElem_cons (i := j) (l := zs) (by omega), List.take_succ_cons]

theorem range_all (xs : List α) : Range (xs.map some) 0 xs.length xs := by
  unfold Range; rw [List.drop_zero, List.take_of_length_le (by simp)]

/-- What the recursive call is assumed to do. -/
def RecOk (B P : Nat) (recur : Nat → Sys α → Nat → R → Except Err (Sys α × R)) : Prop :=
  ∀ M tv n r tv' r' (xs : List α), Inv B P tv (xs.map some) → n = xs.length → recur M tv n r = .ok (tv', r') →
    ∃ zs : List α, zs.Perm xs ∧ Inv B P tv' (zs.map some) ∧ Same tv tv'

theorem temp_inv (E : Env α R) (hE : EnvOk B E) (hB : 0 < B) (hP : 0 < P) (xs : List α) :
    ∃ tv, writeAll B P E.vic xs 0 (newVec B P xs.length 4 (E.fresh xs.length) E.s2p E.cache E.disk) = some tv ∧
      Inv B P tv (xs.map some) ∧ tv.vec.npages = 4 := by
  have h0 := newVec_inv (B := B) (P := P) (α := α) hB hP (n := xs.length) (npages := 4) (by decide) (hE.fresh xs.length).1 (hE.fresh xs.length).2
    E.s2p E.cache E.disk
  obtain ⟨tv, abs', w1, w2, w3, w4⟩ := writeAll_inv (vic := E.vic) xs 0 _ _ h0 (by simp) (by intro i; exact hE.vic i)
  have : abs' = xs.map some := by
    have := w3.splice (e := xs.length) (Nat.zero_le _) (by simp) (by simp)
    simpa using this
  exact ⟨tv, w1, this ▸ w2, by rw [w4.npages]; rfl⟩

theorem buckets_inv {s1 : Sys α} {p0 : Nat} (E : Env α R) (hE : EnvOk B E) (hP : 0 < P)
    {recur : Nat → Sys α → Nat → R → Except Err (Sys α × R)} (hrec : RecOk B P recur) : ∀ (bs : List (List α)) (space : Nat) (ws : List α)
    (st : St α) (r : R) (st' : St α) (r' : R), SInv B s1 p0 ws st → p0 + ws.length + bs.flatten.length ≤ st.ipos →
    st.ipos ≤ s1.vec.bids.length * B → buckets B P E recur bs space st r = .ok (st', r') →
    ∃ ys, ys.Perm bs.flatten ∧ SInv B s1 p0 (ws ++ ys) st' ∧ st'.ipos = st.ipos := by
  intro bs
  induction bs with
  | nil =>
    intro space ws st r st' r' h _ _ hr
    simp only [buckets, Except.ok.injEq, Prod.mk.injEq] at hr
    rw [← hr.1]
    exact ⟨[], List.Perm.refl _, by simpa using h, rfl⟩
  | cons xs bs ih =>
    intro space ws st r st' r' h hl hc hr
    simp only [List.flatten_cons, List.length_append] at hl
    simp only [buckets] at hr
    by_cases hsp : xs.length * E.sz < space
    · rw [if_pos hsp] at hr
      have hp := hE.shuf r xs
      have hpl := hp.length_eq
      obtain ⟨st1, q1, q2, q3⟩ := putAll_inv (E.shuf r xs).1 ws st h (by omega) hc
      rw [q1] at hr
      obtain ⟨ys, y1, y2, y3⟩ := ih _ _ _ _ _ _ q2 (by rw [List.length_append, q3]; omega) (by rw [q3]; exact hc) hr
      refine ⟨(E.shuf r xs).1 ++ ys, ?_, by simpa using y2, by rw [y3, q3]⟩
      rw [List.flatten_cons]
      exact hp.append y1
    · rw [if_neg hsp] at hr
      obtain ⟨tv, t1, t2, t3⟩ := temp_inv (P := P) E hE h.hB hP xs
      rw [t1] at hr
      dsimp only at hr
      cases hq : recur ((space + P * E.BS) % W) tv xs.length r with
      | error x => rw [hq] at hr; cases hr
      | ok p =>
        obtain ⟨tv', r2⟩ := p
        rw [hq] at hr
        dsimp only at hr
        obtain ⟨zs, z1, z2, z3⟩ := hrec _ _ _ _ _ _ xs t2 rfl hq
        have hzl := z1.length_eq
        rw [readAll_inv xs.length 0 tv' z2 (by omega) (by intro i; rw [z3.npages, t3]; exact hE.vic i)] at hr
        rw [List.drop_zero, List.take_of_length_le (by omega)] at hr
        dsimp only at hr
        obtain ⟨st1, q1, q2, q3⟩ := putAll_inv zs ws st h (by omega) hc
        rw [q1] at hr
        obtain ⟨ys, y1, y2, y3⟩ := ih _ _ _ _ _ _ q2 (by rw [List.length_append, q3]; omega) (by rw [q3]; exact hc) hr
        refine ⟨zs ++ ys, ?_, by simpa using y2, by rw [y3, q3]⟩
        rw [List.flatten_cons]
        exact z1.append y1

/-- The part of the algorithm before the buckets are shuffled. -/
theorem shuffle_head {s : Sys α} {abs : List (Option α)} {b e k : Nat} {xs : List α} (E : Env α R) (hE : EnvOk B E) (h : Inv B P s abs) (hb : b ≤ e)
    (he : e ≤ abs.length) (hr : Range abs b e xs) (hk : 0 < k) (r : R) :
    ∃ s1, flush P s = some s1 ∧ Inv B P s1 abs ∧ Same s s1 ∧ Flushed s1 ∧ ∃ st,
      pass B (endBlock B e) keep (b % B) (openAt B b s1 E.junk) () = some (st, ()) ∧
      ∃ st' r' bs', distribute B (endBlock B e) k E (e - b) st r (List.replicate k []) = .ok (st', r', bs') ∧
        SInv B s1 (b - b % B) (raw B s1 (b - b % B) (b % B)) st' ∧ st'.ipos = e ∧ bs'.length = k ∧ bs'.flatten.Perm xs := by
  have hxl := hr.len he
  have hB := h.hB
  obtain ⟨s1, f1, f2, f3, f4⟩ := flush_inv h
  obtain ⟨st1, a1, a2, a3⟩ := start_inv f2 hb he hr E.junk ()
  obtain ⟨g1, g2⟩ := endBlock_ge hB e
  obtain ⟨st2, r', bs', d1, d2, d3, d4, d5⟩ := distribute_inv (hi := endBlock B e) E hE hk xs st1 r (List.replicate k []) a2
    (by rw [a3]; exact hr.has he f2 f4) (by intro q hq _; apply endBlock_lt hB; omega) (by simp)
  have hfl : ∀ n, (List.replicate n ([] : List α)).flatten = [] := by
    intro n; induction n with
    | zero => rfl
    | succ n ih => simp [List.replicate_succ]
  rw [hfl, List.append_nil] at d5
  exact ⟨s1, f1, f2, f3, f4, st1, a1, st2, r', bs', by rw [← hxl]; exact d1, d2, by omega, d4, d5⟩

theorem memory_ok {E : Env α R} (hBS : 0 < E.BS) (M : Nat) :
    0 < (if M < 6 * E.BS + P * E.BS then 6 * E.BS + P * E.BS else M) / (3 * E.BS) := by
  apply Nat.div_pos _ (by omega)
  split <;> (have := Nat.zero_le (P * E.BS); omega)

theorem shuffle_perm (E : Env α R) (hE : EnvOk B E) : ∀ (d M : Nat) (s : Sys α) (b e : Nat) (r : R) (s' : Sys α) (r' : R) (abs : List (Option α))
    (xs : List α), Inv B P s abs → b ≤ e → e ≤ abs.length → Range abs b e xs → shuffle B P E d M s b e r = .ok (s', r') →
    ∃ zs : List α, zs.Perm xs ∧ Inv B P s' (abs.take b ++ zs.map some ++ abs.drop e) ∧ Same s s' := by
  intro d
  induction d with
  | zero => intro M s b e r s' r' abs xs _ _ _ _ hr; simp [shuffle] at hr
  | succ d ih =>
    intro M s b e r s' r' abs xs h hb he hr hrun
    have hB := h.hB
    have hxl := hr.len he
    simp only [shuffle] at hrun
    obtain ⟨s1, f1, f2, f3, f4, st1, a1, st2, r2, bs, d1, d2, d3, d4, d5⟩ := shuffle_head E hE h hb he hr (memory_ok (P := P) hE.BS M) r
    rw [f1] at hrun
    dsimp only at hrun
    split at hrun
    · cases hrun
    rw [a1] at hrun
    dsimp only at hrun
    rw [d1] at hrun
    dsimp only at hrun
    have hrec : RecOk B P (fun M tv n r => shuffle B P E d M tv 0 n r) := by
      intro M tv n r tv' r' xs hi hn hq
      subst hn
      obtain ⟨zs, z1, z2, z3⟩ := ih M tv 0 xs.length r tv' r' (xs.map some) xs hi (Nat.zero_le _) (by simp) (range_all _) hq
      exact ⟨zs, z1, by rw [List.drop_of_length_le (by simp)] at z2; simpa using z2, z3⟩
    split at hrun
    · cases hrun
    · rename_i st3 r3 hbk
      have hml := Nat.mod_le b B
      have hfl := d5.length_eq
      have hcap : e ≤ s1.vec.bids.length * B := by have := f2.cap; have := f2.len; omega
      obtain ⟨ys, y1, y2, y3⟩ := buckets_inv E hE h.hP hrec bs _ _ _ _ _ _ d2 (by rw [raw_length, d3]; omega) (by rw [d3]; exact hcap) hbk
      have hp : ys.Perm xs := y1.trans d5
      obtain ⟨st4, c1, c2, c3, c4⟩ := finish_inv f2 f4 hb he hr hp.length_eq y2 (by rw [y3, d3]) ()
      refine ⟨ys, hp, ?_, ?_⟩
      all_goals
        by_cases hm : e % B ≠ 0
        · rw [if_pos hm] at c1 hrun
          rw [c1] at hrun
          dsimp only at hrun
          rw [if_pos c2] at hrun
          cases hrun
          first | exact c3 | exact f3.trans c4
        · rw [if_neg hm] at c1 hrun
          cases c1
          rw [if_pos c2] at hrun
          cases hrun
          first | exact c3 | exact f3.trans c4

/-! ## No undefined behaviour -/

/-- The buckets never run into undefined behaviour: there is always space for an empty bucket, and the space does not overflow. -/
theorem buckets_noub {s1 : Sys α} {p0 N : Nat} (E : Env α R) (hE : EnvOk B E) (hP : 0 < P)
    {recur : Nat → Sys α → Nat → R → Except Err (Sys α × R)} (hrec : RecOk B P recur)
    (hno : ∀ M tv r (xs : List α), Inv B P tv (xs.map some) → 0 < xs.length → xs.length ≤ N → M ≤ xs.length * E.sz + P * E.BS →
      recur M tv xs.length r ≠ .error .ub) : ∀ (bs : List (List α)) (space : Nat) (ws : List α) (st : St α) (r : R), SInv B s1 p0 ws st →
    p0 + ws.length + bs.flatten.length ≤ st.ipos → st.ipos ≤ s1.vec.bids.length * B → bs.flatten.length ≤ N → 0 < space →
    space + bs.length * ((P + 1) * E.BS) < W → buckets B P E recur bs space st r ≠ .error .ub := by
  intro bs
  induction bs with
  | nil => intro space ws st r _ _ _ _ _ _ hr; simp [buckets] at hr
  | cons xs bs ih =>
    intro space ws st r h hl hc hN h0 hW hr
    simp only [List.flatten_cons, List.length_append] at hl hN
    have hW2 : space + ((P + 1) * E.BS + bs.length * ((P + 1) * E.BS)) < W := by
      rw [List.length_cons, Nat.add_mul, Nat.one_mul] at hW; omega
    have hPB : (P + 1) * E.BS = P * E.BS + E.BS := by rw [Nat.add_mul, Nat.one_mul]
    simp only [buckets] at hr
    by_cases hsp : xs.length * E.sz < space
    · rw [if_pos hsp] at hr
      have hpl := (hE.shuf r xs).length_eq
      obtain ⟨st1, q1, q2, q3⟩ := putAll_inv (E.shuf r xs).1 ws st h (by omega) hc
      rw [q1] at hr
      have hmod : (space + E.BS) % W = space + E.BS := Nat.mod_eq_of_lt (by omega)
      refine ih _ _ _ _ q2 (by rw [List.length_append, q3]; omega) (by rw [q3]; exact hc) (by omega) ?_ ?_ hr
      · rw [hmod]; omega
      · rw [hmod]; omega
    · rw [if_neg hsp] at hr
      obtain ⟨tv, t1, t2, t3⟩ := temp_inv (P := P) E hE h.hB hP xs
      rw [t1] at hr
      dsimp only at hr
      have hmod : (space + P * E.BS) % W = space + P * E.BS := Nat.mod_eq_of_lt (by omega)
      have hmod2 : (space + P * E.BS + E.BS) % W = space + P * E.BS + E.BS := Nat.mod_eq_of_lt (by omega)
      rw [hmod] at hr
      have hne : 0 < xs.length := by
        rcases Nat.eq_zero_or_pos xs.length with hz | hz
        · rw [hz, Nat.zero_mul] at hsp; omega
        · exact hz
      cases hq : recur (space + P * E.BS) tv xs.length r with
      | error x =>
        rw [hq] at hr
        cases x with
        | ub => exact hno _ _ _ xs t2 hne (by omega) (by omega) hq
        | depth => cases hr
      | ok p =>
        obtain ⟨tv', r2⟩ := p
        rw [hq] at hr
        dsimp only at hr
        obtain ⟨zs, z1, z2, z3⟩ := hrec _ _ _ _ _ _ xs t2 rfl hq
        have hzl := z1.length_eq
        rw [readAll_inv xs.length 0 tv' z2 (by omega) (by intro i; rw [z3.npages, t3]; exact hE.vic i)] at hr
        rw [List.drop_zero, List.take_of_length_le (by omega)] at hr
        dsimp only at hr
        obtain ⟨st1, q1, q2, q3⟩ := putAll_inv zs ws st h (by omega) hc
        rw [q1] at hr
        dsimp only at hr
        rw [hmod2] at hr
        refine ih _ _ _ _ q2 (by rw [List.length_append, q3]; omega) (by rw [q3]; exact hc) (by omega) (by omega) ?_ hr
        omega

/-- Memory in bytes the algorithm works with. -/
def memory (P : Nat) (E : Env α R) (M : Nat) : Nat := if M < 6 * E.BS + P * E.BS then 6 * E.BS + P * E.BS else M

/-- The initial `space_left`. -/
theorem space_eq {E : Env α R} (hBS : 0 < E.BS) (hP12 : P < 12) {M : Nat} (hM : 5 * memory P E M < W) :
    (memory P E M + (W - (memory P E M / (3 * E.BS) * E.BS + P * E.BS) % W)) % W + (memory P E M / (3 * E.BS) * E.BS + P * E.BS) = memory P E M ∧
    0 < (memory P E M + (W - (memory P E M / (3 * E.BS) * E.BS + P * E.BS) % W)) % W ∧
    (memory P E M + (W - (memory P E M / (3 * E.BS) * E.BS + P * E.BS) % W)) % W + memory P E M / (3 * E.BS) * ((P + 1) * E.BS) < W := by
  have hge : 6 * E.BS + P * E.BS ≤ memory P E M := by unfold memory; split <;> omega
  generalize memory P E M = m at *
  have hk : m / (3 * E.BS) * (3 * E.BS) ≤ m := Nat.div_mul_le_self _ _
  have hk2 : 3 * (m / (3 * E.BS) * E.BS) ≤ m := by
    calc 3 * (m / (3 * E.BS) * E.BS) = m / (3 * E.BS) * (3 * E.BS) := by
          rw [← Nat.mul_assoc, Nat.mul_comm 3, Nat.mul_assoc]
      _ ≤ m := hk
  have hP3 : P * E.BS ≤ 11 * E.BS := Nat.mul_le_mul_right _ (by omega)
  have hPk : m / (3 * E.BS) * ((P + 1) * E.BS) ≤ 12 * (m / (3 * E.BS) * E.BS) := by
    calc m / (3 * E.BS) * ((P + 1) * E.BS) = (P + 1) * (m / (3 * E.BS) * E.BS) := by
          rw [← Nat.mul_assoc, ← Nat.mul_assoc, Nat.mul_comm (m / (3 * E.BS))]
      _ ≤ 12 * (m / (3 * E.BS) * E.BS) := Nat.mul_le_mul_right _ (by omega)
  generalize m / (3 * E.BS) * ((P + 1) * E.BS) = kp at *
  generalize m / (3 * E.BS) * E.BS = kb at *
  generalize P * E.BS = pb at *
  have hlt : kb + pb < m := by omega
  have h1 : (kb + pb) % W = kb + pb := Nat.mod_eq_of_lt (by omega)
  have h2 : (m + (W - (kb + pb))) % W = m - (kb + pb) := by
    rw [show m + (W - (kb + pb)) = (m - (kb + pb)) + W by omega, Nat.add_mod_right, Nat.mod_eq_of_lt (by omega)]
  rw [h1, h2]
  omega

theorem shuffle_noub (E : Env α R) (hE : EnvOk B E) (hP12 : P < 12) : ∀ (d M : Nat) (s : Sys α) (b e : Nat) (r : R) (abs : List (Option α))
    (xs : List α), Inv B P s abs → b ≤ e → e ≤ abs.length → Range abs b e xs → (b < e ∨ b % B ≠ 0) → 5 * memory P E M < W →
    5 * ((e - b) * E.sz + P * E.BS) < W → 5 * (6 * E.BS + P * E.BS) < W → shuffle B P E d M s b e r ≠ .error .ub := by
  intro d
  induction d with
  | zero => intro M s b e r abs xs _ _ _ _ _ _ _ _ hr; simp [shuffle] at hr
  | succ d ih =>
    intro M s b e r abs xs h hb he hr hne hM hN h6 hrun
    have hB := h.hB
    have hxl := hr.len he
    obtain ⟨sp1, sp2, sp3⟩ := space_eq hE.BS hP12 hM
    have hk := memory_ok (P := P) hE.BS M
    change 0 < memory P E M / (3 * E.BS) at hk
    simp only [shuffle] at hrun
    change (match flush P s with
      | none => _
      | some s => _) = _ at hrun
    obtain ⟨s1, f1, f2, f3, f4, st1, a1, st2, r2, bs, d1, d2, d3, d4, d5⟩ := shuffle_head E hE h hb he hr hk r
    rw [f1] at hrun
    dsimp only at hrun
    rw [if_neg] at hrun
    rotate_left
    · -- the stream has a block
      intro hc
      have hbd := Nat.div_add_mod b B
      have hle : b / B ≤ e / B := Nat.div_le_div_right hb
      have hed := Nat.div_add_mod e B
      unfold endBlock at hc
      rw [Nat.mul_comm] at hbd hed
      split at hc
      · omega
      · rename_i hz
        have : e / B = b / B := by omega
        rw [this] at hed
        rcases hne with hlt | hm
        · omega
        · omega
    rw [a1] at hrun
    dsimp only at hrun
    unfold memory at d1 sp1 sp2 sp3
    rw [d1] at hrun
    dsimp only at hrun
    have hrec : RecOk B P (fun M tv n r => shuffle B P E d M tv 0 n r) := by
      intro M tv n r tv' r' xs hi hn hq
      subst hn
      obtain ⟨zs, z1, z2, z3⟩ := shuffle_perm E hE d M tv 0 xs.length r tv' r' (xs.map some) xs hi (Nat.zero_le _) (by simp) (range_all _) hq
      exact ⟨zs, z1, by rw [List.drop_of_length_le (by simp)] at z2; simpa using z2, z3⟩
    have hml := Nat.mod_le b B
    have hfl := d5.length_eq
    have hcap : e ≤ s1.vec.bids.length * B := by have := f2.cap; have := f2.len; omega
    have hnb := buckets_noub (N := e - b) E hE h.hP hrec (recur := fun M tv n r => shuffle B P E d M tv 0 n r) (by
      intro M' tv r' ys hi h0 hle hM'
      have hsz : ys.length * E.sz ≤ (e - b) * E.sz := Nat.mul_le_mul_right _ hle
      refine ih M' tv 0 ys.length r' (ys.map some) ys hi (Nat.zero_le _) (by simp) (range_all _) (Or.inl h0) ?_ ?_ h6
      · unfold memory; split <;> omega
      · rw [Nat.sub_zero]; omega) bs _ _ st2 r2 d2 (by rw [raw_length, d3]; omega) (by rw [d3]; exact hcap) (by omega) sp2 (by rw [d4]; exact sp3)
    split at hrun
    · rename_i x hx
      cases x with
      | ub => exact hnb hx
      | depth => cases hrun
    · rename_i st3 r3 hbk
      obtain ⟨ys, y1, y2, y3⟩ := buckets_inv E hE h.hP hrec bs _ _ _ _ _ _ d2 (by rw [raw_length, d3]; omega) (by rw [d3]; exact hcap) hbk
      have hp : ys.Perm xs := y1.trans d5
      obtain ⟨st4, c1, c2, c3, c4⟩ := finish_inv f2 f4 hb he hr hp.length_eq y2 (by rw [y3, d3]) ()
      by_cases hm : e % B ≠ 0
      · rw [if_pos hm] at c1 hrun
        rw [c1] at hrun
        dsimp only at hrun
        rw [if_pos c2] at hrun
        cases hrun
      · rw [if_neg hm] at c1 hrun
        cases c1
        rw [if_pos c2] at hrun
        cases hrun

/-! ## A constant generator -/

theorem distribute_const {hi k : Nat} (E : Env α R) (hr : ∀ r k, (E.rng r k).1 = 0) : ∀ (n : Nat) (st : St α) (r : R) (l : List α)
    (bs : List (List α)) (st' : St α) (r' : R) (bs' : List (List α)), distribute B hi k E n st r (l :: bs) = .ok (st', r', bs') →
    ∃ l', bs' = l' :: bs ∧ l'.length = l.length + n := by
  intro n
  induction n with
  | zero => intro st r l bs st' r' bs' h; simp only [distribute, Except.ok.injEq, Prod.mk.injEq] at h; exact ⟨l, h.2.2.symm, rfl⟩
  | succ n ih =>
    intro st r l bs st' r' bs' h
    simp only [distribute, hr] at h
    split at h
    · cases h
    · simp only [List.getElem?_cons_zero, List.set_cons_zero] at h
      obtain ⟨l', h1, h2⟩ := ih _ _ _ _ _ _ _ h
      exact ⟨l', h1, by rw [h2]; simp; omega⟩

theorem shuffle_const (E : Env α R) (hE : EnvOk B E) (hr0 : ∀ r k, (E.rng r k).1 = 0) (hP12 : P < 12) : ∀ (d M : Nat) (s : Sys α) (b e : Nat) (r : R)
    (abs : List (Option α)) (xs : List α), Inv B P s abs → b < e → e ≤ abs.length → Range abs b e xs → 5 * memory P E M < W →
    memory P E M ≤ (e - b) * E.sz → shuffle B P E d M s b e r = .error .depth := by
  intro d
  induction d with
  | zero => intros; rfl
  | succ d ih =>
    intro M s b e r abs xs h hb he hr hM hN
    have hB := h.hB
    have hxl := hr.len he
    obtain ⟨sp1, sp2, sp3⟩ := space_eq hE.BS hP12 hM
    have hk := memory_ok (P := P) hE.BS M
    change 0 < memory P E M / (3 * E.BS) at hk
    have hge : 6 * E.BS + P * E.BS ≤ memory P E M := by unfold memory; split <;> omega
    obtain ⟨s1, f1, f2, f3, f4, st1, a1, st2, r2, bs, d1, d2, d3, d4, d5⟩ := shuffle_head E hE h (Nat.le_of_lt hb) he hr hk r
    simp only [shuffle]
    rw [f1]
    dsimp only
    rw [if_neg]
    rotate_left
    · intro hc
      have hbd := Nat.div_add_mod b B
      have hle : b / B ≤ e / B := Nat.div_le_div_right (Nat.le_of_lt hb)
      have hed := Nat.div_add_mod e B
      unfold endBlock at hc
      rw [Nat.mul_comm] at hbd hed
      split at hc
      · omega
      · have : e / B = b / B := by omega
        rw [this] at hed
        omega
    rw [a1]
    dsimp only
    have hmd : (if M < 6 * E.BS + P * E.BS then 6 * E.BS + P * E.BS else M) = memory P E M := rfl
    rw [hmd]
    rw [d1]
    dsimp only
    obtain ⟨k', hk'⟩ : ∃ k', memory P E M / (3 * E.BS) = k' + 1 := ⟨_, (Nat.succ_pred_eq_of_pos hk).symm⟩
    have hd := d1
    rw [hk', List.replicate_succ] at hd
    obtain ⟨l, l1, l2⟩ := distribute_const E hr0 _ _ _ _ _ _ _ _ hd
    simp only [List.length_nil, Nat.zero_add] at l2
    subst l1
    generalize (memory P E M + (W - (memory P E M / (3 * E.BS) * E.BS + P * E.BS) % W)) % W = space at *
    simp only [buckets]
    rw [if_neg (by rw [l2]; omega)]
    obtain ⟨tv, t1, t2, t3⟩ := temp_inv (P := P) E hE hB h.hP l
    rw [t1]
    dsimp only
    have hkB : E.BS ≤ memory P E M / (3 * E.BS) * E.BS := Nat.le_mul_of_pos_left _ hk
    have hmod : (space + P * E.BS) % W = space + P * E.BS := Nat.mod_eq_of_lt (by omega)
    rw [hmod]
    have hmem : memory P E (space + P * E.BS) ≤ memory P E M := by
      show (if space + P * E.BS < _ then _ else _) ≤ _
      split <;> omega
    rw [ih (space + P * E.BS) tv 0 l.length r2 (l.map some) l t2 (by omega) (by simp) (range_all _) (by omega) (by rw [l2, Nat.sub_zero]; omega)]

end Stxxl.Scan
