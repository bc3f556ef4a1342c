import Verif.VecBuf.Reader
import Verif.VecBuf.Spec
import Verif.BufStream.Streams
import Verif.ExtVector.Spec
/-! Proofs about the buffered readers. -/
namespace Stxxl.VecBuf
open Stxxl.Io Stxxl.Io.Io
open Stxxl.BufStream
open Spec
variable {α : Type} {bl seq : Nat → Nat} {B bufs len : Nat} {d0 : Nat → Nat → α}

def PrefOk (seq : Nat → Nat) (bufs len : Nat) : Prop := ∀ k < len, ∃ j < min (k + bufs) len, seq j = k

theorem a_lt {a e n : Nat} (h : a * B + e + (n + 1) ≤ len * B) : a < len := by
  rcases Nat.lt_or_ge a len with h1 | h1
  · exact h1
  · have := Nat.mul_le_mul_right B h1; omega

theorem getAll_inv (hs : SeqOk seq len) (hsq : PrefOk seq bufs len) (srv : Nat → List Nat × List Nat) :
    ∀ (n : Nat) (s : Is α) (a e : Nat), IInv bl seq B bufs len d0 s a e → a * B + e + n ≤ len * B →
    ∃ s' xs a' e', Is.getAll bl seq B srv n s = some (s', xs) ∧ IInv bl seq B bufs len d0 s' a' e' ∧ a' * B + e' = a * B + e + n
  | 0, s, a, e, h, _ => ⟨s, [], a, e, rfl, h, rfl⟩
  | n + 1, s, a, e, h, hn => by
    obtain ⟨s1, h1, h2⟩ := get_ok hs hsq (srv n).1 (srv n).2 h (a_lt hn)
    have : ∃ a1 e1, IInv bl seq B bufs len d0 s1 a1 e1 ∧ a1 * B + e1 = a * B + e + 1 := by
      rcases h2 with ⟨_, h2⟩ | ⟨hb, h2⟩
      · exact ⟨a, e + 1, h2, by omega⟩
      · exact ⟨a + 1, 0, h2, by rw [Nat.succ_mul]; omega⟩
    obtain ⟨a1, e1, h3, h4⟩ := this
    obtain ⟨s', xs, a', e', g1, g2, g3⟩ := getAll_inv hs hsq srv n s1 a1 e1 h3 (by omega)
    refine ⟨s', d0 (bl a) e :: xs, a', e', ?_, g2, by omega⟩
    show (match Is.get bl seq B (srv n).1 (srv n).2 s with
      | none => none
      | some (s, x) => match Is.getAll bl seq B srv n s with
        | none => none
        | some (s, xs) => some (s, x :: xs)) = _
    rw [h1]
    dsimp only
    rw [g1]

/-! ### The reverse stream -/

/-- State of a reverse stream that has consumed `e` records of its block `a`. -/
def RInv (bl seq : Nat → Nat) (B bufs len : Nat) (d0 : Nat → Nat → α) (s : Is α) (a e : Nat) : Prop :=
  (a < len ∧ e < B ∧ s.more = true ∧ s.elem = B - 1 - e ∧ s.pf.len = len ∧ s.pf.nextconsume = a + 1 ∧
    ∃ ready, PInv bl seq bufs d0 s.pf [(a, s.cur)] ready ∧ PCnt s.pf [(a, s.cur)]) ∨ (a = len ∧ e = 0)

theorem rget_ok (hs : SeqOk seq len) (hsq : PrefOk seq bufs len) (srv srv' : List Nat) {s : Is α} {a e : Nat}
    (h : RInv bl seq B bufs len d0 s a e) (ha : a < len) :
    ∃ s', rGet bl seq B srv srv' s = some (s', d0 (bl a) (B - 1 - e)) ∧
      ((e + 1 < B ∧ RInv bl seq B bufs len d0 s' a (e + 1)) ∨ (e + 1 = B ∧ RInv bl seq B bufs len d0 s' (a + 1) 0)) := by
  rcases h with ⟨-, he, hm, hel, hlen, hnc, ready, hp, hc⟩ | ⟨h, -⟩
  swap
  · omega
  unfold rGet
  rw [if_pos hm]
  dsimp only
  have hval : s.pf.io.mem s.cur = d0 (bl a) := hp.hld (a, s.cur) (by simp)
  rw [hval, hel]
  by_cases hB : e + 1 ≥ B
  · rw [if_pos (by omega)]
    rcases hp.consumed (m := bufs) (by rw [hlen]; exact hs) hc (by rw [hlen]; exact hsq) (a, s.cur) (by simp) (by simp; omega) srv srv' with
      ⟨hlt, p', b, ready', h1, h2, h3, h4, h5⟩ | ⟨hlt, p', ready', h1, h2, h3, h4, h5⟩
    · rw [h1]
      refine ⟨_, rfl, Or.inr ⟨by omega, Or.inl ⟨by omega, by omega, rfl, rfl, h5.trans hlen, by show p'.nextconsume = _; omega, ready', ?_⟩⟩⟩
      rw [hnc] at h2 h3
      simp only [List.erase_cons_head] at h2 h3
      exact ⟨h2, h3⟩
    · rw [h1]
      exact ⟨_, rfl, Or.inr ⟨by omega, Or.inr ⟨by omega, rfl⟩⟩⟩
  · rw [if_neg (by omega)]
    exact ⟨_, rfl, Or.inl ⟨by omega, Or.inl ⟨ha, by omega, hm, by show B - 1 - e - 1 = _; omega, hlen, hnc, ready, hp, hc⟩⟩⟩

theorem rgetAll_inv (hs : SeqOk seq len) (hsq : PrefOk seq bufs len) (srv : Nat → List Nat × List Nat) :
    ∀ (n : Nat) (s : Is α) (a e : Nat), RInv bl seq B bufs len d0 s a e → a * B + e + n ≤ len * B →
    ∃ s' xs a' e', rGetAll bl seq B srv n s = some (s', xs) ∧ RInv bl seq B bufs len d0 s' a' e' ∧ a' * B + e' = a * B + e + n
  | 0, s, a, e, h, _ => ⟨s, [], a, e, rfl, h, rfl⟩
  | n + 1, s, a, e, h, hn => by
    obtain ⟨s1, h1, h2⟩ := rget_ok hs hsq (srv n).1 (srv n).2 h (a_lt hn)
    have : ∃ a1 e1, RInv bl seq B bufs len d0 s1 a1 e1 ∧ a1 * B + e1 = a * B + e + 1 := by
      rcases h2 with ⟨_, h2⟩ | ⟨hb, h2⟩
      · exact ⟨a, e + 1, h2, by omega⟩
      · exact ⟨a + 1, 0, h2, by rw [Nat.succ_mul]; omega⟩
    obtain ⟨a1, e1, h3, h4⟩ := this
    obtain ⟨s', xs, a', e', g1, g2, g3⟩ := rgetAll_inv hs hsq srv n s1 a1 e1 h3 (by omega)
    refine ⟨s', d0 (bl a) (B - 1 - e) :: xs, a', e', ?_, g2, by omega⟩
    show (match rGet bl seq B (srv n).1 (srv n).2 s with
      | none => none
      | some (s, x) => match rGetAll bl seq B srv n s with
        | none => none
        | some (s, xs) => some (s, x :: xs)) = _
    rw [h1]
    dsimp only
    rw [g1]

/-! ### The readers -/

/-- Conditions under which a reader works. -/
structure Ok (B : Nat) (c : Cfg α) : Prop where
  hB : 1 ≤ B
  le : c.first ≤ c.last
  nd : 1 ≤ c.ndisks
  quiet : ∀ i r, ¬ Pend c.io i r

/-- All devices have numbers up to the maximum. -/
def Env.Ok (e : Env) (mdev : Nat) : Prop := ∀ b d, e.dev b = some d → d ≤ mdev

/-- Element `i` of the vector on the disk. -/
def Cfg.elem (c : Cfg α) (B i : Nat) : α := c.io.disk (c.bids.getD (i / B) 0) (i % B)

theorem len_mul {c : Cfg α} (hB : 1 ≤ B) (hlt : c.first < c.last) :
    c.last ≤ c.first / B * B + c.len B * B ∧ 0 < c.len B ∧ (c.last % B = 0 → c.last = c.first / B * B + c.len B * B) ∧
    (c.last % B ≠ 0 → c.last + (B - c.last % B) = c.first / B * B + c.len B * B) := by
  unfold Cfg.len
  have h1 := Nat.div_add_mod c.last B
  have h2 := Nat.div_add_mod c.first B
  have h3 := Nat.mod_lt c.last (y := B) (by omega)
  have h4 : c.first / B ≤ c.last / B := Nat.div_le_div_right (by omega)
  rw [← Nat.add_mul]
  rw [Nat.mul_comm] at h1 h2
  by_cases h : c.last % B = 0
  · simp only [h, ne_eq, not_true, if_false, Nat.add_zero]
    have h5 : c.first / B < c.last / B := by
      rcases Nat.lt_or_ge (c.first / B) (c.last / B) with h5 | h5
      · exact h5
      · have := Nat.mul_le_mul_right B h5; omega
    rw [Nat.add_sub_cancel' h4]
    refine ⟨by omega, by omega, fun _ => by omega, fun h => by simp at h⟩
  · simp only [ne_eq, h, not_false_eq_true, if_true]
    rw [Nat.add_sub_cancel' (by omega), Nat.succ_mul]
    refine ⟨by omega, by omega, fun h' => by simp at h', fun _ => by omega⟩

/-- A forward reader at position `i`. -/
def FInv (B : Nat) (c : Cfg α) (r : Rd α) (i : Nat) : Prop :=
  r.iter = i ∧ c.first ≤ i ∧ i ≤ c.last ∧ (i < c.last → ∃ s seq a e, r.bufin = some (s, seq) ∧ SeqOk seq (c.len B) ∧
    PrefOk seq (Is.bufs c.ndisks (nbufs c.ndisks c.nbuffers)) (c.len B) ∧
    IInv (c.bl B) seq B (Is.bufs c.ndisks (nbufs c.ndisks c.nbuffers)) (c.len B) c.io.disk s a e ∧ c.first / B * B + (a * B + e) = i)

theorem split_pos {a e b i : Nat} (hB : 1 ≤ B) (he : e < B) (h : b * B + (a * B + e) = i) : i / B = b + a ∧ i % B = e := by
  rw [← Nat.add_assoc, ← Nat.add_mul] at h
  subst h
  constructor
  · rw [Nat.mul_comm, Nat.mul_add_div (by omega), Nat.div_eq_of_lt he, Nat.add_zero]
  · rw [Nat.mul_comm, Nat.mul_add_mod, Nat.mod_eq_of_lt he]

theorem rewind_ok {c : Cfg α} (h : Ok B c) {e : Env} (he : e.Ok c.mdev) (r : Rd α) : ∃ r', rewind B c e r = some r' ∧ FInv B c r' c.first := by
  unfold rewind
  by_cases hE : c.first = c.last
  · rw [if_pos hE]
    exact ⟨_, rfl, rfl, Nat.le_refl _, by omega, fun h => by omega⟩
  · have hlt : c.first < c.last := by have := h.le; omega
    rw [if_neg hE]
    obtain ⟨l1, l2, _, _⟩ := len_mul h.hB hlt
    obtain ⟨s, seq, h1, h2, h3, h4⟩ := inew_ok (bl := c.bl B) (B := B) e.dev e.junk e.tie e.srv c.io h.quiet (c.len B) c.ndisks c.mdev
      (nbufs c.ndisks c.nbuffers) l2 h.hB h.nd (fun b _ d hd => he b d hd)
    rw [h1]
    dsimp only
    have hm := Nat.div_add_mod c.first B
    rw [Nat.mul_comm] at hm
    obtain ⟨s', xs, a', e', g1, g2, g3⟩ := getAll_inv h2 h3 e.srvs (c.first % B) s 0 0 h4 (by omega)
    rw [g1]
    refine ⟨_, rfl, rfl, Nat.le_refl _, by omega, fun _ => ⟨s', seq, a', e', rfl, h2, h3, g2, by omega⟩⟩

theorem next_ok {c : Cfg α} (h : Ok B c) (srv srv' : List Nat) {r : Rd α} {i : Nat} (hr : FInv B c r i) (hi : i < c.last) :
    ∃ r', next B c srv srv' r = some (r', c.elem B i) ∧ FInv B c r' (i + 1) := by
  obtain ⟨h1, h2, h3, h4⟩ := hr
  obtain ⟨s, seq, a, e, b1, b2, b3, b4, b5⟩ := h4 hi
  obtain ⟨l1, l2, _, _⟩ := len_mul h.hB (c := c) (by omega)
  have ha : a < c.len B := a_lt (B := B) (e := e) (n := 0) (by omega)
  have heB : e < B := by
    rcases b4 with ⟨-, he, -⟩ | ⟨hx, -⟩
    · exact he
    · omega
  obtain ⟨s', g1, g2⟩ := get_ok b2 b3 srv srv' b4 ha
  unfold next
  rw [b1]
  dsimp only
  rw [if_neg (by omega), g1]
  dsimp only
  obtain ⟨e1, e2⟩ := split_pos h.hB heB b5
  refine ⟨⟨r.iter + 1, if r.iter + 1 = c.last then none else some (s', seq)⟩, ?_, by show r.iter + 1 = _; omega, by omega, by omega, fun hlt => ?_⟩
  · simp only [Cfg.elem, e1, e2, Cfg.bl]
  · have : ∃ a1 e1, IInv (c.bl B) seq B (Is.bufs c.ndisks (nbufs c.ndisks c.nbuffers)) (c.len B) c.io.disk s' a1 e1 ∧
        a1 * B + e1 = a * B + e + 1 := by
      rcases g2 with ⟨_, g2⟩ | ⟨hb, g2⟩
      · exact ⟨a, e + 1, g2, by omega⟩
      · exact ⟨a + 1, 0, g2, by rw [Nat.succ_mul]; omega⟩
    obtain ⟨a1, e1, g3, g4⟩ := this
    refine ⟨s', seq, a1, e1, ?_, b2, b3, g3, by omega⟩
    show (if r.iter + 1 = c.last then none else some (s', seq)) = _
    rw [if_neg (by omega)]

/-- The actions behind a history. -/
def ROp.act : ROp → Act
  | .get _ _ => .get
  | .rewind _ => .rewind

/-- The environment of a history is possible. -/
def ROp.Ok (mdev : Nat) : ROp → Prop
  | .get _ _ => True
  | .rewind e => e.Ok mdev

theorem runF_ok {c : Cfg α} (h : Ok B c) : ∀ (ops : List ROp) (r : Rd α) (i j : Nat) (xs : List α), FInv B c r i →
    (∀ o ∈ ops, o.Ok c.mdev) → readUp (c.elem B) c.first c.last (ops.map ROp.act) i = some (j, xs) →
    ∃ r', runF B c ops r = some (r', xs) ∧ FInv B c r' j := by
  intro ops
  induction ops with
  | nil =>
    intro r i j xs hr _ hs
    simp only [List.map_nil, readUp, Option.some.injEq, Prod.mk.injEq] at hs
    obtain ⟨rfl, rfl⟩ := hs
    exact ⟨r, rfl, hr⟩
  | cons o ops ih =>
    intro r i j xs hr ho hs
    cases o with
    | get srv srv' =>
      simp only [List.map_cons, ROp.act, readUp] at hs
      by_cases hi : i < c.last
      · rw [if_pos hi] at hs
        simp only [Option.map_eq_some_iff] at hs
        obtain ⟨⟨j', xs'⟩, hs, he⟩ := hs
        simp only [Prod.mk.injEq] at he
        obtain ⟨rfl, rfl⟩ := he
        obtain ⟨r1, h1, h2⟩ := next_ok h srv srv' hr hi
        obtain ⟨r2, h3, h4⟩ := ih r1 (i + 1) _ _ h2 (fun o ho' => ho o (by simp [ho'])) hs
        refine ⟨r2, ?_, h4⟩
        simp only [runF, h1, h3, Option.map_some]
      · rw [if_neg hi] at hs; simp at hs
    | rewind e =>
      simp only [List.map_cons, ROp.act, readUp] at hs
      obtain ⟨r1, h1, h2⟩ := rewind_ok h (ho (.rewind e) (by simp)) r
      obtain ⟨r2, h3, h4⟩ := ih r1 _ _ _ h2 (fun o ho' => ho o (by simp [ho'])) hs
      exact ⟨r2, by simp only [runF, h1, h3], h4⟩

/-! ### The reverse reader -/

/-- A reverse reader before position `i`. -/
def BInv (B : Nat) (c : Cfg α) (r : Rd α) (i : Nat) : Prop :=
  r.iter = i ∧ c.first ≤ i ∧ i ≤ c.last ∧ (c.first < i → ∃ s seq a e, r.bufin = some (s, seq) ∧ SeqOk seq (c.len B) ∧
    PrefOk seq (Is.bufs c.ndisks (nbufs c.ndisks c.nbuffers)) (c.len B) ∧
    RInv (c.rbl B) seq B (Is.bufs c.ndisks (nbufs c.ndisks c.nbuffers)) (c.len B) c.io.disk s a e ∧
    i + (a * B + e) = c.first / B * B + c.len B * B)

theorem rewindR_ok {c : Cfg α} (h : Ok B c) {e : Env} (he : e.Ok c.mdev) (r : Rd α) :
    ∃ r', rewindR B c e r = some r' ∧ BInv B c r' c.last := by
  unfold rewindR
  by_cases hE : c.first = c.last
  · rw [if_pos hE]
    exact ⟨_, rfl, rfl, by omega, Nat.le_refl _, fun h => by omega⟩
  · have hlt : c.first < c.last := by have := h.le; omega
    rw [if_neg hE]
    obtain ⟨l1, l2, l3, l4⟩ := len_mul h.hB hlt
    obtain ⟨s, seq, h1, h2, h3, h4⟩ := inew_ok (bl := c.rbl B) (B := B) e.dev e.junk e.tie e.srv c.io h.quiet (c.len B) c.ndisks c.mdev
      (nbufs c.ndisks c.nbuffers) l2 h.hB h.nd (fun b _ d hd => he b d hd)
    unfold rNew
    rw [h1]
    dsimp only
    have h5 : RInv (c.rbl B) seq B (Is.bufs c.ndisks (nbufs c.ndisks c.nbuffers)) (c.len B) c.io.disk { s with elem := B - 1 } 0 0 := by
      rcases h4 with ⟨a1, a2, a3, a4, a5⟩ | ⟨a1, a2⟩
      · exact .inl ⟨a1, a2, a3, by show B - 1 = _; omega, a5⟩
      · omega
    have hsk : (if c.last % B = 0 then 0 else B - c.last % B) + c.last = c.first / B * B + c.len B * B := by
      by_cases hz : c.last % B = 0
      · rw [if_pos hz]; have := l3 hz; omega
      · rw [if_neg hz]; have := l4 hz; omega
    have hle : (if c.last % B = 0 then 0 else B - c.last % B) ≤ c.len B * B := by
      have : c.first / B * B ≤ c.first := Nat.div_mul_le_self _ _
      omega
    obtain ⟨s', xs, a', e', g1, g2, g3⟩ := rgetAll_inv h2 h3 e.srvs (if c.last % B = 0 then 0 else B - c.last % B) _ 0 0 h5 (by omega)
    rw [g1]
    refine ⟨_, rfl, rfl, by omega, Nat.le_refl _, fun _ => ⟨s', seq, a', e', rfl, h2, h3, g2, by omega⟩⟩

theorem split_rev {a e b L i : Nat} (hB : 1 ≤ B) (he : e < B) (ha : a < L) (h : i + (a * B + e) = b * B + L * B) :
    (i - 1) / B = b + (L - 1 - a) ∧ (i - 1) % B = B - 1 - e := by
  have h1 : i - 1 = b * B + ((L - 1 - a) * B + (B - 1 - e)) := by
    obtain ⟨k, rfl⟩ : ∃ k, L = a + 1 + k := ⟨L - (a + 1), by omega⟩
    have h2 : a + 1 + k - 1 - a = k := by omega
    rw [h2]
    rw [Nat.add_mul, Nat.succ_mul] at h
    omega
  exact split_pos hB (by omega) h1.symm

theorem nextR_ok {c : Cfg α} (h : Ok B c) (srv srv' : List Nat) {r : Rd α} {i : Nat} (hr : BInv B c r i) (hi : c.first < i) :
    ∃ r', nextR B c srv srv' r = some (r', c.elem B (i - 1)) ∧ BInv B c r' (i - 1) := by
  obtain ⟨h1, h2, h3, h4⟩ := hr
  obtain ⟨s, seq, a, e, b1, b2, b3, b4, b5⟩ := h4 hi
  have hfl : c.first / B * B ≤ c.first := Nat.div_mul_le_self _ _
  have ha : a < c.len B := a_lt (B := B) (e := e) (n := 0) (by omega)
  have heB : e < B := by
    rcases b4 with ⟨-, he, -⟩ | ⟨hx, -⟩
    · exact he
    · omega
  obtain ⟨s', g1, g2⟩ := rget_ok b2 b3 srv srv' b4 ha
  unfold nextR
  rw [b1]
  dsimp only
  rw [if_neg (by omega), g1]
  dsimp only
  obtain ⟨e1, e2⟩ := split_rev h.hB heB ha b5
  refine ⟨⟨r.iter - 1, if r.iter - 1 = c.first then none else some (s', seq)⟩, ?_, by show r.iter - 1 = _; omega, by omega, by omega, fun hlt => ?_⟩
  · simp only [Cfg.elem, e1, e2, Cfg.rbl, Cfg.bl]
  · have : ∃ a1 e1, RInv (c.rbl B) seq B (Is.bufs c.ndisks (nbufs c.ndisks c.nbuffers)) (c.len B) c.io.disk s' a1 e1 ∧
        a1 * B + e1 = a * B + e + 1 := by
      rcases g2 with ⟨_, g2⟩ | ⟨hb, g2⟩
      · exact ⟨a, e + 1, g2, by omega⟩
      · exact ⟨a + 1, 0, g2, by rw [Nat.succ_mul]; omega⟩
    obtain ⟨a1, e1, g3, g4⟩ := this
    refine ⟨s', seq, a1, e1, ?_, b2, b3, g3, by omega⟩
    show (if r.iter - 1 = c.first then none else some (s', seq)) = _
    rw [if_neg (by omega)]

theorem runR_ok {c : Cfg α} (h : Ok B c) : ∀ (ops : List ROp) (r : Rd α) (i j : Nat) (xs : List α), BInv B c r i →
    (∀ o ∈ ops, o.Ok c.mdev) → readDown (c.elem B) c.first c.last (ops.map ROp.act) i = some (j, xs) →
    ∃ r', runR B c ops r = some (r', xs) ∧ BInv B c r' j := by
  intro ops
  induction ops with
  | nil =>
    intro r i j xs hr _ hs
    simp only [List.map_nil, readDown, Option.some.injEq, Prod.mk.injEq] at hs
    obtain ⟨rfl, rfl⟩ := hs
    exact ⟨r, rfl, hr⟩
  | cons o ops ih =>
    intro r i j xs hr ho hs
    cases o with
    | get srv srv' =>
      simp only [List.map_cons, ROp.act, readDown] at hs
      by_cases hi : c.first < i
      · rw [if_pos hi] at hs
        simp only [Option.map_eq_some_iff] at hs
        obtain ⟨⟨j', xs'⟩, hs, he⟩ := hs
        simp only [Prod.mk.injEq] at he
        obtain ⟨rfl, rfl⟩ := he
        obtain ⟨r1, h1, h2⟩ := nextR_ok h srv srv' hr hi
        obtain ⟨r2, h3, h4⟩ := ih r1 (i - 1) _ _ h2 (fun o ho' => ho o (by simp [ho'])) hs
        refine ⟨r2, ?_, h4⟩
        simp only [runR, h1, h3, Option.map_some]
      · rw [if_neg hi] at hs; simp at hs
    | rewind e =>
      simp only [List.map_cons, ROp.act, readDown] at hs
      obtain ⟨r1, h1, h2⟩ := rewindR_ok h (ho (.rewind e) (by simp)) r
      obtain ⟨r2, h3, h4⟩ := ih r1 _ _ _ h2 (fun o ho' => ho o (by simp [ho'])) hs
      exact ⟨r2, by simp only [runR, h1, h3], h4⟩

end Stxxl.VecBuf
