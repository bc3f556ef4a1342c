import Verif.Sequence.Stream

/-!
# C15 (queue), C16 (sequence), C17 (streams)
-/

namespace Stxxl.Sequence
open Stxxl.Pools Stxxl.ExtVector
open Stxxl.Stack (Env)

variable {α : Type} {B : Nat}

theorem init_ok (hB : 0 < B) {p : PS α} (ok : p.Ok) {fr : List Nat} (hfr : (allBufs p.sys p.cl ++ fr).Nodup) (hlen : 3 - p.sys.sizeWrite ≤ fr.length)
    (env : Env) (picks : Nat → Nat) (sched : Nat → Nat → List Nat) (pref : Nat) :
    ∃ q, Sq.init p env fr picks sched pref = some q ∧ Inv B q [] := by
  have key : ∀ s : Pools.Sys (Nat → α), PS.Ok { p with sys := s } → 2 ≤ s.sizeWrite → ∃ q, (match PS.steal { p with sys := s } env with
      | none => none
      | some (p1, b) => some ({ size := 0, front := b, back := b, fe := 0, be := 0, bids := [], pref := pref, ps := p1 } : Sq α)) = some q ∧ Inv B q [] := by
    intro s hs h2
    obtain ⟨p1, b, e1, ok1, cl1, sp1, m1, z1, nb⟩ := PS.steal_ok hs env (by show 0 < s.sizeWrite; omega)
    rw [e1]
    have z1' : p1.sys.sizeWrite + 1 = s.sizeWrite := z1
    exact ⟨_, rfl, ⟨ok1, by simp [cl1], by simp [cl1], List.nodup_nil, by simp, fun _ => by show 0 < p1.sys.sizeWrite; omega⟩, rfl, hB, Nat.zero_le _, .one rfl rfl rfl rfl⟩
  unfold Sq.init
  split
  · rename_i he
    split at he
    · rename_i hlt
      obtain ⟨s', e, _⟩ := (C19_no_failure ok).2.2.2 3 fr picks sched hfr hlen
      rw [e] at he; simp at he
    · simp at he
  · rename_i s he
    split at he
    · obtain ⟨s', e, hz⟩ := (C19_no_failure ok).2.2.2 3 fr picks sched hfr hlen
      rw [e] at he; cases he
      exact key _ (Pools.Reach.step ok (.resizeWrite 3 fr picks sched hfr hlen e)) (by omega)
    · cases he
      exact key p.sys ok (by omega)

theorem quiet_inv {q : Sq α} {l : List α} (h : Inv B q l) {keep : List Nat} {p : PS α} (hk : q.front ∈ keep ∧ q.back ∈ keep)
    (hq : Quiet q keep (if q.front = q.back then 1 else 0) p) : Inv B { q with ps := p } l :=
  h.withPs (Pools.Reach.step h.base.ok hq.step) (hq.held _ hk.1).1 (hq.held _ hk.2).1 (fun b hb => (hq.blocks b hb).2)
    (fun he => by have := hq.size; rw [if_pos he] at this; omega) (hq.held _ hk.1).2 (hq.held _ hk.2).2 (fun b hb => (hq.blocks b hb).1)

theorem sreach_inv {d : Bool} {q q1 : Sq α} {l : List α} {st : Strm} {r : List α} (h : Inv B q l) (hs : SReach B d q l q1 st r) :
    if d then FInv B q1 l st r else RInv B q1 l st r := by
  induction hs with
  | fwd => exact fwd_new h
  | rev => exact rev_new h
  | next env _ hr hn ih =>
    simp only [if_true] at ih ⊢
    rcases fwd_next (ih h) hr env with ⟨st', q2, e, _, hi⟩ | ⟨e, _⟩
    · rw [hn] at e; cases e; exact hi
    · rw [hn] at e; simp at e
  | nextRev env _ hr hn ih =>
    simp only [Bool.false_eq_true, if_false] at ih ⊢
    rcases rev_next (ih h) hr env with ⟨st', q2, e, _, hi⟩ | ⟨e, _⟩
    · rw [hn] at e; cases e; exact hi
    · rw [hn] at e; simp at e
  | @quiet d q l q1 st r p _ hq ih =>
    have hc : st.cur ∈ p.cl.held ∧ p.mem st.cur = q1.ps.mem st.cur := hq.held _ (by simp)
    have hbk : p.mem q1.back = q1.ps.mem q1.back := (hq.held _ (by simp)).2
    have hfr : p.mem q1.front = q1.ps.mem q1.front := (hq.held _ (by simp)).2
    cases d with
    | true =>
      have ih := ih h
      simp only [if_true] at ih ⊢
      refine ⟨⟨quiet_inv ih.sb.inv (by simp) hq, hc.1, ih.sb.sub, ih.sb.nod⟩, ih.left, ?_⟩
      rcases ih.cont with ⟨h1, h2, h3⟩ | ⟨h1, h2, i, h3, h4, h5⟩
      · exact .inl ⟨h1, h2, by dsimp only; rw [hbk]; exact h3⟩
      · refine .inr ⟨h1, h2, i, h3, h4, ?_⟩
        dsimp only
        rw [hc.2, hbk, flat_congr (bids := st.rem) (fun b hb => (hq.blocks b (ih.sb.sub b hb)).1)]
        exact h5
    | false =>
      have ih := ih h
      simp only [Bool.false_eq_true, if_false] at ih ⊢
      refine ⟨⟨quiet_inv ih.sb.inv (by simp) hq, hc.1, ih.sb.sub, ih.sb.nod⟩, ih.left, ?_⟩
      rcases ih.cont with ⟨h1, h2, h3⟩ | ⟨h1, h2, i, h3, h4, h5⟩
      · exact .inl ⟨h1, h2, by dsimp only; rw [hfr]; exact h3⟩
      · refine .inr ⟨h1, h2, i, h3, h4, ?_⟩
        dsimp only
        rw [hc.2, hfr, flat_congr (bids := st.rem.reverse) (fun b hb => (hq.blocks b (ih.sb.sub b (List.mem_reverse.1 hb))).1)]
        exact h5

theorem sreach_sb {d : Bool} {q q1 : Sq α} {l : List α} {st : Strm} {r : List α} (h : Inv B q l) (hs : SReach B d q l q1 st r) : SB B q1 l st := by
  have := sreach_inv h hs
  cases d with
  | true => simp only [if_true] at this; exact this.sb
  | false => simp only [Bool.false_eq_true, if_false] at this; exact this.sb

theorem reach_inv (hB : 0 < B) {q : Sq α} {l : List α} (h : Reach B q l) : Inv B q l := by
  induction h with
  | new env fr picks sched pref ok hfr hlen he =>
    obtain ⟨q, e, hi⟩ := init_ok hB ok hfr hlen env picks sched pref
    rw [he] at e; cases e; exact hi
  | step env op _ hl hf ho hs ih =>
    obtain ⟨q', e, hi⟩ := Sq.step_ok ih hl hf ho
    rw [hs] at e; cases e; exact hi
  | setPref n _ ih => exact ⟨⟨ih.base.ok, ih.base.hf, ih.base.hb, ih.base.nod, ih.base.closed, ih.base.pool⟩, ih.size, ih.fe, ih.be, by
      cases ih.cont with
      | one a b c d => exact .one a b c d
      | two a b c => exact .two a b c⟩
  | quiet p _ hq ih => exact quiet_inv ih (by simp) hq
  | stream _ hs ih => exact destroy_inv (sreach_sb ih hs)

theorem qreach_inv (hB : 0 < B) {q : Sq α} {l : List α} (h : QReach B q l) : Inv B q l := by
  induction h with
  | new env fr picks sched pref ok hfr hlen he => exact reach_inv hB (.new env fr picks sched pref ok hfr hlen he)
  | push env v _ hf ho hs ih =>
    obtain ⟨q', e, hi⟩ := Sq.pushBack_inv ih env v hf ho
    rw [hs] at e; cases e; exact hi
  | pop env _ hs ih =>
    obtain ⟨q', e, hi⟩ := Sq.popFront_inv ih env (by simp)
    rw [hs] at e; cases e; exact hi
  | setFront v _ hs ih =>
    obtain ⟨q', e, hi⟩ := Sq.setFront_inv ih v (by simp)
    rw [hs] at e; cases e; exact hi
  | setBack v _ hs ih =>
    obtain ⟨q', e, hi⟩ := Sq.setBack_inv ih v (by simp)
    rw [hs] at e; cases e; rw [List.dropLast_concat] at hi; exact hi
  | setPref n _ ih => exact ⟨⟨ih.base.ok, ih.base.hf, ih.base.hb, ih.base.nod, ih.base.closed, ih.base.pool⟩, ih.size, ih.fe, ih.be, by
      cases ih.cont with
      | one a b c d => exact .one a b c d
      | two a b c => exact .two a b c⟩
  | quiet p _ hq ih => exact quiet_inv ih (by simp) hq

theorem observers {q : Sq α} {l : List α} (h : Inv B q l) :
    q.getFront = l.head? ∧ q.getBack = l.getLast? ∧ q.size = l.length ∧ q.isEmpty = l.isEmpty := by
  by_cases hl : l = []
  · subst hl
    have := h.size
    simp at this
    simp [Sq.getFront, Sq.getBack, Sq.isEmpty, this]
  · have hpos : 0 < l.length := List.length_pos_iff.2 hl
    obtain ⟨h1, h2⟩ := Sq.Inv.ends h hl
    refine ⟨?_, ?_, h.size, ?_⟩
    · rw [Sq.getFront, if_neg (by rw [h.size]; omega), h1]
    · rw [Sq.getBack, if_neg (by rw [h.size]; omega), h2]
    · cases l with
      | nil => simp at hl
      | cons x l => simp [Sq.isEmpty, h.size]

/-- **C15** `queue`: after every history, with every prefetch setting and completion schedule, `front()`, `back()`, `size()` and `empty()`
are those of an in-memory FIFO queue (oldest element first in `l`). -/
theorem C15_observers (hB : 0 < B) {q : Sq α} {l : List α} (h : QReach B q l) :
    q.getFront = l.head? ∧ q.getBack = l.getLast? ∧ q.size = l.length ∧ q.isEmpty = l.isEmpty := observers (qreach_inv hB h)

/-- **C15** Construction, every push and every pop of a non-empty queue succeed: no assertion fails, the pool never runs dry. -/
theorem C15_no_failure (hB : 0 < B) :
    (∀ (p : PS α) env fr picks sched pref, p.Ok → (allBufs p.sys p.cl ++ fr).Nodup → 3 - p.sys.sizeWrite ≤ fr.length →
      ∃ q, Sq.init p env fr picks sched pref = some q ∧ QReach B q []) ∧
    (∀ (q : Sq α) l env v, QReach B q l → env.fresh ∉ q.bids → ¬ q.ps.cl.open env.fresh →
      ∃ q', Sq.pushBack B q env v = some q' ∧ QReach B q' (l ++ [v])) ∧
    (∀ (q : Sq α) x l env, QReach B q (x :: l) → ∃ q', Sq.popFront B q env = some q' ∧ QReach B q' l) := by
  refine ⟨fun p env fr picks sched pref ok hfr hlen => ?_, fun q l env v h hf ho => ?_, fun q x l env h => ?_⟩
  · obtain ⟨q, e, _⟩ := init_ok hB ok hfr hlen env picks sched pref
    exact ⟨q, e, .new env fr picks sched pref ok hfr hlen e⟩
  · obtain ⟨q', e, _⟩ := Sq.pushBack_inv (qreach_inv hB h) env v hf ho
    exact ⟨q', e, .push env v h hf ho e⟩
  · obtain ⟨q', e, _⟩ := Sq.popFront_inv (qreach_inv hB h) env (by simp)
    exact ⟨q', e, .pop env h e⟩

/-- **C16** `sequence`: after every history of operations at both ends and uses of streams, `front()`, `back()`, `size()` and `empty()` are
those of an in-memory double-ended list. -/
theorem C16_observers (hB : 0 < B) {q : Sq α} {l : List α} (h : Reach B q l) :
    q.getFront = l.head? ∧ q.getBack = l.getLast? ∧ q.size = l.length ∧ q.isEmpty = l.isEmpty := observers (reach_inv hB h)

/-- **C16** Every legal operation succeeds. -/
theorem C16_no_failure (hB : 0 < B) {q : Sq α} {l : List α} (h : Reach B q l) (op : Op α) (env : Env) (hl : specLegal l op)
    (hf : env.fresh ∉ q.bids) (ho : ¬ q.ps.cl.open env.fresh) : ∃ q', Sq.step B q env op = some q' ∧ Reach B q' (specStep l op) := by
  obtain ⟨q', e, _⟩ := Sq.step_ok (reach_inv hB h) hl hf ho
  exact ⟨q', e, .step env op h hl hf ho e⟩

/-- **C16** The destructor gives every buffer back to the pool (one, if front and back block coincide, else two) and leaves the pool usable. -/
theorem C16_destructor (hB : 0 < B) {q : Sq α} {l : List α} (h : Reach B q l) :
    q.destroy.Ok ∧ q.front ∉ q.destroy.cl.held ∧ q.back ∉ q.destroy.cl.held ∧
    q.destroy.sys.sizeWrite = q.ps.sys.sizeWrite + (if q.front = q.back then 1 else 2) := by
  have hb := (reach_inv hB h).base
  have hnod := PS.Ok.nodup hb.ok
  unfold Sq.destroy
  by_cases he : q.front = q.back
  · rw [if_neg (by simp [he]), if_pos he]
    obtain ⟨o, z, _⟩ := PS.add_ok hb.ok hb.hf
    refine ⟨o, ?_, ?_, z⟩
    · exact fun hm => absurd hm (by simp [PS.add, hnod.mem_erase_iff])
    · exact fun hm => absurd hm (by simp [PS.add, hnod.mem_erase_iff, he])
  · rw [if_pos he, if_neg he]
    obtain ⟨o, z, _⟩ := PS.add_ok hb.ok hb.hb
    have hf2 : q.front ∈ (q.ps.add q.back).cl.held := (List.mem_erase_of_ne he).2 hb.hf
    obtain ⟨o2, z2, _⟩ := PS.add_ok o hf2
    have hn2 : ((q.ps.cl.held.erase q.back)).Nodup := hnod.erase _
    refine ⟨o2, ?_, ?_, by omega⟩
    · exact fun hm => absurd hm (by simp [PS.add, hn2.mem_erase_iff])
    · exact fun hm => absurd hm (by simp [PS.add, hn2.mem_erase_iff, hnod.mem_erase_iff])

/-- **C17** At any time `operator*` of a stream is the first element it has not yet passed, and `size()` and `empty()` tell how many are left.
A forward stream starts with all elements of the sequence front to back, a reverse stream with their reverse (`SReach.fwd`, `SReach.rev`), and
each `operator++` removes the first one. -/
theorem C17_stream_observers (hB : 0 < B) {d : Bool} {q q1 : Sq α} {l : List α} {st : Strm} {r : List α} (h : Reach B q l)
    (hs : SReach B d q l q1 st r) : st.deref q1 = r.head? ∧ st.left = r.length := by
  have := sreach_inv (reach_inv hB h) hs
  cases d with
  | true => simp only [if_true] at this; exact ⟨fwd_deref this, this.left⟩
  | false => simp only [Bool.false_eq_true, if_false] at this; exact ⟨rev_deref this, this.left⟩

/-- **C17** `operator++` on a non-empty stream succeeds, unless it needs a buffer of its own and the write pool has none. -/
theorem C17_stream_no_failure (hB : 0 < B) {d : Bool} {q q1 : Sq α} {l : List α} {st : Strm} {r : List α} (h : Reach B q l)
    (hs : SReach B d q l q1 st r) (hr : r ≠ []) (hz : 0 < q1.ps.sys.sizeWrite) (env : Env) :
    ∃ st' q2, (if d then Strm.next B st q1 env else Strm.nextRev B st q1 env) = some (st', q2) ∧ SReach B d q l q2 st' r.tail := by
  have := sreach_inv (reach_inv hB h) hs
  cases d with
  | true =>
    simp only [if_true] at this ⊢
    rcases fwd_next this hr env with ⟨st', q2, e, _, _⟩ | ⟨_, _, h0⟩
    · exact ⟨st', q2, e, .next env hs hr e⟩
    · omega
  | false =>
    simp only [Bool.false_eq_true, if_false] at this ⊢
    rcases rev_next this hr env with ⟨st', q2, e, _, _⟩ | ⟨_, _, h0⟩
    · exact ⟨st', q2, e, .nextRev env hs hr e⟩
    · omega

/-- **C17** A stream does not change the sequence: after its destructor the sequence holds the same elements. -/
theorem C17_stream_readonly (hB : 0 < B) {d : Bool} {q q1 : Sq α} {l : List α} {st : Strm} {r : List α} (h : Reach B q l)
    (hs : SReach B d q l q1 st r) : (st.destroy q1).getFront = l.head? ∧ (st.destroy q1).getBack = l.getLast? ∧ (st.destroy q1).size = l.length :=
  have := C16_observers hB (Reach.stream h hs)
  ⟨this.1, this.2.1, this.2.2.1⟩

/-! ## Non-vacuity -/

instance (c : Client) (b : Nat) : Decidable (c.open b) := inferInstanceAs (Decidable (∃ e ∈ c.up, e.bid = b))

def exEnv (f : Nat) : Env := ⟨f, fun _ => false, [], 0, fun _ => [], fun _ => []⟩
/-- A pool with write buffers `wb` and prefetch buffers `pb`. -/
def exPool (wb pb : List Nat) : PS Nat := ⟨⟨⟨fun _ _ => 0, fun _ _ => 0, []⟩, ⟨wb, [], pb, []⟩⟩, ⟨[], []⟩, fun _ _ => 0⟩
theorem exPool_ok {wb pb : List Nat} (h : (wb ++ pb).Nodup) : (exPool wb pb).Ok := Pools.Reach.new _ _ wb pb h
def exSq : Sq Nat := ⟨0, 0, 0, 0, 0, [], 0, exPool [] []⟩

open Stxxl.Stack (some_getD)

/-- Non-vacuity of C15: one element per block, prefetching on. Four pushes spill two blocks, two pops fetch them back. -/
example : ∃ q : Sq Nat, QReach 1 q [30, 40] ∧ q.getFront = some 30 ∧ q.getBack = some 40 ∧ q.bids = [] := by
  have h0 := QReach.new (B := 1) (q := Option.getD _ exSq) (exEnv 0) [] (fun _ => 0) (fun _ _ => []) 1 (exPool_ok (wb := [1, 2, 3]) (pb := [4]) (by decide))
    (by decide) (by decide) (some_getD (by decide))
  have h1 := QReach.push (exEnv 50) 10 h0 (by decide) (by decide) (some_getD (d := exSq) (by decide))
  have h2 := QReach.push (exEnv 50) 20 h1 (by decide) (by decide) (some_getD (d := exSq) (by decide))
  have h3 := QReach.push (exEnv 50) 30 h2 (by decide) (by decide) (some_getD (d := exSq) (by decide))
  have h4 := QReach.push (exEnv 51) 40 h3 (by decide) (by decide) (some_getD (d := exSq) (by decide))
  have h5 := QReach.pop (exEnv 0) h4 (some_getD (d := exSq) (by decide))
  have h6 := QReach.pop (exEnv 0) h5 (some_getD (d := exSq) (by decide))
  exact ⟨_, h6, by decide, by decide, by decide⟩

def exDflt : Strm × Sq Nat := (⟨0, 0, none, []⟩, exSq)
theorem fwdOf {B : Nat} {q : Sq Nat} {l : List Nat} (_ : Reach B q l) : SReach B true q l q (.new q) l := .fwd
theorem revOf {B : Nat} {q : Sq Nat} {l : List Nat} (_ : Reach B q l) : SReach B false q l q (.newRev q) l.reverse := .rev
theorem nextOf {B : Nat} {q q1 : Sq Nat} {l r : List Nat} {st : Strm} (env : Env) (h : SReach B true q l q1 st r) (hr : r ≠ [])
    (e : Strm.next B st q1 env ≠ none) :
    SReach B true q l ((Strm.next B st q1 env).getD exDflt).2 ((Strm.next B st q1 env).getD exDflt).1 r.tail :=
  .next env h hr (by cases hx : Strm.next B st q1 env with
    | none => exact absurd hx e
    | some x => rfl)
theorem nextRevOf {B : Nat} {q q1 : Sq Nat} {l r : List Nat} {st : Strm} (env : Env) (h : SReach B false q l q1 st r) (hr : r ≠ [])
    (e : Strm.nextRev B st q1 env ≠ none) :
    SReach B false q l ((Strm.nextRev B st q1 env).getD exDflt).2 ((Strm.nextRev B st q1 env).getD exDflt).1 r.tail :=
  .nextRev env h hr (by cases hx : Strm.nextRev B st q1 env with
    | none => exact absurd hx e
    | some x => rfl)

/-- Non-vacuity of C16 and C17: two elements per block, pushes at both ends, a pop, then streams in both directions, each of which
fetches a spilled block. -/
example : ∃ (q q1 q2 : Sq Nat) (st st' : Strm), Reach 2 q [6, 4, 1, 2, 3, 5] ∧ q.getFront = some 6 ∧ q.getBack = some 5 ∧ q.bids.length = 2 ∧
    0 < q.ps.sys.sizeWrite ∧ SReach 2 true q [6, 4, 1, 2, 3, 5] q1 st [1, 2, 3, 5] ∧ st.deref q1 = some 1 ∧ st.cur ≠ q.front ∧ st.cur ≠ q.back ∧
    SReach 2 false q [6, 4, 1, 2, 3, 5] q2 st' [2, 1, 4, 6] ∧ st'.deref q2 = some 2 := by
  have h0 := Reach.new (B := 2) (q := Option.getD _ exSq) (exEnv 0) [] (fun _ => 0) (fun _ _ => []) 1 (exPool_ok (wb := [1, 2, 3]) (pb := [4]) (by decide))
    (by decide) (by decide) (some_getD (by decide))
  have h1 := Reach.step (exEnv 50) (.pushBack 1) h0 trivial (by decide) (by decide) (some_getD (d := exSq) (by decide))
  have h2 := Reach.step (exEnv 51) (.pushBack 2) h1 trivial (by decide) (by decide) (some_getD (d := exSq) (by decide))
  have h3 := Reach.step (exEnv 52) (.pushBack 3) h2 trivial (by decide) (by decide) (some_getD (d := exSq) (by decide))
  have h4 := Reach.step (exEnv 53) (.pushFront 4) h3 trivial (by decide) (by decide) (some_getD (d := exSq) (by decide))
  have h5 := Reach.step (exEnv 54) (.pushBack 5) h4 trivial (by decide) (by decide) (some_getD (d := exSq) (by decide))
  have h6 := Reach.step (exEnv 55) (.pushFront 6) h5 trivial (by decide) (by decide) (some_getD (d := exSq) (by decide))
  have h7 := Reach.step (exEnv 56) (.pushBack 7) h6 trivial (by decide) (by decide) (some_getD (d := exSq) (by decide))
  have h8 := Reach.step (exEnv 0) .popBack h7 (by simp [specLegal, specStep]) (by decide) (by decide) (some_getD (d := exSq) (by decide))
  have a1 := nextOf (exEnv 0) (fwdOf h8) (by simp [specStep]) (fun h => absurd (congrArg Option.isSome h) (by decide))
  have a2 := nextOf (exEnv 0) a1 (by simp [specStep]) (fun h => absurd (congrArg Option.isSome h) (by decide))
  have b1 := nextRevOf (exEnv 0) (revOf h8) (by simp [specStep]) (fun h => absurd (congrArg Option.isSome h) (by decide))
  have b2 := nextRevOf (exEnv 0) b1 (by simp [specStep]) (fun h => absurd (congrArg Option.isSome h) (by decide))
  exact ⟨_, _, _, _, _, h8, by decide, by decide, by decide, by decide, a2, by decide, by decide, by decide, b2, by decide⟩

/-- **C17, limit.** The hypothesis on the write pool cannot be dropped: a sequence on a write pool of two blocks - the documentation
allows it - whose elements span three blocks has a stream whose first `operator++` fails (it wants to steal a third buffer from
the now empty pool). -/
theorem C17_two_buffer_pool_fails : ∃ q : Sq Nat, Reach 1 q [10, 20, 30] ∧ Strm.next 1 (.new q) q (exEnv 0) = none := by
  have h0 := Reach.new (B := 1) (q := Option.getD _ exSq) (exEnv 0) [7] (fun _ => 0) (fun _ _ => []) 1 (exPool_ok (wb := [1, 2]) (pb := [4]) (by decide))
    (by decide) (by decide) (some_getD (by decide))
  have h1 := Reach.step (exEnv 50) (.pushBack 10) h0 trivial (by decide) (by decide) (some_getD (d := exSq) (by decide))
  have h2 := Reach.step (exEnv 51) (.pushBack 20) h1 trivial (by decide) (by decide) (some_getD (d := exSq) (by decide))
  have h3 := Reach.step (exEnv 52) (.pushBack 30) h2 trivial (by decide) (by decide) (some_getD (d := exSq) (by decide))
  exact ⟨_, h3, Option.isNone_iff_eq_none.1 (by decide)⟩

end Stxxl.Sequence
