import Verif.Sequence.Ops

/-!
# Streams over a sequence
-/

namespace Stxxl.Sequence
open Stxxl.Pools Stxxl.ExtVector
open Stxxl.Stack (Env)

variable {α : Type} {B : Nat}

/-- A change of the pool that leaves the sequence's buffers and blocks alone keeps the invariant. -/
theorem Inv.withPs {q : Sq α} {l : List α} (h : Inv B q l) {p : PS α} (ok : p.Ok) (hf : q.front ∈ p.cl.held) (hb : q.back ∈ p.cl.held)
    (closed : ∀ b ∈ q.bids, ¬ p.cl.open b) (pool : q.front = q.back → 0 < p.sys.sizeWrite) (mf : p.mem q.front = q.ps.mem q.front)
    (mb : p.mem q.back = q.ps.mem q.back) (sp : ∀ b ∈ q.bids, p.spec b = q.ps.spec b) : Inv B { q with ps := p } l := by
  refine ⟨⟨ok, hf, hb, h.base.nod, closed, pool⟩, h.size, h.fe, h.be, ?_⟩
  cases h.cont with
  | one h1 h2 h3 h4 =>
    refine .one h1 h2 h3 ?_
    dsimp only
    rw [mf]; exact h4
  | two h1 h2 h3 =>
    refine .two h1 h2 ?_
    dsimp only
    rw [mf, mb, flat_congr sp]; exact h3

/-- `q2` is `q1` with another pool state that is the same for the sequence. -/
structure Pres (q1 q2 : Sq α) : Prop where
  eq : q2 = { q1 with ps := q2.ps }
  mf : q2.ps.mem q1.front = q1.ps.mem q1.front
  mb : q2.ps.mem q1.back = q1.ps.mem q1.back
  sp : ∀ b ∈ q1.bids, q2.ps.spec b = q1.ps.spec b

theorem Pres.refl (q : Sq α) : Pres q q := ⟨rfl, rfl, rfl, fun _ _ => rfl⟩

/-- Facts about a stream that do not depend on its direction. -/
structure SB (B : Nat) (q : Sq α) (l : List α) (st : Strm) : Prop where
  inv : Inv B q l
  held : st.cur ∈ q.ps.cl.held
  sub : ∀ b ∈ st.rem, b ∈ q.bids
  nod : st.rem.Nodup

theorem addOwn_inv {q : Sq α} {l : List α} {c : Nat} (h : Inv B q l) (hc : c ∈ q.ps.cl.held) (h1 : c ≠ q.front) (h2 : c ≠ q.back) :
    Inv B { q with ps := q.ps.add c } l := by
  have hb := h.base
  obtain ⟨ok1, z1, m1⟩ := PS.add_ok hb.ok hc
  exact h.withPs ok1 ((List.mem_erase_of_ne (Ne.symm h1)).2 hb.hf) ((List.mem_erase_of_ne (Ne.symm h2)).2 hb.hb) hb.closed (fun _ => by omega)
    (m1 _) (m1 _) (fun _ _ => rfl)

theorem destroy_inv {q : Sq α} {l : List α} {st : Strm} (h : SB B q l st) : Inv B (st.destroy q) l := by
  unfold Strm.destroy
  split
  · rename_i hc; exact addOwn_inv h.inv h.held hc.1 hc.2
  · exact h.inv

/-- Fetching the next block. -/
theorem fetch_cases {q : Sq α} {l : List α} {st : Strm} (h : SB B q l st) (env : Env) {home start b : Nat} {rest : List Nat} (hr : st.rem = b :: rest)
    (hloc : st.cur = home ∨ (st.cur ≠ q.front ∧ st.cur ≠ q.back)) :
    (∃ c' q2, Strm.fetch st q env home start = some (⟨st.left - 1, c', some start, rest⟩, q2) ∧ Pres q q2 ∧ SB B q2 l ⟨st.left - 1, c', some start, rest⟩ ∧
      c' ≠ q.front ∧ c' ≠ q.back ∧ q2.ps.mem c' = q.ps.spec b) ∨
    (Strm.fetch st q env home start = none ∧ st.cur = home ∧ q.ps.sys.sizeWrite = 0) := by
  have hb := h.inv.base
  have hne : q.front ≠ q.back := by
    intro he
    cases h.inv.cont with
    | two h' => exact h' he
    | one _ hbids =>
      have := h.sub b (by rw [hr]; simp)
      rw [hbids] at this; simp at this
  have hnod := h.nod
  rw [hr, List.nodup_cons] at hnod
  have hsub := h.sub
  rw [hr] at hsub
  -- the block to read into
  have hown : (∃ p c, Strm.own st q env home = some ({ q with ps := p }, c) ∧ p.Ok ∧ p.cl.up = q.ps.cl.up ∧ p.spec = q.ps.spec ∧ c ∈ p.cl.held ∧
      c ≠ q.front ∧ c ≠ q.back ∧ q.front ∈ p.cl.held ∧ q.back ∈ p.cl.held ∧ p.mem q.front = q.ps.mem q.front ∧ p.mem q.back = q.ps.mem q.back) ∨
      (Strm.own st q env home = none ∧ st.cur = home ∧ q.ps.sys.sizeWrite = 0) := by
    unfold Strm.own
    by_cases hc : st.cur = home
    · rw [if_pos hc]
      by_cases hz : 0 < q.ps.sys.sizeWrite
      · obtain ⟨p, c, e1, ok1, cl1, sp1, m1, z1, nb⟩ := PS.steal_ok hb.ok env hz
        rw [e1]
        refine .inl ⟨p, c, rfl, ok1, by rw [cl1], sp1, by simp [cl1], ?_, ?_, by simp [cl1, hb.hf], by simp [cl1, hb.hb], m1 _ hb.hf, m1 _ hb.hb⟩
        · rintro rfl; exact nb hb.hf
        · rintro rfl; exact nb hb.hb
      · refine .inr ⟨?_, hc, by omega⟩
        cases e : q.ps.steal env with
        | none => rfl
        | some x =>
          exfalso
          unfold PS.steal at e
          split at e
          · simp at e
          · rename_i s b' hs
            have := ((C20_sizes q.ps.sys).2.1 _ _ _ _ hs).1
            omega
    · rw [if_neg hc]
      rcases hloc with h' | h'
      · exact absurd h' hc
      · exact .inl ⟨q.ps, st.cur, rfl, hb.ok, rfl, rfl, h.held, h'.1, h'.2, hb.hf, hb.hb, rfl, rfl⟩
  unfold Strm.fetch
  rcases hown with ⟨p, c, e1, ok1, up1, sp1, hc, hcf, hcb, hf1, hb1, mf1, mb1⟩ | ⟨e1, h1, h2⟩
  · left
    rw [e1, hr]
    dsimp only
    have hopen : ∀ x ∈ q.bids, ¬ p.cl.open x := by
      intro x hx ⟨e, he, hex⟩
      rw [up1] at he
      exact hb.closed x hx ⟨e, he, hex⟩
    obtain ⟨p2, c2, e2, ok2, cl2, sp2, mc2, mo2, z2, nc2⟩ := PS.fetch_ok (hints := rest.take q.pref) ok1 env hc (hopen b (hsub b (by simp))) (by
      intro x hx
      have hx' := List.take_subset _ _ hx
      refine ⟨hopen x (hsub x (by simp [hx'])), ?_⟩
      rintro rfl; exact hnod.1 hx')
    rw [e2]
    have hfe : q.front ∈ p.cl.held.erase c := (List.mem_erase_of_ne (Ne.symm hcf)).2 hf1
    have hbe : q.back ∈ p.cl.held.erase c := (List.mem_erase_of_ne (Ne.symm hcb)).2 hb1
    have mf2 : p2.mem q.front = q.ps.mem q.front := by rw [mo2 _ hf1 (Ne.symm hcf), mf1]
    have mb2 : p2.mem q.back = q.ps.mem q.back := by rw [mo2 _ hb1 (Ne.symm hcb), mb1]
    have s2 : p2.spec = q.ps.spec := sp2.trans sp1
    refine ⟨c2, { q with ps := p2 }, rfl, ⟨rfl, mf2, mb2, fun x _ => congrFun s2 x⟩, ⟨?_, ?_, fun x hx => hsub x (List.mem_cons_of_mem _ hx), hnod.2⟩, ?_, ?_, ?_⟩
    · refine h.inv.withPs ok2 (by rw [cl2]; simp [hfe]) (by rw [cl2]; simp [hbe]) ?_ (fun h' => absurd h' hne) mf2 mb2 (fun x _ => congrFun s2 x)
      intro x hx ⟨e, he, hex⟩
      rw [cl2] at he
      exact hopen x hx ⟨e, he, hex⟩
    · show c2 ∈ p2.cl.held
      simp [cl2]
    · rintro rfl; exact nc2 hfe
    · rintro rfl; exact nc2 hbe
    · show p2.mem c2 = _
      rw [mc2, sp1]
  · right
    rw [e1]
    exact ⟨rfl, h1, h2⟩

/-! ## Forward -/

structure FInv (B : Nat) (q : Sq α) (l : List α) (st : Strm) (r : List α) : Prop where
  sb : SB B q l st
  left : st.left = r.length
  cont : (st.cur = q.back ∧ st.rem = [] ∧ (r = [] ∨ ∃ i, st.idx = some i ∧ i + r.length = q.be ∧ r = seg (q.ps.mem q.back) i r.length)) ∨
    (st.cur ≠ q.back ∧ q.front ≠ q.back ∧ ∃ i, st.idx = some i ∧ i < B ∧ r = seg (q.ps.mem st.cur) i (B - i) ++ flat B q.ps.spec st.rem ++ seg (q.ps.mem q.back) 0 q.be)

theorem fwd_new {q : Sq α} {l : List α} (h : Inv B q l) : FInv B q l (.new q) l := by
  refine ⟨⟨h, h.base.hf, fun _ hb => hb, h.base.nod⟩, h.size, ?_⟩
  cases h.cont with
  | one h1 h2 h3 h4 => exact .inl ⟨h1, h2, .inr ⟨q.fe, rfl, h3.symm, by rw [← h1]; exact h4⟩⟩
  | two h1 h2 h3 => exact .inr ⟨h1, h1, q.fe, rfl, h.fe, h3⟩

theorem fwd_deref {q : Sq α} {l : List α} {st : Strm} {r : List α} (h : FInv B q l st r) : st.deref q = r.head? := by
  unfold Strm.deref
  by_cases hr : r = []
  · subst hr; rw [if_pos (by rw [h.left]; rfl)]; rfl
  · have hpos : 0 < r.length := List.length_pos_iff.2 hr
    rw [if_neg (by rw [h.left]; omega)]
    rcases h.cont with ⟨h1, h2, h3 | ⟨i, h3, h4, h5⟩⟩ | ⟨h1, hne, i, h2, h3, h4⟩
    · exact absurd h3 hr
    · rw [h3, h1, h5, show r.length = (r.length - 1) + 1 from by omega, seg_cons]; rfl
    · rw [h2, h4, show B - i = (B - i - 1) + 1 from by omega, seg_cons]; rfl

theorem fwd_next {q : Sq α} {l : List α} {st : Strm} {r : List α} (h : FInv B q l st r) (hr : r ≠ []) (env : Env) :
    (∃ st' q2, Strm.next B st q env = some (st', q2) ∧ Pres q q2 ∧ FInv B q2 l st' r.tail) ∨
    (Strm.next B st q env = none ∧ st.cur = q.front ∧ q.ps.sys.sizeWrite = 0) := by
  have hpos : 0 < r.length := List.length_pos_iff.2 hr
  have hbe := h.sb.inv.be
  unfold Strm.next
  rw [if_neg (by rw [h.left]; omega)]
  rcases h.cont with ⟨h1, h2, h3 | ⟨i, h3, h4, h5⟩⟩ | ⟨h1, hne, i, h2, h3, h4⟩
  · exact absurd h3 hr
  · left
    rw [h3]
    dsimp only
    have ht : r.tail = seg (q.ps.mem q.back) (i + 1) r.tail.length := by
      conv => lhs; rw [h5, show r.length = (r.length - 1) + 1 from by omega, seg_cons]
      simp
    split
    · unfold Strm.cross
      have : r.length = 1 := by omega
      rw [if_pos (by rw [h.left]; omega), if_pos ⟨h2, h1⟩]
      have ht0 : r.tail = [] := List.length_eq_zero_iff.1 (by simp; omega)
      exact ⟨_, _, rfl, Pres.refl q, ⟨h.sb.inv, h.sb.held, by simp, List.nodup_nil⟩, by simp [ht0], .inl ⟨h1, rfl, .inl ht0⟩⟩
    · refine ⟨_, _, rfl, Pres.refl q, ⟨h.sb.inv, h.sb.held, h.sb.sub, h.sb.nod⟩, by simp [h.left], .inl ⟨h1, h2, .inr ⟨i + 1, rfl, ?_, ht⟩⟩⟩
      simp; omega
  · rw [h2]
    dsimp only
    have ht : r.tail = seg (q.ps.mem st.cur) (i + 1) (B - (i + 1)) ++ flat B q.ps.spec st.rem ++ seg (q.ps.mem q.back) 0 q.be := by
      conv => lhs; rw [h4, show B - i = (B - (i + 1)) + 1 from by omega, seg_cons]
      simp
    have hlen : r.length = (B - i) + st.rem.length * B + q.be := by rw [h4]; simp [flat_length]; omega
    have hbe0 : 0 < q.be := by
      cases h.sb.inv.cont with
      | one h' => exact absurd h' hne
      | two _ h' => exact h'
    split
    · rename_i hi
      rw [show B - (i + 1) = 0 from by omega, seg_zero, List.nil_append] at ht
      unfold Strm.cross
      have hlt : st.left - 1 = st.rem.length * B + q.be := by rw [h.left]; omega
      rw [if_neg (by omega)]
      split
      · left
        have hn : st.rem = [] := List.length_eq_zero_iff.1 (Sq.mul_lt_zero (B := B) (by omega) (by omega))
        rw [if_pos hn]
        rw [hn, flat_nil, List.nil_append] at ht
        by_cases hcf : st.cur = q.front
        · rw [if_neg (by simp [hcf])]
          refine ⟨_, _, rfl, Pres.refl q, ⟨h.sb.inv, h.sb.inv.base.hb, by simp, List.nodup_nil⟩, by simp [h.left], .inl ⟨rfl, rfl, .inr ⟨0, rfl, ?_, ?_⟩⟩⟩
          · rw [ht]; simp
          · rw [ht]; simp
        · rw [if_pos hcf]
          have hi2 := addOwn_inv h.sb.inv h.sb.held hcf h1
          refine ⟨_, _, rfl, ⟨rfl, rfl, rfl, fun _ _ => rfl⟩, ⟨hi2, hi2.base.hb, by simp, List.nodup_nil⟩, by simp [h.left], .inl ⟨rfl, rfl, .inr ⟨0, rfl, ?_, ?_⟩⟩⟩
          · rw [ht]; simp
          · rw [ht]; simp; rfl
      · rename_i hbig
        cases hrem : st.rem with
        | nil => rw [hrem] at hlt; simp at hlt; omega
        | cons b rest =>
          rcases fetch_cases h.sb env (home := q.front) (start := 0) hrem (by
            by_cases hcf : st.cur = q.front
            · exact .inl hcf
            · exact .inr ⟨hcf, h1⟩) with ⟨c', q2, e1, hp, hsb, hcf, hcb, hm⟩ | hno
          · left
            have ef : q2.front = q.front := by rw [hp.eq]
            have eb : q2.back = q.back := by rw [hp.eq]
            have ee : q2.be = q.be := by rw [hp.eq]
            refine ⟨_, _, e1, hp, hsb, by simp [h.left], .inr ⟨by rw [eb]; exact hcb, by rw [ef, eb]; exact hne, 0, rfl, by omega, ?_⟩⟩
            dsimp only
            rw [ht, hrem, flat_cons, hm, eb, ee, hp.mb, Nat.sub_zero]
            rw [flat_congr (bids := rest) (spec' := q.ps.spec) (fun x hx => hp.sp x (h.sb.sub x (by rw [hrem]; simp [hx])))]
          · exact .inr hno
    · left
      refine ⟨_, _, rfl, Pres.refl q, ⟨h.sb.inv, h.sb.held, h.sb.sub, h.sb.nod⟩, by simp [h.left], .inr ⟨h1, hne, i + 1, rfl, by omega, ht⟩⟩

/-! ## Reverse -/

structure RInv (B : Nat) (q : Sq α) (l : List α) (st : Strm) (r : List α) : Prop where
  sb : SB B q l st
  left : st.left = r.length
  cont : (st.cur = q.front ∧ st.rem = [] ∧ (r = [] ∨ ∃ i, st.idx = some i ∧ i + 1 = q.fe + r.length ∧ r.reverse = seg (q.ps.mem q.front) q.fe r.length)) ∨
    (st.cur ≠ q.front ∧ q.front ≠ q.back ∧ ∃ i, st.idx = some i ∧ i < B ∧
      r.reverse = seg (q.ps.mem q.front) q.fe (B - q.fe) ++ flat B q.ps.spec st.rem.reverse ++ seg (q.ps.mem st.cur) 0 (i + 1))

theorem rev_new {q : Sq α} {l : List α} (h : Inv B q l) : RInv B q l (.newRev q) l.reverse := by
  refine ⟨⟨h, h.base.hb, fun _ hb => List.mem_reverse.1 hb, (List.reverse_perm _).nodup_iff.2 h.base.nod⟩, by simp [Strm.newRev, h.size], ?_⟩
  have hbe := h.be
  cases h.cont with
  | one h1 h2 h3 h4 =>
    refine .inl ⟨h1.symm, by simp [Strm.newRev, h2], ?_⟩
    by_cases hl : l = []
    · exact .inl (by simp [hl])
    · have hpos : 0 < l.length := List.length_pos_iff.2 hl
      refine .inr ⟨q.be - 1, rfl, by simp; omega, ?_⟩
      rw [List.reverse_reverse, List.length_reverse]; exact h4
  | two h1 h2 h3 =>
    refine .inr ⟨Ne.symm h1, h1, q.be - 1, rfl, by omega, ?_⟩
    rw [List.reverse_reverse, show q.be - 1 + 1 = q.be from by omega]
    simp only [Strm.newRev, List.reverse_reverse]
    exact h3

theorem tail_reverse (r : List α) : r.tail.reverse = r.reverse.dropLast := by
  cases r <;> simp

theorem rev_deref {q : Sq α} {l : List α} {st : Strm} {r : List α} (h : RInv B q l st r) : st.deref q = r.head? := by
  unfold Strm.deref
  by_cases hr : r = []
  · subst hr; rw [if_pos (by rw [h.left]; rfl)]; rfl
  · have hpos : 0 < r.length := List.length_pos_iff.2 hr
    rw [if_neg (by rw [h.left]; omega), ← List.getLast?_reverse]
    rcases h.cont with ⟨h1, h2, h3 | ⟨i, h3, h4, h5⟩⟩ | ⟨h1, hne, i, h2, h3, h4⟩
    · exact absurd h3 hr
    · rw [h3, h1, h5, show r.length = (r.length - 1) + 1 from by omega, seg_snoc, List.getLast?_concat, show q.fe + (r.length - 1) = i from by omega]; rfl
    · rw [h2, h4, seg_snoc, ← List.append_assoc, List.getLast?_concat, Nat.zero_add]; rfl

theorem rev_next {q : Sq α} {l : List α} {st : Strm} {r : List α} (h : RInv B q l st r) (hr : r ≠ []) (env : Env) :
    (∃ st' q2, Strm.nextRev B st q env = some (st', q2) ∧ Pres q q2 ∧ RInv B q2 l st' r.tail) ∨
    (Strm.nextRev B st q env = none ∧ st.cur = q.back ∧ q.ps.sys.sizeWrite = 0) := by
  have hpos : 0 < r.length := List.length_pos_iff.2 hr
  have hbe := h.sb.inv.be
  have hfe := h.sb.inv.fe
  unfold Strm.nextRev
  rw [if_neg (by rw [h.left]; omega)]
  rcases h.cont with ⟨h1, h2, h3 | ⟨i, h3, h4, h5⟩⟩ | ⟨h1, hne, i, h2, h3, h4⟩
  · exact absurd h3 hr
  · left
    rw [h3]
    dsimp only
    have ht : r.tail.reverse = seg (q.ps.mem q.front) q.fe r.tail.length := by
      rw [tail_reverse, h5, show r.length = (r.length - 1) + 1 from by omega, seg_snoc, List.dropLast_concat]
      simp
    split
    · unfold Strm.cross
      rw [if_pos (by rw [h.left]; omega), if_pos ⟨h2, h1⟩]
      have ht0 : r.tail = [] := List.length_eq_zero_iff.1 (by simp; omega)
      exact ⟨_, _, rfl, Pres.refl q, ⟨h.sb.inv, h.sb.held, by simp, List.nodup_nil⟩, by simp [ht0], .inl ⟨h1, rfl, .inl ht0⟩⟩
    · refine ⟨_, _, rfl, Pres.refl q, ⟨h.sb.inv, h.sb.held, h.sb.sub, h.sb.nod⟩, by simp [h.left], .inl ⟨h1, h2, .inr ⟨i - 1, rfl, ?_, ht⟩⟩⟩
      simp; omega
  · rw [h2]
    dsimp only
    have ht : r.tail.reverse = seg (q.ps.mem q.front) q.fe (B - q.fe) ++ flat B q.ps.spec st.rem.reverse ++ seg (q.ps.mem st.cur) 0 i := by
      rw [tail_reverse, h4, seg_snoc, ← List.append_assoc, List.dropLast_concat]
    have hlen : r.length = (B - q.fe) + st.rem.length * B + (i + 1) := by
      rw [← List.length_reverse, h4]; simp [flat_length]; omega
    split
    · rename_i hi
      subst hi
      rw [seg_zero, List.append_nil] at ht
      unfold Strm.cross
      have hlt : st.left - 1 = (B - q.fe) + st.rem.length * B := by rw [h.left]; omega
      rw [if_neg (by omega)]
      split
      · left
        have hn : st.rem = [] := List.length_eq_zero_iff.1 (Sq.mul_lt_zero (B := B) (by omega) (by omega))
        rw [if_pos hn]
        rw [hn, List.reverse_nil, flat_nil, List.append_nil] at ht
        have htl : r.tail.length = B - q.fe := by rw [← List.length_reverse, ht]; simp
        by_cases hcf : st.cur = q.back
        · rw [if_neg (by simp [hcf])]
          refine ⟨_, _, rfl, Pres.refl q, ⟨h.sb.inv, h.sb.inv.base.hf, by simp, List.nodup_nil⟩, by simp [h.left], .inl ⟨rfl, rfl, .inr ⟨B - 1, rfl, ?_, ?_⟩⟩⟩
          · rw [htl]; omega
          · rw [ht, htl]
        · rw [if_pos hcf]
          have hi2 := addOwn_inv h.sb.inv h.sb.held h1 hcf
          refine ⟨_, _, rfl, ⟨rfl, rfl, rfl, fun _ _ => rfl⟩, ⟨hi2, hi2.base.hf, by simp, List.nodup_nil⟩, by simp [h.left], .inl ⟨rfl, rfl, .inr ⟨B - 1, rfl, ?_, ?_⟩⟩⟩
          · rw [htl]; dsimp only; omega
          · rw [ht, htl]; rfl
      · rename_i hbig
        cases hrem : st.rem with
        | nil => rw [hrem] at hlt; simp at hlt; omega
        | cons b rest =>
          rcases fetch_cases h.sb env (home := q.back) (start := B - 1) hrem (by
            by_cases hcf : st.cur = q.back
            · exact .inl hcf
            · exact .inr ⟨h1, hcf⟩) with ⟨c', q2, e1, hp, hsb, hcf, hcb, hm⟩ | hno
          · left
            have ef : q2.front = q.front := by rw [hp.eq]
            have eb : q2.back = q.back := by rw [hp.eq]
            have ee : q2.fe = q.fe := by rw [hp.eq]
            refine ⟨_, _, e1, hp, hsb, by simp [h.left], .inr ⟨by rw [ef]; exact hcf, by rw [ef, eb]; exact hne, B - 1, rfl, by omega, ?_⟩⟩
            dsimp only
            rw [ht, hrem, List.reverse_cons, flat_append, flat_cons, flat_nil, List.append_nil, hm, ef, ee, hp.mf, show B - 1 + 1 = B from by omega]
            rw [flat_congr (bids := rest.reverse) (spec' := q.ps.spec) (fun x hx => hp.sp x (h.sb.sub x (by rw [hrem]; simp at hx; simp [hx])))]
            rw [List.append_assoc]
          · exact .inr hno
    · left
      refine ⟨_, _, rfl, Pres.refl q, ⟨h.sb.inv, h.sb.held, h.sb.sub, h.sb.nod⟩, by simp [h.left], .inr ⟨h1, hne, i - 1, rfl, by omega, ?_⟩⟩
      rw [ht, show i - 1 + 1 = i from by omega]

end Stxxl.Sequence
