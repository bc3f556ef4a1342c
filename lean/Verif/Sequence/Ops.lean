import Verif.Sequence.Inv

/-!
# The operations preserve the invariant
-/

namespace Stxxl.Sequence
open Stxxl.Pools Stxxl.ExtVector
open Stxxl.Stack (Env)

variable {α : Type} {B : Nat}

namespace Sq

theorem store_ok {p : PS α} (h : p.Ok) {b : Nat} (hb : b ∈ p.cl.held) (i : Nat) (v : α) : (store p b i v).Ok := h.put hb _
theorem store_same (p : PS α) (b i : Nat) (v : α) : (store p b i v).mem b = upd (p.mem b) i v := PS.put_same _ _ _
theorem store_ne (p : PS α) {b x : Nat} (i : Nat) (v : α) (h : x ≠ b) : (store p b i v).mem x = p.mem x := PS.put_ne _ _ h

theorem setMem_eq (p : PS α) (m : Nat → Nat → α) (a b : Nat) (h : ∀ x, x ≠ a → x ≠ b → m x = p.mem x) :
    setMem p m = (p.put a (m a)).put b (m b) := by
  have hm : m = upd (upd p.sys.io.mem a (m a)) b (m b) := by
    funext x
    by_cases hb : x = b
    · subst hb; simp [upd_same]
    · rw [upd_ne _ _ hb]
      by_cases ha : x = a
      · subst ha; simp [upd_same]
      · rw [upd_ne _ _ ha]; exact h x ha hb
  unfold setMem PS.put
  dsimp only
  rw [← hm]

theorem setMem_ok {p : PS α} (h : p.Ok) {m : Nat → Nat → α} {a b : Nat} (ha : a ∈ p.cl.held) (hb : b ∈ p.cl.held)
    (hm : ∀ x, x ≠ a → x ≠ b → m x = p.mem x) : (setMem p m).Ok := by
  rw [setMem_eq p m a b hm]
  exact PS.Ok.put (PS.Ok.put h ha _) hb _

theorem takeBack_inv {q : Sq α} {l : List α} (ok : q.ps.Ok) (hf : q.front ∈ q.ps.cl.held) (nod : q.bids.Nodup)
    (closed : ∀ b ∈ q.bids, ¬ q.ps.cl.open b) (pool : 0 < q.ps.sys.sizeWrite) (size : q.size = l.length) (fe : q.fe < B)
    (hl : l = seg (q.ps.mem q.front) q.fe (B - q.fe) ++ flat B q.ps.spec q.bids) (env : Env) (v : α) :
    ∃ q', takeBack q env v = some q' ∧ Inv B q' (l ++ [v]) := by
  obtain ⟨p, b, e1, ok1, cl1, sp1, m1, z1, nb⟩ := PS.steal_ok ok env pool
  have hne : q.front ≠ b := by rintro rfl; exact nb hf
  unfold takeBack
  rw [e1]
  refine ⟨_, rfl, ⟨store_ok ok1 (by simp [cl1]) _ _, ?_, ?_, nod, ?_, fun h => absurd h hne⟩, by simp [size], fe, by show 1 ≤ B; omega, ?_⟩
  · show q.front ∈ p.cl.held
    simp [cl1, hf]
  · show b ∈ p.cl.held
    simp [cl1]
  · intro x hx ⟨e, he, hex⟩
    have he' : e ∈ p.cl.up := he
    rw [cl1] at he'
    exact closed x hx ⟨e, he', hex⟩
  · refine .two hne (Nat.one_pos) ?_
    dsimp only
    rw [store_ne _ _ _ hne, m1 _ hf, store_same, seg_cons, upd_same, seg_zero, hl]
    show _ = _ ++ flat B p.spec q.bids ++ _
    rw [sp1]

theorem takeFront_inv {q : Sq α} {l : List α} (ok : q.ps.Ok) (hf : q.back ∈ q.ps.cl.held) (nod : q.bids.Nodup)
    (closed : ∀ b ∈ q.bids, ¬ q.ps.cl.open b) (pool : 0 < q.ps.sys.sizeWrite) (size : q.size = l.length) (hB : 0 < B) (be : q.be ≤ B) (be0 : 0 < q.be)
    (hl : l = flat B q.ps.spec q.bids ++ seg (q.ps.mem q.back) 0 q.be) (env : Env) (v : α) :
    ∃ q', takeFront B q env v = some q' ∧ Inv B q' (v :: l) := by
  obtain ⟨p, b, e1, ok1, cl1, sp1, m1, z1, nb⟩ := PS.steal_ok ok env pool
  have hne : b ≠ q.back := by rintro rfl; exact nb hf
  unfold takeFront
  rw [e1]
  refine ⟨_, rfl, ⟨store_ok ok1 (by simp [cl1]) _ _, ?_, ?_, nod, ?_, fun h => absurd h hne⟩, by simp [size], by show B - 1 < B; omega, be, ?_⟩
  · show b ∈ p.cl.held
    simp [cl1]
  · show q.back ∈ p.cl.held
    simp [cl1, hf]
  · intro x hx ⟨e, he, hex⟩
    have he' : e ∈ p.cl.up := he
    rw [cl1] at he'
    exact closed x hx ⟨e, he', hex⟩
  · refine .two hne be0 ?_
    dsimp only
    rw [store_ne _ _ _ hne.symm, m1 _ hf, store_same, show B - (B - 1) = 0 + 1 from by omega, seg_cons, upd_same, seg_zero, hl]
    show _ = _ ++ flat B p.spec q.bids ++ _
    rw [sp1]
    simp

theorem mul_lt_zero {n : Nat} (hB : 0 < B) (h : n * B < B) : n = 0 := by
  rcases Nat.eq_zero_or_pos n with h' | h'
  · exact h'
  · have := Nat.mul_le_mul_right B h'; omega

theorem pushBack_inv {q : Sq α} {l : List α} (h : Inv B q l) (env : Env) (v : α) (hf : env.fresh ∉ q.bids) (ho : ¬ q.ps.cl.open env.fresh) :
    ∃ q', pushBack B q env v = some q' ∧ Inv B q' (l ++ [v]) := by
  have hb := h.base
  have hfe := h.fe
  have hbe := h.be
  unfold pushBack
  by_cases hfull : q.be = B
  · rw [if_pos hfull]
    by_cases hone : q.front = q.back
    · rw [if_pos hone]
      cases h.cont with
      | two h' => exact absurd hone h'
      | one _ hbids hbe' hl =>
        refine takeBack_inv hb.ok hb.hf hb.nod hb.closed (hb.pool hone) h.size hfe ?_ env v
        rw [hbids, flat_nil, List.append_nil, show B - q.fe = l.length from by omega]
        exact hl
    · rw [if_neg hone]
      have hlen := h.two_len hone
      cases h.cont with
      | one h' => exact absurd h' hone
      | two _ hbe0 hl =>
        split
        · rename_i hsz
          rw [h.size] at hsz
          have hn : q.bids.length = 0 := mul_lt_zero (B := B) (by omega) (by omega)
          have hbids := List.length_eq_zero_iff.1 hn
          rw [hn] at hlen
          have hgap : 0 < q.fe := by omega
          unfold shiftBack
          dsimp only
          rw [if_pos ⟨hbids, hgap⟩]
          have c1 := copyFwd_spec q.front q.front (B - q.fe) q.ps.sys.io.mem q.fe 0 (.inr (Nat.zero_le _))
          generalize copyFwd q.ps.sys.io.mem q.front q.front (B - q.fe) q.fe 0 = M1 at c1 ⊢
          have c2 := copyFwd_spec q.back q.front q.fe M1 0 (B - q.fe) (.inl (Ne.symm hone))
          generalize copyFwd M1 q.back q.front q.fe 0 (B - q.fe) = M2 at c2 ⊢
          have c3 := copyFwd_spec q.back q.back (B - q.fe) M2 q.fe 0 (.inr (Nat.zero_le _))
          generalize copyFwd M2 q.back q.back (B - q.fe) q.fe 0 = M3 at c3 ⊢
          have f3 : ∀ x, x < B - q.fe → M3 q.front x = q.ps.sys.io.mem q.front (q.fe + x) := by
            intro x hx
            rw [c3.2 q.front x (.inl hone), c2.2 q.front x (.inr (.inl hx))]
            have := c1.1 x hx
            rwa [Nat.zero_add] at this
          have f3' : ∀ x, x < q.fe → M3 q.front (B - q.fe + x) = q.ps.sys.io.mem q.back x := by
            intro x hx
            rw [c3.2 q.front _ (.inl hone), c2.1 x hx, Nat.zero_add, c1.2 q.back x (.inl (Ne.symm hone))]
          have b3 : ∀ x, x < B - q.fe → M3 q.back x = q.ps.sys.io.mem q.back (q.fe + x) := by
            intro x hx
            have := c3.1 x hx
            rw [Nat.zero_add] at this
            rw [this, c2.2 q.back _ (.inl (Ne.symm hone)), c1.2 q.back _ (.inl (Ne.symm hone))]
          have hother : ∀ x, x ≠ q.front → x ≠ q.back → M3 x = q.ps.mem x := by
            intro x h1 h2
            funext y
            rw [c3.2 x y (.inl h2), c2.2 x y (.inl h1), c1.2 x y (.inl h1)]; rfl
          have okm := setMem_ok hb.ok hb.hf hb.hb hother
          refine ⟨_, rfl, ⟨store_ok okm hb.hb _ _, hb.hf, hb.hb, hb.nod, hb.closed, fun h' => absurd h' hone⟩, by simp [h.size], by show q.fe - q.fe < B; omega, by show q.be - q.fe + 1 ≤ B; omega, ?_⟩
          refine .two hone (Nat.succ_pos _) ?_
          dsimp only
          rw [store_ne _ _ _ hone, store_same, hbids, flat_nil, List.append_nil, Nat.sub_self, Nat.sub_zero]
          show l ++ [v] = seg (M3 q.front) 0 B ++ seg (upd (M3 q.back) (q.be - q.fe) v) 0 (q.be - q.fe + 1)
          rw [seg_snoc, Nat.zero_add, upd_same, seg_upd_out v (.inr (by omega)), ← List.append_assoc]
          congr 1
          rw [hl, hbids, flat_nil, List.append_nil, hfull]
          conv => rhs; rw [show B = (B - q.fe) + q.fe from by omega, seg_append]
          rw [List.append_assoc, Nat.zero_add]
          congr 1
          · exact seg_congr (fun i hi => by rw [Nat.zero_add, f3 i hi]; rfl)
          · conv => lhs; rw [show B = q.fe + (B - q.fe) from by omega, seg_append]
            congr 1
            · exact seg_congr (fun i hi => by rw [f3' i hi, Nat.zero_add]; rfl)
            · rw [Nat.zero_add, show B - q.fe + q.fe - q.fe = B - q.fe from by omega]
              refine seg_congr (fun i hi => ?_)
              rw [Nat.zero_add, b3 i (by omega)]; rfl
        · unfold spillBack
          obtain ⟨p, e1, ok1, cl1, sp1, m1, z1⟩ := PS.spill_ok hb.ok env hb.hb ho (decide ((q.bids ++ [env.fresh]).length ≤ q.pref))
          rw [e1]
          refine takeBack_inv (q := { q with bids := q.bids ++ [env.fresh], ps := p }) ok1 ?_ ?_ ?_ (by show 0 < p.sys.sizeWrite; omega) h.size hfe ?_ env v
          · show q.front ∈ p.cl.held
            rw [cl1]; exact (List.mem_erase_of_ne hone).2 hb.hf
          · dsimp only
            rw [List.nodup_append]
            refine ⟨hb.nod, by simp, ?_⟩
            intro a ha b' hb' hc
            simp at hb'; subst hb' hc; exact hf ha
          · intro x hx ⟨e, he, hex⟩
            have he' : e ∈ p.cl.up := he
            rw [cl1] at he'
            simp at hx
            rcases hx with hx | rfl
            · exact hb.closed x hx ⟨e, he', hex⟩
            · exact ho ⟨e, he', hex⟩
          · dsimp only
            rw [m1 _ hb.hf hone, sp1, flat_append, flat_cons, flat_nil, upd_same, hl, hfull]
            rw [flat_congr (bids := q.bids) (spec' := q.ps.spec) (fun b hbb => upd_ne _ _ (by rintro rfl; exact hf hbb))]
            simp
  · rw [if_neg hfull]
    refine ⟨_, rfl, ⟨store_ok hb.ok hb.hb _ _, hb.hf, hb.hb, hb.nod, hb.closed, hb.pool⟩, by simp [h.size], hfe, by show q.be + 1 ≤ B; omega, ?_⟩
    cases h.cont with
    | one hone hbids hbe' hl =>
      refine .one hone hbids (by simp; omega) ?_
      dsimp only
      rw [hone, store_same, List.length_append, List.length_singleton, seg_snoc, ← hbe', upd_same, seg_upd_out v (.inr (by omega)), ← hone, ← hl]
    | two hne hbe0 hl =>
      refine .two hne (Nat.succ_pos _) ?_
      dsimp only
      rw [store_ne _ _ _ hne, store_same, seg_snoc, Nat.zero_add, upd_same, seg_upd_out v (.inr (by omega)), ← List.append_assoc]
      congr 1

theorem pushFront_inv {q : Sq α} {l : List α} (h : Inv B q l) (env : Env) (v : α) (hf : env.fresh ∉ q.bids) (ho : ¬ q.ps.cl.open env.fresh) :
    ∃ q', pushFront B q env v = some q' ∧ Inv B q' (v :: l) := by
  have hb := h.base
  have hfe := h.fe
  have hbe := h.be
  unfold pushFront
  by_cases h0 : q.fe = 0
  · rw [if_pos h0]
    by_cases hz : q.size = 0
    · rw [if_pos hz]
      have hl0 : l = [] := List.length_eq_zero_iff.1 (by rw [← h.size]; exact hz)
      subst hl0
      cases h.cont with
      | two hne hbe0 hl =>
        have := h.two_len hne
        simp at this; omega
      | one hone hbids hbe' hl =>
        rw [if_pos hone]
        refine ⟨_, rfl, ⟨store_ok hb.ok hb.hf _ _, hb.hf, hb.hb, hb.nod, hb.closed, hb.pool⟩, by simp [hz], by show B - 1 < B; omega, Nat.le_refl _, ?_⟩
        refine .one hone hbids (by simp; omega) ?_
        dsimp only
        rw [store_same]
        simp [seg_cons, upd_same]
    · rw [if_neg hz]
      by_cases hone : q.front = q.back
      · rw [if_pos hone]
        cases h.cont with
        | two h' => exact absurd hone h'
        | one _ hbids hbe' hl =>
          have : 0 < l.length := by have := h.size; omega
          refine takeFront_inv hb.ok hb.hb hb.nod hb.closed (hb.pool hone) h.size (by omega) hbe (by omega) ?_ env v
          rw [hbids, flat_nil, List.nil_append, hbe', h0, Nat.zero_add, ← hone]
          rw [h0] at hl
          exact hl
      · rw [if_neg hone]
        have hlen := h.two_len hone
        cases h.cont with
        | one h' => exact absurd h' hone
        | two _ hbe0 hl =>
          split
          · rename_i hsz
            rw [h.size] at hsz
            have hn : q.bids.length = 0 := mul_lt_zero (B := B) (by omega) (by omega)
            have hbids := List.length_eq_zero_iff.1 hn
            rw [hn] at hlen
            have hgap : 0 < B - q.be := by omega
            unfold shiftFront
            dsimp only
            rw [if_pos ⟨hbids, hgap⟩]
            have eg : B - (B - q.be) = q.be := by omega
            rw [eg]
            have c1 := copyBwd_spec q.back q.back q.be q.ps.sys.io.mem q.be B (by omega) hbe (.inr hbe)
            generalize copyBwd q.ps.sys.io.mem q.back q.back q.be q.be B = M1 at c1 ⊢
            have c2 := copyBwd_spec q.front q.back (B - q.be) M1 B (B - q.be) (by omega) (by omega) (.inl hone)
            generalize copyBwd M1 q.front q.back (B - q.be) B (B - q.be) = M2 at c2 ⊢
            have c3 := copyBwd_spec q.front q.front q.be M2 q.be B (by omega) hbe (.inr hbe)
            generalize copyBwd M2 q.front q.front q.be q.be B = M3 at c3 ⊢
            have b3 : ∀ x, x < B - q.be → M3 q.back x = q.ps.sys.io.mem q.front (q.be + x) := by
              intro x hx
              rw [c3.2 q.back x (.inl (Ne.symm hone))]
              have := c2.1 x hx
              rw [Nat.sub_self, Nat.zero_add, eg] at this
              rw [this, c1.2 q.front _ (.inl hone)]
            have b3' : ∀ x, x < q.be → M3 q.back (B - q.be + x) = q.ps.sys.io.mem q.back x := by
              intro x hx
              rw [c3.2 q.back _ (.inl (Ne.symm hone)), c2.2 q.back _ (.inr (.inr (by omega)))]
              have := c1.1 x hx
              rwa [Nat.sub_self, Nat.zero_add] at this
            have f3 : ∀ x, x < q.be → M3 q.front (B - q.be + x) = q.ps.sys.io.mem q.front x := by
              intro x hx
              have := c3.1 x hx
              rw [Nat.sub_self, Nat.zero_add] at this
              rw [this, c2.2 q.front _ (.inl hone), c1.2 q.front _ (.inl hone)]
            have hother : ∀ x, x ≠ q.front → x ≠ q.back → M3 x = q.ps.mem x := by
              intro x h1 h2
              funext y
              rw [c3.2 x y (.inl h1), c2.2 x y (.inl h2), c1.2 x y (.inl h2)]; rfl
            have okm := setMem_ok hb.ok hb.hf hb.hb hother
            refine ⟨_, rfl, ⟨store_ok okm hb.hf _ _, hb.hf, hb.hb, hb.nod, hb.closed, fun h' => absurd h' hone⟩, by simp [h.size], by show q.fe + (B - q.be) - 1 < B; omega, by show q.be + (B - q.be) ≤ B; omega, ?_⟩
            refine .two hone (by show 0 < q.be + (B - q.be); omega) ?_
            dsimp only
            rw [store_ne _ _ _ (Ne.symm hone), store_same, hbids, flat_nil, List.append_nil, h0, Nat.zero_add, show q.be + (B - q.be) = B from by omega]
            show v :: l = seg (upd (M3 q.front) (B - q.be - 1) v) (B - q.be - 1) (B - (B - q.be - 1)) ++ seg (M3 q.back) 0 B
            rw [show B - (B - q.be - 1) = q.be + 1 from by omega, seg_cons, upd_same, seg_upd_out v (.inl (by omega)), List.cons_append]
            congr 1
            rw [hl, hbids, flat_nil, List.append_nil, h0, Nat.sub_zero, show B - q.be - 1 + 1 = B - q.be from by omega]
            conv => lhs; rw [show B = q.be + (B - q.be) from by omega, seg_append]
            conv => rhs; rw [show seg (M3 q.back) 0 B = seg (M3 q.back) 0 ((B - q.be) + q.be) from by congr 1; omega, seg_append]
            rw [List.append_assoc, Nat.zero_add, Nat.zero_add]
            congr 1
            · exact seg_congr (fun i hi => by rw [Nat.zero_add, f3 i hi]; rfl)
            · congr 1
              · exact seg_congr (fun i hi => by rw [Nat.zero_add, b3 i hi]; rfl)
              · exact seg_congr (fun i hi => by rw [Nat.zero_add, b3' i hi]; rfl)
          · unfold spillFront
            obtain ⟨p, e1, ok1, cl1, sp1, m1, z1⟩ := PS.spill_ok hb.ok env hb.hf ho (decide ((env.fresh :: q.bids).length ≤ q.pref))
            rw [e1]
            refine takeFront_inv (q := { q with bids := env.fresh :: q.bids, ps := p }) ok1 ?_ ?_ ?_ (by show 0 < p.sys.sizeWrite; omega) h.size (by omega) hbe hbe0 ?_ env v
            · show q.back ∈ p.cl.held
              rw [cl1]; exact (List.mem_erase_of_ne (Ne.symm hone)).2 hb.hb
            · exact List.nodup_cons.2 ⟨hf, hb.nod⟩
            · intro x hx ⟨e, he, hex⟩
              have he' : e ∈ p.cl.up := he
              rw [cl1] at he'
              simp at hx
              rcases hx with rfl | hx
              · exact ho ⟨e, he', hex⟩
              · exact hb.closed x hx ⟨e, he', hex⟩
            · dsimp only
              rw [m1 _ hb.hb (Ne.symm hone), sp1, flat_cons, upd_same, hl, h0, Nat.sub_zero]
              rw [flat_congr (bids := q.bids) (spec' := q.ps.spec) (fun b hbb => upd_ne _ _ (by rintro rfl; exact hf hbb))]
  · rw [if_neg h0]
    refine ⟨_, rfl, ⟨store_ok hb.ok hb.hf _ _, hb.hf, hb.hb, hb.nod, hb.closed, hb.pool⟩, by simp [h.size], by show q.fe - 1 < B; omega, hbe, ?_⟩
    cases h.cont with
    | one hone hbids hbe' hl =>
      refine .one hone hbids (by simp; omega) ?_
      dsimp only
      rw [store_same, List.length_cons, seg_cons, upd_same, seg_upd_out v (.inl (by omega)), show q.fe - 1 + 1 = q.fe from by omega, ← hl]
    | two hne hbe0 hl =>
      refine .two hne hbe0 ?_
      dsimp only
      rw [store_ne _ _ _ (Ne.symm hne), store_same, show B - (q.fe - 1) = B - q.fe + 1 from by omega, seg_cons, upd_same, seg_upd_out v (.inl (by omega)),
        show q.fe - 1 + 1 = q.fe from by omega, List.cons_append, List.cons_append]
      congr 1

theorem popFront_inv {q : Sq α} {l : List α} (h : Inv B q l) (env : Env) (hne0 : l ≠ []) :
    ∃ q', popFront B q env = some q' ∧ Inv B q' l.tail := by
  have hb := h.base
  have hfe := h.fe
  have hbe := h.be
  have hpos : 0 < l.length := List.length_pos_iff.2 hne0
  unfold popFront
  rw [if_neg (by have := h.size; omega)]
  by_cases hlast : q.fe + 1 = B
  · rw [if_pos hlast]
    by_cases hone : q.back = q.front
    · rw [if_pos hone]
      cases h.cont with
      | two h' => exact absurd hone.symm h'
      | one _ hbids hbe' hl =>
        unfold reset
        have h1 : l.length = 1 := by omega
        rw [if_pos ⟨by rw [h.size, h1], by omega, hbids⟩]
        have ht : l.tail = [] := List.length_eq_zero_iff.1 (by simp; omega)
        refine ⟨_, rfl, ⟨hb.ok, hb.hf, hb.hb, hb.nod, hb.closed, hb.pool⟩, by simp [ht], by show 0 < B; omega, Nat.zero_le _, ?_⟩
        exact .one hone.symm hbids (by simp [ht]) (by simp [ht])
    · rw [if_neg hone]
      have hone' : q.front ≠ q.back := fun h => hone h.symm
      have hlen := h.two_len hone'
      cases h.cont with
      | one h' => exact absurd h' hone'
      | two _ hbe0 hl =>
        have ht : l.tail = flat B q.ps.spec q.bids ++ seg (q.ps.mem q.back) 0 q.be := by
          rw [hl, show B - q.fe = 0 + 1 from by omega, seg_cons]; simp
        split
        · rename_i hsz
          rw [h.size] at hsz
          have hn : q.bids.length = 0 := mul_lt_zero (B := B) (by omega) (by omega)
          have hbids := List.length_eq_zero_iff.1 hn
          rw [if_pos hbids]
          obtain ⟨ok1, z1, m1⟩ := PS.add_ok hb.ok hb.hf
          have hheld : q.back ∈ (q.ps.add q.front).cl.held := (List.mem_erase_of_ne hone).2 hb.hb
          refine ⟨_, rfl, ⟨ok1, hheld, hheld, hb.nod, hb.closed, fun _ => by rw [z1]; omega⟩, by simp [h.size], by show 0 < B; omega, hbe, ?_⟩
          rw [hn] at hlen
          refine .one rfl hbids (by simp; omega) ?_
          dsimp only
          rw [ht, hbids, flat_nil, List.nil_append, seg_length, m1]
        · rename_i hsz
          rw [h.size] at hsz
          unfold fetchFront
          cases hbids : q.bids with
          | nil => rw [hbids] at hlen; simp at hlen; omega
          | cons b rest =>
            dsimp only
            have hnod := hb.nod
            rw [hbids] at hnod
            have hcl := hb.closed
            rw [hbids] at hcl
            obtain ⟨p, f, e1, ok1, cl1, sp1, mf, mo, z1, nf⟩ := PS.fetch_ok (hints := rest.take q.pref) hb.ok env hb.hf (hcl b (by simp)) (by
              intro x hx
              have hx' := List.take_subset _ _ hx
              refine ⟨hcl x (by simp [hx']), ?_⟩
              rintro rfl; exact (List.nodup_cons.1 hnod).1 hx')
            rw [e1]
            have hbk : q.back ∈ q.ps.cl.held.erase q.front := (List.mem_erase_of_ne hone).2 hb.hb
            have hfne : f ≠ q.back := by rintro rfl; exact nf hbk
            refine ⟨_, rfl, ⟨ok1, ?_, ?_, (List.nodup_cons.1 hnod).2, ?_, fun h => absurd h hfne⟩, by simp [h.size], by show 0 < B; omega, hbe, ?_⟩
            · show f ∈ p.cl.held
              simp [cl1]
            · show q.back ∈ p.cl.held
              rw [cl1]; simp [hbk]
            · intro x hx ⟨e, he, hex⟩
              have he' : e ∈ p.cl.up := he
              rw [cl1] at he'
              exact hcl x (List.mem_cons_of_mem _ hx) ⟨e, he', hex⟩
            · refine .two hfne hbe0 ?_
              dsimp only
              rw [mf, sp1, mo _ hb.hb hone, ht, hbids, flat_cons, Nat.sub_zero]
  · rw [if_neg hlast]
    refine ⟨_, rfl, ⟨hb.ok, hb.hf, hb.hb, hb.nod, hb.closed, hb.pool⟩, by simp [h.size], by show q.fe + 1 < B; omega, hbe, ?_⟩
    cases h.cont with
    | one hone hbids hbe' hl =>
      refine .one hone hbids (by simp; omega) ?_
      dsimp only
      conv => lhs; rw [hl, show l.length = (l.length - 1) + 1 from by omega, seg_cons]
      simp
    | two hne hbe0 hl =>
      refine .two hne hbe0 ?_
      dsimp only
      rw [hl, show B - q.fe = (B - (q.fe + 1)) + 1 from by omega, seg_cons]
      simp

theorem popBack_inv {q : Sq α} {l : List α} (h : Inv B q l) (env : Env) (hne0 : l ≠ []) :
    ∃ q', popBack B q env = some q' ∧ Inv B q' l.dropLast := by
  have hb := h.base
  have hfe := h.fe
  have hbe := h.be
  have hpos : 0 < l.length := List.length_pos_iff.2 hne0
  unfold popBack
  rw [if_neg (by have := h.size; omega)]
  by_cases hlast : q.be = 1
  · rw [if_pos hlast]
    by_cases hone : q.back = q.front
    · rw [if_pos hone]
      cases h.cont with
      | two h' => exact absurd hone.symm h'
      | one _ hbids hbe' hl =>
        unfold reset
        have h1 : l.length = 1 := by omega
        rw [if_pos ⟨by rw [h.size, h1], by omega, hbids⟩]
        have ht : l.dropLast = [] := List.length_eq_zero_iff.1 (by simp; omega)
        refine ⟨_, rfl, ⟨hb.ok, hb.hf, hb.hb, hb.nod, hb.closed, hb.pool⟩, by simp [ht], by show 0 < B; omega, Nat.zero_le _, ?_⟩
        exact .one hone.symm hbids (by simp [ht]) (by simp [ht])
    · rw [if_neg hone]
      have hone' : q.front ≠ q.back := fun h => hone h.symm
      have hlen := h.two_len hone'
      cases h.cont with
      | one h' => exact absurd h' hone'
      | two _ hbe0 hl =>
        have ht : l.dropLast = seg (q.ps.mem q.front) q.fe (B - q.fe) ++ flat B q.ps.spec q.bids := by
          rw [hl, hlast, show (1 : Nat) = 0 + 1 from rfl, seg_cons, seg_zero, List.dropLast_concat]
        split
        · rename_i hsz
          rw [h.size] at hsz
          have hn : q.bids.length = 0 := mul_lt_zero (B := B) (by omega) (by omega)
          have hbids := List.length_eq_zero_iff.1 hn
          rw [if_pos hbids]
          obtain ⟨ok1, z1, m1⟩ := PS.add_ok hb.ok hb.hb
          have hheld : q.front ∈ (q.ps.add q.back).cl.held := (List.mem_erase_of_ne hone').2 hb.hf
          refine ⟨_, rfl, ⟨ok1, hheld, hheld, hb.nod, hb.closed, fun _ => by rw [z1]; omega⟩, by simp [h.size], hfe, Nat.le_refl _, ?_⟩
          rw [hn] at hlen
          refine .one rfl hbids (by simp; omega) ?_
          dsimp only
          rw [ht, hbids, flat_nil, List.append_nil, seg_length, m1]
        · rename_i hsz
          rw [h.size] at hsz
          unfold fetchBack
          cases hbids : q.bids.getLast? with
          | none => rw [List.getLast?_eq_none_iff.1 hbids] at hlen; simp at hlen; omega
          | some b =>
            dsimp only
            have hsp := getLast?_split hbids
            have hnod := hb.nod
            rw [hsp, List.nodup_append] at hnod
            obtain ⟨p, f, e1, ok1, cl1, sp1, mf, mo, z1, nf⟩ := PS.fetch_ok (hints := q.bids.dropLast.reverse.take (min (q.pref - 1) (q.bids.length - 2))) hb.ok env hb.hb (hb.closed b (by rw [hsp]; simp)) (by
              intro x hx
              have hx' := List.mem_reverse.1 (List.take_subset _ _ hx)
              refine ⟨hb.closed x (List.dropLast_subset _ hx'), ?_⟩
              exact hnod.2.2 x hx' b (by simp))
            rw [e1]
            have hfr : q.front ∈ q.ps.cl.held.erase q.back := (List.mem_erase_of_ne hone').2 hb.hf
            have hfne : q.front ≠ f := by rintro rfl; exact nf hfr
            refine ⟨_, rfl, ⟨ok1, ?_, ?_, hnod.1, ?_, fun h => absurd h hfne⟩, by simp [h.size], hfe, Nat.le_refl _, ?_⟩
            · show q.front ∈ p.cl.held
              rw [cl1]; simp [hfr]
            · show f ∈ p.cl.held
              simp [cl1]
            · intro x hx ⟨e, he, hex⟩
              have he' : e ∈ p.cl.up := he
              rw [cl1] at he'
              exact hb.closed x (List.dropLast_subset _ hx) ⟨e, he', hex⟩
            · refine .two hfne (by show 0 < B; omega) ?_
              dsimp only
              rw [mf, sp1, mo _ hb.hf hone', ht]
              conv => lhs; rw [hsp, flat_append, flat_cons, flat_nil, List.append_nil]
              rw [List.append_assoc]
  · rw [if_neg hlast]
    refine ⟨_, rfl, ⟨hb.ok, hb.hf, hb.hb, hb.nod, hb.closed, hb.pool⟩, by simp [h.size], hfe, by show q.be - 1 ≤ B; omega, ?_⟩
    cases h.cont with
    | one hone hbids hbe' hl =>
      refine .one hone hbids (by simp; omega) ?_
      dsimp only
      conv => lhs; rw [hl, show l.length = (l.length - 1) + 1 from by omega, seg_snoc, List.dropLast_concat]
      simp
    | two hne hbe0 hl =>
      refine .two hne (by show 0 < q.be - 1; omega) ?_
      dsimp only
      conv => lhs; rw [hl, show q.be = (q.be - 1) + 1 from by omega, seg_snoc, ← List.append_assoc, List.dropLast_concat]

theorem Inv.ends {q : Sq α} {l : List α} (h : Inv B q l) (hne0 : l ≠ []) : l.head? = some (q.ps.mem q.front q.fe) ∧ l.getLast? = some (q.ps.mem q.back (q.be - 1)) := by
  have hpos : 0 < l.length := List.length_pos_iff.2 hne0
  have hfe := h.fe
  have hbe := h.be
  cases h.cont with
  | one hone hbids hbe' hl =>
    constructor
    · rw [hl, show l.length = (l.length - 1) + 1 from by omega, seg_cons]; rfl
    · rw [hl, show l.length = (l.length - 1) + 1 from by omega, seg_snoc, List.getLast?_concat, hone]
      congr 2; omega
  | two hne hbe0 hl =>
    constructor
    · rw [hl, show B - q.fe = (B - q.fe - 1) + 1 from by omega, seg_cons]; rfl
    · rw [hl, show q.be = (q.be - 1) + 1 from by omega, seg_snoc, ← List.append_assoc, List.getLast?_concat]
      simp

theorem setFront_inv {q : Sq α} {l : List α} (h : Inv B q l) (v : α) (hne0 : l ≠ []) :
    ∃ q', setFront q v = some q' ∧ Inv B q' (v :: l.tail) := by
  have hpos : 0 < l.length := List.length_pos_iff.2 hne0
  have hb := h.base
  have hfe := h.fe
  have hbe := h.be
  unfold setFront
  rw [if_neg (by have := h.size; omega)]
  refine ⟨_, rfl, ⟨store_ok hb.ok hb.hf _ _, hb.hf, hb.hb, hb.nod, hb.closed, hb.pool⟩, by simp [h.size]; omega, hfe, hbe, ?_⟩
  cases h.cont with
  | one hone hbids hbe' hl =>
    refine .one hone hbids (by simp; omega) ?_
    dsimp only
    rw [store_same, List.length_cons, seg_cons, upd_same, seg_upd_out v (.inl (by omega))]
    congr 1
    conv => lhs; rw [hl, show l.length = (l.length - 1) + 1 from by omega, seg_cons]
    simp
  | two hne hbe0 hl =>
    refine .two hne hbe0 ?_
    dsimp only
    rw [store_ne _ _ _ (Ne.symm hne), store_same, show B - q.fe = (B - q.fe - 1) + 1 from by omega, seg_cons, upd_same, seg_upd_out v (.inl (by omega)), List.cons_append, List.cons_append]
    congr 1
    conv => lhs; rw [hl, show B - q.fe = (B - q.fe - 1) + 1 from by omega, seg_cons]
    rfl

theorem setBack_inv {q : Sq α} {l : List α} (h : Inv B q l) (v : α) (hne0 : l ≠ []) :
    ∃ q', setBack q v = some q' ∧ Inv B q' (l.dropLast ++ [v]) := by
  have hpos : 0 < l.length := List.length_pos_iff.2 hne0
  have hb := h.base
  have hfe := h.fe
  have hbe := h.be
  unfold setBack
  rw [if_neg (by have := h.size; omega)]
  refine ⟨_, rfl, ⟨store_ok hb.ok hb.hb _ _, hb.hf, hb.hb, hb.nod, hb.closed, hb.pool⟩, by simp [h.size]; omega, hfe, hbe, ?_⟩
  cases h.cont with
  | one hone hbids hbe' hl =>
    refine .one hone hbids (by simp; omega) ?_
    dsimp only
    rw [hone, store_same, List.length_append, List.length_singleton, List.length_dropLast, seg_snoc, show q.fe + (l.length - 1) = q.be - 1 from by omega, upd_same,
      seg_upd_out v (.inr (by omega))]
    congr 1
    conv => lhs; rw [hl, show l.length = (l.length - 1) + 1 from by omega, seg_snoc, List.dropLast_concat]
    rw [hone]
  | two hne hbe0 hl =>
    refine .two hne hbe0 ?_
    dsimp only
    rw [store_ne _ _ _ hne, store_same]
    conv => rhs; rw [show q.be = (q.be - 1) + 1 from by omega, seg_snoc, ← List.append_assoc]
    rw [Nat.zero_add, Nat.add_sub_cancel, upd_same, seg_upd_out v (.inr (by omega))]
    congr 1
    conv => lhs; rw [hl, show q.be = (q.be - 1) + 1 from by omega, seg_snoc, ← List.append_assoc, List.dropLast_concat]
    rfl

theorem step_ok {q : Sq α} {l : List α} (h : Inv B q l) {env : Env} {op : Op α} (hl : specLegal l op) (hf : env.fresh ∉ q.bids)
    (ho : ¬ q.ps.cl.open env.fresh) : ∃ q', step B q env op = some q' ∧ Inv B q' (specStep l op) := by
  cases op with
  | pushBack v => exact pushBack_inv h env v hf ho
  | pushFront v => exact pushFront_inv h env v hf ho
  | popFront => exact popFront_inv h env hl
  | popBack => exact popBack_inv h env hl
  | setFront v => exact setFront_inv h v hl
  | setBack v => exact setBack_inv h v hl

end Sq
end Stxxl.Sequence
