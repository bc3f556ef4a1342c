import Verif.PQ.Takes

/-! # The tournament tree of the priority queue mergers -/

namespace Stxxl.PQ
open Stxxl.LT (upd Below Tree cle)

variable {α : Type} {C : Cmp α}

/-- "has higher priority". -/
def better (C : Cmp α) (a b : α) : Bool := C.less b a

theorem better_swo (hC : C.Ok) : SWO (better C) where
  asymm := fun a b h => hC.asymm b a h
  negtrans := fun a b c h1 h2 => hC.negtrans c b a h2 h1

/-- The recorded indices. -/
def idx (e : Nat → α × Nat) (n : Nat) : Nat := (e n).2

/-- The tournament invariant for the subtree of height `h` at `n` with winner `w`. -/
def T (C : Cmp α) (e : Nat → α × Nat) (v : Nat → α) (k h n w : Nat) : Prop :=
  Tree (better C) (idx e) (fun i => [v i]) k h n w

/-- The recorded keys are the current keys of the recorded indices. -/
def Keyed (e : Nat → α × Nat) (v : Nat → α) (h n : Nat) : Prop := ∀ m, Below h n m → (e m).1 = v (e m).2

theorem below_root {L m : Nat} : Below L 1 m ↔ 1 ≤ m ∧ m < 2 ^ L := by
  constructor
  · rintro ⟨t, ht, hm⟩
    have hp : 0 < 2 ^ t := Nat.pos_of_ne_zero (by simp)
    have h1 : 1 ≤ m := by
      rcases Nat.eq_zero_or_pos m with rfl | h
      · simp at hm
      · exact h
    refine ⟨h1, ?_⟩
    have h2 : m < 2 ^ (t + 1) := by
      have := Nat.lt_mul_div_succ m hp
      rw [hm] at this
      rw [Nat.pow_succ]; omega
    exact Nat.lt_of_lt_of_le h2 (Nat.pow_le_pow_right (by decide) (by omega))
  · rintro ⟨h1, h2⟩
    have hne : m ≠ 0 := by omega
    refine ⟨Nat.log2 m, (Nat.log2_lt hne).2 h2, ?_⟩
    have := Nat.log2_self_le hne
    have h3 : m < 2 ^ (Nat.log2 m + 1) := Nat.lt_log2_self
    apply Nat.div_eq_of_lt_le <;> rw [Nat.pow_succ] at * <;> omega

theorem leaf_root {L i : Nat} (hi : i < 2 ^ L) : (i + 2 ^ L) / 2 ^ L = 1 := by
  rw [Nat.add_div_right _ (Nat.pos_of_ne_zero (by simp)), Nat.div_eq_of_lt hi]

theorem T.winner_lt {e : Nat → α × Nat} {v : Nat → α} {L w : Nat} (t : T C e v (2 ^ L) L 1 w) : w < 2 ^ L := by
  have h := LT.Tree.leaf t
  have hp : 0 < 2 ^ L := Nat.pos_of_ne_zero (by simp)
  have := Nat.lt_mul_div_succ (w + 2 ^ L) hp
  rw [h] at this; omega

theorem T.best (hC : C.Ok) {e : Nat → α × Nat} {v : Nat → α} {L w : Nat} (t : T C e v (2 ^ L) L 1 w) {j : Nat} (hj : j < 2 ^ L) :
    C.less (v w) (v j) = false := LT.Tree.min (better_swo hC) t j (leaf_root hj)

theorem T.entry_lt {e : Nat → α × Nat} {v : Nat → α} {L w m : Nat} (t : T C e v (2 ^ L) L 1 w) (h1 : 1 ≤ m) (h2 : m < 2 ^ L) :
    (e m).2 < 2 ^ L := by
  have h := LT.Tree.entry_leaf t m (below_root.2 ⟨h1, h2⟩)
  have hp : 0 < 2 ^ L := Nat.pos_of_ne_zero (by simp)
  have := Nat.lt_mul_div_succ (idx e m + 2 ^ L) hp
  rw [h] at this
  show idx e m < _
  omega

/-- The winner of a subtree is recorded nowhere in it. -/
theorem Tree.loser_ne {lt : α → α → Bool} {e : Nat → Nat} {cur : Nat → List α} {k : Nat} : ∀ {h n w : Nat},
    Tree lt e cur k h n w → ∀ m, Below h n m → e m ≠ w := by
  intro h
  induction h with
  | zero => rintro n w _ m ⟨t, ht, _⟩; omega
  | succ h ih =>
    rintro n w ⟨wl, wr, tl, tr, hw, _⟩ m ⟨t, ht, hm⟩ heq
    have hl := LT.Tree.leaf tl
    have hr := LT.Tree.leaf tr
    cases t with
    | zero =>
      have : m = n := by simpa using hm
      subst this
      rcases hw with ⟨h1, h2⟩ | ⟨h1, h2⟩
      · have : wl = wr := by rw [← h1, ← h2, heq]
        rw [this] at hl; omega
      · have : wl = wr := by rw [← h1, ← h2, heq]
        rw [this] at hl; omega
    | succ t =>
      rw [Nat.pow_succ, ← Nat.div_div_eq_div_mul] at hm
      have hcase : m / 2 ^ t = 2 * n ∨ m / 2 ^ t = 2 * n + 1 := by omega
      rcases hcase with c | c
      · have b : Below h (2 * n) m := ⟨t, by omega, c⟩
        have h3 := LT.Tree.entry_leaf tl m b
        rcases hw with ⟨h1, _⟩ | ⟨h1, _⟩
        · exact ih tl m b (by rw [heq, h1])
        · rw [heq, h1, hr] at h3; omega
      · have b : Below h (2 * n + 1) m := ⟨t, by omega, c⟩
        have h3 := LT.Tree.entry_leaf tr m b
        rcases hw with ⟨h1, _⟩ | ⟨h1, _⟩
        · rw [heq, h1, hl] at h3; omega
        · exact ih tr m b (by rw [heq, h1])

/-! ## Rebuilding -/

theorem initWinner_ok (hC : C.Ok) (v : Nat → α) (k : Nat) : ∀ (h fuel n : Nat) (e : Nat → α × Nat),
    h < fuel → 0 < n → k ≤ n * 2 ^ h → (n + 1) * 2 ^ h ≤ 2 * k →
    T C (initWinner C v k fuel n e).2 v k h n (initWinner C v k fuel n e).1 ∧
      (∀ m, ¬ Below h n m → (initWinner C v k fuel n e).2 m = e m) ∧ Keyed (initWinner C v k fuel n e).2 v h n := by
  intro h
  induction h with
  | zero =>
    intro fuel n e hf hn h1 h2
    obtain ⟨f, rfl⟩ : ∃ f, fuel = f + 1 := ⟨fuel - 1, by omega⟩
    have : n ≥ k := by simpa using h1
    simp only [initWinner, this, if_true]
    exact ⟨by show n - k + k = n; omega, fun _ _ => trivial, by rintro m ⟨t, ht, _⟩; omega⟩
  | succ h ih =>
    intro fuel n e hf hn h1 h2
    obtain ⟨f, rfl⟩ : ∃ f, fuel = f + 1 := ⟨fuel - 1, by omega⟩
    rw [Nat.pow_succ] at h1 h2
    have hp : 0 < 2 ^ h := Nat.pos_of_ne_zero (by simp)
    have hnk : ¬ n ≥ k := by
      intro c
      have : (n + 1) * (2 ^ h * 2) = 2 * ((n + 1) * 2 ^ h) := by rw [← Nat.mul_assoc, Nat.mul_comm]
      have : (n + 1) * 1 ≤ (n + 1) * 2 ^ h := Nat.mul_le_mul_left _ hp
      omega
    have e1 : 2 * n * 2 ^ h = n * (2 ^ h * 2) := by rw [Nat.mul_comm 2 n, Nat.mul_assoc, Nat.mul_comm 2]
    have e2 : (2 * n + 1) * 2 ^ h = n * (2 ^ h * 2) + 2 ^ h := by rw [Nat.add_mul, e1]; omega
    have e3 : (2 * n + 1 + 1) * 2 ^ h = (n + 1) * (2 ^ h * 2) := by
      rw [Nat.add_mul, e2, Nat.add_mul]; omega
    have e4 : (n + 1) * (2 ^ h * 2) = n * (2 ^ h * 2) + 2 ^ h * 2 := by rw [Nat.add_mul]; omega
    obtain ⟨l1, l2, l3⟩ := ih f (2 * n) e (by omega) (by omega) (by omega) (by omega)
    obtain ⟨r1, r2, r3⟩ := ih f (2 * n + 1) (initWinner C v k f (2 * n) e).2 (by omega) (by omega) (by omega) (by omega)
    simp only [initWinner, hnk, if_false]
    generalize initWinner C v k f (2 * n) e = l at *
    generalize initWinner C v k f (2 * n + 1) l.2 = r at *
    have l1' : T C r.2 v k h (2 * n) l.1 := by
      apply LT.Tree.frame l1
      · intro m b; unfold idx; rw [r2 m (fun b' => LT.below_disjoint hn b b')]
      · intro _ _; rfl
    have hnb : ∀ {n' m}, (n' = 2 * n ∨ n' = 2 * n + 1) → Below h n' m → m ≠ n := by
      rintro n' m hn' b rfl
      exact LT.not_below_of_lt (by omega) b
    have fr : ∀ x w n', (n' = 2 * n ∨ n' = 2 * n + 1) → T C r.2 v k h n' w → T C (upd r.2 n x) v k h n' w := by
      intro x w n' hn' t
      apply LT.Tree.frame t
      · intro m b
        unfold idx
        rw [upd_ne _ _ (hnb hn' b)]
      · intro _ _; rfl
    have hoff : ∀ x m, ¬ Below (h + 1) n m → upd r.2 n x m = e m := by
      intro x m hm
      have hmn : m ≠ n := by rintro rfl; exact hm (LT.below_self h m)
      rw [upd_ne _ _ hmn, r2 m (fun b => hm (LT.below_right b)), l2 m (fun b => hm (LT.below_left b))]
    have hkey : ∀ w, Keyed (upd r.2 n (v w, w)) v (h + 1) n := by
      rintro w m ⟨t, ht, hm⟩
      by_cases hmn : m = n
      · subst hmn; rw [upd_same]
      · cases t with
        | zero => exact absurd (by simpa using hm) hmn
        | succ t =>
          rw [upd_ne _ _ hmn]
          rw [Nat.pow_succ, ← Nat.div_div_eq_div_mul] at hm
          have hcase : m / 2 ^ t = 2 * n ∨ m / 2 ^ t = 2 * n + 1 := by omega
          rcases hcase with c | c
          · have b : Below h (2 * n) m := ⟨t, by omega, c⟩
            rw [r2 m (fun b' => LT.below_disjoint hn b b')]; exact l3 m b
          · exact r3 m ⟨t, by omega, c⟩
    cases hcl : C.less (v l.1) (v r.1)
    · simp only [Bool.not_false, if_true]
      refine ⟨⟨l.1, r.1, fr _ _ _ (Or.inl rfl) l1', fr _ _ _ (Or.inr rfl) r1, Or.inl ⟨rfl, ?_⟩, ?_⟩, hoff _, hkey _⟩
      · unfold idx; rw [upd_same]
      · unfold idx; rw [upd_same]; exact hcl
    · simp only [Bool.not_true, Bool.false_eq_true, if_false]
      refine ⟨⟨l.1, r.1, fr _ _ _ (Or.inl rfl) l1', fr _ _ _ (Or.inr rfl) r1, Or.inr ⟨rfl, ?_⟩, ?_⟩, hoff _, hkey _⟩
      · unfold idx; rw [upd_same]
      · unfold idx; rw [upd_same]; exact hC.asymm _ _ hcl

/-- The whole tree, including the winner in `entry[0]`. -/
structure TInv (C : Cmp α) (e : Nat → α × Nat) (v : Nat → α) (L : Nat) : Prop where
  tree : T C e v (2 ^ L) L 1 (e 0).2
  keyed : Keyed e v L 1
  root : (e 0).1 = v (e 0).2

theorem rebuild_ok (hC : C.Ok) {M : Merger α} (hk : M.k = 2 ^ M.logK) :
    TInv C (rebuild C M).entry (keys C M.slots) M.logK := by
  unfold rebuild
  simp only
  rw [hk]
  obtain ⟨h1, h2, h3⟩ := initWinner_ok hC (keys C M.slots) (2 ^ M.logK) M.logK (M.logK + 1) 1 M.entry (by omega) (by omega)
    (by omega) (by omega)
  generalize initWinner C (keys C M.slots) (2 ^ M.logK) (M.logK + 1) 1 M.entry = r at *
  have hb : ∀ m, Below M.logK 1 m → m ≠ 0 := by
    intro m b; have := (below_root.1 b).1; omega
  refine ⟨?_, ?_, ?_⟩
  · rw [upd_same]
    apply LT.Tree.frame h1
    · intro m b; unfold idx; rw [upd_ne _ _ (hb m b)]
    · intro _ _; rfl
  · intro m b; rw [upd_ne _ _ (hb m b)]; exact h3 m b
  · rw [upd_same]

/-! ## Replaying the path of the winner -/

/-- The state `(e, key, index)` of the climb is consistent with `v`. -/
structure CInv (v : Nat → α) (L : Nat) (s : (Nat → α × Nat) × α × Nat) : Prop where
  key : s.2.1 = v s.2.2
  win : s.2.2 < 2 ^ L
  ents : ∀ m, 1 ≤ m → m < 2 ^ L → (s.1 m).1 = v (s.1 m).2 ∧ (s.1 m).2 < 2 ^ L

theorem play_sim {v : Nat → α} {L i : Nat} {s : (Nat → α × Nat) × α × Nat} (h : CInv v L s) (h1 : 1 ≤ i) (h2 : i < 2 ^ L) :
    CInv v L (play C i s) ∧
    LT.play (better C) (fun i => [v i]) i (idx s.1, s.2.2) = (idx (play C i s).1, (play C i s).2.2) := by
  obtain ⟨e, wk, w⟩ := s
  have hk : wk = v w := h.key
  subst hk
  obtain ⟨a1, a2⟩ := h.ents i h1 h2
  have a1 : (e i).1 = v (e i).2 := a1
  have a2 : (e i).2 < 2 ^ L := a2
  unfold play LT.play
  simp only
  have hc : LT.curLess (better C) [v (idx e i)] [v w] = C.less (v w) (e i).1 := by
    show C.less (v w) (v (e i).2) = _; rw [a1]
  rw [hc]
  cases C.less (v w) (e i).1
  · exact ⟨h, rfl⟩
  · simp only [if_true]
    refine ⟨⟨a1, a2, ?_⟩, ?_⟩
    · intro m hm1 hm2
      show (upd e i (v w, w) m).1 = v (upd e i (v w, w) m).2 ∧ (upd e i (v w, w) m).2 < 2 ^ L
      by_cases hmi : m = i
      · subst hmi; rw [upd_same]; exact ⟨rfl, h.win⟩
      · rw [upd_ne _ _ hmi]; exact h.ents m hm1 hm2
    · refine Prod.ext ?_ rfl
      funext m; show upd (idx e) i w m = (upd e i (v w, w) m).2; unfold idx upd; split <;> rfl

theorem treeSteps_sim {v : Nat → α} {L : Nat} : ∀ (ts : List Nat) (s : (Nat → α × Nat) × α × Nat), CInv v L s →
    (∀ t ∈ ts, 1 ≤ t ∧ t ≤ L) →
    CInv v L (treeSteps C (2 ^ L) ts s) ∧
    LT.treeSteps (better C) (fun i => [v i]) (2 ^ L) ts (idx s.1, s.2.2)
      = (idx (treeSteps C (2 ^ L) ts s).1, (treeSteps C (2 ^ L) ts s).2.2) := by
  intro ts
  induction ts with
  | nil => intro s h _; exact ⟨h, rfl⟩
  | cons t ts ih =>
    intro s h ht
    obtain ⟨ht1, ht2⟩ := ht t (by simp)
    have hw := h.win
    have hlo : 1 ≤ (s.2.2 + 2 ^ L) / 2 ^ t := by
      apply Nat.div_pos
      · exact Nat.le_trans (Nat.pow_le_pow_right (by decide) ht2) (by omega)
      · exact Nat.pos_of_ne_zero (by simp)
    have hhi : (s.2.2 + 2 ^ L) / 2 ^ t < 2 ^ L := by
      apply Nat.div_lt_of_lt_mul
      have : 2 ^ 1 ≤ 2 ^ t := Nat.pow_le_pow_right (by decide) ht1
      have : 2 ^ 1 * 2 ^ L ≤ 2 ^ t * 2 ^ L := Nat.mul_le_mul_right _ this
      omega
    obtain ⟨p1, p2⟩ := play_sim (C := C) h hlo hhi
    obtain ⟨q1, q2⟩ := ih _ p1 (fun t' ht' => ht t' (by simp [ht']))
    refine ⟨q1, ?_⟩
    show LT.treeSteps _ _ _ ts (LT.play _ _ ((s.2.2 + 2 ^ L) / 2 ^ t) (idx s.1, s.2.2)) = _
    rw [p2]; exact q2

theorem climb_sim {v : Nat → α} {L : Nat} : ∀ (fuel i : Nat) (s : (Nat → α × Nat) × α × Nat), CInv v L s → i < 2 ^ L →
    CInv v L (climb C fuel i s) ∧
    LT.climb (better C) (fun i => [v i]) fuel i (idx s.1, s.2.2)
      = (idx (climb C fuel i s).1, (climb C fuel i s).2.2) := by
  intro fuel
  induction fuel with
  | zero => intro i s h _; exact ⟨h, rfl⟩
  | succ f ih =>
    intro i s h hi
    unfold climb LT.climb
    by_cases h0 : i = 0
    · rw [if_pos h0, if_pos h0]; exact ⟨h, rfl⟩
    · rw [if_neg h0, if_neg h0]
      obtain ⟨p1, p2⟩ := play_sim (C := C) h (by omega : 1 ≤ i) hi
      obtain ⟨q1, q2⟩ := ih (i / 2) _ p1 (by omega)
      refine ⟨q1, ?_⟩
      rw [p2]; exact q2

/-- The keys after slot `w` changed. The tree without its winner information. -/
structure WInv (C : Cmp α) (e : Nat → α × Nat) (v : Nat → α) (L w : Nat) : Prop where
  tree : T C e v (2 ^ L) L 1 w
  keyed : Keyed e v L 1

/-- Replaying the path of the winner `w`, by either loop, restores the tournament after the key of `w` changed. -/
theorem replay_ok (hC : C.Ok) {e : Nat → α × Nat} {v v' : Nat → α} {L w : Nat} (h : WInv C e v L w)
    (hv : ∀ j, j ≠ w → v' j = v j) (unrolled : Bool) (r : (Nat → α × Nat) × α × Nat)
    (hr : r = if unrolled then treeSteps C (2 ^ L) ((List.range L).map (· + 1)) (e, v' w, w)
      else climb C (L + 1) ((w + 2 ^ L) / 2) (e, v' w, w)) :
    WInv C r.1 v' L r.2.2 ∧ r.2.1 = v' r.2.2 := by
  have hw := h.tree.winner_lt
  have hc : CInv v' L (e, v' w, w) := by
    refine ⟨rfl, hw, ?_⟩
    intro m h1 h2
    refine ⟨?_, h.tree.entry_lt h1 h2⟩
    have hb := (below_root (L := L)).2 ⟨h1, h2⟩
    show (e m).1 = v' (e m).2
    rw [hv (e m).2 (Tree.loser_ne h.tree m hb)]
    exact h.keyed m hb
  obtain ⟨t1, _, t3⟩ := LT.Tree.replay (better_swo hC) (cur' := fun i => [v' i]) (by omega) h.tree
    (by intro j hj; show [v' j] = [v j]; rw [hv j hj])
  have hce := LT.climb_eq (better C) (fun i => [v' i]) L w hw (idx e, w)
  have hts : CInv v' L r ∧ LT.pathN (better C) (fun i => [v' i]) (2 ^ L) w L (idx e, w) = (idx r.1, r.2.2) := by
    cases unrolled with
    | true =>
      simp only [if_true] at hr
      subst hr
      obtain ⟨q1, q2⟩ := treeSteps_sim (C := C) ((List.range L).map (· + 1)) (e, v' w, w) hc (by
        intro t ht
        obtain ⟨a, ha, rfl⟩ := List.mem_map.1 ht
        have := List.mem_range.1 ha
        omega)
      exact ⟨q1, by rw [← t3]; exact q2⟩
    | false =>
      simp only [Bool.false_eq_true, if_false] at hr
      subst hr
      obtain ⟨q1, q2⟩ := climb_sim (C := C) (L + 1) ((w + 2 ^ L) / 2) (e, v' w, w) hc (by omega)
      exact ⟨q1, by rw [← hce]; exact q2⟩
  obtain ⟨c1, c2⟩ := hts
  rw [c2] at t1
  refine ⟨⟨t1, ?_⟩, c1.key⟩
  intro m b
  obtain ⟨b1, b2⟩ := below_root.1 b
  exact (c1.ents m b1 b2).1

/-! ## Insertion -/

/-- What `update_on_insert` does at one node: state = entries, old winner of the subtree, mask. -/
def insNode (C : Cmp α) (newKey : α) (newIndex node : Nat) (r : (Nat → α × Nat) × (α × Nat) × Nat) :
    (Nat → α × Nat) × (α × Nat) × Nat :=
  let loser := r.1 node
  if r.2.1.2 &&& r.2.2 ≠ newIndex &&& r.2.2 then
    let e' := if C.less loser.1 newKey then
        (if C.less r.2.1.1 newKey then upd r.1 node r.2.1 else upd r.1 node (newKey, newIndex))
      else r.1
    (e', loser, r.2.2 / 2)
  else (r.1, r.2.1, r.2.2 / 2)

/-- The nodes of height `h, h - 1, …, 1` on the path to leaf `i`, from the top down. -/
def insDown (C : Cmp α) (newKey : α) (i k : Nat) : Nat → (Nat → α × Nat) × (α × Nat) × Nat → (Nat → α × Nat) × (α × Nat) × Nat
  | 0, r => r
  | h + 1, r => insDown C newKey i k h (insNode C newKey i ((i + k) / 2 ^ (h + 1)) r)

theorem update_insDown (C : Cmp α) {L i : Nat} (newKey : α) (hi : i < 2 ^ L) (e : Nat → α × Nat) :
    ∀ d, d ≤ L → insDown C newKey i (2 ^ L) (L - d) (updateOnInsert C L newKey i (d + 1) ((i + 2 ^ L) / 2 ^ (L - d + 1)) e)
      = insDown C newKey i (2 ^ L) L (updateOnInsert C L newKey i 1 0 e) := by
  intro d
  induction d with
  | zero =>
    intro _
    have : (i + 2 ^ L) / 2 ^ (L - 0 + 1) = 0 := by
      apply Nat.div_eq_of_lt; rw [Nat.sub_zero, Nat.pow_succ]; omega
    rw [this]; rfl
  | succ d ih =>
    intro hd
    rw [← ih (by omega)]
    have e1 : L - d = (L - (d + 1)) + 1 := by omega
    rw [e1]
    have hne : (i + 2 ^ L) / 2 ^ (L - (d + 1) + 1) ≠ 0 := by
      have h1 : 2 ^ (L - (d + 1) + 1) ≤ 2 ^ L := Nat.pow_le_pow_right (by decide) (by omega)
      have := Nat.div_pos (a := i + 2 ^ L) (b := 2 ^ (L - (d + 1) + 1)) (by omega) (Nat.pos_of_ne_zero (by simp))
      omega
    have hu : updateOnInsert C L newKey i (d + 1 + 1) ((i + 2 ^ L) / 2 ^ (L - (d + 1) + 1)) e
        = insNode C newKey i ((i + 2 ^ L) / 2 ^ (L - (d + 1) + 1))
            (updateOnInsert C L newKey i (d + 1) ((i + 2 ^ L) / 2 ^ (L - (d + 1) + 1) / 2) e) := by
      rw [updateOnInsert, if_neg hne]; rfl
    rw [hu, Nat.div_div_eq_div_mul, ← Nat.pow_succ]
    rfl

theorem same_child {L h x y : Nat} (hh : h < L) : (x &&& 2 ^ h = y &&& 2 ^ h) ↔
    ((x + 2 ^ L) / 2 ^ h) % 2 = ((y + 2 ^ L) / 2 ^ h) % 2 := by
  have hp : 0 < 2 ^ h := Nat.pos_of_ne_zero (by simp)
  have hL : 2 ^ L = 2 ^ h * (2 * 2 ^ (L - h - 1)) := by
    rw [← Nat.mul_assoc, ← Nat.pow_succ, ← Nat.pow_add]; congr 1; omega
  have key : ∀ z, ((z + 2 ^ L) / 2 ^ h) % 2 = (z / 2 ^ h) % 2 := by
    intro z; rw [hL, Nat.add_mul_div_left _ _ hp]; omega
  rw [key, key]
  have hbit : ∀ z, z.testBit h = decide (z / 2 ^ h % 2 = 1) := fun z => Nat.testBit_eq_decide_div_mod_eq
  have h1 := Nat.mod_two_eq_zero_or_one (x / 2 ^ h)
  have h2 := Nat.mod_two_eq_zero_or_one (y / 2 ^ h)
  constructor
  · intro hxy
    have h3 : (x &&& 2 ^ h).testBit h = (y &&& 2 ^ h).testBit h := by rw [hxy]
    rw [Nat.testBit_and, Nat.testBit_and, Nat.testBit_two_pow_self, Bool.and_true, Bool.and_true, hbit, hbit] at h3
    rcases h1 with h1 | h1 <;> rcases h2 with h2 | h2 <;> rw [h1, h2] at h3 ⊢ <;> simp at h3
  · intro hxy
    apply Nat.eq_of_testBit_eq
    intro j
    rw [Nat.testBit_and, Nat.testBit_and, Nat.testBit_two_pow]
    by_cases hj : h = j
    · subst hj; rw [hbit, hbit, hxy]
    · simp [hj]

theorem insDown_ok (hC : C.Ok) {v : Nat → α} {L i : Nat} {x : α} (hx : C.less (v i) x = true) : ∀ (h n w : Nat) (e : Nat → α × Nat),
    h ≤ L → 0 < n → (i + 2 ^ L) / 2 ^ h = n → T C e v (2 ^ L) h n w → Keyed e v h n →
    T C (insDown C x i (2 ^ L) h (e, (v w, w), 2 ^ h / 2)).1 (upd v i x) (2 ^ L) h n (if C.less (v w) x then i else w) ∧
    Keyed (insDown C x i (2 ^ L) h (e, (v w, w), 2 ^ h / 2)).1 (upd v i x) h n ∧
    ∀ m, ¬ Below h n m → (insDown C x i (2 ^ L) h (e, (v w, w), 2 ^ h / 2)).1 m = e m := by
  intro h
  induction h with
  | zero =>
    intro n w e _ _ hin t _
    have h1 : w + 2 ^ L = n := t
    have : w = i := by simp at hin; omega
    subst this
    refine ⟨?_, ?_, fun m _ => rfl⟩
    · rw [if_pos hx]; exact h1
    · rintro m ⟨t, ht, _⟩; omega
  | succ h ih =>
    intro n w e hh hn hin t hk
    obtain ⟨wl, wr, tl, tr, hw, hc⟩ := t
    have hll := LT.Tree.leaf tl
    have hlr := LT.Tree.leaf tr
    have hmask : 2 ^ (h + 1) / 2 = 2 ^ h := by rw [Nat.pow_succ]; omega
    have hchild : (i + 2 ^ L) / 2 ^ h = 2 * n ∨ (i + 2 ^ L) / 2 ^ h = 2 * n + 1 := by
      rw [Nat.pow_succ, ← Nat.div_div_eq_div_mul] at hin; omega
    have hcc : C.less (v w) (v (e n).2) = false := hc
    have hkn : (e n).1 = v (e n).2 := hk n (LT.below_self h n)
    have hv' : ∀ j, j ≠ i → upd v i x j = v j := fun j hj => upd_ne _ _ hj
    -- generic: c1 the child of i, with winner w1; c2 the other one, with winner w2
    have key : ∀ c1 c2 w1 w2, (c1 = 2 * n ∧ c2 = 2 * n + 1 ∨ c1 = 2 * n + 1 ∧ c2 = 2 * n) → (i + 2 ^ L) / 2 ^ h = c1 →
        T C e v (2 ^ L) h c1 w1 → T C e v (2 ^ L) h c2 w2 → ((w = w1 ∧ (e n).2 = w2) ∨ (w = w2 ∧ (e n).2 = w1)) →
        T C (insDown C x i (2 ^ L) (h + 1) (e, (v w, w), 2 ^ (h + 1) / 2)).1 (upd v i x) (2 ^ L) (h + 1) n
          (if C.less (v w) x then i else w) ∧
        Keyed (insDown C x i (2 ^ L) (h + 1) (e, (v w, w), 2 ^ (h + 1) / 2)).1 (upd v i x) (h + 1) n ∧
        ∀ m, ¬ Below (h + 1) n m → (insDown C x i (2 ^ L) (h + 1) (e, (v w, w), 2 ^ (h + 1) / 2)).1 m = e m := by
      intro c1 c2 w1 w2 hcs hic t1 t2 hww
      have hl1 := LT.Tree.leaf t1
      have hl2 := LT.Tree.leaf t2
      have hb1 : ∀ {m}, Below h c1 m → Below (h + 1) n m := by
        intro m b; rcases hcs with ⟨rfl, rfl⟩ | ⟨rfl, rfl⟩
        · exact LT.below_left b
        · exact LT.below_right b
      have hb2 : ∀ {m}, Below h c2 m → Below (h + 1) n m := by
        intro m b; rcases hcs with ⟨rfl, rfl⟩ | ⟨rfl, rfl⟩
        · exact LT.below_right b
        · exact LT.below_left b
      have hdis : ∀ {m}, Below h c1 m → ¬ Below h c2 m := by
        intro m b b'; rcases hcs with ⟨rfl, rfl⟩ | ⟨rfl, rfl⟩
        · exact LT.below_disjoint hn b b'
        · exact LT.below_disjoint hn b' b
      have hnn1 : ∀ {m}, Below h c1 m → m ≠ n := by
        rintro m b rfl; exact LT.not_below_of_lt (by omega) b
      have hnn2 : ∀ {m}, Below h c2 m → m ≠ n := by
        rintro m b rfl; exact LT.not_below_of_lt (by omega) b
      have hw2i : w2 ≠ i := by rintro rfl; rw [hic] at hl2; omega
      have hne2 : ∀ j, (j + 2 ^ L) / 2 ^ h = c2 → j ≠ i := by rintro j hj rfl; rw [hic] at hj; omega
      -- the common conclusion, from the entries e1 after this node
      have fin : ∀ (e1 : Nat → α × Nat), (∀ m, m ≠ n → e1 m = e m) →
          insNode C x i ((i + 2 ^ L) / 2 ^ (h + 1)) (e, (v w, w), 2 ^ (h + 1) / 2) = (e1, (v w1, w1), 2 ^ h / 2) →
          (e1 n).1 = upd v i x (e1 n).2 →
          (((if C.less (v w) x then i else w) = (if C.less (v w1) x then i else w1) ∧ (e1 n).2 = w2) ∨
           ((if C.less (v w) x then i else w) = w2 ∧ (e1 n).2 = (if C.less (v w1) x then i else w1))) →
          C.less (upd v i x (if C.less (v w) x then i else w)) (upd v i x (e1 n).2) = false →
          T C (insDown C x i (2 ^ L) (h + 1) (e, (v w, w), 2 ^ (h + 1) / 2)).1 (upd v i x) (2 ^ L) (h + 1) n
            (if C.less (v w) x then i else w) ∧
          Keyed (insDown C x i (2 ^ L) (h + 1) (e, (v w, w), 2 ^ (h + 1) / 2)).1 (upd v i x) (h + 1) n ∧
          ∀ m, ¬ Below (h + 1) n m → (insDown C x i (2 ^ L) (h + 1) (e, (v w, w), 2 ^ (h + 1) / 2)).1 m = e m := by
        intro e1 he1 hins hk1 hwin hle
        have t1' : T C e1 v (2 ^ L) h c1 w1 := by
          apply LT.Tree.frame t1
          · intro m b; unfold idx; rw [he1 m (hnn1 b)]
          · intro _ _; rfl
        have k1' : Keyed e1 v h c1 := by
          intro m b; rw [he1 m (hnn1 b)]; exact hk m (hb1 b)
        obtain ⟨i1, i2, i3⟩ := ih c1 w1 e1 (by omega) (by omega) hic t1' k1'
        have hd : insDown C x i (2 ^ L) (h + 1) (e, (v w, w), 2 ^ (h + 1) / 2)
            = insDown C x i (2 ^ L) h (e1, (v w1, w1), 2 ^ h / 2) := by
          rw [insDown, hins]
        rw [hd]
        generalize (insDown C x i (2 ^ L) h (e1, (v w1, w1), 2 ^ h / 2)).1 = e2 at i1 i2 i3 ⊢
        have hn2 : e2 n = e1 n := i3 n (LT.not_below_of_lt (by omega))
        have t2' : T C e2 (upd v i x) (2 ^ L) h c2 w2 := by
          apply LT.Tree.frame t2
          · intro m b; unfold idx; rw [i3 m (fun b' => hdis b' b), he1 m (hnn2 b)]
          · intro j hj; show [upd v i x j] = [v j]; rw [upd_ne _ _ (hne2 j hj)]
        refine ⟨?_, ?_, ?_⟩
        · have hle' : cle (better C) [upd v i x (if C.less (v w) x then i else w)] [upd v i x (idx e2 n)] := by
            unfold idx; rw [hn2]; exact hle
          have hi2 : idx e2 n = (e1 n).2 := by unfold idx; rw [hn2]
          rcases hcs with ⟨rfl, rfl⟩ | ⟨rfl, rfl⟩
          · refine ⟨_, _, i1, t2', ?_, hle'⟩
            rw [hi2]; exact hwin
          · refine ⟨_, _, t2', i1, ?_, hle'⟩
            rw [hi2]
            rcases hwin with ⟨a, b⟩ | ⟨a, b⟩
            · exact Or.inr ⟨a, b⟩
            · exact Or.inl ⟨a, b⟩
        · rintro m ⟨t, ht, hm⟩
          by_cases hmn : m = n
          · subst hmn; rw [hn2]; exact hk1
          · cases t with
            | zero => exact absurd (by simpa using hm) hmn
            | succ t =>
              rw [Nat.pow_succ, ← Nat.div_div_eq_div_mul] at hm
              have hcase : m / 2 ^ t = c1 ∨ m / 2 ^ t = c2 := by omega
              rcases hcase with c | c
              · exact i2 m ⟨t, by omega, c⟩
              · have b : Below h c2 m := ⟨t, by omega, c⟩
                rw [i3 m (fun b' => hdis b' b), he1 m hmn, hk m (hb2 b)]
                have := LT.Tree.entry_leaf t2 m b
                rw [upd_ne _ _ (hne2 (e m).2 this)]
        · intro m hm
          have hmn : m ≠ n := by rintro rfl; exact hm (LT.below_self h m)
          rw [i3 m (fun b => hm (hb1 b)), he1 m hmn]
      have hnode : insNode C x i ((i + 2 ^ L) / 2 ^ (h + 1)) (e, (v w, w), 2 ^ (h + 1) / 2) =
          if w &&& 2 ^ h ≠ i &&& 2 ^ h then
            (if C.less (e n).1 x then (if C.less (v w) x then upd e n (v w, w) else upd e n (x, i)) else e, e n, 2 ^ h / 2)
          else (e, (v w, w), 2 ^ h / 2) := by
        rw [hin, hmask]; rfl
      rcases hww with ⟨rfl, he⟩ | ⟨rfl, he⟩
      · -- the old winner comes from the subtree of the new leaf
        have hsame : w &&& 2 ^ h = i &&& 2 ^ h := (same_child (L := L) (h := h) (x := w) (y := i) (by omega)).2 (by rw [hl1, hic])
        refine fin e (fun _ _ => rfl) (by rw [hnode, if_neg (by simpa using hsame)]) ?_ (Or.inl ⟨rfl, he⟩) ?_
        · rw [hkn, he, upd_ne _ _ hw2i]
        · rw [he, upd_ne _ _ hw2i]
          rw [he] at hcc
          split
          · next hlt => rw [upd_same]; exact hC.negtrans _ _ _ (hC.asymm _ _ hlt) hcc
          · by_cases hwi : w = i
            · subst hwi; rw [upd_same]; exact hC.negtrans _ _ _ (hC.asymm _ _ hx) hcc
            · rw [upd_ne _ _ hwi]; exact hcc
      · have hdiff : w &&& 2 ^ h ≠ i &&& 2 ^ h := by
          intro hh2
          have := (same_child (L := L) (x := w) (y := i) (by omega)).1 hh2
          rw [hl2, hic] at this; omega
        rw [he] at hcc hkn
        have hen : e n = (v w1, w1) := Prod.ext hkn he
        rw [if_pos hdiff, hen] at hnode
        simp only at hnode
        cases hl : C.less (v w1) x with
        | true =>
          rw [hl] at hnode
          cases hlw : C.less (v w) x with
          | true =>
            simp only [hlw, if_true] at hnode
            have hf := fin (upd e n (v w, w)) (fun m hm => upd_ne _ _ hm) hnode
            simp only [hl, hlw, if_true] at hf
            refine hf ?_ (Or.inl ⟨trivial, by rw [upd_same]⟩) ?_
            · rw [upd_same]; show v w = upd v i x w; rw [upd_ne _ _ hw2i]
            · rw [upd_same, upd_same]; show C.less x (upd v i x w) = false; rw [upd_ne _ _ hw2i]; exact hC.asymm _ _ hlw
          | false =>
            simp only [hlw, if_true, Bool.false_eq_true, if_false] at hnode
            have hf := fin (upd e n (x, i)) (fun m hm => upd_ne _ _ hm) hnode
            simp only [hl, hlw, if_true, Bool.false_eq_true, if_false] at hf
            refine hf ?_ (Or.inr ⟨trivial, by rw [upd_same]⟩) ?_
            · rw [upd_same]; show x = upd v i x i; rw [upd_same]
            · rw [upd_same]; show C.less (upd v i x w) (upd v i x i) = false; rw [upd_ne _ _ hw2i, upd_same]; exact hlw
        | false =>
          have hlw : C.less (v w) x = false := hC.negtrans _ _ _ hcc hl
          rw [hl] at hnode
          simp only [Bool.false_eq_true, if_false] at hnode
          have hw1i : w1 ≠ i := by rintro rfl; rw [hx] at hl; cases hl
          have hf := fin e (fun m hm => rfl) hnode
          simp only [hl, hlw, Bool.false_eq_true, if_false] at hf
          rw [if_neg (by rw [hlw]; decide)]
          refine hf ?_ (Or.inr ⟨trivial, by rw [hen]⟩) ?_
          · rw [hen]; show v w1 = upd v i x w1; rw [upd_ne _ _ hw1i]
          · rw [hen]; show C.less (upd v i x w) (upd v i x w1) = false; rw [upd_ne _ _ hw2i, upd_ne _ _ hw1i]; exact hcc
    rcases hchild with hch | hch
    · exact key _ _ wl wr (Or.inl ⟨rfl, rfl⟩) hch tl tr hw
    · exact key _ _ wr wl (Or.inr ⟨rfl, rfl⟩) hch tr tl (by
        rcases hw with ⟨a, b⟩ | ⟨a, b⟩
        · exact Or.inr ⟨a, b⟩
        · exact Or.inl ⟨a, b⟩)

/-- `update_on_insert` restores the tournament after a sentinel leaf received a real key. -/
theorem insert_ok (hC : C.Ok) {e : Nat → α × Nat} {v : Nat → α} {L i : Nat} {x : α} (h : TInv C e v L) (hi : i < 2 ^ L)
    (hx : C.less (v i) x = true) :
    TInv C (updateOnInsert C L x i (L + 1) ((i + 2 ^ L) / 2) e).1 (upd v i x) L := by
  have hu := update_insDown C x hi e L (Nat.le_refl L)
  simp only [Nat.sub_self, Nat.zero_add, Nat.pow_one] at hu
  rw [show insDown C x i (2 ^ L) 0 (updateOnInsert C L x i (L + 1) ((i + 2 ^ L) / 2) e) =
    updateOnInsert C L x i (L + 1) ((i + 2 ^ L) / 2) e from rfl] at hu
  rw [hu]
  have hbase : updateOnInsert C L x i 1 0 e = (if C.less (e 0).1 x then upd e 0 (x, i) else e, e 0, 2 ^ (L - 1)) := rfl
  rw [hbase]
  generalize he1 : (if C.less (e 0).1 x then upd e 0 (x, i) else e) = e1
  have hroot : e 0 = (v (e 0).2, (e 0).2) := Prod.ext h.root rfl
  have hne : ∀ m, m ≠ 0 → e1 m = e m := by
    intro m hm; subst he1; split
    · exact upd_ne _ _ hm
    · rfl
  have he0 : e1 0 = if C.less (v (e 0).2) x then (x, i) else e 0 := by
    subst he1; rw [h.root]; split
    · rw [upd_same]
    · rfl
  have hb : ∀ m, Below L 1 m → m ≠ 0 := by
    intro m b; have := (below_root.1 b).1; omega
  have t1 : T C e1 v (2 ^ L) L 1 (e 0).2 := by
    apply LT.Tree.frame h.tree
    · intro m b; unfold idx; rw [hne m (hb m b)]
    · intro _ _; rfl
  have k1 : Keyed e1 v L 1 := by intro m b; rw [hne m (hb m b)]; exact h.keyed m b
  obtain ⟨i1, i2, i3⟩ := insDown_ok hC hx L 1 (e 0).2 e1 (Nat.le_refl _) (by omega) (leaf_root hi) t1 k1
  have hmask : insDown C x i (2 ^ L) L (e1, e 0, 2 ^ (L - 1)) = insDown C x i (2 ^ L) L (e1, (v (e 0).2, (e 0).2), 2 ^ L / 2) ∨ L = 0 := by
    cases L with
    | zero => exact Or.inr rfl
    | succ L => left; rw [← hroot]; congr 3; rw [Nat.pow_succ]; simp
  have hfst : (insDown C x i (2 ^ L) L (e1, e 0, 2 ^ (L - 1))).1 = (insDown C x i (2 ^ L) L (e1, (v (e 0).2, (e 0).2), 2 ^ L / 2)).1 := by
    rcases hmask with hm | rfl
    · rw [hm]
    · rfl
  rw [hfst]
  generalize (insDown C x i (2 ^ L) L (e1, (v (e 0).2, (e 0).2), 2 ^ L / 2)).1 = e2 at *
  have h20 : e2 0 = e1 0 := i3 0 (fun b => hb 0 b rfl)
  refine ⟨?_, i2, ?_⟩
  · rw [h20, he0]
    split
    · next hl => simp only [hl, if_true] at i1; exact i1
    · next hl =>
      have hl' : C.less (v (e 0).2) x = false := by simpa using hl
      simp only [hl', Bool.false_eq_true, if_false] at i1; exact i1
  · rw [h20, he0]
    split
    · show x = upd v i x i; rw [upd_same]
    · next hl =>
      have hwi : (e 0).2 ≠ i := by intro hh; rw [hh] at hl; exact hl hx
      rw [upd_ne _ _ hwi]; exact h.root

end Stxxl.PQ
