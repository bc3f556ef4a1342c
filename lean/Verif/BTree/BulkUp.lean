/-
Bulk construction: the inner nodes, and the whole.
-/
import Verif.BTree.Bulk

namespace BTree
variable {K V : Type} [LinearOrder K]

/-- Number of entries of a list of blocks. -/
def tot {X : Type} (ps : List (K × Blk K X)) : Nat := (ps.map (fun e => e.2.els.length)).sum

omit [LinearOrder K] in
theorem tot_append {X : Type} (a b : List (K × Blk K X)) : tot (a ++ b) = tot a + tot b := by simp [tot]

omit [LinearOrder K] in
theorem tot_ge {X : Type} {ps : List (K × Blk K X)} (h : ∀ e ∈ ps, 2 ≤ e.2.els.length) : 2 * ps.length ≤ tot ps := by
  induction ps with
  | nil => simp
  | cons e ps ih =>
    have h1 := h e (by simp)
    have h2 := ih (fun e he => h e (by simp [he]))
    simp only [tot, List.map_cons, List.sum_cons, List.length_cons] at h2 ⊢
    omega

theorem fob_none {c : Cfg K} {h : Nat} {left right right' : Tree K V h} {w w' : W} {live live' : List Nat}
    (hf : fob c h left right w live = some (none, right', w', live')) : left.els.length + right.els.length ≤ c.max h := by
  unfold fob at hf
  dsimp only at hf
  by_contra hgt
  split at hf
  · split at hf
    all_goals (repeat' (split at hf))
    all_goals first | omega | simp_all
  · simp at hf

theorem pack_ok {c : Cfg K} (hc : c.Ok) {pick : List Nat → Nat} (hpick : ∀ L, pick L ∉ L) {mne h : Nat}
    (hm1 : c.min (h + 1) ≤ mne) (hm2 : mne ≤ c.maxN) {R : List Nat} {m : List (K × V)} {T : Nat} (hT : c.maxN < T) :
    ∀ (n : Nat) (bids : List (K × Tree K V h)) (ps : List (K × Tree K V (h + 1))) (w : W) (live : List Nat) (mid : Option K),
      Kids (fun lo k (b : Tree K V (h + 1)) => OrdE (h + 1) lo k b.els) none ps mid →
      Kids (fun lo k (b : Tree K V h) => OrdE h lo k b.els) mid bids (some c.mx) →
      (∀ e ∈ ps, c.min (h + 1) ≤ (Blk.els (Prod.snd e)).length ∧ (Blk.els (Prod.snd e)).length ≤ c.max (h + 1) ∧ GoodE (V := V) c (h + 1) (Blk.els (Prod.snd e))) →
      GoodE (V := V) c (h + 1) bids → live.Nodup → live.Perm (bidsK (h + 1) ps ++ bidsK h bids ++ R) →
      LInv (leavesK (h + 1) ps ++ leavesK h bids) w → ents (leavesK (h + 1) ps ++ leavesK h bids) = m →
      tot ps + bids.length = T → bids.length ≤ n →
      ∃ ps' w' live', pack c pick mne h n bids ps w live = some (ps', w', live') ∧ UInv c R m (h + 1) ps' w' live' ∧
        2 ≤ ps'.length ∧ ps'.length < T := by
  have hmx := hc.max (h + 1)
  have hmn : c.min (h + 1) = c.max (h + 1) / 2 := rfl
  have hmN : c.max (h + 1) = c.maxN := rfl
  intro n
  induction n with
  | zero =>
    intro bids ps w live mid k1 k2 g1 g2 nd lv lf en ht hn
    obtain rfl : bids = [] := List.eq_nil_of_length_eq_zero (by omega)
    have k2' : mid = some c.mx := k2
    subst k2'
    have t1 := tot_ge (fun e he => Nat.le_trans (by omega) (g1 e he).1)
    simp only [leavesK_nil, List.append_nil, bidsK_nil, List.length_nil, Nat.add_zero] at lv lf en ht
    refine ⟨ps, w, live, by simp [pack], ⟨k1, fun e he => ⟨(g1 e he).2.1, (g1 e he).2.2, Or.inl (g1 e he).1⟩, nd, lv, lf, en⟩, ?_, by omega⟩
    match ps, g1, ht with
    | [], _, ht => simp [tot] at ht; omega
    | [e], g1, ht => have := (g1 e (by simp)).2.1; simp [tot] at ht; omega
    | _ :: _ :: _, _, _ => simp
  | succ n ih =>
    intro bids ps w live mid k1 k2 g1 g2 nd lv lf en ht hn
    have t1 := tot_ge (fun e he => Nat.le_trans (by omega) (g1 e he).1)
    cases bids with
    | nil =>
      have k2' : mid = some c.mx := k2
      subst k2'
      simp only [leavesK_nil, List.append_nil, bidsK_nil, List.length_nil, Nat.add_zero] at lv lf en ht
      refine ⟨ps, w, live, by simp [pack], ⟨k1, fun e he => ⟨(g1 e he).2.1, (g1 e he).2.2, Or.inl (g1 e he).1⟩, nd, lv, lf, en⟩, ?_, by omega⟩
      match ps, g1, ht with
      | [], _, ht => simp [tot] at ht; omega
      | [e], g1, ht => have := (g1 e (by simp)).2.1; simp [tot] at ht; omega
      | _ :: _ :: _, _, _ => simp
    | cons x bids =>
      generalize hB : x :: bids = B at *
      have hBne : B ≠ [] := by rw [← hB]; simp
      have hBpos : 0 < B.length := List.length_pos_of_ne_nil hBne
      have hunf : pack c pick mne h (n + 1) B ps w live =
          (let node : Tree K V (h + 1) := { bid := pick live, els := B.take mne }
           if node.els.length < c.min (h + 1) then
            match B.drop mne, ps.getLast? with
            | [], some (_, left) =>
              match fob c (h + 1) left node w (pick live :: live) with
              | none => none
              | some (lft, node', w', live') =>
                match node'.els.getLast? with
                | none => none
                | some e => some (ps.dropLast ++ lft.toList ++ [(e.1, node')], w', live')
            | _, _ => none
          else
            match node.els.getLast? with
            | none => none
            | some e =>
              if node.els.length ≤ c.maxN then pack c pick mne h n (B.drop mne) (ps ++ [(e.1, node)]) w (pick live :: live)
              else none) := by
        rw [← hB]; rfl
      rw [hunf]
      dsimp only
      have htl : (B.take mne).length = min mne B.length := List.length_take
      have nd1 : (pick live :: live).Nodup := List.nodup_cons.mpr ⟨hpick _, nd⟩
      by_cases hun : (B.take mne).length < c.min (h + 1)
      · rw [if_pos hun]
        have hle : B.length < mne := by omega
        have ed : B.drop mne = [] := List.drop_eq_nil_of_le (by omega)
        have et : B.take mne = B := List.take_of_length_le (by omega)
        rw [ed, et]
        rw [et] at hun
        rcases List.eq_nil_or_concat ps with rfl | ⟨P, d, hps⟩
        · simp [tot] at ht; omega
        · rw [List.concat_eq_append] at hps
          obtain ⟨kl, left⟩ := d
          subst hps
          simp only [List.getLast?_append, List.getLast?_singleton, Option.some_or, List.dropLast_concat]
          have gl := g1 (kl, left) (by simp)
          have hgm : GtO mid c.mx := by
            intro a ha
            subst ha
            rw [← hB] at k2
            obtain ⟨y1, _, y3⟩ := k2
            obtain ⟨b, eb, hb, _⟩ := Kids.lo_le y3 rfl
            cases eb
            exact lt_of_lt_of_le (y1 a rfl) hb
          let node : Tree K V (h + 1) := { bid := pick live, els := B }
          have ho : OrdE (V := V) (h + 2) none c.mx (P ++ (kl, left) :: (c.mx, node) :: []) := by
            have e0 : P ++ (kl, left) :: (c.mx, node) :: [] = (P ++ [(kl, left)]) ++ [(c.mx, node)] := by simp
            rw [e0]
            exact Kids.append.mpr ⟨mid, k1, hgm, k2, rfl⟩
          obtain ⟨lft, node', w', live', f1, f2, f3, f4, f5, f6⟩ := pair_ok hc w (pick live :: live) ho gl.2.2 g2 gl.2.1
            (show B.length ≤ c.max (h + 1) by omega) (by
              intro hh; have := gl.1; dsimp only at this; rw [hh] at this; simp at this; omega) hBne (Or.inr ⟨hun, gl.1⟩)
          have hf1 : fob c (h + 1) left ({ bid := pick live, els := B } : Tree K V (h + 1)) w (pick live :: live) = some (lft, node', w', live') := f1
          have hnode : c.min (h + 1) ≤ node'.els.length := (f3 (c.mx, node') (by simp)).1
          obtain ⟨e, he⟩ : ∃ e, node'.els.getLast? = some e := by
            cases hh : node'.els.getLast? with
            | none => rw [List.getLast?_eq_none_iff] at hh; rw [hh] at hnode; simp at hnode; omega
            | some e => exact ⟨e, rfl⟩
          have hemx : e.1 = c.mx := by
            obtain ⟨mid', _, _, o2, _⟩ := Kids.append.mp f2
            obtain ⟨E, hE⟩ := List.getLast?_eq_some_iff.mp he
            rw [hE] at o2
            have := Kids.last o2
            simpa using this.symm
          refine ⟨P ++ lft.toList ++ [(c.mx, node')], w', live', ?_, ?_, ?_, ?_⟩
          · rw [hf1]
            dsimp only
            rw [he]
            dsimp only
            rw [hemx]
          · have hlv0 : leavesK (h + 1) (P ++ [(kl, left)]) ++ leavesK h B = leavesK (h + 1) (P ++ (kl, left) :: (c.mx, node) :: []) := by
              rw [leavesK_append, leavesK_append, leavesK_cons, leavesK_cons, leavesK_cons, leaves_succ h node]; simp [node, leavesK]
            rw [hlv0] at lf en
            obtain ⟨b1, b2, b3⟩ := mv_inv f4 lf
            refine ⟨f2, ?_, f5 nd1, f6 R ?_, b1, by rw [b3]; exact en⟩
            · intro e he
              have hcase : e ∈ P ∨ e ∈ lft.toList ++ [(c.mx, node')] := by
                simp only [List.mem_append, List.mem_cons, List.not_mem_nil, or_false] at he ⊢; tauto
              rcases hcase with hh | hh
              · obtain ⟨a1, a2, a3⟩ := g1 e (by simp [hh]); exact ⟨a2, a3, Or.inl a1⟩
              · obtain ⟨a1, a2, a3⟩ := f3 e hh; exact ⟨a2, a3, Or.inl a1⟩
            · refine (lv.cons _).trans ?_
              have e0 : bidsK (h + 1) (P ++ (kl, left) :: (c.mx, node) :: []) = bidsK (h + 1) P ++ dealloc (h + 1) left ++ (bidsK h B ++ [pick live]) := by
                rw [bidsK_append, bidsK_cons, bidsK_cons, dealloc_succ h node]; simp [node]; rfl
              have e1 : bidsK (h + 1) (P ++ [(kl, left)]) = bidsK (h + 1) P ++ dealloc (h + 1) left := by
                rw [bidsK_append, bidsK_cons]; simp; rfl
              rw [e0, e1]
              rw [List.perm_iff_count]; intro y
              simp only [List.count_append, List.count_cons, List.count_nil]; omega
          · cases lft with
            | some l => simp
            | none =>
              have := fob_none hf1
              dsimp only at this
              cases P with
              | nil =>
                simp [tot] at ht
                omega
              | cons p P => simp
          · have hl : (P ++ lft.toList ++ [(c.mx, node')]).length ≤ P.length + 2 := by cases lft <;> simp
            simp only [List.length_append, List.length_cons, List.length_nil] at t1 hl ⊢
            omega
      · rw [if_neg hun]
        have hTne : B.take mne ≠ [] := by intro hh; rw [hh] at hun; simp at hun; omega
        obtain ⟨e, he⟩ : ∃ e, (B.take mne).getLast? = some e := by
          cases hh : (B.take mne).getLast? with
          | none => exact absurd (List.getLast?_eq_none_iff.mp hh) hTne
          | some e => exact ⟨e, rfl⟩
        rw [he]
        dsimp only
        rw [if_pos (by omega)]
        have hsplit : B = B.take mne ++ B.drop mne := (List.take_append_drop _ _).symm
        generalize hTk : B.take mne = Tk at *
        generalize hDr : B.drop mne = Dr at *
        rw [hsplit] at k2 g2 lv lf en
        obtain ⟨mid', j1, j2⟩ := Kids.append.mp k2
        obtain ⟨E, hE⟩ := List.getLast?_eq_some_iff.mp he
        have hmid' : mid' = some e.1 := by
          rw [hE] at j1; exact Kids.last j1
        subst hmid'
        obtain ⟨gg1, gg2⟩ := good_append.mp g2
        have hge : GtO mid e.1 := by
          intro a ha
          subst ha
          obtain ⟨x', Tk', hx'⟩ := List.exists_cons_of_ne_nil hTne
          rw [hx'] at j1
          obtain ⟨y1, _, y3⟩ := j1
          obtain ⟨b, eb, hb, _⟩ := Kids.lo_le y3 rfl
          cases eb
          exact lt_of_lt_of_le (y1 a rfl) hb
        have hlenB : B.length = Tk.length + Dr.length := by rw [hsplit]; simp
        have e0 : bidsK (h + 1) (ps ++ [(e.1, ({ bid := pick live, els := Tk } : Tree K V (h + 1)))]) = bidsK (h + 1) ps ++ (bidsK h Tk ++ [pick live]) := by
          rw [bidsK_append, bidsK_cons, dealloc_succ]; simp; rfl
        have e1 : leavesK (h + 1) (ps ++ [(e.1, ({ bid := pick live, els := Tk } : Tree K V (h + 1)))]) ++ leavesK h Dr = leavesK (h + 1) ps ++ leavesK h (Tk ++ Dr) := by
          rw [leavesK_append, leavesK_cons, leaves_succ]; simp; rfl
        refine ih Dr (ps ++ [(e.1, { bid := pick live, els := Tk })]) w (pick live :: live) (some e.1)
          (Kids.append.mpr ⟨mid, k1, hge, (show OrdE (V := V) (h + 1) mid e.1 Tk from j1), rfl⟩) j2 ?_ gg2 nd1 ?_ ?_ ?_ ?_ ?_
        · intro f hf
          rcases List.mem_append.mp hf with hf | hf
          · exact g1 f hf
          · simp only [List.mem_singleton] at hf
            subst hf
            exact ⟨Nat.le_of_not_lt hun, by rw [hmN]; dsimp only; omega, gg1⟩
        · rw [e0]
          refine (lv.cons _).trans ?_
          rw [bidsK_append]
          rw [List.perm_iff_count]; intro y
          simp only [List.count_append, List.count_cons, List.count_nil]; omega
        · rw [e1]; exact lf
        · rw [e1]; exact en
        · rw [tot_append]; simp [tot] at ht ⊢; omega
        · have : 0 < Tk.length := List.length_pos_of_ne_nil hTne
          omega

theorem tree_size {c : Cfg K} (hc : c.Ok) : ∀ {h : Nat} {b : Tree K V h}, GoodE c h b.els → 2 ≤ b.els.length →
    2 ^ (h + 1) ≤ (ents (leaves h b)).length
  | 0, b, _, h2 => by simpa [leaves] using h2
  | h + 1, b, hg, h2 => by
    have hmx := hc.max h
    have hmn : c.min h = c.max h / 2 := rfl
    have key : ∀ els : List (K × Tree K V h), GoodE (V := V) c (h + 1) els → 2 ^ (h + 1) * els.length ≤ (ents (leavesK h els)).length := by
      intro els
      induction els with
      | nil => simp
      | cons e els ih =>
        intro hg
        have g := hg e (by simp)
        have h1 := tree_size hc (b := e.2) g.2.2 (by have := g.1; omega)
        have h2 := ih (fun f hf => hg f (by simp [hf]))
        rw [leavesK_cons, ents_append, List.length_append, List.length_cons, Nat.mul_add]
        omega
    have := key b.els hg
    rw [leaves_succ]
    refine Nat.le_trans ?_ this
    rw [Nat.pow_succ]
    exact Nat.mul_le_mul_left _ h2

theorem bulkUp_ok {c : Cfg K} (hc : c.Ok) {pick : List Nat → Nat} (hpick : ∀ L, pick L ∉ L) {mne : Nat}
    (hm1 : c.maxN / 2 ≤ mne) (hm2 : mne ≤ c.maxN) {R : List Nat} {m : List (K × V)} :
    ∀ (n h : Nat) (bids : List (K × Tree K V h)) (w : W) (live : List Nat), UInv c R m h bids w live → bids.length < n →
      (h ≠ 0 → 2 ≤ bids.length) →
      ∃ s', Outcome (bulkUp c pick mne m.length n h bids w live) s' () (c.cap < s'.h + 1 ∧ s'.h ≠ h) ∧
        s'.live.Perm (bidsK s'.h s'.root ++ R) ∧ (s'.h ≠ h → 2 ^ (s'.h + 2) ≤ m.length) ∧
        (bulkUp c pick mne m.length n h bids w live = .ok s' () → Inv c R s' ∧ ents s'.leaves = m)
  | 0, _, _, _, _, _, h, _ => by omega
  | n + 1, h, bids, w, live, hU, hn, h2 => by
    unfold bulkUp
    by_cases hle : bids.length ≤ c.maxN
    · rw [if_pos hle]
      refine ⟨_, Or.inl ⟨fun hh => hh.2 rfl, rfl⟩, hU.live, fun hh => absurd rfl hh, fun _ => ⟨⟨hU.ord, hU.good, hle, h2, hU.nd, hU.live, hU.lf, ?_⟩, hU.ents⟩⟩
      rw [← hU.ents]; rfl
    · rw [if_neg hle]
      have hnode := hc.node
      have hg : GoodE (V := V) c (h + 1) bids := by
        intro e he
        obtain ⟨a1, a2, a3⟩ := hU.good e he
        exact ⟨a3.resolve_right (by omega), a1, a2⟩
      obtain ⟨ps, w', live', q1, q2, q3, q4⟩ := pack_ok hc hpick (m := m) (mne := mne) (h := h) hm1 hm2 (R := R) (T := bids.length) (by omega) (bids.length + 1) bids []
        w live none rfl hU.ord (by simp) hg hU.nd (by simpa [bidsK] using hU.live) hU.lf hU.ents (by simp [tot]) (by omega)
      rw [q1]
      dsimp only
      have hbound : 2 ^ (h + 3) ≤ m.length := by
        rw [← q2.ents]
        refine tree_size hc (h := h + 2) (b := ({ bid := 0, els := ps } : Tree K V (h + 2))) ?_ q3
        intro e he
        obtain ⟨a1, a2, a3⟩ := q2.good e he
        exact ⟨a3.resolve_right (by omega), a1, a2⟩
      by_cases hcap : c.cap < h + 2
      · rw [if_pos hcap]
        exact ⟨_, Or.inr ⟨⟨hcap, by dsimp only; omega⟩, rfl⟩, q2.live, fun _ => hbound, fun hh => by cases hh⟩
      · rw [if_neg hcap]
        obtain ⟨s', r1, r2, r4, r3⟩ := bulkUp_ok hc hpick hm1 hm2 n (h + 1) ps w' live' q2 (by omega) (fun _ => q3)
        refine ⟨s', ?_, r2, fun _ => ?_, r3⟩
        swap
        · by_cases hh : s'.h = h + 1
          · rw [hh]; exact hbound
          · exact r4 hh
        rcases r1 with ⟨a, b⟩ | ⟨a, b⟩
        · refine Or.inl ⟨fun hh => a ⟨hh.1, ?_⟩, b⟩
          intro he
          have := hh.1
          rw [he] at this
          omega
        · refine Or.inr ⟨⟨a.1, ?_⟩, b⟩
          intro he
          have := a.1
          rw [he] at this
          omega

/-- Bulk construction from a sorted range gives the map with the range's elements inserted one by one. -/
theorem bulk_ok {c : Cfg K} (hc : c.Ok) {pick : List Nat → Nat} (hpick : ∀ L, pick L ∉ L) {mle mne : Nat}
    (hl1 : c.maxL / 2 ≤ mle) (hl2 : mle ≤ c.maxL) (hm1 : c.maxN / 2 ≤ mne) (hm2 : mne ≤ c.maxN) {R : List Nat} (hR : R.Nodup)
    {xs : List (K × V)} (hs : xs.Pairwise (fun a b => a.1 ≤ b.1)) (hx : ∀ x ∈ xs, x.1 < c.mx) :
    ∃ s', Outcome (bulk c pick mle mne xs R) s' () (c.cap < s'.h + 1 ∧ s'.h ≠ 0) ∧
      s'.live.Perm (bidsK s'.h s'.root ++ R) ∧ (s'.h ≠ 0 → 2 ^ (s'.h + 2) ≤ (xs.foldl Spec.ins []).length) ∧
      (bulk c pick mle mne xs R = .ok s' () → Inv c R s' ∧ ents s'.leaves = xs.foldl Spec.ins []) := by
  have hleaf := hc.leaf
  obtain ⟨b, e1, i1⟩ := bulkPuts_ok hc hpick (mle := mle) (by omega) (R := R) (xs := xs)
    (bulkInit_ok (c := c) (V := V) hpick (mle := mle) hR { succ := fun _ => none, pred := fun _ => none, its := fun _ => none }) hx hs (by simp)
  have hmem : ∀ (ys m : List (K × V)), (∀ x ∈ ys, x.1 < c.mx) → (∀ x ∈ m, x.1 < c.mx) → ∀ e ∈ ys.foldl Spec.ins m, e.1 < c.mx := by
    intro ys
    induction ys with
    | nil => intro m _ h2 e he; exact h2 e he
    | cons y ys ih =>
      intro m h1 h2
      refine ih _ (fun x hx => h1 x (by simp [hx])) ?_
      intro e he
      have : e = y ∨ e ∈ m := by
        unfold Spec.ins at he
        cases hl : Spec.lookup m y.1 with
        | some z => rw [hl] at he; exact Or.inr he
        | none =>
          rw [hl] at he
          simp only [List.mem_append, List.mem_filter, List.mem_cons] at he
          tauto
      rcases this with rfl | he
      · exact h1 e (by simp)
      · exact h2 e he
  obtain ⟨done, cur, w, live, e2, U⟩ := bulkLast_ok hc (mle := mle) hl1 hl2 i1 (hmem xs [] hx (by simp))
  have hsz := i1.size
  unfold bulk
  rw [e1]
  dsimp only
  rw [e2]
  dsimp only
  rw [hsz]
  exact bulkUp_ok hc hpick hm1 hm2 _ 0 _ _ _ U (Nat.lt_succ_self _) (fun h => absurd rfl h)

/-! ### Height -/

/-- A tree of height `h + 2` with `h ≥ 1` holds at least `2 ^ (h + 2)` elements. -/
theorem Inv.height {c : Cfg K} (hc : c.Ok) {R : List Nat} {s : St K V} (hI : Inv c R s) (h0 : s.h ≠ 0) : 2 ^ (s.h + 2) ≤ s.size := by
  rw [hI.size]
  have := tree_size hc (h := s.h + 1) (b := ({ bid := 0, els := s.root } : Tree K V (s.h + 1))) (by
    intro e he
    obtain ⟨a1, a2, a3⟩ := hI.good e he
    exact ⟨a3.resolve_right (fun h => h0 h.1), a1, a2⟩) (hI.rmin h0)
  exact this

end BTree
