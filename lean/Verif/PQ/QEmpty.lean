import Verif.PQ.QHeap

/-! # `empty_insert_heap` -/

namespace Stxxl.PQ
open Stxxl.LT (upd Below)

variable {α : Type} {C : Cmp α} {c : Cfg}

theorem flatMap_split (f g : Nat → List α) (n : Nat) : ((List.range n).flatMap (fun i => f i ++ g i)).Perm
    ((List.range n).flatMap f ++ (List.range n).flatMap g) := by
  induction n with
  | zero => simp
  | succ n ih =>
    rw [List.range_succ, List.flatMap_append, List.flatMap_append, List.flatMap_append]
    simp only [List.flatMap_cons, List.flatMap_nil, List.append_nil]
    refine ((List.perm_append_right_iff _).2 ih).trans ?_
    rw [List.append_assoc, List.append_assoc]
    refine (List.perm_append_left_iff _).2 ?_
    rw [← List.append_assoc, ← List.append_assoc]
    exact (List.perm_append_right_iff _).2 List.perm_append_comm

theorem clear_perm {S : List Nat} (hS : S.Nodup) : ∀ (is : List Nat) (e : Nat → List α), is.Nodup → is ⊆ S →
    (S.flatMap e).Perm (is.flatMap e ++ S.flatMap (fun j => if j ∈ is then [] else e j))
  | [], e, _, _ => by simp
  | i :: is, e, hn, hs => by
    have hn' := List.nodup_cons.1 hn
    have h1 := flatMap_upd_perm hS (e := e) (hs List.mem_cons_self) []
    rw [List.nil_append] at h1
    have h2 := clear_perm hS is (upd e i []) hn'.2 (fun j hj => hs (List.mem_cons_of_mem _ hj))
    have hfm : is.flatMap (upd e i []) = is.flatMap e := flatMap_congr' (fun j hj => upd_ne _ _ (fun e => hn'.1 (e ▸ hj)))
    have hcl : (fun j => if j ∈ is then [] else upd e i [] j) = fun j => if j ∈ i :: is then [] else e j := by
      funext j
      by_cases h : j = i
      · subst h; simp [upd]
      · simp [upd, h]
    rw [hfm, hcl] at h2
    rw [List.flatMap_cons, List.append_assoc]
    exact h1.trans ((List.perm_append_left_iff _).2 h2)

theorem emptyHeap_ok (hC : C.Ok) (hc : c.Ok) {H : StdHeap α} (hH : H.Ok C) {s : State α} (hB : BInv c C s) (hD : DInv c C s) {hs : List α}
    (hp : s.heap.Perm (C.minv :: hs)) (hr : ∀ x ∈ hs, C.Real x) (hlen : s.heap.length = c.N + 1) :
    ∃ s', emptyHeap c C H s = some s' ∧ BInv c C s' ∧ DInv c C s' ∧ s'.heap = [C.minv] ∧
      (s'.del ++ below c s').Perm (hs ++ (s.del ++ below c s)) := by
  classical
  have hdes : Desc C (H.sort s.heap).reverse := List.pairwise_reverse.2 (hH.sort_sorted s.heap)
  obtain ⟨B, eB, hBp⟩ := last_min hC hdes ((List.reverse_perm _).trans ((hH.sort_perm _).trans hp)) hr
  have hBl : B.length = c.N := by
    have a := hBp.length_eq
    have b := hp.length_eq
    simp at b; omega
  have hBr : ∀ x ∈ B, C.Real x := fun x hx => hr x (hBp.mem_iff.1 hx)
  rw [eB] at hdes
  have hBd : Desc C B := (List.pairwise_append.1 hdes).1
  have hget : (B ++ [C.minv])[c.N]? = some C.minv := by
    rw [List.getElem?_append_right (by omega)]; simp [hBl]
  have hset : (B ++ [C.minv]).set c.N C.minv = B ++ [C.minv] := by
    rw [List.set_append]; rw [if_neg (by omega)]; simp [hBl]
  -- the array made of the delete buffer and group buffer 0
  have hg0 : GeAll C s.del (s.gb 0) := by
    intro x hx y hy
    have : 0 < c.total := by have := hc.int_pos; unfold Cfg.total; omega
    exact hD.ge x hx y (List.mem_flatMap.2 ⟨0, List.mem_range.2 this, List.mem_append_left _ hy⟩)
  have hAr : ∀ x ∈ s.del ++ s.gb 0, C.Real x := by
    intro x hx
    rcases List.mem_append.1 hx with h | h
    · exact hD.real x h
    · exact hB.real 0 x h
  have hAd : Desc C (s.del ++ s.gb 0) := hD.desc.append (hB.desc 0) hg0
  obtain ⟨d, p0, p1, m1, l0, l1, dl, ds, T1⟩ := mergeRead_ok hC hAr hBr s.del.length 0 0 (by omega) (by omega) (by simp; omega)
  obtain ⟨g, q0, q1, m2, k0, k1, gl, gs, T2⟩ := mergeRead_ok hC hAr hBr (s.gb 0).length p0 p1 l0 l1 (by simp at l0 ⊢; omega)
  obtain ⟨xs, m3, xl, T3⟩ := mergeWrite_ok hC hAr hBr c.N q0 q1 0 (B ++ [C.minv]) k0 k1 (by simp) rfl (by simp at k0 ⊢; omega) (by omega)
  rw [List.take_zero, List.nil_append] at m3
  have T := Takes.trans (Takes.trans T1 T2) T3
  rw [List.drop_zero, List.drop_zero] at T
  have sp := Takes.spec hC (by simp) (by
    intro i hi
    simp only [List.mem_cons, List.not_mem_nil, or_false] at hi
    rcases hi with rfl | rfl
    · exact hAd
    · exact hBd) T
  have hperm : (d ++ g ++ xs).Perm (s.del ++ s.gb 0 ++ B) := by
    have := sp.perm
    simpa [two] using this.symm
  have hdesc : Desc C (d ++ g ++ xs) := sp.desc
  have hdd := List.pairwise_append.1 hdesc
  have hdg := List.pairwise_append.1 hdd.1
  have hreal : ∀ x ∈ d ++ g ++ xs, C.Real x := by
    intro x hx
    rcases List.mem_append.1 (hperm.mem_iff.1 hx) with h | h
    · exact hAr x h
    · exact hBr x h
  have hph : H.pushHeap [C.minv] = [C.minv] := List.perm_singleton.1 (hH.push_perm _)
  -- the state after the three merges
  obtain ⟨s1, hs1⟩ : ∃ s1, s1 = { s with heap := H.pushHeap [C.minv], del := d, gb := upd s.gb 0 g } := ⟨_, rfl⟩
  have hgb1 : s1.gb = upd s.gb 0 g := by rw [hs1]
  have hmg1 : s1.mg = s.mg := by rw [hs1]
  have hna1 : s1.nact = s.nact := by rw [hs1]
  have hgv : ∀ i, s1.gb i = if i = 0 then g else s.gb i := by intro i; rw [hgb1]; simp [upd]
  have B1 : BInv0 c C s1 := by
    refine { nact_le := by rw [hna1]; exact hB.nact_le, idle := ?_, mg := by rw [hmg1]; exact hB.mg, desc := ?_, len := ?_, real := ?_ }
    · intro i hi
      rw [hna1] at hi
      have hid := hB.idle i hi
      refine ⟨?_, by rw [hmg1]; exact hid.2⟩
      rw [hgv]
      split
      · rename_i e; subst e
        exact List.length_eq_zero_iff.1 (by rw [gl, hid.1]; rfl)
      · exact hid.1
    · intro i; rw [hgv]; split
      · exact hdg.2.1
      · exact hB.desc i
    · intro i; rw [hgv]; split
      · rw [gl]; exact hB.len 0
      · exact hB.len i
    · intro i; rw [hgv]; split
      · intro x hx; exact hreal x (List.mem_append_left _ (List.mem_append_right _ hx))
      · exact hB.real i
  have htot : 0 < c.total := by have := hc.int_pos; unfold Cfg.total; omega
  obtain ⟨lvl, s2, e2, S⟩ := makeSpace_ok hC hc c.total 0 B1 htot (Nat.zero_le _) (by omega)
  have hlt := S.lt
  have hnle := S.inv.nact_le
  obtain ⟨M, e3, A⟩ := appendSeg_ok hC hc (S.inv.mg 0) S.space hdd.2.1 (fun x hx => hreal x (List.mem_append_right _ hx)) xl.symm
  obtain ⟨s2', hs2'⟩ : ∃ s2', s2' = { s2 with mg := upd s2.mg 0 M } := ⟨_, rfl⟩
  have B2 : BInv0 c C s2' := by
    rw [hs2']
    refine { nact_le := S.inv.nact_le, idle := ?_, mg := ?_, desc := S.inv.desc, len := S.inv.len, real := S.inv.real }
    · intro i hi
      have hi : s2.nact ≤ i := hi
      show _ ∧ contents (upd s2.mg 0 M i) = []
      rw [upd_ne _ _ (by omega)]; exact S.inv.idle i hi
    · intro i
      show MInv (c.mp i) C (upd s2.mg 0 M i)
      by_cases e : i = 0
      · subst e; rw [upd_same]; exact A.inv
      · rw [upd_ne _ _ e]; exact S.inv.mg i
  obtain ⟨is, his⟩ : ∃ is, is = if lvl > 0 then (List.range (lvl + 1)).reverse else [] := ⟨_, rfl⟩
  have hisn : is.Nodup := by rw [his]; split <;> [exact List.nodup_reverse.2 List.nodup_range; simp]
  have hism : ∀ i, i ∈ is ↔ 0 < lvl ∧ i ≤ lvl := by
    intro i; rw [his]; split
    · rename_i h; simp; omega
    · rename_i h; simp; omega
  have hisl : is.length ≤ lvl + 1 := by rw [his]; split <;> simp
  have hempt : 0 < lvl → contents (s2.mg 0) = [] := S.emptied
  have hdump : ∃ s3, dumpGroups c C is s2' = some s3 ∧ Dumped c C is s2' s3 := by
    by_cases hl0 : 0 < lvl
    · have hu : Used (s2'.mg 0) 1 := by
        rw [hs2']; show Used (upd s2.mg 0 M 0) 1
        rw [upd_same]; exact A.used 0 (used_empty (S.inv.mg 0) (hempt hl0))
      refine dumpGroups_ok hC hc is 1 B2 hisn (fun _ => ?_) hu ?_
      · rw [hs2']; show 0 < s2.nact; omega
      · have := hc.intK_room; omega
    · have : is = [] := by rw [his, if_neg hl0]
      rw [this]
      exact ⟨s2', rfl, B2, by simp, fun _ _ => rfl, by simp, rfl, rfl, rfl, rfl⟩
  obtain ⟨s3, e4, D3⟩ := hdump
  obtain ⟨s4, hs4⟩ : ∃ s4, s4 = { s3 with size := s3.size + c.N } := ⟨_, rfl⟩
  have hgb4 : s4.gb = fun j => if j ∈ is then [] else s1.gb j := by
    funext j; rw [hs4]; show s3.gb j = _
    rw [D3.gb j, hs2', ← S.gb]
  have hmg4 : ∀ j, j ≠ 0 → s4.mg j = s2.mg j := by
    intro j hj; rw [hs4]; show s3.mg j = _
    rw [D3.mg j hj, hs2']; exact upd_ne _ _ hj
  have hc0 : (contents (s4.mg 0)).Perm (is.flatMap s1.gb ++ (xs ++ contents (s2.mg 0))) := by
    rw [hs4]
    have := D3.perm
    rw [hs2'] at this
    have this : (contents (s3.mg 0)).Perm (is.flatMap s2.gb ++ contents (upd s2.mg 0 M 0)) := this
    rw [upd_same, S.gb] at this
    exact this.trans ((List.perm_append_left_iff _).2 A.perm)
  have hdel4 : s4.del = d := by rw [hs4]; show s3.del = _; rw [D3.del, hs2']; show s2.del = _; rw [S.del, hs1]
  have hheap4 : s4.heap = [C.minv] := by rw [hs4]; show s3.heap = _; rw [D3.heap, hs2']; show s2.heap = _; rw [S.heap, hs1]; exact hph
  have hsize4 : s4.size = s.size + c.N := by
    rw [hs4]; show s3.size + c.N = _; rw [D3.size, hs2']; show s2.size + c.N = _; rw [S.size, hs1]
  -- permutations
  have hb4 : (below c s4).Perm (xs ++ below c s1) := by
    have a := flatMap_split s4.gb (fun i => contents (s4.mg i)) c.total
    have b := flatMap_split s1.gb (fun i => contents (s1.mg i)) c.total
    have cl := clear_perm (List.nodup_range (n := c.total)) is s1.gb hisn (by
      intro j hj; have := (hism j).1 hj; exact List.mem_range.2 (by omega))
    rw [← hgb4] at cl
    have hcf : (fun i => contents (s4.mg i)) = upd (fun i => contents (s2.mg i)) 0 (contents (s4.mg 0)) := by
      funext j
      by_cases e : j = 0
      · subst e; rw [upd_same]
      · rw [upd_ne _ _ e, hmg4 j e]
    have f := flatMap_upd_perm (List.nodup_range (n := c.total)) (e := fun i => contents (s2.mg i)) (List.mem_range.2 htot) (contents (s4.mg 0))
    rw [← hcf] at f
    have pp := S.perm
    have f' : (contents (s4.mg 0) ++ (List.range c.total).flatMap fun i => contents (s2.mg i)).Perm
      (contents (s2.mg 0) ++ (List.range c.total).flatMap fun i => contents (s4.mg i)) := f
    show ((List.range c.total).flatMap fun i => s4.gb i ++ contents (s4.mg i)).Perm _
    refine a.trans ?_
    refine List.Perm.trans ?_ ((List.perm_append_left_iff xs).2 b.symm)
    generalize (List.range c.total).flatMap s4.gb = G4 at *
    generalize (List.range c.total).flatMap s1.gb = G1 at *
    generalize ((List.range c.total).flatMap fun i => contents (s4.mg i)) = K4 at *
    generalize ((List.range c.total).flatMap fun i => contents (s2.mg i)) = K2 at *
    generalize ((List.range c.total).flatMap fun i => contents (s1.mg i)) = K1 at *
    rw [List.perm_iff_count] at *
    intro y
    have := cl y; have := f' y; have := pp y; have := hc0 y
    simp only [List.count_append] at *
    omega
  have hb1 : (g ++ below c s).Perm (s.gb 0 ++ below c s1) := by
    have a := flatMap_split s.gb (fun i => contents (s.mg i)) c.total
    have b := flatMap_split s1.gb (fun i => contents (s1.mg i)) c.total
    have f := flatMap_upd_perm (List.nodup_range (n := c.total)) (e := s.gb) (List.mem_range.2 htot) g
    rw [← hgb1] at f
    rw [hmg1] at b
    have b' : (below c s1).Perm ((List.range c.total).flatMap s1.gb ++ (List.range c.total).flatMap fun i => contents (s.mg i)) := by
      show ((List.range c.total).flatMap fun i => s1.gb i ++ contents (s1.mg i)).Perm _
      rw [hmg1]; exact b
    refine ((List.perm_append_left_iff g).2 a).trans (List.Perm.trans ?_ ((List.perm_append_left_iff _).2 b'.symm))
    rw [← List.append_assoc, ← List.append_assoc]
    exact (List.perm_append_right_iff _).2 f
  have hfinal : (d ++ below c s4).Perm (hs ++ (s.del ++ below c s)) := by
    generalize below c s4 = X4 at *
    generalize below c s1 = X1 at *
    generalize below c s = X at *
    rw [List.perm_iff_count] at *
    intro y
    have := hb4 y; have := hb1 y; have := hperm y; have := hBp y
    simp only [List.count_append] at *
    omega
  have B4 : BInv c C s4 := by
    have B3 := D3.inv
    refine { nact_le := ?_, idle := ?_, mg := ?_, desc := ?_, len := ?_, real := ?_, ge := ?_, size := ?_ }
    · rw [hs4]; exact B3.nact_le
    · rw [hs4]; exact B3.idle
    · rw [hs4]; exact B3.mg
    · rw [hs4]; exact B3.desc
    · rw [hs4]; exact B3.len
    · rw [hs4]; exact B3.real
    · intro i
      rw [hgb4]
      show GeAll C (if i ∈ is then [] else s1.gb i) _
      split
      · intro x hx; cases hx
      · rename_i hni
        rw [hism] at hni
        rw [hgv]
        split
        · rename_i e0
          subst e0
          have hl0 : lvl = 0 := by omega
          have : is = [] := by rw [his, hl0]; rfl
          rw [this] at hc0
          have hsm := S.same hl0
          rw [hmg1] at hsm
          intro x hx y hy
          have hy := hc0.mem_iff.1 hy
          simp only [List.flatMap_nil, List.nil_append, List.mem_append] at hy
          rcases hy with hy | hy
          · exact hdd.2.2 x (List.mem_append_right _ hx) y hy
          · have hy := hsm.mem_iff.1 hy
            refine best_ge hC hdesc hperm (by simp [dl, gl]) ?_ x (List.mem_append_right _ hx)
            intro z hz
            rcases List.mem_append.1 hz with hz | hz
            · exact hD.ge z hz y (List.mem_flatMap.2 ⟨0, List.mem_range.2 htot, List.mem_append_right _ hy⟩)
            · exact hB.ge 0 z hz y hy
        · rename_i hi0
          have hil : lvl < i := by omega
          rw [hmg4 i hi0, S.after i hil, hmg1]
          exact hB.ge i
    · rw [hsize4, hb4.length_eq, List.length_append, xl, hB.size]
      have := hb1.length_eq
      simp only [List.length_append, gl] at this
      omega
  have D4 : s4.del ≠ [] → DInv c C s4 := by
    intro hne
    refine ⟨by rw [hdel4]; exact hdg.1, ?_, ?_, fun e => absurd e hne⟩
    · rw [hdel4]; intro x hx; exact hreal x (List.mem_append_left _ (List.mem_append_left _ hx))
    · rw [hdel4]
      intro x hx y hy
      have hy := hb4.mem_iff.1 hy
      rcases List.mem_append.1 hy with hy | hy
      · exact hdd.2.2 x (List.mem_append_left _ hx) y hy
      · obtain ⟨j, hj, hy⟩ := List.mem_flatMap.1 hy
        have hold : ∀ y ∈ below c s, C.less x y = false := by
          intro y hy
          rw [List.append_assoc] at hdesc hperm
          rw [List.append_assoc] at hperm
          exact best_ge hC hdesc hperm dl (fun z hz => hD.ge z hz y hy) x hx
        unfold grp at hy
        rw [hgv, hmg1] at hy
        rcases List.mem_append.1 hy with hy | hy
        · split at hy
          · exact hdg.2.2 x hx y hy
          · exact hold y (List.mem_flatMap.2 ⟨j, hj, List.mem_append_left _ hy⟩)
        · exact hold y (List.mem_flatMap.2 ⟨j, hj, List.mem_append_right _ hy⟩)
  have hrun : emptyHeap c C H s = if s4.del = [] then refillDelete c C s4 else some s4 := by
    unfold emptyHeap
    rw [if_neg (by omega)]
    simp only [eB, hget, hset, m1, m2, m3]
    rw [← hs1]
    simp only [e2]
    rw [if_neg (by
      rintro ⟨a, b⟩
      apply b
      rw [(S.inv.mg 0).size, hempt (by omega)]; rfl)]
    simp only [e3]
    rw [← his, ← hs2']
    simp only [e4]
    subst hs4
    rfl
  rw [hrun]
  split
  · rename_i hnil
    obtain ⟨s5, e5, B5, D5, p5, h5⟩ := refillDelete_ok hC hc B4
    refine ⟨s5, e5, B5, D5, h5.trans hheap4, p5.trans ?_⟩
    rw [← hdel4, hnil, List.nil_append] at hfinal
    exact hfinal
  · rename_i hne
    exact ⟨s4, rfl, B4, D4 hne, hheap4, by rw [hdel4]; exact hfinal⟩

end Stxxl.PQ
