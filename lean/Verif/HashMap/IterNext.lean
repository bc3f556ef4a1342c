import Verif.HashMap.IterScan

/-! # `begin` and `++` -/
namespace Verif.HashMap
variable {K V : Type} {P : Params K V}

theorem nodesFrom_split {a : Nat} : ∀ (l1 : List (Node K V)) (n : Node K V) (l2 : List (Node K V)), n.addr = a →
    ((l1 ++ n :: l2).map (·.addr)).Nodup → nodesFrom a (l1 ++ n :: l2) = n :: l2 := by
  intro l1
  induction l1 with
  | nil => intro n l2 h _; rw [List.nil_append, nodesFrom, if_pos h]
  | cons y l1 ih =>
    intro n l2 h hnd
    rw [List.cons_append, List.map_cons, List.nodup_cons] at hnd
    rw [List.cons_append, nodesFrom, if_neg, ih n l2 h hnd.2]
    intro e
    exact hnd.1 (List.mem_map.2 ⟨n, by simp, by omega⟩)

theorem nodesAfter_split {a : Nat} : ∀ (l1 : List (Node K V)) (n : Node K V) (l2 : List (Node K V)), n.addr = a →
    ((l1 ++ n :: l2).map (·.addr)).Nodup → nodesAfter a (l1 ++ n :: l2) = l2 := by
  intro l1
  induction l1 with
  | nil => intro n l2 h _; rw [List.nil_append, nodesAfter, if_pos h]
  | cons y l1 ih =>
    intro n l2 h hnd
    rw [List.cons_append, List.map_cons, List.nodup_cons] at hnd
    rw [List.cons_append, nodesAfter, if_neg, ih n l2 h hnd.2]
    intro e
    exact hnd.1 (List.mem_map.2 ⟨n, by simp, by omega⟩)

section
variable (ok : P.OK)
include ok

theorem scanGt_ok (mem : Nat → K × V) (nB : Nat) (b : Bucket K V) (k : K) (hsv : SortedV P (bext P mem b))
    (h0 : nB = 0 → b.nExt = 0) (h1 : 0 < nB → bstart P b + b.nExt < nB * P.BB) :
    ∀ (fuel i : Nat) (r : Reader), b.nExt ≤ i + fuel → i ≤ b.nExt → RAt P nB r (bstart P b + i) →
      (∀ j, j < i → P.leq (mem (bstart P b + j)).1 k = true) →
      RAt P nB (scanGt P mem b.nExt k fuel i r).2 (bstart P b + (scanGt P mem b.nExt k fuel i r).1) ∧
        ExtLe P mem b (scanGt P mem b.nExt k fuel i r).1 k := by
  have hs := sortedV_extL.1 hsv
  intro fuel
  induction fuel with
  | zero =>
    intro i r hf hi hr hle
    refine ⟨hr, hi, fun j hj => ?_⟩
    show j < i ↔ _
    have hji : j < i := by omega
    simp only [hji, true_iff]; exact hle j hji
  | succ fuel ih =>
    intro i r hf hi hr hle
    unfold scanGt
    by_cases hlt : i < b.nExt
    · rw [if_pos hlt]
      have hnB : 0 < nB := Nat.pos_of_ne_zero fun h => by have := h0 h; omega
      rw [hr.value ok hnB mem]
      by_cases hk : P.lt k (mem (bstart P b + i)).1 = true
      · rw [if_pos hk]
        refine ⟨hr, hi, fun j hj => ?_⟩
        show j < i ↔ _
        constructor
        · exact hle j
        · intro h
          rcases Nat.lt_or_ge j i with g | g
          · exact g
          · have : P.lt k (mem (bstart P b + j)).1 = true := by
              by_cases hji : j = i
              · rw [hji]; exact hk
              · exact ok.lt_trans hk (hs i j (by omega) hj)
            rw [(ok.leq_false_iff _ _).2 this] at h; cases h
      · rw [if_neg hk]
        refine ih (i + 1) (r.inc P) (by omega) hlt (hr.inc ok hnB (by have := h1 hnB; omega)) ?_
        intro j hj
        by_cases hji : j = i
        · rw [hji]; unfold Params.leq; simpa using hk
        · exact hle j (by omega)
    · rw [if_neg hlt]
      refine ⟨hr, hi, fun j hj => ?_⟩
      show j < i ↔ _
      have hji : j < i := by omega
      simp only [hji, true_iff]; exact hle j hji

/-- The reader is created when needed. -/
theorem ensureReader_ok {s : HMap K V} (I : Inv P s) {it : It K} {b : Bucket K V} {fr br : Bool}
    (hb : s.buckets[it.bkt]? = some b) (hB : BIt P s.mem s.nBids b fr br it) :
    ∃ it' r, ensureReader P it s = some it' ∧ BIt P s.mem s.nBids b fr br it' ∧ it'.reader = some r ∧
      it'.extValid = true ∧ it'.id = it.id ∧ it'.bkt = it.bkt ∧ it'.src = it.src ∧ it'.node = it.node ∧
      it'.key = it.key ∧ it'.ended = it.ended := by
  have B := I.bok _ b hb
  have hmem := List.mem_of_getElem? hb
  unfold ensureReader
  cases hrd : it.reader with
  | some r => exact ⟨it, r, rfl, hB, hrd, (hB.1 r hrd).1, rfl, rfl, rfl, rfl, rfl, rfl⟩
  | none =>
    simp only [Option.isNone_none, if_true]
    by_cases hv : it.extValid = true
    · have hle : it.iExt ≤ b.nExt := by
        rcases hB.2 with ⟨_, _, a3⟩ | ⟨_, _, a3, _⟩
        · exact (a3 hv).1
        · omega
      obtain ⟨r, e1, e2⟩ := initReader_valid ok I hb hv hle
      refine ⟨{ it with reader := some r }, r, e1, ⟨?_, hB.2⟩, rfl, hv, rfl, rfl, rfl, rfl, rfl, rfl⟩
      intro r' hr'
      cases hr'
      exact ⟨hv, e2⟩
    · rcases hB.2 with ⟨a1, ⟨n, a2, a3, a4, a5⟩, _⟩ | ⟨_, a2, _⟩
      · have hr0 : RAt P s.nBids (Reader.mk' P s.nBids b.iBlock b.iSub) (bstart P b + 0) := by
          refine RAt.mk' ok (fun h => ?_) (fun h => (I.lay.zero h b hmem).2)
          exact (I.lay.pos h b hmem).2
        obtain ⟨g1, g2⟩ := scanGt_ok ok s.mem s.nBids b n.key B.sv (fun h => (I.lay.zero h b hmem).1)
          (fun h => (I.lay.pos h b hmem).1) b.nExt 0 _ (by omega) (Nat.zero_le _) hr0 (fun j hj => by omega)
        generalize hx : scanGt P s.mem b.nExt n.key b.nExt 0 (Reader.mk' P s.nBids b.iBlock b.iSub) = x at g1 g2
        refine ⟨{ it with iExt := x.1, extValid := true, reader := some x.2 }, x.2, ?_, ⟨?_, .inl ⟨a1, ⟨n, a2, a3, a4, a5⟩, ?_⟩⟩,
          rfl, rfl, rfl, rfl, rfl, rfl, rfl, rfl⟩
        · unfold initReader
          rw [hb]
          simp only [Option.bind_eq_bind, Option.bind_some]
          rw [if_neg hv, a3]
          simp only [find_addr B.nd a2, Option.bind_some, Option.pure_def]
          rw [hx]
        · intro r hr
          cases hr
          exact ⟨rfl, g1⟩
        · intro _
          show ExtLe P s.mem b x.1 it.key
          rw [← a4]; exact g2
      · exact absurd a2 hv

/-- The end of `find_next`. -/
def nextOut (P : Params K V) (it : It K) (s : HMap K V) : Option (Nat × Found K) → It K
  | none => { it with ended := true, reader := none, bkt := s.buckets.length }
  | some (i, f) => { it with bkt := i, src := f.src, key := f.key, node := f.node, iExt := f.iExt, reader := some f.rd }

/-- The search from a position and what it delivers. -/
theorem next_core {s : HMap K V} (I : Inv P s) {it : It K} {b : Bucket K V} {fr : Bool}
    (hb : s.buckets[it.bkt]? = some b) (he : it.ended = false) (hv : it.extValid = true) {nodes pre : List (Node K V)} {ie : Nat}
    {r : Reader} (C : Cut P s.mem b pre nodes ie) (N : NodeIn b.list pre fr it.node) (hr : RAt P s.nBids r (bstart P b + ie)) :
    ∃ res, itSearch P s.mem (s.buckets.drop it.bkt) it.bkt it.node nodes ie r = some res ∧
      ItP P s fr false (nextOut P it s res) ∧
      ((nextOut P it s res).view = none → ∀ k v, Has P s k v → it.bkt ≤ P.bktNum s.buckets.length k → Done P s.mem b pre ie k) ∧
      ∀ k0, (nextOut P it s res).view = some k0 → (∃ v, Has P s k0 v) ∧ (∀ k, Done P s.mem b pre ie k → P.lt k k0 = true) ∧
        ∀ k v, Has P s k v → it.bkt ≤ P.bktNum s.buckets.length k → Done P s.mem b pre ie k ∨ P.leq k0 k = true := by
  have hlt := (List.getElem?_eq_some_iff.1 hb).1
  obtain ⟨res, h1, h2⟩ := itSearch_ok ok I fr (s.buckets.drop it.bkt) it.bkt it.node nodes pre ie r b rfl
    (by rw [List.head?_drop]; exact hb) C N hr
  refine ⟨res, h1, ?_⟩
  rcases res with _ | ⟨i, f⟩
  · refine ⟨.inl rfl, fun _ => h2, ?_⟩
    intro k0 hk
    simp [It.view, nextOut] at hk
  · obtain ⟨h3, ⟨b', h4, h5⟩, h6, h7⟩ := h2
    have hfk := foundKey h5 (I.bok _ _ h4)
    have hItP : ItP P s fr false (nextOut P it s (some (i, f))) := by
      refine .inr ⟨b', h4, hfk.symm, ?_, ?_⟩
      · intro r' hr'
        cases hr'
        exact ⟨hv, h5.1⟩
      · rcases h5.2 with ⟨a1, a2, a3⟩ | ⟨a1, a2, a3, a4, a5⟩
        · exact .inl ⟨a1, a2, fun _ => a3⟩
        · exact .inr ⟨a1, hv, a2, a3, a4, a5⟩
    refine ⟨hItP, ?_, ?_⟩
    · intro hk
      exfalso
      simp [It.view, nextOut, he] at hk
    · intro k0 hk
      have hk : f.key = k0 := by simpa [It.view, nextOut, he] using hk
      subst hk
      exact ⟨hItP.has (it := nextOut P it s (some (i, f))) he, h6, h7⟩

/-- `++` on an iterator that is not at the end. -/
theorem itNext_ok {s : HMap K V} (I : Inv P s) {it : It K} {fr : Bool} (he : it.ended = false) (hI : ItP P s fr false it) :
    ∃ it', itNext P it s = some it' ∧ it'.id = it.id ∧ ItP P s fr false it' ∧
      (it'.view = none → ∀ k v, Has P s k v → ¬ P.lt it.key k = true) ∧
      ∀ k0, it'.view = some k0 → (∃ v, Has P s k0 v) ∧ P.lt it.key k0 = true ∧
        ∀ k v, Has P s k v → P.lt it.key k = true → P.leq k0 k = true := by
  rcases hI with h | ⟨b, hb, hbk, hB⟩
  · rw [h] at he; cases he
  obtain ⟨it1, r, e1, hB1, hr1, hv1, i1, i2, i3, i4, i5, i6⟩ := ensureReader_ok ok I hb hB
  have B := I.bok _ b hb
  have hmem := List.mem_of_getElem? hb
  have hb1 : s.buckets[it1.bkt]? = some b := by rw [i2]; exact hb
  obtain ⟨_, hR⟩ := hB1.1 r hr1
  have hs := sortedV_extL.1 B.sv
  -- finish
  have fin : ∀ (nodes pre : List (Node K V)) (ie : Nat) (r' : Reader), Cut P s.mem b pre nodes ie →
      NodeIn b.list pre fr it1.node → RAt P s.nBids r' (bstart P b + ie) →
      (∀ k, Done P s.mem b pre ie k → P.leq k it.key = true) → Done P s.mem b pre ie it.key →
      itNext P it s = (itSearch P s.mem (s.buckets.drop it1.bkt) it1.bkt it1.node nodes ie r').map (nextOut P it1 s) →
      ∃ it', itNext P it s = some it' ∧ it'.id = it.id ∧ ItP P s fr false it' ∧
        (it'.view = none → ∀ k v, Has P s k v → ¬ P.lt it.key k = true) ∧
        ∀ k0, it'.view = some k0 → (∃ v, Has P s k0 v) ∧ P.lt it.key k0 = true ∧
          ∀ k v, Has P s k v → P.lt it.key k = true → P.leq k0 k = true := by
    intro nodes pre ie r' C N hr hdone hkey heq
    obtain ⟨res, c1, c2, c3, c4⟩ := next_core ok I hb1 (by rw [i6]; exact he) hv1 C N hr
    rw [c1] at heq
    have hno : ∀ k, P.lt it.key k = true → ¬ Done P s.mem b pre ie k := by
      intro k hk hD
      have := hdone k hD
      rw [(ok.leq_false_iff _ _).2 hk] at this; cases this
    have hbk' : ∀ k, P.lt it.key k = true → it1.bkt ≤ P.bktNum s.buckets.length k := by
      intro k hk
      rw [i2, hbk]; exact ok.bkt_mono _ hk
    refine ⟨nextOut P it1 s res, heq, ?_, c2, ?_, ?_⟩
    · rw [← i1]; rcases res with _ | ⟨_, _⟩ <;> rfl
    · intro h k v hk hlt
      exact hno k hlt (c3 h k v hk (hbk' k hlt))
    · intro k0 h
      obtain ⟨d1, d2, d3⟩ := c4 k0 h
      exact ⟨d1, d2 _ hkey, fun k v hk hlt => (d3 k v hk (hbk' k hlt)).resolve_left (hno k hlt)⟩
  rcases hB1.2 with ⟨a1, ⟨n, a2, a3, a4, a5⟩, a6⟩ | ⟨a1, a2, a3, a4, a5, a6⟩
  · -- at a node
    obtain ⟨l1, l2, hl⟩ := List.append_of_mem a2
    have hE := a6 hv1
    have hsn := B.sn
    have hnd := B.nd
    rw [hl] at hsn hnd
    unfold SortedN at hsn
    rw [List.pairwise_append, List.pairwise_cons] at hsn
    rw [i5] at a4 hE
    refine fin l2 (l1 ++ [n]) it1.iExt r ⟨by rw [hl]; simp, hE.1, ?_, ?_⟩ ?_ hR ?_ ?_ ?_
    · intro j hj m hm
      have := (hE.2 j (by have := hE.1; omega)).1 hj
      refine lt_of_leq_lt ok this ?_
      rw [← a4]; exact hsn.2.1.1 m hm
    · intro y hy j h1 h2
      have hlt : P.lt it.key (s.mem (bstart P b + j)).1 = true := by
        refine (ok.leq_false_iff _ _).1 ?_
        have := hE.2 j h2
        cases hc : P.leq (s.mem (bstart P b + j)).1 it.key with
        | false => rfl
        | true => have := this.2 hc; omega
      rcases List.mem_append.1 hy with hy | hy
      · refine ok.lt_trans ?_ hlt
        rw [← a4]; exact hsn.2.2 y hy n List.mem_cons_self
      · rw [List.mem_singleton] at hy; rw [hy, a4]; exact hlt
    · intro a ha
      rw [a3] at ha; cases ha
      exact ⟨l1, n, l2, hl, rfl, fun _ => by simp, fun y hy => by simp [hy]⟩
    · rintro k (⟨y, hy, rfl⟩ | ⟨j, hj, rfl⟩)
      · rcases List.mem_append.1 hy with hy | hy
        · refine ok.lt_leq ?_
          rw [← a4]; exact hsn.2.2 y hy n List.mem_cons_self
        · rw [List.mem_singleton] at hy; rw [hy, a4, ok.leq_iff]; exact .inr rfl
      · exact (hE.2 j (by have := hE.1; omega)).1 hj
    · exact .inl ⟨n, by simp, a4⟩
    · unfold itNext
      rw [hb]
      simp only [Option.bind_eq_bind, Option.bind_some]
      rw [e1]
      simp only [Option.bind_some]
      rw [hr1, a3, a1]
      simp only [Option.bind_some, Option.map_some, find_addr B.nd a2, Option.map_some]
      rw [hl, nodesAfter_split l1 n l2 rfl hnd]
      cases itSearch P s.mem (s.buckets.drop it1.bkt) it1.bkt (some n.addr) l2 it1.iExt r with
      | none => rfl
      | some res => rcases res with _ | ⟨_, _⟩ <;> simp [nextOut, a1, a3]
  · -- at an external value
    rw [i5] at a4 a5 a6
    have hnB := ext_pos ok I hb (by omega)
    have hlay := (I.lay.pos hnB b hmem).1
    have hr' : RAt P s.nBids (r.inc P) (bstart P b + (it1.iExt + 1)) := hR.inc ok hnB (by omega)
    -- the nodes from which the search for larger keys starts
    have hstart : ∃ l0 st, b.list = l0 ++ st ∧ (∀ y ∈ l0, P.lt y.key it.key = true) ∧
        (match it1.node with
          | some a => (b.list.find? (fun n => n.addr = a)).map fun _ => nodesFrom a b.list
          | none => some b.list) = some st ∧
        ∀ a, it1.node = some a → ∃ n l2, st = n :: l2 ∧ n.addr = a ∧ (fr = false → P.lt n.key it.key = true) := by
      cases hnode : it1.node with
      | none => exact ⟨[], b.list, rfl, by simp, rfl, fun a ha => by cases ha⟩
      | some a =>
        obtain ⟨l1, n, l2, q1, q2, q3, q4⟩ := a6 a hnode
        refine ⟨l1, n :: l2, q1, q4 rfl, ?_, ?_⟩
        · have hm : n ∈ b.list := by rw [q1]; simp
          have := find_addr B.nd hm
          rw [q2] at this
          simp only [this, Option.map_some]
          have hnd := B.nd
          rw [q1] at hnd ⊢
          rw [nodesFrom_split l1 n l2 q2 hnd]
        · intro a' ha'
          cases ha'
          exact ⟨n, l2, rfl, q2, q3⟩
    obtain ⟨l0, st, s1, s2, s3, s4⟩ := hstart
    have hsplit := List.takeWhile_append_dropWhile (p := fun n : Node K V => P.leq n.key it.key) (l := st)
    have hne : ∀ y ∈ b.list, P.leq y.key it.key = true → P.lt y.key it.key = true := by
      intro y hy hle
      rcases (ok.leq_iff _ _).1 hle with h | h
      · exact h
      · exact absurd h (a5 y hy)
    have htake : ∀ y ∈ st.takeWhile (fun n => P.leq n.key it.key), P.lt y.key it.key = true := by
      intro y hy
      have h1 : y ∈ b.list := by
        rw [s1]; exact List.mem_append.2 (.inr ((List.takeWhile_sublist _).subset hy))
      refine hne y h1 ?_
      have := List.all_takeWhile (l := st) (p := fun n : Node K V => P.leq n.key it.key)
      rw [List.all_eq_true] at this
      exact this y hy
    have hdrop : ∀ y ∈ st.dropWhile (fun n => P.leq n.key it.key), P.lt it.key y.key = true := by
      have hsn : SortedN P st := by
        have := B.sn
        rw [s1] at this
        exact List.Pairwise.sublist (List.sublist_append_right _ _) this
      have hsn' : SortedN P (st.dropWhile (fun n => P.leq n.key it.key)) :=
        List.Pairwise.sublist (List.dropWhile_sublist _) hsn
      generalize hd : st.dropWhile (fun n => P.leq n.key it.key) = d at hsn'
      cases d with
      | nil => simp
      | cons y d =>
        have hy : P.leq y.key it.key = false := by
          have hne : st.dropWhile (fun n => P.leq n.key it.key) ≠ [] := by rw [hd]; simp
          have := List.head_dropWhile_not (fun n : Node K V => P.leq n.key it.key) hne
          simpa [hd] using this
        have hylt := (ok.leq_false_iff _ _).1 hy
        unfold SortedN at hsn'
        rw [List.pairwise_cons] at hsn'
        intro z hz
        rcases List.mem_cons.1 hz with rfl | hz
        · exact hylt
        · exact ok.lt_trans hylt (hsn'.1 z hz)
    have hpre : ∀ y ∈ l0 ++ st.takeWhile (fun n => P.leq n.key it.key), P.lt y.key it.key = true := by
      intro y hy
      rcases List.mem_append.1 hy with hy | hy
      · exact s2 y hy
      · exact htake y hy
    refine fin (st.dropWhile (fun n => P.leq n.key it.key)) (l0 ++ st.takeWhile (fun n => P.leq n.key it.key))
      (it1.iExt + 1) (r.inc P) ⟨?_, a3, ?_, ?_⟩ ?_ hr' ?_ ?_ ?_
    · rw [List.append_assoc, hsplit]; exact s1
    · intro j hj m hm
      refine lt_of_leq_lt ok ?_ (hdrop m hm)
      rw [ok.leq_iff, ← a4]
      by_cases hji : j = it1.iExt
      · right; rw [hji]
      · left; exact hs j it1.iExt (by omega) a3
    · intro y hy j h1 h2
      refine ok.lt_trans (hpre y hy) ?_
      rw [← a4]; exact hs it1.iExt j (by omega) h2
    · intro a ha
      obtain ⟨n, l2, q1, q2, q3⟩ := s4 a ha
      refine ⟨l0, n, l2, by rw [s1, q1], q2, ?_, fun y hy => List.mem_append.2 (.inl hy)⟩
      intro hfr
      refine List.mem_append.2 (.inr ?_)
      rw [q1, List.takeWhile_cons, if_pos (ok.lt_leq (q3 hfr))]
      exact List.mem_cons_self
    · rintro k (⟨y, hy, rfl⟩ | ⟨j, hj, rfl⟩)
      · exact ok.lt_leq (hpre y hy)
      · rw [ok.leq_iff, ← a4]
        by_cases hji : j = it1.iExt
        · right; rw [hji]
        · left; exact hs j it1.iExt (by omega) a3
    · exact .inr ⟨it1.iExt, by omega, a4⟩
    · unfold itNext
      rw [hb]
      simp only [Option.bind_eq_bind, Option.bind_some]
      rw [e1]
      simp only [Option.bind_some]
      rw [hr1]
      simp only [Option.bind_some]
      rw [a1, i5]
      have s3' := s3
      cases hnode : it1.node with
      | none =>
        rw [hnode] at s3'
        simp only [Option.some.injEq] at s3'
        subst s3'
        simp only [Option.bind_some]
        generalize itSearch P s.mem (s.buckets.drop it1.bkt) it1.bkt none _ (it1.iExt + 1) (r.inc P) = q
        rcases q with _ | _ | ⟨_, _⟩ <;> simp [nextOut, a1, hnode, i5]
      | some a =>
        rw [hnode] at s3'
        dsimp only at s3' ⊢
        rw [s3']
        simp only [Option.bind_some]
        generalize itSearch P s.mem (s.buckets.drop it1.bkt) it1.bkt (some a) _ (it1.iExt + 1) (r.inc P) = q
        rcases q with _ | _ | ⟨_, _⟩ <;> simp [nextOut, a1, hnode, i5]

/-- `begin`. -/
theorem itBegin_ok {s : HMap K V} (I : Inv P s) (id : Nat) :
    ∃ it', itBegin P id s = some it' ∧ it'.id = id ∧ ItP P s true false it' ∧
      (it'.view = none → ∀ k v, ¬ Has P s k v) ∧
      ∀ k0, it'.view = some k0 → (∃ v, Has P s k0 v) ∧ ∀ k v, Has P s k v → P.leq k0 k = true := by
  unfold itBegin
  cases hbs : s.buckets with
  | nil =>
    refine ⟨_, rfl, rfl, .inl rfl, ?_, ?_⟩
    · rintro _ k v ⟨b, hb, _⟩
      rw [hbs] at hb; simp at hb
    · intro k0 h; simp [It.view] at h
  | cons b bs =>
    dsimp only
    have hb : s.buckets[0]? = some b := by rw [hbs]; rfl
    have hmem := List.mem_of_getElem? hb
    have B := I.bok _ b hb
    obtain ⟨it0, hit0⟩ : ∃ it0 : It K, it0 = ⟨id, 0, .unknown, b.list.head?.map (·.addr), 0, P.dk, true, false, none⟩ := ⟨_, rfl⟩
    rw [← hit0]
    obtain ⟨r, e1, e2⟩ := initReader_valid ok I (it := it0) (b := b) (by rw [hit0]; exact hb) (by rw [hit0])
      (by rw [hit0]; exact Nat.zero_le _)
    have hens : ensureReader P it0 s = some { it0 with reader := some r } := by
      unfold ensureReader
      rw [show it0.reader.isNone = true by rw [hit0]; rfl, if_pos rfl]; exact e1
    obtain ⟨it1, hit1⟩ : ∃ it1 : It K, it1 = { it0 with reader := some r } := ⟨_, rfl⟩
    have hC : Cut P s.mem b [] b.list 0 := ⟨rfl, Nat.zero_le _, (fun j hj => by omega), (fun n hn => by cases hn)⟩
    have hnode : it1.node = b.list.head?.map (·.addr) := by rw [hit1, hit0]
    have hN : NodeIn b.list [] true it1.node := by
      intro a ha
      rw [hnode] at ha
      obtain ⟨n, hn, rfl⟩ := Option.map_eq_some_iff.1 ha
      obtain ⟨l, hl⟩ := List.head?_eq_some_iff.1 hn
      exact ⟨[], n, l, hl, rfl, (fun h => by cases h), (fun y hy => hy)⟩
    have hi0 : it0.iExt = 0 := by rw [hit0]
    rw [hi0] at e2
    obtain ⟨res, c1, c2, c3, c4⟩ := next_core ok I (it := it1) (b := b) (fr := true) (by rw [hit1, hit0]; exact hb)
      (by rw [hit1, hit0]) (by rw [hit1, hit0]) hC hN e2
    have hbk0 : it1.bkt = 0 := by rw [hit1, hit0]
    have nd0 : ∀ k, ¬ Done P s.mem b [] 0 k := by
      rintro k (⟨n, hn, _⟩ | ⟨j, hj, _⟩)
      · cases hn
      · omega
    have hid : it1.id = id := by rw [hit1, hit0]
    refine ⟨nextOut P it1 s res, ?_, ?_, c2, ?_, ?_⟩
    · have hst : (match it1.node with
          | some a => (b.list.find? (fun n => n.addr = a)).map fun _ => nodesFrom a b.list
          | none => some b.list) = some b.list := by
        rw [hnode]
        cases hl : b.list with
        | nil => rfl
        | cons n l =>
          simp [nodesFrom]
      unfold itNext
      rw [show it0.bkt = 0 by rw [hit0], hb]
      simp only [Option.bind_eq_bind, Option.bind_some]
      rw [hens, ← hit1]
      simp only [Option.bind_some]
      have q1 : it1.src = .unknown := by rw [hit1, hit0]
      have q2 : it1.iExt = 0 := by rw [hit1, hit0]
      rw [show it1.reader = some r by rw [hit1], q1, q2, hbk0]
      rw [hbk0] at c1
      simp only [Option.bind_some]
      generalize hndd : it1.node = nd at hst c1
      cases nd with
      | none =>
        simp only [Option.bind_some]
        rw [c1]
        rcases res with _ | ⟨_, _⟩ <;> simp [nextOut, q1, q2, hndd]
      | some a =>
        dsimp only at hst ⊢
        rw [hst]
        simp only [Option.bind_some]
        rw [c1]
        rcases res with _ | ⟨_, _⟩ <;> simp [nextOut, q1, q2, hndd]
    · rw [← hid]; rcases res with _ | ⟨_, _⟩ <;> rfl
    · intro h k v hk
      exact nd0 k (c3 h k v hk (by omega))
    · intro k0 h
      obtain ⟨d1, _, d3⟩ := c4 k0 h
      exact ⟨d1, fun k v hk => (d3 k v hk (by omega)).resolve_left (nd0 k)⟩

end
end Verif.HashMap
