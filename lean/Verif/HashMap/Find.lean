import Verif.HashMap.Step

/-! # Look-ups, `operator[]`, `size`, `clear` agree with the abstract map -/
namespace Verif.HashMap
variable {K V : Type} {P : Params K V}

theorem find_addr {l : List (Node K V)} (h : (l.map (·.addr)).Nodup) {n : Node K V} (hn : n ∈ l) :
    l.find? (fun x => x.addr = n.addr) = some n := by
  induction l with
  | nil => simp at hn
  | cons a l ih =>
    rw [List.map_cons, List.nodup_cons] at h
    rw [List.find?_cons]
    rcases List.mem_cons.1 hn with rfl | hn
    · simp
    · have : a.addr ≠ n.addr := fun e => h.1 (e ▸ List.mem_map_of_mem hn)
      simp only [this, decide_false]
      exact ih h.2 hn

theorem readNode_of {s : HMap K V} {i : Nat} {b : Bucket K V} (hb : s.buckets[i]? = some b)
    (hnd : (b.list.map (·.addr)).Nodup) {n : Node K V} (hn : n ∈ b.list) :
    s.readNode i n.addr = some (n.key, n.val) := by
  unfold HMap.readNode
  rw [hb]
  simp only [Option.bind_eq_bind, Option.bind_some, Option.pure_def]
  rw [find_addr hnd hn]; rfl

theorem getIt_cons (s : HMap K V) (it : It K) (its : List (It K)) (h : s.its = it :: its) :
    s.getIt it.id = some it := by
  unfold HMap.getIt
  rw [h, List.find?_cons]; simp

/-- Dereferencing a fresh iterator to a buffer node. -/
theorem obsIt_int {s : HMap K V} {i a : Nat} {e : Nat} {x : Bool} {k : K} {r : K × V}
    (h : s.readNode i a = some r) :
    obsIt P (s.newIt i (some a) e .internal x k).1 (s.newIt i (some a) e .internal x k).2 =
      some ((s.newIt i (some a) e .internal x k).1.dropIt s.nextId, .val (some r)) := by
  have h' : (s.newIt i (some a) e .internal x k).1.readNode i a = some r := h
  unfold obsIt
  rw [show (s.newIt i (some a) e .internal x k).2 = s.nextId from rfl,
    getIt_cons (s.newIt i (some a) e .internal x k).1 ⟨s.nextId, i, .internal, some a, e, k, x, false, none⟩
      s.its rfl]
  simp only [Option.bind_eq_bind, Option.bind_some, Bool.false_eq_true, if_false, itDeref, if_true, h']
  rfl

theorem obsIt_end (s : HMap K V) :
    obsIt P (s.endIt P).1 (s.endIt P).2 = some ((s.endIt P).1.dropIt s.nextId, .val none) := by
  unfold obsIt
  rw [show (s.endIt P).2 = s.nextId from rfl,
    getIt_cons (s.endIt P).1 ⟨s.nextId, 0, .unknown, none, 0, P.dk, false, true, none⟩ s.its rfl]
  simp only [Option.bind_eq_bind, Option.bind_some, if_true, Option.pure_def]

section
variable (ok : P.OK)
include ok

theorem RAt.incN {nB : Nat} (h0 : 0 < nB) : ∀ (i p : Nat) (r : Reader), RAt P nB r p →
    p + i < nB * P.BB → RAt P nB (r.incN P i) (p + i) := by
  intro i
  induction i with
  | zero => intro p r h _; exact h
  | succ i ih =>
    intro p r h hp
    rw [Reader.incN, show p + (i + 1) = p + 1 + i by omega]
    exact ih (p + 1) _ (h.inc ok h0 (by omega)) (by omega)

/-- A bucket with external values has blocks. -/
theorem ext_pos {s : HMap K V} (I : Inv P s) {i : Nat} {b : Bucket K V} (hb : s.buckets[i]? = some b)
    (h : 0 < b.nExt) : 0 < s.nBids := by
  rcases Nat.eq_zero_or_pos s.nBids with h0 | h0
  · have := (I.lay.zero h0 b (List.mem_of_getElem? hb)).1; omega
  · exact h0

/-- `init_reader` for an iterator with a valid external position. -/
theorem initReader_valid {s : HMap K V} (I : Inv P s) {it : It K} {b : Bucket K V}
    (hb : s.buckets[it.bkt]? = some b) (hv : it.extValid = true) (hi : it.iExt ≤ b.nExt) :
    ∃ r, initReader P it s = some { it with reader := some r } ∧
      RAt P s.nBids r (bstart P b + it.iExt) := by
  have hbm := List.mem_of_getElem? hb
  refine ⟨(Reader.mk' P s.nBids b.iBlock b.iSub).incN P it.iExt, ?_, ?_⟩
  · unfold initReader
    rw [hb]
    simp only [Option.bind_eq_bind, Option.bind_some, hv, if_true, Option.pure_def]
  · have hm : RAt P s.nBids (Reader.mk' P s.nBids b.iBlock b.iSub) (bstart P b) :=
      RAt.mk' ok (fun h => ⟨(I.lay.pos h b hbm).2.1, (I.lay.pos h b hbm).2.2⟩)
        (fun h => (I.lay.zero h b hbm).2)
    rcases Nat.eq_zero_or_pos s.nBids with h0 | h0
    · have := (I.lay.zero h0 b hbm).1
      have hz : it.iExt = 0 := by omega
      rw [hz]
      exact hm
    · exact RAt.incN ok h0 _ _ _ hm (by have := (I.lay.pos h0 b hbm).1; omega)

/-- Dereferencing a fresh iterator to an external value. -/
theorem obsIt_ext {s : HMap K V} (I : Inv P s) {i e : Nat} {b : Bucket K V} {nd : Option Nat} {k : K}
    (hb : s.buckets[i]? = some b) (he : e < b.nExt) :
    obsIt P (s.newIt i nd e .external true k).1 (s.newIt i nd e .external true k).2 =
      some ((s.newIt i nd e .external true k).1.dropIt s.nextId,
        .val (some (s.mem (bstart P b + e)))) := by
  have hpos := ext_pos ok I hb (by omega)
  obtain ⟨r, h1, h2⟩ := initReader_valid ok I
    (it := ⟨s.nextId, i, .external, nd, e, k, true, false, none⟩) hb rfl (Nat.le_of_lt he)
  have h1' : initReader P ⟨s.nextId, i, .external, nd, e, k, true, false, none⟩
      (s.newIt i nd e .external true k).1 = some ⟨s.nextId, i, .external, nd, e, k, true, false, some r⟩ := h1
  unfold obsIt
  rw [show (s.newIt i nd e .external true k).2 = s.nextId from rfl,
    getIt_cons (s.newIt i nd e .external true k).1 ⟨s.nextId, i, .external, nd, e, k, true, false, none⟩
      s.its rfl]
  have hne : ¬ Src.external = Src.internal := by decide
  simp only [Option.bind_eq_bind, Option.bind_some, Bool.false_eq_true, if_false, itDeref, if_neg hne,
    ensureReader, Option.isNone_none, if_true, h1', Option.pure_def]
  rw [h2.value ok hpos]
  rfl

end

/-- The state after a call that only touched iterators. -/
theorem After.of_rep {s s' : HMap K V} {m : K → Option V} {c : Prop} (R : Rep P s m)
    (hc : c → Counted s m) (e1 : s'.buckets = s.buckets) (e2 : s'.mem = s.mem) (e3 : s'.nBids = s.nBids)
    (e4 : s'.nextAddr = s.nextAddr) (e5 : s'.bufSize = s.bufSize)
    (e6 : s'.numTotal = s.numTotal) (e7 : s'.obliv = s.obliv) : After P s' m c :=
  After.imp (s' := s) (c := c) ⟨R.1, fun _ => ⟨R, hc⟩⟩ id e1 e2 e3 e4 e5 e6 e7

section
variable [DecidableEq K] (ok : P.OK)
include ok

theorem checkBuf1_rep {s s1 : HMap K V} {m : K → Option V} (R : Rep P s m) (c : Prop)
    (hc : c → Counted s m) (h : checkBuf1 P s = some s1) (hl : 0 < s1.buckets.length) :
    Rep P s1 m ∧ (c → Counted s1 m) := by
  unfold checkBuf1 at h
  split_ifs at h
  · obtain ⟨⟨_, h2⟩, _⟩ := rebuild_after ok 0 R h
    exact ⟨(h2 (Or.inl hl)).1, fun _ => (h2 (Or.inl hl)).2 trivial⟩
  · cases h; exact ⟨R, hc⟩

theorem find_ok {k : K} {s s' : HMap K V} {m : K → Option V} {o : Out K V}
    (R : Rep P s m) (c : Prop) (hc : c → Counted s m) (h : step P (.find k) s = some (s', o)) :
    o = .val ((m k).map fun v => (k, v)) ∧ After P s' m c := by
  change ((find P k s).bind fun r => obsIt P r.1 r.2) = _ at h
  obtain ⟨r, hf, h⟩ := Option.bind_eq_some_iff.1 h
  unfold find at hf
  obtain ⟨s1, hs1, hf⟩ : ∃ s1, checkBuf1 P s = some s1 ∧ _ := Option.bind_eq_some_iff.1 hf
  dsimp only at hf
  obtain ⟨b, hb, hf⟩ : ∃ b, s1.buckets[P.bktNum s1.buckets.length k]? = some b ∧ _ :=
    Option.bind_eq_some_iff.1 hf
  have hlen : 0 < s1.buckets.length := by
    have := (List.getElem?_eq_some_iff.1 hb).1; omega
  obtain ⟨R1, hc1⟩ := checkBuf1_rep ok R c hc hs1 hlen
  clear hs1 R hc
  have B := R1.1.bok _ b hb
  rcases locate ok R1.1 k b hb with ⟨n, a1, a2, a3, a4, a5⟩ |
      ⟨l1, l2, v0, i, a1, a2, a3, a4, a5, a6, a7, a8, a9⟩ | ⟨l1, l2, a1, a2, a3, a4, a5, a8, a9⟩
  · rw [a4] at hf
    dsimp only at hf
    by_cases hd : n.del = true
    · rw [if_pos hd] at hf
      simp only [Option.pure_def, Option.some.injEq] at hf
      subst hf
      rw [obsIt_end] at h
      simp only [Option.some.injEq, Prod.mk.injEq] at h
      obtain ⟨rfl, rfl⟩ := h
      have hnone : m k = none := by
        rw [R1.none_iff]
        intro v' hv
        rw [a5, hd] at hv; simp at hv
      rw [hnone]
      exact ⟨rfl, After.of_rep R1 hc1 rfl rfl rfl rfl rfl rfl rfl⟩
    · rw [if_neg hd] at hf
      simp only [Option.pure_def, Option.some.injEq] at hf
      subst hf
      rw [obsIt_int (readNode_of hb B.nd a2)] at h
      simp only [Option.some.injEq, Prod.mk.injEq] at h
      obtain ⟨rfl, rfl⟩ := h
      have hsome : m k = some n.val := by
        rw [← R1.2, a5]; exact ⟨by simpa using hd, rfl⟩
      rw [hsome, a3]
      exact ⟨rfl, After.of_rep R1 hc1 rfl rfl rfl rfl rfl rfl rfl⟩
  · rw [a5] at hf
    dsimp only at hf
    rw [a8] at hf
    dsimp only at hf
    rw [if_pos ⟨a6, (ok.eqv_iff _ _).2 rfl⟩] at hf
    simp only [Option.pure_def, Option.some.injEq] at hf
    subst hf
    have hsome : m k = some v0 := by rw [← R1.2, a9]
    obtain ⟨s3, hs3⟩ : ∃ s3, s3 = { s1.addNode (P.bktNum s1.buckets.length k) b
        (findInt P k none b.list) k v0 false with
        its := fix2int P (P.bktNum s1.buckets.length k) k s1.nextAddr s1.its } := ⟨_, rfl⟩
    rw [← hs3] at h
    have hbk : s3.buckets = (s1.addNode (P.bktNum s1.buckets.length k) b
        (findInt P k none b.list) k v0 false).buckets := by rw [hs3]
    have hm := add_node ok R1.1 hb a1 a2 a3 a4 v0 false (s' := s3) hbk (by rw [hs3]; rfl)
      (by rw [hs3]; rfl) (by rw [hs3]; rfl) (by rw [hs3]; rfl)
    have R' : Rep P s3 (upd m k (some v0)) := rep_of_add ok R1 hm
    rw [upd_same hsome] at R'
    have hb3 : s3.buckets[P.bktNum s1.buckets.length k]? = some { b with
        list := l1 ++ ⟨s1.nextAddr, k, v0, false⟩ :: l2 } := by
      rw [hbk]
      show (s1.buckets.set _ _)[_]? = _
      rw [List.getElem?_set_self (by have := (List.getElem?_eq_some_iff.1 hb).1; omega), a4, a1,
        link_split _ _ _ (by rw [← a1]; exact B.nd)]
    have hnd := (R'.1.bok _ _ hb3).nd
    have hr := readNode_of hb3 hnd (n := ⟨s1.nextAddr, k, v0, false⟩) (by simp)
    rw [obsIt_int hr] at h
    simp only [Option.some.injEq, Prod.mk.injEq] at h
    obtain ⟨rfl, rfl⟩ := h
    rw [hsome]
    refine ⟨rfl, After.of_rep R' ?_ rfl rfl rfl rfl rfl rfl rfl⟩
    intro hcc ho
    rw [hs3] at ho ⊢
    exact hc1 hcc ho
  · rw [a5] at hf
    dsimp only at hf
    rw [a8] at hf
    dsimp only at hf
    rw [if_neg (fun h => Nat.lt_irrefl _ h.1)] at hf
    simp only [Option.pure_def, Option.some.injEq] at hf
    subst hf
    rw [obsIt_end] at h
    simp only [Option.some.injEq, Prod.mk.injEq] at h
    obtain ⟨rfl, rfl⟩ := h
    have hnone : m k = none := by rw [R1.none_iff]; exact a9
    rw [hnone]
    exact ⟨rfl, After.of_rep R1 hc1 rfl rfl rfl rfl rfl rfl rfl⟩

theorem findC_ok {k : K} {s s' : HMap K V} {m : K → Option V} {o : Out K V}
    (R1 : Rep P s m) (c : Prop) (hc1 : c → Counted s m) (h : step P (.findC k) s = some (s', o)) :
    o = .val ((m k).map fun v => (k, v)) ∧ After P s' m c := by
  change ((findC P k s).bind fun r => obsIt P r.1 r.2) = _ at h
  obtain ⟨r, hf, h⟩ := Option.bind_eq_some_iff.1 h
  unfold findC at hf
  dsimp only at hf
  obtain ⟨b, hb, hf⟩ : ∃ b, s.buckets[P.bktNum s.buckets.length k]? = some b ∧ _ :=
    Option.bind_eq_some_iff.1 hf
  have B := R1.1.bok _ b hb
  rcases locate ok R1.1 k b hb with ⟨n, a1, a2, a3, a4, a5⟩ |
      ⟨l1, l2, v0, i, a1, a2, a3, a4, a5, a6, a7, a8, a9⟩ | ⟨l1, l2, a1, a2, a3, a4, a5, a8, a9⟩
  · rw [a4] at hf
    dsimp only at hf
    by_cases hd : n.del = true
    · rw [if_pos hd] at hf
      simp only [Option.pure_def, Option.some.injEq] at hf
      subst hf
      rw [obsIt_end] at h
      simp only [Option.some.injEq, Prod.mk.injEq] at h
      obtain ⟨rfl, rfl⟩ := h
      have hnone : m k = none := by
        rw [R1.none_iff]
        intro v' hv
        rw [a5, hd] at hv; simp at hv
      rw [hnone]
      exact ⟨rfl, After.of_rep R1 hc1 rfl rfl rfl rfl rfl rfl rfl⟩
    · rw [if_neg hd] at hf
      simp only [Option.pure_def, Option.some.injEq] at hf
      subst hf
      rw [obsIt_int (readNode_of hb B.nd a2)] at h
      simp only [Option.some.injEq, Prod.mk.injEq] at h
      obtain ⟨rfl, rfl⟩ := h
      have hsome : m k = some n.val := by
        rw [← R1.2, a5]; exact ⟨by simpa using hd, rfl⟩
      rw [hsome, a3]
      exact ⟨rfl, After.of_rep R1 hc1 rfl rfl rfl rfl rfl rfl rfl⟩
  · rw [a5] at hf
    dsimp only at hf
    rw [a8] at hf
    dsimp only at hf
    rw [if_pos ⟨a6, (ok.eqv_iff _ _).2 rfl⟩] at hf
    simp only [Option.pure_def, Option.some.injEq] at hf
    subst hf
    have hsome : m k = some v0 := by rw [← R1.2, a9]
    rw [obsIt_ext ok R1.1 hb a6, a7] at h
    simp only [Option.some.injEq, Prod.mk.injEq] at h
    obtain ⟨rfl, rfl⟩ := h
    rw [hsome]
    exact ⟨rfl, After.of_rep R1 hc1 rfl rfl rfl rfl rfl rfl rfl⟩
  · rw [a5] at hf
    dsimp only at hf
    rw [a8] at hf
    dsimp only at hf
    rw [if_neg (fun h => Nat.lt_irrefl _ h.1)] at hf
    simp only [Option.pure_def, Option.some.injEq] at hf
    subst hf
    rw [obsIt_end] at h
    simp only [Option.some.injEq, Prod.mk.injEq] at h
    obtain ⟨rfl, rfl⟩ := h
    have hnone : m k = none := by rw [R1.none_iff]; exact a9
    rw [hnone]
    exact ⟨rfl, After.of_rep R1 hc1 rfl rfl rfl rfl rfl rfl rfl⟩

/-- `operator[]`: it returns a reference to the node holding the (possibly new) value of `k`. The
count stays right if the key was present. -/
theorem index_ok {k : K} {s s' : HMap K V} {m : K → Option V} {i a : Nat}
    (R : Rep P s m) (c : Prop) (hc : c → Counted s m) (h : index P k s = some (s', i, a)) :
    i = P.bktNum s'.buckets.length k ∧ 0 < s'.buckets.length ∧
    (∃ b n, s'.buckets[i]? = some b ∧ n ∈ b.list ∧ n.addr = a ∧ n.key = k ∧ n.del = false ∧
      n.val = (m k).getD P.dv) ∧
    Rep P s' (upd m k (some ((m k).getD P.dv))) ∧
      (c ∧ (m k).isSome = true → Counted s' (upd m k (some ((m k).getD P.dv)))) := by
  unfold index at h
  obtain ⟨s1, hs1, h⟩ : ∃ s1, checkBuf1 P s = some s1 ∧ _ := Option.bind_eq_some_iff.1 h
  dsimp only at h
  obtain ⟨b, hb, h⟩ : ∃ b, s1.buckets[P.bktNum s1.buckets.length k]? = some b ∧ _ :=
    Option.bind_eq_some_iff.1 h
  have hlt := (List.getElem?_eq_some_iff.1 hb).1
  have hlen : 0 < s1.buckets.length := by omega
  obtain ⟨R1, hc1⟩ := checkBuf1_rep ok R c hc hs1 hlen
  clear hs1 R hc
  have B := R1.1.bok _ b hb
  have fin : ∀ (l1 l2 : List (Node K V)) (x : K × V), b.list = l1 ++ l2 →
      (∀ n ∈ l1, P.lt n.key k = true) →
      (∀ n ∈ l2, P.lt k n.key = true) → findInt P k none b.list = l1.getLast? →
      x = (k, (m k).getD P.dv) →
      some (s1.addNode (P.bktNum s1.buckets.length k) b (findInt P k none b.list) x.1 x.2 false,
        P.bktNum s1.buckets.length k, s1.nextAddr) = some (s', i, a) →
      i = P.bktNum s'.buckets.length k ∧ 0 < s'.buckets.length ∧
      (∃ b n, s'.buckets[i]? = some b ∧ n ∈ b.list ∧ n.addr = a ∧ n.key = k ∧ n.del = false ∧
        n.val = (m k).getD P.dv) ∧
      Rep P s' (upd m k (some ((m k).getD P.dv))) ∧
        (c ∧ (m k).isSome = true → Counted s' (upd m k (some ((m k).getD P.dv)))) := by
    intro l1 l2 x a1 a2 a3 a4 hx hf
    simp only [Option.some.injEq, Prod.mk.injEq] at hf
    obtain ⟨hs', hi, ha⟩ := hf
    subst hx
    dsimp only at hs'
    have hbk : s'.buckets = (s1.addNode (P.bktNum s1.buckets.length k) b
        (findInt P k none b.list) k ((m k).getD P.dv) false).buckets := by rw [← hs']
    have hm := add_node ok R1.1 hb a1 a2 a3 a4 ((m k).getD P.dv) false (s' := s') hbk (by rw [← hs']; rfl)
      (by rw [← hs']; rfl) (by rw [← hs']; rfl) (by rw [← hs']; rfl)
    have R' : Rep P s' (upd m k (some ((m k).getD P.dv))) := rep_of_add ok R1 hm
    have hb3 : s'.buckets[P.bktNum s1.buckets.length k]? = some { b with
        list := l1 ++ ⟨s1.nextAddr, k, (m k).getD P.dv, false⟩ :: l2 } := by
      rw [hbk]
      show (s1.buckets.set _ _)[_]? = _
      rw [List.getElem?_set_self hlt, a4, a1,
        link_split _ _ _ (by rw [← a1]; exact B.nd)]
    refine ⟨by rw [hm.2.1, hi], by rw [hm.2.1]; exact hlen,
      ⟨_, ⟨s1.nextAddr, k, (m k).getD P.dv, false⟩, by rw [← hi]; exact hb3, by simp, ha, rfl, rfl, rfl⟩,
      R', ?_⟩
    rintro ⟨hcc, hsm⟩ ho
    obtain ⟨c1, c2, c3⟩ := hc1 hcc (by rw [← hs'] at ho; exact ho)
    exact ⟨c1, c2.keep hsm _, by rw [← hs']; exact c3⟩
  rcases locate ok R1.1 k b hb with ⟨n, a1, a2, a3, a4, a5⟩ |
      ⟨l1, l2, v0, j, a1, a2, a3, a4, a5, a6, a7, a8, a9⟩ | ⟨l1, l2, a1, a2, a3, a4, a5, a8, a9⟩
  · rw [a4] at h
    dsimp only at h
    by_cases hd : n.del = true
    · rw [if_pos hd] at h
      simp only [Option.pure_def, Option.some.injEq, Prod.mk.injEq] at h
      obtain ⟨hs', hi, ha⟩ := h
      have hnone : m k = none := by
        rw [R1.none_iff]
        intro v' hv
        rw [a5, hd] at hv; simp at hv
      have hbk : s'.buckets = (s1.modNode (P.bktNum s1.buckets.length k) b n.addr
        (fun n => { n with del := false, val := P.dv })).buckets := by rw [← hs']
      have hm := mod_node ok R1.1 hb a2 a3 (fun n => { n with del := false, val := P.dv }) a3 rfl
        (s' := s') hbk (by rw [← hs']; rfl) (by rw [← hs']; rfl) (by rw [← hs']; rfl) (by rw [← hs']; rfl)
      have R' := rep_of_add (del := false) ok R1 hm
      rw [hnone]
      refine ⟨by rw [hm.2.1, hi], by rw [hm.2.1]; exact hlen, ?_, R', ?_⟩
      · refine ⟨{ b with list := updNode n.addr (fun n => { n with del := false, val := P.dv }) b.list },
          { n with del := false, val := P.dv }, ?_, ?_, ha, a3, rfl, rfl⟩
        · rw [hbk, ← hi]
          show (s1.buckets.set _ _)[_]? = _
          rw [List.getElem?_set_self hlt]
        · exact List.mem_map.2 ⟨n, a2, by simp⟩
      · rintro ⟨_, hsm⟩; cases hsm
    · rw [if_neg hd] at h
      simp only [Option.pure_def, Option.some.injEq, Prod.mk.injEq] at h
      obtain ⟨rfl, rfl, ha⟩ := h
      have hsome : m k = some n.val := by
        rw [← R1.2, a5]; exact ⟨by simpa using hd, rfl⟩
      rw [upd_same (by rw [hsome]; rfl)]
      exact ⟨rfl, hlen, ⟨b, n, hb, a2, ha, a3, by simpa using hd, by rw [hsome]; rfl⟩, R1,
        fun hcc => hc1 hcc.1⟩
  · rw [a5] at h
    dsimp only at h
    rw [a8] at h
    dsimp only at h
    have hsome : m k = some v0 := by rw [← R1.2, a9]
    rw [if_pos ⟨a6, (ok.eqv_iff _ _).2 rfl⟩] at h
    exact fin l1 l2 (k, v0) a1 a2 a3 a4 (by rw [hsome]; rfl) h
  · rw [a5] at h
    dsimp only at h
    rw [a8] at h
    dsimp only at h
    have hnone : m k = none := by rw [R1.none_iff]; exact a9
    rw [if_neg (fun h => Nat.lt_irrefl _ h.1)] at h
    exact fin l1 l2 (k, P.dv) a1 a2 a3 a4 (by rw [hnone]; rfl) h

theorem get_ok {k : K} {s s' : HMap K V} {m : K → Option V} {o : Out K V}
    (R : Rep P s m) (c : Prop) (hc : c → Counted s m) (h : step P (.get k) s = some (s', o)) :
    o = .val (some (k, (m k).getD P.dv)) ∧
      After P s' (upd m k (some ((m k).getD P.dv))) (c ∧ (m k).isSome = true) := by
  change ((index P k s).bind fun r => (r.1.readNode r.2.1 r.2.2).bind fun x => some (r.1, Out.val (some x))) = _ at h
  obtain ⟨⟨s1, i, a⟩, hf, h⟩ := Option.bind_eq_some_iff.1 h
  obtain ⟨h1, h2, ⟨b, n, b1, b2, b3, b4, b5, b6⟩, h4, h5⟩ := index_ok ok R c hc hf
  dsimp only at h
  rw [← b3, readNode_of b1 (h4.1.bok _ _ b1).nd b2, b4, b6] at h
  simp only [Option.bind_some, Option.some.injEq, Prod.mk.injEq] at h
  obtain ⟨rfl, rfl⟩ := h
  exact ⟨rfl, h4.1, fun _ => ⟨h4, h5⟩⟩

theorem set_ok {k : K} {v : V} {s s' : HMap K V} {m : K → Option V} {o : Out K V}
    (R : Rep P s m) (c : Prop) (hc : c → Counted s m) (h : step P (.set k v) s = some (s', o)) :
    o = .unit ∧ After P s' (upd m k (some v)) (c ∧ (m k).isSome = true) := by
  change ((index P k s).bind fun r => (r.1.writeNode r.2.1 r.2.2 v).bind fun x => some (x, Out.unit)) = _ at h
  obtain ⟨⟨s1, i, a⟩, hf, h⟩ := Option.bind_eq_some_iff.1 h
  obtain ⟨h1, h2, ⟨b, n, b1, b2, b3, b4, b5, b6⟩, h4, h5⟩ := index_ok ok R c hc hf
  dsimp only at h
  subst h1
  have hw : s1.writeNode (P.bktNum s1.buckets.length k) a v =
      some (s1.modNode (P.bktNum s1.buckets.length k) b n.addr (fun n => { n with val := v })) := by
    unfold HMap.writeNode
    rw [b1]
    simp only [Option.bind_eq_bind, Option.bind_some, Option.pure_def]
    rw [← b3, find_addr (h4.1.bok _ _ b1).nd b2]; rfl
  rw [hw] at h
  simp only [Option.bind_some, Option.some.injEq, Prod.mk.injEq] at h
  obtain ⟨hs', rfl⟩ := h
  have hbk : s'.buckets = (s1.modNode (P.bktNum s1.buckets.length k) b n.addr
      (fun n => { n with val := v })).buckets := by rw [← hs']
  have hm := mod_node ok h4.1 b1 b2 b4 (fun n => { n with val := v }) b4 rfl
    (s' := s') hbk (by rw [← hs']; rfl) (by rw [← hs']; rfl) (by rw [← hs']; rfl) (by rw [← hs']; rfl)
  rw [b5] at hm
  have R' := rep_of_add (del := false) ok h4 hm
  have hupd : upd (upd m k (some ((m k).getD P.dv))) k (some v) = upd m k (some v) := by
    funext x
    unfold upd
    split_ifs <;> rfl
  simp only [Bool.false_eq_true, if_false] at R'
  rw [hupd] at R'
  refine ⟨rfl, R'.1, fun _ => ⟨R', fun hcc ho => ?_⟩⟩
  obtain ⟨c1, c2, c3⟩ := h5 hcc (by rw [← hs'] at ho; exact ho)
  refine ⟨c1, ?_, by rw [← hs']; exact c3⟩
  rw [← hupd]
  exact c2.keep (by simp [upd]) v

theorem size_ok {s s' : HMap K V} {m : K → Option V} {o : Nat}
    (R : Rep P s m) (c : Prop) (hc : c → Counted s m) (h : size P s = some (s', o)) :
    (c ∨ s.obliv = true → ∃ n, HasCard m n ∧ o = n % 2 ^ 64) ∧ After P s' m c := by
  unfold size at h
  by_cases ho : s.obliv = true
  · rw [if_pos ho] at h
    obtain ⟨hs, e1, e2, e3, e4⟩ := stream_spec ok R.1
    rw [e1] at h
    simp only [Option.bind_eq_bind, Option.bind_some, Option.pure_def, Option.some.injEq, Prod.mk.injEq] at h
    obtain ⟨rfl, rfl⟩ := h
    have hcard : HasCard m hs.length := by
      have := hasCard_of_sorted ok e2 (m := m) (fun k v => by rw [e3]; exact R.2 k v)
      simpa using this
    have R' : Rep P { s with numTotal := hs.length % 2 ^ 64, obliv := false } m :=
      R.congr rfl rfl rfl rfl rfl
    exact ⟨fun _ => ⟨_, hcard, rfl⟩, R'.1, fun _ => ⟨R', fun _ _ => ⟨_, hcard, rfl⟩⟩⟩
  · rw [if_neg ho] at h
    simp only [Option.pure_def, Option.some.injEq, Prod.mk.injEq] at h
    obtain ⟨rfl, rfl⟩ := h
    refine ⟨?_, R.1, fun _ => ⟨R, hc⟩⟩
    rintro (hcc | hcc)
    · exact hc hcc (by simpa using ho)
    · exact absurd hcc ho

theorem clear_ok {s : HMap K V} : After P (clear s) (fun _ => none) True := by
  have hall : ∀ (i : Nat) (b : Bucket K V), (clear s).buckets[i]? = some b → b = Bucket.empty := by
    intro i b h
    have := List.mem_of_getElem? h
    obtain ⟨a, _, rfl⟩ := List.mem_map.1 this
    rfl
  have hmem : ∀ b ∈ (clear s).buckets, b = Bucket.empty := by
    intro b h
    obtain ⟨a, _, rfl⟩ := List.mem_map.1 h
    rfl
  have I : Inv P (clear s) := by
    refine ⟨⟨?_, ?_, ?_⟩, ?_, ?_, ?_⟩
    · intro _ b hb; rw [hmem b hb]; exact ⟨rfl, rfl⟩
    · intro h; exact absurd h (Nat.lt_irrefl 0)
    · show List.Pairwise _ (s.buckets.map _)
      rw [List.pairwise_map]
      apply List.Pairwise.imp (R := fun _ _ => True)
      · intro a b _; simp [bstart, Bucket.empty]
      · exact List.pairwise_of_forall fun _ _ => trivial
    · intro b hb
      rw [hmem b (List.mem_of_mem_head? hb)]; simp [bstart, Bucket.empty]
    · intro i b h
      rw [hall i b h]
      exact ⟨List.Pairwise.nil, List.Pairwise.nil, by simp [Bucket.empty], by simp [bext, Bucket.empty, extL],
        List.nodup_nil, by simp [Bucket.empty]⟩
    · show 0 = _
      have : (clear s).buckets.map (fun b => b.list.length) = (clear s).buckets.map (fun _ => 0) := by
        apply List.map_congr_left
        intro b hb; rw [hmem b hb]; rfl
      rw [this]; simp
  refine ⟨I, fun _ => ⟨⟨I, ?_⟩, fun _ _ => ⟨0, hasCard_empty fun _ => rfl, rfl⟩⟩⟩
  intro k v
  constructor
  · rintro ⟨b, h1, h2⟩
    rw [hall _ b h1] at h2
    rcases h2 with ⟨y, y1, _⟩ | ⟨_, y2⟩
    · simp [Bucket.empty] at y1
    · simp [bext, Bucket.empty, extL] at y2
  · intro h; cases h

end
end Verif.HashMap
