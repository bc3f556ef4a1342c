import Verif.HashMap.IterRehash

/-! # The calls of the map keep its iterators -/
namespace Verif.HashMap
variable {K V : Type} {P : Params K V}

theorem touch_none (lt : K → K → Bool) (k : K) (σ : Nat → Option (Pos K)) (i : Nat) (h : σ i = none) :
    touch lt k σ i = none := by unfold touch; rw [h]; rfl

theorem setI_drop {σ : Nat → Option (Pos K)} {i : Nat} {p : Option (Pos K)} (h : σ i = none) :
    setI (setI σ i p) i none = σ := by
  funext j
  unfold setI
  split_ifs with hj
  · rw [hj, h]
  · rfl

section
variable [DecidableEq K] (ok : P.OK)
include ok

omit ok [DecidableEq K] in
/-- An iterator points to a stored key. -/
theorem ISim.has {s : HMap K V} {σ : Nat → Option (Pos K)} (S : ISim P s σ) {m : K → Option V} (R : Rep P s m) {it : It K}
    (hit : it ∈ s.its) {k : K} (hv : it.view = some k) : m k ≠ none := by
  obtain ⟨p, _, _, hI⟩ := S.itp it hit
  obtain ⟨he, rfl⟩ := view_some.1 hv
  obtain ⟨v, hv⟩ := hI.has he
  rw [(R.2 _ _).1 hv]
  exact fun h => by cases h

omit ok [DecidableEq K] in
theorem ISim.noIt {s : HMap K V} {σ : Nat → Option (Pos K)} (S : ISim P s σ) {m : K → Option V} (R : Rep P s m) {k : K}
    (hk : m k = none) : ∀ it ∈ s.its, it.view ≠ some k := fun _ hit hv => S.has R hit hv hk

omit ok in
theorem ISim.toEnd_id {s : HMap K V} {σ : Nat → Option (Pos K)} (S : ISim P s σ) {k : K}
    (hk : ∀ it ∈ s.its, it.view ≠ some k) : toEnd k σ = σ := by
  funext i
  unfold toEnd
  cases h : σ i with
  | none => rfl
  | some p =>
    obtain ⟨it, _, h2, _, h4, _⟩ := S.get h
    have := hk it h2
    rw [← h4] at this
    simp [this]

omit [DecidableEq K] in
/-- A rebuild keeps all iterators. -/
theorem ISim.rebuilt {s s' : HMap K V} {σ : Nat → Option (Pos K)} (S : ISim P s σ) {m : K → Option V} (R : Rep P s m)
    (d : Nat) (h : Verif.HashMap.rebuild P d s = some s') (hl : 0 < s'.buckets.length ∨ Empty m) :
    ISim P s' σ ∧ s'.nextId = s.nextId := by
  have hid : s'.nextId = s.nextId := by
    unfold Verif.HashMap.rebuild at h
    obtain ⟨hs, _, h⟩ := Option.bind_eq_some_iff.1 h
    simp only [Option.pure_def, Option.some.injEq] at h
    rw [← h]
  refine ⟨?_, hid⟩
  rcases Nat.eq_zero_or_pos s'.buckets.length with hz | hz
  · have he : Empty m := hl.resolve_left (by omega)
    obtain ⟨_, r2, _⟩ := rebuild_after ok d R h
    have hn : newCount P s.numTotal d = 0 := by
      rcases Nat.eq_zero_or_pos (newCount P s.numTotal d) with g | g
      · exact g
      · have := r2 g; omega
    have hits : s'.its = s.its := by
      unfold Verif.HashMap.rebuild at h
      obtain ⟨hs, _, h⟩ := Option.bind_eq_some_iff.1 h
      simp only [Option.pure_def, Option.some.injEq] at h
      rw [hn] at h
      rw [← h]; rfl
    refine ⟨by rw [hits]; exact S.nodup, by rw [hits, hid]; exact S.fresh, by rw [hits]; exact S.dom, ?_⟩
    intro it hit
    rw [hits] at hit
    obtain ⟨p, h1, h2, h3⟩ := S.itp it hit
    refine ⟨p, h1, h2, .inl ?_⟩
    cases he' : it.ended with
    | true => rfl
    | false => exact absurd (he it.key) (S.has R hit (view_some.2 ⟨he', rfl⟩))
  · exact S.rebuild ok R.1 d h hz

omit [DecidableEq K] in
theorem ISim.checkBuf {s s' : HMap K V} {σ : Nat → Option (Pos K)} (S : ISim P s σ) {m : K → Option V} (R : Rep P s m)
    (h : Verif.HashMap.checkBuf P s = some s') (hl : 0 < s'.buckets.length ∨ Empty m) :
    ISim P s' σ ∧ s'.nextId = s.nextId := by
  unfold Verif.HashMap.checkBuf at h
  split_ifs at h
  · exact S.rebuilt ok R 0 h hl
  · cases h; exact ⟨S, rfl⟩

omit [DecidableEq K] in
theorem ISim.checkBuf1 {s s' : HMap K V} {σ : Nat → Option (Pos K)} (S : ISim P s σ) {m : K → Option V} (R : Rep P s m)
    (h : Verif.HashMap.checkBuf1 P s = some s') (hl : 0 < s'.buckets.length ∨ Empty m) :
    ISim P s' σ ∧ s'.nextId = s.nextId := by
  unfold Verif.HashMap.checkBuf1 at h
  split_ifs at h
  · exact S.rebuilt ok R 0 h hl
  · cases h; exact ⟨S, rfl⟩

/-! ## New iterators -/

omit ok [DecidableEq K] in
theorem ISim.newInt {s : HMap K V} {σ : Nat → Option (Pos K)} (S : ISim P s σ) {b : Bucket K V} {k : K}
    (hb : s.buckets[P.bktNum s.buckets.length k]? = some b) {n : Node K V} (hn : n ∈ b.list) (hk : n.key = k)
    (hd : n.del = false) {a : Nat} (ha : a = n.addr) :
    ISim P (s.newIt (P.bktNum s.buckets.length k) (some a) 0 .internal false k).1
      (setI σ s.nextId (some ⟨some k, false, false⟩)) := by
  subst ha
  refine S.add ⟨s.nextId, P.bktNum s.buckets.length k, .internal, some n.addr, 0, k, false, false, none⟩ _ rfl rfl rfl
    rfl rfl rfl rfl (.inr ⟨b, hb, rfl, (fun r hr => by cases hr), .inl ⟨rfl, ⟨n, hn, rfl, hk, hd⟩, fun h => by cases h⟩⟩)

omit ok [DecidableEq K] in
theorem ISim.newEnd {s : HMap K V} {σ : Nat → Option (Pos K)} (S : ISim P s σ) :
    ISim P (s.endIt P).1 (setI σ s.nextId (some ⟨none, false, false⟩)) := by
  exact S.add ⟨s.nextId, 0, .unknown, none, 0, P.dk, false, true, none⟩ _ rfl rfl rfl rfl rfl rfl rfl (.inl rfl)

omit [DecidableEq K] in
theorem ISim.newExt {s : HMap K V} {σ : Nat → Option (Pos K)} (S : ISim P s σ) {b : Bucket K V} {k : K}
    (hb : s.buckets[P.bktNum s.buckets.length k]? = some b) {l1 l2 : List (Node K V)}
    (h1 : b.list = l1 ++ l2) (h2 : ∀ n ∈ l1, P.lt n.key k = true) (h3 : ∀ n ∈ l2, P.lt k n.key = true)
    {nd : Option (Node K V)} (h4 : nd = l1.getLast?) {i : Nat} (hi : i < b.nExt) {v : V}
    (hm : s.mem (bstart P b + i) = (k, v)) :
    ISim P (s.newIt (P.bktNum s.buckets.length k) (nd.map (·.addr)) i .external true k).1
      (setI σ s.nextId (some ⟨some k, false, false⟩)) := by
  refine S.add ⟨s.nextId, P.bktNum s.buckets.length k, .external, nd.map (·.addr), i, k, true, false, none⟩ _ rfl rfl rfl
    rfl rfl rfl rfl (.inr ⟨b, hb, rfl, (fun r hr => by cases hr), .inr ⟨rfl, rfl, hi, ?_, ?_, ?_⟩⟩)
  · show (s.mem (bstart P b + i)).1 = k
    rw [hm]
  · intro n hn
    rw [h1] at hn
    rcases List.mem_append.1 hn with hn | hn
    · exact ok.lt_ne (h2 n hn)
    · exact (ok.lt_ne (h3 n hn)).symm
  · intro a ha
    obtain ⟨n, hn, rfl⟩ := Option.map_eq_some_iff.1 ha
    rw [h4] at hn
    obtain ⟨l, hl⟩ := List.getLast?_eq_some_iff.1 hn
    refine ⟨l, n, l2, by rw [h1, hl]; simp, rfl, fun _ => h2 n (by rw [hl]; simp), fun _ y hy => h2 y (by rw [hl]; simp [hy])⟩

/-! ## The calls -/

theorem insert_sim {k : K} {v : V} {s s' : HMap K V} {m : K → Option V} {id : Nat} {o : Bool} {σ : Nat → Option (Pos K)}
    (S : ISim P s σ) (R : Rep P s m) (h : insert P k v s = some (s', id, o))
    (hl : 0 < s'.buckets.length ∨ Empty (if (m k).isNone then upd m k (some v) else m)) :
    id = s.nextId ∧ ISim P s' (setI (touch P.lt k σ) id (some ⟨some k, false, false⟩)) := by
  have R0 := R
  have S0 := S
  unfold insert at h
  obtain ⟨s1, hs1, h⟩ : ∃ s1, ensureBuckets P s = some s1 ∧ _ := Option.bind_eq_some_iff.1 h
  dsimp only at h
  obtain ⟨b, hb, h⟩ : ∃ b, s1.buckets[P.bktNum s1.buckets.length k]? = some b ∧ _ := Option.bind_eq_some_iff.1 h
  have hlen : 0 < s1.buckets.length := by
    have := (List.getElem?_eq_some_iff.1 hb).1; omega
  have hR1 : Rep P s1 m ∧ ISim P s1 σ ∧ s1.nextId = s.nextId := by
    unfold ensureBuckets at hs1
    split_ifs at hs1
    · obtain ⟨⟨_, h2⟩, _⟩ := rebuild_after ok 128 R hs1
      exact ⟨(h2 (Or.inl hlen)).1, S.rebuilt ok R 128 hs1 (.inl hlen)⟩
    · cases hs1; exact ⟨R, S, rfl⟩
  clear hs1 R S
  obtain ⟨R, S, hid⟩ := hR1
  rcases locate ok R.1 k b hb with ⟨n, a1, a2, a3, a4, a5⟩ |
      ⟨l1, l2, v0, i, a1, a2, a3, a4, a5, a6, a7, a8, a9⟩ | ⟨l1, l2, a1, a2, a3, a4, a5, a8, a9⟩
  · rw [a4] at h
    dsimp only at h
    by_cases hd : n.del = true
    · rw [if_pos hd] at h
      simp only [Option.pure_def, Option.some.injEq, Prod.mk.injEq] at h
      obtain ⟨rfl, rfl, rfl⟩ := h
      refine ⟨hid, ?_⟩
      obtain ⟨s2, hs2⟩ : ∃ s2, s2 = { s1.modNode (P.bktNum s1.buckets.length k) b n.addr
          (fun n => { n with del := false, key := k, val := v }) with numTotal := inc64 s1.numTotal } := ⟨_, rfl⟩
      have S2 : ISim P s2 σ := S.mod ok R.1 hb a2 (fun n => { n with del := false, key := k, val := v }) a3.symm rfl
        (fun _ h => by cases h) (by rw [hs2]) (by rw [hs2]; rfl) (by rw [hs2]; rfl) (by rw [hs2]; rfl) (by rw [hs2]; rfl)
      have hlen2 : s2.buckets.length = s1.buckets.length := by
        rw [hs2]; show (List.set _ _ _).length = _; rw [List.length_set]
      have hb2 : s2.buckets[P.bktNum s2.buckets.length k]? =
          some { b with list := updNode n.addr (fun n => { n with del := false, key := k, val := v }) b.list } := by
        rw [hlen2, hs2]
        exact List.getElem?_set_self (ok.range _ _ hlen)
      have := (S2.touch k).newInt hb2 (n := ⟨n.addr, k, v, false⟩)
        (List.mem_map.2 ⟨n, a2, by rw [if_pos rfl]⟩) rfl rfl (a := n.addr) rfl
      rw [hlen2] at this
      rw [← hs2]
      have e : s2.nextId = s1.nextId := by rw [hs2]; rfl
      exact this
    · rw [if_neg hd] at h
      simp only [Option.pure_def, Option.some.injEq, Prod.mk.injEq] at h
      obtain ⟨rfl, rfl, rfl⟩ := h
      exact ⟨hid, (S.touch k).newInt hb a2 a3 (by simpa using hd) rfl⟩
  · rw [a5] at h
    dsimp only at h
    rw [a8] at h
    dsimp only at h
    rw [if_pos ⟨a6, (ok.eqv_iff _ _).2 rfl⟩] at h
    simp only [Option.pure_def, Option.some.injEq, Prod.mk.injEq] at h
    obtain ⟨rfl, rfl, rfl⟩ := h
    exact ⟨hid, (S.touch k).newExt ok hb a1 a2 a3 a4 a6 a7⟩
  · rw [a5] at h
    dsimp only at h
    rw [a8] at h
    dsimp only at h
    rw [if_neg (fun h => Nat.lt_irrefl _ h.1)] at h
    obtain ⟨s2, hs2, h⟩ : ∃ s2, Verif.HashMap.checkBuf P _ = some s2 ∧ _ := Option.bind_eq_some_iff.1 h
    simp only [Option.pure_def, Option.some.injEq, Prod.mk.injEq] at h
    obtain ⟨rfl, rfl, rfl⟩ := h
    refine ⟨hid, ?_⟩
    have hnone : m k = none := by rw [R.none_iff]; exact a9
    obtain ⟨s4, hs4⟩ : ∃ s4, s4 = { s1.addNode (P.bktNum s1.buckets.length k) b
        (findInt P k none b.list) k v false with numTotal := inc64 s1.numTotal } := ⟨_, rfl⟩
    rw [← hs4] at hs2 ⊢
    have hm := add_node ok R.1 hb a1 a2 a3 a4 v false (s' := s4) (by rw [hs4]) (by rw [hs4]; rfl)
      (by rw [hs4]; rfl) (by rw [hs4]; rfl) (by rw [hs4]; rfl)
    have R' := rep_of_add ok R hm
    have S4 := S.link0 ok R.1 hb a1 a2 a3 a4 v false (S.noIt R hnone) (s' := s4) (by rw [hs4]) (by rw [hs4]; rfl)
      (by rw [hs4]; rfl) (by rw [hs4]; rfl) (by rw [hs4]; rfl)
    have hb4 : s4.buckets[P.bktNum s4.buckets.length k]? = some { b with list := l1 ++ ⟨s1.nextAddr, k, v, false⟩ :: l2 } := by
      rw [hm.2.1, hs4]
      show (HMap.addNode _ _ _ _ _ _ _).buckets[_]? = _
      rw [addNode_buckets ok R.1 hb a1 a4]
      exact List.getElem?_set_self (ok.range _ _ hlen)
    have S5 := S4.newInt hb4 (n := ⟨s1.nextAddr, k, v, false⟩) (by simp) rfl rfl (a := s1.nextAddr) rfl
    rw [hm.2.1] at S5
    have hR5 : Rep P (s4.newIt (P.bktNum s1.buckets.length k) (some s1.nextAddr) 0 .internal false k).1
        (upd m k (some v)) := R'.congr rfl rfl rfl rfl rfl
    rw [hnone] at hl
    exact (S5.checkBuf ok hR5 hs2 hl).1

theorem insertObl_sim {k : K} {v : V} {s s' : HMap K V} {m : K → Option V} {id : Nat} {σ : Nat → Option (Pos K)}
    (S : ISim P s σ) (R : Rep P s m) (h : insertObl P k v s = some (s', id))
    (hl : 0 < s'.buckets.length ∨ Empty (upd m k (some v))) :
    id = s.nextId ∧ ISim P s' (setI (touch P.lt k σ) id (some ⟨some k, false, false⟩)) := by
  unfold insertObl at h
  dsimp only at h
  obtain ⟨b, hb, h⟩ : ∃ b, s.buckets[P.bktNum s.buckets.length k]? = some b ∧ _ := Option.bind_eq_some_iff.1 h
  have hlen : 0 < s.buckets.length := by
    have := (List.getElem?_eq_some_iff.1 hb).1; omega
  have fin : ∀ l1 l2 : List (Node K V), b.list = l1 ++ l2 → (∀ n ∈ l1, P.lt n.key k = true) →
      (∀ n ∈ l2, P.lt k n.key = true) → findInt P k none b.list = l1.getLast? →
      (∃ s2, Verif.HashMap.checkBuf P (HMap.newIt { s.addNode (P.bktNum s.buckets.length k) b
        (findInt P k none b.list) k v false with
          numTotal := inc64 s.numTotal, obliv := true,
          its := fix2int P (P.bktNum s.buckets.length k) k s.nextAddr s.its }
        (P.bktNum s.buckets.length k) (some s.nextAddr) 0 .internal false k).1 = some s2 ∧ s2 = s' ∧ s.nextId = id) →
      id = s.nextId ∧ ISim P s' (setI (touch P.lt k σ) id (some ⟨some k, false, false⟩)) := by
    rintro l1 l2 a1 a2 a3 a4 ⟨s2, hs2, rfl, rfl⟩
    refine ⟨rfl, ?_⟩
    obtain ⟨s4, hs4⟩ : ∃ s4, s4 = { s.addNode (P.bktNum s.buckets.length k) b
        (findInt P k none b.list) k v false with
          numTotal := inc64 s.numTotal, obliv := true,
          its := fix2int P (P.bktNum s.buckets.length k) k s.nextAddr s.its } := ⟨_, rfl⟩
    rw [← hs4] at hs2
    have hm := add_node ok R.1 hb a1 a2 a3 a4 v false (s' := s4) (by rw [hs4]) (by rw [hs4]; rfl)
      (by rw [hs4]; rfl) (by rw [hs4]; rfl) (by rw [hs4]; rfl)
    have R' := rep_of_add ok R hm
    have S4 := S.linkFix ok R.1 hb a1 a2 a3 a4 v (s' := s4) (by rw [hs4]) (by rw [hs4])
      (by rw [hs4]; rfl) (by rw [hs4]; rfl) (by rw [hs4]; rfl)
    have hb4 : s4.buckets[P.bktNum s4.buckets.length k]? = some { b with list := l1 ++ ⟨s.nextAddr, k, v, false⟩ :: l2 } := by
      rw [hm.2.1, hs4]
      show (HMap.addNode _ _ _ _ _ _ _).buckets[_]? = _
      rw [addNode_buckets ok R.1 hb a1 a4]
      exact List.getElem?_set_self (ok.range _ _ hlen)
    have S5 := S4.newInt hb4 (n := ⟨s.nextAddr, k, v, false⟩) (by simp) rfl rfl (a := s.nextAddr) rfl
    rw [hm.2.1] at S5
    have hR5 : Rep P (s4.newIt (P.bktNum s.buckets.length k) (some s.nextAddr) 0 .internal false k).1
        (upd m k (some v)) := R'.congr rfl rfl rfl rfl rfl
    have e : s4.nextId = s.nextId := by rw [hs4]; rfl
    rw [e] at S5
    exact (S5.checkBuf ok hR5 hs2 hl).1
  rcases locate ok R.1 k b hb with ⟨n, a1, a2, a3, a4, a5⟩ |
      ⟨l1, l2, v0, i, a1, a2, a3, a4, a5, a6, a7, a8, a9⟩ | ⟨l1, l2, a1, a2, a3, a4, a5, a8, a9⟩
  · rw [a4] at h
    dsimp only at h
    simp only [Option.pure_def, Option.some.injEq] at h
    have h1 := congrArg Prod.fst h
    have h2 := congrArg Prod.snd h
    dsimp only at h1 h2
    subst h1
    have h2 : s.nextId = id := h2
    subst h2
    refine ⟨rfl, ?_⟩
    obtain ⟨s2, hs2⟩ : ∃ s2, s2 = { s.modNode (P.bktNum s.buckets.length k) b n.addr
        (fun n => { n with del := false, key := k, val := v }) with
          numTotal := if n.del then inc64 s.numTotal else s.numTotal } := ⟨_, rfl⟩
    have S2 : ISim P s2 σ := S.mod ok R.1 hb a2 (fun n => { n with del := false, key := k, val := v }) a3.symm rfl
      (fun _ h => by cases h) (by rw [hs2]) (by rw [hs2]; rfl) (by rw [hs2]; rfl) (by rw [hs2]; rfl) (by rw [hs2]; rfl)
    have hlen2 : s2.buckets.length = s.buckets.length := by
      rw [hs2]; show (List.set _ _ _).length = _; rw [List.length_set]
    have hb2 : s2.buckets[P.bktNum s2.buckets.length k]? =
        some { b with list := updNode n.addr (fun n => { n with del := false, key := k, val := v }) b.list } := by
      rw [hlen2, hs2]
      exact List.getElem?_set_self (ok.range _ _ hlen)
    have := (S2.touch k).newInt hb2 (n := ⟨n.addr, k, v, false⟩)
      (List.mem_map.2 ⟨n, a2, by rw [if_pos rfl]⟩) rfl rfl (a := n.addr) rfl
    rw [hlen2] at this
    rw [← hs2]
    have e : s2.nextId = s.nextId := by rw [hs2]; rfl
    rw [e] at this
    exact this
  · rw [a5] at h
    dsimp only at h
    obtain ⟨s2, hs2, h⟩ : ∃ s2, Verif.HashMap.checkBuf P _ = some s2 ∧ _ := Option.bind_eq_some_iff.1 h
    simp only [Option.pure_def, Option.some.injEq, Prod.mk.injEq] at h
    exact fin l1 l2 a1 a2 a3 a4 ⟨s2, hs2, h.1, h.2⟩
  · rw [a5] at h
    dsimp only at h
    obtain ⟨s2, hs2, h⟩ : ∃ s2, Verif.HashMap.checkBuf P _ = some s2 ∧ _ := Option.bind_eq_some_iff.1 h
    simp only [Option.pure_def, Option.some.injEq, Prod.mk.injEq] at h
    exact fin l1 l2 a1 a2 a3 a4 ⟨s2, hs2, h.1, h.2⟩

/-- Deleting a live node in place. -/
theorem del_sim {k : K} {s s' : HMap K V} {σ : Nat → Option (Pos K)} (S : ISim P s σ) (I : Inv P s) {b : Bucket K V}
    (hb : s.buckets[P.bktNum s.buckets.length k]? = some b) {n : Node K V} (a2 : n ∈ b.list) (a3 : n.key = k)
    (e0 : s'.buckets = (s.modNode (P.bktNum s.buckets.length k) b n.addr (fun n => { n with del := true })).buckets)
    (e1 : s'.its = fix2end P (P.bktNum s.buckets.length k) k s.its)
    (e2 : s'.mem = s.mem) (e3 : s'.nBids = s.nBids) (e4 : s'.nextId = s.nextId) :
    ISim P s' (touch P.lt k (toEnd k σ)) := by
  obtain ⟨S1, hno⟩ := S.end1 ok k (s' := { s with its := fix2end P (P.bktNum s.buckets.length k) k s.its })
    rfl rfl rfl rfl rfl
  have I1 : Inv P { s with its := fix2end P (P.bktNum s.buckets.length k) k s.its } := I.congr rfl rfl rfl rfl rfl
  exact (S1.mod ok I1 hb a2 (fun n => { n with del := true }) rfl rfl (fun _ _ => by rw [a3]; exact hno) e0 e1 e4 e2 e3).touch k

/-- Adding a tombstone. -/
theorem tomb_sim {k : K} {s s' : HMap K V} {σ : Nat → Option (Pos K)} (S : ISim P s σ) (I : Inv P s) {b : Bucket K V}
    (hb : s.buckets[P.bktNum s.buckets.length k]? = some b) {l1 l2 : List (Node K V)}
    (a1 : b.list = l1 ++ l2) (a2 : ∀ n ∈ l1, P.lt n.key k = true) (a3 : ∀ n ∈ l2, P.lt k n.key = true)
    {nd : Option (Node K V)} (a4 : nd = l1.getLast?) (v : V)
    (e0 : s'.buckets = (s.addNode (P.bktNum s.buckets.length k) b nd k v true).buckets)
    (e1 : s'.its = fix2end P (P.bktNum s.buckets.length k) k s.its)
    (e2 : s'.mem = s.mem) (e3 : s'.nBids = s.nBids) (e4 : s'.nextId = s.nextId) :
    ISim P s' (touch P.lt k (toEnd k σ)) := by
  obtain ⟨S1, hno⟩ := S.end1 ok k (s' := { s with its := fix2end P (P.bktNum s.buckets.length k) k s.its })
    rfl rfl rfl rfl rfl
  have I1 : Inv P { s with its := fix2end P (P.bktNum s.buckets.length k) k s.its } := I.congr rfl rfl rfl rfl rfl
  exact S1.link0 ok I1 hb a1 a2 a3 a4 v true hno e0 e1 e4 e2 e3

theorem erase_sim {k : K} {s s' : HMap K V} {m : K → Option V} {o : Nat} {σ : Nat → Option (Pos K)}
    (S : ISim P s σ) (R : Rep P s m) (h : erase P k s = some (s', o))
    (hl : 0 < s'.buckets.length ∨ Empty (upd m k none)) : ISim P s' (touch P.lt k (toEnd k σ)) := by
  unfold erase at h
  dsimp only at h
  obtain ⟨b, hb, h⟩ : ∃ b, s.buckets[P.bktNum s.buckets.length k]? = some b ∧ _ := Option.bind_eq_some_iff.1 h
  have nop : m k = none → ISim P s (touch P.lt k (toEnd k σ)) := by
    intro hn; rw [S.toEnd_id (S.noIt R hn)]; exact S.touch k
  rcases locate ok R.1 k b hb with ⟨n, a1, a2, a3, a4, a5⟩ |
      ⟨l1, l2, v0, i, a1, a2, a3, a4, a5, a6, a7, a8, a9⟩ | ⟨l1, l2, a1, a2, a3, a4, a5, a8, a9⟩
  · rw [a4] at h
    dsimp only at h
    by_cases hd : n.del = true
    · rw [if_pos hd] at h
      simp only [Option.pure_def, Option.some.injEq, Prod.mk.injEq] at h
      obtain ⟨rfl, rfl⟩ := h
      refine nop ?_
      rw [R.none_iff]
      intro v' hv
      rw [a5, hd] at hv; simp at hv
    · rw [if_neg hd] at h
      simp only [Option.pure_def, Option.some.injEq, Prod.mk.injEq] at h
      obtain ⟨rfl, rfl⟩ := h
      exact del_sim ok S R.1 hb a2 a3 rfl rfl rfl rfl rfl
  · rw [a5] at h
    dsimp only at h
    rw [a8] at h
    dsimp only at h
    rw [if_pos ⟨a6, (ok.eqv_iff _ _).2 rfl⟩] at h
    obtain ⟨s2, hs2, h⟩ : ∃ s2, Verif.HashMap.checkBuf P _ = some s2 ∧ _ := Option.bind_eq_some_iff.1 h
    simp only [Option.pure_def, Option.some.injEq, Prod.mk.injEq] at h
    obtain ⟨rfl, rfl⟩ := h
    obtain ⟨s3, hs3⟩ : ∃ s3, s3 = { s.addNode (P.bktNum s.buckets.length k) b
        (findInt P k none b.list) k P.dv true with
        numTotal := dec64 s.numTotal, its := fix2end P (P.bktNum s.buckets.length k) k s.its } := ⟨_, rfl⟩
    rw [← hs3] at hs2
    have hm := add_node ok R.1 hb a1 a2 a3 a4 P.dv true (s' := s3) (by rw [hs3]) (by rw [hs3]; rfl)
      (by rw [hs3]; rfl) (by rw [hs3]; rfl) (by rw [hs3]; rfl)
    have R' : Rep P s3 (upd m k none) := rep_of_add ok R hm
    have S3 := tomb_sim ok S R.1 hb a1 a2 a3 a4 P.dv (s' := s3) (by rw [hs3]) (by rw [hs3]) (by rw [hs3]; rfl)
      (by rw [hs3]; rfl) (by rw [hs3]; rfl)
    exact (S3.checkBuf ok R' hs2 hl).1
  · rw [a5] at h
    dsimp only at h
    rw [a8] at h
    dsimp only at h
    rw [if_neg (fun h => Nat.lt_irrefl _ h.1)] at h
    simp only [Option.pure_def, Option.some.injEq, Prod.mk.injEq] at h
    obtain ⟨rfl, rfl⟩ := h
    exact nop (by rw [R.none_iff]; exact a9)

theorem eraseObl_sim {k : K} {s s' : HMap K V} {m : K → Option V} {σ : Nat → Option (Pos K)}
    (S : ISim P s σ) (R : Rep P s m) (h : eraseObl P k s = some s')
    (hl : 0 < s'.buckets.length ∨ Empty (upd m k none)) : ISim P s' (touch P.lt k (toEnd k σ)) := by
  unfold eraseObl at h
  dsimp only at h
  obtain ⟨b, hb, h⟩ : ∃ b, s.buckets[P.bktNum s.buckets.length k]? = some b ∧ _ := Option.bind_eq_some_iff.1 h
  have nop : m k = none → ISim P s (touch P.lt k (toEnd k σ)) := by
    intro hn; rw [S.toEnd_id (S.noIt R hn)]; exact S.touch k
  have fin : ∀ l1 l2 : List (Node K V), b.list = l1 ++ l2 → (∀ n ∈ l1, P.lt n.key k = true) →
      (∀ n ∈ l2, P.lt k n.key = true) → findInt P k none b.list = l1.getLast? →
      (Verif.HashMap.checkBuf P { s.addNode (P.bktNum s.buckets.length k) b
        (findInt P k none b.list) k P.dv true with
          numTotal := dec64 s.numTotal, obliv := true,
          its := fix2end P (P.bktNum s.buckets.length k) k s.its } = some s') →
      ISim P s' (touch P.lt k (toEnd k σ)) := by
    rintro l1 l2 a1 a2 a3 a4 hs2
    obtain ⟨s3, hs3⟩ : ∃ s3, s3 = { s.addNode (P.bktNum s.buckets.length k) b
        (findInt P k none b.list) k P.dv true with
          numTotal := dec64 s.numTotal, obliv := true,
          its := fix2end P (P.bktNum s.buckets.length k) k s.its } := ⟨_, rfl⟩
    rw [← hs3] at hs2
    have hm := add_node ok R.1 hb a1 a2 a3 a4 P.dv true (s' := s3) (by rw [hs3]) (by rw [hs3]; rfl)
      (by rw [hs3]; rfl) (by rw [hs3]; rfl) (by rw [hs3]; rfl)
    have R' : Rep P s3 (upd m k none) := rep_of_add ok R hm
    have S3 := tomb_sim ok S R.1 hb a1 a2 a3 a4 P.dv (s' := s3) (by rw [hs3]) (by rw [hs3]) (by rw [hs3]; rfl)
      (by rw [hs3]; rfl) (by rw [hs3]; rfl)
    exact (S3.checkBuf ok R' hs2 hl).1
  rcases locate ok R.1 k b hb with ⟨n, a1, a2, a3, a4, a5⟩ |
      ⟨l1, l2, v0, i, a1, a2, a3, a4, a5, a6, a7, a8, a9⟩ | ⟨l1, l2, a1, a2, a3, a4, a5, a8, a9⟩
  · rw [a4] at h
    dsimp only at h
    by_cases hd : n.del = true
    · rw [if_pos hd] at h
      simp only [Option.pure_def, Option.some.injEq] at h
      subst h
      refine nop ?_
      rw [R.none_iff]
      intro v' hv
      rw [a5, hd] at hv; simp at hv
    · rw [if_neg hd] at h
      simp only [Option.pure_def, Option.some.injEq] at h
      subst h
      exact del_sim ok S R.1 hb a2 a3 rfl rfl rfl rfl rfl
  · rw [a5] at h
    exact fin l1 l2 a1 a2 a3 a4 h
  · rw [a5] at h
    exact fin l1 l2 a1 a2 a3 a4 h

end
end Verif.HashMap
