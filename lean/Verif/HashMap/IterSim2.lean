import Verif.HashMap.IterSim

/-! # Lookups and the remaining calls keep the iterators -/
namespace Verif.HashMap
variable {K V : Type} {P : Params K V}

theorem obsIt_state {s s' : HMap K V} {id : Nat} {o : Out K V} (h : obsIt P s id = some (s', o)) : s' = s.dropIt id := by
  unfold obsIt at h
  obtain ⟨it, _, h⟩ := Option.bind_eq_some_iff.1 h
  split_ifs at h
  · simp only [Option.pure_def, Option.some.injEq, Prod.mk.injEq] at h
    exact h.1.symm
  · obtain ⟨r, _, h⟩ := Option.bind_eq_some_iff.1 h
    simp only [Option.pure_def, Option.some.injEq, Prod.mk.injEq] at h
    exact h.1.symm

section
variable (ok : P.OK)
include ok

theorem extLe_of {mem : Nat → K × V} {b : Bucket K V} (hsv : SortedV P (bext P mem b)) {e : Nat} {k : K} (he : e < b.nExt)
    (hk : (mem (bstart P b + e)).1 = k) : ExtLe P mem b (e + 1) k := by
  refine ⟨he, fun j hj => ?_⟩
  have hs := sortedV_extL.1 hsv
  rw [ok.leq_iff, ← hk]
  constructor
  · intro h
    by_cases hji : j = e
    · right; rw [hji]
    · left; exact hs j e (by omega) he
  · intro h
    rcases Nat.lt_or_ge e j with hlt | hge
    · have := hs e j hlt hj
      rcases h with h | h
      · rw [ok.lt_asymm h] at this; cases this
      · exact absurd h.symm (ok.lt_ne this)
    · omega

variable [DecidableEq K]

theorem find_sim {k : K} {s s' : HMap K V} {m : K → Option V} {id : Nat} {σ : Nat → Option (Pos K)}
    (S : ISim P s σ) (R : Rep P s m) (h : find P k s = some (s', id)) :
    id = s.nextId ∧ 0 < s'.buckets.length ∧ Rep P s' m ∧
      ISim P s' (setI (touch P.lt k σ) id (some ⟨(m k).map fun _ => k, false, false⟩)) := by
  unfold find at h
  obtain ⟨s1, hs1, h⟩ : ∃ s1, Verif.HashMap.checkBuf1 P s = some s1 ∧ _ := Option.bind_eq_some_iff.1 h
  dsimp only at h
  obtain ⟨b, hb, h⟩ : ∃ b, s1.buckets[P.bktNum s1.buckets.length k]? = some b ∧ _ := Option.bind_eq_some_iff.1 h
  have hlen : 0 < s1.buckets.length := by
    have := (List.getElem?_eq_some_iff.1 hb).1; omega
  obtain ⟨R1, _⟩ := checkBuf1_rep ok R False (fun h => h.elim) hs1 hlen
  obtain ⟨S1, hid⟩ := S.checkBuf1 ok R hs1 (.inl hlen)
  clear hs1 R S
  rw [← hid]
  have B := R1.1.bok _ b hb
  rcases locate ok R1.1 k b hb with ⟨n, a1, a2, a3, a4, a5⟩ |
      ⟨l1, l2, v0, i, a1, a2, a3, a4, a5, a6, a7, a8, a9⟩ | ⟨l1, l2, a1, a2, a3, a4, a5, a8, a9⟩
  · rw [a4] at h
    dsimp only at h
    by_cases hd : n.del = true
    · rw [if_pos hd] at h
      simp only [Option.pure_def, Option.some.injEq] at h
      have hnone : m k = none := by
        rw [R1.none_iff]
        intro v' hv
        rw [a5, hd] at hv; simp at hv
      cases h
      rw [hnone]
      exact ⟨rfl, hlen, R1.congr rfl rfl rfl rfl rfl, (S1.touch k).newEnd⟩
    · rw [if_neg hd] at h
      simp only [Option.pure_def, Option.some.injEq] at h
      cases h
      have hsome : m k = some n.val := by
        rw [← R1.2, a5]; exact ⟨by simpa using hd, rfl⟩
      rw [hsome]
      exact ⟨rfl, hlen, R1.congr rfl rfl rfl rfl rfl, (S1.touch k).newInt hb a2 a3 (by simpa using hd) rfl⟩
  · rw [a5] at h
    dsimp only at h
    rw [a8] at h
    dsimp only at h
    rw [if_pos ⟨a6, (ok.eqv_iff _ _).2 rfl⟩] at h
    simp only [Option.pure_def, Option.some.injEq] at h
    have hsome : m k = some v0 := by rw [← R1.2, a9]
    obtain ⟨s3, hs3⟩ : ∃ s3, s3 = { s1.addNode (P.bktNum s1.buckets.length k) b
        (findInt P k none b.list) k v0 false with
        its := fix2int P (P.bktNum s1.buckets.length k) k s1.nextAddr s1.its } := ⟨_, rfl⟩
    rw [← hs3] at h
    have hbk : s3.buckets = (s1.addNode (P.bktNum s1.buckets.length k) b
        (findInt P k none b.list) k v0 false).buckets := by rw [hs3]
    have hm := add_node ok R1.1 hb a1 a2 a3 a4 v0 false (s' := s3) hbk (by rw [hs3]; rfl)
      (by rw [hs3]; rfl) (by rw [hs3]; rfl) (by rw [hs3]; rfl)
    have R' : Rep P s3 (upd m k (some v0)) := rep_of_add ok R1 hm
    rw [upd_same hsome] at R'
    have S3 := S1.linkFix ok R1.1 hb a1 a2 a3 a4 v0 (s' := s3) hbk (by rw [hs3])
      (by rw [hs3]; rfl) (by rw [hs3]; rfl) (by rw [hs3]; rfl)
    have hb3 : s3.buckets[P.bktNum s3.buckets.length k]? = some { b with list := l1 ++ ⟨s1.nextAddr, k, v0, false⟩ :: l2 } := by
      rw [hm.2.1, hbk, addNode_buckets ok R1.1 hb a1 a4]
      exact List.getElem?_set_self (ok.range _ _ hlen)
    have hmem : s3.mem = s1.mem := by rw [hs3]; rfl
    cases h
    have e : s3.nextId = s1.nextId := by rw [hs3]; rfl
    refine ⟨e, by show 0 < s3.buckets.length; rw [hm.2.1]; exact hlen, R'.congr rfl rfl rfl rfl rfl, ?_⟩
    rw [hsome, ← hm.2.1]
    refine S3.add ⟨s3.nextId, P.bktNum s3.buckets.length k, .internal, some s1.nextAddr, i + 1, k, true, false, none⟩ _
      rfl rfl rfl rfl rfl rfl rfl (.inr ⟨_, hb3, rfl, (fun r hr => by cases hr),
        .inl ⟨rfl, ⟨⟨s1.nextAddr, k, v0, false⟩, by simp, rfl, rfl, rfl⟩, fun _ => ?_⟩⟩)
    show ExtLe P s3.mem _ (i + 1) k
    rw [hmem]
    exact extLe_of ok (b := b) B.sv a6 (by rw [a7])
  · rw [a5] at h
    dsimp only at h
    rw [a8] at h
    dsimp only at h
    rw [if_neg (fun h => Nat.lt_irrefl _ h.1)] at h
    simp only [Option.pure_def, Option.some.injEq] at h
    have hnone : m k = none := by rw [R1.none_iff]; exact a9
    cases h
    rw [hnone]
    exact ⟨rfl, hlen, R1.congr rfl rfl rfl rfl rfl, (S1.touch k).newEnd⟩

theorem findC_sim {k : K} {s s' : HMap K V} {m : K → Option V} {id : Nat} {σ : Nat → Option (Pos K)}
    (S1 : ISim P s σ) (R1 : Rep P s m) (h : findC P k s = some (s', id)) :
    id = s.nextId ∧ 0 < s'.buckets.length ∧ Rep P s' m ∧
      ISim P s' (setI σ id (some ⟨(m k).map fun _ => k, false, false⟩)) := by
  unfold findC at h
  dsimp only at h
  obtain ⟨b, hb, h⟩ : ∃ b, s.buckets[P.bktNum s.buckets.length k]? = some b ∧ _ := Option.bind_eq_some_iff.1 h
  have hlen : 0 < s.buckets.length := by
    have := (List.getElem?_eq_some_iff.1 hb).1; omega
  rcases locate ok R1.1 k b hb with ⟨n, a1, a2, a3, a4, a5⟩ |
      ⟨l1, l2, v0, i, a1, a2, a3, a4, a5, a6, a7, a8, a9⟩ | ⟨l1, l2, a1, a2, a3, a4, a5, a8, a9⟩
  · rw [a4] at h
    dsimp only at h
    by_cases hd : n.del = true
    · rw [if_pos hd] at h
      simp only [Option.pure_def, Option.some.injEq] at h
      have hnone : m k = none := by
        rw [R1.none_iff]
        intro v' hv
        rw [a5, hd] at hv; simp at hv
      cases h
      rw [hnone]
      exact ⟨rfl, hlen, R1.congr rfl rfl rfl rfl rfl, S1.newEnd⟩
    · rw [if_neg hd] at h
      simp only [Option.pure_def, Option.some.injEq] at h
      cases h
      have hsome : m k = some n.val := by
        rw [← R1.2, a5]; exact ⟨by simpa using hd, rfl⟩
      rw [hsome]
      exact ⟨rfl, hlen, R1.congr rfl rfl rfl rfl rfl, S1.newInt hb a2 a3 (by simpa using hd) rfl⟩
  · rw [a5] at h
    dsimp only at h
    rw [a8] at h
    dsimp only at h
    rw [if_pos ⟨a6, (ok.eqv_iff _ _).2 rfl⟩] at h
    simp only [Option.pure_def, Option.some.injEq] at h
    have hsome : m k = some v0 := by rw [← R1.2, a9]
    cases h
    rw [hsome]
    exact ⟨rfl, hlen, R1.congr rfl rfl rfl rfl rfl, S1.newExt ok hb a1 a2 a3 a4 a6 a7⟩
  · rw [a5] at h
    dsimp only at h
    rw [a8] at h
    dsimp only at h
    rw [if_neg (fun h => Nat.lt_irrefl _ h.1)] at h
    simp only [Option.pure_def, Option.some.injEq] at h
    have hnone : m k = none := by rw [R1.none_iff]; exact a9
    cases h
    rw [hnone]
    exact ⟨rfl, hlen, R1.congr rfl rfl rfl rfl rfl, S1.newEnd⟩

/-- `operator[]` for a key no iterator points to. -/
theorem index_sim {k : K} {s s' : HMap K V} {m : K → Option V} {i a : Nat} {σ : Nat → Option (Pos K)}
    (S : ISim P s σ) (R : Rep P s m) (h : index P k s = some (s', i, a)) (hno : ∀ i p, σ i = some p → p.pos ≠ some k) :
    ISim P s' (touch P.lt k σ) := by
  unfold index at h
  obtain ⟨s1, hs1, h⟩ : ∃ s1, Verif.HashMap.checkBuf1 P s = some s1 ∧ _ := Option.bind_eq_some_iff.1 h
  dsimp only at h
  obtain ⟨b, hb, h⟩ : ∃ b, s1.buckets[P.bktNum s1.buckets.length k]? = some b ∧ _ := Option.bind_eq_some_iff.1 h
  have hlen : 0 < s1.buckets.length := by
    have := (List.getElem?_eq_some_iff.1 hb).1; omega
  obtain ⟨R1, _⟩ := checkBuf1_rep ok R False (fun h => h.elim) hs1 hlen
  obtain ⟨S1, hid⟩ := S.checkBuf1 ok R hs1 (.inl hlen)
  clear hs1 R S
  have hno' : ∀ it ∈ s1.its, it.view ≠ some k := by
    intro it hit
    obtain ⟨p, h1, h2, _⟩ := S1.itp it hit
    rw [← h2]; exact hno _ _ h1
  rcases locate ok R1.1 k b hb with ⟨n, a1, a2, a3, a4, a5⟩ |
      ⟨l1, l2, v0, i, a1, a2, a3, a4, a5, a6, a7, a8, a9⟩ | ⟨l1, l2, a1, a2, a3, a4, a5, a8, a9⟩
  · rw [a4] at h
    dsimp only at h
    by_cases hd : n.del = true
    · rw [if_pos hd] at h
      simp only [Option.pure_def, Option.some.injEq] at h
      cases h
      refine ISim.touch (s := { s1.modNode (P.bktNum s1.buckets.length k) b n.addr
        (fun n => { n with del := false, val := P.dv }) with numTotal := inc64 s1.numTotal }) ?_ k
      exact S1.mod ok R1.1 hb a2 (fun n => { n with del := false, val := P.dv }) rfl rfl (fun _ h => by cases h)
        rfl rfl rfl rfl rfl
    · rw [if_neg hd] at h
      simp only [Option.pure_def, Option.some.injEq] at h
      cases h
      exact S1.touch k
  · rw [a5] at h
    dsimp only at h
    rw [a8] at h
    dsimp only at h
    rw [if_pos ⟨a6, (ok.eqv_iff _ _).2 rfl⟩] at h
    simp only [Option.pure_def, Option.some.injEq] at h
    cases h
    exact S1.link0 ok R1.1 hb a1 a2 a3 a4 v0 false hno' rfl rfl rfl rfl rfl
  · rw [a5] at h
    dsimp only at h
    rw [a8] at h
    dsimp only at h
    rw [if_neg (fun h => Nat.lt_irrefl _ h.1)] at h
    simp only [Option.pure_def, Option.some.injEq] at h
    cases h
    exact S1.link0 ok R1.1 hb a1 a2 a3 a4 P.dv false hno' rfl rfl rfl rfl rfl

omit [DecidableEq K] in
/-- Assigning through a reference to a node. -/
theorem writeNode_sim {s s' : HMap K V} {i a : Nat} {v : V} {σ : Nat → Option (Pos K)} (S : ISim P s σ) (I : Inv P s)
    (h : s.writeNode i a v = some s') : ISim P s' σ := by
  unfold HMap.writeNode at h
  obtain ⟨b, hb, h⟩ := Option.bind_eq_some_iff.1 h
  obtain ⟨n, hn, h⟩ := Option.bind_eq_some_iff.1 h
  simp only [Option.pure_def, Option.some.injEq] at h
  subst h
  have h1 := List.mem_of_find?_eq_some hn
  have h2 : n.addr = a := by simpa using List.find?_some hn
  subst h2
  classical
  exact S.mod ok I hb h1 (fun n => { n with val := v }) rfl rfl (fun h1 h2 => by rw [h1] at h2; cases h2) rfl rfl rfl rfl rfl

omit ok [DecidableEq K] in
theorem size_sim {s s' : HMap K V} {n : Nat} {σ : Nat → Option (Pos K)} (S : ISim P s σ)
    (h : size P s = some (s', n)) : ISim P s' σ := by
  unfold size at h
  split_ifs at h
  · obtain ⟨hs, _, h⟩ := Option.bind_eq_some_iff.1 h
    simp only [Option.pure_def, Option.some.injEq, Prod.mk.injEq] at h
    rw [← h.1]
    exact S.congr rfl (Nat.le_refl _) rfl rfl rfl
  · simp only [Option.pure_def, Option.some.injEq, Prod.mk.injEq] at h
    rw [← h.1]; exact S

omit ok [DecidableEq K] in
theorem clear_sim {s : HMap K V} {σ : Nat → Option (Pos K)} (S : ISim P s σ) : ISim P (clear s) (allEnd σ) := by
  refine S.map (s' := clear s) (fun it => if it.ended then it else { it with ended := true, reader := none })
    (fun p => { p with pos := none }) rfl (Nat.le_refl _) ?_ ?_
  · intro it; split_ifs <;> rfl
  · intro it _ p _ _
    have : (if it.ended = true then it else { it with ended := true, reader := none }).ended = true := by
      split_ifs with h
      · exact h
      · rfl
    exact ⟨(view_none.2 this).symm, .inl this⟩

end
end Verif.HashMap
