import Verif.HashMap.IterHist

/-! # Calls that cannot run into undefined behaviour -/
namespace Verif.HashMap
variable {K V : Type} {P : Params K V}

section
variable [DecidableEq K] (ok : P.OK)
include ok

omit [DecidableEq K] in
theorem getBucket {s : HMap K V} (hl : 0 < s.buckets.length) (k : K) :
    ∃ b, s.buckets[P.bktNum s.buckets.length k]? = some b :=
  ⟨_, List.getElem?_eq_getElem (ok.range _ k hl)⟩

omit [DecidableEq K] in
theorem checkBuf_add {s s3 : HMap K V} (I : Inv P s) (k : K) (v : V) (del : Bool) {b : Bucket K V}
    (hb : s.buckets[P.bktNum s.buckets.length k]? = some b)
    (hf : (findInt P k none b.list).filter (fun n => P.eqv n.key k) = none)
    (e1 : s3.buckets = (s.addNode (P.bktNum s.buckets.length k) b (findInt P k none b.list) k v del).buckets)
    (e2 : s3.mem = s.mem) (e3 : s3.nBids = s.nBids) (e4 : s3.nextAddr = s.nextAddr + 1) (e5 : s3.bufSize = s.bufSize + 1) :
    ∃ s4, checkBuf P s3 = some s4 :=
  checkBuf_some ok ((inv_addNode ok I k v del hb hf).congr e1 e2 e3 e4 e5)

omit [DecidableEq K] in
theorem checkBuf1_tot (hp : P.Pos) {s : HMap K V} {m : K → Option V} (R : Rep P s m) (hl : 0 < s.buckets.length)
    (hn : 0 < s.numTotal) : ∃ s1, checkBuf1 P s = some s1 ∧ 0 < s1.buckets.length := by
  unfold checkBuf1
  split_ifs
  · obtain ⟨s', h1⟩ := rebuild_some ok 0 R.1
    obtain ⟨_, h4, _⟩ := rebuild_after ok 0 R h1
    have hpos := newCount_pos ok hp (t := s.numTotal) (d := 0) (Or.inl hn)
    exact ⟨s', h1, by rw [h4 hpos]; exact hpos⟩
  · exact ⟨s, rfl, hl⟩

omit [DecidableEq K] in
theorem insert_tot {s : HMap K V} (I : Inv P s) (hl : 0 < s.buckets.length) (k : K) (v : V) :
    ∃ r, insert P k v s = some r := by
  obtain ⟨b, hb⟩ := getBucket ok hl k
  have hE : ensureBuckets P s = some s := by unfold ensureBuckets; rw [if_neg (by omega)]
  unfold insert
  rw [hE]
  simp only [Option.bind_eq_bind, Option.bind_some, hb]
  cases hf : (findInt P k none b.list).filter (fun n => P.eqv n.key k) with
  | some nd =>
    dsimp only
    split_ifs <;> exact ⟨_, rfl⟩
  | none =>
    dsimp only
    split_ifs
    · exact ⟨_, rfl⟩
    · obtain ⟨s4, h⟩ := checkBuf_add ok (s3 := (HMap.newIt { s.addNode (P.bktNum s.buckets.length k) b
        (findInt P k none b.list) k v false with numTotal := inc64 s.numTotal }
        (P.bktNum s.buckets.length k) (some s.nextAddr) 0 .internal false k).1) I k v false hb hf rfl rfl rfl rfl rfl
      rw [h]; exact ⟨_, rfl⟩

omit [DecidableEq K] in
theorem insertObl_tot {s : HMap K V} (I : Inv P s) (hl : 0 < s.buckets.length) (k : K) (v : V) :
    ∃ r, insertObl P k v s = some r := by
  obtain ⟨b, hb⟩ := getBucket ok hl k
  unfold insertObl
  simp only [Option.bind_eq_bind, Option.bind_some, hb]
  cases hf : (findInt P k none b.list).filter (fun n => P.eqv n.key k) with
  | some nd => exact ⟨_, rfl⟩
  | none =>
    dsimp only
    obtain ⟨s4, h⟩ := checkBuf_add ok (s3 := (HMap.newIt { s.addNode (P.bktNum s.buckets.length k) b
      (findInt P k none b.list) k v false with
        numTotal := inc64 s.numTotal, obliv := true, its := fix2int P (P.bktNum s.buckets.length k) k s.nextAddr s.its }
      (P.bktNum s.buckets.length k) (some s.nextAddr) 0 .internal false k).1) I k v false hb hf rfl rfl rfl rfl rfl
    rw [h]; exact ⟨_, rfl⟩

omit [DecidableEq K] in
theorem erase_tot {s : HMap K V} (I : Inv P s) (hl : 0 < s.buckets.length) (k : K) : ∃ r, erase P k s = some r := by
  obtain ⟨b, hb⟩ := getBucket ok hl k
  unfold erase
  simp only [Option.bind_eq_bind, Option.bind_some, hb]
  cases hf : (findInt P k none b.list).filter (fun n => P.eqv n.key k) with
  | some nd =>
    dsimp only
    split_ifs <;> exact ⟨_, rfl⟩
  | none =>
    dsimp only
    split_ifs
    · obtain ⟨s4, h⟩ := checkBuf_add ok (s3 := { s.addNode (P.bktNum s.buckets.length k) b
        (findInt P k none b.list) k P.dv true with
        numTotal := dec64 s.numTotal, its := fix2end P (P.bktNum s.buckets.length k) k s.its }) I k P.dv true hb hf rfl rfl rfl rfl rfl
      rw [h]; exact ⟨_, rfl⟩
    · exact ⟨_, rfl⟩

omit [DecidableEq K] in
theorem eraseObl_tot {s : HMap K V} (I : Inv P s) (hl : 0 < s.buckets.length) (k : K) : ∃ r, eraseObl P k s = some r := by
  obtain ⟨b, hb⟩ := getBucket ok hl k
  unfold eraseObl
  simp only [Option.bind_eq_bind, Option.bind_some, hb]
  cases hf : (findInt P k none b.list).filter (fun n => P.eqv n.key k) with
  | some nd =>
    dsimp only
    split_ifs <;> exact ⟨_, rfl⟩
  | none =>
    dsimp only
    exact checkBuf_add ok I k P.dv true hb hf rfl rfl rfl rfl rfl

omit [DecidableEq K] in
theorem findC_tot {s : HMap K V} (hl : 0 < s.buckets.length) (k : K) : ∃ r, findC P k s = some r := by
  obtain ⟨b, hb⟩ := getBucket ok hl k
  unfold findC
  simp only [Option.bind_eq_bind, Option.bind_some, hb]
  cases (findInt P k none b.list).filter (fun n => P.eqv n.key k) with
  | some nd => dsimp only; split_ifs <;> exact ⟨_, rfl⟩
  | none => dsimp only; split_ifs <;> exact ⟨_, rfl⟩

omit [DecidableEq K] in
theorem find_tot (hp : P.Pos) {s : HMap K V} {m : K → Option V} (R : Rep P s m) (hl : 0 < s.buckets.length)
    (hn : 0 < s.numTotal) (k : K) : ∃ r, find P k s = some r := by
  obtain ⟨s1, h1, hl1⟩ := checkBuf1_tot ok hp R hl hn
  obtain ⟨b, hb⟩ := getBucket ok hl1 k
  unfold find
  simp only [Option.bind_eq_bind, h1, Option.bind_some, hb]
  cases (findInt P k none b.list).filter (fun n => P.eqv n.key k) with
  | some nd => dsimp only; split_ifs <;> exact ⟨_, rfl⟩
  | none => dsimp only; split_ifs <;> exact ⟨_, rfl⟩

omit [DecidableEq K] in
theorem index_tot (hp : P.Pos) {s : HMap K V} {m : K → Option V} (R : Rep P s m) (hl : 0 < s.buckets.length)
    (hn : 0 < s.numTotal) (k : K) : ∃ r, index P k s = some r := by
  obtain ⟨s1, h1, hl1⟩ := checkBuf1_tot ok hp R hl hn
  obtain ⟨b, hb⟩ := getBucket ok hl1 k
  unfold index
  simp only [Option.bind_eq_bind, h1, Option.bind_some, hb]
  cases (findInt P k none b.list).filter (fun n => P.eqv n.key k) with
  | some nd => dsimp only; split_ifs <;> exact ⟨_, rfl⟩
  | none => exact ⟨_, rfl⟩

omit [DecidableEq K] in
theorem obsIt_tot {s : HMap K V} {σ : Nat → Option (Pos K)} (I : Inv P s) (S : ISim P s σ) {i : Nat} {p : Pos K}
    (h : σ i = some p) : ∃ r, obsIt P s i = some r := by
  obtain ⟨it, g1, g2, rfl, g4, g5⟩ := S.get h
  unfold obsIt
  simp only [g1, Option.bind_eq_bind, Option.bind_some]
  cases he : it.ended with
  | true => exact ⟨_, rfl⟩
  | false =>
    obtain ⟨it', v, e1, _⟩ := itDeref_ok ok I he g5
    simp only [e1, Option.bind_some]
    exact ⟨_, rfl⟩

/-- A call of the map with a non-empty table and a positive element counter. -/
theorem step_tot (hp : P.Pos) {s : HMap K V} {m : K → Option V} (R : Rep P s m) {σ : Nat → Option (Pos K)} (S : ISim P s σ)
    (hl : 0 < s.buckets.length) (hn : 0 < s.numTotal) (op : Op K V) : ∃ r, step P op s = some r := by
  cases op with
  | insert k v =>
    obtain ⟨r, h⟩ := insert_tot ok R.1 hl k v
    simp only [step, h]; exact ⟨_, rfl⟩
  | insertObl k v =>
    obtain ⟨r, h⟩ := insertObl_tot ok R.1 hl k v
    simp only [step, h]; exact ⟨_, rfl⟩
  | erase k =>
    obtain ⟨r, h⟩ := erase_tot ok R.1 hl k
    simp only [step, h]; exact ⟨_, rfl⟩
  | eraseObl k =>
    obtain ⟨r, h⟩ := eraseObl_tot ok R.1 hl k
    simp only [step, h]; exact ⟨_, rfl⟩
  | find k =>
    obtain ⟨⟨s', i⟩, h⟩ := find_tot ok hp R hl hn k
    obtain ⟨rfl, _, R', S'⟩ := find_sim ok S R h
    simp only [step, h, Option.bind_eq_bind, Option.bind_some]
    exact obsIt_tot ok R'.1 S' (by unfold setI; rw [if_pos rfl])
  | findC k =>
    obtain ⟨⟨s', i⟩, h⟩ := findC_tot ok hl k
    obtain ⟨rfl, _, R', S'⟩ := findC_sim ok S R h
    simp only [step, h, Option.bind_eq_bind, Option.bind_some]
    exact obsIt_tot ok R'.1 S' (by unfold setI; rw [if_pos rfl])
  | get k =>
    obtain ⟨⟨s', i, a⟩, h⟩ := index_tot ok hp R hl hn k
    obtain ⟨g1, g2, ⟨b, nd, b1, b2, b3, b4, b5, b6⟩, g4, g5⟩ := index_ok ok R False (fun h => h.elim) h
    simp only [step, h, Option.bind_eq_bind, Option.bind_some]
    rw [← b3, readNode_of b1 (g4.1.bok _ _ b1).nd b2]; exact ⟨_, rfl⟩
  | set k v =>
    obtain ⟨⟨s', i, a⟩, h⟩ := index_tot ok hp R hl hn k
    obtain ⟨g1, g2, ⟨b, nd, b1, b2, b3, b4, b5, b6⟩, g4, g5⟩ := index_ok ok R False (fun h => h.elim) h
    simp only [step, h, Option.bind_eq_bind, Option.bind_some, HMap.writeNode, b1]
    rw [← b3, find_addr (g4.1.bok _ _ b1).nd b2]; exact ⟨_, rfl⟩
  | size =>
    simp only [step]
    unfold size
    split_ifs
    · obtain ⟨os, e1, _⟩ := stream_spec ok R.1
      rw [e1]; exact ⟨_, rfl⟩
    · exact ⟨_, rfl⟩
  | rehash d =>
    obtain ⟨s', h⟩ := rebuild_some ok d R.1
    simp only [step, h]; exact ⟨_, rfl⟩
  | clear => exact ⟨_, rfl⟩
  | setMaxBuf d =>
    obtain ⟨s', h⟩ := checkBuf_some ok (s := { s with maxBuf := d }) (R.1.congr rfl rfl rfl rfl rfl)
    simp only [step, setMaxBuf, h]; exact ⟨_, rfl⟩
  | bulk xs =>
    simp only [step]
    unfold bulk
    obtain ⟨os, e1, _⟩ := stream_spec ok R.1
    rw [e1]; exact ⟨_, rfl⟩

/-- Undefined behaviour only occurs without buckets or with an element counter of zero. -/
theorem istep_tot (hp : P.Pos) {s : HMap K V} {σ : ISt K V} (R : Rep P s σ.m) (S : ISim P s σ.its) (op : IOp K V)
    (hm : op.mayFail = true) (h : istep P op s = none) : s.buckets.length = 0 ∨ s.numTotal = 0 := by
  by_contra hc
  rw [not_or] at hc
  have hl : 0 < s.buckets.length := by omega
  have hn : 0 < s.numTotal := by omega
  have key : ∃ r, istep P op s = some r := by
    cases op with
    | call op => obtain ⟨r, h⟩ := step_tot ok hp R S hl hn op; simp only [istep, h]; exact ⟨_, rfl⟩
    | find k => obtain ⟨r, h⟩ := find_tot ok hp R hl hn k; simp only [istep, h]; exact ⟨_, rfl⟩
    | findC k => obtain ⟨r, h⟩ := findC_tot ok hl k; simp only [istep, h]; exact ⟨_, rfl⟩
    | insert k v => obtain ⟨r, h⟩ := insert_tot ok R.1 hl k v; simp only [istep, h]; exact ⟨_, rfl⟩
    | insertObl k v => obtain ⟨r, h⟩ := insertObl_tot ok R.1 hl k v; simp only [istep, h]; exact ⟨_, rfl⟩
    | _ => cases hm
  obtain ⟨r, hr⟩ := key
  rw [h] at hr; cases hr

theorem iconforms (hp : P.Pos) : ∀ (ops : List (IOp K V)) (s : HMap K V) (σ : ISt K V), Rep P s σ.m → ISim P s σ.its →
    IConforms P (OpPre P) ops s σ := by
  intro ops
  induction ops with
  | nil => intro _ _ _ _; trivial
  | cons op ops ih =>
    intro s σ R S hpre hb
    have := istep_ok ok R S op hpre hb
    cases h : istep P op s with
    | none => rw [h] at this; exact ⟨this, istep_tot ok hp R S op this h⟩
    | some r =>
      obtain ⟨s', o⟩ := r
      rw [h] at this
      obtain ⟨σ', h1, h2⟩ := this
      exact ⟨σ', h1, fun hl => ih s' σ' (h2 hl).1 (h2 hl).2⟩

end

/-! ## A loop from `begin()` to `end()` -/

section
variable (ok : P.OK)
include ok

theorem walk_ok {s : HMap K V} (I : Inv P s) {hs : List (K × V)} (h1 : SortedV P hs)
    (h2 : ∀ k v, (k, v) ∈ hs ↔ Has P s k v) : ∀ (l : List (K × V)) (pre : List (K × V)) (it : It K) (fr : Bool),
    hs = pre ++ l → ItP P s fr false it → it.view = l.head?.map (·.1) →
    ∀ n, l.length < n → walk P s n it = some l := by
  intro l
  induction l with
  | nil =>
    intro pre it fr _ _ hv n hn
    obtain ⟨n, rfl⟩ : ∃ n', n = n' + 1 := ⟨n - 1, by omega⟩
    rw [walk, if_pos (view_none.1 hv)]
  | cons y l ih =>
    intro pre it fr he hI hv n hn
    obtain ⟨n, rfl⟩ : ∃ n', n = n' + 1 := ⟨n - 1, by omega⟩
    obtain ⟨hend, hkey⟩ := view_some.1 hv
    obtain ⟨it1, v, d1, d2, d3, d4, d5⟩ := itDeref_ok ok I hend hI
    obtain ⟨hend1, hkey1⟩ := view_some.1 (d4.trans hv)
    obtain ⟨it2, n1, n2, n3, n4, n5⟩ := itNext_ok ok I hend1 d5
    have hp := h1
    unfold SortedV at hp
    rw [he, List.pairwise_append, List.pairwise_cons] at hp
    have hy : (it.key, v) = y := by
      have hm : (it.key, v) ∈ pre ++ y :: l := by rw [← he]; exact (h2 _ _).2 d2
      rcases List.mem_append.1 hm with hm | hm
      · have := hp.2.2 _ hm y List.mem_cons_self
        rw [hkey, ok.lt_irrefl] at this; cases this
      · rcases List.mem_cons.1 hm with hm | hm
        · exact hm
        · have := hp.2.1.1 _ hm
          rw [hkey, ok.lt_irrefl] at this; cases this
    have hgt : ∀ k' v', Has P s k' v' ∧ P.lt it1.key k' = true ↔ (k', v') ∈ l := by
      intro k' v'
      rw [← h2, he, hkey1, List.mem_append, List.mem_cons]
      constructor
      · rintro ⟨hm | hm | hm, hlt⟩
        · have := ok.lt_trans (hp.2.2 _ hm y List.mem_cons_self) hlt
          rw [ok.lt_irrefl] at this; cases this
        · rw [← hm, ok.lt_irrefl] at hlt; cases hlt
        · exact hm
      · intro hm; exact ⟨.inr (.inr hm), hp.2.1.1 _ hm⟩
    have hview : it2.view = l.head?.map (·.1) := by
      cases hl : l with
      | nil =>
        cases hv2 : it2.view with
        | none => rfl
        | some k0 =>
          obtain ⟨⟨v0, g1⟩, g2, _⟩ := n5 k0 hv2
          have := (hgt k0 v0).1 ⟨g1, g2⟩
          rw [hl] at this; cases this
      | cons z l' =>
        have hz := (hgt z.1 z.2).2 (by rw [hl]; exact List.mem_cons_self)
        cases hv2 : it2.view with
        | none => exact absurd hz.2 (n4 hv2 _ _ hz.1)
        | some k0 =>
          obtain ⟨⟨v0, g1⟩, g2, g3⟩ := n5 k0 hv2
          have hk0 := (hgt k0 v0).1 ⟨g1, g2⟩
          have hle := g3 _ _ hz.1 hz.2
          rw [hl] at hk0 hp
          rcases List.mem_cons.1 hk0 with hk0 | hk0
          · simp [← hk0]
          · have := (List.pairwise_cons.1 hp.2.1.2).1 _ hk0
            rw [(ok.leq_false_iff _ _).2 this] at hle; cases hle
    rw [walk, if_neg (by rw [hend]; simp), d1]
    simp only [Option.bind_eq_bind, Option.bind_some]
    rw [n1]
    simp only [Option.bind_some]
    rw [ih (pre ++ [y]) it2 fr (by rw [he]; simp) n3 hview n (by simpa using hn), hy]
    rfl

end
end Verif.HashMap
