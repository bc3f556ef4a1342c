import Verif.HashMap.Bulk

/-! # Calls that cannot fail -/
namespace Verif.HashMap
variable {K V : Type} {P : Params K V}

/-- Positive capacity: a non-empty table gets at least one bucket. `nb t` is
`ceil(t / (subblock_size * opt_load_factor))`, positive for `t > 0` (hash_map.h:1123). -/
structure Params.Pos (P : Params K V) : Prop where
  nb : ∀ t, 0 < t → 0 < P.nb t
  maxb : 0 < P.maxb

/-- The number of elements is known to be `n`. -/
def Known (s : HMap K V) (m : K → Option V) (n : Nat) : Prop :=
  s.obliv = false ∧ HasCard m n ∧ s.numTotal = n ∧ n < 2 ^ 64

theorem empty_of_card {m : K → Option V} (h : HasCard m 0) : Empty m := by
  obtain ⟨l, _, h2, h3⟩ := h
  intro k
  have hl := List.length_eq_zero_iff.1 h3
  subst hl
  cases hm : m k with
  | none => rfl
  | some v =>
    have := (h2 k).2 (by rw [hm]; rfl)
    simp at this

section
variable (ok : P.OK)
include ok

theorem rebuild_some (d : Nat) {s : HMap K V} (I : Inv P s) : ∃ s', rebuild P d s = some s' := by
  rcases Nat.eq_zero_or_pos (newCount P s.numTotal d) with hn | hn
  · obtain ⟨s', h, _⟩ := rebuild_zero ok d I hn; exact ⟨s', h⟩
  · obtain ⟨s', h, _⟩ := rebuild_ok ok d I hn; exact ⟨s', h⟩

theorem newCount_pos (hp : P.Pos) {t d : Nat} (h : 0 < t ∨ 0 < d) : 0 < newCount P t d := by
  unfold newCount
  have := hp.maxb
  split_ifs with hc
  · rw [Nat.lt_min]; exact ⟨by omega, this⟩
  · rcases h with h | h
    · exact hp.nb t h
    · omega

theorem rebuild_live (hp : P.Pos) (d : Nat) {s : HMap K V} {m : K → Option V} {n : Nat} (R : Rep P s m)
    (hk : Known s m n) (h : 0 < n ∨ 0 < d) :
    ∃ s', rebuild P d s = some s' ∧ Rep P s' m ∧ Known s' m n ∧ 0 < s'.buckets.length := by
  obtain ⟨s', h1⟩ := rebuild_some ok d R.1
  obtain ⟨⟨_, h3⟩, h4, _, _, h7, _⟩ := rebuild_after ok d R h1
  have hpos := newCount_pos ok hp (t := s.numTotal) (d := d) (by rw [hk.2.2.1]; exact h)
  have hl : 0 < s'.buckets.length := by rw [h4 hpos]; exact hpos
  obtain ⟨R', hc⟩ := h3 (Or.inl hl)
  obtain ⟨n', c1, c2⟩ := hc trivial h7
  have := c1.unique hk.2.1
  subst this
  exact ⟨s', h1, R', ⟨h7, c1, by rw [c2, Nat.mod_eq_of_lt hk.2.2.2], hk.2.2.2⟩, hl⟩

theorem checkBuf_some {s : HMap K V} (I : Inv P s) : ∃ s', checkBuf P s = some s' := by
  unfold checkBuf
  split_ifs
  · exact rebuild_some ok 0 I
  · exact ⟨s, rfl⟩

/-- The buffer check keeps the table non-empty if the count is positive. -/
theorem checkBuf_live (hp : P.Pos) {s : HMap K V} (I : Inv P s) (ho : s.obliv = false)
    (hl : 0 < s.buckets.length) :
    ∃ s', checkBuf P s = some s' ∧ s'.obliv = false ∧ (0 < s.numTotal → 0 < s'.buckets.length) := by
  unfold checkBuf
  split_ifs
  · rcases Nat.eq_zero_or_pos (newCount P s.numTotal 0) with hn | hn
    · obtain ⟨s', h1, _, _, _, _, h6, _⟩ := rebuild_zero ok 0 I hn
      refine ⟨s', h1, h6, fun h => ?_⟩
      have := newCount_pos ok hp (t := s.numTotal) (d := 0) (Or.inl h); omega
    · obtain ⟨s', h1, _, _, h4, h5, _⟩ := rebuild_ok ok 0 I hn
      exact ⟨s', h1, h5, fun _ => by rw [h4]; exact hn⟩
  · exact ⟨s, rfl, ho, fun _ => hl⟩

theorem inv_addNode {s : HMap K V} (I : Inv P s) (k : K) (v : V) (del : Bool) {b : Bucket K V}
    (hb : s.buckets[P.bktNum s.buckets.length k]? = some b)
    (hf : (findInt P k none b.list).filter (fun n => P.eqv n.key k) = none) :
    Inv P (s.addNode (P.bktNum s.buckets.length k) b (findInt P k none b.list) k v del) := by
  rcases locate ok I k b hb with ⟨n, a1, a2, a3, a4, a5⟩ |
      ⟨l1, l2, v0, i, a1, a2, a3, a4, a5, a6, a7, a8, a9⟩ | ⟨l1, l2, a1, a2, a3, a4, a5, a8, a9⟩
  · rw [a4] at hf; cases hf
  · exact (add_node ok I hb a1 a2 a3 a4 v del rfl rfl rfl rfl rfl).1
  · exact (add_node ok I hb a1 a2 a3 a4 v del rfl rfl rfl rfl rfl).1

/-- `insert` succeeds. -/
theorem insert_live (hp : P.Pos) (k : K) (v : V) {s : HMap K V} {m : K → Option V} {n : Nat}
    (R : Rep P s m) (hk : Known s m n) (hn : n + 1 < 2 ^ 64) :
    ∃ s' id o, insert P k v s = some (s', id, o) ∧ s'.obliv = false ∧ 0 < s'.buckets.length := by
  obtain ⟨s1, hs1, R1, hk1, hl1⟩ : ∃ s1, ensureBuckets P s = some s1 ∧ Rep P s1 m ∧ Known s1 m n ∧
      0 < s1.buckets.length := by
    unfold ensureBuckets
    by_cases h : s.buckets.length = 0
    · rw [if_pos h]; exact rebuild_live ok hp 128 R hk (Or.inr (by omega))
    · rw [if_neg h]; exact ⟨s, rfl, R, hk, by omega⟩
  have hlt := ok.range _ k hl1
  have hb := List.getElem?_eq_getElem hlt
  generalize s1.buckets[P.bk s1.buckets.length (P.hash k)] = b at hb
  unfold insert
  rw [hs1]
  simp only [Option.bind_eq_bind, Option.bind_some]
  change s1.buckets[P.bktNum s1.buckets.length k]? = some b at hb
  rw [hb]
  simp only [Option.bind_some]
  cases hf : (findInt P k none b.list).filter (fun n => P.eqv n.key k) with
  | some nd =>
    dsimp only
    split_ifs
    · exact ⟨_, _, _, rfl, hk1.1, by simpa [HMap.newIt, HMap.modNode, HMap.setBucket] using hl1⟩
    · exact ⟨_, _, _, rfl, hk1.1, hl1⟩
  | none =>
    dsimp only
    split_ifs
    · exact ⟨_, _, _, rfl, hk1.1, hl1⟩
    · have I' := inv_addNode ok R1.1 k v false hb hf
      obtain ⟨s3, hs3⟩ : ∃ s3, s3 = (HMap.newIt { s1.addNode (P.bktNum s1.buckets.length k) b
        (findInt P k none b.list) k v false with numTotal := inc64 s1.numTotal }
        (P.bktNum s1.buckets.length k) (some s1.nextAddr) 0 .internal false k).1 := ⟨_, rfl⟩
      rw [← hs3]
      obtain ⟨s4, h1, h2, h3⟩ := checkBuf_live ok hp (s := s3) (I'.congr (by rw [hs3]; rfl) (by rw [hs3]; rfl)
        (by rw [hs3]; rfl) (by rw [hs3]; rfl) (by rw [hs3]; rfl)) (by rw [hs3]; exact hk1.1)
        (by rw [hs3]; simpa [HMap.newIt, HMap.addNode, HMap.setBucket] using hl1)
      rw [h1]
      refine ⟨_, _, _, rfl, h2, h3 ?_⟩
      rw [hs3]
      show 0 < inc64 s1.numTotal
      have := hk1.2.2.1
      unfold inc64; omega

/-- `erase` succeeds on a table with buckets. -/
theorem erase_live (hp : P.Pos) (k : K) {s : HMap K V} {m : K → Option V} {n : Nat}
    (R : Rep P s m) (hk : Known s m n) (hl : 0 < s.buckets.length) :
    ∃ s' o, erase P k s = some (s', o) ∧ s'.obliv = false ∧ (o = 0 ∨ 1 < n → 0 < s'.buckets.length) := by
  have hlt := ok.range _ k hl
  have hb := List.getElem?_eq_getElem hlt
  generalize s.buckets[P.bk s.buckets.length (P.hash k)] = b at hb
  unfold erase
  change s.buckets[P.bktNum s.buckets.length k]? = some b at hb
  simp only [Option.bind_eq_bind]
  rw [hb]
  simp only [Option.bind_some]
  cases hf : (findInt P k none b.list).filter (fun n => P.eqv n.key k) with
  | some nd =>
    dsimp only
    split_ifs
    · exact ⟨_, _, rfl, hk.1, fun _ => hl⟩
    · exact ⟨_, _, rfl, hk.1, fun _ => by simpa [HMap.modNode, HMap.setBucket] using hl⟩
  | none =>
    dsimp only
    split_ifs
    · have I' := inv_addNode ok R.1 k P.dv true hb hf
      obtain ⟨s3, hs3⟩ : ∃ s3, s3 = { s.addNode (P.bktNum s.buckets.length k) b
        (findInt P k none b.list) k P.dv true with
        numTotal := dec64 s.numTotal, its := fix2end P (P.bktNum s.buckets.length k) k s.its } := ⟨_, rfl⟩
      rw [← hs3]
      obtain ⟨s4, h1, h2, h3⟩ := checkBuf_live ok hp (s := s3) (I'.congr (by rw [hs3]) (by rw [hs3])
        (by rw [hs3]) (by rw [hs3]) (by rw [hs3])) (by rw [hs3]; exact hk.1)
        (by rw [hs3]; simpa [HMap.addNode, HMap.setBucket] using hl)
      rw [h1]
      refine ⟨_, _, rfl, h2, fun hh => h3 ?_⟩
      rw [hs3]
      show 0 < dec64 s.numTotal
      have := hk.2.2.1
      have := hk.2.2.2
      unfold dec64; omega
    · exact ⟨_, _, rfl, hk.1, fun _ => hl⟩

theorem checkBuf1_live (hp : P.Pos) {s : HMap K V} {m : K → Option V} {n : Nat}
    (R : Rep P s m) (hk : Known s m n) (hl : 0 < s.buckets.length) (hn : 0 < n) :
    ∃ s', checkBuf1 P s = some s' ∧ Rep P s' m ∧ Known s' m n ∧ 0 < s'.buckets.length := by
  unfold checkBuf1
  split_ifs
  · exact rebuild_live ok hp 0 R hk (Or.inl hn)
  · exact ⟨s, rfl, R, hk, hl⟩

variable [DecidableEq K]

/-- `find` succeeds on a non-empty map. -/
theorem find_live (hp : P.Pos) (k : K) {s : HMap K V} {m : K → Option V} {n : Nat}
    (R : Rep P s m) (hk : Known s m n) (hl : 0 < s.buckets.length) (hn : 0 < n) :
    ∃ s' o, step P (.find k) s = some (s', o) ∧ s'.obliv = false ∧ 0 < s'.buckets.length := by
  obtain ⟨s1, hs1, R1, hk1, hl1⟩ := checkBuf1_live ok hp R hk hl hn
  have hlt := ok.range _ k hl1
  have hb := List.getElem?_eq_getElem hlt
  generalize s1.buckets[P.bk s1.buckets.length (P.hash k)] = b at hb
  change s1.buckets[P.bktNum s1.buckets.length k]? = some b at hb
  have B := R1.1.bok _ b hb
  change ∃ s' o, ((find P k s).bind fun r => obsIt P r.1 r.2) = _ ∧ _
  unfold find
  rw [hs1]
  simp only [Option.bind_eq_bind, Option.bind_some]
  rw [hb]
  simp only [Option.bind_some]
  rcases locate ok R1.1 k b hb with ⟨n, a1, a2, a3, a4, a5⟩ |
      ⟨l1, l2, v0, i, a1, a2, a3, a4, a5, a6, a7, a8, a9⟩ | ⟨l1, l2, a1, a2, a3, a4, a5, a8, a9⟩
  · rw [a4]
    dsimp only
    split_ifs
    · simp only [Option.pure_def, Option.bind_some]
      rw [obsIt_end]
      exact ⟨_, _, rfl, hk1.1, hl1⟩
    · simp only [Option.pure_def, Option.bind_some]
      rw [obsIt_int (readNode_of hb B.nd a2)]
      exact ⟨_, _, rfl, hk1.1, hl1⟩
  · rw [a5, a8]
    dsimp only
    rw [if_pos ⟨a6, (ok.eqv_iff _ _).2 rfl⟩]
    simp only [Option.pure_def, Option.bind_some]
    obtain ⟨s3, hs3⟩ : ∃ s3, s3 = { s1.addNode (P.bktNum s1.buckets.length k) b
        (findInt P k none b.list) k v0 false with
        its := fix2int P (P.bktNum s1.buckets.length k) k s1.nextAddr s1.its } := ⟨_, rfl⟩
    rw [← hs3]
    have I' := (inv_addNode ok R1.1 k v0 false hb a5).congr (s' := s3) (by rw [hs3]) (by rw [hs3])
        (by rw [hs3]) (by rw [hs3]) (by rw [hs3])
    have hb3 : s3.buckets[P.bktNum s1.buckets.length k]? = some { b with
        list := l1 ++ ⟨s1.nextAddr, k, v0, false⟩ :: l2 } := by
      rw [hs3]
      show (s1.buckets.set _ _)[_]? = _
      rw [List.getElem?_set_self (by have := (List.getElem?_eq_some_iff.1 hb).1; omega), a4, a1,
        link_split _ _ _ (by rw [← a1]; exact B.nd)]
    have hr := readNode_of hb3 (I'.bok _ _ hb3).nd (n := ⟨s1.nextAddr, k, v0, false⟩) (by simp)
    rw [obsIt_int hr]
    refine ⟨_, _, rfl, by rw [hs3]; exact hk1.1, ?_⟩
    rw [hs3]
    simpa [HMap.newIt, HMap.dropIt, HMap.addNode, HMap.setBucket] using hl1
  · rw [a5, a8]
    dsimp only
    rw [if_neg (fun h => Nat.lt_irrefl _ h.1)]
    simp only [Option.pure_def, Option.bind_some]
    rw [obsIt_end]
    exact ⟨_, _, rfl, hk1.1, hl1⟩

/-- `find const` succeeds on a table with buckets. -/
theorem findC_live (k : K) {s : HMap K V} (I : Inv P s) (hl1 : 0 < s.buckets.length) :
    ∃ s' o, step P (.findC k) s = some (s', o) ∧ s'.obliv = s.obliv ∧ 0 < s'.buckets.length := by
  have hlt := ok.range _ k hl1
  have hb := List.getElem?_eq_getElem hlt
  generalize s.buckets[P.bk s.buckets.length (P.hash k)] = b at hb
  change s.buckets[P.bktNum s.buckets.length k]? = some b at hb
  have B := I.bok _ b hb
  change ∃ s' o, ((findC P k s).bind fun r => obsIt P r.1 r.2) = _ ∧ _
  unfold findC
  simp only [Option.bind_eq_bind]
  rw [hb]
  simp only [Option.bind_some]
  rcases locate ok I k b hb with ⟨n, a1, a2, a3, a4, a5⟩ |
      ⟨l1, l2, v0, i, a1, a2, a3, a4, a5, a6, a7, a8, a9⟩ | ⟨l1, l2, a1, a2, a3, a4, a5, a8, a9⟩
  · rw [a4]
    dsimp only
    split_ifs
    · simp only [Option.pure_def, Option.bind_some]
      rw [obsIt_end]
      exact ⟨_, _, rfl, rfl, hl1⟩
    · simp only [Option.pure_def, Option.bind_some]
      rw [obsIt_int (readNode_of hb B.nd a2)]
      exact ⟨_, _, rfl, rfl, hl1⟩
  · rw [a5, a8]
    dsimp only
    rw [if_pos ⟨a6, (ok.eqv_iff _ _).2 rfl⟩]
    simp only [Option.pure_def, Option.bind_some]
    rw [obsIt_ext ok I hb a6]
    exact ⟨_, _, rfl, rfl, hl1⟩
  · rw [a5, a8]
    dsimp only
    rw [if_neg (fun h => Nat.lt_irrefl _ h.1)]
    simp only [Option.pure_def, Option.bind_some]
    rw [obsIt_end]
    exact ⟨_, _, rfl, rfl, hl1⟩

/-- `operator[]` succeeds on a non-empty map. -/
theorem index_live (hp : P.Pos) (k : K) {s : HMap K V} {m : K → Option V} {n : Nat}
    (R : Rep P s m) (hk : Known s m n) (hl : 0 < s.buckets.length) (hn : 0 < n) :
    ∃ s' i a, index P k s = some (s', i, a) ∧ s'.obliv = false ∧ 0 < s'.buckets.length := by
  obtain ⟨s1, hs1, R1, hk1, hl1⟩ := checkBuf1_live ok hp R hk hl hn
  have hlt := ok.range _ k hl1
  have hb := List.getElem?_eq_getElem hlt
  generalize s1.buckets[P.bk s1.buckets.length (P.hash k)] = b at hb
  change s1.buckets[P.bktNum s1.buckets.length k]? = some b at hb
  unfold index
  rw [hs1]
  simp only [Option.bind_eq_bind, Option.bind_some]
  rw [hb]
  simp only [Option.bind_some]
  cases hf : (findInt P k none b.list).filter (fun n => P.eqv n.key k) with
  | some nd =>
    dsimp only
    split_ifs
    · exact ⟨_, _, _, rfl, hk1.1, by simpa [HMap.modNode, HMap.setBucket] using hl1⟩
    · exact ⟨_, _, _, rfl, hk1.1, hl1⟩
  | none =>
    exact ⟨_, _, _, rfl, hk1.1, by simpa [HMap.addNode, HMap.setBucket] using hl1⟩

end
end Verif.HashMap
