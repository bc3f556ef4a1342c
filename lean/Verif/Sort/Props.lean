import Verif.Sort.Cases2

/-!
# C25: external sort

The vector has the blocks `vb`; `vecData d vb` are its elements when the disk is `d`. The range to be sorted starts at
offset `fo` of block number `fb` and ends before offset `lo` of block number `lb`, that is, it is the index range
`[fb*B+fo, lb*B+lo)`.
-/

namespace Stxxl.Srt

variable {α : Type} {lt : α → α → Bool}

/-- Index of the first element of the range / one past the last. -/
def idx (q : Par α) (b o : Nat) : Nat := b * q.B + o

/-- The elements of the range `[i, j)`. -/
def slice (v : List α) (i j : Nat) : List α := (v.take j).drop i

/-- What the caller has to guarantee. -/
structure Pre (lt : α → α → Bool) (q : Par α) (d : D α) (vb R : List Nat) (fb fo lb lo : Nat) : Prop where
  /-- blocks and elements have a size, a raw block has room for its elements, the memory factor is positive -/
  B : 0 < q.B
  sz : 0 < q.sz
  raw : q.B * q.sz ≤ q.raw
  fac : 0 < q.fac
  /-- the allocated blocks are those of the vector and others (`R`) -/
  own : Own d vb R
  /-- all blocks of the vector are full blocks -/
  len : ∀ b ∈ vb, (d.disk b).length = q.B
  /-- a valid range -/
  first_off : fo < q.B
  last_off : lo < q.B
  le : idx q fb fo ≤ idx q lb lo
  last : idx q lb lo ≤ vb.length * q.B
  /-- enough memory, otherwise the code throws `bad_parameter` -/
  mem : 2 * q.raw * q.fac ≤ q.M
  /-- the sentinels of the comparator -/
  minmax : lt q.minV q.maxV = true
  sent : ∀ x ∈ slice (vecData d vb) (idx q fb fo) (idx q lb lo),
    (lt q.minV x = true ∨ x = q.minV) ∧ (lt x q.maxV = true ∨ x = q.maxV)

/-- The range is sorted by the external algorithm. -/
def External (q : Par α) (fb fo lb lo : Nat) : Prop := q.M ≤ (idx q lb lo - idx q fb fo) * q.sz * q.fac

theorem vecData_length {d : D α} {B : Nat} : ∀ {vb : List Nat}, (∀ b ∈ vb, (d.disk b).length = B) →
    (vecData d vb).length = vb.length * B := by
  intro vb
  induction vb with
  | nil => intro _; simp [vecData]
  | cons b vb ih =>
    intro h
    rw [vecData_cons, List.length_append, h b (by simp), ih (fun c hc => h c (by simp [hc])), List.length_cons,
      Nat.add_mul]
    omega

/-- The three parts of a list. -/
theorem parts {v A X C : List α} {i j : Nat} (h : v = A ++ X ++ C) (hi : A.length = i) (hj : i + X.length = j) :
    v.take i = A ∧ v.drop j = C ∧ slice v i j = X := by
  subst h hi hj
  refine ⟨?_, ?_, ?_⟩
  · rw [List.append_assoc, List.take_left]
  · rw [← List.length_append, List.drop_left]
  · unfold slice; rw [← List.length_append, List.take_left, List.drop_left]

/-- From the sizes: the memory holds at least two blocks, and the range spans at least as many. -/
theorem sizes {q : Par α} {d : D α} {vb R : List Nat} {fb fo lb lo : Nat} (p : Pre lt q d vb R fb fo lb lo)
    (h : External q fb fo lb lo) :
    2 ≤ q.M / q.fac / q.raw ∧ (q.M / q.fac / q.raw) * q.B ≤ idx q lb lo - idx q fb fo := by
  have hraw : 0 < q.raw := lt_of_lt_of_le (Nat.mul_pos p.B p.sz) p.raw
  constructor
  · rw [Nat.le_div_iff_mul_le hraw, Nat.le_div_iff_mul_le p.fac]; exact p.mem
  · have h1 : q.M / q.fac / q.raw * q.raw ≤ q.M / q.fac := Nat.div_mul_le_self _ _
    have h2 : q.M / q.fac * q.fac ≤ q.M := Nat.div_mul_le_self _ _
    have h3 : q.M / q.fac / q.raw * q.raw * q.fac ≤ (idx q lb lo - idx q fb fo) * q.sz * q.fac :=
      ((Nat.mul_le_mul_right _ h1).trans h2).trans h
    have h4 := Nat.le_of_mul_le_mul_right h3 p.fac
    have h5 : q.M / q.fac / q.raw * q.B * q.sz ≤ (idx q lb lo - idx q fb fo) * q.sz := by
      rw [Nat.mul_assoc]
      exact (Nat.mul_le_mul_left _ p.raw).trans h4
    exact Nat.le_of_mul_le_mul_right h5 p.sz

/-- The blocks between two positions. -/
theorem split_two (vb : List Nat) (a b : Nat) (hab : a ≤ b) (hb : b ≤ vb.length) :
    ∃ P M S, vb = P ++ (M ++ S) ∧ P.length = a ∧ M.length = b - a := by
  refine ⟨vb.take a, (vb.drop a).take (b - a), vb.drop b, ?_, ?_, ?_⟩
  · have : vb.drop b = (vb.drop a).drop (b - a) := by rw [List.drop_drop]; congr 1; omega
    rw [this, List.take_append_drop, List.take_append_drop]
  · simp; omega
  · simp; omega

theorem cons_of_length {S : List Nat} (h : S ≠ []) : ∃ l S', S = l :: S' := by
  cases S with
  | nil => exact absurd rfl h
  | cons l S' => exact ⟨l, S', rfl⟩

/-- The result of `sort`: same number of blocks; the vector owns its blocks and no block is lost or gained besides
that; the other blocks keep their contents; outside the range nothing changes; the range is sorted and a permutation
of what it was. -/
def Result (lt : α → α → Bool) (q : Par α) (d : D α) (vb R : List Nat) (fb fo lb lo : Nat)
    (r : Option (List Nat × D α)) : Prop :=
  ∃ vb' d', r = some (vb', d') ∧ vb'.length = vb.length ∧ Own d' vb' R ∧ (∀ b ∈ R, d'.disk b = d.disk b) ∧
    (∀ b ∈ vb', (d'.disk b).length = q.B) ∧
    (vecData d' vb').take (idx q fb fo) = (vecData d vb).take (idx q fb fo) ∧
    (vecData d' vb').drop (idx q lb lo) = (vecData d vb).drop (idx q lb lo) ∧
    Sorted lt (slice (vecData d' vb') (idx q fb fo) (idx q lb lo)) ∧
    (slice (vecData d' vb') (idx q fb fo) (idx q lb lo)).Perm (slice (vecData d vb) (idx q fb fo) (idx q lb lo))

theorem result_of_parts {q : Par α} {d d' : D α} {vb vb' R : List Nat} {fb fo lb lo : Nat} {A X mid C : List α}
    {r : Option (List Nat × D α)}
    (hr : r = some (vb', d')) (hl : vb'.length = vb.length) (ho : Own d' vb' R) (hR : ∀ b ∈ R, d'.disk b = d.disk b)
    (hb : ∀ b ∈ vb', (d'.disk b).length = q.B)
    (hv : vecData d vb = A ++ X ++ C) (hv' : vecData d' vb' = A ++ mid ++ C)
    (hA : A.length = idx q fb fo) (hX : idx q fb fo + X.length = idx q lb lo) (hs : Sorted lt mid) (hp : mid.Perm X) :
    Result lt q d vb R fb fo lb lo r := by
  obtain ⟨a1, a2, a3⟩ := parts hv hA hX
  obtain ⟨b1, b2, b3⟩ := parts hv' hA (j := idx q lb lo) (by rw [hp.length_eq]; exact hX)
  exact ⟨vb', d', hr, hl, ho, hR, hb, b1.trans a1.symm, b2.trans a2.symm, b3 ▸ hs, by rw [b3, a3]; exact hp⟩

theorem sortWith_spec {pick : Pick} {srt : List α → List α} {sb : Nat → D α → List Nat → Option (Run α × D α)} {q : Par α}
    (E : Gen pick srt lt sb q.B (q.M / q.fac / q.raw)) {d : D α} {vb R : List Nat} {fb fo lb lo : Nat} (p : Pre lt q d vb R fb fo lb lo)
    (hcase : ¬ External q fb fo lb lo ∨ fo = 0 ∨ lo ≠ 0) :
    Result lt q d vb R fb fo lb lo (sortWith pick srt sb q d vb fb fo lb lo) := by
  have hB := p.B
  have hle : fb * q.B + fo ≤ lb * q.B + lo := p.le
  have hlast : lb * q.B + lo ≤ vb.length * q.B := p.last
  have hfo := p.first_off
  have hlo := p.last_off
  have hfblb : fb ≤ lb := by
    by_contra hc
    have : (lb + 1) * q.B ≤ fb * q.B := Nat.mul_le_mul_right _ (by omega)
    rw [Nat.add_mul, Nat.one_mul] at this
    omega
  have hlblen : lb ≤ vb.length := by
    by_contra hc
    have : (vb.length + 1) * q.B ≤ lb * q.B := Nat.mul_le_mul_right _ (by omega)
    rw [Nat.add_mul, Nat.one_mul] at this
    omega
  have hlblt : lo ≠ 0 → lb < vb.length := by
    intro h0
    by_contra hc
    have : vb.length * q.B ≤ lb * q.B := Nat.mul_le_mul_right _ (by omega)
    omega
  have hdist : ∀ a b c : Nat, a + b = c → a * q.B + b * q.B = c * q.B := by
    intro a b c h; rw [← h, Nat.add_mul]
  by_cases hext : External q fb fo lb lo
  · obtain ⟨hm, hspan⟩ := sizes p hext
    have hext' : ¬ ((lb * q.B + lo) - (fb * q.B + fo)) * q.sz * q.fac < q.M := Nat.not_lt.2 hext
    have hspan' : q.M / q.fac / q.raw * q.B ≤ (lb * q.B + lo) - (fb * q.B + fo) := hspan
    have hsent := p.sent
    generalize hmdef : q.M / q.fac / q.raw = m at hm hspan hspan'
    have hm2 : 2 * q.B ≤ m * q.B := Nat.mul_le_mul_right _ hm
    have hfblt : fb < lb := by
      by_contra hc
      have : lb = fb := by omega
      subst this
      omega
    by_cases h0 : lo = 0
    · -- aligned
      have hf0 : fo = 0 := by
        rcases hcase with h | h | h
        · exact absurd hext h
        · exact h
        · exact absurd h0 h
      subst h0 hf0
      obtain ⟨P, M, S, rfl, hP, hM⟩ := split_two vb fb lb hfblb hlblen
      subst hP
      have hlb : lb = P.length + M.length := by omega
      subst hlb
      have hdd := hdist _ _ _ (rfl : P.length + M.length = _)
      have hmM : m ≤ M.length := by
        have : m * q.B ≤ M.length * q.B := by omega
        exact Nat.le_of_mul_le_mul_right this hB
      obtain ⟨M', d', mid, s1, s2, s3, s4, s5, s6, s7, s8⟩ := sort_aligned q E hB p.own p.len hext' p.mem
        (by rw [hmdef]; exact hm) (by rw [hmdef]; omega)
      have lP := vecData_length (d := d) (vb := P) (fun b hb => p.len b (by simp [hb]))
      have lM := vecData_length (d := d) (vb := M) (fun b hb => p.len b (by simp [hb]))
      refine result_of_parts s1 (by simp [s2]) s3 s4 s5 (A := vecData d P) (X := vecData d M) (C := vecData d S)
        (by simp [vecData_append]) s6 (by simp [idx, lP]) (by rw [lM]; unfold idx; omega) s7 s8
    · obtain ⟨P, M, S, rfl, hP, hM⟩ := split_two vb fb lb hfblb hlblen
      subst hP
      have hSne : S ≠ [] := by
        rintro rfl
        have := hlblt h0
        simp at this; omega
      obtain ⟨l, S, rfl⟩ := cons_of_length hSne
      have lP := vecData_length (d := d) (vb := P) (fun b hb => p.len b (by simp [hb]))
      have lM := vecData_length (d := d) (vb := M) (fun b hb => p.len b (by simp [hb]))
      have ll : (d.disk l).length = q.B := p.len l (by simp)
      have hlb : lb = P.length + M.length := by omega
      have hdd := hdist _ _ _ (rfl : P.length + M.length = _)
      by_cases hf0 : fo = 0
      · -- only the end is inside a block
        subst hf0 hlb
        have hv : vecData d (P ++ (M ++ l :: S)) = vecData d P ++ (vecData d M ++ (d.disk l).take lo) ++
            ((d.disk l).drop lo ++ vecData d S) := by
          have := List.take_append_drop lo (d.disk l)
          rw [vecData_append, vecData_append, vecData_cons]
          conv_lhs => rw [← this]
          simp only [List.append_assoc]
        have hA : (vecData d P).length = idx q P.length 0 := by rw [lP]; simp [idx]
        have hX : idx q P.length 0 + (vecData d M ++ (d.disk l).take lo).length = idx q (P.length + M.length) lo := by
          rw [List.length_append, lM, List.length_take, ll]; unfold idx; omega
        have hsl := (parts hv hA hX).2.2
        rw [hsl] at hsent
        have hmM : m ≤ M.length := by
          by_contra hc
          have : (M.length + 1) * q.B ≤ m * q.B := Nat.mul_le_mul_right _ (by omega)
          rw [Nat.add_mul, Nat.one_mul] at this
          omega
        obtain ⟨M', d', mid, s1, s2, s3, s4, s5, s6, s7, s8⟩ := sort_last q E hB (Nat.pos_of_ne_zero h0) hlo p.own p.len
          hext' p.mem (by rw [hmdef]; exact hm) (by rw [hmdef]; omega) p.minmax hsent
        exact result_of_parts s1 (by simp [s2]) s3 s4 s5 hv s6 hA hX s7 s8
      · have hMne : M ≠ [] := by
          rintro rfl
          simp at hM; omega
        obtain ⟨f, M, rfl⟩ := cons_of_length hMne
        have lf : (d.disk f).length = q.B := p.len f (by simp)
        have lM' := vecData_length (d := d) (vb := M) (fun b hb => p.len b (by simp [hb]))
        have hlb' : lb = P.length + (M.length + 1) := by simpa using hlb
        subst hlb'
        have hv : vecData d (P ++ (f :: (M ++ l :: S))) = (vecData d P ++ (d.disk f).take fo) ++
            ((d.disk f).drop fo ++ vecData d M ++ (d.disk l).take lo) ++ ((d.disk l).drop lo ++ vecData d S) := by
          have h1 := List.take_append_drop lo (d.disk l)
          have h2 := List.take_append_drop fo (d.disk f)
          rw [vecData_append, vecData_cons, vecData_append, vecData_cons]
          conv_lhs => rw [← h1, ← h2]
          simp only [List.append_assoc]
        have hdd' := hdist P.length (M.length + 1) _ rfl
        have hdd'' := hdist M.length 1 _ rfl
        have hA : (vecData d P ++ (d.disk f).take fo).length = idx q P.length fo := by
          rw [List.length_append, lP, List.length_take, lf]; unfold idx; omega
        have hX : idx q P.length fo + ((d.disk f).drop fo ++ vecData d M ++ (d.disk l).take lo).length
            = idx q (P.length + (M.length + 1)) lo := by
          rw [List.length_append, List.length_append, lM', List.length_take, List.length_drop, ll, lf]; unfold idx; omega
        have hsl := (parts hv hA hX).2.2
        have hsent' : ∀ x ∈ slice (vecData d (P ++ (f :: (M ++ l :: S)))) (idx q P.length fo)
            (idx q (P.length + (M.length + 1)) lo),
            (lt q.minV x = true ∨ x = q.minV) ∧ (lt x q.maxV = true ∨ x = q.maxV) := hsent
        rw [hsl] at hsent'
        have hmM : m ≤ M.length + 1 := by
          by_contra hc
          have : (M.length + 1 + 1) * q.B ≤ m * q.B := Nat.mul_le_mul_right _ (by omega)
          rw [Nat.add_mul, Nat.one_mul] at this
          omega
        obtain ⟨M', d', mid, s1, s2, s3, s4, s5, s6, s7, s8⟩ := sort_both q E hB (Nat.pos_of_ne_zero hf0) hfo
          (Nat.pos_of_ne_zero h0) hlo p.own p.len
          hext' p.mem (by rw [hmdef]; exact hm) (by rw [hmdef]; omega) p.minmax hsent'
        exact result_of_parts s1 (by simp [s2]) s3 s4 s5 hv s6 hA hX s7 s8
  · -- in memory
    have hin : ((lb * q.B + lo) - (fb * q.B + fo)) * q.sz * q.fac < q.M := Nat.not_le.1 hext
    have hnb : lb + (if lo ≠ 0 then 1 else 0) ≤ vb.length := by
      split_ifs with h
      · exact hlblt h
      · omega
    obtain ⟨P, M, S, rfl, hP, hM⟩ := split_two vb fb (lb + if lo ≠ 0 then 1 else 0) (by omega) hnb
    subst hP
    have hM' : M.length = lb - P.length + if lo ≠ 0 then 1 else 0 := by omega
    have hdd := hdist P.length (lb - P.length) lb (by omega)
    obtain ⟨d', mid, s1, s3, s4, s5, s6, s7, s8⟩ := inMem_spec E.srt hlo p.own p.len hM' hfblb (fo := fo) (by omega)
    have lP := vecData_length (d := d) (vb := P) (fun b hb => p.len b (by simp [hb]))
    have lM := vecData_length (d := d) (vb := M) (fun b hb => p.len b (by simp [hb]))
    have hMB : (lb - P.length) * q.B + lo ≤ M.length * q.B := by
      rw [hM']
      split_ifs with h
      · rw [Nat.add_mul]; omega
      · simp only [Nat.add_zero]; omega
    have hfoe : fo ≤ (lb - P.length) * q.B + lo := by omega
    have hv : vecData d (P ++ (M ++ S)) = (vecData d P ++ (vecData d M).take fo) ++
        (((vecData d M).take ((lb - P.length) * q.B + lo)).drop fo) ++
        ((vecData d M).drop ((lb - P.length) * q.B + lo) ++ vecData d S) := by
      rw [vecData_append, vecData_append]
      generalize vecData d M = w at *
      generalize (lb - P.length) * q.B + lo = e at *
      have h1 : w.take fo = (w.take e).take fo := by rw [List.take_take]; congr 1; omega
      have : w = w.take fo ++ (w.take e).drop fo ++ w.drop e := by
        rw [h1, List.take_append_drop, List.take_append_drop]
      conv_lhs => rw [this]
      simp only [List.append_assoc]
    refine result_of_parts ?_ rfl s3 s4 s5 hv s6 ?_ ?_ s7 s8
    · unfold sortWith; rw [if_pos hin, s1]; rfl
    · rw [List.length_append, lP, List.length_take, lM]; unfold idx; omega
    · rw [List.length_drop, List.length_take, lM]; unfold idx; omega

/-- **C25.** `sort` sorts every range of every vector, for every size of the memory, except the ranges of the next
theorem: those that are sorted externally, start inside a block and end at the end of a block. -/
theorem C25_sort {pick : Pick} {srt : List α → List α} {mf : Nat → Nat → Nat} (E : Env pick srt lt mf) {q : Par α}
    {d : D α} {vb R : List Nat} {fb fo lb lo : Nat} (p : Pre lt q d vb R fb fo lb lo)
    (hcase : ¬ External q fb fo lb lo ∨ fo = 0 ∨ lo ≠ 0) :
    Result lt q d vb R fb fo lb lo (sort pick srt lt mf q d vb fb fo lb lo) :=
  sortWith_spec (E.gen p.B) p hcase

theorem sortWith_undefined {pick : Pick} {srt : List α → List α}
    {sb : Nat → D α → List Nat → Option (Run α × D α)} {q : Par α} (E : Gen pick srt lt sb q.B (q.M / q.fac / q.raw)) {d : D α} {vb R : List Nat} {fb fo lb : Nat}
    (p : Pre lt q d vb R fb fo lb 0) (hext : External q fb fo lb 0) (hfo : fo ≠ 0) :
    sortWith pick srt sb q d vb fb fo lb 0 = none := by
  have hB := p.B
  have hle : fb * q.B + fo ≤ lb * q.B + 0 := p.le
  have hlast : lb * q.B + 0 ≤ vb.length * q.B := p.last
  have hfoB := p.first_off
  have hlblen : lb ≤ vb.length := by
    by_contra hc
    have : (vb.length + 1) * q.B ≤ lb * q.B := Nat.mul_le_mul_right _ (by omega)
    rw [Nat.add_mul, Nat.one_mul] at this
    omega
  obtain ⟨hm, hspan⟩ := sizes p hext
  have hspan' : q.M / q.fac / q.raw * q.B ≤ (lb * q.B + 0) - (fb * q.B + fo) := hspan
  have hfblt : fb < lb := by
    by_contra hc
    have := Nat.mul_le_mul_right q.B (Nat.not_lt.1 hc)
    omega
  have hmlt : q.M / q.fac / q.raw ≤ lb - fb := by
    have h1 : (lb - fb) * q.B + fb * q.B = lb * q.B := by rw [← Nat.add_mul]; congr 1; omega
    exact Nat.le_of_mul_le_mul_right (c := q.B) (by omega) hB
  have hdv : q.M / q.fac / q.raw / 2 < q.M / q.fac / q.raw := Nat.div_lt_self (by omega) (by omega)
  have hext' : ¬ ((lb * q.B + 0) - (fb * q.B + fo)) * q.sz * q.fac < q.M := Nat.not_lt.2 hext
  obtain ⟨P, M, S, rfl, hP, hM⟩ := split_two vb fb lb (by omega) hlblen
  subst hP
  have hMne : M ≠ [] := by
    rintro rfl
    simp at hM; omega
  obtain ⟨f, M, rfl⟩ := cons_of_length hMne
  have lf : (d.disk f).length = q.B := p.len f (by simp)
  obtain ⟨fn, d1, n1, n2, n3⟩ := newBlocks_one E.pick p.own
  obtain ⟨d3, w1, w2, w3, w4⟩ := wr_own n3 (b := fn) (by simp) (List.replicate fo q.minV ++ (d.disk f).drop fo)
  have hown : Own d3 (fn :: M) (P ++ (f :: (S ++ R))) := by
    refine w4.congr ?_
    permc
  have hnew : ∀ b ∈ P ++ (f :: M ++ S) ++ R, b ≠ fn := by
    intro b hb'
    have h8 := w4.nd
    simp only [List.cons_append, List.nodup_cons] at h8
    rintro rfl; exact h8.1 (by simpa using hb')
  have hM2 : M.length + 1 = lb - P.length := by simpa using hM
  obtain ⟨r, d5, s1, s2, s3, s4, s5, s6, s7⟩ := E.sb hm hown
    (by simp only [List.length_cons]; omega) (by
      intro b hb'
      simp only [List.mem_cons] at hb'
      rcases hb' with rfl | hb'
      · rw [w2]; simp [lf]; omega
      · rw [w3 b (hnew b (by simp [hb'])), n2]; exact p.len b (by simp [hb']))
  unfold sortWith
  rw [if_neg hext', if_neg (by have := p.mem; omega)]
  dsimp only
  have hset : (P ++ (f :: M ++ S)).set P.length fn = P ++ (fn :: (M ++ S)) := set_first P (M ++ S) f fn
  have hg : (P ++ (f :: M ++ S))[P.length]? = some f := get_first P M S f
  have hdt : ((P ++ (fn :: (M ++ S))).drop P.length).take (lb - P.length) = fn :: M := by
    have := drop_take P (fn :: M) S
    rw [← hM2]; simpa using this
  rw [if_pos hfo, if_neg (by omega), hg]
  dsimp only
  rw [rd_own p.own (b := f) (by simp), n1]
  dsimp only
  rw [w1]
  dsimp only
  rw [hset, hdt, s1]
  dsimp only
  have hr : r.length = lb - P.length := by rw [s6]; simpa using hM
  have hnone : r[lb - P.length]? = none := List.getElem?_eq_none (by omega)
  obtain ⟨fe, rest, rfl⟩ : ∃ fe rest, r = fe :: rest := by
    cases r with
    | nil => simp at hr; omega
    | cons a b => exact ⟨a, b, rfl⟩
  obtain ⟨d6, v1, v2, v3, v4⟩ := wr_own s2 (b := f) (by simp) ((d5.disk f).take fo ++ (d5.disk fe.1).drop fo)
  have hhd : (fe :: rest).head? = some fe := rfl
  rw [hhd]
  dsimp only
  rw [rd_own s2 (b := f) (by simp), rd_own s2 (b := fe.1) (by simp [bidsOf])]
  dsimp only
  rw [v1]
  dsimp only
  have hmem : fe.1 ∈ d6.live := v4.mem.2 (by simp [bidsOf])
  simp only [del, hmem, if_true]
  rw [hnone]

/-! ## Non-vacuity: a vector of 4 blocks of 2 elements, memory for 2 blocks -/

namespace Ex

/-- **C25, the excluded case.** A range that is sorted externally, starts inside a block and ends at the end of a block:
the assignment `*cur_bid = (*it).bid` after the loop (`sort.h:889`) reads one past the end of the sorted run and
writes the id of the block after the range. The behaviour is undefined, for every such input. -/
theorem C25_unaligned_first_aligned_last_is_undefined {pick : Pick} {srt : List α → List α} {mf : Nat → Nat → Nat}
    (E : Env pick srt lt mf) {q : Par α} {d : D α} {vb R : List Nat} {fb fo lb : Nat}
    (p : Pre lt q d vb R fb fo lb 0) (hext : External q fb fo lb 0) (hfo : fo ≠ 0) :
    sort pick srt lt mf q d vb fb fo lb 0 = none :=
  sortWith_undefined (E.gen p.B) p hext hfo


def ltN : Nat → Nat → Bool := fun a b => decide (a < b)
/-- Allocate behind the largest live block. -/
def pick : Pick := fun _ l n => (List.range n).map (· + (l.foldr max 0 + 1))
def srt : List Nat → List Nat := fun l => l.mergeSort fun a b => !ltN b a
def q : Par Nat := { B := 2, sz := 8, raw := 16, fac := 1, M := 32, minV := 0, maxV := 100 }
def d : D Nat := { disk := fun b => [[9, 3], [7, 5], [8, 2], [6, 1]].getD b [], live := [7, 0, 1, 2, 3], clk := 0 }

theorem le_foldr : ∀ (l : List Nat) (b : Nat), b ∈ l → b ≤ l.foldr max 0 := by
  intro l
  induction l with
  | nil => intro b h; simp at h
  | cons a l ih =>
    intro b h
    simp only [List.mem_cons] at h
    simp only [List.foldr_cons]
    rcases h with rfl | h
    · omega
    · have := ih b h; omega

theorem env : Env pick srt ltN (fun _ _ => 2) where
  pick := {
    len := by intro c l n; simp [pick]
    nodup := by
      intro c l n
      unfold pick
      refine List.Nodup.map ?_ List.nodup_range
      intro a b h; simpa using h
    fresh := by
      intro c l n b hb hl
      simp only [pick, List.mem_map] at hb
      obtain ⟨i, _, rfl⟩ := hb
      have := le_foldr l _ hl
      omega }
  srt := {
    sorted := by
      intro l
      have := List.pairwise_mergeSort (le := fun a b => !ltN b a) (by intro a b c; simp [ltN]; omega)
        (by intro a b; simp [ltN]; omega) l
      refine this.imp ?_
      intro a b h
      simpa using h
    perm := fun l => List.mergeSort_perm _ _ }
  swo := natSWO
  mf := by intros; omega

/-- The hypotheses of `C25_sort` hold with both ends inside blocks (range `[1,7)`), ... -/
theorem pre17 : Pre ltN q d [0, 1, 2, 3] [7] 0 1 3 1 where
  B := by decide
  sz := by decide
  raw := by decide
  fac := by decide
  own := ⟨by decide, by decide⟩
  len := by decide
  first_off := by decide
  last_off := by decide
  le := by decide
  last := by decide
  mem := by decide
  minmax := by decide
  sent := by decide

/-- ... with the end inside a block (range `[0,7)`), ... -/
theorem pre07 : Pre ltN q d [0, 1, 2, 3] [7] 0 0 3 1 where
  B := by decide
  sz := by decide
  raw := by decide
  fac := by decide
  own := ⟨by decide, by decide⟩
  len := by decide
  first_off := by decide
  last_off := by decide
  le := by decide
  last := by decide
  mem := by decide
  minmax := by decide
  sent := by decide

/-- ... and for the whole vector and for the excluded kind of range. -/
theorem pre_aligned (fo : Nat) (h : fo < 2) : Pre ltN q d [0, 1, 2, 3] [7] 0 fo 4 0 where
  B := by decide
  sz := by decide
  raw := by decide
  fac := by decide
  own := ⟨by decide, by decide⟩
  len := by decide
  first_off := h
  last_off := by decide
  le := by simp only [idx, q]; omega
  last := by decide
  mem := by decide
  minmax := by decide
  sent := by
    intro x hx
    have : x ∈ slice (vecData d [0, 1, 2, 3]) 0 8 := List.mem_of_mem_drop hx
    have hall : ∀ x ∈ slice (vecData d [0, 1, 2, 3]) 0 8,
      (ltN q.minV x = true ∨ x = q.minV) ∧ (ltN x q.maxV = true ∨ x = q.maxV) := by decide
    exact hall x this

example : External q 0 1 3 1 ∧ External q 0 0 3 1 ∧ External q 0 0 4 0 ∧ External q 0 1 4 0 := by
  unfold External; decide

example : Result ltN q d [0, 1, 2, 3] [7] 0 1 3 1 (sort pick srt ltN (fun _ _ => 2) q d [0, 1, 2, 3] 0 1 3 1) :=
  C25_sort env pre17 (Or.inr (Or.inr (by decide)))

example : Result ltN q d [0, 1, 2, 3] [7] 0 0 3 1 (sort pick srt ltN (fun _ _ => 2) q d [0, 1, 2, 3] 0 0 3 1) :=
  C25_sort env pre07 (Or.inr (Or.inl rfl))

example : Result ltN q d [0, 1, 2, 3] [7] 0 0 4 0 (sort pick srt ltN (fun _ _ => 2) q d [0, 1, 2, 3] 0 0 4 0) :=
  C25_sort env (pre_aligned 0 (by decide)) (Or.inr (Or.inl rfl))

example : sort pick srt ltN (fun _ _ => 2) q d [0, 1, 2, 3] 0 1 4 0 = none :=
  C25_unaligned_first_aligned_last_is_undefined env (pre_aligned 1 (by decide)) (by unfold External; decide) (by decide)

end Ex

end Stxxl.Srt
