import Verif.Sort.Cases

/-! # The other alignment cases of `sort`, and the in-memory sort -/

namespace Stxxl.Srt

variable {α : Type} {lt : α → α → Bool}

/-- Only the end of the range inside a block. -/
theorem sort_last {pick : Pick} {srt : List α → List α} {sb : Nat → D α → List Nat → Option (Run α × D α)} (q : Par α)
    (E : Gen pick srt lt sb q.B (q.M / q.fac / q.raw))
    (hB : 0 < q.B) {d : D α} {P M S R : List Nat} {l : Nat} {lo : Nat}
    (hlo : 0 < lo) (hlB : lo < q.B) (h : Own d (P ++ (M ++ l :: S)) R)
    (hb : ∀ b ∈ P ++ (M ++ l :: S), (d.disk b).length = q.B)
    (hext : ¬ (((P.length + M.length) * q.B + lo) - (P.length * q.B + 0)) * q.sz * q.fac < q.M)
    (hmem : 2 * q.raw * q.fac ≤ q.M) (hm : 2 ≤ q.M / q.fac / q.raw) (hn : q.M / q.fac / q.raw ≤ M.length + 1)
    (hmm : lt q.minV q.maxV = true)
    (hsent : ∀ x ∈ vecData d M ++ (d.disk l).take lo,
      (lt q.minV x = true ∨ x = q.minV) ∧ (lt x q.maxV = true ∨ x = q.maxV)) :
    ∃ M' d' mid', sortWith pick srt sb q d (P ++ (M ++ l :: S)) P.length 0 (P.length + M.length) lo
        = some (P ++ (M' ++ l :: S), d') ∧ M'.length = M.length ∧ Own d' (P ++ (M' ++ l :: S)) R ∧
      (∀ b ∈ R, d'.disk b = d.disk b) ∧ (∀ b ∈ P ++ (M' ++ l :: S), (d'.disk b).length = q.B) ∧
      vecData d' (P ++ (M' ++ l :: S))
        = vecData d P ++ mid' ++ ((d.disk l).drop lo ++ vecData d S) ∧
      Sorted lt mid' ∧ mid'.Perm (vecData d M ++ (d.disk l).take lo) := by
  have hll : (d.disk l).length = q.B := hb l (by simp)
  obtain ⟨ln, d2, n4, n5, n6⟩ := newBlocks_one E.pick h
  obtain ⟨d4, w5, w6, w7, w8⟩ := wr_own n6 (b := ln) (by simp) ((d.disk l).take lo ++ List.replicate (q.B - lo) q.maxV)
  have hnew : ∀ b ∈ P ++ (M ++ l :: S) ++ R, b ≠ ln := by
    intro b hb'
    have h8 := w8.nd
    simp only [List.cons_append, List.nodup_cons] at h8
    rintro rfl; exact h8.1 hb'
  have hd4 : ∀ b ∈ P ++ (M ++ l :: S) ++ R, d4.disk b = d.disk b := by
    intro b hb'
    rw [w7 b (hnew b hb'), n5]
  have hown : Own d4 (M ++ [ln]) (P ++ (l :: (S ++ R))) := by
    refine w8.congr ?_
    permc
  have hd4M : vecData d4 M = vecData d M := vecData_congr (fun b hb' => hd4 b (by simp [hb']))
  obtain ⟨r, d5, s1, s2, s3, s4, s5, s6, s7⟩ := E.sb hm hown
    (by simp; omega) (by
      intro b hb'
      simp only [List.mem_cons, List.mem_append, List.not_mem_nil, or_false] at hb'
      rcases hb' with hb' | rfl
      · rw [hd4 b (by simp [hb'])]; exact hb b (by simp [hb'])
      · rw [w6]; simp [hll]; omega)
  have hrl : r.length = M.length + 1 := by rw [s6]; simp
  obtain ⟨mm, le, rfl⟩ : ∃ mm le, r = mm ++ [le] := by
    rcases List.eq_nil_or_concat r with rfl | ⟨mm, le, e⟩
    · simp at hrl
    · exact ⟨mm, le, by simpa using e⟩
  have hml : mm.length = M.length := by simp at hrl; omega
  have hbo : bidsOf (mm ++ [le]) = bidsOf mm ++ [le.1] := by simp [bidsOf]
  rw [hbo] at s2
  have hcont : runData d5 (mm ++ [le]) = vecData d5 (bidsOf mm) ++ d5.disk le.1 := by
    rw [runData_vec, hbo, vecData_append, vecData_cons]; simp [vecData]
  have hle := (s3 le (by simp)).1
  have hd5 : ∀ b ∈ P ++ (l :: (S ++ R)), d5.disk b = d.disk b := by
    intro b hb'
    rw [s7 b hb']
    apply hd4
    simp at hb' ⊢; tauto
  have hinp : ((M ++ [ln]).map d4.disk).flatten
      = List.replicate 0 q.minV ++ (vecData d M ++ (d.disk l).take lo) ++ List.replicate (q.B - lo) q.maxV := by
    have : ((M ++ [ln]).map d4.disk).flatten = vecData d4 M ++ d4.disk ln := by
      simp [vecData]
    rw [this, hd4M, w6]; simp
  rw [hinp] at s5
  obtain ⟨mid', t1, t2⟩ := sentinel E.swo s4 s5 (Or.inr (Or.inr hmm)) (fun _ x hx => (hsent x hx).1) (fun _ x hx => (hsent x hx).2)
  have hmid : mid' = vecData d5 (bidsOf mm) ++ (d5.disk le.1).take lo := by
    rw [hcont] at t1
    have hlen := congrArg List.length t1
    simp only [List.length_append, List.length_replicate, hle] at hlen
    simp only [List.replicate_zero, List.nil_append] at t1
    have h2 := congrArg (List.take mid'.length) t1
    rw [List.take_left' rfl] at h2
    refine h2.symm.trans ?_
    have hl : mid'.length = (vecData d5 (bidsOf mm)).length + lo := by
      omega
    rw [hl, List.take_length_add_append]
  have hmids : Sorted lt mid' := by
    rw [t1] at s4
    exact (List.pairwise_append.1 (List.pairwise_append.1 s4).1).2.1
  obtain ⟨d7, v5, v6, v7, v8⟩ := wr_own s2 (b := l) (by simp) ((d5.disk le.1).take lo ++ (d.disk l).drop lo)
  obtain ⟨d8, u1, u2, u3⟩ := delAll_own [le.1] (X := bidsOf mm) (R := P ++ (l :: (S ++ R)))
    (v8.congr (by permc))
  have u1' : del d7 le.1 = some d8 := by
    simp only [delAll] at u1
    revert u1
    cases del d7 le.1 <;> simp
  have hd8 : ∀ b, b ≠ l → d8.disk b = d5.disk b := by
    intro b h2; rw [u2, v7 b h2]
  have hndall := h.nd
  have hneq : ∀ b ∈ P ++ (S ++ R), b ≠ l := by
    intro b hb'
    have h2 := List.nodup_iff_count_le_one.1 hndall l
    have hpos := List.count_pos_iff.2 hb'
    rintro rfl
    simp only [List.count_append, List.count_cons, beq_self_eq_true, if_true] at h2 hpos
    omega
  have hmmne : ∀ b ∈ bidsOf mm, b ≠ l := by
    intro b hb'
    rintro rfl; exact s2.disj (b := b) (by simp [hb']) (by simp)
  refine ⟨bidsOf mm, d8, mid', ?_, by simp [bidsOf, hml], u3.congr (by permc), ?_, ?_, ?_, hmids, t2⟩
  · unfold sortWith
    have e1 : P.length + M.length - P.length = M.length := by omega
    have hg2 : (P ++ (M ++ l :: S))[P.length + M.length]? = some l := get_second P M S l
    have hset : (P ++ (M ++ l :: S)).set (P.length + M.length) ln = P ++ (M ++ ln :: S) := set_second P M S l ln
    have hdt : ((P ++ (M ++ ln :: S)).drop P.length).take (M.length + 1) = M ++ [ln] := by
      have := drop_take P (M ++ [ln]) S
      simpa using this
    have hrl' : rd d l = some (d.disk l) := rd_own h (by simp)
    rw [if_neg hext, if_neg (by omega)]
    dsimp only
    rw [if_neg (by omega), if_pos (by omega), hg2]
    dsimp only
    rw [hrl', n4]
    dsimp only
    rw [w5]
    dsimp only
    rw [hset, e1, hdt, s1]
    dsimp only
    have hgl : (mm ++ [le]).getLast? = some le := List.getLast?_concat
    rw [hgl]
    dsimp only
    rw [rd_own s2 (b := l) (by simp), rd_own s2 (b := le.1) (by simp), hd5 l (by simp)]
    dsimp only
    rw [v5]
    dsimp only
    rw [u1']
    dsimp only
    have hmap : ((mm ++ [le]).map (·.1)).take M.length = bidsOf mm := by
      simp only [bidsOf, List.map_append]
      rw [List.take_append_of_le_length (by simp [hml]), List.take_of_length_le (by simp [hml])]
    rw [hmap]
    have := setBids_eq P (M ++ [l]) (bidsOf mm ++ [l]) S (by simp [bidsOf, hml])
    simp only [List.append_assoc, List.cons_append, List.nil_append] at this ⊢
    rw [this]
  · intro b hb'
    rw [hd8 b (hneq b (by simp [hb'])), hd5 b (by simp [hb'])]
  · intro b hb'
    simp only [List.mem_append, List.mem_cons] at hb'
    by_cases hbl : b = l
    · subst hbl; rw [u2, v6]; simp [hll, hle]; omega
    rw [hd8 b hbl]
    rcases hb' with hb' | hb' | hb' | hb'
    · rw [hd5 b (by simp [hb'])]; exact hb b (by simp [hb'])
    · obtain ⟨e, he, rfl⟩ := List.mem_map.1 hb'
      exact (s3 e (by simp [he])).1
    · exact absurd hb' hbl
    · rw [hd5 b (by simp [hb'])]; exact hb b (by simp [hb'])
  · rw [vecData_append, vecData_append, vecData_cons]
    have e1 : vecData d8 P = vecData d P := vecData_congr (fun b hb' => by
      rw [hd8 b (hneq b (by simp [hb'])), hd5 b (by simp [hb'])])
    have e2 : vecData d8 S = vecData d S := vecData_congr (fun b hb' => by
      rw [hd8 b (hneq b (by simp [hb'])), hd5 b (by simp [hb'])])
    have e3 : vecData d8 (bidsOf mm) = vecData d5 (bidsOf mm) := vecData_congr (fun b hb' =>
      hd8 b (hmmne b hb'))
    rw [e1, e2, e3, u2, v6, hmid]
    simp only [List.append_assoc]

/-- Block-aligned range. -/
theorem sort_aligned {pick : Pick} {srt : List α → List α} {sb : Nat → D α → List Nat → Option (Run α × D α)} (q : Par α)
    (E : Gen pick srt lt sb q.B (q.M / q.fac / q.raw))
    (hB : 0 < q.B) {d : D α} {P M S R : List Nat} (h : Own d (P ++ (M ++ S)) R)
    (hb : ∀ b ∈ P ++ (M ++ S), (d.disk b).length = q.B)
    (hext : ¬ (((P.length + M.length) * q.B + 0) - (P.length * q.B + 0)) * q.sz * q.fac < q.M)
    (hmem : 2 * q.raw * q.fac ≤ q.M) (hm : 2 ≤ q.M / q.fac / q.raw) (hn : q.M / q.fac / q.raw ≤ M.length) :
    ∃ M' d' mid', sortWith pick srt sb q d (P ++ (M ++ S)) P.length 0 (P.length + M.length) 0
        = some (P ++ (M' ++ S), d') ∧ M'.length = M.length ∧ Own d' (P ++ (M' ++ S)) R ∧
      (∀ b ∈ R, d'.disk b = d.disk b) ∧ (∀ b ∈ P ++ (M' ++ S), (d'.disk b).length = q.B) ∧
      vecData d' (P ++ (M' ++ S)) = vecData d P ++ mid' ++ vecData d S ∧
      Sorted lt mid' ∧ mid'.Perm (vecData d M) := by
  obtain ⟨r, d5, s1, s2, s3, s4, s5, s6, s7⟩ := E.sb hm
    (h.congr (X' := M) (R' := P ++ (S ++ R)) (by permc)) hn (fun b hb' => hb b (by simp [hb']))
  refine ⟨bidsOf r, d5, runData d5 r, ?_, by simp [bidsOf, s6], s2.congr (by permc), fun b hb' => s7 b (by simp [hb']), ?_, ?_, s4, s5⟩
  · unfold sortWith
    have e1 : P.length + M.length - P.length = M.length := by omega
    rw [if_neg hext, if_neg (by omega)]
    dsimp only
    rw [if_neg (by omega), if_neg (by omega), e1, drop_take, s1]
    dsimp only
    have hmap : (r.map (·.1)).take M.length = bidsOf r := by
      rw [List.take_of_length_le (by simp [s6])]; rfl
    rw [hmap, setBids_eq P M (bidsOf r) S (by simp [bidsOf, s6])]
  · intro b hb'
    simp only [List.mem_append] at hb'
    rcases hb' with hb' | hb' | hb'
    · rw [s7 b (by simp [hb'])]; exact hb b (by simp [hb'])
    · obtain ⟨e, he, rfl⟩ := List.mem_map.1 hb'
      exact (s3 e he).1
    · rw [s7 b (by simp [hb'])]; exact hb b (by simp [hb'])
  · rw [vecData_append, vecData_append, runData_vec]
    have e1 : vecData d5 P = vecData d P := vecData_congr (fun b hb' => s7 b (by simp [hb']))
    have e2 : vecData d5 S = vecData d S := vecData_congr (fun b hb' => s7 b (by simp [hb']))
    rw [e1, e2]; simp only [List.append_assoc]

theorem writeAll_spec : ∀ (out : List Nat) (blocks : List (List α)) (d : D α),
    blocks.length = out.length → out.Nodup → (∀ b ∈ out, b ∈ d.live) →
    ∃ d', inMem.writeAll d out blocks = some d' ∧ d'.live = d.live ∧
      (∀ b, b ∉ out → d'.disk b = d.disk b) ∧ out.map d'.disk = blocks := by
  intro out
  induction out with
  | nil =>
    intro blocks d hl _ _
    simp at hl; subst hl
    exact ⟨d, rfl, rfl, fun _ _ => rfl, rfl⟩
  | cons b out ih =>
    intro blocks d hl hnd hlive
    cases blocks with
    | nil => simp at hl
    | cons x xs =>
      have hnd' := List.nodup_cons.1 hnd
      obtain ⟨d', h1, h2, h3, h4⟩ := ih xs { d with disk := LT.upd d.disk b x } (by simpa using hl) hnd'.2
        (fun c hc => hlive c (by simp [hc]))
      refine ⟨d', ?_, h2, ?_, ?_⟩
      · simp only [inMem.writeAll, wr, hlive b (by simp), if_true]; exact h1
      · intro c hc
        simp only [List.mem_cons, not_or] at hc
        rw [h3 c hc.2]; exact upd_ne _ _ hc.1
      · rw [List.map_cons, h4, h3 b hnd'.1]
        show LT.upd d.disk b x b :: xs = _
        rw [upd_same]

/-- The in-memory sort of a range that touches exactly the blocks `M`. -/
theorem inMem_spec {srt : List α → List α} (hs : SortFn lt srt) {B : Nat} {d : D α} {P M S R : List Nat}
    {fo lo lb : Nat} (hlB : lo < B) (h : Own d (P ++ (M ++ S)) R)
    (hb : ∀ b ∈ P ++ (M ++ S), (d.disk b).length = B)
    (hM : M.length = lb - P.length + if lo ≠ 0 then 1 else 0) (hle : P.length ≤ lb)
    (hfl : fo ≤ (lb - P.length) * B + lo) :
    ∃ d' mid', inMem srt B d (P ++ (M ++ S)) P.length fo lb lo = some d' ∧ Own d' (P ++ (M ++ S)) R ∧
      (∀ b ∈ R, d'.disk b = d.disk b) ∧ (∀ b ∈ P ++ (M ++ S), (d'.disk b).length = B) ∧
      vecData d' (P ++ (M ++ S)) = (vecData d P ++ (vecData d M).take fo) ++ mid' ++
        ((vecData d M).drop ((lb - P.length) * B + lo) ++ vecData d S) ∧
      Sorted lt mid' ∧ mid'.Perm (((vecData d M).take ((lb - P.length) * B + lo)).drop fo) := by
  have hrd := rdAll_own M (d := d) (fun b hb' => h.mem.2 (by simp [hb']))
  have hlenM : (vecData d M).length = M.length * B := by
    unfold vecData
    rw [List.length_flatten, List.map_map]
    have : (M.map (List.length ∘ d.disk)) = List.replicate M.length B := by
      rw [List.eq_replicate_iff]
      refine ⟨by simp, ?_⟩
      intro n hn
      obtain ⟨b, hb', rfl⟩ := List.mem_map.1 hn
      exact hb b (by simp [hb'])
    rw [this]; simp
  have he : M.length * B - (if lo ≠ 0 then B - lo else 0) = (lb - P.length) * B + lo := by
    rw [hM]
    by_cases h0 : lo = 0
    · simp [h0]
    · rw [if_pos h0, if_pos h0, Nat.add_mul, Nat.one_mul]; omega
  have hele : (lb - P.length) * B + lo ≤ M.length * B := by omega
  generalize hE : (lb - P.length) * B + lo = e at *
  have hl' : ((vecData d M).take fo ++ srt (((vecData d M).take e).drop fo) ++ (vecData d M).drop e).length = M.length * B := by
    have := (hs.perm (((vecData d M).take e).drop fo)).length_eq
    simp only [List.length_append, this, List.length_take, List.length_drop, hlenM]
    omega
  have hndM : M.Nodup := by
    have := h.ndX
    exact (List.nodup_append.1 (List.nodup_append.1 this).2.1).1
  obtain ⟨d', w1, w2, w3, w4⟩ := writeAll_spec M (toBlocks B M.length _) d (toBlocks_length B M.length
    ((vecData d M).take fo ++ srt (((vecData d M).take e).drop fo) ++ (vecData d M).drop e)) hndM
    (fun b hb' => h.mem.2 (by simp [hb']))
  have hv : vecData d' M = (vecData d M).take fo ++ srt (((vecData d M).take e).drop fo) ++ (vecData d M).drop e := by
    unfold vecData at *
    rw [w4, toBlocks_flatten _ _ _ hl']
  have hnd := h.nd
  have hout : ∀ b ∈ P ++ (S ++ R), b ∉ M := by
    intro b hb' hbM
    have h2 := List.nodup_iff_count_le_one.1 hnd b
    have hpos := List.count_pos_iff.2 hb'
    have hpos2 := List.count_pos_iff.2 hbM
    simp only [List.count_append] at h2 hpos
    omega
  refine ⟨d', srt (((vecData d M).take e).drop fo), ?_, h.of_live w2, ?_, ?_, ?_, hs.sorted _, hs.perm _⟩
  · unfold inMem
    dsimp only
    rw [← hM, drop_take, hrd]
    dsimp only
    rw [he]
    exact w1
  · intro b hb'; exact w3 b (hout b (by simp [hb']))
  · intro b hb'
    simp only [List.mem_append] at hb'
    rcases hb' with hb' | hb' | hb'
    · rw [w3 b (hout b (by simp [hb']))]; exact hb b (by simp [hb'])
    · have : d'.disk b ∈ toBlocks B M.length ((vecData d M).take fo ++ srt (((vecData d M).take e).drop fo) ++ (vecData d M).drop e) := by
        rw [← w4]; exact List.mem_map_of_mem hb'
      exact toBlocks_mem _ _ _ hl' _ this
    · rw [w3 b (hout b (by simp [hb']))]; exact hb b (by simp [hb'])
  · rw [vecData_append, vecData_append, hv]
    have e1 : vecData d' P = vecData d P := vecData_congr (fun b hb' => w3 b (hout b (by simp [hb'])))
    have e2 : vecData d' S = vecData d S := vecData_congr (fun b hb' => w3 b (hout b (by simp [hb'])))
    rw [e1, e2]; simp only [List.append_assoc]

end Stxxl.Srt
