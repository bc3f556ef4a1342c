import Verif.Sort.Sentinel

/-! # The alignment cases of `sort` -/

namespace Stxxl.Srt

variable {α : Type} {lt : α → α → Bool}

/-- The elements of a vector with these bids. -/
def vecData (d : D α) (vb : List Nat) : List α := (vb.map d.disk).flatten

theorem vecData_append (d : D α) (a b : List Nat) : vecData d (a ++ b) = vecData d a ++ vecData d b := by
  simp [vecData]

theorem vecData_cons (d : D α) (a : Nat) (b : List Nat) : vecData d (a :: b) = d.disk a ++ vecData d b := by
  simp [vecData]

theorem vecData_congr {d d' : D α} {l : List Nat} (h : ∀ b ∈ l, d'.disk b = d.disk b) : vecData d' l = vecData d l := by
  unfold vecData; rw [List.map_congr_left h]

theorem runData_vec (d : D α) (r : Run α) : runData d r = vecData d (bidsOf r) := runData_eq d r

/-- Assumptions about allocator, in-memory sort, comparator and parameters. -/
structure Env (pick : Pick) (srt : List α → List α) (lt : α → α → Bool) (mf : Nat → Nat → Nat) : Prop where
  pick : PickOk pick
  srt : SortFn lt srt
  swo : SWO lt
  mf : ∀ r m, 2 ≤ r → 2 ≤ m → 2 ≤ mf r m

/-- What is required of the function that sorts whole blocks: the given blocks are replaced by newly allocated ones with
the sorted contents. -/
def SbOk (lt : α → α → Bool) (B m : Nat) (sb : Nat → D α → List Nat → Option (Run α × D α)) : Prop :=
  2 ≤ m → ∀ {d : D α} {inp R : List Nat}, Own d inp R → m ≤ inp.length → (∀ b ∈ inp, (d.disk b).length = B) →
    ∃ r d', sb m d inp = some (r, d') ∧ Own d' (bidsOf r) R ∧ Trig B d' r ∧
      Sorted lt (runData d' r) ∧ (runData d' r).Perm (inp.map d.disk).flatten ∧ r.length = inp.length ∧
      (∀ b ∈ R, d'.disk b = d.disk b)

/-- Assumptions about allocator, in-memory sort, comparator and block sort. -/
structure Gen (pick : Pick) (srt : List α → List α) (lt : α → α → Bool) (sb : Nat → D α → List Nat → Option (Run α × D α))
    (B m : Nat) : Prop where
  pick : PickOk pick
  srt : SortFn lt srt
  swo : SWO lt
  sb : SbOk lt B m sb

theorem Env.gen {pick : Pick} {srt : List α → List α} {mf : Nat → Nat → Nat} (E : Env pick srt lt mf) {B m : Nat} (hB : 0 < B) :
    Gen pick srt lt (sortBlocks pick srt lt B mf) B m :=
  ⟨E.pick, E.srt, E.swo, fun hm _ _ _ hown hn hb =>
    sortBlocks_spec E.pick E.srt E.swo hB E.mf hm hown (by omega) hb⟩

theorem newBlocks_one {pick : Pick} (hp : PickOk pick) {d : D α} {X R : List Nat} (h : Own d X R) :
    ∃ b d', newBlocks pick 1 d = ([b], d') ∧ d'.disk = d.disk ∧ Own d' (b :: X) R := by
  obtain ⟨a1, a2, a3⟩ := newBlocks_own hp h 1
  obtain ⟨b, hb⟩ := List.length_eq_one_iff.1 a1
  refine ⟨b, (newBlocks pick 1 d).2, ?_, a2, ?_⟩
  · rw [← hb]
  · rw [hb] at a3; exact a3

theorem wr_own {d : D α} {X R : List Nat} (h : Own d X R) {b : Nat} (hb : b ∈ X ∨ b ∈ R) (x : List α) :
    ∃ d', wr d b x = some d' ∧ d'.disk b = x ∧ (∀ c, c ≠ b → d'.disk c = d.disk c) ∧ Own d' X R := by
  refine ⟨{ d with disk := LT.upd d.disk b x }, ?_, upd_same _ _ _, fun c hc => upd_ne _ _ hc, h.of_live rfl⟩
  simp [wr, h.mem.2 hb]

theorem rd_own {d : D α} {X R : List Nat} (h : Own d X R) {b : Nat} (hb : b ∈ X ∨ b ∈ R) : rd d b = some (d.disk b) := by
  simp [rd, h.mem.2 hb]

section lists
variable {β : Type}

theorem get_first (P M S : List β) (f : β) : (P ++ f :: (M ++ S))[P.length]? = some f := by simp

theorem get_second (P M S : List β) (l : β) : (P ++ (M ++ l :: S))[P.length + M.length]? = some l := by
  rw [← List.append_assoc, ← List.length_append]; simp

theorem set_first (P S : List β) (f x : β) : (P ++ f :: S).set P.length x = P ++ x :: S := by
  simp

theorem set_second (P M S : List β) (l x : β) :
    (P ++ (M ++ l :: S)).set (P.length + M.length) x = P ++ (M ++ x :: S) := by
  rw [← List.append_assoc, ← List.length_append, set_first, List.append_assoc]

theorem drop_take (P M S : List β) : ((P ++ (M ++ S)).drop P.length).take M.length = M := by simp

end lists

theorem setBids_eq (P M M' S : List Nat) (h : M'.length = M.length) : setBids (P ++ (M ++ S)) P.length M' = P ++ (M' ++ S) := by
  unfold setBids
  rw [h, List.take_left', ← List.append_assoc P M S, ← List.length_append, List.drop_left, List.append_assoc]
  rfl

theorem Own.ne_of_mem {d : D α} {X R : List Nat} (h : Own d X R) {a b : Nat} (ha : a ∈ X) (hb : b ∈ R) : a ≠ b := by
  rintro rfl; exact h.disj ha hb

/-- Both ends inside blocks. -/
theorem sort_both {pick : Pick} {srt : List α → List α} {sb : Nat → D α → List Nat → Option (Run α × D α)} (q : Par α)
    (E : Gen pick srt lt sb q.B (q.M / q.fac / q.raw))
    (hB : 0 < q.B) {d : D α} {P M S R : List Nat} {f l : Nat} {fo lo : Nat} (hfo : 0 < fo) (hfB : fo < q.B)
    (hlo : 0 < lo) (hlB : lo < q.B) (h : Own d (P ++ (f :: (M ++ l :: S))) R)
    (hb : ∀ b ∈ P ++ (f :: (M ++ l :: S)), (d.disk b).length = q.B)
    (hext : ¬ (((P.length + (M.length + 1)) * q.B + lo) - (P.length * q.B + fo)) * q.sz * q.fac < q.M)
    (hmem : 2 * q.raw * q.fac ≤ q.M) (hm : 2 ≤ q.M / q.fac / q.raw) (hn : q.M / q.fac / q.raw ≤ M.length + 2)
    (hmm : lt q.minV q.maxV = true)
    (hsent : ∀ x ∈ (d.disk f).drop fo ++ vecData d M ++ (d.disk l).take lo,
      (lt q.minV x = true ∨ x = q.minV) ∧ (lt x q.maxV = true ∨ x = q.maxV)) :
    ∃ M' d' mid', sortWith pick srt sb q d (P ++ (f :: (M ++ l :: S))) P.length fo (P.length + (M.length + 1)) lo
        = some (P ++ (f :: (M' ++ l :: S)), d') ∧ M'.length = M.length ∧ Own d' (P ++ (f :: (M' ++ l :: S))) R ∧
      (∀ b ∈ R, d'.disk b = d.disk b) ∧ (∀ b ∈ P ++ (f :: (M' ++ l :: S)), (d'.disk b).length = q.B) ∧
      vecData d' (P ++ (f :: (M' ++ l :: S)))
        = (vecData d P ++ (d.disk f).take fo) ++ mid' ++ ((d.disk l).drop lo ++ vecData d S) ∧
      Sorted lt mid' ∧ mid'.Perm ((d.disk f).drop fo ++ vecData d M ++ (d.disk l).take lo) := by
  have hfl : (d.disk f).length = q.B := hb f (by simp)
  have hll : (d.disk l).length = q.B := hb l (by simp)
  -- allocation of the two temporary blocks
  obtain ⟨fn, d1, n1, n2, n3⟩ := newBlocks_one E.pick h
  obtain ⟨ln, d2, n4, n5, n6⟩ := newBlocks_one E.pick n3
  obtain ⟨d3, w1, w2, w3, w4⟩ := wr_own n6 (b := fn) (by simp) (List.replicate fo q.minV ++ (d.disk f).drop fo)
  obtain ⟨d4, w5, w6, w7, w8⟩ := wr_own w4 (b := ln) (by simp) ((d.disk l).take lo ++ List.replicate (q.B - lo) q.maxV)
  have hnd := w8.ndX
  have hfnln : fn ≠ ln := by
    intro e; subst e; simp at hnd
  have hnew : ∀ b ∈ P ++ (f :: (M ++ l :: S)) ++ R, b ≠ fn ∧ b ≠ ln := by
    intro b hb'
    have h8 := w8.nd
    simp only [List.cons_append, List.nodup_cons, List.mem_cons, not_or] at h8
    constructor
    · rintro rfl; exact h8.2.1 hb'
    · rintro rfl; exact h8.1.2 hb'
  have hd4 : ∀ b ∈ P ++ (f :: (M ++ l :: S)) ++ R, d4.disk b = d.disk b := by
    intro b hb'
    rw [w7 b (hnew b hb').2, w3 b (hnew b hb').1, n5, n2]
  have hown : Own d4 (fn :: (M ++ [ln])) (P ++ (f :: l :: (S ++ R))) := by
    refine w8.congr ?_
    permc
  have hd4fn : d4.disk fn = List.replicate fo q.minV ++ (d.disk f).drop fo := by rw [w7 fn hfnln, w2]
  have hd4M : vecData d4 M = vecData d M := vecData_congr (fun b hb' => hd4 b (by simp [hb']))
  obtain ⟨r, d5, s1, s2, s3, s4, s5, s6, s7⟩ := E.sb hm hown
    (by simp; omega) (by
      intro b hb'
      simp only [List.mem_cons, List.mem_append, List.not_mem_nil, or_false] at hb'
      rcases hb' with rfl | hb' | rfl
      · rw [hd4fn]; simp [hfl]; omega
      · rw [hd4 b (by simp [hb'])]; exact hb b (by simp [hb'])
      · rw [w6]; simp [hll]; omega)
  -- the shape of the result
  have hrl : r.length = M.length + 2 := by rw [s6]; simp
  obtain ⟨fe, rest, rfl⟩ : ∃ fe rest, r = fe :: rest := by
    cases r with
    | nil => simp at hrl
    | cons a b => exact ⟨a, b, rfl⟩
  obtain ⟨mm, le, rfl⟩ : ∃ mm le, rest = mm ++ [le] := by
    rcases List.eq_nil_or_concat rest with rfl | ⟨mm, le, e⟩
    · simp at hrl
    · exact ⟨mm, le, by simpa using e⟩
  have hml : mm.length = M.length := by simp at hrl; omega
  have hbo : bidsOf (fe :: (mm ++ [le])) = fe.1 :: (bidsOf mm ++ [le.1]) := by simp [bidsOf]
  rw [hbo] at s2
  have hcont : runData d5 (fe :: (mm ++ [le])) = d5.disk fe.1 ++ vecData d5 (bidsOf mm) ++ d5.disk le.1 := by
    rw [runData_vec, hbo, vecData_cons, vecData_append, vecData_cons]; simp [vecData]
  have hfe := (s3 fe (by simp)).1
  have hle := (s3 le (by simp)).1
  have hd5 : ∀ b ∈ P ++ (f :: l :: (S ++ R)), d5.disk b = d.disk b := by
    intro b hb'
    rw [s7 b hb']
    apply hd4
    simp at hb' ⊢; tauto
  -- sentinels
  have hinp : ((fn :: (M ++ [ln])).map d4.disk).flatten
      = List.replicate fo q.minV ++ ((d.disk f).drop fo ++ vecData d M ++ (d.disk l).take lo) ++ List.replicate (q.B - lo) q.maxV := by
    have : ((fn :: (M ++ [ln])).map d4.disk).flatten = d4.disk fn ++ vecData d4 M ++ d4.disk ln := by
      simp [vecData]
    rw [this, hd4fn, hd4M, w6]; simp
  rw [hinp] at s5
  obtain ⟨mid', t1, t2⟩ := sentinel E.swo s4 s5 (Or.inr (Or.inr hmm)) (fun _ x hx => (hsent x hx).1) (fun _ x hx => (hsent x hx).2)
  have hmid : mid' = (d5.disk fe.1).drop fo ++ vecData d5 (bidsOf mm) ++ (d5.disk le.1).take lo := by
    rw [hcont] at t1
    have hlen := congrArg List.length t1
    simp only [List.length_append, List.length_replicate, hfe, hle] at hlen
    have h1 := congrArg (List.drop fo) t1
    rw [List.append_assoc, List.drop_append_of_le_length (by omega), List.append_assoc, List.drop_left' (by simp)] at h1
    have h2 := congrArg (List.take mid'.length) h1
    rw [List.take_left' rfl] at h2
    refine h2.symm.trans ?_
    have hl : mid'.length = ((d5.disk fe.1).drop fo ++ vecData d5 (bidsOf mm)).length + lo := by
      simp only [List.length_append, List.length_drop, hfe]; omega
    rw [← List.append_assoc, hl, List.take_length_add_append]
  have hmids : Sorted lt mid' := by
    rw [t1] at s4
    exact (List.pairwise_append.1 (List.pairwise_append.1 s4).1).2.1
  -- write back
  obtain ⟨d6, v1, v2, v3, v4⟩ := wr_own s2 (b := f) (by simp) ((d.disk f).take fo ++ (d5.disk fe.1).drop fo)
  obtain ⟨d7, v5, v6, v7, v8⟩ := wr_own v4 (b := l) (by simp) ((d5.disk le.1).take lo ++ (d.disk l).drop lo)
  have hfl' : f ≠ l := by
    have := h.ndX
    rw [List.nodup_append] at this
    have := this.2.1
    simp only [List.nodup_cons, List.mem_append, List.mem_cons, not_or] at this
    exact this.1.2.1
  obtain ⟨d8, u1, u2, u3⟩ := delAll_own [fe.1, le.1] (X := bidsOf mm) (R := P ++ (f :: l :: (S ++ R)))
    (v8.congr (by permc))
  have hd8 : ∀ b, b ≠ f → b ≠ l → d8.disk b = d5.disk b := by
    intro b h1 h2; rw [u2, v7 b h2, v3 b h1]
  have hndall := h.nd
  have hneq : ∀ b ∈ P ++ (S ++ R), b ≠ f ∧ b ≠ l := by
    intro b hb'
    have hc := List.nodup_iff_count_le_one.1 hndall
    have h1 := hc f
    have h2 := hc l
    have hpos := List.count_pos_iff.2 hb'
    constructor
    · rintro rfl
      simp only [List.count_append, List.count_cons, beq_self_eq_true, if_true] at h1 hpos
      omega
    · rintro rfl
      simp only [List.count_append, List.count_cons, beq_self_eq_true, if_true] at h2 hpos
      omega
  have hmmne : ∀ b ∈ bidsOf mm, b ≠ f ∧ b ≠ l := by
    intro b hb'
    constructor
    · rintro rfl; exact s2.disj (b := b) (by simp [hb']) (by simp)
    · rintro rfl; exact s2.disj (b := b) (by simp [hb']) (by simp)
  refine ⟨bidsOf mm, d8, mid', ?_, by simp [bidsOf, hml], u3.congr (by permc), ?_, ?_, ?_, hmids, t2⟩
  · unfold sortWith
    have e1 : P.length + (M.length + 1) - P.length = M.length + 1 := by omega
    have hg2 : (P ++ (f :: (M ++ l :: S)))[P.length + (M.length + 1)]? = some l := get_second P (f :: M) S l
    have hset : ((P ++ (f :: (M ++ l :: S))).set P.length fn).set (P.length + (M.length + 1)) ln = P ++ (fn :: (M ++ ln :: S)) := by
      rw [set_first]; exact set_second P (fn :: M) S l ln
    have hdt : ((P ++ (fn :: (M ++ ln :: S))).drop P.length).take (M.length + 1 + 1) = fn :: (M ++ [ln]) := by
      have := drop_take P (fn :: (M ++ [ln])) S
      simpa using this
    have hrf : rd d f = some (d.disk f) := rd_own h (by simp)
    have hrl' : rd d l = some (d.disk l) := rd_own h (by simp)
    rw [if_neg hext, if_neg (by omega)]
    dsimp only
    rw [if_pos (by omega), if_pos (by omega), get_first P M (l :: S) f, hg2]
    dsimp only
    rw [hrf, hrl', n1]
    dsimp only
    rw [n4]
    dsimp only
    rw [w1]
    dsimp only
    rw [w5]
    dsimp only
    rw [hset, e1, hdt, s1]
    dsimp only
    have hh : (fe :: (mm ++ [le])).head? = some fe := rfl
    have hgl : (fe :: (mm ++ [le])).getLast? = some le := List.getLast?_concat (l := fe :: mm)
    rw [hh, hgl]
    dsimp only
    rw [rd_own s2 (b := f) (by simp), rd_own s2 (b := fe.1) (by simp), rd_own s2 (b := l) (by simp),
      rd_own s2 (b := le.1) (by simp), hd5 f (by simp), hd5 l (by simp)]
    dsimp only
    rw [v1]
    dsimp only
    rw [v5]
    dsimp only
    rw [u1]
    dsimp only
    have hmap : (((fe :: (mm ++ [le])).map (·.1)).drop 1).take (M.length + 1 - 1) = bidsOf mm := by
      simp only [bidsOf, List.map_cons, List.map_append, List.drop_succ_cons, List.drop_zero]
      rw [List.take_append_of_le_length (by simp [hml]), List.take_of_length_le (by simp [hml])]
    rw [hmap]
    have := setBids_eq P (f :: (M ++ [l])) (f :: (bidsOf mm ++ [l])) S (by simp [bidsOf, hml])
    simp only [List.cons_append, List.append_assoc, List.nil_append] at this ⊢
    rw [this]
  · intro b hb'
    rw [hd8 b (hneq b (by simp [hb'])).1 (hneq b (by simp [hb'])).2, hd5 b (by simp [hb'])]
  · intro b hb'
    simp only [List.mem_append, List.mem_cons] at hb'
    by_cases hbf : b = f
    · subst hbf; rw [u2, v7 b hfl', v2]; simp [hfl, hfe]; omega
    by_cases hbl : b = l
    · subst hbl; rw [u2, v6]; simp [hll, hle]; omega
    rw [hd8 b hbf hbl]
    rcases hb' with hb' | hb' | hb' | hb' | hb'
    · rw [hd5 b (by simp [hb'])]; exact hb b (by simp [hb'])
    · exact absurd hb' hbf
    · obtain ⟨e, he, rfl⟩ := List.mem_map.1 hb'
      exact (s3 e (by simp [he])).1
    · exact absurd hb' hbl
    · rw [hd5 b (by simp [hb'])]; exact hb b (by simp [hb'])
  · rw [vecData_append, vecData_cons, vecData_append, vecData_cons]
    have e1 : vecData d8 P = vecData d P := vecData_congr (fun b hb' => by
      rw [hd8 b (hneq b (by simp [hb'])).1 (hneq b (by simp [hb'])).2, hd5 b (by simp [hb'])])
    have e2 : vecData d8 S = vecData d S := vecData_congr (fun b hb' => by
      rw [hd8 b (hneq b (by simp [hb'])).1 (hneq b (by simp [hb'])).2, hd5 b (by simp [hb'])])
    have e3 : vecData d8 (bidsOf mm) = vecData d5 (bidsOf mm) := vecData_congr (fun b hb' =>
      hd8 b (hmmne b hb').1 (hmmne b hb').2)
    rw [e1, e2, e3, u2, v7 f hfl', v2, v6, hmid]
    simp only [List.append_assoc]

end Stxxl.Srt
