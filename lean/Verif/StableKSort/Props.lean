import Verif.StableKSort.Model
import Verif.KSort.Radix
import Verif.Sort.Own
import Verif.Sort.Props

/-!
# C48: `stable_ksort`
-/

namespace Stxxl.SKSort

open Stxxl.KSort

variable {α : Type}

theorem dist_spec {idx : α → Option Nat} {f : α → Nat} {K : Nat} : ∀ (l : List α) (G : Nat → List α), Idx idx f K l →
    dist idx l (tab K G) = some (tab K fun j => G j ++ bk f j l) := by
  intro l
  induction l with
  | nil => intro G _; simp [dist, bk]
  | cons x xs ih =>
    intro G h
    obtain ⟨h1, h2⟩ := h x (by simp)
    simp only [dist, h1, tab_get G h2, tab_set G h2]
    rw [ih _ (fun y hy => h y (by simp [hy]))]
    congr 1
    apply tab_congr
    intro j _
    rw [bk_cons]
    by_cases e : f x = j
    · subst e; simp
    · rw [if_neg e, if_neg (fun h : j = f x => e h.symm)]

theorem subs_spec {lt : α → α → Bool} {srt : List α → List α} {idx2 : Nat → Nat → α → Option Nat} {refs1 : List α} :
    ∀ (L : List (List α)) (i : Nat) (pre : List α), (pre ++ L.flatten).length = refs1.length →
    (∀ e ∈ ends pre.length L, 2 ≤ e) →
    (∀ t l, L[t]? = some l → ∀ e, 2 ≤ e → e ≤ refs1.length → ∀ b : List α, b.length = l.length →
      ∃ r, l1sort lt srt (idx2 (i + t) (ilog2Floor e - 1)) (2 ^ (ilog2Floor e - 1)) l b = some r ∧ Sorted lt r ∧ r.Perm l) →
    ∃ S, SegSorted lt S L ∧ subs lt srt idx2 refs1 (pre ++ L.flatten) i pre.length (ends pre.length L) = some S.flatten := by
  intro L
  induction L with
  | nil => intro i pre _ _ _; exact ⟨[], List.Forall₂.nil, rfl⟩
  | cons l L ih =>
    intro i pre hlen he hl
    rw [ends] at he
    have he0 := he (pre.length + l.length) (by simp)
    rw [ends, subs, if_neg (by omega)]
    have e1 : ((pre ++ (l :: L).flatten).take (pre.length + l.length)).drop pre.length = l := by
      simp [List.take_append]
    rw [e1]
    simp only [List.flatten_cons, List.length_append] at hlen
    obtain ⟨r, h1, h2, h3⟩ := hl 0 l (by simp) (pre.length + l.length) he0 (by omega)
      ((refs1.take (pre.length + l.length)).drop pre.length) (by rw [List.length_drop, List.length_take]; omega)
    rw [Nat.add_zero] at h1
    rw [h1]
    obtain ⟨S, hS, hc⟩ := ih (i + 1) (pre ++ l) (by simp only [List.length_append]; omega)
      (fun e h => he e (by rw [List.length_append] at h; simp [h]))
      (fun t m hm e h4 h5 b hb => by
        have := hl (t + 1) m (by simpa using hm) e h4 h5 b hb
        rwa [show i + (t + 1) = i + 1 + t by omega] at this)
    refine ⟨r :: S, List.Forall₂.cons ⟨h2, h3⟩ hS, ?_⟩
    rw [List.length_append] at hc
    rw [List.flatten_cons, ← List.append_assoc]
    dsimp only
    rw [hc]; rfl

theorem ends_ge : ∀ (L : List (List α)) (c e : Nat), e ∈ ends c L → c ≤ e := by
  intro L
  induction L with
  | nil => intro c e h; simp [ends] at h
  | cons l L ih =>
    intro c e h
    rw [ends, List.mem_cons] at h
    rcases h with rfl | h
    · omega
    · have := ih _ _ h; omega

/-- One bucket: all keys begin with the bits of `k`. -/
theorem sortBucket_spec {P : Par} {key : α → Nat} {srt : List α → List α} (hs : Srt.SortFn (klt key) srt) {L k s : Nat}
    (hsw : P.w = P.lognb + s) (hnb : 1 ≤ P.lognb) {l junk : List α} (hj : junk.length = l.length)
    (hk : ∀ x ∈ l, key x < 2 ^ P.w ∧ key x / 2 ^ s = k) (hL : P.logK1 l.length = L)
    (h2 : 2 ≤ (l.filter fun x => decide (key x % 2 ^ s < 2 ^ (s - L))).length) (hbits : L + l.length.log2 ≤ s + 1) :
    ∃ r, sortBucket P key srt L k junk l = some r ∧ Sorted (klt key) r ∧ r.Perm l := by
  have hL1 : 1 ≤ L := by rw [← hL]; unfold Par.logK1; omega
  have hl2 : 2 ≤ l.length := Nat.le_trans h2 (List.length_filter_le _ _)
  have hlog : 1 ≤ l.length.log2 := (Nat.le_log2 (by omega)).2 (by omega)
  obtain ⟨s1, hs1⟩ : ∃ s1, s = L + s1 := ⟨s - L, by omega⟩
  have hshift : P.shift = (s : Int) := by unfold Par.shift; omega
  have hsh1 : (P.shift - (L : Int)) = (s1 : Int) := by omega
  unfold sortBucket
  rw [if_neg (by omega)]
  dsimp only
  rw [hshift]
  rw [hshift] at hsh1
  rw [hsh1, hL]
  simp only [Int.toNat_natCast]
  obtain ⟨off, hoff⟩ : ∃ off, off = 2 ^ s * k := ⟨_, rfl⟩
  have hkx : ∀ x ∈ l, key x = off + key x % 2 ^ s := by
    intro x hx
    have := Nat.div_add_mod (key x) (2 ^ s)
    rw [(hk x hx).2, ← hoff] at this
    exact this.symm
  have hoffw : off < 2 ^ P.w := by
    cases l with
    | nil => simp at hl2
    | cons x xs =>
      have h1 := hkx x (by simp)
      have h3 := (hk x (by simp)).1
      omega
  rw [← hoff, Nat.mod_eq_of_lt hoffw]
  have hmods : ∀ x : α, key x % 2 ^ s < 2 ^ s := fun x => Nat.mod_lt _ (Nat.two_pow_pos _)
  have hsub : ∀ x ∈ l, ∀ o, o ≤ key x → (key x + 2 ^ P.w - o) % 2 ^ P.w = key x - o := by
    intro x hx o ho
    have h3 := (hk x hx).1
    have e : key x + 2 ^ P.w - o = (key x - o) + 2 ^ P.w := by omega
    rw [e, Nat.add_mod_right, Nat.mod_eq_of_lt (by omega)]
  have hidx1 : Idx (fun x => bidx P.w off (s1 : Int) (key x)) (fun x => (key x - off) / 2 ^ s1) (2 ^ L) l := by
    intro x hx
    have h1 := hkx x hx
    have h3 := hmods x
    have hc : ((0 : Int) ≤ (s1 : Int) ∧ (s1 : Int) < (P.w : Int)) := by omega
    refine ⟨?_, ?_⟩
    · simp only [bidx, if_pos hc, Int.toNat_natCast]
      rw [hsub x hx off (by omega)]
    · dsimp only
      rw [Nat.div_lt_iff_lt_mul (Nat.two_pow_pos _), ← Nat.pow_add, ← hs1]; omega
  obtain ⟨bucket, b1, b2⟩ := distribute_spec hidx1 hj
  rw [b1]
  dsimp only
  rw [b2]
  dsimp only
  have hperm := flatten_bk_perm (f := fun x => (key x - off) / 2 ^ s1) l (fun x hx => (hidx1 x hx).2)
  have hfirst : 2 ≤ (bk (fun x => (key x - off) / 2 ^ s1) 0 l).length := by
    have : l.filter (fun x => decide (key x % 2 ^ s < 2 ^ (s - L))) = bk (fun x => (key x - off) / 2 ^ s1) 0 l := by
      unfold bk
      apply List.filter_congr
      intro x hx
      have h1 := hkx x hx
      have e : key x - off = key x % 2 ^ s := by omega
      dsimp only
      rw [e, show s - L = s1 by omega, Bool.eq_iff_iff]
      simp only [decide_eq_true_eq, beq_iff_eq]
      rw [Nat.div_eq_zero_iff]
      have := Nat.two_pow_pos s1
      omega
    rw [← this]; exact h2
  obtain ⟨S, hS, hb⟩ := subs_spec (lt := klt key) (srt := srt)
    (idx2 := fun i lk2 x => bidx P.w ((off + 2 ^ s1 * i) % 2 ^ P.w) ((s1 : Int) - lk2) (key x)) (refs1 := l)
    (tab (2 ^ L) fun j => bk (fun x => (key x - off) / 2 ^ s1) j l) 0 [] (by simpa using hperm.length_eq) (by
      obtain ⟨K, hK⟩ : ∃ K, 2 ^ L = K + 1 := ⟨2 ^ L - 1, by have := Nat.two_pow_pos L; omega⟩
      rw [hK, tab, List.range'_succ, List.map_cons, ends]
      intro e he
      rw [List.mem_cons] at he
      rcases he with rfl | he
      · simpa using hfirst
      · have := ends_ge _ _ _ he
        simp only [List.length_nil] at this
        omega) (by
      intro t m hm e he1 he2 b hbl
      have ht : t < 2 ^ L := by
        have := (List.getElem?_eq_some_iff.1 hm).1; rwa [tab_length] at this
      rw [tab_get _ ht] at hm
      cases hm
      obtain ⟨a2, ha2⟩ : ∃ a2, ilog2Floor e - 1 = a2 := ⟨_, rfl⟩
      have hlogle : e.log2 ≤ l.length.log2 := by
        rw [Nat.le_log2 (by omega)]; exact Nat.le_trans (Nat.log2_self_le (by omega)) he2
      rw [ilog2Floor_eq] at ha2
      have ha2s : a2 ≤ s1 := by omega
      rw [ilog2Floor_eq, ha2]
      obtain ⟨s2, hs2⟩ : ∃ s2, s1 = a2 + s2 := ⟨s1 - a2, by omega⟩
      have hsh2 : ((s1 : Int) - (a2 : Int)) = (s2 : Int) := by omega
      refine l1sort_spec (f := fun x => (key x - (off + 2 ^ s1 * t)) / 2 ^ s2) (klt_swo key) hs ?_ ?_ hbl
      · intro x hx
        obtain ⟨hx1, hx2⟩ := mem_bk.1 hx
        have hkw := (hk x hx1).1
        have h1 := hkx x hx1
        have hp1 := Nat.two_pow_pos s1
        have hd : key x - off = 2 ^ s1 * t + (key x - off) % 2 ^ s1 := by rw [← hx2]; exact (Nat.div_add_mod _ _).symm
        have hm : (key x - off) % 2 ^ s1 < 2 ^ s1 := Nat.mod_lt _ hp1
        have hsh : ((0 : Int) ≤ (s2 : Int) ∧ (s2 : Int) < (P.w : Int)) := by omega
        refine ⟨?_, ?_⟩
        · simp only [bidx, Nat.zero_add, hsh2, if_pos hsh, Int.toNat_natCast]
          rw [Nat.mod_eq_of_lt (show off + 2 ^ s1 * t < 2 ^ P.w by omega), hsub x hx1 _ (by omega)]
        · dsimp only
          rw [Nat.div_lt_iff_lt_mul (Nat.two_pow_pos _), ← Nat.pow_add, ← hs2]; omega
      · intro x _ y _ hlt
        unfold klt
        simp only [decide_eq_false_iff_not]
        intro hc
        have := Nat.div_le_div_right (c := 2 ^ s2) (show key y - (off + 2 ^ s1 * t) ≤ key x - (off + 2 ^ s1 * t) by omega)
        omega)
  refine ⟨S.flatten, hb, hS.sorted (segOrd_tab ?_), hS.perm.trans hperm⟩
  intro x _ y _ hlt
  unfold klt
  simp only [decide_eq_false_iff_not]
  intro hc
  have := Nat.div_le_div_right (c := 2 ^ s1) (show key y - off ≤ key x - off by omega)
  omega

theorem sortBuckets_spec {P : Par} {key : α → Nat} {srt : List α → List α} {L : Nat} {lt : α → α → Bool} :
    ∀ (bs : List (List α)) (k : Nat), (∀ t b, bs[t]? = some b →
      ∃ r, sortBucket P key srt L (k + t) b b = some r ∧ Sorted lt r ∧ r.Perm b) →
    ∃ S, SegSorted lt S bs ∧ sortBuckets P key srt L k bs = some S.flatten := by
  intro bs
  induction bs with
  | nil => intro k _; exact ⟨[], List.Forall₂.nil, rfl⟩
  | cons b bs ih =>
    intro k h
    obtain ⟨r, h1, h2, h3⟩ := h 0 b (by simp)
    obtain ⟨S, hS, hc⟩ := ih (k + 1) (fun t m hm => by
      have := h (t + 1) m (by simpa using hm); rwa [show k + (t + 1) = k + 1 + t by omega] at this)
    exact ⟨r :: S, List.Forall₂.cons ⟨h2, h3⟩ hS, by rw [sortBuckets]; rw [Nat.add_zero] at h1; rw [h1]; dsimp only; rw [hc]; rfl⟩

theorem foldr_max_mem : ∀ (l : List Nat), l ≠ [] → l.foldr max 0 ∈ l := by
  intro l
  induction l with
  | nil => intro h; exact absurd rfl h
  | cons a l ih =>
    intro _
    rw [List.foldr_cons]
    by_cases hl : l = []
    · subst hl; simp
    · have := ih hl
      rcases Nat.le_total a (l.foldr max 0) with h | h
      · rw [Nat.max_eq_right h]; simp [this]
      · rw [Nat.max_eq_left h]; simp

/-- The elements whose key begins with the bits of `k`. -/
def bucketOf (P : Par) (key : α → Nat) (l : List α) (k : Nat) : List α := l.filter fun x => key x / 2 ^ (P.w - P.lognb) == k

/-- The keys are spread as evenly as the code needs it: no bucket is larger than half the memory; all buckets have sizes
for which the code chooses the same number `2^L` of parts; the first part of every bucket holds at least two elements; and
there are enough bits in the keys. -/
structure Uniform (P : Par) (key : α → Nat) (l : List α) (L : Nat) : Prop where
  fits : ∀ k, k < 2 ^ P.lognb → (bucketOf P key l k).length ≤ P.maxRec
  parts : ∀ k, k < 2 ^ P.lognb → P.logK1 (bucketOf P key l k).length = L
  first : ∀ k, k < 2 ^ P.lognb →
    2 ≤ ((bucketOf P key l k).filter fun x => decide (key x % 2 ^ (P.w - P.lognb) < 2 ^ (P.w - P.lognb - L))).length
  bits : ∀ k, k < 2 ^ P.lognb → L + (bucketOf P key l k).length.log2 ≤ P.w - P.lognb + 1

theorem lognb_pos {P : Par} (h : 4 * P.ndisks + 2 ≤ P.m) : 1 ≤ P.lognb := by
  unfold Par.lognb; rw [ilog2Floor_eq, Nat.le_log2 (by omega)]; omega

theorem dist_range {P : Par} {key : α → Nat} (hmem : 4 * P.ndisks + 2 ≤ P.m) (hw : P.lognb ≤ P.w) (l : List α)
    (hk : ∀ x ∈ l, key x < 2 ^ P.w) :
    dist (fun x => bidx P.w 0 P.shift (key x)) l (List.replicate (2 ^ P.lognb) []) = some (tab (2 ^ P.lognb) (bucketOf P key l)) := by
  obtain ⟨s, hs⟩ : ∃ s, P.w = P.lognb + s := ⟨P.w - P.lognb, by omega⟩
  have hnb := lognb_pos hmem
  have hshift : P.shift = (s : Int) := by unfold Par.shift; omega
  have hidx : Idx (fun x => bidx P.w 0 P.shift (key x)) (fun x => key x / 2 ^ s) (2 ^ P.lognb) l := by
    intro x hx
    have hkx := hk x hx
    have : ((0 : Int) ≤ (s : Int) ∧ (s : Int) < (P.w : Int)) := by omega
    refine ⟨?_, ?_⟩
    · simp only [hshift, bidx, if_pos this, Int.toNat_natCast]
      rw [Nat.sub_zero, Nat.add_mod_right, Nat.mod_eq_of_lt hkx]
    · rw [Nat.div_lt_iff_lt_mul (Nat.two_pow_pos _), ← Nat.pow_add, ← hs]; exact hkx
  have e : List.replicate (2 ^ P.lognb) ([] : List α) = tab (2 ^ P.lognb) fun _ => [] := by
    apply List.ext_getElem?
    intro j
    by_cases hj : j < 2 ^ P.lognb
    · rw [tab_get _ hj]; simp [hj]
    · rw [List.getElem?_eq_none (by simp; omega), List.getElem?_eq_none (by rw [tab_length]; omega)]
  rw [e, dist_spec l _ hidx]
  congr 1
  apply tab_congr
  intro j _
  rw [List.nil_append]
  unfold bk bucketOf
  rw [show P.w - P.lognb = s by omega]

theorem mem_tab {β : Type} {K : Nat} {F : Nat → β} {b : β} (h : b ∈ tab K F) : ∃ k, k < K ∧ b = F k := by
  unfold tab at h
  obtain ⟨k, h1, h2⟩ := List.mem_map.1 h
  rw [List.mem_range'_1] at h1
  exact ⟨k, by omega, h2.symm⟩

/-- A valid vector and range. -/
structure Pre (P : Par) (key : α → Nat) (vb : List (List α)) (fb fo lb lo : Nat) : Prop where
  B : 0 < P.B
  len : ∀ b ∈ vb, b.length = P.B
  first_off : fo < P.B
  last_off : lo < P.B
  le : fb * P.B + fo ≤ lb * P.B + lo
  last : lb * P.B + lo ≤ vb.length * P.B
  key : ∀ x, key x < 2 ^ P.w

/-- The elements of the range. -/
def range (P : Par) (vb : List (List α)) (fb fo lb lo : Nat) : List α :=
  Srt.slice vb.flatten (fb * P.B + fo) (lb * P.B + lo)

theorem flatten_take {B : Nat} : ∀ (vb : List (List α)) (n : Nat), (∀ b ∈ vb, b.length = B) →
    (vb.take n).flatten = vb.flatten.take (n * B) := by
  intro vb
  induction vb with
  | nil => intro n _; simp
  | cons b vb ih =>
    intro n h
    cases n with
    | zero => simp
    | succ n =>
      have hb := h b (by simp)
      rw [List.take_succ_cons, List.flatten_cons, List.flatten_cons, List.take_append, ih n (fun c hc => h c (by simp [hc])), hb]
      rw [List.take_of_length_le (l := b) (by rw [hb, Nat.add_mul]; omega)]
      congr 2
      rw [Nat.add_mul]; omega

theorem flatten_drop {B : Nat} : ∀ (vb : List (List α)) (n : Nat), (∀ b ∈ vb, b.length = B) →
    (vb.drop n).flatten = vb.flatten.drop (n * B) := by
  intro vb
  induction vb with
  | nil => intro n _; simp
  | cons b vb ih =>
    intro n h
    cases n with
    | zero => simp
    | succ n =>
      have hb := h b (by simp)
      rw [List.drop_succ_cons, List.flatten_cons, List.drop_append, ih n (fun c hc => h c (by simp [hc])), hb]
      rw [List.drop_of_length_le (l := b) (by rw [hb, Nat.add_mul]; omega), List.nil_append]
      congr 1
      rw [Nat.add_mul]; omega

theorem get_block {B : Nat} {vb : List (List α)} (h : ∀ b ∈ vb, b.length = B) {k : Nat} {b : List α} (hb : vb[k]? = some b) :
    b = (vb.flatten.drop (k * B)).take B := by
  have hlt := (List.getElem?_eq_some_iff.1 hb).1
  have e : vb.drop k = b :: vb.drop (k + 1) := by
    rw [List.drop_eq_getElem_cons hlt]; congr 1; exact (List.getElem?_eq_some_iff.1 hb).2
  rw [← flatten_drop vb k h, e, List.flatten_cons, List.take_append, ← h b (List.mem_of_getElem? hb)]
  simp

/-- The result: the same blocks, filled; nothing changes outside the range; the range is sorted and a permutation of what
it was. -/
def Result (P : Par) (key : α → Nat) (vb : List (List α)) (fb fo lb lo : Nat) (r : Res (List (List α))) : Prop :=
  ∃ vb', r = .ok vb' ∧ vb'.length = vb.length ∧ (∀ b ∈ vb', b.length = P.B) ∧
    vb'.flatten.take (fb * P.B + fo) = vb.flatten.take (fb * P.B + fo) ∧
    vb'.flatten.drop (lb * P.B + lo) = vb.flatten.drop (lb * P.B + lo) ∧
    Sorted (klt key) (range P vb' fb fo lb lo) ∧ (range P vb' fb fo lb lo).Perm (range P vb fb fo lb lo)

theorem result_of {P : Par} {key : α → Nat} {vb vb' : List (List α)} {fb fo lb lo : Nat} {r : Res (List (List α))} {s : List α}
    (hr : r = .ok vb') (hl : vb'.length = vb.length) (hb : ∀ b ∈ vb', b.length = P.B)
    (hv : vb'.flatten = vb.flatten.take (fb * P.B + fo) ++ s ++ vb.flatten.drop (lb * P.B + lo))
    (hle : fb * P.B + fo ≤ lb * P.B + lo) (hlast : lb * P.B + lo ≤ vb.flatten.length)
    (hs : Sorted (klt key) s) (hp : s.Perm (range P vb fb fo lb lo)) : Result P key vb fb fo lb lo r := by
  have hlen : (range P vb fb fo lb lo).length = (lb * P.B + lo) - (fb * P.B + fo) := by
    unfold range Srt.slice; rw [List.length_drop, List.length_take]; omega
  obtain ⟨h1, h2, h3⟩ := Srt.parts hv (i := fb * P.B + fo) (j := lb * P.B + lo) (by rw [List.length_take]; omega)
    (by rw [hp.length_eq, hlen]; omega)
  exact ⟨vb', hr, hl, hb, h1, h2, by unfold range; rw [h3]; exact hs, by unfold range at hp ⊢; rw [h3]; exact hp⟩

/-- **C48.** If the keys are spread evenly enough, and the range begins inside a block that has another one behind it or
consists of whole blocks, `stable_ksort` turns the range into a permutation of itself ordered by key, and changes nothing
else. -/
theorem C48_stable_ksort {P : Par} {key : α → Nat} {srt : List α → List α} (hsrt : Srt.SortFn (klt key) srt)
    {vb : List (List α)} {fb fo lb lo : Nat} (p : Pre P key vb fb fo lb lo) (hmem : 4 * P.ndisks + 2 ≤ P.m) (hw : P.lognb ≤ P.w)
    {L : Nat} (hu : Uniform P key (range P vb fb fo lb lo) L)
    (hcase : (fo = 0 ∧ lo = 0) ∨ (fo ≠ 0 ∧ lb < vb.length)) :
    Result P key vb fb fo lb lo (stableKsort P key srt vb fb fo lb lo) := by
  have hB := p.B
  have hle := p.le
  have hlast := p.last
  have hlen : vb.flatten.length = vb.length * P.B := Srt.flatten_length_of_all vb p.len
  have hfo := p.first_off
  have hlo := p.last_off
  have hfblb : fb ≤ lb := by
    by_contra hc
    have : (lb + 1) * P.B ≤ fb * P.B := Nat.mul_le_mul_right _ (by omega)
    rw [Nat.add_mul, Nat.one_mul] at this
    omega
  have hlblen : lb ≤ vb.length := by
    by_contra hc
    have : (vb.length + 1) * P.B ≤ lb * P.B := Nat.mul_le_mul_right _ (by omega)
    rw [Nat.add_mul, Nat.one_mul] at this
    omega
  have hdist : ∀ a b c : Nat, a + b = c → a * P.B + b * P.B = c * P.B := by
    intro a b c h; rw [← h, Nat.add_mul]
  obtain ⟨eb, heb⟩ : ∃ eb, eb = lb + if fo ≠ 0 then 1 else 0 := ⟨_, rfl⟩
  have heb1 : eb ≤ vb.length ∧ lb * P.B + lo ≤ eb * P.B ∧ lb ≤ eb := by
    rcases hcase with ⟨h1, h2⟩ | ⟨h1, h2⟩
    · rw [heb, if_neg (by omega)]; exact ⟨hlblen, by rw [Nat.add_zero]; omega, by omega⟩
    · rw [heb, if_pos h1]
      have := hdist lb 1 (lb + 1) rfl
      exact ⟨by omega, by omega, by omega⟩
  have heB : eb * P.B ≤ vb.length * P.B := Nat.mul_le_mul_right _ heb1.1
  have hfB : fb * P.B ≤ lb * P.B := Nat.mul_le_mul_right _ hfblb
  have hinp : ((vb.take eb).drop fb).flatten = (vb.flatten.take (eb * P.B)).drop (fb * P.B) := by
    rw [flatten_drop _ _ (fun b hb => p.len b (List.mem_of_mem_take hb)), flatten_take _ _ p.len]
  unfold stableKsort
  rw [if_neg (by omega)]
  dsimp only
  rw [← heb, if_neg (by omega), hinp, if_neg (by rw [List.length_drop, List.length_take]; omega)]
  have hdata : (((vb.flatten.take (eb * P.B)).drop (fb * P.B)).drop fo).take ((lb * P.B + lo) - (fb * P.B + fo)) =
      range P vb fb fo lb lo := by
    unfold range Srt.slice
    rw [List.drop_drop, List.take_drop, List.take_take]
    congr 2; omega
  rw [hdata]
  obtain ⟨l, hl⟩ : ∃ l, l = range P vb fb fo lb lo := ⟨_, rfl⟩
  rw [← hl] at hu ⊢
  have hk : ∀ x ∈ l, key x < 2 ^ P.w := fun x _ => p.key x
  have hd := dist_range hmem hw l hk
  rw [hd]
  dsimp only
  have habort : ¬ ((tab (2 ^ P.lognb) (bucketOf P key l)).any fun b => decide (P.maxRec < b.length)) = true := by
    rw [List.any_eq_true]
    rintro ⟨b, hb, hc⟩
    obtain ⟨k, hk, rfl⟩ := mem_tab hb
    have := hu.fits k hk
    simp at hc; omega
  rw [if_neg habort]
  have hL : P.logK1 (((tab (2 ^ P.lognb) (bucketOf P key l)).map List.length).foldr max 0) = L := by
    have hne : (tab (2 ^ P.lognb) (bucketOf P key l)).map List.length ≠ [] := by
      intro hc
      have h1 : ((tab (2 ^ P.lognb) (bucketOf P key l)).map List.length).length = 0 := by rw [hc]; rfl
      rw [List.length_map, tab_length] at h1
      have := Nat.two_pow_pos P.lognb
      omega
    obtain ⟨b, hb1, hb2⟩ := List.mem_map.1 (foldr_max_mem _ hne)
    obtain ⟨k, hk, rfl⟩ := mem_tab hb1
    rw [← hb2]; exact hu.parts k hk
  rw [hL]
  obtain ⟨S, hS, hsb⟩ := sortBuckets_spec (P := P) (key := key) (srt := srt) (L := L) (lt := klt key)
    (tab (2 ^ P.lognb) (bucketOf P key l)) 0 (by
      intro t b hb
      have ht : t < 2 ^ P.lognb := by
        have := (List.getElem?_eq_some_iff.1 hb).1; rwa [tab_length] at this
      rw [tab_get _ ht] at hb
      cases hb
      rw [Nat.zero_add]
      refine sortBucket_spec hsrt (s := P.w - P.lognb) (by omega) (lognb_pos hmem) rfl ?_ (hu.parts t ht) (hu.first t ht) (hu.bits t ht)
      intro x hx
      unfold bucketOf at hx
      rw [List.mem_filter] at hx
      exact ⟨p.key x, by simpa using hx.2⟩)
  rw [hsb]
  dsimp only
  have hbk : (tab (2 ^ P.lognb) (bucketOf P key l)) = tab (2 ^ P.lognb) fun j => bk (fun x => key x / 2 ^ (P.w - P.lognb)) j l := rfl
  have hlt : ∀ x ∈ l, key x / 2 ^ (P.w - P.lognb) < 2 ^ P.lognb := by
    intro x hx
    rw [Nat.div_lt_iff_lt_mul (Nat.two_pow_pos _), ← Nat.pow_add, show P.lognb + (P.w - P.lognb) = P.w by omega]
    exact hk x hx
  have hperm : S.flatten.Perm l := hS.perm.trans (by rw [hbk]; exact flatten_bk_perm l hlt)
  have hsorted : Sorted (klt key) S.flatten := by
    refine hS.sorted ?_
    rw [hbk]
    apply segOrd_tab
    intro x _ y _ hlt
    unfold klt
    simp only [decide_eq_false_iff_not]
    intro hc
    have := Nat.div_le_div_right (c := 2 ^ (P.w - P.lognb)) (show key y ≤ key x by omega)
    omega
  have hn1 : 0 < l.length := by
    have h1 := hu.first 0 (Nat.two_pow_pos _)
    have h2 := List.length_filter_le (fun x => decide (key x % 2 ^ (P.w - P.lognb) < 2 ^ (P.w - P.lognb - L))) (bucketOf P key l 0)
    have h3 : (bucketOf P key l 0).length ≤ l.length := List.length_filter_le _ _
    omega
  have hll : l.length = (lb * P.B + lo) - (fb * P.B + fo) := by
    rw [hl]; unfold range Srt.slice; rw [List.length_drop, List.length_take]; omega
  have hfblt : fb < vb.length := by
    by_contra hc
    have : vb.length * P.B ≤ fb * P.B := Nat.mul_le_mul_right _ (by omega)
    omega
  obtain ⟨f, hf⟩ : ∃ f, vb[fb]? = some f := ⟨_, List.getElem?_eq_getElem hfblt⟩
  have hfe := get_block p.len hf
  rw [hf]
  dsimp only
  have hpre : (if fo ≠ 0 then f.take fo else []) = (vb.flatten.drop (fb * P.B)).take fo := by
    rw [hfe, List.take_take, Nat.min_eq_left (by omega)]
    split
    · rfl
    · rename_i h; have : fo = 0 := by omega
      subst this; simp
  rw [hpre]
  have htake : vb.flatten.take (fb * P.B) ++ (vb.flatten.drop (fb * P.B)).take fo = vb.flatten.take (fb * P.B + fo) :=
    (List.take_add ..).symm
  have hSl : S.flatten.length = (lb * P.B + lo) - (fb * P.B + fo) := by rw [hperm.length_eq, hll]
  have hprel : ((vb.flatten.drop (fb * P.B)).take fo).length = fo := by
    rw [List.length_take, List.length_drop]
    have := hdist fb 1 (fb + 1) rfl
    have : (fb + 1) * P.B ≤ vb.length * P.B := Nat.mul_le_mul_right _ (by omega)
    omega
  by_cases hlo0 : lo = 0
  · subst hlo0
    have hdec : decide ((0 : Nat) ≠ 0) = false := rfl
    have htot : ((vb.flatten.drop (fb * P.B)).take fo ++ S.flatten).length = (lb - fb) * P.B := by
      rw [List.length_append, hprel, hSl]
      have := hdist fb (lb - fb) lb (by omega)
      omega
    rw [hdec]
    refine result_of (vb' := vb.take fb ++ Srt.toBlocks P.B (lb - fb) ((vb.flatten.drop (fb * P.B)).take fo ++ S.flatten) ++ vb.drop lb)
      (by split <;> simp_all) ?_ ?_ ?_ hle (by omega) hsorted (hl ▸ hperm)
    · rw [List.length_append, List.length_append, Srt.toBlocks_length, List.length_take, List.length_drop]; omega
    · intro b hb
      simp only [List.mem_append] at hb
      rcases hb with (hb | hb) | hb
      · exact p.len b (List.mem_of_mem_take hb)
      · exact Srt.toBlocks_mem _ _ _ htot b hb
      · exact p.len b (List.mem_of_mem_drop hb)
    · rw [List.flatten_append, List.flatten_append, Srt.toBlocks_flatten _ _ _ htot, flatten_take _ _ p.len,
        flatten_drop _ _ p.len, ← htake]
      simp
  · have hdec : decide (lo ≠ 0) = true := by simp [hlo0]
    have hlblt : lb < vb.length := by omega
    obtain ⟨g, hg⟩ : ∃ g, vb[lb]? = some g := ⟨_, List.getElem?_eq_getElem hlblt⟩
    have hge := get_block p.len hg
    have hlb1 := hdist lb 1 (lb + 1) rfl
    have hlb2 : (lb + 1) * P.B ≤ vb.length * P.B := Nat.mul_le_mul_right _ (by omega)
    rw [hdec, hg]
    dsimp only
    have hgd : g.drop lo = (vb.flatten.drop (lb * P.B + lo)).take (P.B - lo) := by
      rw [hge, List.drop_take, List.drop_drop]
    have htot : ((vb.flatten.drop (fb * P.B)).take fo ++ S.flatten ++ g.drop lo).length = (lb - fb + 1) * P.B := by
      rw [List.length_append, List.length_append, hprel, hSl, hgd, List.length_take, List.length_drop]
      have := hdist fb (lb - fb + 1) (lb + 1) (by omega)
      omega
    refine result_of rfl ?_ ?_ ?_ hle (by omega) hsorted (hl ▸ hperm)
    · rw [List.length_append, List.length_append, Srt.toBlocks_length, List.length_take, List.length_drop]; omega
    · intro b hb
      simp only [List.mem_append] at hb
      rcases hb with (hb | hb) | hb
      · exact p.len b (List.mem_of_mem_take hb)
      · exact Srt.toBlocks_mem _ _ _ htot b hb
      · exact p.len b (List.mem_of_mem_drop hb)
    · rw [List.flatten_append, List.flatten_append, Srt.toBlocks_flatten _ _ _ htot, flatten_take _ _ p.len,
        flatten_drop _ _ p.len, ← htake, hgd]
      have e : vb.flatten.drop (lb * P.B + lo) = (vb.flatten.drop (lb * P.B + lo)).take (P.B - lo) ++ vb.flatten.drop ((lb + 1) * P.B) := by
        conv_lhs => rw [← List.take_append_drop (P.B - lo) (vb.flatten.drop (lb * P.B + lo))]
        rw [List.drop_drop]
        congr 2; omega
      conv_rhs => rw [e]
      simp

/-! ## Where it fails -/

theorem sortBuckets_empty {P : Par} {key : α → Nat} {srt : List α → List α} {L : Nat} : ∀ (bs : List (List α)) (k : Nat),
    [] ∈ bs → sortBuckets P key srt L k bs = none := by
  intro bs
  induction bs with
  | nil => intro k h; simp at h
  | cons b bs ih =>
    intro k h
    rw [sortBuckets]
    rcases List.mem_cons.1 h with rfl | h
    · rfl
    · cases sortBucket P key srt L k b b with
      | none => rfl
      | some s => dsimp only; rw [ih _ h]

/-- **C48 (violated).** If some leading bits occur in no key of the range - in particular if the range has fewer elements
than there are buckets, or all keys are small - the call never returns normally. -/
theorem C48_missing_prefix_never_ok {P : Par} {key : α → Nat} {srt : List α → List α} {vb : List (List α)} {fb fo lb lo : Nat}
    (p : Pre P key vb fb fo lb lo) (hmem : 4 * P.ndisks + 2 ≤ P.m) (hw : P.lognb ≤ P.w)
    {k : Nat} (hk : k < 2 ^ P.lognb)
    (hempty : ∀ x ∈ range P vb fb fo lb lo, key x / 2 ^ (P.w - P.lognb) ≠ k) :
    ∀ vb', stableKsort P key srt vb fb fo lb lo ≠ .ok vb' := by
  intro vb' hres
  unfold stableKsort at hres
  rw [if_neg (by omega)] at hres
  dsimp only at hres
  obtain ⟨eb, heb⟩ : ∃ eb, eb = lb + if fo ≠ 0 then 1 else 0 := ⟨_, rfl⟩
  rw [← heb] at hres
  split at hres
  · exact absurd hres (by simp)
  rename_i hlen
  split at hres
  · exact absurd hres (by simp)
  rename_i hinlen
  have hinp : ((vb.take eb).drop fb).flatten = (vb.flatten.take (eb * P.B)).drop (fb * P.B) := by
    rw [flatten_drop _ _ (fun b hb => p.len b (List.mem_of_mem_take hb)), flatten_take _ _ p.len]
  rw [hinp] at hres hinlen
  have hle := p.le
  have hlast := p.last
  have hvl : vb.flatten.length = vb.length * P.B := Srt.flatten_length_of_all vb p.len
  have hdata : (((vb.flatten.take (eb * P.B)).drop (fb * P.B)).drop fo).take ((lb * P.B + lo) - (fb * P.B + fo)) =
      range P vb fb fo lb lo ∨ range P vb fb fo lb lo = [] := by
    by_cases hn : (lb * P.B + lo) - (fb * P.B + fo) = 0
    · right
      unfold range Srt.slice
      rw [List.drop_eq_nil_iff, List.length_take]; omega
    · left
      unfold range Srt.slice
      rw [List.drop_drop, List.take_drop, List.take_take]
      congr 2
      rw [List.length_drop, List.length_take] at hinlen
      omega
  have hempty' : ∀ x ∈ (((vb.flatten.take (eb * P.B)).drop (fb * P.B)).drop fo).take ((lb * P.B + lo) - (fb * P.B + fo)),
      key x / 2 ^ (P.w - P.lognb) ≠ k := by
    rcases hdata with h | h
    · rw [h]; exact hempty
    · intro x hx
      by_cases hn : (lb * P.B + lo) - (fb * P.B + fo) = 0
      · rw [hn] at hx; simp at hx
      · exfalso
        unfold range Srt.slice at h
        rw [List.drop_eq_nil_iff, List.length_take] at h
        omega
  generalize (((vb.flatten.take (eb * P.B)).drop (fb * P.B)).drop fo).take ((lb * P.B + lo) - (fb * P.B + fo)) = l at hres hempty'
  rw [dist_range hmem hw l (fun x _ => p.key x)] at hres
  dsimp only at hres
  split at hres
  · exact absurd hres (by simp)
  have hmem0 : ([] : List α) ∈ tab (2 ^ P.lognb) (bucketOf P key l) := by
    refine List.mem_iff_getElem?.2 ⟨k, ?_⟩
    rw [tab_get _ hk]
    congr 1
    unfold bucketOf
    rw [List.filter_eq_nil_iff]
    intro x hx
    simpa using hempty' x hx
  rw [sortBuckets_empty _ _ hmem0] at hres
  exact absurd hres (by simp)

/-- **C48 (violated).** A range that begins at a block boundary and ends inside a block is read behind the end of the input
stream: the code tests the wrong iterator. -/
theorem C48_aligned_first_unaligned_last_is_undefined {P : Par} {key : α → Nat} {srt : List α → List α} {vb : List (List α)}
    {fb lb lo : Nat} (p : Pre P key vb fb 0 lb lo) (hmem : 4 * P.ndisks + 2 ≤ P.m) (hlo : lo ≠ 0) :
    stableKsort P key srt vb fb 0 lb lo = .undef := by
  have hB := p.B
  have hle := p.le
  have hlast := p.last
  have hlo' := p.last_off
  have hfblb : fb ≤ lb := by
    by_contra hc
    have : (lb + 1) * P.B ≤ fb * P.B := Nat.mul_le_mul_right _ (by omega)
    rw [Nat.add_mul, Nat.one_mul] at this
    omega
  have hfB : fb * P.B ≤ lb * P.B := Nat.mul_le_mul_right _ hfblb
  unfold stableKsort
  rw [if_neg (by omega)]
  dsimp only
  rw [if_neg (by simp : ¬ ((0 : Nat) ≠ 0)), Nat.add_zero lb]
  split
  · rfl
  · rw [if_pos]
    rw [flatten_drop _ _ (fun b hb => p.len b (List.mem_of_mem_take hb)), flatten_take _ _ p.len, List.length_drop, List.length_take]
    omega

/-- **C48 (violated).** A range that begins inside a block and ends at the end of the vector makes the code read a block
behind the last one. -/
theorem C48_unaligned_first_to_end_is_undefined {P : Par} {key : α → Nat} {srt : List α → List α} {vb : List (List α)}
    {fb fo : Nat} (hmem : 4 * P.ndisks + 2 ≤ P.m) (hfo : fo ≠ 0) :
    stableKsort P key srt vb fb fo vb.length 0 = .undef := by
  unfold stableKsort
  rw [if_neg (by omega)]
  dsimp only
  rw [if_pos hfo, if_pos (by omega)]

/-- What "stable" means: elements with equal keys keep their order. -/
def Stable (key : α → Nat) (l r : List α) : Prop := ∀ k, r.filter (fun x => key x == k) = l.filter (fun x => key x == k)

namespace Ex

/-- Records: key (two bits) and a tag. -/
abbrev Rec := Fin 16 × Nat
def key (x : Rec) : Nat := x.1.val
def P : Par := { w := 4, B := 4, tk := 16, L2 := 524288, m := 8, ndisks := 1 }
def srt : List Rec → List Rec := fun l => l.mergeSort fun a b => !klt key b a

theorem srt_ok : Srt.SortFn (klt key) srt where
  sorted := by
    intro l
    have := List.pairwise_mergeSort (le := fun a b => !klt key b a) (by intro a b c; simp [klt]; omega)
      (by intro a b; simp [klt]; omega) l
    refine this.imp ?_
    intro a b h
    simpa using h
  perm := fun l => List.mergeSort_perm _ _

def vb : List (List Rec) :=
  [[(9, 0), (2, 1), (1, 2), (0, 3)], [(5, 4), (4, 5), (13, 6), (12, 7)], [(0, 8), (8, 9), (6, 10), (4, 11)],
   [(15, 12), (14, 13), (12, 14), (8, 15)]]

theorem pre (fo lb lo : Nat) (h1 : fo < 4) (h2 : lo < 4) (h3 : 1 ≤ lb) (h4 : lb * 4 + lo ≤ 16) : Pre P key vb 0 fo lb lo where
  B := by decide
  len := by decide
  first_off := h1
  last_off := h2
  le := by simp only [P]; omega
  last := by simp only [P, vb, List.length_cons, List.length_nil]; omega
  key := fun x => x.1.isLt

theorem uniform : Uniform P key (range P vb 0 0 4 0) 1 where
  fits := by decide
  parts := by decide
  first := by decide
  bits := by decide

example : Result P key vb 0 0 4 0 (stableKsort P key srt vb 0 0 4 0) :=
  C48_stable_ksort srt_ok (pre 0 4 0 (by decide) (by decide) (by decide) (by decide)) (by decide) (by decide) uniform (Or.inl ⟨rfl, rfl⟩)

/-- Only small keys: undefined. -/
example : ∀ vb', stableKsort P key srt [[(0, 0), (1, 1), (2, 2), (3, 3)]] 0 0 1 0 ≠ .ok vb' :=
  C48_missing_prefix_never_ok (k := 3)
    { B := by decide, len := by decide, first_off := by decide, last_off := by decide, le := by decide, last := by decide,
      key := fun x => x.1.isLt } (by decide) (by decide) (by decide) (by decide)

example : stableKsort P key srt vb 0 0 3 2 = .undef :=
  C48_aligned_first_unaligned_last_is_undefined (pre 0 3 2 (by decide) (by decide) (by decide) (by decide)) (by decide) (by decide)

end Ex

/-- **C48 (violated).** The sort is not stable, not even where it sorts correctly: in the example above the two records with
key 0 are exchanged. -/
theorem C48_not_stable : Result Ex.P Ex.key Ex.vb 0 0 4 0 (stableKsort Ex.P Ex.key Ex.srt Ex.vb 0 0 4 0) ∧
    ∃ vb', stableKsort Ex.P Ex.key Ex.srt Ex.vb 0 0 4 0 = .ok vb' ∧ ¬ Stable Ex.key Ex.vb.flatten vb'.flatten := by
  refine ⟨C48_stable_ksort Ex.srt_ok (Ex.pre 0 4 0 (by decide) (by decide) (by decide) (by decide)) (by decide) (by decide)
    Ex.uniform (Or.inl ⟨rfl, rfl⟩), _, rfl, ?_⟩
  intro h
  have := h 0
  revert this
  decide +kernel

end Stxxl.SKSort
