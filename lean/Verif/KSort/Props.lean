import Verif.KSort.Radix
import Verif.Sort.Props

/-!
# C47: `ksort`
-/

namespace Stxxl.KSort

open Stxxl.Srt

variable {α : Type}

/-- The radix sort of a run as a function on lists. -/
def rsort (P : RP) (key : α → Nat) (srt : List α → List α) (m2 : Nat) (l : List α) : List α :=
  (runSort P key srt m2 l l).getD []

theorem rsort_fn {P : RP} {m2 : Nat} (G : P.Good m2) {key : α → Nat} (hk : ∀ x, key x < 2 ^ P.w) {srt : List α → List α}
    (hs : SortFn (klt key) srt) : SortFn (klt key) (rsort P key srt m2) where
  sorted l := by
    obtain ⟨r, h1, h2, _⟩ := runSort_spec G hs (l := l) (junk := l) (fun x _ => hk x) rfl
    rw [rsort, h1]; exact h2
  perm l := by
    obtain ⟨r, h1, _, h3⟩ := runSort_spec G hs (l := l) (junk := l) (fun x _ => hk x) rfl
    rw [rsort, h1]; exact h3

theorem createRuns_eq {rs : List α → List α → Option (List α)} {f : List α → List α} (h : ∀ l, rs l l = some (f l)) (B : Nat) :
    ∀ (outs : List (List Nat)) (d : D α) (inp : List Nat), createRuns rs B d inp outs = Srt.createRuns f B d inp outs := by
  intro outs
  induction outs with
  | nil => intro d inp; rfl
  | cons out outs ih =>
    intro d inp
    have e : ∀ d inp, createRun rs B d inp out = Srt.createRun f B d inp out := by
      intro d inp
      unfold createRun Srt.createRun
      cases h1 : rdAll d inp with
      | none => rfl
      | some xs =>
        dsimp only
        cases h2 : delAll inp d with
        | none => rfl
        | some d' => dsimp only; rw [h]
    rw [createRuns, Srt.createRuns, e]
    cases h1 : Srt.createRun f B d (inp.take out.length) out with
    | none => rfl
    | some r =>
      obtain ⟨r, d'⟩ := r
      dsimp only
      rw [ih]
      rfl

theorem m2_lt {P : RP} {m : Nat} (hB : 0 < P.B) (htk : 0 < P.tk) (hm : 2 ≤ m) : P.m2 m < m := by
  unfold RP.m2
  have hpos : 0 < P.B * P.tk := Nat.mul_pos hB htk
  rw [Nat.div_lt_iff_lt_mul (by omega)]
  have h1 : (m + 1) / 2 ≤ m := by omega
  have h2 : (m + 1) / 2 * P.raw ≤ m * P.raw := Nat.mul_le_mul_right _ h1
  have h3 : m * (P.raw + P.B * P.tk) = m * P.raw + m * (P.B * P.tk) := Nat.mul_add _ _ _
  have h4 : 0 < m * (P.B * P.tk) := Nat.mul_pos (by omega) hpos
  omega

/-- `ksort_blocks` does to whole blocks what `sort_blocks` does. -/
theorem ksortBlocks_ok {P : RP} {m : Nat} {pick : Pick} (hpk : PickOk pick) {key : α → Nat} (hk : ∀ x, key x < 2 ^ P.w)
    {srt : List α → List α} (hsrt : SortFn (klt key) srt) (hB : 0 < P.B) (htk : 0 < P.tk) {mf : Nat → Nat → Nat}
    (hmf : ∀ r m, 2 ≤ r → 2 ≤ m → 2 ≤ mf r m) (hm2 : P.m2 m ≠ 0) (G : P.Good (P.m2 m)) :
    SbOk (klt key) P.B m (ksortBlocks pick P key srt mf) := by
  intro hm d inp R h hn hb
  have hs := klt_swo key
  have hlt := m2_lt hB htk hm
  obtain ⟨s1, s2, s3, s4⟩ := runSizes_shape (n := inp.length) (m2 := P.m2 m) (by omega) (by omega)
  obtain ⟨a1, a2, a3⟩ := allocRuns_spec hpk (runSizes inp.length (P.m2 m)) h
  unfold ksortBlocks
  dsimp only
  rw [if_neg hm2]
  generalize allocRuns pick (runSizes inp.length (P.m2 m)) d = A at *
  have h1 : Own A.2 (inp ++ A.1.flatten) R := a3.congr (List.perm_append_comm.append_right _)
  obtain ⟨rs, d1, c1, c2, c3, c4, c5, c6⟩ := createRuns_spec (rsort_fn G hk hsrt) hB A.1 h1
    (by rw [List.length_flatten, a1, s2]) (fun b hb' => by rw [a2]; exact hb b hb')
  rw [createRuns_eq (f := rsort P key srt (P.m2 m)) (fun l => by
    obtain ⟨r, h1, _, _⟩ := runSort_spec G hsrt (l := l) (junk := l) (fun x _ => hk x) rfl
    rw [rsort, h1]; rfl), c1]
  dsimp only
  have hlens : rs.map List.length = runSizes inp.length (P.m2 m) := by
    have : rs.map List.length = (rs.map bidsOf).map List.length := by
      rw [List.map_map]; apply List.map_congr_left; intro r _; simp [bidsOf]
    rw [this, c2, a1]
  obtain ⟨r, d2, e1, e2, e3, e4, e5, e6⟩ := phases_spec hpk hs hB (hmf _ m s3 hm) (rs.length + 1) d1 rs _ (by omega)
    (by rw [bidsOf_flatten, c2]; exact c3) (by rw [hlens]; exact s1) c5
  refine ⟨r, d2, e1, e2, e3.1, e3.2, ?_, by rw [e6, hlens, s2], ?_⟩
  · rw [a2] at c6
    exact e5.trans c6
  · intro b hb'; rw [e4 b hb', c4 b hb', a2]

/-- What is assumed about the allocator, `std::sort`, the key extractor and the merge factor. -/
structure Env (pick : Pick) (P : RP) (key : α → Nat) (srt : List α → List α) (mf : Nat → Nat → Nat) : Prop where
  pick : PickOk pick
  srt : SortFn (klt key) srt
  /-- keys are unsigned numbers of `w` bits -/
  key : ∀ x, key x < 2 ^ P.w
  mf : ∀ r m, 2 ≤ r → 2 ≤ m → 2 ≤ mf r m
  tk : 0 < P.tk

/-- The conditions on memory, block size and element size under which the radix sort of the runs is defined: at least one
block per run; the keys of a run do not fill exactly one `STXXL_L2_SIZE` (rounded down); the number of buckets chosen does
not exceed the number of keys, nor what the bits of a key can tell apart. In terms of `n`, the number of elements of a run:
`n * sizeof(type_key) / L2 ≠ 1`, and with `k` the number of bits of the first pass, `2^(k+1) ≤ n < 2^(w+2)`. -/
structure Fits (P : RP) (m : Nat) : Prop where
  run : P.m2 m ≠ 0
  cache : P.m2 m * P.B * P.tk / P.L2 ≠ 1
  many : 2 ^ (P.logK1 (P.m2 m) + 1) ≤ P.m2 m * P.B
  few : P.m2 m * P.B < 2 ^ (P.w + 2)

theorem logK1_pos {P : RP} {m2 : Nat} (h : m2 * P.B * P.tk / P.L2 ≠ 1) : 1 ≤ P.logK1 m2 := by
  unfold RP.logK1 ilog2Ceil
  generalize m2 * P.B * P.tk / P.L2 = z at *
  split <;> (rw [if_neg (by omega)]; omega)

theorem Fits.good {P : RP} {m : Nat} (h : Fits P m) : P.Good (P.m2 m) := by
  have h1 := logK1_pos h.cache
  have hne : P.m2 m * P.B ≠ 0 := by
    have := h.many
    have := Nat.two_pow_pos (P.logK1 (P.m2 m) + 1)
    omega
  have h2 : P.logK1 (P.m2 m) + 1 ≤ (P.m2 m * P.B).log2 := (Nat.le_log2 hne).2 h.many
  have h3 : (P.m2 m * P.B).log2 < P.w + 2 := (Nat.log2_lt hne).2 h.few
  have e2 : P.logK2 (P.m2 m) = ((P.m2 m * P.B).log2 : Int) - P.logK1 (P.m2 m) - 1 := by rw [RP.logK2, ilog2Floor_eq]
  refine ⟨h1, ?_, ?_, ?_⟩
  · unfold RP.shift1; omega
  · omega
  · unfold RP.shift2 RP.shift1; omega

/-- **C47.** `ksort` sorts every range of every vector by key: the range becomes a sorted permutation of itself, nothing
outside of it changes, no block is lost or shared. It holds for ranges that fit into memory, and for others if the
parameters fit and the range does not start inside a block and end at the end of one. -/
theorem C47_ksort {pick : Pick} {P : RP} {key : α → Nat} {srt : List α → List α} {mf : Nat → Nat → Nat}
    (E : Env pick P key srt mf) {q : Par α} (hq : q.B = P.B) {d : D α} {vb R : List Nat} {fb fo lb lo : Nat}
    (p : Pre (klt key) q d vb R fb fo lb lo) (hfit : Fits P (q.M / q.fac / q.raw))
    (hcase : ¬ External q fb fo lb lo ∨ fo = 0 ∨ lo ≠ 0) :
    Result (klt key) q d vb R fb fo lb lo (ksort pick P key srt mf q d vb fb fo lb lo) :=
  sortWith_spec ⟨E.pick, E.srt, klt_swo key, hq ▸ ksortBlocks_ok E.pick E.key E.srt (hq ▸ p.B) E.tk E.mf hfit.run hfit.good⟩ p hcase

/-! ## Where it fails -/

/-- **C47 (violated).** As for `sort`: a range that does not fit into memory, starts inside a block and ends at the end of
one makes `ksort` use an invalid iterator. -/
theorem C47_unaligned_first_aligned_last_is_undefined {pick : Pick} {P : RP} {key : α → Nat} {srt : List α → List α}
    {mf : Nat → Nat → Nat} (E : Env pick P key srt mf) {q : Par α} (hq : q.B = P.B) {d : D α} {vb R : List Nat} {fb fo lb : Nat}
    (p : Pre (klt key) q d vb R fb fo lb 0) (hfit : Fits P (q.M / q.fac / q.raw)) (hext : External q fb fo lb 0) (hfo : fo ≠ 0) :
    ksort pick P key srt mf q d vb fb fo lb 0 = none :=
  sortWith_undefined ⟨E.pick, E.srt, klt_swo key, hq ▸ ksortBlocks_ok E.pick E.key E.srt (hq ▸ p.B) E.tk E.mf hfit.run hfit.good⟩
    p hext hfo

theorem count_cons_none {idx : α → Option Nat} {l : List α} {b : List Nat} (h : ∀ x, idx x = none) (hl : l ≠ []) :
    count idx l b = none := by
  cases l with
  | nil => exact absurd rfl hl
  | cons x xs => simp [count, h]

/-- The radix sort of a run is undefined if the number of bits of the first pass is zero (a shift by the full width), or
if more buckets are asked for than there are keys (a negative shift). -/
theorem runSort_none {P : RP} {m2 : Nat} {key : α → Nat} {srt : List α → List α} {junk l : List α} (hl : l ≠ [])
    (h : P.logK1 m2 = 0 ∨ P.logK2 m2 < 0) : runSort P key srt m2 junk l = none := by
  unfold runSort
  by_cases hn : P.logK2 m2 < 0
  · rw [if_pos hn]
  · rw [if_neg hn]
    dsimp only
    rw [count_cons_none (fun x => ?_) hl]
    have h0 : P.logK1 m2 = 0 := by omega
    unfold bidx RP.shift1
    rw [if_neg (by omega)]

theorem createRuns_none {rs : List α → List α → Option (List α)} {B : Nat} (hB : 0 < B) (h : ∀ l, l ≠ [] → rs l l = none)
    {outs : List (List Nat)} {d : D α} {inp : List Nat} (ho : ∃ out os, outs = out :: os ∧ 0 < out.length)
    (hi : inp ≠ []) (hd : ∀ b ∈ inp, (d.disk b).length = B) : createRuns rs B d inp outs = none := by
  obtain ⟨out, os, rfl, hlen⟩ := ho
  have e : createRun rs B d (inp.take out.length) out = none := by
    unfold createRun
    cases h1 : rdAll d (inp.take out.length) with
    | none => rfl
    | some xs =>
      dsimp only
      cases h2 : delAll (inp.take out.length) d with
      | none => rfl
      | some d' =>
        dsimp only
        rw [h]
        intro hc
        cases inp with
        | nil => exact hi rfl
        | cons b bs =>
          obtain ⟨n, hn⟩ : ∃ n, out.length = n + 1 := ⟨out.length - 1, by omega⟩
          rw [hn, List.take_succ_cons, rdAll] at h1
          unfold rd at h1
          by_cases hb : b ∈ d.live
          · rw [if_pos hb] at h1
            cases h3 : rdAll d (bs.take n) with
            | none => rw [h3] at h1; simp at h1
            | some ys =>
              rw [h3] at h1
              simp only [Option.some.injEq] at h1
              rw [← h1, List.flatten_cons, List.append_eq_nil_iff] at hc
              have := hd b (by simp)
              rw [hc.1] at this
              simp at this
              omega
          · rw [if_neg hb] at h1; simp at h1
  rw [createRuns, e]

/-- **C47 (violated).** The parameters that do not fit are not rejected: sorting a whole vector that does not fit into
memory divides by zero if memory is so small that no block of a run is left beside the keys, shifts by the width of the key
type if the keys of a run fill one `STXXL_L2_SIZE` (and less than two), and shifts by a negative number if a run has fewer
elements than buckets. -/
theorem C47_unfit_parameters_are_undefined {pick : Pick} (hpk : PickOk pick) {P : RP} {key : α → Nat} {srt : List α → List α}
    {mf : Nat → Nat → Nat} (htk : 0 < P.tk)
    {q : Par α} (hq : q.B = P.B) {d : D α} {vb R : List Nat} {fb lb : Nat}
    (p : Pre (klt key) q d vb R fb 0 lb 0) (hext : External q fb 0 lb 0)
    (hbad : P.m2 (q.M / q.fac / q.raw) = 0 ∨
      P.m2 (q.M / q.fac / q.raw) * P.B * P.tk / P.L2 = 1 ∨
      P.m2 (q.M / q.fac / q.raw) * P.B < 2 ^ (P.logK1 (P.m2 (q.M / q.fac / q.raw)) + 1)) :
    ksort pick P key srt mf q d vb fb 0 lb 0 = none := by
  obtain ⟨hm, hspan⟩ := sizes p hext
  have hB := p.B
  have hlast : lb * q.B + 0 ≤ vb.length * q.B := p.last
  have hspan' : q.M / q.fac / q.raw * q.B ≤ (lb * q.B + 0) - (fb * q.B + 0) := hspan
  have hmb : q.M / q.fac / q.raw ≤ lb - fb := by
    have e : (lb * q.B + 0) - (fb * q.B + 0) = (lb - fb) * q.B := by rw [Nat.sub_mul]; omega
    rw [e] at hspan'
    exact Nat.le_of_mul_le_mul_right hspan' hB
  have hlblen : lb ≤ vb.length := Nat.le_of_mul_le_mul_right (by omega : lb * q.B ≤ vb.length * q.B) hB
  unfold ksort sortWith
  have hext' : ¬ ((lb * q.B + 0) - (fb * q.B + 0)) * q.sz * q.fac < q.M := Nat.not_lt.2 hext
  rw [if_neg hext']
  have hmem := p.mem
  rw [if_neg (by simpa using hmem)]
  dsimp only
  simp only [ne_eq, not_true_eq_false, if_false]
  generalize q.M / q.fac / q.raw = m at *
  have key0 : ksortBlocks pick P key srt mf m d ((vb.drop fb).take (lb - fb)) = none := by
    unfold ksortBlocks
    dsimp only
    by_cases h0 : P.m2 m = 0
    · rw [if_pos h0]
    · rw [if_neg h0]
      have hll : ((vb.drop fb).take (lb - fb)).length = lb - fb := by rw [List.length_take, List.length_drop]; omega
      rw [hll]
      have hlt := m2_lt (P := P) (hq ▸ hB) htk hm
      have ha := allocRuns_spec hpk (runSizes (lb - fb) (P.m2 m)) p.own
      obtain ⟨s1, s2, s3, s4⟩ := runSizes_shape (n := lb - fb) (m2 := P.m2 m) (by omega) (by omega)
      have hbad' : P.logK1 (P.m2 m) = 0 ∨ P.logK2 (P.m2 m) < 0 := by
        rcases hbad with h | h | h
        · exact absurd h h0
        · left
          unfold RP.logK1
          rw [h]; rfl
        · right
          unfold RP.logK2
          rw [ilog2Floor_eq]
          have hne : P.m2 m * P.B ≠ 0 := Nat.mul_ne_zero h0 (by omega)
          have := (Nat.log2_lt hne).2 h
          omega
      rw [createRuns_none (hq ▸ hB) (fun l hl => runSort_none hl hbad')]
      · have h1 := ha.1
        cases hA : (allocRuns pick (runSizes (lb - fb) (P.m2 m)) d).1 with
        | nil => rw [hA] at h1; simp only [List.map_nil] at h1; rw [← h1] at s4; simp at s4
        | cons o os =>
          rw [hA, List.map_cons] at h1
          rw [← h1] at s4
          simp at s4
          exact ⟨o, os, rfl, by omega⟩
      · intro hc
        rw [hc] at hll; simp at hll; omega
      · intro b hb
        rw [ha.2.1, ← hq]
        exact p.len b (List.mem_of_mem_drop (List.mem_of_mem_take hb))
  rw [key0]

/-! ## Examples -/

namespace Ex

def key : Fin 256 → Nat := fun x => x.val
def P : RP := { w := 8, B := 4, tk := 1, L2 := 1000, raw := 64 }
def q : Par (Fin 256) := { B := 4, sz := 16, raw := 64, fac := 1, M := 256, minV := 0, maxV := 255 }
def d : D (Fin 256) :=
  { disk := fun b => [[9, 3, 250, 77], [7, 5, 5, 200], [8, 2, 1, 254], [6, 1, 100, 99], [40, 41, 39, 38], [3, 3, 3, 2]].getD b [],
    live := [7, 0, 1, 2, 3, 4, 5], clk := 0 }
def srt : List (Fin 256) → List (Fin 256) := fun l => l.mergeSort fun a b => !klt key b a

theorem env : Env Srt.Ex.pick P key srt (fun _ _ => 2) where
  pick := Srt.Ex.env.pick
  srt := {
    sorted := by
      intro l
      have := List.pairwise_mergeSort (le := fun a b => !klt key b a) (by intro a b c; simp [klt]; omega)
        (by intro a b; simp [klt]; omega) l
      refine this.imp ?_
      intro a b h
      simpa using h
    perm := fun l => List.mergeSort_perm _ _ }
  key := fun x => x.isLt
  mf := by intros; omega
  tk := by decide

theorem pre (fo lb lo : Nat) (h1 : fo < 4) (h2 : lo < 4) (h3 : 1 ≤ lb) (h4 : lb * 4 + lo ≤ 24) :
    Pre (klt key) q d [0, 1, 2, 3, 4, 5] [7] 0 fo lb lo where
  B := by decide
  sz := by decide
  raw := by decide
  fac := by decide
  own := ⟨by decide, by decide⟩
  len := by decide
  first_off := h1
  last_off := h2
  le := by simp only [idx, q]; omega
  last := by simp only [idx, q, List.length_cons, List.length_nil]; omega
  mem := by decide
  minmax := by decide
  sent := by
    intro x _
    unfold klt key
    simp only [q, decide_eq_true_eq]
    have := x.isLt
    constructor
    · by_cases h : x = 0
      · right; exact h
      · left; have : x.val ≠ 0 := fun e => h (Fin.ext e)
        exact decide_eq_true (by change 0 < x.val; omega)
    · by_cases h : x = 255
      · right; exact h
      · left; have : x.val ≠ 255 := fun e => h (Fin.ext e)
        exact decide_eq_true (by change x.val < 255; omega)

theorem fits : Fits P (q.M / q.fac / q.raw) where
  run := by decide
  cache := by decide
  many := by decide
  few := by decide

example : External q 0 0 6 0 ∧ External q 0 1 5 2 ∧ External q 0 1 5 0 := by unfold External; decide

example : Result (klt key) q d [0, 1, 2, 3, 4, 5] [7] 0 1 5 2 (ksort Srt.Ex.pick P key srt (fun _ _ => 2) q d [0, 1, 2, 3, 4, 5] 0 1 5 2) :=
  C47_ksort env rfl (pre 1 5 2 (by decide) (by decide) (by decide) (by decide)) fits (Or.inr (Or.inr (by decide)))

example : ksort Srt.Ex.pick P key srt (fun _ _ => 2) q d [0, 1, 2, 3, 4, 5] 0 1 5 0 = none :=
  C47_unaligned_first_aligned_last_is_undefined env rfl (pre 1 5 0 (by decide) (by decide) (by decide) (by decide)) fits
    (by unfold External; decide) (by decide)

/-- The bad parameters: two blocks of memory, ... -/
example : ksort Srt.Ex.pick P key srt (fun _ _ => 2) { q with M := 128 } d [0, 1, 2, 3, 4, 5] 0 0 6 0 = none :=
  C47_unfit_parameters_are_undefined env.pick (by decide) rfl
    { pre 0 6 0 (by decide) (by decide) (by decide) (by decide) with mem := by decide } (by unfold External; decide) (Or.inl (by decide))

/-- ... or keys that fill the cache once. With records of 64 bytes, keys of 8 bytes, blocks of 2 MiB and 8 MiB of memory
that is the case. -/
example : ksort Srt.Ex.pick { P with L2 := 3 } key srt (fun _ _ => 2) q d [0, 1, 2, 3, 4, 5] 0 0 6 0 = none :=
  C47_unfit_parameters_are_undefined env.pick (by decide) rfl
    (pre 0 6 0 (by decide) (by decide) (by decide) (by decide)) (by unfold External; decide) (Or.inr (Or.inl (by decide)))

example : let P : RP := { w := 64, B := 32768, tk := 16, L2 := 524288, raw := 2097152 }
    P.m2 4 * P.B * P.tk / P.L2 = 1 := by decide

end Ex

end Stxxl.KSort
