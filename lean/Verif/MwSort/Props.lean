import Verif.MwSort.Proof
/-!
# C85: parallel multiway mergesort
-/
namespace Stxxl.MwSort
open MwMerge MwMerge.Spec Spec
variable {α : Type} {lt : α → α → Bool}

theorem holds_store {mem : Nat → Option α} {out : List α} {ws : List (α × Nat)} (h : List.Perm ws out.zipIdx) :
    holds out mem (store mem ws) := by
  intro i
  rw [store_zipIdx h]
  rfl

/-- **C85.** Exact splitting (the default). For every number of threads greater than zero, the array is sorted afterwards, in whatever
order the threads write, if no two elements are equivalent or there are at most two threads. -/
theorem C85_exact (hw : SWO lt) (kind : Kind) {lib : Lib α} (hl : lib.Ok lt) {c : Conf} (hc : c.splitting = .exact)
    (halgo : c.algo = .bubble ∨ c.algo = .loserTree) (junk1 : Nat → Nat → Nat) (junk2 : Nat → Nat → Node α) {src : List α} {numThreads : Nat}
    (hp : 0 < numThreads) (hn : src.length < 2 ^ 64) (hE : src.Pairwise (fun x y => equiv lt x y = false) ∨ numThreads ≤ 2) :
    ∃ ws out, sortMwms lt kind lib c junk1 junk2 src numThreads = some ws ∧ Sorts lt false src out ∧
      ∀ (mem : Nat → Option α) (order : List (α × Nat)), (∀ i, i < src.length → mem i = src[i]?) → List.Perm order ws →
        holds out mem (store mem order) := by
  unfold sortMwms
  by_cases h1 : src.length ≤ 1
  · refine ⟨[], src, by rw [if_pos h1], ⟨.refl _, ?_, by simp⟩, ?_⟩
    · match src with
      | [] => exact List.Pairwise.nil
      | [x] => exact List.pairwise_singleton _ _
      | _ :: _ :: _ => simp at h1
    · intro mem order hm ho
      rw [List.Perm.eq_nil ho]
      intro i
      show mem i = _
      split
      · rename_i h; exact hm i h
      · rfl
  · rw [if_neg h1]
    dsimp only
    have hp0 : 0 < (if src.length < numThreads then src.length else numThreads) := by split <;> omega
    have hpn : (if src.length < numThreads then src.length else numThreads) ≤ src.length := by split <;> omega
    have hp2 : src.Pairwise (fun x y => equiv lt x y = false) ∨ (if src.length < numThreads then src.length else numThreads) ≤ 2 := by
      rcases hE with h | h
      · exact .inl h
      · right; split <;> omega
    generalize (if src.length < numThreads then src.length else numThreads) = p at hp0 hpn hp2
    rw [if_neg (by omega)]
    obtain ⟨bs, out, b1, b2, b3, b4⟩ := exact_run hw kind hl hc halgo junk1 junk2 hp0 hpn hn hp2
    rw [b1]
    refine ⟨out.zipIdx, out, b2, ⟨b3, b4, by simp⟩, ?_⟩
    intro mem order _ ho
    exact holds_store ho

/-- The splitters a run with sampling uses. -/
def chosen (lib : Lib α) (c : Conf) (src : List α) (p : Nat) : Option (List α) :=
  match allSamples lib src p (c.oversampling * p - 1) with
  | none => none
  | some sm => splitters sm p (c.oversampling * p - 1)

/-- **C85.** Splitting by sampling, for every `oversampling` greater than zero and chunks long enough for the samples
(`oversampling * threads` elements each). If there are at most four threads, or every thread gets an element, the array is sorted
afterwards, in whatever order the threads write, and with `Stable` equivalent elements keep their order. -/
theorem C85_sampling (hw : SWO lt) (kind : Kind) {lib : Lib α} (hl : lib.Ok lt) {c : Conf} (hc : c.splitting = .sampling)
    (hov : 0 < c.oversampling) (halgo : c.algo = .bubble ∨ c.algo = .loserTree) (junk1 : Nat → Nat → Nat) (junk2 : Nat → Nat → Node α)
    {src : List α} {p : Nat} (hp : 0 < p) (hp64 : p ≤ 2 ^ 64) (hlen : c.oversampling * p ≤ src.length / p)
    (hne : p ≤ 4 ∨ c.algo = .bubble ∨ ∃ vs, chosen lib c src p = some vs ∧
      ∀ i, i < p → share lt src (if i = 0 then none else vs[i - 1]?) vs[i]? ≠ []) :
    ∃ ws out, sortMwms lt kind lib c junk1 junk2 src p = some ws ∧ Sorts lt c.stable src out ∧
      ∀ (mem : Nat → Option α) (order : List (α × Nat)), (∀ i, i < src.length → mem i = src[i]?) → List.Perm order ws →
        holds out mem (store mem order) := by
  have hop : 0 < c.oversampling * p := Nat.mul_pos hov hp
  have hpn : p ≤ src.length := by
    by_contra h
    rw [Nat.div_eq_of_lt (by omega)] at hlen
    omega
  unfold sortMwms
  by_cases h1 : src.length ≤ 1
  · refine ⟨[], src, by rw [if_pos h1], ⟨.refl _, ?_, fun _ _ => rfl⟩, ?_⟩
    · match src with
      | [] => exact List.Pairwise.nil
      | [x] => exact List.pairwise_singleton _ _
      | _ :: _ :: _ => simp at h1
    · intro mem order hm ho
      rw [List.Perm.eq_nil ho]
      intro i
      show mem i = _
      split
      · rename_i h; exact hm i h
      · rfl
  · rw [if_neg h1]
    dsimp only
    rw [if_neg (show ¬ src.length < p by omega), if_neg (by omega)]
    have hS := sortedChunks hl c.stable src hp
    generalize sorted lib c.stable src p = S at hS
    obtain ⟨sm, vs, s1, s2, s3, s4⟩ := samples_ok hl src (p := p) (num := c.oversampling * p - 1) hp
      (by
        by_cases h : p = 1
        · exact .inr h
        · left
          have : 1 * p ≤ c.oversampling * p := Nat.mul_le_mul_right p hov
          omega)
      (by
        intro i hi
        have : rk src.length p (i + 1) - rk src.length p i ≥ src.length / p := by
          unfold rk
          rw [Nat.add_mul, Nat.one_mul]
          have : Nat.min i (src.length % p) ≤ Nat.min (i + 1) (src.length % p) := by
            simp only [Nat.min_def]; split <;> split <;> omega
          omega
        omega)
    have hb : bounds lt lib c src p S =
        some (S.map (fun _ => 0) :: (vs.map (fun v => S.map fun s => MultiSeq.lowerBound lt s v) ++ [S.map List.length])) := by
      unfold bounds
      rw [hc]
      dsimp only
      rw [if_neg (by omega), s1]
      dsimp only
      rw [s2]
    rw [hb]
    dsimp only
    obtain ⟨o, r1, r2, r3, r4⟩ := sampling_run hw kind halgo junk1 junk2 hS.sorted (by rw [hS.count]; exact hp64) vs 0 none
      (by intro t _; trivial) s4
      (by
        rcases hne with h | h | ⟨vs', h, h'⟩
        · left; rw [hS.count]; exact h
        · exact .inr (.inl h)
        · refine .inr (.inr ?_)
          intro i hi
          have e : vs' = vs := by
            unfold chosen at h
            rw [s1] at h
            dsimp only at h
            rw [s2] at h
            exact (Option.some.inj h).symm
          rw [e] at h'
          intro hcon
          refine h' i (by omega) ?_
          have : List.Perm (share lt S.flatten (if i = 0 then none else vs[i - 1]?) vs[i]?) (share lt src (if i = 0 then none else vs[i - 1]?) vs[i]?) :=
            hS.perm.filter _
          rw [hcon] at this
          exact List.Perm.eq_nil this.symm)
    have hbe : behind lt none S = S.flatten := by
      unfold behind low
      simp
    rw [hbe] at r3 r4
    have hz : (S.map (low lt none)).sum = 0 := by
      clear * -
      induction S with
      | nil => rfl
      | cons s S ih => simpa [low] using ih
    rw [hz] at r1
    refine ⟨o.zipIdx, o, r1, ⟨r3.trans hS.perm, r2, ?_⟩, ?_⟩
    · intro hst v
      rw [r4 hst v, hS.stable hst v]
    · intro mem order _ ho
      exact holds_store ho

namespace Ex
open MwMerge.Ex

/-- A stable sort for the examples. -/
def ins (lt : α → α → Bool) (x : α) : List α → List α
  | [] => [x]
  | y :: l => if lt y x then y :: ins lt x l else x :: y :: l
def isort (lt : α → α → Bool) : List α → List α
  | [] => []
  | x :: l => ins lt x (isort lt l)
def isLib (lt : α → α → Bool) : Lib α := ⟨isort lt, isort lt⟩

theorem ins_perm (lt : α → α → Bool) (x : α) (l : List α) : List.Perm (ins lt x l) (x :: l) := by
  induction l with
  | nil => exact .refl _
  | cons y l ih =>
    rw [ins]; split
    · exact (ih.cons y).trans (.swap x y l)
    · exact .refl _

theorem ins_sorted (hw : SWO lt) (x : α) {l : List α} (h : Sorted lt l) : Sorted lt (ins lt x l) := by
  induction l with
  | nil => exact List.pairwise_singleton _ _
  | cons y l ih =>
    have h' := List.pairwise_cons.1 h
    rw [ins]; split
    · rename_i hyx
      refine List.pairwise_cons.2 ⟨?_, ih h'.2⟩
      intro z hz
      rcases List.mem_cons.1 ((ins_perm lt x l).subset hz) with rfl | hz
      · exact hw.asymm _ _ hyx
      · exact h'.1 z hz
    · rename_i hyx
      have hyx' : lt y x = false := by simpa using hyx
      refine List.pairwise_cons.2 ⟨?_, h⟩
      intro z hz
      rcases List.mem_cons.1 hz with rfl | hz
      · exact hyx'
      · exact hw.negtrans _ _ _ (h'.1 z hz) hyx'

theorem ins_filter (hw : SWO lt) (x v : α) (l : List α) : (ins lt x l).filter (equiv lt v) = (x :: l).filter (equiv lt v) := by
  induction l with
  | nil => rfl
  | cons y l ih =>
    rw [ins]; split
    · rename_i hyx
      rw [List.filter_cons, ih]
      by_cases h1 : equiv lt v y = true
      · have h2 : equiv lt v x = false := by
          cases h : equiv lt v x
          · rfl
          · simp only [equiv, Bool.and_eq_true, Bool.not_eq_true'] at h h1
            have := hw.negtrans _ _ _ h1.2 h.1
            rw [hyx] at this; cases this
        simp [List.filter_cons, h1, h2]
      · simp [List.filter_cons, h1]
    · rfl

theorem isLib_ok (hw : SWO lt) : (isLib lt).Ok lt := by
  have p : ∀ l, List.Perm (isort lt l) l := by
    intro l
    induction l with
    | nil => exact .refl _
    | cons x l ih => exact (ins_perm lt x _).trans (ih.cons x)
  have s : ∀ l, Sorted lt (isort lt l) := by
    intro l
    induction l with
    | nil => exact List.Pairwise.nil
    | cons x l ih => exact ins_sorted hw x ih
  refine ⟨p, s, p, s, ?_⟩
  intro l v
  show (isort lt l).filter _ = _
  induction l with
  | nil => rfl
  | cons x l ih =>
    rw [isort, ins_filter hw, List.filter_cons, List.filter_cons, ih]

def exactC : Conf := { stable := false }
def sampC : Conf := { stable := true, splitting := .sampling, oversampling := 1 }

example : ∃ ws out, sortMwms nlt .copy (isLib nlt) exactC jp1 jp2 [5, 3, 9, 1, 7, 0, 2] 3 = some ws ∧ Sorts nlt false [5, 3, 9, 1, 7, 0, 2] out ∧
    ∀ (mem : Nat → Option Nat) (order : List (Nat × Nat)), (∀ i, i < 7 → mem i = [5, 3, 9, 1, 7, 0, 2][i]?) → List.Perm order ws →
      holds out mem (store mem order) :=
  C85_exact nlt_swo .copy (isLib_ok nlt_swo) rfl (.inr rfl) jp1 jp2 (by decide) (by decide) (.inl (by decide))

example : sortMwms nlt .copy (isLib nlt) exactC jp1 jp2 [5, 3, 9, 1, 7, 0, 2] 3 =
    some [(0, 0), (1, 1), (2, 2), (3, 3), (5, 4), (7, 5), (9, 6)] := by decide +kernel

def five5 : List (Nat × Nat) :=
  [(4, 0), (1, 0), (9, 0), (6, 0), (2, 0), (2, 1), (7, 1), (0, 1), (9, 1), (3, 1), (1, 2), (6, 2), (8, 2), (2, 2), (4, 2), (3, 3), (7, 3), (1, 3),
   (5, 3), (6, 3), (0, 4), (4, 4), (8, 4), (2, 4), (9, 4)]

example : chosen (isLib plt) sampC five5 5 = some [(2, 2), (4, 4), (6, 3), (8, 4)] := by decide +kernel

example : ∃ ws out, sortMwms plt .pointer (isLib plt) sampC jp1 jq2 five5 5 = some ws ∧ Sorts plt true five5 out ∧
    ∀ (mem : Nat → Option (Nat × Nat)) (order : List ((Nat × Nat) × Nat)), (∀ i, i < five5.length → mem i = five5[i]?) → List.Perm order ws →
      holds out mem (store mem order) :=
  C85_sampling plt_swo .pointer (isLib_ok plt_swo) rfl (by decide) (.inr rfl) jp1 jq2 (by decide) (by decide) (by decide)
    (.inr (.inr ⟨[(2, 2), (4, 4), (6, 3), (8, 4)], by decide +kernel, by decide +kernel⟩))

end Ex
open Ex MwMerge.Ex

/-- **C85.** Exact splitting, three threads, equivalent elements: the boundaries of the threads cross, and a thread merges a sequence of
negative length. -/
theorem C85_exact_ties_break :
    sortMwms nlt .copy (isLib nlt) exactC jp1 jp2 [0, 0, 0, 1, 1, 0, 0, 0, 0, 1, 0, 0, 0, 0] 3 = none := by decide +kernel

/-- **C85.** Exact splitting, `Stable`, two threads: equivalent elements change places. -/
theorem C85_exact_not_stable :
    ∃ ws, sortMwms plt .copy (isLib plt) { stable := true } jp1 jq2 [(1, 0), (0, 1), (0, 2), (0, 3), (0, 4), (0, 5), (0, 6)] 2 = some ws ∧
      ∀ (mem : Nat → Option (Nat × Nat)) (order : List ((Nat × Nat) × Nat)), List.Perm order ws →
        ∀ out, holds out mem (store mem order) → out.length = 7 →
          ¬ Sorts plt true [(1, 0), (0, 1), (0, 2), (0, 3), (0, 4), (0, 5), (0, 6)] out := by
  refine ⟨[(0, 1), (0, 2), (0, 4), (0, 5), (0, 3), (0, 6), (1, 0)].zipIdx, by decide +kernel, ?_⟩
  intro mem order ho out hh hlen hs
  have h1 := holds_store (mem := mem) ho
  have e : out = [(0, 1), (0, 2), (0, 4), (0, 5), (0, 3), (0, 6), (1, 0)] := by
    apply List.ext_getElem?
    intro i
    by_cases h : i < 7
    · have a := hh i
      have b := h1 i
      rw [if_pos (by omega)] at a
      rw [if_pos (by simpa using h)] at b
      rw [← a, ← b]
    · rw [List.getElem?_eq_none (by omega), List.getElem?_eq_none (by simp; omega)]
  have := hs.stable rfl (0, 0)
  rw [e] at this
  revert this
  decide

theorem collect_mem {β : Type} : ∀ {l : List (Option β)} {r : List β}, collect l = some r → ∀ x ∈ r, some x ∈ l := by
  intro l
  induction l with
  | nil => intro r h; simp [collect] at h; simp [h]
  | cons a l ih =>
    intro r h x hx
    cases a with
    | none => simp [collect] at h
    | some a =>
      cases hc : collect l with
      | none => simp [collect, hc] at h
      | some r' =>
        simp [collect, hc] at h
        subst h
        rcases List.mem_cons.1 hx with rfl | hx
        · exact List.mem_cons_self ..
        · exact List.mem_cons_of_mem _ (ih hc x hx)

theorem collect_none {β : Type} : ∀ {l : List (Option β)}, none ∈ l → collect l = none := by
  intro l
  induction l with
  | nil => intro h; simp at h
  | cons a l ih =>
    intro h
    cases a with
    | none => simp [collect]
    | some a =>
      have : none ∈ l := by simpa using h
      simp [collect, ih this]

theorem splitters_mem {lib : Lib α} (hl : lib.Ok lt) {src : List α} {p num : Nat} {sm vs : List α} (h1 : allSamples lib src p num = some sm)
    (h2 : splitters sm p num = some vs) : ∀ v ∈ vs, v ∈ src := by
  intro v hv
  unfold splitters at h2
  obtain ⟨i, _, hi⟩ := List.mem_map.1 (collect_mem h2 v hv)
  have hvs := List.mem_of_getElem? hi
  unfold allSamples at h1
  split at h1
  · cases h1
  · rename_i ss hss
    have e := Option.some.inj h1
    rw [← e] at hvs
    obtain ⟨l, hl1, hl2⟩ := List.mem_flatten.1 ((hl.sort_perm _).subset hvs)
    obtain ⟨k, _, hk⟩ := List.mem_map.1 (collect_mem hss l hl1)
    unfold samplesOf at hk
    obtain ⟨j, _, hj⟩ := List.mem_map.1 (collect_mem hk v hl2)
    exact List.mem_of_getElem? hj

/-- **C85.** Sampling with at least five threads and a loser tree, when all elements are equivalent: nothing is less than a splitter, so all
threads but the last have only empty sequences, and the loser tree dereferences a null pointer (C65). -/
theorem C85_sampling_all_equal_crashes (kind : Kind) {lib : Lib α} (hl : lib.Ok lt) {c : Conf} (hc : c.splitting = .sampling)
    (hov : 0 < c.oversampling) (halgo : c.algo = .loserTree) (junk1 : Nat → Nat → Nat) (junk2 : Nat → Nat → Node α) {src : List α} {p : Nat}
    (hp : 5 ≤ p) (hlen : c.oversampling * p ≤ src.length / p) (heq : ∀ x ∈ src, ∀ y ∈ src, lt x y = false) :
    sortMwms lt kind lib c junk1 junk2 src p = none := by
  have hop : 1 * p ≤ c.oversampling * p := Nat.mul_le_mul_right p hov
  have hpn : p ≤ src.length := by
    by_contra h
    rw [Nat.div_eq_of_lt (by omega)] at hlen
    omega
  unfold sortMwms
  rw [if_neg (by omega)]
  dsimp only
  rw [if_neg (show ¬ src.length < p by omega), if_neg (by omega)]
  have hS := sortedChunks hl c.stable src (p := p) (by omega)
  generalize sorted lib c.stable src p = S at hS
  obtain ⟨sm, vs, s1, s2, s3, _⟩ := samples_ok hl src (p := p) (num := c.oversampling * p - 1) (by omega) (by left; omega)
    (by
      intro i hi
      have : rk src.length p (i + 1) - rk src.length p i ≥ src.length / p := by
        unfold rk
        rw [Nat.add_mul, Nat.one_mul]
        have : Nat.min i (src.length % p) ≤ Nat.min (i + 1) (src.length % p) := by
          simp only [Nat.min_def]; split <;> split <;> omega
        omega
      omega)
  have hb : bounds lt lib c src p S =
      some (S.map (fun _ => 0) :: (vs.map (fun v => S.map fun s => MultiSeq.lowerBound lt s v) ++ [S.map List.length])) := by
    unfold bounds
    rw [hc]
    dsimp only
    rw [if_neg (by omega), s1]
    dsimp only
    rw [s2]
  rw [hb]
  dsimp only
  have hmem := splitters_mem hl s1 s2
  cases vs with
  | nil => simp at s3; omega
  | cons v vs =>
    have hv := hmem v (List.mem_cons_self ..)
    have e : (S.map fun s => MultiSeq.lowerBound lt s v) = S.map fun _ => 0 := by
      apply List.map_congr_left
      intro s hs
      unfold MultiSeq.lowerBound
      cases s with
      | nil => rfl
      | cons x s =>
        have := heq x (hS.perm.subset (List.mem_flatten.2 ⟨_, hs, List.mem_cons_self ..⟩)) v hv
        simp [this]
    simp only [List.map_cons, List.cons_append]
    rw [e, threads]
    have : thread lt kind c (junk1 0) (junk2 0) S (S.map fun _ => 0) (S.map fun _ => 0) = none := by
      unfold thread
      rw [chunk_map (fun _ => 0) (fun _ => 0) S (fun _ _ => Nat.le_refl _)]
      dsimp only
      have hf : (S.map fun s => (s.drop 0).take (0 - 0)).flatten = [] := by simp
      have ht : total (S.map fun s => (s.drop 0).take (0 - 0)) = 0 := by rw [total_flatten, hf]; rfl
      rw [ht, halgo, C65_all_empty_null_dereference lt kind c.stable (junk1 0) (junk2 0) (by rw [List.length_map, hS.count]; exact hp) hf]
    rw [this]

/-- **C85.** Sampling, when the chunks are shorter than the number of samples wanted from them: the last thread reads behind the end of the
array. -/
theorem C85_sampling_small_reads_past_end (lib : Lib α) (kind : Kind) {c : Conf} (hc : c.splitting = .sampling)
    (junk1 : Nat → Nat → Nat) (junk2 : Nat → Nat → Node α) {src : List α} {p : Nat} (hp : 0 < p) (h2 : 2 ≤ src.length) (hpn : p ≤ src.length)
    (hop : 2 ≤ c.oversampling * p) (hlen : src.length / p < c.oversampling * p) :
    sortMwms lt kind lib c junk1 junk2 src p = none := by
  unfold sortMwms
  rw [if_neg (by omega)]
  dsimp only
  rw [if_neg (show ¬ src.length < p by omega), if_neg (by omega)]
  have hs : samplesOf src p (c.oversampling * p - 1) (p - 1) = none := by
    unfold samplesOf
    dsimp only
    apply collect_none
    refine List.mem_map.2 ⟨c.oversampling * p - 1 - 1, List.mem_range.2 (by omega), ?_⟩
    rw [starts_getD (by omega), starts_getD (by omega), show p - 1 + 1 = p by omega, rk_last hp,
      equallySplit_getD (by omega) (by omega)]
    apply List.getElem?_eq_none
    have hL : src.length - rk src.length p (p - 1) = src.length / p := by
      have h1 := Nat.mod_lt src.length hp
      have h3 := Nat.div_add_mod src.length p
      have h4 : (p - 1) * (src.length / p) + src.length / p = p * (src.length / p) := by
        rw [Nat.sub_mul, Nat.one_mul]
        have : src.length / p ≤ p * (src.length / p) := Nat.le_mul_of_pos_left _ hp
        omega
      have h5 : Nat.min (p - 1) (src.length % p) = src.length % p := Nat.min_eq_right (by omega)
      unfold rk
      rw [h5]
      clear h5 hlen
      generalize src.length / p = q at *
      generalize src.length % p = m at *
      omega
    have hle : rk src.length p (p - 1) ≤ src.length := by
      have := rk_mono (n := src.length) (p := p) (i := p - 1) (j := p) (by omega)
      rwa [rk_last hp] at this
    rw [hL]
    have hr : rk (src.length / p) (c.oversampling * p - 1 + 1) (c.oversampling * p - 1 - 1 + 1) = src.length / p := by
      unfold rk
      rw [Nat.div_eq_of_lt (by omega), Nat.mod_eq_of_lt (by omega), Nat.mul_zero, Nat.zero_add]
      exact Nat.min_eq_right (by omega)
    rw [hr]
    omega
  have hb : bounds lt lib c src p (sorted lib c.stable src p) = none := by
    unfold bounds
    rw [hc]
    dsimp only
    split
    · rfl
    · have : allSamples lib src p (c.oversampling * p - 1) = none := by
        unfold allSamples
        rw [collect_none (List.mem_map.2 ⟨p - 1, List.mem_range.2 (by omega), hs⟩)]
      rw [this]
  rw [hb]

example : sortMwms nlt .copy (isLib nlt) { stable := false, splitting := .sampling } jp1 jp2 [5, 3, 9] 2 = none :=
  C85_sampling_small_reads_past_end _ _ rfl _ _ (by decide) (by decide) (by decide) (by decide) (by decide)

example : sortMwms nlt .copy (isLib nlt) { stable := false, splitting := .sampling, oversampling := 1 } jp1 jp2 (List.replicate 25 7) 5 = none :=
  C85_sampling_all_equal_crashes _ (isLib_ok nlt_swo) rfl (by decide) rfl _ _ (by decide) (by decide) (by decide)

end Stxxl.MwSort
