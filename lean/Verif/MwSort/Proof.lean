import Verif.MwMerge.Props
import Verif.MwSort.Model
import Verif.MwSort.Spec
namespace Stxxl.MwSort
open MwMerge MwMerge.Spec Spec
open MultiSeq.Spec (leftPart rightPart Points)
open MultiSeq (partition lowerBound)
variable {α : Type} {lt : α → α → Bool}

/-- What the C++ standard says about `std::sort` and `std::stable_sort`. -/
structure Lib.Ok (lib : Lib α) (lt : α → α → Bool) : Prop where
  sort_perm : ∀ l, List.Perm (lib.sort l) l
  sort_sorted : ∀ l, Sorted lt (lib.sort l)
  stable_perm : ∀ l, List.Perm (lib.stableSort l) l
  stable_sorted : ∀ l, Sorted lt (lib.stableSort l)
  stable_stable : ∀ l v, (lib.stableSort l).filter (equiv lt v) = l.filter (equiv lt v)

theorem starts_getD {n p i : Nat} (hi : i ≤ p) : (starts n p).getD i 0 = rk n p i := by
  unfold starts
  rw [List.getD_eq_getElem?_getD]
  have := splitFrom_get (n / p) (n % p) (p + 1) 0 i (by omega)
  simp only [Nat.zero_mul, Nat.zero_add, Nat.zero_min] at this
  rw [this]; rfl

theorem chunkOf_eq (src : List α) {p i : Nat} (hi : i < p) :
    chunkOf src (starts src.length p) i = (src.drop (rk src.length p i)).take (rk src.length p (i + 1) - rk src.length p i) := by
  unfold chunkOf
  rw [starts_getD (by omega), starts_getD (by omega)]

theorem chunks_flatten (src : List α) (p : Nat) : ∀ k, k ≤ p →
    ((List.range k).map (chunkOf src (starts src.length p))).flatten = src.take (rk src.length p k) := by
  intro k
  induction k with
  | zero => intro _; simp [rk_zero]
  | succ k ih =>
    intro hk
    rw [List.range_succ, List.map_append, List.flatten_append, ih (by omega)]
    simp only [List.map_cons, List.map_nil, List.flatten_cons, List.flatten_nil, List.append_nil]
    rw [chunkOf_eq src (by omega)]
    have h1 : rk src.length p k ≤ rk src.length p (k + 1) := rk_le
    conv_rhs => rw [show rk src.length p (k + 1) = rk src.length p k + (rk src.length p (k + 1) - rk src.length p k) by omega]
    rw [List.take_add]

theorem chunks_all (src : List α) {p : Nat} (hp : 0 < p) : ((List.range p).map (chunkOf src (starts src.length p))).flatten = src := by
  rw [chunks_flatten src p p (Nat.le_refl _), rk_last hp, List.take_length]

theorem chunk_length (src : List α) {p i : Nat} (hi : i < p) :
    (chunkOf src (starts src.length p) i).length = rk src.length p (i + 1) - rk src.length p i := by
  rw [chunkOf_eq src hi, List.length_take, List.length_drop]
  have h1 : rk src.length p (i + 1) ≤ rk src.length p p := rk_mono (by omega)
  rw [rk_last (by omega)] at h1
  omega

/-- Which sort is used. -/
def sorter (lib : Lib α) (stable : Bool) : List α → List α := if stable then lib.stableSort else lib.sort

theorem sorted_eq (lib : Lib α) (stable : Bool) (src : List α) (p : Nat) :
    sorted lib stable src p = ((List.range p).map (chunkOf src (starts src.length p))).map (sorter lib stable) := by
  unfold sorted sorter
  rw [List.map_map]; rfl

theorem sorter_perm {lib : Lib α} (h : lib.Ok lt) (stable : Bool) (l : List α) : List.Perm (sorter lib stable l) l := by
  unfold sorter; split
  · exact h.stable_perm l
  · exact h.sort_perm l

theorem sorter_sorted {lib : Lib α} (h : lib.Ok lt) (stable : Bool) (l : List α) : Sorted lt (sorter lib stable l) := by
  unfold sorter; split
  · exact h.stable_sorted l
  · exact h.sort_sorted l

theorem map_perm_flatten {f : List α → List α} (h : ∀ l, List.Perm (f l) l) (L : List (List α)) : List.Perm (L.map f).flatten L.flatten := by
  induction L with
  | nil => simp
  | cons a L ih => simp only [List.map_cons, List.flatten_cons]; exact (h a).append ih

theorem map_filter_flatten {f : List α → List α} {q : α → Bool} (h : ∀ l, (f l).filter q = l.filter q) (L : List (List α)) :
    (L.map f).flatten.filter q = L.flatten.filter q := by
  induction L with
  | nil => simp
  | cons a L ih => simp only [List.map_cons, List.flatten_cons, List.filter_append, h a, ih]

structure SortedChunks (lt : α → α → Bool) (lib : Lib α) (stable : Bool) (src : List α) (p : Nat) (S : List (List α)) : Prop where
  sorted : ∀ s ∈ S, Sorted lt s
  count : S.length = p
  perm : List.Perm S.flatten src
  stable : stable = true → ∀ v, S.flatten.filter (equiv lt v) = src.filter (equiv lt v)
  short : ∀ s ∈ S, s.length ≤ src.length
  nonempty : p ≤ src.length → ∀ s ∈ S, s ≠ []
  untied : src.Pairwise (fun x y => equiv lt x y = false) → Untied lt S

theorem sortedChunks {lib : Lib α} (h : lib.Ok lt) (stable : Bool) (src : List α) {p : Nat} (hp : 0 < p) :
    SortedChunks lt lib stable src p (sorted lib stable src p) := by
  rw [sorted_eq]
  have hall := chunks_all src hp
  constructor
  · intro s hs
    obtain ⟨l, _, rfl⟩ := List.mem_map.1 hs
    exact sorter_sorted h stable l
  · simp
  · have := map_perm_flatten (sorter_perm h stable) ((List.range p).map (chunkOf src (starts src.length p)))
    rwa [hall] at this
  · intro hst v
    rw [map_filter_flatten (f := sorter lib stable) (q := equiv lt v) (by intro l; simp only [sorter, hst, if_true]; exact h.stable_stable l v), hall]
  · intro s hs
    obtain ⟨l, hl, rfl⟩ := List.mem_map.1 hs
    obtain ⟨i, hi, rfl⟩ := List.mem_map.1 hl
    rw [(sorter_perm h stable _).length_eq]
    unfold chunkOf
    rw [List.length_take, List.length_drop]
    omega
  · intro hpn s hs
    obtain ⟨l, hl, rfl⟩ := List.mem_map.1 hs
    obtain ⟨i, hi, rfl⟩ := List.mem_map.1 hl
    have hi' := List.mem_range.1 hi
    intro hc
    have := (sorter_perm h stable (chunkOf src (starts src.length p) i)).length_eq
    rw [hc, chunk_length src hi'] at this
    have h2 := rk_lt (n := src.length) (p := p) (i := i) hp hpn
    simp at this
    omega
  · intro hd
    rw [← hall, List.pairwise_flatten] at hd
    unfold Untied
    rw [List.pairwise_map]
    refine hd.2.imp ?_
    intro s t hst x hx y hy
    exact hst x ((sorter_perm h stable s).subset hx) y ((sorter_perm h stable t).subset hy)

/-! ### Exact splitting -/

theorem threads_eq (kind : Kind) (c : Conf) (junk1 : Nat → Nat → Nat) (junk2 : Nat → Nat → Node α) {S : List (List α)} {n : Nat} :
    ∀ (cs : List (List Nat)) (i r : Nat) (A : List Nat), Chain lt S n r A cs →
      threads lt kind c junk1 junk2 S i (A :: cs) = MwMerge.threads lt kind c.stable c.algo junk1 junk2 S n i (A :: cs) := by
  intro cs
  induction cs with
  | nil => intro i r A _; rfl
  | cons B cs ih =>
    intro i r A hc
    cases hc with
    | @step _ q _ _ _ hA hAB hrq hqn hr =>
      have hB := hr.cut
      obtain ⟨C, c1, c2, c3, c4⟩ := chunk_spec (lt := lt) hA.points hB.points hAB
      have l1 := right_length hA.points
      have l2 := right_length hB.points
      have l3 := c4.length_eq
      rw [hA.sum] at l1
      rw [hB.sum] at l2
      simp only [List.length_append] at l3
      have e : thread lt kind c (junk1 i) (junk2 i) S A B = MwMerge.thread lt kind c.stable c.algo (junk1 i) (junk2 i) S n A B := by
        unfold thread MwMerge.thread
        rw [c1]
        dsimp only
        rw [show Nat.min (total C) (n - A.sum) = total C by rw [chunk_total, hA.sum]; exact Nat.min_eq_left (by omega)]
        rfl
      rw [threads, MwMerge.threads, e, ih (i + 1) q B hr]
      rfl

theorem bounds_exact {lib : Lib α} {c : Conf} (hc : c.splitting = .exact) {src : List α} {p : Nat} (hp : 0 < p) {S : List (List α)}
    (ht : total S = src.length) : bounds lt lib c src p S = cuts lt S src.length p := by
  unfold bounds cuts
  rw [hc]
  dsimp only
  have e : (List.range (p - 1)).map (fun i => partition lt S ((starts src.length p).getD (i + 1) 0)) =
      (List.range (p - 1)).map (fun s => partition lt S ((equallySplit src.length p).getD (s + 1) 0)) := by
    apply List.map_congr_left
    intro i hi
    have := List.mem_range.1 hi
    rw [starts_getD (by omega), equallySplit_getD hp (by omega)]
  rw [e]
  cases collect ((List.range (p - 1)).map (fun s => partition lt S ((equallySplit src.length p).getD (s + 1) 0))) with
  | none => rfl
  | some offs => dsimp only; rw [if_pos ht]

theorem exact_run (hw : SWO lt) (kind : Kind) {lib : Lib α} (hl : lib.Ok lt) {c : Conf} (hc : c.splitting = .exact)
    (halgo : c.algo = .bubble ∨ c.algo = .loserTree) (junk1 : Nat → Nat → Nat) (junk2 : Nat → Nat → Node α) {src : List α} {p : Nat}
    (hp : 0 < p) (hpn : p ≤ src.length) (hn : src.length < 2 ^ 64)
    (hE : src.Pairwise (fun x y => equiv lt x y = false) ∨ p ≤ 2) :
    ∃ bs out, bounds lt lib c src p (sorted lib c.stable src p) = some bs ∧
      threads lt kind c junk1 junk2 (sorted lib c.stable src p) 0 bs = some out.zipIdx ∧ List.Perm out src ∧ Sorted lt out := by
  have hS := sortedChunks hl c.stable src hp
  generalize sorted lib c.stable src p = S at hS
  have ht : total S = src.length := by rw [total_flatten, hS.perm.length_eq]
  rw [bounds_exact hc hp ht]
  obtain ⟨A, cs, c1, c2, c3⟩ := cuts_chain hw (S := S) (n := src.length) (p := p) hS.sorted (hS.nonempty hpn)
    (fun s hs => by have := hS.short s hs; omega) (by omega) hp hpn
    (by
      rcases hE with h | h
      · exact .inl (hS.untied h)
      · exact .inr ⟨h, ht⟩) (fun _ => ht)
  have h0 : Merges lt false S 0 [] (drops S A) := by
    have e : drops S A = S := by
      rw [c2]
      clear * -
      induction S with
      | nil => rfl
      | cons t T ih => simpa [drops] using ih
    rw [e]
    exact (MergeRun.nil _).merges hw hS.sorted
  obtain ⟨o, t1, t2⟩ := threads_run hw kind c.stable c.algo junk1 junk2 (n := src.length) hS.sorted
    (by rcases halgo with h | h <;> simp [AlgoOk, h]) (by rw [hS.count]; omega) cs 0 0 A [] c3 h0
  refine ⟨A :: cs, o, c1, ?_, ?_, ?_⟩
  · rw [threads_eq kind c junk1 junk2 cs 0 0 A c3, t1]
  · have := Sorted.of_merges t2 (by rw [hS.perm.length_eq])
    exact (by simpa using this : List.Perm o S.flatten).trans hS.perm
  · simpa using t2.sorted

/-! ### Sampling -/

/-- Lower boundary in a sequence. -/
def low (lt : α → α → Bool) (lo : Option α) (s : List α) : Nat :=
  match lo with
  | none => 0
  | some v => lowerBound lt s v

/-- Upper boundary. -/
def high (lt : α → α → Bool) (hi : Option α) (s : List α) : Nat :=
  match hi with
  | none => s.length
  | some v => lowerBound lt s v

theorem lb_le (s : List α) (v : α) : lowerBound lt s v ≤ s.length := by
  unfold lowerBound
  exact (List.takeWhile_prefix _).length_le

theorem take_lb (s : List α) (v : α) : s.take (lowerBound lt s v) = s.takeWhile (fun x => lt x v) := by
  unfold lowerBound
  exact (List.prefix_iff_eq_take.1 (List.takeWhile_prefix _)).symm

theorem drop_lb (s : List α) (v : α) : s.drop (lowerBound lt s v) = s.dropWhile (fun x => lt x v) := by
  unfold lowerBound
  induction s with
  | nil => rfl
  | cons x s ih =>
    rw [List.takeWhile_cons, List.dropWhile_cons]
    split
    · simpa using ih
    · simp

theorem mem_take_lb {s : List α} {v x : α} (h : x ∈ s.take (lowerBound lt s v)) : lt x v = true := by
  rw [take_lb] at h
  induction s with
  | nil => simp at h
  | cons y s ih =>
    rw [List.takeWhile_cons] at h
    split at h
    · rename_i hy
      rcases List.mem_cons.1 h with rfl | h
      · exact hy
      · exact ih h
    · simp at h

theorem mem_drop_lb (hw : SWO lt) {s : List α} (hs : Sorted lt s) {v x : α} (h : x ∈ s.drop (lowerBound lt s v)) : lt x v = false := by
  rw [drop_lb] at h
  cases hd : s.dropWhile (fun x => lt x v) with
  | nil => rw [hd] at h; simp at h
  | cons y l =>
    have hy : lt y v = false := by
      have := List.head?_dropWhile_not (fun x => lt x v) s
      rw [hd] at this
      simpa using this
    have hsl : Sorted lt (y :: l) := by
      rw [← hd]; exact List.Pairwise.sublist (List.dropWhile_sublist _) hs
    rw [hd] at h
    rcases List.mem_cons.1 h with rfl | h
    · exact hy
    · have := (List.pairwise_cons.1 hsl).1 x h
      exact hw.negtrans _ _ _ this hy

theorem lb_mono (hw : SWO lt) {s : List α} {v t : α} (h : lt t v = false) : lowerBound lt s v ≤ lowerBound lt s t := by
  unfold lowerBound
  induction s with
  | nil => simp
  | cons x s ih =>
    simp only [List.takeWhile_cons]
    by_cases hx : lt x v = true
    · have : lt x t = true := hw.lt_of_lt_of_le hx h
      rw [if_pos hx, if_pos this]
      simp only [List.length_cons]; omega
    · rw [if_neg hx]; simp

/-- `lo ≤ hi`. -/
def ordered (lt : α → α → Bool) (lo hi : Option α) : Prop :=
  match lo, hi with
  | some v, some t => lt t v = false
  | _, _ => True

theorem low_le_high (hw : SWO lt) {lo hi : Option α} (h : ordered lt lo hi) (s : List α) : low lt lo s ≤ high lt hi s := by
  cases lo <;> cases hi <;> simp only [low, high]
  · omega
  · omega
  · exact lb_le s _
  · exact lb_mono hw h

theorem high_le (hi : Option α) (s : List α) : high lt hi s ≤ s.length := by
  cases hi
  · exact Nat.le_refl _
  · exact lb_le s _

/-- The piece of a sequence between two boundaries. -/
def mid (lt : α → α → Bool) (lo hi : Option α) (s : List α) : List α := (s.drop (low lt lo s)).take (high lt hi s - low lt lo s)

theorem chunk_map (f g : List α → Nat) : ∀ (S : List (List α)), (∀ s ∈ S, f s ≤ g s) →
    chunk S (S.map f) (S.map g) = some (S.map fun s => (s.drop (f s)).take (g s - f s)) := by
  intro S
  induction S with
  | nil => intro _; rfl
  | cons s S ih =>
    intro h
    simp only [List.map_cons, chunk]
    rw [if_pos (h s (List.mem_cons_self ..)), ih (fun t ht => h t (List.mem_cons_of_mem _ ht))]
    rfl

theorem sum_mid (lo hi : Option α) (hw : SWO lt) (h : ordered lt lo hi) (S : List (List α)) :
    (S.map (low lt lo)).sum + (S.map (mid lt lo hi)).flatten.length = (S.map (high lt hi)).sum := by
  induction S with
  | nil => rfl
  | cons s S ih =>
    simp only [List.map_cons, List.sum_cons, List.flatten_cons, List.length_append]
    have h1 := low_le_high hw h s
    have h2 := high_le (lt := lt) hi s
    have : (mid lt lo hi s).length = high lt hi s - low lt lo s := by
      unfold mid; rw [List.length_take, List.length_drop]; omega
    omega

/-- What is behind a lower boundary. -/
def behind (lt : α → α → Bool) (lo : Option α) (S : List (List α)) : List α := (S.map fun s => s.drop (low lt lo s)).flatten

theorem mid_append {lo : Option α} {t : α} (hw : SWO lt) (h : ordered lt lo (some t)) (s : List α) :
    mid lt lo (some t) s ++ s.drop (low lt (some t) s) = s.drop (low lt lo s) := by
  unfold mid
  exact drop_split s (low_le_high hw h s)

theorem mid_none (lo : Option α) (s : List α) : mid lt lo none s = s.drop (low lt lo s) := by
  unfold mid
  exact List.take_of_length_le (by rw [List.length_drop]; exact Nat.le_refl _)

theorem mem_mid_lt {lo : Option α} {t x : α} (hw : SWO lt) (h : ordered lt lo (some t)) {s : List α} (hx : x ∈ mid lt lo (some t) s) :
    lt x t = true := by
  apply mem_take_lb (s := s)
  unfold mid at hx
  rw [List.take_drop, Nat.add_sub_cancel' (low_le_high hw h s)] at hx
  exact List.mem_of_mem_drop hx

theorem share_mid (hw : SWO lt) {lo hi : Option α} (h : ordered lt lo hi) {S : List (List α)} (hS : ∀ s ∈ S, Sorted lt s)
    (hne : share lt S.flatten lo hi ≠ []) : (S.map (mid lt lo hi)).flatten ≠ [] := by
  obtain ⟨x, hx⟩ := List.exists_mem_of_ne_nil _ hne
  unfold share at hx
  obtain ⟨hx1, hx2⟩ := List.mem_filter.1 hx
  obtain ⟨s, hs, hxs⟩ := List.mem_flatten.1 hx1
  simp only [Bool.and_eq_true] at hx2
  have h1 : x ∈ s.drop (low lt lo s) := by
    rw [← List.take_append_drop (low lt lo s) s] at hxs
    rcases List.mem_append.1 hxs with h | h
    · cases lo with
      | none => simp [low] at h
      | some v =>
        have := mem_take_lb (s := s) h
        simp [this] at hx2
    · exact h
  have h2 : x ∈ mid lt lo hi s := by
    cases hi with
    | none => rw [mid_none]; exact h1
    | some t =>
      rw [← mid_append hw h s] at h1
      rcases List.mem_append.1 h1 with h | h
      · exact h
      · have := mem_drop_lb hw (hS s hs) h
        simp [this] at hx2
  intro hc
  have : x ∈ (S.map (mid lt lo hi)).flatten := List.mem_flatten.2 ⟨_, List.mem_map.2 ⟨s, hs, rfl⟩, h2⟩
  rw [hc] at this
  simp at this

/-- Everything between two boundaries, then everything behind the second. -/
theorem behind_perm (hw : SWO lt) {lo : Option α} {t : α} (h : ordered lt lo (some t)) (S : List (List α)) :
    List.Perm ((S.map (mid lt lo (some t))).flatten ++ behind lt (some t) S) (behind lt lo S) := by
  unfold behind
  induction S with
  | nil => simp
  | cons s S ih =>
    simp only [List.map_cons, List.flatten_cons]
    rw [← mid_append hw h s]
    classical
    exact List.perm_iff_count.2 fun x => by
      have := List.perm_iff_count.1 ih x
      simp only [List.count_append] at this ⊢
      omega

theorem behind_filter (hw : SWO lt) {lo : Option α} {t : α} (h : ordered lt lo (some t)) {S : List (List α)} (hS : ∀ s ∈ S, Sorted lt s) (w : α) :
    (S.map (mid lt lo (some t))).flatten.filter (equiv lt w) ++ (behind lt (some t) S).filter (equiv lt w) =
      (behind lt lo S).filter (equiv lt w) := by
  unfold behind
  have eqv : ∀ x, equiv lt w x = true → (lt x t = lt w t) := by
    intro x hx
    simp only [equiv, Bool.and_eq_true, Bool.not_eq_true'] at hx
    cases h1 : lt x t <;> cases h2 : lt w t
    · rfl
    · have := hw.lt_of_le_of_lt hx.1 h2; rw [h1] at this; cases this
    · have := hw.lt_of_le_of_lt hx.2 h1; rw [h2] at this; cases this
    · rfl
  by_cases hwt : lt w t = true
  · -- nothing equivalent behind
    have e : (S.map fun s => s.drop (low lt (some t) s)).flatten.filter (equiv lt w) = [] := by
      rw [List.filter_eq_nil_iff]
      intro x hx hc
      obtain ⟨l, hl, hxl⟩ := List.mem_flatten.1 hx
      obtain ⟨s, hs, rfl⟩ := List.mem_map.1 hl
      have := mem_drop_lb hw (hS s hs) hxl
      rw [eqv x hc, hwt] at this
      cases this
    rw [e, List.append_nil]
    clear e
    induction S with
    | nil => rfl
    | cons s S ih =>
      simp only [List.map_cons, List.flatten_cons, List.filter_append]
      rw [ih (fun s hs => hS s (List.mem_cons_of_mem _ hs)), ← mid_append hw h s, List.filter_append]
      have : (s.drop (low lt (some t) s)).filter (equiv lt w) = [] := by
        rw [List.filter_eq_nil_iff]
        intro x hx hc
        have := mem_drop_lb hw (hS s (List.mem_cons_self ..)) hx
        rw [eqv x hc, hwt] at this
        cases this
      rw [this, List.append_nil]
  · have hmid : ∀ s, (mid lt lo (some t) s).filter (equiv lt w) = [] := by
      intro s
      rw [List.filter_eq_nil_iff]
      intro x hx hc
      have := mem_mid_lt hw h hx
      rw [eqv x hc] at this
      exact hwt this
    clear hS
    induction S with
    | nil => rfl
    | cons s S ih =>
      simp only [List.map_cons, List.flatten_cons, List.filter_append] at ih ⊢
      rw [← mid_append hw h s, List.filter_append, hmid, List.nil_append, List.nil_append, ← ih]
      have : (S.map (mid lt lo (some t))).flatten.filter (equiv lt w) = [] := by
        rw [List.filter_eq_nil_iff]
        intro x hx hc
        obtain ⟨l, hl, hxl⟩ := List.mem_flatten.1 hx
        obtain ⟨s, _, rfl⟩ := List.mem_map.1 hl
        have := List.filter_eq_nil_iff.1 (hmid s) x hxl
        exact this hc
      rw [this]; simp

/-- One slab. -/
theorem slab (hw : SWO lt) (kind : Kind) {c : Conf} (halgo : c.algo = .bubble ∨ c.algo = .loserTree) (junk1 : Nat → Nat) (junk2 : Nat → Node α)
    {S : List (List α)} (hS : ∀ s ∈ S, Sorted lt s) (hk : S.length ≤ 2 ^ 64) {lo hi : Option α} (ho : ordered lt lo hi)
    (hne : S.length ≤ 4 ∨ c.algo = .bubble ∨ share lt S.flatten lo hi ≠ []) :
    ∃ o, thread lt kind c junk1 junk2 S (S.map (low lt lo)) (S.map (high lt hi)) = some (o.zipIdx (S.map (low lt lo)).sum) ∧
      Sorted lt o ∧ List.Perm o (S.map (mid lt lo hi)).flatten ∧
      (c.stable = true → ∀ w, o.filter (equiv lt w) = (S.map (mid lt lo hi)).flatten.filter (equiv lt w)) := by
  have hC : ∀ s ∈ S.map (mid lt lo hi), Sorted lt s := by
    intro l hl
    obtain ⟨s, hs, rfl⟩ := List.mem_map.1 hl
    exact List.Pairwise.sublist ((List.take_sublist _ _).trans (List.drop_sublist _ _)) (hS s hs)
  obtain ⟨o, S', h1, h2⟩ := C63_sequential_merge hw kind c.stable halgo junk1 junk2 (S := S.map (mid lt lo hi))
    (n := total (S.map (mid lt lo hi))) hC (by simpa using hk)
    (by
      rcases hne with h | h | h
      · right; left; simpa using h
      · right; right; exact h
      · left; exact share_mid hw ho hS h) (Nat.le_of_eq (total_flatten _))
  have ht : total (S.map (mid lt lo hi)) = (S.map (mid lt lo hi)).flatten.length := total_flatten _
  refine ⟨o, ?_, h2.sorted, Sorted.of_merges h2 ht, ?_⟩
  · unfold thread
    rw [chunk_map (low lt lo) (high lt hi) S (fun s _ => low_le_high hw ho s)]
    dsimp only
    rw [show (S.map fun s => (s.drop (low lt lo s)).take (high lt hi s - low lt lo s)) = S.map (mid lt lo hi) from rfl, h1]
  · intro hst w
    have hl := h2.perm.length_eq
    have hlo := h2.length
    rw [List.length_append] at hl
    have hnil : S'.flatten = [] := List.eq_nil_of_length_eq_zero (by omega)
    have := h2.stable hst w
    rwa [hnil, List.filter_nil, List.append_nil] at this

theorem sampling_run (hw : SWO lt) (kind : Kind) {c : Conf} (halgo : c.algo = .bubble ∨ c.algo = .loserTree) (junk1 : Nat → Nat → Nat)
    (junk2 : Nat → Nat → Node α) {S : List (List α)} (hS : ∀ s ∈ S, Sorted lt s) (hk : S.length ≤ 2 ^ 64) :
    ∀ (ts : List α) (i : Nat) (lo : Option α), (∀ t ∈ ts.head?, ordered lt lo (some t)) → ts.Pairwise (fun a b => lt b a = false) →
      (S.length ≤ 4 ∨ c.algo = .bubble ∨ ∀ i, i ≤ ts.length → share lt S.flatten (if i = 0 then lo else ts[i - 1]?) ts[i]? ≠ []) →
    ∃ o, threads lt kind c junk1 junk2 S i (S.map (low lt lo) :: (ts.map (fun v => S.map fun s => lowerBound lt s v) ++ [S.map List.length])) =
        some (o.zipIdx (S.map (low lt lo)).sum) ∧
      Sorted lt o ∧ List.Perm o (behind lt lo S) ∧ (c.stable = true → ∀ w, o.filter (equiv lt w) = (behind lt lo S).filter (equiv lt w)) := by
  intro ts
  induction ts with
  | nil =>
    intro i lo _ _ hne
    obtain ⟨o, h1, h2, h3, h4⟩ := slab hw kind halgo (junk1 i) (junk2 i) hS hk (lo := lo) (hi := none) (by cases lo <;> trivial)
      (by
        rcases hne with h | h | h
        · exact .inl h
        · exact .inr (.inl h)
        · exact .inr (.inr (by simpa using h 0 (Nat.le_refl _))))
    have e : (S.map (mid lt lo none)) = S.map (fun s => s.drop (low lt lo s)) := List.map_congr_left fun s _ => mid_none lo s
    rw [e] at h3 h4
    refine ⟨o, ?_, h2, h3, h4⟩
    simp only [List.map_nil, List.nil_append]
    rw [threads]
    have h1' : thread lt kind c (junk1 i) (junk2 i) S (S.map (low lt lo)) (S.map List.length) = some (o.zipIdx (S.map (low lt lo)).sum) := h1
    rw [h1']
    simp [threads]
  | cons t ts ih =>
    intro i lo hlo hts hne
    have ho : ordered lt lo (some t) := hlo t (by simp)
    obtain ⟨o, h1, h2, h3, h4⟩ := slab hw kind halgo (junk1 i) (junk2 i) hS hk (lo := lo) (hi := some t) ho
      (by
        rcases hne with h | h | h
        · exact .inl h
        · exact .inr (.inl h)
        · exact .inr (.inr (by simpa using h 0 (Nat.zero_le _))))
    rw [List.pairwise_cons] at hts
    obtain ⟨o', g1, g2, g3, g4⟩ := ih (i + 1) (some t) (by
        intro u hu
        exact hts.1 u (List.mem_of_mem_head? hu)) hts.2
      (by
        rcases hne with h | h | h
        · exact .inl h
        · exact .inr (.inl h)
        · refine .inr (.inr ?_)
          intro k hk
          have := h (k + 1) (by simp; omega)
          rw [if_neg (by omega)] at this
          cases k with
          | zero => simpa using this
          | succ k => simpa using this)
    have hsum := sum_mid lo (some t) hw ho S
    rw [← h3.length_eq] at hsum
    have hlow : S.map (low lt (some t)) = S.map (high lt (some t)) := rfl
    refine ⟨o ++ o', ?_, ?_, ?_, ?_⟩
    · simp only [List.map_cons, List.cons_append]
      rw [threads]
      have h1' : thread lt kind c (junk1 i) (junk2 i) S (S.map (low lt lo)) (S.map fun s => lowerBound lt s t) =
        some (o.zipIdx (S.map (low lt lo)).sum) := h1
      have g1' : threads lt kind c junk1 junk2 S (i + 1) ((S.map fun s => lowerBound lt s t) ::
          (ts.map (fun v => S.map fun s => lowerBound lt s v) ++ [S.map List.length])) = some (o'.zipIdx (S.map (low lt (some t))).sum) := g1
      rw [h1']
      dsimp only
      rw [g1']
      simp only [Option.map_some, Option.some.injEq]
      rw [List.zipIdx_append, hsum, hlow]
    · refine List.pairwise_append.2 ⟨h2, g2, ?_⟩
      intro x hx y hy
      have hx' := h3.subset hx
      obtain ⟨l, hl, hxl⟩ := List.mem_flatten.1 hx'
      obtain ⟨s, _, rfl⟩ := List.mem_map.1 hl
      have hxt := mem_mid_lt hw ho hxl
      have hy' := g3.subset hy
      unfold behind at hy'
      obtain ⟨l, hl, hyl⟩ := List.mem_flatten.1 hy'
      obtain ⟨s', hs', rfl⟩ := List.mem_map.1 hl
      have hyt := mem_drop_lb hw (hS s' hs') hyl
      cases hyx : lt y x
      · rfl
      · have := hw.trans hyx hxt
        rw [hyt] at this; cases this
    · exact (h3.append g3).trans (behind_perm hw ho S)
    · intro hst w
      rw [List.filter_append, h4 hst w, g4 hst w]
      exact behind_filter hw ho hS w

/-! ### The samples -/

theorem samplesOf_ok (src : List α) {p num i : Nat} (hp : 0 < p) (hi : i < p) (hlen : num + 1 ≤ rk src.length p (i + 1) - rk src.length p i) :
    ∃ l, samplesOf src p num i = some l ∧ l.length = num := by
  unfold samplesOf
  dsimp only
  rw [starts_getD (by omega), starts_getD (by omega)]
  obtain ⟨l, h1, h2, _⟩ := collect_range (fun j => src[rk src.length p i + (equallySplit (rk src.length p (i + 1) - rk src.length p i) (num + 1)).getD (j + 1) 0]?)
    (fun _ _ => True) num (by
      intro j hj
      rw [equallySplit_getD (by omega) (by omega)]
      have h1 : rk (rk src.length p (i + 1) - rk src.length p i) (num + 1) (j + 1) <
          rk (rk src.length p (i + 1) - rk src.length p i) (num + 1) (num + 1) := by
        have a := rk_lt (n := rk src.length p (i + 1) - rk src.length p i) (p := num + 1) (i := j + 1) (by omega) hlen
        have b := rk_mono (n := rk src.length p (i + 1) - rk src.length p i) (p := num + 1) (i := j + 1 + 1) (j := num + 1) (by omega)
        omega
      rw [rk_last (by omega)] at h1
      have h2 : rk src.length p (i + 1) ≤ rk src.length p p := rk_mono (by omega)
      rw [rk_last hp] at h2
      exact ⟨_, List.getElem?_eq_getElem (by omega), trivial⟩)
  exact ⟨l, h1, h2⟩

theorem samples_ok {lib : Lib α} (hl : lib.Ok lt) (src : List α) {p num : Nat} (hp : 0 < p) (hnum : 0 < num ∨ p = 1)
    (hlen : ∀ i, i < p → num + 1 ≤ rk src.length p (i + 1) - rk src.length p i) :
    ∃ sm vs, allSamples lib src p num = some sm ∧ splitters sm p num = some vs ∧ vs.length = p - 1 ∧
      vs.Pairwise (fun a b => lt b a = false) := by
  obtain ⟨ss, h1, h2, h3⟩ := collect_range (fun i => samplesOf src p num i) (fun _ l => l.length = num) p
    (fun i hi => samplesOf_ok src hp hi (hlen i hi))
  have hfl : ∀ (L : List (List α)), (∀ (s : Nat) (x : List α), L[s]? = some x → x.length = num) → L.flatten.length = num * L.length := by
    intro L
    induction L with
    | nil => intro _; simp
    | cons a L ih =>
      intro h
      simp only [List.flatten_cons, List.length_append, List.length_cons]
      rw [ih (fun s x hx => h (s + 1) x (by simpa using hx)), h 0 a rfl, Nat.mul_succ]; omega
  have hsl : (lib.sort ss.flatten).length = num * p := by
    rw [(hl.sort_perm _).length_eq, hfl ss h3, h2]
  have hsr : Sorted lt (lib.sort ss.flatten) := hl.sort_sorted _
  obtain ⟨vs, g1, g2, g3⟩ := collect_range (fun i => (lib.sort ss.flatten)[num * (i + 1)]?)
    (fun i v => (lib.sort ss.flatten)[num * (i + 1)]? = some v) (p - 1) (by
    intro i hi
    have hnp : 0 < num := by rcases hnum with h | h <;> omega
    have : num * (i + 1) < num * p := Nat.mul_lt_mul_of_pos_left (by omega) hnp
    exact ⟨_, List.getElem?_eq_getElem (by omega), List.getElem?_eq_getElem (by omega)⟩)
  refine ⟨lib.sort ss.flatten, vs, by unfold allSamples; rw [h1], g1, g2, ?_⟩
  rw [List.pairwise_iff_getElem]
  intro i j hi hj hij
  have a := g3 i _ (List.getElem?_eq_getElem hi)
  have b := g3 j _ (List.getElem?_eq_getElem hj)
  obtain ⟨ha, ha'⟩ := List.getElem?_eq_some_iff.1 a
  obtain ⟨hb, hb'⟩ := List.getElem?_eq_some_iff.1 b
  rw [← ha', ← hb']
  have hnp : 0 < num := by rcases hnum with h | h <;> omega
  have hlt : num * (i + 1) < num * (j + 1) := Nat.mul_lt_mul_of_pos_left (by omega) hnp
  exact List.pairwise_iff_getElem.1 hsr _ _ ha hb hlt

end Stxxl.MwSort
