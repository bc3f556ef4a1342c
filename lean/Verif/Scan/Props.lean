import Verif.Scan.Shuffle

/-!
# C34, C41: `for_each`, `for_each_m`, `find`, `generate`, `random_shuffle` on an external vector

`Hist` are all histories of vector operations (C08) and algorithm calls; `abs` is the array the user has in mind. The functions of the
specification (`Range`, `mapAccum`, `genN`, `replaced`) are in `Spec.lean`.
-/

namespace Stxxl.Scan

open Stxxl.ExtVector

variable {α σ R : Type} {B P : Nat}

/-- The user can read `x` at position `i`. -/
def Sees (B P : Nat) (s : Sys α) (i : Nat) (x : α) : Prop := ∃ vic s', vic < s.vec.npages ∧ constElement B P s i vic = some (s', x)

inductive Hist (B P : Nat) : Sys α → List (Option α) → Prop
  | start {s abs} (h : Reach B P false s abs) : Hist B P s abs
  | op {s s' abs} {op : Op α} {r} (h : Hist B P s abs) (hl : Legal B P false s op) (hs : step B P s op = some (s', r)) :
      Hist B P s' (absStep B abs op)
  | forEach {s s' abs b e} {xs : List α} {σ : Type} {f : σ → α → σ} {a a' : σ} {junk} (h : Hist B P s abs) (hb : b ≤ e) (he : e ≤ abs.length)
      (hr : Range abs b e xs) (hs : forEach B P s b e f a junk = some (s', a')) : Hist B P s' abs
  | forEachM {s s' abs b e} {xs : List α} {σ : Type} {f : σ → α → σ × α} {a a' : σ} {junk} (h : Hist B P s abs) (hb : b ≤ e)
      (he : e ≤ abs.length) (hr : Range abs b e xs) (hs : forEachM B P s b e f a junk = some (s', a')) :
      Hist B P s' (replaced abs b e (mapAccum f a xs).2)
  | find {s s' abs b e} {xs : List α} {p : α → Bool} {i junk} (h : Hist B P s abs) (hb : b ≤ e) (he : e ≤ abs.length)
      (hr : Range abs b e xs) (hs : find B P s b e p junk = some (s', i)) : Hist B P s' abs
  | generate {s s' abs b e} {σ : Type} {gen : σ → σ × α} {a a' : σ} {vic junk} (h : Hist B P s abs) (hb : b ≤ e) (he : e ≤ abs.length)
      (hv : ∀ i, vic i < s.vec.npages) (hs : generate B P s b e gen a vic junk = some (s', a')) :
      Hist B P s' (replaced abs b e (genN gen (e - b) a).2)
  /-- after `random_shuffle` the user looks at the elements of the range: `zs` -/
  | shuffle {s s' abs b e} {xs zs : List α} {R : Type} {E : Env α R} {d M r r'} (h : Hist B P s abs) (hE : EnvOk B E) (hb : b ≤ e)
      (he : e ≤ abs.length) (hr : Range abs b e xs) (hs : shuffle B P E d M s b e r = .ok (s', r')) (hl : zs.length = e - b)
      (hz : ∀ j x, zs[j]? = some x → Sees B P s' (b + j) x) : Hist B P s' (replaced abs b e zs)

/-- What the user sees after the range has been replaced. -/
theorem seen_unique {s : Sys α} {abs : List (Option α)} {b e : Nat} {ys zs : List α} (h : Inv B P s (abs.take b ++ ys.map some ++ abs.drop e))
    (hb : b ≤ e) (he : e ≤ abs.length) (hy : ys.length = e - b) (hl : zs.length = e - b)
    (hz : ∀ j x, zs[j]? = some x → Sees B P s (b + j) x) : zs = ys := by
  apply List.ext_getElem (by omega)
  intro j h1 h2
  obtain ⟨vic, s', v1, v2⟩ := hz j _ (List.getElem?_eq_getElem h1)
  obtain ⟨s2, r, c1, _, _, c4⟩ := constElement_inv h (i := b + j) (victim := vic) (by rw [← h.len, splice_len _ hb he hy]; omega) v1
  rw [c1] at v2
  cases v2
  apply c4
  rw [splice_get _ hb he hy, if_neg (by omega), show b + j - b = j by omega, List.getElem?_eq_getElem h2]
  rfl

theorem hist_inv (hB : 0 < B) (hP : 0 < P) {s : Sys α} {abs} (h : Hist B P s abs) : WInv B P false s abs := by
  induction h with
  | start h => exact reach_inv hB hP h
  | op h hl hs ih =>
    obtain ⟨s', r, h1, h2⟩ := step_ok ih _ hl
    rw [hs] at h1; cases h1; exact h2
  | forEach h hb he hr hs ih =>
    obtain ⟨s', h1, h2, h3⟩ := forEach_inv ih.inv hb he hr _ _ _
    rw [hs] at h1; cases h1; exact ih.ofSame h2 h3
  | forEachM h hb he hr hs ih =>
    obtain ⟨s', h1, h2, h3⟩ := forEachM_inv ih.inv hb he hr _ _ _
    rw [hs] at h1; cases h1; exact ih.ofSame h2 h3
  | find h hb he hr hs ih =>
    obtain ⟨s', h1, h2, h3⟩ := find_inv ih.inv hb he hr _ _
    rw [hs] at h1; cases h1; exact ih.ofSame h2 h3
  | generate h hb he hv hs ih =>
    obtain ⟨s', h1, h2, h3⟩ := generate_inv ih.inv hb he _ _ _ hv _
    rw [hs] at h1; cases h1; exact ih.ofSame h2 h3
  | shuffle h hE hb he hr hs hl hz ih =>
    obtain ⟨ys, p, i1, i2⟩ := shuffle_perm _ hE _ _ _ _ _ _ _ _ _ _ ih.inv hb he hr hs
    have := seen_unique i1 hb he (by rw [p.length_eq, hr.len he]) hl hz
    subst this
    exact ih.ofSame i1 i2

/-! ## C41 -/

/-- **C41** In every history an element reads as the value the user has in mind. -/
theorem C41_contents (hB : 0 < B) (hP : 0 < P) {s : Sys α} {abs} (h : Hist B P s abs) {i vic : Nat} {v : α} (hv : abs[i]? = some (some v))
    (hvic : vic < s.vec.npages) : ∃ s', constElement B P s i vic = some (s', v) := by
  have hi := (hist_inv hB hP h).inv
  obtain ⟨s', r, h1, _, _, h4⟩ := constElement_inv hi (hi.idx hv) hvic
  exact ⟨s', by rw [h1, h4 v hv]⟩

/-- **C41** `for_each` applies the functor to exactly the elements of the range, in order, and changes nothing. -/
theorem C41_for_each (hB : 0 < B) (hP : 0 < P) {s : Sys α} {abs} (h : Hist B P s abs) {b e : Nat} {xs : List α} (hb : b ≤ e)
    (he : e ≤ abs.length) (hr : Range abs b e xs) (f : σ → α → σ) (a : σ) (junk : Nat → α) :
    ∃ s', forEach B P s b e f a junk = some (s', xs.foldl f a) ∧ Hist B P s' abs := by
  obtain ⟨s', h1, _⟩ := forEach_inv (hist_inv hB hP h).inv hb he hr f a junk
  exact ⟨s', h1, .forEach h hb he hr h1⟩

/-- **C41** `for_each_m` replaces exactly the elements of the range by the results of the functor, applied in order. -/
theorem C41_for_each_m (hB : 0 < B) (hP : 0 < P) {s : Sys α} {abs} (h : Hist B P s abs) {b e : Nat} {xs : List α} (hb : b ≤ e)
    (he : e ≤ abs.length) (hr : Range abs b e xs) (f : σ → α → σ × α) (a : σ) (junk : Nat → α) :
    ∃ s', forEachM B P s b e f a junk = some (s', (mapAccum f a xs).1) ∧ Hist B P s' (replaced abs b e (mapAccum f a xs).2) := by
  obtain ⟨s', h1, _⟩ := forEachM_inv (hist_inv hB hP h).inv hb he hr f a junk
  exact ⟨s', h1, .forEachM h hb he hr h1⟩

/-- **C41** `find` returns the first position of the range whose element satisfies the predicate, or the end. -/
theorem C41_find (hB : 0 < B) (hP : 0 < P) {s : Sys α} {abs} (h : Hist B P s abs) {b e : Nat} {xs : List α} (hb : b ≤ e)
    (he : e ≤ abs.length) (hr : Range abs b e xs) (p : α → Bool) (junk : Nat → α) :
    ∃ s' i, find B P s b e p junk = some (s', i) ∧ Hist B P s' abs ∧ b ≤ i ∧ i ≤ e ∧
      (∀ j x, b ≤ j → j < i → abs[j]? = some (some x) → p x = false) ∧ (i < e → ∃ x, abs[i]? = some (some x) ∧ p x = true) := by
  have hxl := hr.len he
  obtain ⟨s', h1, _⟩ := find_inv (hist_inv hB hP h).inv hb he hr p junk
  have hle : xs.findIdx p ≤ xs.length := List.findIdx_le_length
  refine ⟨s', _, h1, .find h hb he hr h1, by omega, by omega, ?_, ?_⟩
  · intro j x hj1 hj2 hx
    rw [hr.get j hj1 (by omega)] at hx
    have hlt : j - b < xs.findIdx p := by omega
    have := List.not_of_lt_findIdx hlt
    rw [List.getElem?_eq_getElem (by omega)] at hx
    simp only [Option.map_some, Option.some.injEq] at hx
    rw [← hx]; simpa using this
  · intro hi
    have hlt : xs.findIdx p < xs.length := by omega
    refine ⟨xs[xs.findIdx p], ?_, List.findIdx_getElem (w := hlt)⟩
    rw [hr.get _ (by omega) hi, show b + xs.findIdx p - b = xs.findIdx p by omega, List.getElem?_eq_getElem hlt]
    rfl

/-- **C41** `generate` assigns the values of the generator to exactly the elements of the range, in order; the range may be
uninitialised. -/
theorem C41_generate (hB : 0 < B) (hP : 0 < P) {s : Sys α} {abs} (h : Hist B P s abs) {b e : Nat} (hb : b ≤ e)
    (he : e ≤ abs.length) (gen : σ → σ × α) (a : σ) (vic : Nat → Nat) (hv : ∀ i, vic i < s.vec.npages) (junk : Nat → α) :
    ∃ s', generate B P s b e gen a vic junk = some (s', (genN gen (e - b) a).1) ∧ Hist B P s' (replaced abs b e (genN gen (e - b) a).2) := by
  obtain ⟨s', h1, _⟩ := generate_inv (hist_inv hB hP h).inv hb he gen a vic hv junk
  exact ⟨s', h1, .generate h hb he hv h1⟩

/-- **C41** None of the algorithms touches a block that does not belong to the vector. -/
theorem C41_frame (hB : 0 < B) (hP : 0 < P) {s : Sys α} {abs} (h : Hist B P s abs) {b e : Nat} (hb : b ≤ e) (he : e ≤ abs.length)
    (blk : Nat) (hblk : blk ∉ s.vec.bids) :
    (∀ (f : σ → α → σ × α) a junk s' a' xs, Range abs b e xs → forEachM B P s b e f a junk = some (s', a') → s'.disk blk = s.disk blk) ∧
    (∀ (gen : σ → σ × α) a vic junk s' a', (∀ i, vic i < s.vec.npages) → generate B P s b e gen a vic junk = some (s', a') →
      s'.disk blk = s.disk blk) ∧
    (∀ (E : Env α R) d M r s' r' xs, EnvOk B E → Range abs b e xs → shuffle B P E d M s b e r = .ok (s', r') → s'.disk blk = s.disk blk) := by
  have hi := (hist_inv hB hP h).inv
  refine ⟨?_, ?_, ?_⟩
  · intro f a junk s' a' xs hr hs
    obtain ⟨s2, h1, _, h3⟩ := forEachM_inv hi hb he hr f a junk
    rw [hs] at h1; cases h1; exact h3.disk blk hblk
  · intro gen a vic junk s' a' hv hs
    obtain ⟨s2, h1, _, h3⟩ := generate_inv hi hb he gen a vic hv junk
    rw [hs] at h1; cases h1; exact h3.disk blk hblk
  · intro E d M r s' r' xs hE hr hs
    obtain ⟨_, _, _, h3⟩ := shuffle_perm E hE _ _ _ _ _ _ _ _ _ _ hi hb he hr hs
    exact h3.disk blk hblk

/-- A new vector of 5 elements, blocks of 2, one cached page of one block. -/
def exVec : Sys Nat := newVec 2 1 5 1 [7, 3, 9] (fun _ => 0) (fun _ _ => 99) (fun _ _ => 77)

theorem exVec_hist : Hist 2 1 exVec (List.replicate 5 none) :=
  .start (.new 5 1 [7, 3, 9] _ _ _ (by decide) (by decide) (by decide))

/-- **C41** (found) `for_each_m` on a vector that has never been written loses the assigned values: it does not report the blocks it has
written, so their page stays uninitialised and is not read when the element is accessed. -/
theorem C41_for_each_m_uninitialised_lost :
    ∃ s' s'', forEachM 2 1 exVec 0 4 (fun (_ : Unit) _ => ((), 5)) () (fun _ => 0) = some (s', ()) ∧ s'.disk 7 0 = 5 ∧
      constElement 2 1 s' 0 0 = some (s'', 99) := ⟨_, _, rfl, by decide +kernel, rfl⟩

/-- The hypotheses are met: generate 1, 2, ... in positions 1..4 of the vector (both ends inside a block), then double positions 1..3, and
look for an element. -/
example : ∃ s abs, Hist 2 1 s abs ∧ abs = [none, some 2, some 4, some 3, some 4] ∧ Range abs 1 5 [2, 4, 3, 4] ∧
    ∃ s', find 2 1 s 1 5 (fun x => x == 3) (fun _ => 0) = some (s', 3) := by
  obtain ⟨s1, g1, h1⟩ := C41_generate (by decide) (by decide) exVec_hist (b := 1) (e := 5) (by decide) (by decide)
    (fun (n : Nat) => (n + 1, n)) 1 (fun _ => 0) (fun _ => by decide) (fun _ => 0)
  obtain ⟨s2, g2, h2⟩ := C41_for_each_m (by decide) (by decide) h1 (b := 1) (e := 3) (xs := [1, 2]) (by decide) (by decide) rfl
    (fun (_ : Unit) x => ((), 2 * x)) () (fun _ => 0)
  refine ⟨s2, _, h2, rfl, rfl, ?_⟩
  obtain ⟨s3, g3, _⟩ := find_inv (hist_inv (by decide) (by decide) h2).inv (b := 1) (e := 5) (xs := [2, 4, 3, 4]) (by decide) (by decide) rfl
    (fun x => x == 3) (fun _ => 0)
  exact ⟨s3, g3⟩

/-! ## C34 -/

/-- **C34** If `random_shuffle` returns, then the range holds a permutation of its former elements and everything else is unchanged, for
every range, memory limit, page size and random number generator. -/
theorem C34_permutation (hB : 0 < B) (hP : 0 < P) {s : Sys α} {abs} (h : Hist B P s abs) {b e : Nat} {xs : List α} (hb : b ≤ e)
    (he : e ≤ abs.length) (hr : Range abs b e xs) (E : Env α R) (hE : EnvOk B E) {d M : Nat} {r r' : R} {s' : Sys α}
    (hs : shuffle B P E d M s b e r = .ok (s', r')) : ∃ zs, zs.Perm xs ∧ Hist B P s' (replaced abs b e zs) := by
  obtain ⟨zs, p, i1, i2⟩ := shuffle_perm E hE _ _ _ _ _ _ _ _ _ _ (hist_inv hB hP h).inv hb he hr hs
  have hzl : zs.length = e - b := by rw [p.length_eq, hr.len he]
  refine ⟨zs, p, .shuffle h hE hb he hr hs hzl ?_⟩
  intro j x hx
  have hj : j < zs.length := (List.getElem?_eq_some_iff.1 hx).1
  obtain ⟨s2, y, c1, _, _, c4⟩ := constElement_inv i1 (i := b + j) (victim := 0) (by rw [← i1.len, splice_len _ hb he hzl]; omega) i1.np
  refine ⟨0, s2, i1.np, ?_⟩
  rw [c1, c4 x]
  rw [splice_get _ hb he hzl, if_neg (by omega), show b + j - b = j by omega, hx]
  rfl

/-- **C34** With fewer than 12 blocks per page and sizes far from the range of a 64-bit word, `random_shuffle` of a non-empty range never
fails: at every recursion depth it has either returned or is still recursing. -/
theorem C34_no_failure (hB : 0 < B) (hP : 0 < P) (hP12 : P < 12) {s : Sys α} {abs} (h : Hist B P s abs) {b e : Nat} {xs : List α} (hb : b < e)
    (he : e ≤ abs.length) (hr : Range abs b e xs) (E : Env α R) (hE : EnvOk B E) (d M : Nat) (r : R) (hM : 5 * M < 2 ^ 64)
    (hN : 5 * ((e - b) * E.sz + P * E.BS) < 2 ^ 64) (h6 : 5 * (6 * E.BS + P * E.BS) < 2 ^ 64) :
    (∃ s' r', shuffle B P E d M s b e r = .ok (s', r')) ∨ shuffle B P E d M s b e r = .error .depth := by
  have hno := shuffle_noub E hE hP12 d M s b e r abs xs (hist_inv hB hP h).inv (Nat.le_of_lt hb) he hr (Or.inl hb)
    (by unfold memory W; split <;> omega) hN h6
  cases hs : shuffle B P E d M s b e r with
  | ok p => exact Or.inl ⟨p.1, p.2, rfl⟩
  | error x =>
    cases x with
    | ub => exact absurd hs hno
    | depth => exact Or.inr rfl

/-- **C34** (found) An empty range at the beginning of a block fails (the input stream asserts that it has blocks). -/
theorem C34_empty_range_fails (hB : 0 < B) (hP : 0 < P) {s : Sys α} {abs} (h : Hist B P s abs) {b : Nat} (hb : b % B = 0)
    (E : Env α R) (d M : Nat) (r : R) : shuffle B P E (d + 1) M s b b r = .error .ub := by
  obtain ⟨s1, f1, _⟩ := flush_inv (hist_inv hB hP h).inv
  simp only [shuffle]
  rw [f1]
  dsimp only
  rw [if_pos]
  unfold endBlock
  rw [if_neg (by omega)]
  exact Nat.le_refl _

/-- **C34** (found) With a generator that keeps returning 0 — a legal sequence of random numbers — and a range that does not fit into memory
the recursion never ends: the memory for the recursive call is at most that of the caller and the bucket is the whole range. -/
theorem C34_constant_generator_never_ends (hB : 0 < B) (hP : 0 < P) (hP12 : P < 12) {s : Sys α} {abs} (h : Hist B P s abs) {b e : Nat} {xs : List α}
    (hb : b < e) (he : e ≤ abs.length) (hr : Range abs b e xs) (E : Env α R) (hE : EnvOk B E) (h0 : ∀ r k, (E.rng r k).1 = 0) (M : Nat) (r : R)
    (hM : 5 * M < 2 ^ 64) (h6 : 5 * (6 * E.BS + P * E.BS) < 2 ^ 64) (hbig : M ≤ (e - b) * E.sz) (hbig2 : 6 * E.BS + P * E.BS ≤ (e - b) * E.sz) :
    ∀ d, shuffle B P E d M s b e r = .error .depth := fun d =>
  shuffle_const E hE h0 hP12 d M s b e r abs xs (hist_inv hB hP h).inv hb he hr (by unfold memory W; split <;> omega)
    (by unfold memory; split <;> omega)

/-- Environment for examples: 8-byte blocks of two 4-byte elements. -/
def exEnv : Env Nat Nat where
  rng := fun r k => (r % k, r + 1)
  shuf := fun r xs => (xs.reverse, r + 1)
  BS := 8
  sz := 4
  fresh := fun n => List.range (divCeil n 2)
  s2p := fun _ => 0
  cache := fun _ _ => 50
  disk := fun _ _ => 60
  vic := fun _ => 0
  junk := fun _ => 70

theorem exEnv_ok : EnvOk 2 exEnv :=
  ⟨fun r k hk => Nat.mod_lt r hk, fun _ xs => List.reverse_perm xs, fun _ => by simp [exEnv], fun n => ⟨by simp [exEnv], by simp [exEnv, List.nodup_range]⟩,
    by decide⟩

/-- A vector of `n` elements `0, 1, ...` whose blocks are on disk. -/
def exDisk (n : Nat) : Sys Nat := newFromFile 2 1 n 1 (fun _ => 0) (fun _ _ => 99) (fun b o => 2 * b + o)

/-- The elements a user sees. -/
def look (x : Except Err (Sys Nat × Nat)) (n : Nat) : Option (List (Option Nat)) :=
  match x with
  | .ok (s, _) => some ((List.range n).map fun i => (constElement 2 1 s i 0).map (·.2))
  | .error _ => none

/-- The hypotheses are met and the conclusion is not trivial: 37 elements with 56 bytes of memory need a recursion (with depth 1 there is
no result); positions 0, 38 and 39 are outside the range. -/
example : Hist 2 1 (exDisk 40) ((List.range 40).map fun i => some (2 * (i / 2) + i % 2)) ∧
    Range ((List.range 40).map fun i => some (2 * (i / 2) + i % 2)) 1 38 (List.range' 1 37) ∧
    look (shuffle 2 1 exEnv 1 56 (exDisk 40) 1 38 1) 40 = none ∧
    look (shuffle 2 1 exEnv 9 56 (exDisk 40) 1 38 1) 40 = some ([0, 4, 12, 20, 28, 36, 8, 16, 24, 32, 34, 30, 26, 22, 18, 14, 10, 6, 2, 5, 13, 21,
      29, 37, 1, 9, 17, 25, 33, 35, 31, 27, 23, 19, 15, 11, 7, 3, 38, 39].map some) := by
  refine ⟨.start (.file 40 1 _ _ _ (by decide)), by unfold Range; decide +kernel, by decide +kernel, by decide +kernel⟩

/-- A generator as in `C34_constant_generator_never_ends`, and a range that is large enough. -/
example : EnvOk 2 { exEnv with rng := fun r _ => (0, r) } ∧ 56 ≤ (38 - 1) * exEnv.sz ∧ 6 * exEnv.BS + 1 * exEnv.BS ≤ (38 - 1) * exEnv.sz :=
  ⟨{ exEnv_ok with rng := fun _ k hk => hk }, by decide, by decide⟩

/-- **C34** (found) With 12 blocks per page `space_left` can be 0, then even an empty bucket is shuffled recursively, which fails. -/
theorem C34_large_pages_fail : ∃ s : Sys Nat, Hist 2 12 s [some 0, some 1, some 2] ∧
    (match shuffle 2 12 exEnv 9 100 s 0 3 1 with | .error .ub => true | _ => false) = true :=
  ⟨newFromFile 2 12 3 1 (fun _ => 0) (fun _ _ => 99) (fun b o => 2 * b + o), .start (.file 3 1 _ _ _ (by decide)), by decide +kernel⟩

end Stxxl.Scan
