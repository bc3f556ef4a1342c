import Verif.Sorter.Ops
import Verif.Streams.Props
import Verif.Sort.Props

/-!
# C32: the sorter and stream sort return a sorted permutation of their input

`Hist E mmem st d xs m R` (`Sorter/Ops.lean`): the states a sorter can reach by its interface, while other objects use the same disk; `xs` are
the elements pushed since the last `clear`. `Reads E st zs`: reading with `empty`, `size`, `*`, `++` gives exactly `zs`.
`Short E mmem`: the two reasons for which `bad_parameter` can be thrown.
-/

namespace Stxxl.Sorter

open Stxxl.Srt Stxxl.Streams

variable {α : Type} {E : Env α} {mmem : Nat}

theorem hist_inv (hE : EOk E mmem) {st : St α} {d : D α} {xs : List α} {m : Mode} {R : List Nat} (h : Hist E mmem st d xs m R) :
    Inv E mmem st d xs R m ∧ st.mmem = mmem ∧ ∀ x ∈ xs, Fits E.lt E.P x := by
  induction h with
  | new hd hn h =>
    unfold new at h
    rw [if_neg (not_not.mpr hE.cmem)] at h
    cases h
    refine ⟨.inp [] ⟨⟨hd.nodup_iff.mpr hn, by simpa [SRuns.new, SRuns.bids] using hd⟩, SInv.new _, rfl, by simp, by simp, rfl, rfl⟩ rfl, rfl, by simp⟩
  | @env st d d' xs m R R' h hd hR hn hn' ih =>
    obtain ⟨i1, i2, i3⟩ := ih
    have ho := i1.own
    have hb : ∀ b ∈ st.rc.res.bids, d'.disk b = d.disk b ∧ b ∈ d'.live := fun b hb => hd b (ho.mem.2 (.inl hb)) (ho.disj hb)
    have ho' : Own d' st.rc.res.bids R' := by
      refine ⟨hn, ?_⟩
      rw [List.perm_ext_iff_of_nodup hn]
      · intro b
        rw [List.mem_append, hR]
        constructor
        · intro h1
          by_cases h2 : b ∈ d.live ∧ b ∉ R
          · rcases ho.mem.1 h2.1 with h3 | h3
            · exact .inl h3
            · exact absurd h3 h2.2
          · exact .inr ⟨h1, h2⟩
        · rintro (h1 | h1)
          · exact (hb b h1).2
          · exact h1.1
      · rw [List.nodup_append]
        refine ⟨ho.ndX, hn', ?_⟩
        rintro b hb' _ hc rfl
        exact ((hR b).mp hc).2 ⟨ho.mem.2 (.inl hb'), ho.disj hb'⟩
    refine ⟨?_, i2, i3⟩
    cases i1 with
    | inp ys c o => exact .inp ys { c with own := ho', runs := c.runs.congr (fun b hb' => (hb b hb').1) } o
    | fin c => exact .fin { c with own := ho', runs := c.runs.congr (fun b hb' => (hb b hb').1) }
    | out c zs t o y => exact .out { c with own := ho', runs := c.runs.congr (fun b hb' => (hb b hb').1) } zs t o y
  | push h hv hs ih =>
    obtain ⟨i1, i2, i3⟩ := ih
    cases i1 with
    | inp ys c o =>
      obtain ⟨c', d', ys', p1, p2, p3⟩ := push_spec hE.pick hE.srt hE.P hE.cmem c _
      unfold push at hs
      rw [if_neg (by simp [o]), p1] at hs
      cases hs
      refine ⟨.inp ys' p2 o, i2, ?_⟩
      intro x hx
      rcases List.mem_append.mp hx with hx | hx
      · exact i3 x hx
      · simp only [List.mem_singleton] at hx; subst hx; exact hv
  | clear h hs ih =>
    obtain ⟨i1, i2, i3⟩ := ih
    obtain ⟨st', d', c1, c2, c3, c4, c5⟩ := clear_spec (E := E) (mmem := mmem) i1.own
    rw [hs] at c1
    cases c1
    exact ⟨c2, by rw [c3, i2], by simp⟩
  | finish h hs ih =>
    obtain ⟨i1, i2, i3⟩ := ih
    obtain ⟨rc, d', c1, c2, c3⟩ := i1.dealloc hE i3
    unfold finish at hs
    rw [c1] at hs
    cases hs
    exact ⟨.fin c2, i2, i3⟩
  | finishClear h hs ih =>
    obtain ⟨i1, i2, i3⟩ := ih
    obtain ⟨st', d', c1, c2, c3, c4, c5⟩ := finishClear_spec hE i1
    rw [hs] at c1
    cases c1
    exact ⟨c2, by rw [c3, i2], by simp⟩
  | sort h hs ih =>
    obtain ⟨i1, i2, i3⟩ := ih
    rcases sort_spec hE i2 (i1.dealloc hE i3) i3 with ⟨st', d'', zs, t, s1, s2, s3, s4, s5, s6, s7, s8⟩ | ⟨s1, _⟩
    · rw [s1] at hs
      cases hs
      exact ⟨.out s2 zs t s6 s3, s7, i3⟩
    · rw [s1] at hs; cases hs
  | sortReuse h hs ih =>
    obtain ⟨i1, i2, i3⟩ := ih
    unfold sortReuse at hs
    split at hs
    · cases hs
    · rcases startOutput_spec hE i2 (i1.result hE i3) i3 with ⟨st', d'', zs, t, s1, s2, s3, s4, s5, s6, s7, s8⟩ | ⟨s1, _⟩
      · rw [s1] at hs
        cases hs
        exact ⟨.out s2 zs t s6 s3, s7, i3⟩
      · rw [s1] at hs; cases hs
  | @rewind st d xs R st' d' h hs ih =>
    obtain ⟨i1, i2, i3⟩ := ih
    unfold rewind at hs
    split at hs
    · cases hs
    · rcases sort_spec hE (st := { st with mg := st.mg.dealloc, att := false, out := false }) i2 (i1.dealloc hE i3) i3 with ⟨st'', d'', zs, t, s1, s2, s3, s4, s5, s6, s7, s8⟩ | ⟨s1, _⟩
      · rw [s1] at hs
        cases hs
        exact ⟨.out s2 zs t s6 s3, s7, i3⟩
      · rw [s1] at hs; cases hs
  | next h hs ih =>
    obtain ⟨i1, i2, i3⟩ := ih
    cases i1 with
    | out c zs t o y =>
      unfold next at hs
      rw [if_pos o] at hs
      obtain ⟨hg, ht⟩ := y
      cases hg with
      | nil =>
        have h0 : (merger E.lt E.P.B).empty _ = true := ht
        simp only [merger, beq_iff_eq] at h0
        simp only [merger, h0, true_or, if_true] at hs
        cases hs
      | cons he hc hn hr =>
        rw [hn] at hs
        cases hs
        exact ⟨.out c _ t o ⟨hr, ht⟩, i2, i3⟩

/-! ## The sorter -/

/-- **C32** `push` never fails and changes no block of another object. -/
theorem C32_push (hE : EOk E mmem) {st : St α} {d : D α} {xs : List α} {R : List Nat} (h : Hist E mmem st d xs .inp R) {v : α}
    (_hv : Fits E.lt E.P v) : ∃ st' d', push E st d v = .ok (st', d') ∧ ∀ b ∈ R, d'.disk b = d.disk b := by
  obtain ⟨i1, i2, i3⟩ := hist_inv hE h
  cases i1 with
  | inp ys c o =>
    obtain ⟨c', d', ys', p1, p2, p3⟩ := push_spec hE.pick hE.srt hE.P hE.cmem c v
    unfold push
    rw [if_neg (by simp [o]), p1]
    exact ⟨_, d', rfl, p3⟩

/-- **C32** While elements are pushed `size()` is their number. -/
theorem C32_size_input (hE : EOk E mmem) {st : St α} {d : D α} {xs : List α} {R : List Nat} (h : Hist E mmem st d xs .inp R) :
    size st = xs.length := by
  obtain ⟨i1, i2, i3⟩ := hist_inv hE h
  cases i1 with
  | inp ys c o =>
    unfold size RC.size
    rw [if_neg (by simp [o]), c.runs.el, ← c.perm.length_eq, List.length_append]

/-- What `sort`, `sort_reuse` and `rewind` guarantee: the output is a sorted permutation of the elements, and the blocks of other objects are
not changed; or `bad_parameter` is thrown for one of the two reasons. -/
def Sorts (E : Env α) (mmem : Nat) (d : D α) (xs : List α) (R : List Nat) (r : Except Err (St α × D α)) : Prop :=
  (∃ st' d' zs, r = .ok (st', d') ∧ Reads E st' zs ∧ zs.Pairwise (fun a b => E.lt b a = false) ∧ zs.Perm xs ∧ ∀ b ∈ R, d'.disk b = d.disk b) ∨
  (r = .error .noMem ∧ Short E mmem)

/-- **C32** `sort()`, from any mode (also a second time, after `finish()` or in the middle of the output). -/
theorem C32_sort (hE : EOk E mmem) {st : St α} {d : D α} {xs : List α} {m : Mode} {R : List Nat} (h : Hist E mmem st d xs m R) :
    Sorts E mmem d xs R (sort E st d) := by
  obtain ⟨i1, i2, i3⟩ := hist_inv hE h
  rcases sort_spec hE i2 (i1.dealloc hE i3) i3 with ⟨st', d'', zs, t, s1, s2, s3, s4, s5, s6, s7, s8⟩ | ⟨s1, s2⟩
  · exact .inl ⟨st', d'', zs, s1, reads_of_yields s6 s3, s4, s5, s8⟩
  · exact .inr ⟨s1, s2⟩

/-- **C32** `sort_reuse()` after the input. -/
theorem C32_sort_reuse (hE : EOk E mmem) {st : St α} {d : D α} {xs : List α} {R : List Nat} (h : Hist E mmem st d xs .inp R) :
    Sorts E mmem d xs R (sortReuse E st d) := by
  obtain ⟨i1, i2, i3⟩ := hist_inv hE h
  have ho : st.out = false := by cases i1 with | inp ys c o => exact o
  unfold sortReuse
  rw [if_neg (by simp [ho])]
  rcases startOutput_spec hE i2 (i1.result hE i3) i3 with ⟨st', d'', zs, t, s1, s2, s3, s4, s5, s6, s7, s8⟩ | ⟨s1, s2⟩
  · exact .inl ⟨st', d'', zs, s1, reads_of_yields s6 s3, s4, s5, s8⟩
  · exact .inr ⟨s1, s2⟩

/-- **C32** `rewind()`, after any part of the output has been read: everything can be read again. -/
theorem C32_rewind (hE : EOk E mmem) {st : St α} {d : D α} {xs : List α} {R : List Nat} (h : Hist E mmem st d xs .out R) :
    Sorts E mmem d xs R (rewind E st d) := by
  obtain ⟨i1, i2, i3⟩ := hist_inv hE h
  have ho : st.out = true := by cases i1 with | out c zs t o y => exact o
  unfold rewind
  rw [if_neg (by simp [ho])]
  rcases sort_spec hE (st := { st with mg := st.mg.dealloc, att := false, out := false }) i2 (i1.dealloc hE i3) i3
    with ⟨st', d'', zs, t, s1, s2, s3, s4, s5, s6, s7, s8⟩ | ⟨s1, s2⟩
  · exact .inl ⟨st', d'', zs, s1, reads_of_yields s6 s3, s4, s5, s8⟩
  · exact .inr ⟨s1, s2⟩

/-- **C32** In output mode the rest of the output can always be read to its end: `*` and `++` are defined until `empty()` holds, and `size()`
is the number of elements left; also while other objects use the disk. -/
theorem C32_output_readable (hE : EOk E mmem) {st : St α} {d : D α} {xs : List α} {R : List Nat} (h : Hist E mmem st d xs .out R) :
    ∃ zs, Reads E st zs := by
  obtain ⟨i1, i2, i3⟩ := hist_inv hE h
  cases i1 with
  | out c zs t o y => exact ⟨zs, reads_of_yields o y⟩

/-- **C32** `clear()` gives back every block: what is allocated afterwards belongs to other objects. It can be used in any mode, and the sorter
can be used again (`Hist.clear`). -/
theorem C32_clear (hE : EOk E mmem) {st : St α} {d : D α} {xs : List α} {m : Mode} {R : List Nat} (h : Hist E mmem st d xs m R) :
    ∃ st' d', clear st d = .ok (st', d') ∧ size st' = 0 ∧ d'.live.Perm R ∧ d'.disk = d.disk := by
  obtain ⟨i1, i2, i3⟩ := hist_inv hE h
  obtain ⟨st', d', c1, c2, c3, c4, c5⟩ := clear_spec (E := E) (mmem := mmem) i1.own
  refine ⟨st', d', c1, ?_, c5, c4⟩
  cases c2 with
  | inp ys c o =>
    unfold size RC.size
    have := c.perm.length_eq
    rw [if_neg (by simp [o]), c.runs.el]
    rw [List.length_append] at this; simpa using this

/-- **C32** `finish_clear()` during the output gives back every block. -/
theorem C32_finish_clear (hE : EOk E mmem) {st : St α} {d : D α} {xs : List α} {R : List Nat} (h : Hist E mmem st d xs .out R) :
    ∃ st' d', finishClear E st d = .ok (st', d') ∧ d'.live.Perm R ∧ d'.disk = d.disk := by
  obtain ⟨i1, i2, i3⟩ := hist_inv hE h
  obtain ⟨st', d', c1, c2, c3, c4, c5⟩ := finishClear_spec hE i1
  exact ⟨st', d', c1, c5, c4⟩

/-- **C32** `finish()` never fails; the elements are still there (`C32_sort` applies to the new state). -/
theorem C32_finish (hE : EOk E mmem) {st : St α} {d : D α} {xs : List α} {m : Mode} {R : List Nat} (h : Hist E mmem st d xs m R) :
    ∃ st' d', finish E st d = .ok (st', d') ∧ Hist E mmem st' d' xs .fin R ∧ ∀ b ∈ R, d'.disk b = d.disk b := by
  obtain ⟨i1, i2, i3⟩ := hist_inv hE h
  obtain ⟨rc, d', c1, c2, c3⟩ := i1.dealloc hE i3
  have hs : finish E st d = .ok ({ st with rc := rc, mg := if st.out then st.mg.dealloc else st.mg, att := if st.out then false else st.att }, d') := by
    unfold finish; rw [c1]
  exact ⟨_, d', hs, .finish h hs, c3⟩

/-! ## Stream sort -/

/-- **C32** `stream::sort(input)`: for every input stream that yields `xs`, the result is a stream that yields a sorted permutation of `xs`; the
input is used up; destroying the sort object gives back its blocks; blocks of other objects are not changed. Or `bad_parameter` is thrown. -/
theorem C32_stream_sort (hE : EOk E mmem) {σ : Type} {S : Streams.Stream σ α} {s s' : σ} {xs : List α} (hx : Yields S s xs s')
    (hf : ∀ x ∈ xs, Fits E.lt E.P x) {n : Nat} (hn : xs.length < n) {d : D α} {R : List Nat} (hd : d.live.Perm R) (hR : R.Nodup) :
    (∃ m r d' zs t, streamSort E mmem S n s d = .ok (m, s', r, d') ∧ Yields (merger E.lt E.P.B) m zs t ∧
      zs.Pairwise (fun a b => E.lt b a = false) ∧ zs.Perm xs ∧
      (∃ d'', endSort r d' = .ok d'' ∧ d''.live.Perm R ∧ ∀ b ∈ R, d''.disk b = d.disk b)) ∨
    (streamSort E mmem S n s d = .error .noMem ∧ Short E mmem) := by
  unfold streamSort
  rw [if_neg (not_not.mpr hE.cmem), materialize_ok hx hn]
  dsimp only [List.nil_append]
  have ho : Own d [] R := ⟨hd.nodup_iff.mpr hR, by simpa using hd⟩
  obtain ⟨r, d1, b1, b2, b3, b4⟩ := bcResult_spec hE.pick hE.srt hE.swo hE.P hE.cmem ho hf
  rw [b1]
  dsimp only
  rcases initMerger_spec hE.pick hE.swo hE.P hE.mf E.depth mmem hE.depth d1 r xs [] R b3 (by rw [List.append_nil]; exact b2) hf
    with ⟨⟨m, s, d2⟩, i1, ⟨zs, t, i2, i3, i4, i5⟩, i6, i7, i8⟩ | ⟨i1, i2⟩
  · rw [i1]
    obtain ⟨d3, f1, f2, f3⟩ := delAll_own s.bids (X := []) (R := R) i7
    refine .inl ⟨m, s, d2, zs, t, rfl, i2, i3, i4, d3, by unfold endSort; rw [f1]; rfl, by simpa using f3.perm, ?_⟩
    intro b hb
    rw [f2, i8 b (.inr hb), b4 b hb]
  · rw [i1]
    refine .inr ⟨rfl, ?_⟩
    rcases i2 with i2 | i2
    · exact .inl i2.2
    · exact .inr i2

/-- **C32** `stxxl::sort<BlockSize>(begin, end, cmp, memory)` for a range of an external vector with any history: exactly the range is
replaced, by a sorted permutation of its elements, and no block is leaked; or `bad_parameter` is thrown. -/
theorem C32_sort_range (hE : EOk E E.cmem) {B P : Nat} (hB : 0 < B) (hP : 0 < P) {v : ExtVector.Sys α} {abs : List (Option α)}
    (h : Scan.Hist B P v abs) {b e : Nat} {xs : List α} (hb : b ≤ e) (he : e ≤ abs.length) (hr : Scan.Range abs b e xs)
    (hf : ∀ x ∈ xs, Fits E.lt E.P x) {n : Nat} (hn : e - b < n) (vic : Nat → Nat) (hv : ∀ i, vic i < v.vec.npages) (junk : Nat → α)
    {d : D α} {R : List Nat} (hd : d.live.Perm R) (hR : R.Nodup) :
    (∃ v' d' zs, sortRange E B P n v b e vic junk d = .ok (v', d') ∧ Scan.Hist B P v' (Scan.replaced abs b e zs) ∧
      zs.Pairwise (fun a b => E.lt b a = false) ∧ zs.Perm xs ∧ d'.live.Perm R ∧ ∀ b ∈ R, d'.disk b = d.disk b) ∨
    (sortRange E B P n v b e vic junk d = .error .noMem ∧ Short E E.cmem) := by
  have hxl := Scan.Range.len hr he
  obtain ⟨v1, a, a', o1, o2, o3, o4, o5⟩ := ofVec_yields (Scan.hist_inv hB hP h).inv hb he hr junk
  have hh : Scan.Hist B P v1 abs := by
    unfold ofVecInit at o1
    split at o1
    · cases o1; exact h
    · cases hfl : ExtVector.flush P v with
      | none => rw [hfl] at o1; cases o1
      | some v2 =>
        rw [hfl] at o1
        have hs : ExtVector.step B P v .flush = some (v2, none) := by simp [ExtVector.step, hfl]
        have h2 := Scan.Hist.op h (op := .flush) (by trivial) hs
        have : v1 = v2 := by
          dsimp only at o1
          split at o1
          · split at o1
            · cases o1
            · cases o1; rfl
          · cases o1; rfl
        subst this
        exact h2
  unfold sortRange
  rw [o1]
  dsimp only
  rcases C32_stream_sort hE o2 hf (by omega) hd hR (n := n) with ⟨m, r, d', zs, t, s1, s2, s3, s4, d'', s5, s6, s7⟩ | ⟨s1, s2⟩
  · rw [s1]
    dsimp only
    have hzl : zs.length = e - b := by rw [s4.length_eq, hxl]
    obtain ⟨v', m1, m2⟩ := C33_materialize_vector hB hP hh s2.1 (b := b) (e := none) (.inl s2.2) (by simp) (by omega) (n := n) (by omega) vic
      (fun i => by rw [o4.npages]; exact hv i) junk
    rw [m1, s5]
    have : b + zs.length = e := by omega
    rw [this] at m2
    exact .inl ⟨v', d'', zs, rfl, m2, s3, s4, s6, s7⟩
  · rw [s1]; exact .inr ⟨rfl, s2⟩

/-! ## Presorted sequences -/

/-- Push the elements of one sequence. -/
def FS.pushAll (pick : Pick) (P : Par α) : D α → FS α → List α → Option (FS α × D α)
  | d, f, [] => some (f, d)
  | d, f, x :: xs =>
    match f.push pick P d x with
    | none => none
    | some (f, d) => FS.pushAll pick P d f xs

/-- Give the sequences one after the other, with `finish()` after each (`result()` calls it after the last one). -/
def FS.feed (pick : Pick) (P : Par α) : D α → FS α → List (List α) → Option (FS α × D α)
  | d, f, [] => some (f, d)
  | d, f, xs :: xss =>
    match FS.pushAll pick P d f xs with
    | none => none
    | some (f, d) =>
      match f.finish pick P d with
      | none => none
      | some (f, d) => FS.feed pick P d f xss

theorem pushAll_spec {pick : Pick} (hp : PickOk pick) {P : Par α} {lt : α → α → Bool} (hB : 0 < P.B) {F : List Nat} {fin : List α} :
    ∀ (xs : List α) (d : D α) (f : FS α) (cur : List α), FInv lt P d f fin cur F →
    ∃ f' d', FS.pushAll pick P d f xs = some (f', d') ∧ FInv lt P d' f' fin (cur ++ xs) F ∧ (∀ b ∈ F, d'.disk b = d.disk b) := by
  intro xs
  induction xs with
  | nil => intro d f cur h; exact ⟨f, d, rfl, by rw [List.append_nil]; exact h, fun _ _ => rfl⟩
  | cons x xs ih =>
    intro d f cur h
    obtain ⟨f1, d1, p1, p2, p3⟩ := FS.push_spec hp hB h x
    obtain ⟨f2, d2, q1, q2, q3⟩ := ih d1 f1 _ p2
    refine ⟨f2, d2, by unfold FS.pushAll; rw [p1]; exact q1, by simpa using q2, fun b hb => by rw [q3 b hb, p3 b hb]⟩

theorem feed_spec {pick : Pick} (hp : PickOk pick) {P : Par α} {lt : α → α → Bool} (hs : SWO lt) (hB : 0 < P.B) {F : List Nat} :
    ∀ (xss : List (List α)) (d : D α) (f : FS α) (fin : List α), FInv lt P d f fin [] F → (∀ xs ∈ xss, Sorted lt xs ∧ ∀ x ∈ xs, Fits lt P x) →
    ∃ f' d', FS.feed pick P d f xss = some (f', d') ∧ FInv lt P d' f' (fin ++ xss.flatten) [] F ∧ (∀ b ∈ F, d'.disk b = d.disk b) := by
  intro xss
  induction xss with
  | nil => intro d f fin h _; exact ⟨f, d, rfl, by simpa using h, fun _ _ => rfl⟩
  | cons xs xss ih =>
    intro d f fin h hx
    obtain ⟨f1, d1, p1, p2, p3⟩ := pushAll_spec hp hB xs d f [] h
    rw [List.nil_append] at p2
    have hxs := hx xs (List.mem_cons_self ..)
    obtain ⟨f2, d2, q1, q2, q3⟩ := FS.finish_spec hp hs hB p2 hxs.1 hxs.2
    obtain ⟨f3, d3, r1, r2, r3⟩ := ih d2 f2 _ q2 (fun ys hy => hx ys (List.mem_cons_of_mem _ hy))
    refine ⟨f3, d3, ?_, by simpa using r2, fun b hb => by rw [r3 b hb, q3 b hb, p3 b hb]⟩
    unfold FS.feed
    rw [p1]
    dsimp only
    rw [q1]
    exact r1

/-- **C32** `runs_creator<from_sorted_sequences>`: the sequences given to it, each sorted, come out of the merger as one sorted permutation of
all their elements. -/
theorem C32_from_sorted_sequences (hE : EOk E mmem) {xss : List (List α)}
    (hx : ∀ xs ∈ xss, xs.Pairwise (fun a b => E.lt b a = false) ∧ ∀ x ∈ xs, Fits E.lt E.P x) {d : D α} {R : List Nat} (hd : d.live.Perm R)
    (hR : R.Nodup) : ∃ f d1 r d2, FS.feed E.pick E.P d { res := SRuns.new, run := [], blk := [] } xss = some (f, d1) ∧
      f.result E.pick E.P d1 = some (r, d2) ∧
      ((∃ m r' d3 zs t, initMerger E.pick E.lt E.P E.mf E.depth mmem d2 r = .ok (m, r', d3) ∧ Yields (merger E.lt E.P.B) m zs t ∧
        zs.Pairwise (fun a b => E.lt b a = false) ∧ zs.Perm xss.flatten ∧ (∀ b ∈ R, d3.disk b = d.disk b) ∧
        (∃ d'', endSort r' d3 = .ok d'' ∧ d''.live.Perm R)) ∨
       (initMerger E.pick E.lt E.P E.mf E.depth mmem d2 r = .error .noMem ∧ Short E mmem)) := by
  have ho : Own d [] R := ⟨hd.nodup_iff.mpr hR, by simpa using hd⟩
  obtain ⟨f, d1, p1, p2, p3⟩ := feed_spec hE.pick hE.swo hE.P.B xss d _ [] (FInv.new (lt := E.lt) ho hE.P.B) hx
  obtain ⟨f2, d2, q1, q2, q3⟩ := FS.finish_spec hE.pick hE.swo hE.P.B p2 List.Pairwise.nil (by simp)
  rw [List.nil_append, List.append_nil] at q2
  obtain ⟨hs, hown⟩ := q2.result hE.P.B
  refine ⟨f, d1, f2.res, d2, p1, by unfold FS.result; rw [q1], ?_⟩
  rcases initMerger_spec hE.pick hE.swo hE.P hE.mf E.depth mmem hE.depth d2 f2.res _ [] R hs (by rw [List.append_nil]; exact hown)
    (by intro x hx'; obtain ⟨xs, h1, h2⟩ := List.mem_flatten.mp hx'; exact (hx xs h1).2 x h2)
    with ⟨⟨m, s, d3⟩, i1, ⟨zs, t, i2, i3, i4, i5⟩, i6, i7, i8⟩ | ⟨i1, i2⟩
  · obtain ⟨d4, f1, f2', f3⟩ := delAll_own s.bids (X := []) (R := R) i7
    refine .inl ⟨m, s, d3, zs, t, i1, i2, i3, i4, ?_, d4, by unfold endSort; rw [f1]; rfl, by simpa using f3.perm⟩
    intro b hb
    rw [i8 b (.inr hb), q3 b hb, p3 b hb]
  · refine .inr ⟨i1, ?_⟩
    rcases i2 with i2 | i2
    · exact .inl i2.2
    · exact .inr i2

/-! ## What the code does not guarantee -/

/-- **C32** `optimal_merge_factor` is computed in floating point and can be one more than `max_arity` (e.g. 6 for 3125 runs and arity 5: the fifth
root of 3125 is rounded up). Then, if there are at least two disks and the memory is just enough for that arity, `sort()` throws `bad_parameter`
although the memory is above the minimum that the code checks (in a debug build an assertion fails instead). -/
theorem C32_rounded_merge_factor_throws (hP : POk E.P) {mem : Nat} {s : SRuns α} {d : D α} {depth : Nat} (hel : s.elements ≠ 0) (hsm : s.small = [])
    (hlo : 4 * E.P.nd + 3 ≤ mem / E.P.raw) (hhi : mem / E.P.raw < 6 * E.P.nd + 3) (hr : maxArity E.P mem < s.runs.length)
    (hin : inputBuffers E.P mem < s.runs.length + 2 * E.P.nd) (hsz : ∀ e ∈ s.runs, 0 < e.2)
    (hmf : E.mf s.runs.length (maxArity E.P mem) = maxArity E.P mem + 1) :
    initMerger E.pick E.lt E.P E.mf (depth + 2) mem d s = .error .noMem := by
  have hnd := hP.nd
  have hma : maxArity E.P mem = mem / E.P.raw - (2 * E.P.nd + 2 * E.P.nd + 1) := by
    unfold maxArity
    rw [Nat.mul_comm (2 * E.P.nd + 2 * E.P.nd + 1) E.P.raw]
    exact Nat.sub_mul_div mem E.P.raw _
  have hmem' : (mem - 2 * E.P.nd * E.P.raw) / E.P.raw = mem / E.P.raw - 2 * E.P.nd := by
    rw [Nat.mul_comm (2 * E.P.nd) E.P.raw]; exact Nat.sub_mul_div mem E.P.raw _
  have hib2 : inputBuffers E.P (mem - 2 * E.P.nd * E.P.raw) = mem / E.P.raw - 2 * E.P.nd - 1 := by
    unfold inputBuffers
    have := Nat.sub_mul_div (mem - 2 * E.P.nd * E.P.raw) E.P.raw 1
    rw [Nat.mul_one] at this
    rw [this, hmem']
  unfold initMerger
  rw [if_neg hel, if_neg (by simp [hsm]), if_pos hin, if_neg (by omega), hmf, if_neg (by omega)]
  unfold mergeLoop
  rw [if_pos hr]
  -- the first group has `max_arity + 1` runs
  obtain ⟨g, gs, hg, hgl⟩ : ∃ g gs, groups (maxArity E.P mem + 1) s.runs.length s.runs = g :: gs ∧ g = s.runs.take (maxArity E.P mem + 1) := by
    cases hn : s.runs.length with
    | zero => omega
    | succ n =>
      unfold groups
      rw [if_neg (by intro h; rw [h] at hn; simp at hn)]
      exact ⟨_, _, rfl, rfl⟩
  have hgl' : g.length = maxArity E.P mem + 1 := by rw [hgl, List.length_take]; omega
  rw [hg]
  unfold mergeGroups
  rw [if_pos (by omega)]
  have : mergeGroup E.pick E.lt E.P (initMerger E.pick E.lt E.P E.mf (depth + 1)) mem d g = .error .noMem := by
    unfold mergeGroup
    dsimp only
    have hsum : (g.map (·.2)).sum ≠ 0 := by
      cases g with
      | nil => simp at hgl'
      | cons e g =>
        have : 0 < e.2 := hsz e (List.mem_of_mem_take (by rw [← hgl]; exact List.mem_cons_self ..))
        simp only [List.map_cons, List.sum_cons]; omega
    unfold initMerger
    rw [if_neg hsum, if_neg (by simp), if_pos (by dsimp only; rw [hib2, hgl']; omega), hmem', if_pos (by omega)]
  rw [this]

/-- A sorter of numbers: blocks of two elements and eight bytes, one disk; runs of two elements; `mf` is always 2. -/
def exEnv : Env Nat :=
  { pick := Srt.Ex.pick, srt := Srt.Ex.srt, lt := Srt.Ex.ltN, mf := fun _ _ => 2, P := { B := 2, raw := 8, nd := 1, fac := 1, maxV := 1000 },
    cmem := 16, depth := 20 }

/-- The hypotheses are met, with memory for 7 blocks. -/
theorem exEnv_ok : EOk exEnv 56 where
  pick := Srt.Ex.env.pick
  srt := Srt.Ex.env.srt
  swo := Srt.Ex.env.swo
  mf := fun _ _ _ _ => Nat.le_refl 2
  P := ⟨by decide, by decide, by decide, by decide⟩
  cmem := by decide
  depth := by decide

def pushes (E : Env α) : St α × D α → List α → Except Err (St α × D α)
  | s, [] => .ok s
  | s, v :: vs =>
    match push E s.1 s.2 v with
    | .error e => .error e
    | .ok s => pushes E s vs

theorem pushes_hist {s s' : St α × D α} {xs vs : List α} {R : List Nat} (h : Hist E mmem s.1 s.2 xs .inp R) (hv : ∀ v ∈ vs, Fits E.lt E.P v)
    (hs : pushes E s vs = .ok s') : Hist E mmem s'.1 s'.2 (xs ++ vs) .inp R := by
  induction vs generalizing s xs with
  | nil => cases hs; rw [List.append_nil]; exact h
  | cons v vs ih =>
    unfold pushes at hs
    cases hp : push E s.1 s.2 v with
    | error e => rw [hp] at hs; cases hs
    | ok s1 =>
      rw [hp] at hs
      have := ih (h.push (hv v (List.mem_cons_self ..)) hp) (fun w hw => hv w (List.mem_cons_of_mem _ hw)) hs
      simpa using this

/-- Foreign block 7. -/
def exD : D Nat := { disk := fun _ => [0, 0], live := [7], clk := 0 }

/-- The state after pushing `vs`. -/
def exPush (vs : List Nat) : Except Err (St Nat × D Nat) :=
  match new exEnv 56 with
  | .error e => .error e
  | .ok st => pushes exEnv (st, exD) vs

theorem exPush_hist {vs : List Nat} {s : St Nat × D Nat} (h : exPush vs = .ok s) (hv : ∀ v ∈ vs, v < 1000) : Hist exEnv 56 s.1 s.2 vs .inp [7] := by
  unfold exPush at h
  cases hn : new exEnv 56 with
  | error e => rw [hn] at h; cases h
  | ok st =>
    rw [hn] at h
    have h0 : Hist exEnv 56 st exD [] .inp [7] := .new (List.Perm.refl _) (by decide) hn
    have := pushes_hist (s := (st, exD)) h0 (fun v hv' => .inl (by simpa [exEnv, Srt.Ex.ltN] using hv v hv')) h
    simpa using this

theorem pushes_ok (hE : EOk E mmem) : ∀ (vs : List α) {s : St α × D α} {xs : List α} {R : List Nat}, Hist E mmem s.1 s.2 xs .inp R →
    (∀ v ∈ vs, Fits E.lt E.P v) → ∃ s', pushes E s vs = .ok s' := by
  intro vs
  induction vs with
  | nil => intro s xs R _ _; exact ⟨s, rfl⟩
  | cons v vs ih =>
    intro s xs R h hv
    obtain ⟨st', d', p1, _⟩ := C32_push hE h (hv v (List.mem_cons_self ..))
    obtain ⟨s', p2⟩ := ih (s := (st', d')) (h.push (hv v (List.mem_cons_self ..)) p1) (fun w hw => hv w (List.mem_cons_of_mem _ hw))
    exact ⟨s', by unfold pushes; rw [p1]; exact p2⟩

/-- The memory of the example is enough. -/
theorem exEnv_not_short : ¬ Short exEnv 56 := by
  rintro (h | ⟨n, a, h1, h2, h3⟩)
  · exact absurd h (by decide)
  · have : a < 2 := h3
    omega

/-- The hypotheses are met: five runs and memory for 7 blocks (one merge phase before the output). After `sort` all is read in order, and after
two `++` and `rewind` again. -/
example : ∃ st d, Hist exEnv 56 st d [5, 3, 9, 1, 8, 2, 7, 4, 6] .inp [7] ∧ ∃ st1 d1, sort exEnv st d = .ok (st1, d1) ∧
    Reads exEnv st1 [1, 2, 3, 4, 5, 6, 7, 8, 9] ∧ ∃ st2 st3 st4 d4, next exEnv st1 = .ok st2 ∧ next exEnv st2 = .ok st3 ∧
    Reads exEnv st3 [3, 4, 5, 6, 7, 8, 9] ∧ rewind exEnv st3 d1 = .ok (st4, d4) ∧ Reads exEnv st4 [1, 2, 3, 4, 5, 6, 7, 8, 9] := by
  have hn : new exEnv 56 = .ok _ := rfl
  have h0 : Hist exEnv 56 _ exD [] .inp [7] := .new (List.Perm.refl _) (by decide) hn
  have hv : ∀ v ∈ [5, 3, 9, 1, 8, 2, 7, 4, 6], Fits exEnv.lt exEnv.P v := by
    intro v hv
    refine .inl ?_
    have : v < 1000 := by simp at hv; omega
    simpa [exEnv, Srt.Ex.ltN] using this
  obtain ⟨s, hs⟩ := pushes_ok exEnv_ok [5, 3, 9, 1, 8, 2, 7, 4, 6] (s := (_, exD)) h0 hv
  have h1 := pushes_hist (s := (_, exD)) h0 hv hs
  rw [List.nil_append] at h1
  have uniq : ∀ zs : List Nat, zs.Pairwise (fun a b => exEnv.lt b a = false) → zs.Perm [5, 3, 9, 1, 8, 2, 7, 4, 6] → zs = [1, 2, 3, 4, 5, 6, 7, 8, 9] := by
    intro zs h2 h3
    have h4 : zs.Perm [1, 2, 3, 4, 5, 6, 7, 8, 9] := h3.trans (by decide)
    have h5 : zs.Pairwise (· ≤ ·) := h2.imp (fun h => by simpa [exEnv, Srt.Ex.ltN] using h)
    exact h4.eq_of_pairwise (fun a b _ _ h1 h2 => Nat.le_antisymm h1 h2) h5 (by decide)
  rcases C32_sort exEnv_ok h1 with ⟨st1, d1, zs, r1, r2, r3, r4, _⟩ | ⟨_, r⟩
  · obtain rfl := uniq zs r3 r4
    have h2 := h1.sort r1
    refine ⟨s.1, s.2, h1, st1, d1, r1, r2, ?_⟩
    cases r2 with
    | step _ _ _ n1 g1 =>
      cases g1 with
      | step _ _ _ n2 g2 =>
        rcases C32_rewind exEnv_ok ((h2.next n1).next n2) with ⟨st4, d4, zs, r1, r2, r3, r4, _⟩ | ⟨_, r⟩
        · obtain rfl := uniq zs r3 r4
          exact ⟨_, _, st4, d4, n1, n2, g2, r1, r2⟩
        · exact absurd r exEnv_not_short
  · exact absurd r exEnv_not_short

/-- **C32** After `finish()` the sorter reports a wrong size: elements that are still in the internal buffer are counted twice. -/
theorem C32_size_after_finish_wrong : ∃ (st : St Nat) (d : D Nat) (xs : List Nat), Hist exEnv 56 st d xs .fin [7] ∧ xs.length = 1 ∧ size st = 2 := by
  have h0 : ∃ s, exPush [5] = .ok s := ⟨_, rfl⟩
  obtain ⟨s, hs⟩ := h0
  have hh := exPush_hist hs (by decide)
  obtain ⟨st', d', f1, f2, _⟩ := C32_finish exEnv_ok hh
  refine ⟨st', d', [5], f2, rfl, ?_⟩
  have : (match exPush [5] with | .ok s => (match finish exEnv s.1 s.2 with | .ok s => size s.1 | .error _ => 0) | .error _ => 0) = 2 := by
    decide +kernel
  rw [hs] at this
  dsimp only at this
  rw [f1] at this
  exact this

/-- The same with memory for 7 blocks for both parts. -/
def exEnv2 : Env Nat := { exEnv with cmem := 56 }

theorem exEnv2_ok : EOk exEnv2 exEnv2.cmem where
  pick := Srt.Ex.env.pick
  srt := Srt.Ex.env.srt
  swo := Srt.Ex.env.swo
  mf := fun _ _ _ _ => Nat.le_refl 2
  P := ⟨by decide, by decide, by decide, by decide⟩
  cmem := by decide
  depth := by decide

/-- The hypotheses of `C32_sort_range` are met: positions 1..4 of an external vector are generated in descending order and then sorted. -/
example : ∃ v v' d', Scan.Hist 2 1 v [none, some 9, some 8, some 7, some 6] ∧
    sortRange exEnv2 2 1 10 v 1 5 (fun _ => 0) (fun _ => 0) exD = .ok (v', d') ∧ Scan.Hist 2 1 v' [none, some 6, some 7, some 8, some 9] := by
  obtain ⟨v, g1, h1⟩ := Scan.C41_generate (by decide) (by decide) Scan.exVec_hist (b := 1) (e := 5) (by decide) (by decide)
    (fun (n : Nat) => (n - 1, n)) 9 (fun _ => 0) (fun _ => by decide) (fun _ => 0)
  have h1' : Scan.Hist 2 1 v [none, some 9, some 8, some 7, some 6] := h1
  have hnp := (Scan.hist_inv (by decide) (by decide) h1').inv.np
  have ns : ¬ Short exEnv2 exEnv2.cmem := exEnv_not_short
  rcases C32_sort_range exEnv2_ok (by decide) (by decide) h1' (b := 1) (e := 5) (xs := [9, 8, 7, 6]) (by decide) (by decide) rfl
    (by intro x hx; refine .inl ?_; have : x < 1000 := by (simp at hx; omega)
        simpa [exEnv2, exEnv, Srt.Ex.ltN] using this) (n := 10) (by decide) (fun _ => 0) (fun _ => hnp) (fun _ => 0) (d := exD) (R := [7])
    (List.Perm.refl _) (by decide) with ⟨v', d', zs, r1, r2, r3, r4, _⟩ | ⟨_, r⟩
  · have h5 : zs.Pairwise (· ≤ ·) := r3.imp (fun h => by simpa [exEnv2, exEnv, Srt.Ex.ltN] using h)
    have h4 : zs.Perm [6, 7, 8, 9] := r4.trans (by decide)
    have := h4.eq_of_pairwise (fun a b _ _ h1 h2 => Nat.le_antisymm h1 h2) h5 (by decide)
    subst this
    exact ⟨v, v', d', h1', r1, r2⟩
  · exact absurd r ns

/-- The hypotheses of `C32_from_sorted_sequences` are met. -/
example : ∀ xs ∈ [[1, 5], [], [2, 3, 9]], xs.Pairwise (fun a b => exEnv.lt b a = false) ∧ ∀ x ∈ xs, Fits exEnv.lt exEnv.P x := by
  unfold Fits
  decide

/-- The hypotheses of `C32_rounded_merge_factor_throws` are met: two disks, memory for 11 blocks (arity 2, and room for 9 runs), 9 runs. -/
example : let E : Env Nat := { exEnv with mf := fun _ a => a + 1, P := { exEnv.P with nd := 2 } }
    let s : SRuns Nat := { elements := 9, runs := List.replicate 9 ([(0, 1)], 1), small := [] }
    POk E.P ∧ s.elements ≠ 0 ∧ s.small = [] ∧ 4 * E.P.nd + 3 ≤ 88 / E.P.raw ∧ 88 / E.P.raw < 6 * E.P.nd + 3 ∧ maxArity E.P 88 < s.runs.length ∧
      inputBuffers E.P 88 < s.runs.length + 2 * E.P.nd ∧ (∀ e ∈ s.runs, 0 < e.2) ∧ E.mf s.runs.length (maxArity E.P 88) = maxArity E.P 88 + 1 :=
  ⟨⟨by decide, by decide, by decide, by decide⟩, by decide, rfl, by decide, by decide, by decide, by decide, by decide, by decide⟩

end Stxxl.Sorter
