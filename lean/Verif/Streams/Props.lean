import Verif.Streams.Mat

/-!
# C33: the stream operators

`Yields S s xs t`: a consumer that reads (`*`) and advances (`++`) the stream `S` from the state `s` until it is empty sees exactly the
values `xs` in this order, never meets undefined behaviour, and leaves the stream in state `t` (`Spec.lean`). `Hist` (C41) are all
histories of an external vector.
-/

namespace Stxxl.Streams

open Stxxl.ExtVector Stxxl.Scan

variable {α β σ τ ω : Type} {B P : Nat}

/-- **C33** A stream has only one meaning. -/
theorem C33_unique_meaning {S : Stream σ α} {s t u : σ} {xs ys : List α} (h : Yields S s xs t) (h' : Yields S s ys u) : xs = ys ∧ t = u :=
  h.det h'

/-- **C33** `streamify(begin, end)` of an array yields the elements of the range. -/
theorem C33_streamify (l : List α) {b e : Nat} (hb : b ≤ e) (he : e ≤ l.length) :
    Yields (ofIter l e) b ((l.drop b).take (e - b)) e := ofIter_yields l hb he

/-- **C33** `streamify(begin, end)` of an external vector, with any history, yields the elements of the range; the vector is flushed, its
contents do not change. -/
theorem C33_streamify_vector (hB : 0 < B) (hP : 0 < P) {s : Sys α} {abs} (h : Hist B P s abs) {b e : Nat} {xs : List α} (hb : b ≤ e)
    (he : e ≤ abs.length) (hr : Range abs b e xs) (junk : Nat → α) :
    ∃ s' v v', ofVecInit B P s b e junk = some (s', v) ∧ Yields (ofVec B e) v xs v' ∧
      ∀ i x vic, abs[i]? = some (some x) → vic < s'.vec.npages → ∃ s'', constElement B P s' i vic = some (s'', x) := by
  have hi := (hist_inv hB hP h).inv
  obtain ⟨s', v, v', h1, h2, h3, _⟩ := ofVec_yields hi hb he hr junk
  refine ⟨s', v, v', h1, h2, ?_⟩
  intro i x vic hx hv
  obtain ⟨hlt, _⟩ := List.getElem?_eq_some_iff.mp hx
  obtain ⟨s2, r, c1, _, _, c4⟩ := constElement_inv h3 (i := i) (victim := vic) (by rw [← h3.len]; exact hlt) hv
  rw [c4 x hx] at c1
  exact ⟨s2, c1⟩

/-- **C33** `streamify(generator)` yields the values of successive calls; it never ends. -/
theorem C33_streamify_generator (gen : ω → ω × α) (g : ω) (n : Nat) :
    ∃ t, Gives (ofGen gen) (ofGenInit gen g) (genVals gen n g) t ∧ (ofGen gen).empty t = false := by
  obtain ⟨t, h⟩ := ofGen_gives gen n g
  exact ⟨t, h, rfl⟩

/-- **C33** `transform`: the results of the functor, called exactly once for every element and in order (a functor with state ends in the
state after these calls). -/
theorem C33_transform {S : Stream σ α} {s s' : σ} {xs : List α} (f : ω → α → ω × β) (h : Yields S s xs s') (o : ω) :
    ∃ t t', transformInit S f o s = some t ∧ Yields (transform S f) t (runOp f o xs).2 t' ∧ t'.op = (runOp f o xs).1 ∧ t'.inp = s' :=
  transform_yields f h o

/-- **C33** `transform` with a pure function is `map`. -/
theorem C33_transform_map {S : Stream σ α} {s s' : σ} {xs : List α} (f : α → β) (h : Yields S s xs s') :
    ∃ t t', transformInit S (fun (u : Unit) x => (u, f x)) () s = some t ∧
      Yields (transform S (fun (u : Unit) x => (u, f x))) t (xs.map f) t' := by
  obtain ⟨t, t', h1, h2, _⟩ := transform_yields (fun (u : Unit) x => (u, f x)) h ()
  rw [runOp_pure] at h2
  exact ⟨t, t', h1, h2⟩

/-- **C33** `transform` with two inputs of any lengths: as many results as the shorter input has elements. (Three to six inputs: the same
with nested pairs, since the inputs are streams again.) -/
theorem C33_transform2 {S : Stream σ α} {T : Stream τ ω} {s s' : σ} {t t' : τ} {xs : List α} {ys : List ω} (f : α → ω → β)
    (h : Yields S s xs s') (h' : Yields T t ys t') :
    ∃ u u', transformInit (both S T) (fun (v : Unit) p => (v, f p.1 p.2)) () (s, t) = some u ∧
      Yields (transform (both S T) (fun (v : Unit) p => (v, f p.1 p.2))) u (List.zipWith f xs ys) u' := by
  obtain ⟨w, hw⟩ := both_zip h h'
  obtain ⟨u, u', h1, h2⟩ := C33_transform_map (fun p : α × ω => f p.1 p.2) hw
  refine ⟨u, u', h1, ?_⟩
  have : (xs.zip ys).map (fun p : α × ω => f p.1 p.2) = List.zipWith f xs ys := by
    rw [List.zip, List.map_zipWith]
  rwa [this] at h2

/-- **C33** `transform` with an endless second input (a generator): no value is lost. -/
theorem C33_transform2_generator {S : Stream σ α} {s s' : σ} {xs : List α} (gen : ω → ω × β) (g : ω) (h : Yields S s xs s') :
    ∃ u u', makeTupleInit (both S (ofGen gen)) (s, ofGenInit gen g) = some u ∧
      Yields (makeTuple (both S (ofGen gen))) u (xs.zip (genVals gen xs.length g)) u' := by
  obtain ⟨t, ht⟩ := ofGen_gives gen xs.length g
  have hl : ∀ (n : Nat) (g : ω), (genVals gen n g).length = n := by
    intro n; induction n with
    | zero => intro g; rfl
    | succ n ih => intro g; simp [genVals, ih]
  obtain ⟨u, u', h1, h2, _⟩ := makeTuple_yields (both_yields h.1 ht (hl _ _).symm (.inl h.2))
  exact ⟨u, u', h1, h2⟩

/-- **C33** `make_tuple` of two streams yields the pairs, up to the end of the shorter one. -/
theorem C33_make_tuple {S : Stream σ α} {T : Stream τ β} {s s' : σ} {t t' : τ} {xs : List α} {ys : List β} (h : Yields S s xs s')
    (h' : Yields T t ys t') : ∃ u u', makeTupleInit (both S T) (s, t) = some u ∧ Yields (makeTuple (both S T)) u (xs.zip ys) u' := by
  obtain ⟨w, hw⟩ := both_zip h h'
  obtain ⟨u, u', h1, h2, _⟩ := makeTuple_yields hw
  exact ⟨u, u', h1, h2⟩

/-- **C33** `choose` projects every element. -/
theorem C33_choose {S : Stream σ α} {s s' : σ} {xs : List α} (p : α → β) (h : Yields S s xs s') : Yields (choose S p) s (xs.map p) s' :=
  choose_yields p h

/-- **C33** `unique` yields the first element of every maximal run: an element is dropped iff the predicate holds between it and the last
element that was kept. The loop inside `++` ends, since the input is finite. -/
theorem C33_unique {S : Stream σ α} (p : α → α → Bool) {s s' : σ} {xs : List α} (h : Yields S s xs s') {n : Nat} (hn : xs.length < n) :
    ∃ t t', uniqueInit S s = some t ∧ Yields (unique S p n) t (xs.destutter (fun kept y => ¬ (p y kept = true))) t' ∧ t'.1 = s' :=
  unique_yields p h hn

/-- **C33** On a sorted input `unique` (with `==`) yields every value once. -/
theorem C33_unique_sorted [LinearOrder α] {S : Stream σ α} {s s' : σ} {xs : List α} (h : Yields S s xs s') (hs : xs.Pairwise (· ≤ ·)) {n : Nat}
    (hn : xs.length < n) :
    ∃ t t' ys, uniqueInit S s = some t ∧ Yields (unique S (· == ·) n) t ys t' ∧ ys.Pairwise (· < ·) ∧ ∀ x, x ∈ ys ↔ x ∈ xs := by
  obtain ⟨t, t', h1, h2, _⟩ := unique_yields (· == ·) h hn
  refine ⟨t, t', _, h1, h2, ?_, ?_⟩
  · have hsub : (xs.destutter (fun a b => ¬ ((b == a) = true))).Sublist xs := List.destutter_sublist _ xs
    have hc := List.isChain_destutter (fun a b : α => ¬ ((b == a) = true)) xs
    have hp := hs.sublist hsub
    have : (xs.destutter (fun a b => ¬ ((b == a) = true))).IsChain (· < ·) := by
      rw [List.isChain_iff_getElem] at hc ⊢
      intro i hi
      refine lt_of_le_of_ne (List.pairwise_iff_getElem.mp hp _ _ _ _ (Nat.lt_succ_self i)) ?_
      intro hx
      exact hc i hi (by rw [hx]; simp)
    exact List.isChain_iff_pairwise.mp this
  · intro x
    refine ⟨fun hx => (List.destutter_sublist _ xs).subset hx, ?_⟩
    have key : ∀ (l : List α) (y z : α), z ∈ y :: l → z ∈ List.destutter' (fun a b => ¬ ((b == a) = true)) y l := by
      intro l
      induction l with
      | nil => intro y z hz; simpa using hz
      | cons w l ih =>
        intro y z hz
        by_cases hw : w = y
        · subst hw
          rw [List.destutter'_cons_neg _ (by simp)]
          apply ih
          simpa using hz
        · rw [List.destutter'_cons_pos _ (by simpa using hw)]
          rcases List.mem_cons.mp hz with rfl | hz
          · exact List.mem_cons_self
          · exact List.mem_cons_of_mem _ (ih w z hz)
    intro hx
    cases xs with
    | nil => exact hx
    | cons y l => rw [List.destutter_cons']; exact key l y x hx

/-- **C33** `discard` reads the whole stream. -/
theorem C33_discard {S : Stream σ α} {s s' : σ} {xs : List α} (h : Yields S s xs s') {n : Nat} (hn : xs.length < n) :
    discard S n s = some s' := discard_ok h hn

/-- **C33** `materialize(in, out)` appends exactly the values of the stream. -/
theorem C33_materialize {S : Stream σ α} {s s' : σ} {xs : List α} (h : Yields S s xs s') {n : Nat} (hn : xs.length < n) (out : List α) :
    materialize S n s out = some (s', out ++ xs) := materialize_ok h hn out

/-- **C33** `materialize(in, begin, end)` stops at whichever of the two ends comes first; the rest of the array and the rest of the stream
are left alone. -/
theorem C33_materialize_range {S : Stream σ α} {s s' : σ} {xs : List α} {e : Nat} (h : Gives S s xs s') {n : Nat} (hn : xs.length < n)
    (l : List α) (o : Nat) (hle : o + xs.length ≤ e) (hl : e ≤ l.length) (hstop : S.empty s' = true ∨ o + xs.length = e) :
    materializeTo S e n s l o = some (s', l.take o ++ xs ++ l.drop (o + xs.length), o + xs.length) :=
  materializeTo_ok h hn l o hle hl hstop

/-- **C33** `materialize` into an external vector, with or without an end of the output range, and from any position (also inside a
block): exactly the elements from `b` on are replaced by the values of the stream, in order, and the returned iterator is behind the last
one. If the output range is full first, the rest of the stream is left alone. -/
theorem C33_materialize_vector (hB : 0 < B) (hP : 0 < P) {s : Sys α} {abs} (h : Hist B P s abs) {S : Stream σ α} {a t : σ} {xs : List α}
    (hg : Gives S a xs t) {b : Nat} {e : Option Nat} (hs : S.empty t = true ∨ e = some (b + xs.length))
    (he : ∀ e0, e = some e0 → b + xs.length ≤ e0) (hl : b + xs.length ≤ abs.length) {n : Nat} (hn : xs.length < n)
    (vic : Nat → Nat) (hv : ∀ i, vic i < s.vec.npages) (junk : Nat → α) :
    ∃ s', matVec B P S n s a b e vic junk = some (s', t, b + xs.length) ∧ Hist B P s' (replaced abs b (b + xs.length) xs) := by
  obtain ⟨s', h1, h2⟩ := C41_generate hB hP h (b := b) (e := b + xs.length) (by omega) hl (pop (junk 0)) xs vic hv junk
  refine ⟨s', matVec_eq vic junk hg hs he hn h1 hB, ?_⟩
  rw [Nat.add_sub_cancel_left, genN_pop] at h2
  exact h2

/-- The hypotheses are met: a pipeline of an array, a generator, `make_tuple`, `transform` and `unique` that is materialized into
positions 1, 2, ... of an external vector with blocks of 2. -/
example : ∃ (σ : Type) (S : Stream σ Nat) (s t : σ), Yields S s [10, 13, 14] t ∧
    ∃ s' i, matVec 2 1 S 10 exVec s 1 none (fun _ => 0) (fun _ => 0) = some (s', t, i) ∧ i = 4 ∧
      Hist 2 1 s' [none, some 10, some 13, some 14, none] := by
  have h0 : Yields (ofIter [10, 9, 11, 11] 4) 0 [10, 9, 11, 11] 4 := C33_streamify [10, 9, 11, 11] (b := 0) (e := 4) (by decide) (by decide)
  obtain ⟨u, u', h1, h2⟩ := C33_transform2_generator (fun n : Nat => (n + 1, n)) 0 h0
  obtain ⟨v, v', h3, h4⟩ := C33_transform_map (fun p : Nat × Nat => p.1 + p.2) h2
  obtain ⟨w, w', h5, h6, _⟩ := C33_unique (· == ·) h4 (n := 10) (by decide)
  refine ⟨_, _, w, w', h6, ?_⟩
  obtain ⟨s', h7, h8⟩ := C33_materialize_vector (by decide) (by decide) exVec_hist h6.1 (b := 1) (e := none) (.inl h6.2) (by simp)
    (by decide) (n := 10) (by decide) (fun _ => 0) (fun _ => by decide) (fun _ => 0)
  exact ⟨s', _, h7, rfl, h8⟩

end Stxxl.Streams
