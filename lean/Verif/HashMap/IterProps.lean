import Verif.HashMap.IterTotal
import Verif.HashMap.Props

/-!
# C44: iterators of `unordered_map` keep pointing to their elements

`istep` performs a call of the map or of one of its iterator objects on the model. `IStep` (in
`Verif.HashMap.IterSpec`) says what may be observed, in terms of a finite map and of the key each
live iterator points to.
-/
namespace Verif.HashMap
variable {K V : Type}

/-- **C44** Every history of calls of a new map and of any number of live iterator objects is as specified: through
insertions, searches, erasures, `clear`, automatic and explicit reorganisations and bulk insertions every iterator
keeps pointing to its element (or becomes `end()` when that is erased), `*` delivers the element with its current
value and assigns to it, `++` moves to the next element in the order of traversal, `erase(it)` erases it. The user's obligations
are those of `IPre`. No iterator call runs into undefined behaviour. -/
theorem C44_history [DecidableEq K] (P : Params K V) (ok : P.OK) (hp : P.Pos) (nBuckets maxBuf : Nat) (ops : List (IOp K V)) :
    IConforms P (OpPre P) ops (HMap.new P nBuckets maxBuf) ⟨fun _ => none, fun _ => none⟩ := by
  obtain ⟨R, _⟩ := new_rep ok nBuckets maxBuf
  refine iconforms ok hp ops _ _ R ⟨?_, ?_, ?_, ?_⟩
  · show ([] : List Nat).Nodup; exact List.nodup_nil
  · intro it h; cases h
  · intro i p h; cases h
  · intro it h; cases h

theorem run_rep [DecidableEq K] {P : Params K V} (ok : P.OK) : ∀ (ops : List (Op K V)) (s s' : HMap K V) (m : K → Option V)
    (outs : List (Out K V)), Rep P s m → Live P ops s m → run P ops s = some (s', outs) →
    Rep P s' (ops.foldl (fun m op => next P.dv op m) m) := by
  intro ops
  induction ops with
  | nil => intro s s' m outs R _ h; cases h; exact R
  | cons op ops ih =>
    intro s s' m outs R hl h
    obtain ⟨⟨s1, o⟩, h1, h⟩ := Option.bind_eq_some_iff.1 h
    obtain ⟨⟨s2, os⟩, h2, h⟩ := Option.bind_eq_some_iff.1 h
    simp only [Option.pure_def, Option.some.injEq, Prod.mk.injEq] at h
    obtain ⟨rfl, rfl⟩ := h
    obtain ⟨hpre, hl⟩ := hl
    obtain ⟨hl1, hl2⟩ := hl s1 o h1
    have R1 := ((step_ok ok R False (fun h => h.elim) hpre h1).2.2 hl1).1
    exact ih s1 s2 _ os R1 hl2 h2

/-- **C44** After any history, a loop from `begin()` to `end()` delivers every element of the map exactly once, with
its current value, in the order of traversal (by hash value, then by key). -/
theorem C44_traversal [DecidableEq K] (P : Params K V) (ok : P.OK) (nBuckets maxBuf : Nat) (ops : List (Op K V))
    (s : HMap K V) (outs : List (Out K V)) (hlive : Live P ops (HMap.new P nBuckets maxBuf) (fun _ => none))
    (h : run P ops (HMap.new P nBuckets maxBuf) = some (s, outs)) (i : Nat) :
    ∃ xs : List (K × V), (xs.map (·.1)).Nodup ∧ xs.Pairwise (fun a b => P.lt a.1 b.1 = true) ∧
      (∀ k v, (k, v) ∈ xs ↔ ops.foldl (fun m op => next P.dv op m) (fun _ => none) k = some v) ∧
      ∃ it, itBegin P i s = some it ∧ ∀ n, xs.length < n → walk P s n it = some xs := by
  have R := run_rep ok ops _ s _ outs (new_rep ok nBuckets maxBuf).1 hlive h
  obtain ⟨hs, _, h2, h3, _⟩ := stream_spec ok R.1
  have hpw : (hs.map (·.val)).Pairwise (fun a b => P.lt a.1 b.1 = true) := h2
  obtain ⟨it, b1, _, b3, b4, b5⟩ := itBegin_ok ok R.1 i
  refine ⟨hs.map (·.val), ?_, hpw, fun k v => by rw [h3, R.2], it, b1,
    walk_ok ok R.1 h2 h3 _ [] it true rfl b3 ?_⟩
  · rw [List.Nodup, List.pairwise_map]
    refine hpw.imp ?_
    intro a b hab e
    rw [e, ok.lt_irrefl] at hab; cases hab
  · cases hl : hs.map (·.val) with
    | nil =>
      cases hv : it.view with
      | none => rfl
      | some k0 =>
        obtain ⟨⟨v, hk⟩, _⟩ := b5 k0 hv
        have := (h3 k0 v).2 hk
        rw [hl] at this; cases this
    | cons z l =>
      have hz := (h3 z.1 z.2).1 (by rw [hl]; exact List.mem_cons_self)
      cases hv : it.view with
      | none => exact absurd hz (b4 hv _ _)
      | some k0 =>
        obtain ⟨⟨v, hk⟩, g⟩ := b5 k0 hv
        have hm := (h3 k0 v).2 hk
        have hle := g _ _ hz
        rw [hl] at hm hpw
        rcases List.mem_cons.1 hm with hm | hm
        · simp [← hm]
        · have := (List.pairwise_cons.1 hpw).1 _ hm
          rw [(ok.leq_false_iff _ _).2 this] at hle; cases hle

/-! ## A concrete history -/

/-- The outputs of a history with iterators. -/
def iouts (P : Params K V) : List (IOp K V) → HMap K V → Option (List (IOut K V))
  | [], _ => some []
  | op :: ops, s => do
    let r ← istep P op s
    let os ← iouts P ops r.1
    return r.2 :: os

/-- Keys 1, 17, 33 and 49 have the same hash value. Iterator 3 is at an element on disk; then that element is copied into the buffer by a
search, the table is reorganised, and another one is erased: the iterator is still at its element and moves on to the
right one. -/
example : iouts exP [.insert 1 10, .insert 17 11, .insert 33 12, .call (.rehash 0), .findC 1, .deref 3, .call (.find 1),
      .deref 3, .assign 3 20, .call (.rehash 4), .call (.erase 17), .deref 3, .isEnd 1, .next 3, .deref 3, .equal 2 3,
      .copy 3, .eraseIt 3, .isEnd 3, .isEnd 5, .isEnd 0, .deref 0, .call (.findC 1)] (HMap.new exP 0 100) =
    some [.iterB 0 true, .iterB 1 true, .iterB 2 true, .out .unit, .iter 3, .val (1, 10), .out (.val (some (1, 10))),
      .val (1, 10), .unit, .out .unit, .out (.nat 1), .val (1, 20), .bool true, .unit, .val (33, 12), .bool true,
      .iter 5, .unit, .bool true, .bool true, .bool false, .val (1, 20), .out (.val (some (1, 20)))] := by
  decide +kernel

/-- The obligations of the user are met by calls on a state with a live iterator. -/
example : IPre (K := Nat) (V := Nat) ⟨fun k => if k = 1 then some 10 else none, fun i => if i = 3 then some ⟨some 1, false, false⟩ else none⟩
    (.next 3) := ⟨⟨some 1, false, false⟩, 1, rfl, rfl, rfl⟩

/-! ## Findings: where the code's iterators do not behave so -/

/-- **C44, finding** An iterator obtained from `begin()` may not be advanced after a key behind it was erased: here
`++` delivers the key 17 that was erased before. (`begin()` remembers the first node of the bucket's list as
predecessor although that is behind the element, hash_map.h:848-861 and iterator.h:251-345.) -/
theorem C44_finding_begin :
    iouts exP [.insert 1 10, .insert 17 11, .call (.rehash 0), .insert 33 12, .begin, .deref 3, .call (.erase 17),
      .next 3, .deref 3, .call (.findC 17)] (HMap.new exP 0 100) =
    some [.iterB 0 true, .iterB 1 true, .out .unit, .iterB 2 true, .iter 3, .val (1, 10), .out (.nat 1), .unit,
      .val (17, 11), .out (.val none)] := by decide +kernel

/-- The same history with an iterator obtained from `find`. -/
example :
    iouts exP [.insert 1 10, .insert 17 11, .call (.rehash 0), .insert 33 12, .findC 1, .deref 3, .call (.erase 17),
      .next 3, .deref 3, .call (.findC 17)] (HMap.new exP 0 100) =
    some [.iterB 0 true, .iterB 1 true, .out .unit, .iterB 2 true, .iter 3, .val (1, 10), .out (.nat 1), .unit,
      .val (33, 12), .out (.val none)] := by decide +kernel

/-- **C44, finding** `operator[]` copies an element from disk into the buffer without telling the iterators to it:
after `m[1] = 20` the iterator delivers the old value. -/
theorem C44_finding_index_stale :
    iouts exP [.insert 1 10, .insert 17 11, .call (.rehash 0), .findC 1, .call (.set 1 20), .deref 2, .call (.findC 1)]
      (HMap.new exP 0 100) =
    some [.iterB 0 true, .iterB 1 true, .out .unit, .iter 2, .out .unit, .val (1, 10),
      .out (.val (some (1, 20)))] := by decide +kernel

/-- **C44, finding** Erasing through such an iterator leaves the element in the map. -/
theorem C44_finding_index_erase :
    iouts exP [.insert 1 10, .insert 17 11, .call (.rehash 0), .findC 1, .call (.set 1 20), .eraseIt 2, .call (.rehash 0),
      .call (.findC 1)] (HMap.new exP 0 100) =
    some [.iterB 0 true, .iterB 1 true, .out .unit, .iter 2, .out .unit, .unit, .out .unit,
      .out (.val (some (1, 20)))] := by decide +kernel

/-- **C44, finding** An iterator that became `end()` because its element was erased compares equal to an iterator to the element
when that is inserted again, although one is `end()` and the other is not. -/
theorem C44_finding_equal :
    iouts exP [.insert 1 10, .insert 17 11, .call (.erase 1), .insert 1 12, .isEnd 0, .isEnd 2, .equal 0 2]
      (HMap.new exP 0 100) =
    some [.iterB 0 true, .iterB 1 true, .out (.nat 1), .iterB 2 true, .bool true, .bool false, .bool true] := by
  decide +kernel

end Verif.HashMap
