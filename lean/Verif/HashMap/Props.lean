import Verif.HashMap.History
import Verif.HashMap.Bkt

/-!
# C31: `unordered_map` behaves as a finite map

`run P ops s` performs the calls `ops` on the model of `stxxl::unordered_map` and returns their
results (`none` if some call reads outside `buckets_` or through a dangling pointer). `Agrees` says
that these are the results of a mathematical finite map (`next`, `Result` in `Verif.HashMap.Spec`).
-/
namespace Verif.HashMap
variable {K V : Type}

/-- **C31** For every history of calls on a new map in which the table never drops to zero buckets
while it holds elements, if no call runs into undefined behaviour then every call returns what the
abstract map returns, for any sequence of automatic and explicit reorganisations. (`size()` is only
covered while the number of elements is known, see `keeps`.) -/
theorem C31_history [DecidableEq K] (P : Params K V) (ok : P.OK) (nBuckets maxBuf : Nat)
    (ops : List (Op K V)) (s' : HMap K V) (outs : List (Out K V))
    (hlive : Live P ops (HMap.new P nBuckets maxBuf) (fun _ => none))
    (h : run P ops (HMap.new P nBuckets maxBuf) = some (s', outs)) :
    Agrees P.dv ops outs (fun _ => none) True := by
  obtain ⟨R, hc⟩ := new_rep ok nBuckets maxBuf
  exact run_ok ok ops _ s' _ outs True R (fun _ => hc) hlive h

/-- **C31** For histories that search only non-empty maps, use `operator[]` only on present keys and
no oblivious operations, no call runs into undefined behaviour and every call, including `size()`,
returns what the abstract map returns. -/
theorem C31_no_ub [DecidableEq K] (P : Params K V) (ok : P.OK) (hp : P.Pos) (nBuckets maxBuf : Nat)
    (ops : List (Op K V)) (hs : Safe P ops (fun _ => none)) :
    ∃ s' outs, run P ops (HMap.new P nBuckets maxBuf) = some (s', outs) ∧
      Agrees P.dv ops outs (fun _ => none) True := by
  obtain ⟨R, hc⟩ := new_rep ok nBuckets maxBuf
  obtain ⟨s', outs, h1, h2⟩ := run_live ok hp ops (HMap.new P nBuckets maxBuf) (fun _ => none) 0 R
    ⟨rfl, hasCard_empty fun _ => rfl, rfl, by omega⟩ (Or.inr fun _ => rfl) hs
  exact ⟨s', outs, h1, C31_history P ok nBuckets maxBuf ops s' outs h2 h1⟩

/-- **C31** The bucket index computed in double precision is monotone in the hash value and in range,
for fewer than `2^53` buckets and hash values below `2^64 - 1024`. -/
theorem C31_bucket_index (n h h' : Nat) (hn : 0 < n) (hn' : n < 2 ^ 53) (hh : h < 2 ^ 64 - 1024)
    (hle : h' ≤ h) : bktD n h < n ∧ bktD n h' ≤ bktD n h :=
  ⟨bktD_lt hn hn' hh, bktD_mono n hle⟩

/-- **C31, finding** For the 1024 largest hash values the bucket index is one past the end of the
bucket array, whatever the number of buckets. -/
theorem C31_finding_bucket_index_out_of_range (n h : Nat) (hn : 0 < n) (hn' : n < 2 ^ 53)
    (h1 : 2 ^ 64 - 1024 ≤ h) (h2 : h < 2 ^ 64) : ¬ bktD n h < n := by
  rw [bktD_bad hn hn' h1 h2]; omega

/-! ## A concrete instance -/

/-- Natural numbers as keys, hash values spread over the 64-bit range, two values per subblock, the
double-precision bucket function. -/
def exP : Params Nat Nat where
  hash k := k % 16 * 2 ^ 60
  cmp a b := decide (a < b)
  SS := 2
  BS := 2
  incr := 3
  dk := 0
  dv := 0
  bk n h := if n < 2 ^ 53 then bktD n h else n * h / 2 ^ 64
  nb t := t
  maxb := 100

theorem exP_ok : exP.OK := by
  refine ⟨by decide, by decide, by decide, ?_, ?_, ?_, ?_, ?_⟩
  · intro a; simp [exP]
  · intro a b c; simp only [exP, decide_eq_true_eq]; omega
  · intro a b; simp only [exP, decide_eq_false_iff_not]; omega
  · intro n h h' hh
    simp only [exP]
    split_ifs
    · exact bktD_mono n hh
    · exact Nat.div_le_div_right (Nat.mul_le_mul_left _ hh)
  · intro n k hn
    simp only [exP]
    have hk : k % 16 < 16 := Nat.mod_lt _ (by omega)
    split_ifs with h
    · exact bktD_lt hn h (by omega)
    · rw [Nat.div_lt_iff_lt_mul (by omega)]
      exact Nat.mul_lt_mul_of_pos_left (by omega) hn

theorem exP_pos : exP.Pos := ⟨fun t h => h, by decide⟩

/-- The outputs of a history. -/
def outsOf {K V : Type} (P : Params K V) (n mb : Nat) (ops : List (Op K V)) : Option (List (Out K V)) :=
  (run P ops (HMap.new P n mb)).map (·.2)

/-- The hypotheses of `C31_no_ub` hold for a history that inserts, searches, deletes and counts. -/
example : Safe exP [.insert 1 10, .insert 17 11, .find 1, .rehash 0, .set 17 12, .findC 17, .erase 1, .size]
    (fun _ => none) := by
  have c0 : HasCard (fun _ : Nat => (none : Option Nat)) 0 := hasCard_empty fun _ => rfl
  have c1 := c0.add (k := 1) rfl 10
  have c2 := c1.add (k := 17) (by simp [upd]) 11
  have c3 := c2.keep (k := 17) (by simp [upd]) 12
  have c4 := (c3.del (k := 1) (by simp [upd])).2
  have e1 : next exP.dv (.insert 1 10) (fun _ : Nat => (none : Option Nat)) = upd (fun _ => none) 1 (some 10) := rfl
  have e2 : next exP.dv (.insert 17 11) (upd (fun _ => none) 1 (some 10)) =
      upd (upd (fun _ => none) 1 (some 10)) 17 (some 11) := rfl
  have lt : ∀ {m : Nat → Option Nat} {a : Nat}, HasCard m a → a < 2 ^ 64 → ∀ n, HasCard m n → n < 2 ^ 64 := by
    intro m a h1 h2 n h3
    rw [h3.unique h1]; exact h2
  refine ⟨trivial, lt c1 (by omega), trivial, lt c2 (by omega), ?_, lt c2 (by omega), trivial, lt c2 (by omega),
    rfl, lt c3 (by omega), ?_, lt c3 (by omega), ?_, lt c4 (by omega), trivial, lt c4 (by omega), trivial⟩
  · intro h; exact absurd (h 17) (by decide)
  · intro h; exact absurd (h 17) (by decide)
  · intro h; exact absurd (h 17) (by decide)

/-- And what the model returns for it (buffer of two nodes, so that rebuilds happen). -/
example : outsOf exP 0 2
    [.insert 1 10, .insert 17 11, .find 1, .rehash 0, .set 17 12, .findC 17, .erase 1, .size] =
    some [.bool true, .bool true, .val (some (1, 10)), .unit, .unit, .val (some (17, 12)), .nat 1, .nat 1] := by
  decide +kernel

/-- A range as required by `OpPre` for bulk insertion. -/
example : BulkOK exP [(2 ^ 60, (1, 5)), (2 ^ 60, (1, 6)), (2 * 2 ^ 60, (2, 7))] := by
  refine ⟨?_, ?_, ?_⟩
  · simp [exP, Params.lt]
  · simp [exP]
  · simp [exP]

/-! ## Findings: histories on which the code does not behave as a map -/

/-- Searching a default-constructed map reads `buckets_[0]` of an empty array. -/
theorem C31_finding_find_fresh_ub : outsOf exP 0 100 [.find 1] = none := by decide +kernel

/-- The same after the last element was erased and the table was reorganised. -/
theorem C31_finding_find_emptied_ub :
    outsOf exP 0 100 [.insert 1 5, .erase 1, .rehash 0, .find 1] = none := by decide +kernel

/-- `operator[]` on a new key does not count it: `size()` is wrong. -/
theorem C31_finding_index_size :
    outsOf exP 4 100 [.set 1 5, .findC 1, .size] = some [.unit, .val (some (1, 5)), .nat 0] := by
  decide +kernel

/-- A map filled only through `operator[]` loses everything when it is reorganised. -/
theorem C31_finding_index_loses_data :
    outsOf exP 4 100 [.set 1 5, .rehash 0, .insert 2 7, .find 1] =
      some [.unit, .unit, .bool true, .val none] := by decide +kernel

/-- The same without an explicit `rehash`, on buffer overflow. -/
theorem C31_finding_index_loses_data_auto :
    outsOf exP 4 4 [.set 1 5, .set 2 6, .set 3 7, .setMaxBuf 3, .insert 9 9, .find 1] =
      some [.unit, .unit, .unit, .unit, .bool true, .val none] := by decide +kernel

/-- Erasing an absent key obliviously lets the (unsigned) element count drop: reorganisation then
chooses too few buckets, here none, and the map loses its contents. -/
theorem C31_finding_erase_oblivious_loses_data :
    outsOf exP 4 100 [.insert 1 5, .eraseObl 2, .rehash 0, .insert 3 7, .find 1] =
      some [.bool true, .unit, .unit, .bool true, .val none] := by decide +kernel

/-- Bulk insertion of two different keys with the same hash value inserts only one of them. -/
theorem C31_finding_bulk_collision :
    outsOf exP 4 100 [.bulk [(2 ^ 60, (1, 5)), (2 ^ 60, (17, 6))], .find 1, .find 17] =
      some [.unit, .val (some (1, 5)), .val none] := by decide +kernel

end Verif.HashMap
