import Verif.Common.Rand
import Mathlib.Data.List.Perm.Subperm

/-!
# C05: block allocation strategies

Models `/repo/include/stxxl/bits/mng/block_alloc.h`. `unsigned_type` is `Nat` (no wrap-around of block indices at
2^64). A strategy object is a function from block index to disk.
-/

namespace Stxxl.BlockAlloc

/-- `striping`, `block_alloc.h:41-57`: `begin + i % diff`, `diff = e - b`. -/
def striping (b e : Nat) (i : Nat) : Nat := b + i % (e - b)

/-- `FR::operator()`, `block_alloc.h:67-83`; `raw` is the generator output used for this call. -/
def fr (b e : Nat) (raw : Raw) (_i : Nat) : Nat := b + rndNumber raw (e - b)

/-- `SR::init`, `block_alloc.h:100-104`. -/
def srOffset (b e : Nat) (raw : Raw) : Nat := rndNumber raw (e - b)

/-- `SR::operator()`, `block_alloc.h:117-120`. -/
def sr (b e : Nat) (raw : Raw) (i : Nat) : Nat := b + (i + srOffset b e raw) % (e - b)

/-- `RC::init`, `block_alloc.h:135-142`: identity permutation, shuffled. -/
def rcPerm (b e : Nat) (raws : Nat → Raw) : Option (List Nat) := stdShuffle raws (List.range (e - b))

/-- `RC::operator()`, `block_alloc.h:155-158`; `none` is an out-of-range access. Also `RC_disk`, `RC_flash`
(`block_alloc.h:166-192`), which only choose `b` and `e`. -/
def rc (b e : Nat) (raws : Nat → Raw) (i : Nat) : Option Nat :=
  match rcPerm b e raws with
  | none => none
  | some perm => (perm[i % (e - b)]?).map (fun p => b + p)

/-- `single_disk`, `block_alloc.h:196-208`. -/
def singleDisk (d : Nat) (_i : Nat) : Nat := d

/-- `offset_allocator`, `block_alloc.h:219-244`. -/
def offsetAllocator {β} (base : Nat → β) (offset : Nat) (i : Nat) : β := base (offset + i)

/-! ## Specification -/

/-- Any `e - b` consecutive blocks go to the disks `b, …, e-1`, one to each. -/
def StripesEvenly (b e : Nat) (f : Nat → Nat) : Prop :=
  ∀ a, ((List.range (e - b)).map (fun i => f (a + i))).Perm (List.range' b (e - b))

def StaysIn (b e : Nat) (f : Nat → Nat) : Prop := ∀ i, b ≤ f i ∧ f i < e

/-! ## Proofs -/

/-- The residues of `n` consecutive numbers are all residues. -/
theorem residues_perm (n a : Nat) : ((List.range n).map (fun i => (a + i) % n)).Perm (List.range n) := by
  by_cases hn : n = 0
  · subst hn; simp
  have hnd : ((List.range n).map (fun i => (a + i) % n)).Nodup := by
    unfold List.Nodup
    rw [List.pairwise_map]
    refine List.Pairwise.imp_of_mem ?_ (List.nodup_range (n := n))
    intro x y hx hy hne heq
    rw [List.mem_range] at hx hy
    apply hne
    have h1 := Nat.div_add_mod (a + x) n
    have h2 := Nat.div_add_mod (a + y) n
    rw [heq] at h1
    have hlt := Nat.mod_lt (a + y) (Nat.pos_of_ne_zero hn)
    rcases Nat.lt_trichotomy ((a + x) / n) ((a + y) / n) with h | h | h
    · have : n * ((a + x) / n + 1) ≤ n * ((a + y) / n) := Nat.mul_le_mul_left n h
      rw [Nat.mul_add] at this; omega
    · rw [h] at h1; omega
    · have : n * ((a + y) / n + 1) ≤ n * ((a + x) / n) := Nat.mul_le_mul_left n h
      rw [Nat.mul_add] at this; omega
  refine (List.subperm_of_subset hnd ?_).perm_of_length_le (by simp)
  intro x hx
  rw [List.mem_map] at hx
  obtain ⟨i, _, rfl⟩ := hx
  exact List.mem_range.2 (Nat.mod_lt _ (Nat.pos_of_ne_zero hn))

theorem map_add_range (b n : Nat) : (List.range n).map (fun i => b + i) = List.range' b n := by
  rw [List.range'_eq_map_range]

theorem stripes_of {b e : Nat} {f g : Nat → Nat} (hf : ∀ i, f i = b + g i)
    (hg : ∀ a, ((List.range (e - b)).map (fun i => g (a + i))).Perm (List.range (e - b))) :
    StripesEvenly b e f := by
  intro a
  rw [← map_add_range]
  have := (hg a).map (fun i => b + i)
  simpa [List.map_map, Function.comp_def, hf] using this

/-- **C05** striping -/
theorem C05_striping {b e : Nat} (h : b < e) :
    StaysIn b e (striping b e) ∧ StripesEvenly b e (striping b e) := by
  refine ⟨fun i => ?_, stripes_of (g := fun i => i % (e - b)) (fun i => rfl) (fun a => residues_perm _ _)⟩
  have := Nat.mod_lt i (show 0 < e - b by omega)
  simp only [striping]; omega

/-- **C05** fully randomized: every generator output -/
theorem C05_fr {b e : Nat} (h : b < e) (raw : Raw) : StaysIn b e (fr b e raw) := by
  intro i
  have := rndNumber_lt raw (show 0 < e - b by omega)
  simp only [fr]; omega

/-- **C05** simple randomized: every generator output -/
theorem C05_sr {b e : Nat} (h : b < e) (raw : Raw) :
    StaysIn b e (sr b e raw) ∧ StripesEvenly b e (sr b e raw) := by
  refine ⟨fun i => ?_, stripes_of (g := fun i => (i + srOffset b e raw) % (e - b)) (fun i => rfl) (fun a => ?_)⟩
  · have := Nat.mod_lt (i + srOffset b e raw) (show 0 < e - b by omega)
    simp only [sr]; omega
  · have := residues_perm (e - b) (a + srOffset b e raw)
    simpa [Nat.add_right_comm] using this

/-- **C05** randomized cycling: for every generator output there is no out-of-range access, and the disks are
used cyclically. -/
theorem C05_rc {b e : Nat} (h : b < e) (raws : Nat → Raw) :
    ∃ f : Nat → Nat, (∀ i, rc b e raws i = some (f i)) ∧ StaysIn b e f ∧ StripesEvenly b e f := by
  obtain ⟨perm, h1, hp⟩ := stdShuffle_perm raws (List.range (e - b))
  have hlen : perm.length = e - b := by simpa using hp.length_eq
  have hpos : 0 < e - b := by omega
  refine ⟨fun i => b + perm[i % (e - b)]'(by rw [hlen]; exact Nat.mod_lt _ hpos), ?_, ?_, ?_⟩
  · intro i
    have hi : i % (e - b) < perm.length := by rw [hlen]; exact Nat.mod_lt _ hpos
    simp [rc, rcPerm, h1, hi]
  · intro i
    have hmem := hp.mem_iff.1 (List.getElem_mem (l := perm) (n := i % (e - b))
      (by rw [hlen]; exact Nat.mod_lt _ hpos))
    rw [List.mem_range] at hmem
    simp only []; omega
  · refine stripes_of (g := fun i => perm[i % (e - b)]'(by rw [hlen]; exact Nat.mod_lt _ hpos))
      (fun i => rfl) (fun a => ?_)
    refine List.Perm.trans ?_ hp
    have hr := (residues_perm (e - b) a).map (fun j => perm[j]?.getD 0)
    have e1 : (List.range (e - b)).map (fun j => perm[j]?.getD 0) = perm := by
      apply List.ext_getElem
      · simp [hlen]
      · intro i h1 h2; simp [h2]
    rw [e1] at hr
    refine List.Perm.trans (List.Perm.of_eq ?_) hr
    rw [List.map_map]
    apply List.map_congr_left
    intro i _
    have hi : (a + i) % (e - b) < perm.length := by rw [hlen]; exact Nat.mod_lt _ hpos
    simp [hi]

/-- **C05** single disk -/
theorem C05_single_disk {b e d : Nat} (h : b ≤ d ∧ d < e) : StaysIn b e (singleDisk d) := fun _ => h

/-- **C05** an offset keeps both guarantees -/
theorem C05_offset {b e : Nat} {f : Nat → Nat} (off : Nat) :
    (StaysIn b e f → StaysIn b e (offsetAllocator f off)) ∧
    (StripesEvenly b e f → StripesEvenly b e (offsetAllocator f off)) := by
  refine ⟨fun h i => h _, fun h a => ?_⟩
  have := h (off + a)
  simpa [offsetAllocator, Nat.add_assoc] using this

/-! Non-vacuity: three disks 2,3,4 -/
example : (List.range 7).map (striping 2 5) = [2, 3, 4, 2, 3, 4, 2] := by decide
example : (List.range 4).map (rc 2 5 (fun _ => 0)) = [some 4, some 2, some 3, some 4] := by decide
/-- why `b < e` is required: an empty disk range is a division by zero in C++ and has no valid disk -/
example : ¬ StaysIn 2 2 (striping 2 2) := fun h => absurd (h 0) (by decide)

end Stxxl.BlockAlloc
