import Verif.BlockAlloc.Props
import Verif.Sort.Model

/-!
# C86: allocation of the blocks of several runs at once

Models `/repo/include/stxxl/bits/mng/block_alloc_interleaved.h` and the adaptors of `/repo/include/stxxl/bits/algo/adaptor.h`, which
`sort` and `ksort` use together: position `n` of the flat view is a block of some run, and the strategy chooses the disk from `n`.
-/

namespace Stxxl.Interleave
open BlockAlloc
open Stxxl.Srt (adaptor2)

/-- `interleaved_striping::operator()`, `block_alloc_interleaved.h:41-44`; `b`, `e` from the `striping` object (lines 37-39). -/
def striping (b e nruns i : Nat) : Nat := b + (i / nruns) % (e - b)

/-- `interleaved_FR::operator()`, `block_alloc_interleaved.h:56-59`. -/
def fr (b e : Nat) (raw : Raw) (_i : Nat) : Nat := b + rndNumber raw (e - b)

/-- `interleaved_SR`: constructor, `block_alloc_interleaved.h:67-73`. -/
def srOffsets (b e nruns : Nat) (raws : Nat → Raw) : List Nat := (List.range nruns).map fun r => rndNumber (raws r) (e - b)

/-- `interleaved_SR::operator()`, lines 75-78; `none` is an access out of range. -/
def sr (b e nruns : Nat) (raws : Nat → Raw) (i : Nat) : Option Nat :=
  ((srOffsets b e nruns raws)[i % nruns]?).map fun o => b + (i / nruns + o) % (e - b)

/-- `interleaved_RC`: constructor, lines 85-97. -/
def rcPerms (b e nruns : Nat) (raws : Nat → Nat → Raw) : List (Option (List Nat)) :=
  (List.range nruns).map fun r => stdShuffle (raws r) (List.range (e - b))

/-- `interleaved_RC::operator()`, lines 99-102. Also used for `RC_disk` and `RC_flash` (lines 146-157). -/
def rc (b e nruns : Nat) (raws : Nat → Nat → Raw) (i : Nat) : Option Nat :=
  match (rcPerms b e nruns raws)[i % nruns]? with
  | some (some perm) => (perm[(i / nruns) % (e - b)]?).map (fun p => b + p)
  | _ => none

/-- `first_disk_only::operator()`, lines 111-114. -/
def firstDiskOnly (d : Nat) (_i : Nat) : Nat := d

/-- `runs2bid_array_adaptor::operator*`, `operator[]`, `algo/adaptor.h:53-70`: run and index in the run. -/
def adaptor (dim n : Nat) : Nat × Nat := (n % dim, n / dim)

/-! ## Specification -/

/-- `loc n = (r, p)`: position `n` is block `p` of run `r`. Of every run, any `e - b` consecutive blocks whose numbers are below `len` are on
pairwise different disks: one on each of `b, …, e-1`. -/
def RunsEven (b e w len : Nat) (loc : Nat → Nat × Nat) (f : Nat → Nat) : Prop :=
  ∀ r, r < w → ∀ a, a + (e - b) ≤ len → ∀ pos : Nat → Nat, (∀ i, i < e - b → loc (pos i) = (r, a + i)) →
    ((List.range (e - b)).map fun i => f (pos i)).Perm (List.range' b (e - b))

/-! ## Proofs -/

theorem adaptor2_first {w h n r p : Nat} (hp : p < h) (e : adaptor2 w h n = (r, p)) : n % w = r ∧ n / w = p := by
  unfold adaptor2 at e
  split at e
  · exact ⟨congrArg Prod.fst e, congrArg Prod.snd e⟩
  · have := congrArg Prod.snd e
    simp only at this
    have := Nat.zero_le ((n - w * h) / (w - 1))
    generalize (n - w * h) / (w - 1) = q at *
    omega

/-- The disk depends on run and number in the run only, and each run is striped. -/
theorem runsEven {b e w len : Nat} {loc : Nat → Nat × Nat} {f : Nat → Nat} (g : Nat → Nat → Nat)
    (hloc : ∀ n r p, p < len → loc n = (r, p) → n % w = r ∧ n / w = p) (hf : ∀ n, f n = b + g (n % w) (n / w))
    (hg : ∀ r, r < w → ∀ a, ((List.range (e - b)).map fun i => g r (a + i)).Perm (List.range (e - b))) :
    RunsEven b e w len loc f := by
  intro r hr a ha pos hpos
  have e1 : ((List.range (e - b)).map fun i => f (pos i)) = ((List.range (e - b)).map fun i => g r (a + i)).map (fun i => b + i) := by
    rw [List.map_map]
    apply List.map_congr_left
    intro i hi
    have hi' := List.mem_range.1 hi
    obtain ⟨h1, h2⟩ := hloc _ _ _ (by omega) (hpos i hi')
    show f (pos i) = b + g r (a + i)
    rw [hf, h1, h2]
  rw [e1, ← map_add_range]
  exact (hg r hr a).map _

theorem shuffled_window {n : Nat} (hn : 0 < n) {perm : List Nat} (hp : perm.Perm (List.range n)) (a : Nat) :
    ((List.range n).map fun i => perm[(a + i) % n]?.getD 0).Perm (List.range n) := by
  have hlen : perm.length = n := by simpa using hp.length_eq
  refine List.Perm.trans ?_ hp
  have hr := (residues_perm n a).map (fun j => perm[j]?.getD 0)
  have e1 : (List.range n).map (fun j => perm[j]?.getD 0) = perm := by
    apply List.ext_getElem
    · simp [hlen]
    · intro i h1 h2; simp [h2]
  rw [e1, List.map_map] at hr
  exact hr

/-- What is known of a strategy with per-run state: no access out of range, all disks in range, runs striped. -/
structure Good (b e w : Nat) (f : Nat → Option Nat) : Prop where
  ex : ∃ d : Nat → Nat, (∀ i, f i = some (d i)) ∧ StaysIn b e d ∧
    (∀ len, RunsEven b e w len (adaptor w) d) ∧ ∀ h, RunsEven b e w h (adaptor2 w h) d

theorem good_of {b e w : Nat} {f : Nat → Option Nat} (g : Nat → Nat → Nat) (hf : ∀ i, f i = some (b + g (i % w) (i / w)))
    (hlt : ∀ r q, r < w → g r q < e - b) (hw : 0 < w)
    (hg : ∀ r, r < w → ∀ a, ((List.range (e - b)).map fun i => g r (a + i)).Perm (List.range (e - b))) : Good b e w f := by
  refine ⟨fun i => b + g (i % w) (i / w), hf, ?_, ?_, ?_⟩
  · intro i
    have := hlt (i % w) (i / w) (Nat.mod_lt _ hw)
    simp only; omega
  · intro len
    exact runsEven g (fun n r p _ h => ⟨congrArg Prod.fst h, congrArg Prod.snd h⟩) (fun _ => rfl) hg
  · intro h
    exact runsEven g (fun n r p hp he => adaptor2_first hp he) (fun _ => rfl) hg

/-- **C86.** Interleaved striping. -/
theorem C86_striping {b e w : Nat} (h : b < e) (hw : 0 < w) : Good b e w (fun i => some (striping b e w i)) :=
  good_of (fun _ q => q % (e - b)) (fun _ => rfl) (fun _ q _ => Nat.mod_lt q (by omega)) hw (fun _ _ a => residues_perm _ _)

/-- **C86.** Interleaved simple randomized striping: every outcome of the random generator. -/
theorem C86_sr {b e w : Nat} (h : b < e) (hw : 0 < w) (raws : Nat → Raw) : Good b e w (sr b e w raws) := by
  refine good_of (fun r q => (q + rndNumber (raws r) (e - b)) % (e - b)) ?_ (fun _ q _ => Nat.mod_lt _ (by omega)) hw ?_
  · intro i
    have hi := Nat.mod_lt i hw
    simp [sr, srOffsets, hi]
  · intro r _ a
    have := residues_perm (e - b) (a + rndNumber (raws r) (e - b))
    simpa [Nat.add_right_comm] using this

/-- **C86.** Interleaved randomized cycling: every outcome of the random generator. -/
theorem C86_rc {b e w : Nat} (h : b < e) (hw : 0 < w) (raws : Nat → Nat → Raw) : Good b e w (rc b e w raws) := by
  have hpos : 0 < e - b := by omega
  have hs : ∀ r, ∃ perm, stdShuffle (raws r) (List.range (e - b)) = some perm ∧ perm.Perm (List.range (e - b)) :=
    fun r => stdShuffle_perm (raws r) (List.range (e - b))
  obtain ⟨P, hP⟩ := Classical.axiomOfChoice hs
  have hlen : ∀ r, (P r).length = e - b := fun r => by simpa using (hP r).2.length_eq
  have hq : ∀ r q, q % (e - b) < (P r).length := fun r q => by rw [hlen]; exact Nat.mod_lt _ hpos
  refine good_of (fun r q => (P r)[q % (e - b)]?.getD 0) ?_ ?_ hw ?_
  · intro i
    have hi := Nat.mod_lt i hw
    have h2 : (rcPerms b e w raws)[i % w]? = some (some (P (i % w))) := by
      unfold rcPerms
      rw [List.getElem?_map, List.getElem?_range hi, Option.map_some, (hP _).1]
    unfold rc
    rw [h2]
    simp only
    rw [List.getElem?_eq_getElem (hq _ _)]
    rfl
  · intro r q _
    have := (hP r).2.mem_iff.1 (List.getElem_mem (hq r q))
    show (P r)[q % (e - b)]?.getD 0 < e - b
    rw [List.getElem?_eq_getElem (hq _ _)]
    exact List.mem_range.1 this
  · intro r _ a
    exact shuffled_window hpos (hP r).2 a

/-- **C86.** Fully randomized, and one disk only. -/
theorem C86_fr {b e : Nat} (h : b < e) (raw : Raw) : StaysIn b e (fr b e raw) := by
  intro i
  have := rndNumber_lt raw (show 0 < e - b by omega)
  simp only [fr]; omega

theorem C86_first_disk_only {b e d : Nat} (h : b ≤ d ∧ d < e) : StaysIn b e (firstDiskOnly d) := fun _ => h

/-- **C86.** If the last of `w` runs is shorter (`h` blocks), then behind block `h` the other runs are not striped: the flat view has then
only `w - 1` blocks per row, but the strategy still divides by `w`. For every `w ≥ 2`, any number of disks and any `h`, some run has two
consecutive blocks on the same disk (interleaved striping). -/
theorem C86_short_last_run_not_striped {b e w h : Nat} (hw : 2 ≤ w) :
    ∃ r p n n', r < w - 1 ∧ h ≤ p ∧ adaptor2 w h n = (r, p) ∧ adaptor2 w h n' = (r, p + 1) ∧
      striping b e w n = striping b e w n' := by
  refine ⟨0, h, w * h, w * h + (w - 1), by omega, Nat.le_refl _, ?_, ?_, ?_⟩
  · unfold adaptor2
    rw [if_neg (by omega), Nat.sub_self]
    simp
  · unfold adaptor2
    rw [if_neg (by omega), Nat.add_sub_cancel_left, Nat.mod_self, Nat.div_self (by omega)]
  · unfold striping
    rw [Nat.mul_add_div (by omega), Nat.mul_div_cancel_left h (by omega), Nat.div_eq_of_lt (by omega)]
    rfl

/-! Non-vacuity: three runs, disks 2, 3, 4; the blocks of run 1 -/
example : (List.range 5).map (fun p => striping 2 5 3 (3 * p + 1)) = [2, 3, 4, 2, 3] := by decide
example : (List.range 5).map (fun p => adaptor 3 (3 * p + 1)) = [(1, 0), (1, 1), (1, 2), (1, 3), (1, 4)] := by decide
example : (List.range 5).map (fun p => adaptor2 3 2 (if p < 2 then 3 * p + 1 else 2 * p + 3)) = [(1, 0), (1, 1), (1, 2), (1, 3), (1, 4)] := by
  decide
example : (List.range 6).map (rc 2 5 3 (fun r _ => if r = 0 then 0 else 4294967295)) = [some 4, some 2, some 2, some 2, some 3, some 3] := by decide

end Stxxl.Interleave
