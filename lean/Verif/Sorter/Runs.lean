import Verif.Sorter.Model
import Verif.Sort.Sentinel
import Verif.Streams.Ops

/-! # What the runs contain -/

namespace Stxxl.Sorter

open Stxxl.Srt

variable {α : Type} {lt : α → α → Bool} {P : Par α}

/-- The elements of a run of size `n`, without the filling. -/
def part (d : D α) (e : Run α × Nat) : List α := (runData d e.1).take e.2

/-- A run on disk: not empty, triggers, sorted with its filling, `n` elements and then only `max_value`. -/
structure RunSz (lt : α → α → Bool) (P : Par α) (d : D α) (e : Run α × Nat) : Prop where
  ok : RunOk lt P.B d e.1
  ne : e.1 ≠ []
  pos : 0 < e.2
  le : e.2 ≤ (runData d e.1).length
  fill : ∀ x ∈ (runData d e.1).drop e.2, x = P.maxV

/-- All elements of the runs. -/
def parts (d : D α) (rs : List (Run α × Nat)) : List α := (rs.map (part d)).flatten

/-- The runs hold the elements `xs`. -/
structure SInv (lt : α → α → Bool) (P : Par α) (d : D α) (s : SRuns α) (xs : List α) : Prop where
  el : s.elements = xs.length
  runs : ∀ e ∈ s.runs, RunSz lt P d e
  one : s.small = [] ∨ s.runs = []
  small : Sorted lt s.small
  perm : (s.small ++ parts d s.runs).Perm xs

theorem part_congr {d d' : D α} {e : Run α × Nat} (h : ∀ b ∈ bidsOf e.1, d'.disk b = d.disk b) : part d' e = part d e := by
  unfold part; rw [runData_congr h]

theorem RunSz.congr {d d' : D α} {e : Run α × Nat} (h : RunSz lt P d e) (hd : ∀ b ∈ bidsOf e.1, d'.disk b = d.disk b) :
    RunSz lt P d' e := by
  refine ⟨h.ok.congr hd, h.ne, h.pos, ?_, ?_⟩
  · rw [runData_congr hd]; exact h.le
  · rw [runData_congr hd]; exact h.fill

/-- The blocks of a list of runs. -/
def bidsR (rs : List (Run α × Nat)) : List Nat := bidsOf (rs.map (·.1)).flatten

theorem bids_eq (s : SRuns α) : s.bids = bidsR s.runs := rfl

theorem bidsR_cons (e : Run α × Nat) (rs : List (Run α × Nat)) : bidsR (e :: rs) = bidsOf e.1 ++ bidsR rs := by
  simp [bidsR, bidsOf]

theorem bidsR_append (rs rs' : List (Run α × Nat)) : bidsR (rs ++ rs') = bidsR rs ++ bidsR rs' := by
  simp [bidsR, bidsOf]

theorem bidsR_mem {e : Run α × Nat} {rs : List (Run α × Nat)} (he : e ∈ rs) {b : Nat} (hb : b ∈ bidsOf e.1) : b ∈ bidsR rs := by
  induction rs with
  | nil => cases he
  | cons f rs ih =>
    rw [bidsR_cons, List.mem_append]
    rcases List.mem_cons.mp he with rfl | he
    · exact .inl hb
    · exact .inr (ih he)

theorem parts_congr {d d' : D α} {rs : List (Run α × Nat)} (h : ∀ b ∈ bidsR rs, d'.disk b = d.disk b) : parts d' rs = parts d rs := by
  unfold parts
  congr 1
  apply List.map_congr_left
  intro e he
  exact part_congr (fun b hb => h b (bidsR_mem he hb))

theorem SInv.congr {d d' : D α} {s : SRuns α} {xs : List α} (h : SInv lt P d s xs) (hd : ∀ b ∈ bidsR s.runs, d'.disk b = d.disk b) :
    SInv lt P d' s xs :=
  ⟨h.el, fun e he => (h.runs e he).congr (fun b hb => hd b (bidsR_mem he hb)), h.one, h.small, by rw [parts_congr hd]; exact h.perm⟩

theorem SInv.perm_of {d : D α} {s : SRuns α} {xs ys : List α} (h : SInv lt P d s xs) (hp : xs.Perm ys) : SInv lt P d s ys :=
  ⟨by rw [h.el, hp.length_eq], h.runs, h.one, h.small, h.perm.trans hp⟩

theorem SInv.new (d : D α) : SInv lt P d SRuns.new [] :=
  ⟨rfl, by simp [SRuns.new], .inl rfl, List.Pairwise.nil, by simp [SRuns.new, parts]⟩

theorem divCeil_bounds {n B : Nat} (hB : 0 < B) : n ≤ divCeil n B * B ∧ divCeil n B * B < n + B := by
  unfold divCeil
  have h1 := Nat.div_add_mod (n + B - 1) B
  have h2 := Nat.mod_lt (n + B - 1) hB
  rw [Nat.mul_comm] at h1
  generalize (n + B - 1) / B * B = q at *
  omega

theorem divCeil_pos {n B : Nat} (hB : 0 < B) (hn : 0 < n) : 0 < divCeil n B := by
  have h := (divCeil_bounds (n := n) hB).1
  rcases Nat.eq_zero_or_pos (divCeil n B) with h0 | h0
  · rw [h0] at h; omega
  · exact h0

theorem divCeil_mul {k B : Nat} (hB : 0 < B) : divCeil (k * B) B = k := by
  unfold divCeil
  rw [show k * B + B - 1 = (B - 1) + k * B by omega, Nat.add_mul_div_right _ _ hB, Nat.div_eq_of_lt (by omega), Nat.zero_add]

theorem fillMax_length {nb : Nat} {l : List α} (h : l.length ≤ nb * P.B) : (fillMax P nb l).length = nb * P.B := by
  unfold fillMax; simp; omega

theorem fillMax_sorted {nb : Nat} {l : List α} (hs : Sorted lt l) (hm : ∀ x ∈ l, lt P.maxV x = false) (hmm : lt P.maxV P.maxV = false) :
    Sorted lt (fillMax P nb l) := by
  unfold fillMax Sorted
  rw [List.pairwise_append]
  refine ⟨hs, ?_, ?_⟩
  · rw [List.pairwise_replicate]; exact .inr hmm
  · intro a ha b hb
    rw [List.eq_of_mem_replicate hb]; exact hm a ha

/-- Writing a sorted sequence (padded to full blocks) as a run. -/
theorem writeSorted_spec (hB : 0 < P.B) {d : D α} {out X R : List Nat} (h : Own d (out ++ X) R) {l pad : List α} (hl : l ≠ [])
    (hlen : (l ++ pad).length = out.length * P.B) (hs : Sorted lt (l ++ pad)) (hpad : ∀ x ∈ pad, x = P.maxV) :
    ∃ r d', writeRun d out (toBlocks P.B out.length (l ++ pad)) = some (r, d') ∧ bidsOf r = out ∧ Own d' (out ++ X) R ∧
      (∀ b, b ∉ out → d'.disk b = d.disk b) ∧ RunSz lt P d' (r, l.length) ∧ part d' (r, l.length) = l := by
  obtain ⟨r, d', e1, e2, e3, e4, e5, e6⟩ := writeRun_spec hB out (toBlocks P.B out.length (l ++ pad)) d
    (toBlocks_length _ _ _) (toBlocks_mem _ _ _ hlen) h.ndX.of_append_left
    (fun b hb => h.mem.2 (Or.inl (List.mem_append_left _ hb)))
  have hrd : runData d' r = l ++ pad := by rw [runData_eq, e2, e6, toBlocks_flatten _ _ _ hlen]
  refine ⟨r, d', e1, e2, h.of_live e3, e4, ⟨⟨e5, by rw [hrd]; exact hs⟩, ?_, List.length_pos_of_ne_nil hl, ?_, ?_⟩, ?_⟩
  · rintro rfl
    rw [runData] at hrd
    have : l ++ pad = [] := by simpa using hrd.symm
    exact hl (by simpa using (List.append_eq_nil_iff.mp this).1)
  · dsimp only; rw [hrd]; simp
  · dsimp only; rw [hrd]; simpa using hpad
  · unfold part; dsimp only; rw [hrd]; simp

theorem storeRun_spec {pick : Pick} (hp : PickOk pick) (hB : 0 < P.B) {d : D α} {X R : List Nat} (h : Own d X R) {l : List α}
    (hl : l ≠ []) (hs : Sorted lt l) (hm : ∀ x ∈ l, lt P.maxV x = false) (hmm : lt P.maxV P.maxV = false) :
    ∃ r d', storeRun pick P (divCeil l.length P.B) d (fillMax P (divCeil l.length P.B) l) = some (r, d') ∧ Own d' (bidsOf r ++ X) R ∧
      (∀ b, b ∈ X ∨ b ∈ R → d'.disk b = d.disk b) ∧ RunSz lt P d' (r, l.length) ∧ part d' (r, l.length) = l := by
  obtain ⟨n1, n2, n3⟩ := newBlocks_own hp h (divCeil l.length P.B)
  obtain ⟨r, d', e1, e2, e3, e4, e5, e6⟩ := writeSorted_spec (P := P) (lt := lt) hB n3 (l := l)
    (pad := List.replicate (divCeil l.length P.B * P.B - l.length) P.maxV) hl
    (by have := (divCeil_bounds (n := l.length) hB).1; simp [n1]; omega)
    (fillMax_sorted hs hm hmm) (fun x hx => List.eq_of_mem_replicate hx)
  refine ⟨r, d', ?_, by rw [e2]; exact e3, ?_, e5, e6⟩
  · unfold storeRun fillMax; rw [n1] at e1; exact e1
  · intro b hb
    rw [e4 b, n2]
    intro hb'
    have hnd := n3.nd
    rw [List.append_assoc, List.nodup_append] at hnd
    exact hnd.2.2 b hb' b (List.mem_append.mpr hb) rfl

/-- A full run needs no filling. -/
theorem storeRun_full {pick : Pick} (hp : PickOk pick) (hB : 0 < P.B) {d : D α} {X R : List Nat} (h : Own d X R) {l : List α} {k : Nat}
    (hl : l ≠ []) (hk : l.length = k * P.B) (hs : Sorted lt l) :
    ∃ r d', storeRun pick P (divCeil (k * P.B) P.B) d l = some (r, d') ∧ Own d' (bidsOf r ++ X) R ∧
      (∀ b, b ∈ X ∨ b ∈ R → d'.disk b = d.disk b) ∧ RunSz lt P d' (r, l.length) ∧ part d' (r, l.length) = l := by
  rw [divCeil_mul hB]
  obtain ⟨n1, n2, n3⟩ := newBlocks_own hp h k
  obtain ⟨r, d', e1, e2, e3, e4, e5, e6⟩ := writeSorted_spec (P := P) (lt := lt) hB n3 (l := l) (pad := []) hl
    (by simp [n1, hk]) (by simpa using hs) (by simp)
  refine ⟨r, d', ?_, by rw [e2]; exact e3, ?_, e5, e6⟩
  · unfold storeRun; rw [n1, List.append_nil] at e1; exact e1
  · intro b hb
    rw [e4 b, n2]
    intro hb'
    have hnd := n3.nd
    rw [List.append_assoc, List.nodup_append] at hnd
    exact hnd.2.2 b hb' b (List.mem_append.mpr hb) rfl

theorem parts_append (d : D α) (a b : List (Run α × Nat)) : parts d (a ++ b) = parts d a ++ parts d b := by
  simp [parts]

theorem parts_one (d : D α) (e : Run α × Nat) : parts d [e] = part d e := by simp [parts]

/-- Adding a run. -/
theorem SInv.addRun {d d' : D α} {s : SRuns α} {xs l : List α} (h : SInv lt P d s xs) (hsm : s.small = []) {r : Run α}
    (hd : ∀ b ∈ bidsR s.runs, d'.disk b = d.disk b) (hr : RunSz lt P d' (r, l.length)) (hpt : part d' (r, l.length) = l) :
    SInv lt P d' (s.addRun r l.length) (xs ++ l) := by
  have h' := h.congr hd
  refine ⟨?_, ?_, .inl hsm, h.small, ?_⟩
  · simp [SRuns.addRun, h.el]
  · intro e he
    rcases List.mem_append.mp he with he | he
    · exact h'.runs e he
    · simp only [List.mem_singleton] at he; subst he; exact hr
  · show (s.small ++ parts d' (s.runs ++ [(r, l.length)])).Perm (xs ++ l)
    rw [parts_append, parts_one, hpt, ← List.append_assoc]
    exact h'.perm.append_right l

theorem addRun_bids (s : SRuns α) (r : Run α) (n : Nat) : (s.addRun r n).bids = s.bids ++ bidsOf r := by
  rw [bids_eq, bids_eq]
  show bidsR (s.runs ++ [(r, n)]) = _
  rw [bidsR_append]
  simp [bidsR, bidsOf]

end Stxxl.Sorter
