import Verif.Schedule.Run

/-!
# C26, C27: the prefetch schedule

`disks b` is the device of block `b` of the consumption sequence (`none`: no allocator), `L` the number of blocks, `m` the number of prefetch
buffers, `D` the largest device id. `ch` resolves ties in `std::priority_queue`, `junk` is the initial content of the uninitialised busy
flags; both are arbitrary.
-/

namespace Stxxl.Schedule

variable {L m D : Nat}

theorem range_pair_sublist {L a b : Nat} (hab : a < b) (hb : b < L) (f : Nat → Nat × Nat) : [f a, f b].Sublist ((List.range L).map f) := by
  have h : [a, b].Sublist (List.range L) := by
    have h1 : List.range L = List.range b ++ (List.range (L - b)).map (b + ·) := by
      rw [← List.range_add]; congr 1; omega
    rw [h1]
    have h2 : [a].Sublist (List.range b) := by simpa using hab
    have h3 : [b].Sublist ((List.range (L - b)).map (b + ·)) := by
      simp only [List.singleton_sublist, List.mem_map, List.mem_range]
      exact ⟨0, by omega, by omega⟩
    exact h2.append h3
  exact h.map f

theorem timeArray_ok (o : Nat → Option Nat) (h : ∀ x < L, ∃ t, o x = some t) :
    timeArray o L = some ((List.range L).map fun b => (b, (o b).getD 0)) := by
  unfold timeArray
  have : ∀ l : List Nat, (∀ x ∈ l, x < L) → l.mapM (fun b => (o b).map (b, ·)) = some (l.map fun b => (b, (o b).getD 0)) := by
    intro l
    induction l with
    | nil => intro _; rfl
    | cons a l ih =>
      intro hl
      obtain ⟨t, ht⟩ := h a (hl a (by simp))
      rw [List.mapM_cons, ih (fun x hx => hl x (List.mem_cons_of_mem _ hx)), ht]
      simp [ht]
  exact this _ (by simp)

theorem leTrans (a b c : Nat × Nat) : (!decide (b.2 > a.2)) = true → (!decide (c.2 > b.2)) = true → (!decide (c.2 > a.2)) = true := by
  simp; omega

theorem leTotal (a b : Nat × Nat) : ((!decide (b.2 > a.2)) || (!decide (a.2 > b.2))) = true := by
  simp; omega

/-- Elements in front of `(k, t)` in the sorted array are smaller indices or later times. -/
theorem front_spec (t : Nat → Nat) (k : Nat) (hk : k < L) :
    ∃ pre post, stableSort ((List.range L).map fun b => (b, t b)) = pre ++ (k, t k) :: post ∧
      ∀ e ∈ pre, e.2 = t e.1 ∧ e.1 < L ∧ (e.1 < k ∨ (k < e.1 ∧ t k < t e.1)) := by
  let A := (List.range L).map fun b => (b, t b)
  have hp : (stableSort A).Perm A := List.mergeSort_perm _ _
  have hAnd : A.Nodup := by
    refine List.Nodup.map ?_ List.nodup_range
    intro a b h; exact (Prod.mk.inj h).1
  have hnd := hp.nodup_iff.mpr hAnd
  have hmem : ∀ e, e ∈ stableSort A → e.1 < L ∧ e.2 = t e.1 := by
    intro e he
    obtain ⟨b, hb, rfl⟩ := List.mem_map.mp (hp.mem_iff.mp he)
    exact ⟨by simpa using hb, rfl⟩
  have hkm : (k, t k) ∈ stableSort A := hp.mem_iff.mpr (List.mem_map.mpr ⟨k, by simpa using hk, rfl⟩)
  obtain ⟨pre, post, hS⟩ := List.append_of_mem hkm
  refine ⟨pre, post, hS, ?_⟩
  intro e he
  have heS : e ∈ stableSort A := by rw [hS]; simp [he]
  obtain ⟨h1, h2⟩ := hmem e heS
  refine ⟨h2, h1, ?_⟩
  have hsorted : (stableSort A).Pairwise (fun a b => (!decide (b.2 > a.2)) = true) := List.pairwise_mergeSort leTrans leTotal A
  rw [hS] at hsorted hnd
  have hle := (List.pairwise_append.mp hsorted).2.2 e he (k, t k) (by simp)
  simp only [Bool.not_eq_eq_eq_not, Bool.not_true, decide_eq_false_iff_not, gt_iff_lt, Nat.not_lt] at hle
  have hdis := (List.nodup_append.mp hnd).2.2
  have hek : e ≠ (k, t k) := hdis e he _ (by simp)
  by_cases hlt : e.1 < k
  · exact Or.inl hlt
  have hne : e.1 ≠ k := by
    intro hc; apply hek; rw [← Prod.eta e]; rw [h2, hc]
  refine Or.inr ⟨by omega, ?_⟩
  rcases Nat.lt_or_ge (t k) (t e.1) with h | h
  · exact h
  · exfalso
    have hsub : [(k, t k), (e.1, t e.1)].Sublist (stableSort A) := by
      refine List.sublist_mergeSort leTrans leTotal (by simp; omega) ?_
      exact range_pair_sublist (by omega) h1 (fun b => (b, t b))
    rw [← h2, Prod.eta, hS] at hsub
    obtain ⟨l1, l2, hl, hl1, hl2⟩ := List.sublist_append_iff.mp hsub
    cases l1 with
    | nil =>
      simp only [List.nil_append] at hl
      subst hl
      rw [List.cons_sublist_cons] at hl2
      have : e ∈ post := hl2.subset (by simp)
      exact hdis e he e (List.mem_cons_of_mem _ this) rfl
    | cons a l =>
      simp only [List.cons_append, List.cons.injEq] at hl
      have : a ∈ pre := hl1.subset (by simp)
      rw [← hl.1] at this
      exact hdis _ this _ (by simp) rfl

theorem schedule_ok (disks : Disks) (junk : Nat → Bool) (ch : Nat → Nat) (hm : 1 ≤ m) (hD : ∀ b < L, ∀ d, disks b = some d → d ≤ D) :
    ∃ out, schedule disks junk ch L m D = some out ∧ out.Perm (List.range L) ∧ ∀ k < L, ∃ p < k + m, out[p]? = some k := by
  unfold schedule
  by_cases hLD : L ≤ D
  · rw [if_pos hLD]
    exact ⟨_, rfl, List.Perm.refl _, fun k hk => ⟨k, by omega, by simp [hk]⟩⟩
  rw [if_neg hLD]
  have hg : ∀ b < L, getDisk disks D b ≤ D := by
    intro b hb
    unfold getDisk
    cases h : disks b with
    | none => exact Nat.le_refl _
    | some d => exact hD b hb d h
  obtain ⟨o, hs, hall, hah⟩ := simulate_ok junk ch hm hg
  rw [hs]
  dsimp only
  rw [timeArray_ok o hall]
  dsimp only
  refine ⟨_, rfl, ?_, ?_⟩
  · have := (List.mergeSort_perm ((List.range L).map fun b => (b, (o b).getD 0)) (fun a b => !decide (b.2 > a.2))).map Prod.fst
    rw [List.map_map] at this
    have h2 : (List.range L).map (Prod.fst ∘ fun b => (b, (o b).getD 0)) = List.range L := by
      conv => rhs; rw [← List.map_id (List.range L)]
      rfl
    rw [h2] at this
    exact this
  · intro k hk
    obtain ⟨pre, post, hS, hpre⟩ := front_spec (L := L) (fun b => (o b).getD 0) k hk
    rw [hS]
    refine ⟨pre.length, ?_, by simp⟩
    obtain ⟨tk, htk⟩ := hall k hk
    have hcard := hah k tk htk
    -- the indices in front
    have hnd : (pre.map Prod.fst).Nodup := by
      have h1 : ((stableSort ((List.range L).map fun b => (b, (o b).getD 0))).map Prod.fst).Perm (List.range L) := by
        have := (List.mergeSort_perm ((List.range L).map fun b => (b, (o b).getD 0)) (fun a b => !decide (b.2 > a.2))).map Prod.fst
        rw [List.map_map] at this
        have h2 : (List.range L).map (Prod.fst ∘ fun b => (b, (o b).getD 0)) = List.range L := by
          conv => rhs; rw [← List.map_id (List.range L)]
          rfl
        rw [h2] at this
        exact this
      have h3 := h1.nodup_iff.mpr List.nodup_range
      rw [hS, List.map_append] at h3
      exact (List.nodup_append.mp h3).1
    have hsub : (pre.map Prod.fst).toFinset ⊆ Finset.range k ∪ later L o k tk := by
      intro x hx
      rw [List.mem_toFinset] at hx
      obtain ⟨e, he, rfl⟩ := List.mem_map.mp hx
      obtain ⟨-, h1, h2⟩ := hpre e he
      rw [Finset.mem_union]
      rcases h2 with h2 | ⟨h2, h3⟩
      · left; simpa using h2
      · right
        simp only [later, Finset.mem_filter, Finset.mem_range]
        refine ⟨h1, h2, ?_⟩
        intro t' ht'
        rw [ht', htk] at h3
        simpa using h3
    have h4 := Finset.card_le_card hsub
    rw [List.toFinset_card_of_nodup hnd, List.length_map] at h4
    have h5 := Finset.card_union_le (Finset.range k) (later L o k tk)
    rw [Finset.card_range] at h5
    omega

/-- **C26.** The schedule is computed without failing an assertion, and lists every block exactly once. -/
theorem C26_schedule_permutation (disks : Disks) (junk : Nat → Bool) (ch : Nat → Nat) (hm : 1 ≤ m)
    (hD : ∀ b < L, ∀ d, disks b = some d → d ≤ D) :
    ∃ out, schedule disks junk ch L m D = some out ∧ out.Perm (List.range L) :=
  let ⟨out, h1, h2, _⟩ := schedule_ok disks junk ch hm hD
  ⟨out, h1, h2⟩

/-- **C27.** The `k`-th block consumed is among the first `k + m` blocks fetched. -/
theorem C27_block_requested_in_time (disks : Disks) (junk : Nat → Bool) (ch : Nat → Nat) (hm : 1 ≤ m)
    (hD : ∀ b < L, ∀ d, disks b = some d → d ≤ D) (out : List Nat) (h : schedule disks junk ch L m D = some out) (k : Nat) (hk : k < L) :
    k ∈ out.take (k + m) := by
  obtain ⟨out', h1, -, h2⟩ := schedule_ok disks junk ch hm hD
  rw [h] at h1; cases h1
  obtain ⟨p, hp, hk⟩ := h2 k hk
  rw [List.mem_iff_getElem?]
  exact ⟨p, by rw [List.getElem?_take_of_lt hp]; exact hk⟩

/-- With `m = 0` buffers and more blocks than devices the schedule cannot be computed: the simulation stops with blocks left and the
assertion `i == -1` fails (with assertions compiled out, the result is read from uninitialised memory). -/
theorem C26_no_buffers_fails (disks : Disks) (junk : Nat → Bool) (ch : Nat → Nat) (hL : D < L) : schedule disks junk ch L 0 D = none := by
  have hst : ∀ n, start n ⟨[], fun _ => [], L, 0, junk, fun _ => none⟩ = ⟨[], fun _ => [], L, 0, junk, fun _ => none⟩ := by
    intro n
    induction n with
    | zero => rfl
    | succ n ih => rw [start, ih]
  have hsim : ∀ disk, simulate disk junk ch L 0 D = none := by
    intro disk
    unfold simulate
    dsimp only [fill]; rw [hst, loop.eq_def]
    simp; omega
  unfold schedule
  rw [if_neg (by omega), hsim]

/-- Two disks, eight blocks, four buffers, some blocks without allocator: the hypotheses hold ... -/
example : ∃ out, schedule (fun b => if b < 4 then some 0 else if b = 5 then none else some 1) (fun _ => true) id 8 4 1 = some out ∧
    out.Perm (List.range 8) :=
  C26_schedule_permutation _ _ _ (by decide) (by intro b _ d; split_ifs <;> simp <;> omega)

/-- ... and the simulated times are not monotone: block 4 is written later than block 3, so it is fetched before it. -/
example : (simulate (fun b => if b < 4 then 0 else 1) (fun _ => true) id 8 4 1).map (fun o => (List.range 8).map o) =
    some [some 5, some 4, some 3, some 2, some 4, some 3, some 2, some 1] := by decide +kernel

end Stxxl.Schedule
