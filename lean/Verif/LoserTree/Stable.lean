import Verif.LoserTree.Merge

/-! # The consumption sequence: stable sort of all blocks by their first element -/

namespace Stxxl.LT

variable {α β : Type} {lt : α → α → Bool}

/-- A stable sort keeps every pairwise relation of equivalence classes that agrees with the order. -/
theorem stable_pairwise {le : β → β → Bool} (trans : ∀ a b c, le a b = true → le b c = true → le a c = true)
    (total : ∀ a b, (le a b || le b a) = true) (R S : β → β → Prop) (hsym : ∀ a b, S a b → S b a)
    (hR : ∀ a b, R a b → le a b = true) (l : List β) (hl : l.Pairwise fun a b => S a b → R a b) :
    (l.mergeSort le).Pairwise fun a b => S a b → R a b := by
  rw [← List.mergeSort_zipIdx, List.pairwise_map]
  have h1 := List.pairwise_mergeSort (List.zipIdxLE_trans trans) (List.zipIdxLE_total total) l.zipIdx
  have hp := List.mergeSort_perm l.zipIdx (List.zipIdxLE le)
  have hnd : (l.zipIdx.mergeSort (List.zipIdxLE le)).Nodup := by
    apply hp.nodup_iff.2
    have : (l.zipIdx.map Prod.snd).Nodup := by rw [List.zipIdx_map_snd]; exact List.nodup_range'
    exact List.Nodup.of_map _ this
  have hmem : ∀ a ∈ l.zipIdx.mergeSort (List.zipIdxLE le), ∃ h : a.2 < l.length, a.1 = l[a.2] := by
    intro a ha
    have := hp.subset ha
    have := List.mem_zipIdx this
    simp at this
    obtain ⟨h1, h2⟩ := this
    exact ⟨h1, h2⟩
  have h2 := List.Pairwise.and h1 hnd
  refine List.Pairwise.imp_of_mem ?_ h2
  rintro a b ha hb ⟨hle, hne⟩ hS
  obtain ⟨la, ea⟩ := hmem a ha
  obtain ⟨lb, eb⟩ := hmem b hb
  rcases Nat.lt_trichotomy a.2 b.2 with h | h | h
  · rw [ea, eb] at hS ⊢
    exact List.pairwise_iff_getElem.1 hl _ _ la lb h hS
  · exfalso; apply hne
    apply Prod.ext
    · rw [ea, eb]; simp only [h]
    · exact h
  · exfalso
    have hba : R b.1 a.1 := by
      have hS' := hsym _ _ hS
      rw [ea, eb] at hS' ⊢
      exact List.pairwise_iff_getElem.1 hl _ _ lb la h hS'
    have hle2 := hR _ _ hba
    unfold List.zipIdxLE at hle
    rw [hle2] at hle
    split at hle
    · simp at hle; omega
    · simp at hle

/-- The stable sort by first element of tagged blocks, in which blocks of a run appear in order, is a good consumption
sequence. `val`, `blk`, `tag` give the trigger, the contents and the run of an entry. -/
theorem seqOk_mergeSort (hs : SWO lt) (r : Nat) (l : List β) (val : β → α) (blk : β → List α) (tag : β → Nat)
    (hval : ∀ b ∈ l, (blk b).head? = some (val b)) (hsorted : ∀ b ∈ l, Sorted lt (blk b)) (htag : ∀ b ∈ l, tag b < r)
    (hsame : l.Pairwise fun a b => tag a = tag b → AllLe lt (blk a) (blk b)) :
    SeqOk lt r ((l.mergeSort fun a b => !lt (val b) (val a)).map fun b => (tag b, blk b)) := by
  have trans : ∀ a b c : β, (!lt (val b) (val a)) = true → (!lt (val c) (val b)) = true → (!lt (val c) (val a)) = true := by
    intro a b c h1 h2
    simp only [Bool.not_eq_true'] at *
    exact hs.negtrans _ _ _ h2 h1
  have total : ∀ a b : β, ((!lt (val b) (val a)) || (!lt (val a) (val b))) = true := by
    intro a b
    cases h : lt (val b) (val a)
    · rfl
    · rw [hs.asymm _ _ h]; rfl
  have hmem : ∀ b, b ∈ l.mergeSort (fun a b => !lt (val b) (val a)) → b ∈ l := fun b hb => List.mem_mergeSort.1 hb
  refine ⟨?_, ?_, ?_, ?_, ?_⟩
  · intro b hb
    obtain ⟨c, hc, rfl⟩ := List.mem_map.1 hb
    intro h
    have := hval c (hmem c hc)
    simp only at h
    rw [h] at this; simp at this
  · intro b hb
    obtain ⟨c, hc, rfl⟩ := List.mem_map.1 hb
    exact hsorted c (hmem c hc)
  · intro b hb
    obtain ⟨c, hc, rfl⟩ := List.mem_map.1 hb
    exact htag c (hmem c hc)
  · rw [List.pairwise_map]
    refine List.Pairwise.imp_of_mem ?_ (List.pairwise_mergeSort trans total l)
    intro a b ha hb h x hx y hy
    simp only at hx hy
    rw [hval a (hmem a ha)] at hx
    rw [hval b (hmem b hb)] at hy
    simp at hx hy h
    subst hx hy
    exact h
  · rw [List.pairwise_map]
    have h := stable_pairwise trans total (fun a b => AllLe lt (blk a) (blk b) ∧ lt (val b) (val a) = false)
      (fun a b => tag a = tag b) (fun a b h => h.symm) (fun a b h => by simp [h.2]) l (by
        refine List.Pairwise.imp_of_mem ?_ hsame
        intro a b ha hb h ht
        refine ⟨h ht, ?_⟩
        exact (h ht).headLe (val a) (by rw [hval a ha]; rfl) (val b) (by rw [hval b hb]; rfl))
    exact h.imp (fun h ht => (h ht).1)

/-- Entries tagged with their run. -/
def tagged (runs : List (List β)) : List (Nat × β) :=
  runs.zipIdx.flatMap fun p => p.1.map fun b => (p.2, b)

theorem tagged_snd (runs : List (List β)) : (tagged runs).map (·.2) = runs.flatten := by
  have key : ∀ (i : Nat) (runs : List (List β)),
      ((runs.zipIdx i).flatMap fun p => p.1.map fun b => (p.2, b)).map (·.2) = runs.flatten := by
    intro i runs
    induction runs generalizing i with
    | nil => rfl
    | cons r rs ih =>
      rw [List.zipIdx_cons, List.flatMap_cons, List.map_append, ih, List.flatten_cons, List.map_map]
      congr 1
      exact List.map_id' r
  exact key 0 runs

theorem mem_tagged {runs : List (List β)} {e : Nat × β} (h : e ∈ tagged runs) :
    ∃ hi : e.1 < runs.length, e.2 ∈ runs[e.1] := by
  unfold tagged at h
  obtain ⟨p, hp, he⟩ := List.mem_flatMap.1 h
  obtain ⟨b, hb, rfl⟩ := List.mem_map.1 he
  have := List.mem_zipIdx hp
  simp at this
  obtain ⟨h1, h2⟩ := this
  exact ⟨h1, h2 ▸ hb⟩

theorem tagged_same {runs : List (List β)} {blk : β → List α}
    (h : ∀ run ∈ runs, run.Pairwise fun a b => AllLe lt (blk a) (blk b)) :
    (tagged runs).Pairwise fun a b => a.1 = b.1 → AllLe lt (blk a.2) (blk b.2) := by
  unfold tagged
  rw [List.pairwise_flatMap]
  constructor
  · intro p hp
    rw [List.pairwise_map]
    have := List.mem_zipIdx hp
    simp at this
    obtain ⟨h1, h2⟩ := this
    have h3 := h p.1 (h2 ▸ List.getElem_mem _)
    refine h3.imp ?_
    intro a b hab _
    exact hab
  · have hz : runs.zipIdx.Pairwise fun a b => a.2 < b.2 := by
      have : (runs.zipIdx.map (·.2)).Pairwise (· < ·) := by
        rw [List.zipIdx_map_snd]; exact List.pairwise_lt_range'
      exact List.pairwise_map.1 this
    refine hz.imp ?_
    intro a b hab x hx y hy e
    obtain ⟨_, _, rfl⟩ := List.mem_map.1 hx
    obtain ⟨_, _, rfl⟩ := List.mem_map.1 hy
    dsimp only at e
    omega

/-- The stable sort of the entries of all runs is a good consumption sequence. -/
theorem consume_gen (hs : SWO lt) {runs : List (List β)} (val : β → α) (blk : β → List α)
    (hne : ∀ run ∈ runs, run ≠ []) (hval : ∀ run ∈ runs, ∀ b ∈ run, (blk b).head? = some (val b))
    (hsorted : ∀ run ∈ runs, ∀ b ∈ run, Sorted lt (blk b))
    (hpw : ∀ run ∈ runs, run.Pairwise fun a b => AllLe lt (blk a) (blk b)) :
    ∃ T : List (Nat × List α), T.map (·.2) = (runs.flatten.mergeSort fun a b => !lt (val b) (val a)).map blk ∧
      SeqOk lt runs.length T ∧ runs.length ≤ T.length := by
  refine ⟨((tagged runs).mergeSort fun a b => !lt (val b.2) (val a.2)).map fun e => (e.1, blk e.2), ?_, ?_, ?_⟩
  · rw [List.map_map]
    have : (runs.flatten.mergeSort fun a b => !lt (val b) (val a))
        = ((tagged runs).mergeSort fun a b => !lt (val b.2) (val a.2)).map (·.2) := by
      rw [← tagged_snd]
      symm
      apply List.map_mergeSort
      intro a _ b _; rfl
    rw [this, List.map_map]
    rfl
  · apply seqOk_mergeSort hs runs.length (tagged runs) (fun e => val e.2) (fun e => blk e.2) (fun e => e.1)
    · intro e he
      obtain ⟨hi, hm⟩ := mem_tagged he
      exact hval _ (List.getElem_mem _) _ hm
    · intro e he
      obtain ⟨hi, hm⟩ := mem_tagged he
      exact hsorted _ (List.getElem_mem _) _ hm
    · intro e he; exact (mem_tagged he).1
    · exact tagged_same hpw
  · rw [List.length_map, List.length_mergeSort]
    have : (tagged runs).length = runs.flatten.length := by rw [← tagged_snd]; simp
    rw [this]
    clear this hval hsorted hpw
    induction runs with
    | nil => simp
    | cons r rs ih =>
      have h3 := ih (fun run hr => hne run (List.mem_cons_of_mem _ hr))
      have h4 := List.length_pos_of_ne_nil (hne r List.mem_cons_self)
      simp only [List.length_cons, List.flatten_cons, List.length_append]
      omega

end Stxxl.LT
