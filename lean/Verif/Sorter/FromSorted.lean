import Verif.Sorter.Create

/-! # `runs_creator<from_sorted_sequences>` -/

namespace Stxxl.Sorter

open Stxxl.Srt Stxxl.Streams

variable {α : Type} {lt : α → α → Bool} {P : Par α}

/-- `fin`: the elements of the finished sequences, `cur`: the current sequence. -/
structure FInv (lt : α → α → Bool) (P : Par α) (d : D α) (f : FS α) (fin cur : List α) (F : List Nat) : Prop where
  own : Own d (f.res.bids ++ bidsOf f.run) F
  el : f.res.elements = fin.length + cur.length
  runs : SInv lt P d { f.res with elements := fin.length } fin
  small : f.res.small = []
  trig : Trig P.B d f.run
  data : runData d f.run ++ f.blk = cur
  lt : f.blk.length < P.B

theorem runData_append (d : D α) (r r' : Run α) : runData d (r ++ r') = runData d r ++ runData d r' := by
  simp [runData_eq, bidsOf]

theorem FS.write_spec {pick : Pick} (hp : PickOk pick) (hB : 0 < P.B) {d : D α} {f : FS α} {X F : List Nat} (ho : Own d X F) {x : List α}
    (hx : x.length = P.B) (hX : ∀ b ∈ bidsOf f.run, b ∈ X) (ht : Trig P.B d f.run) :
    ∃ r d', FS.write pick d f x = some ({ f with run := f.run ++ r, blk := [] }, d') ∧ Own d' (X ++ bidsOf r) F ∧
      (∀ b, b ∈ X ∨ b ∈ F → d'.disk b = d.disk b) ∧ Trig P.B d' (f.run ++ r) ∧ runData d' (f.run ++ r) = runData d f.run ++ x := by
  obtain ⟨n1, n2, n3⟩ := newBlocks_own hp ho 1
  obtain ⟨r, d', e1, e2, e3, e4, e5, e6⟩ := writeRun_spec hB (newBlocks pick 1 d).1 [x] (newBlocks pick 1 d).2 (by simp [n1])
    (by simpa using hx) n3.ndX.of_append_left (fun b hb => n3.mem.2 (.inl (List.mem_append_left _ hb)))
  have hk : ∀ b, b ∈ X ∨ b ∈ F → d'.disk b = d.disk b := by
    intro b hb
    rw [e4 b, n2]
    intro hb'
    have hnd := n3.nd
    rw [List.append_assoc, List.nodup_append] at hnd
    refine hnd.2.2 b hb' b ?_ rfl
    rcases hb with hb | hb
    · exact List.mem_append_left _ hb
    · exact List.mem_append_right _ hb
  have hkr : ∀ b ∈ bidsOf f.run, d'.disk b = d.disk b := fun b hb => hk b (.inl (hX b hb))
  refine ⟨r, d', by unfold FS.write; rw [e1], ?_, hk, ?_, ?_⟩
  · exact (n3.of_live e3).congr (by rw [e2]; permc)
  · intro e he
    rcases List.mem_append.mp he with he | he
    · exact (ht.congr hkr) e he
    · exact e5 e he
  · rw [runData_append, runData_congr hkr, runData_eq d' r, e2, e6]; simp

theorem FS.push_spec {pick : Pick} (hp : PickOk pick) (hB : 0 < P.B) {d : D α} {f : FS α} {fin cur : List α} {F : List Nat}
    (h : FInv lt P d f fin cur F) (v : α) :
    ∃ f' d', FS.push pick P d f v = some (f', d') ∧ FInv lt P d' f' fin (cur ++ [v]) F ∧ (∀ b ∈ F, d'.disk b = d.disk b) := by
  have hlt := h.lt
  unfold FS.push
  by_cases hfull : (f.blk ++ [v]).length = P.B
  · rw [if_pos hfull]
    obtain ⟨r, d', e1, e2, e3, e4, e5⟩ := FS.write_spec hp hB h.own hfull (fun b hb => List.mem_append_right _ hb) h.trig
    rw [e1]
    refine ⟨_, d', rfl, ⟨?_, ?_, ?_, h.small, e4, ?_, by simpa using hB⟩, fun b hb => e3 b (.inr hb)⟩
    · exact e2.congr (by show List.Perm _ (f.res.bids ++ bidsOf (f.run ++ r) ++ F); simp [bidsOf])
    · show f.res.elements + 1 = _
      rw [h.el]; simp; omega
    · exact h.runs.congr (fun b hb => e3 b (.inl (List.mem_append_left _ hb)))
    · show runData d' (f.run ++ r) ++ [] = _
      rw [e5, List.append_nil, ← List.append_assoc, h.data]
  · rw [if_neg hfull]
    refine ⟨_, d, rfl, ⟨h.own, ?_, h.runs, h.small, h.trig, ?_, ?_⟩, fun _ _ => rfl⟩
    · show f.res.elements + 1 = _
      rw [h.el]; simp; omega
    · show runData d f.run ++ (f.blk ++ [v]) = _
      rw [← List.append_assoc, h.data]
    · show (f.blk ++ [v]).length < P.B
      simp only [List.length_append, List.length_singleton] at hfull ⊢; omega

theorem trig_len {B : Nat} {d : D α} {r : Run α} (h : Trig B d r) : (runData d r).length = r.length * B := by
  rw [runData_eq]
  induction r with
  | nil => simp [bidsOf]
  | cons e r ih =>
    have := ih (fun e he => h e (List.mem_cons_of_mem _ he))
    simp only [bidsOf, List.map_cons, List.flatten_cons, List.length_append, List.length_cons] at *
    rw [this, (h e (List.mem_cons_self ..)).1, Nat.succ_mul]; omega

theorem FS.finish_spec {pick : Pick} (hp : PickOk pick) (hs : SWO lt) (hB : 0 < P.B) {d : D α} {f : FS α} {fin cur : List α} {F : List Nat}
    (h : FInv lt P d f fin cur F) (hsort : Sorted lt cur) (hf : ∀ x ∈ cur, Fits lt P x) :
    ∃ f' d', FS.finish pick P d f = some (f', d') ∧ FInv lt P d' f' (fin ++ cur) [] F ∧ (∀ b ∈ F, d'.disk b = d.disk b) := by
  have hlt := h.lt
  have hlen := trig_len h.trig
  unfold FS.finish
  by_cases h0 : f.blk.length = 0 ∧ f.run.length = 0
  · rw [if_pos h0]
    have hb : f.blk = [] := List.length_eq_zero_iff.mp h0.1
    have hr : f.run = [] := List.length_eq_zero_iff.mp h0.2
    have hc : cur = [] := by
      have := h.data
      rw [hb, hr] at this
      simpa [runData_eq, bidsOf] using this.symm
    subst hc
    exact ⟨f, d, rfl, by rw [List.append_nil]; exact h, fun _ _ => rfl⟩
  · rw [if_neg h0]
    dsimp only
    have hn : f.run.length * P.B + f.blk.length = cur.length := by rw [← h.data, List.length_append, hlen]
    have hcne : cur.length ≠ 0 := by
      rw [← hn]
      intro hz
      apply h0
      have : f.run.length * P.B = 0 := by omega
      refine ⟨by omega, ?_⟩
      rcases Nat.mul_eq_zero.mp this with h | h <;> omega
    -- the common end: the run holds `cur` and filling
    have fin' : ∀ (run : Run α) (d' : D α) (pad : List α), Own d' (f.res.bids ++ bidsOf run) F → (∀ b, b ∈ bidsR f.res.runs ∨ b ∈ F → d'.disk b = d.disk b) →
        Trig P.B d' run → runData d' run = cur ++ pad → (∀ x ∈ pad, x = P.maxV) →
        FInv lt P d' { res := { f.res with runs := f.res.runs ++ [(run, f.run.length * P.B + f.blk.length)] }, run := [], blk := [] } (fin ++ cur) [] F := by
      intro run d' pad ho' hd' ht hdata hpad
      rw [hn]
      have hpt : part d' (run, cur.length) = cur := by
        unfold part; rw [hdata, List.take_left]
      have hrs : RunSz lt P d' (run, cur.length) := by
        refine ⟨⟨ht, ?_⟩, ?_, Nat.pos_of_ne_zero hcne, ?_, ?_⟩
        · rw [hdata]
          unfold Sorted
          rw [List.pairwise_append]
          refine ⟨hsort, ?_, ?_⟩
          · rw [List.eq_replicate_iff.mpr ⟨rfl, hpad⟩, List.pairwise_replicate]; exact .inr (hs.irrefl _)
          · intro a ha b hb
            rw [hpad b hb]; exact (hf a ha).le hs
        · intro hrun
          dsimp only at hrun
          rw [hrun] at hdata
          have := congrArg List.length hdata
          simp [runData_eq, bidsOf] at this
          omega
        · dsimp only; rw [hdata, List.length_append]; omega
        · dsimp only
          rw [hdata, List.drop_left]; exact hpad
      have hadd := h.runs.addRun h.small (fun b hb => hd' b (.inl hb)) hrs hpt
      refine ⟨?_, ?_, ?_, h.small, ?_, ?_, ?_⟩
      · have : ({ f.res with runs := f.res.runs ++ [(run, cur.length)] } : SRuns α).bids = f.res.bids ++ bidsOf run := by
          rw [bids_eq, bids_eq]; dsimp only; rw [bidsR_append]; simp [bidsR]
        show Own d' (({ f.res with runs := f.res.runs ++ [(run, cur.length)] } : SRuns α).bids ++ bidsOf []) F
        rw [this]; exact ho'.congr (by simp [bidsOf])
      · show f.res.elements = _
        rw [h.el]; simp
      · simp only [SRuns.addRun, List.length_append] at hadd ⊢
        exact hadd
      · intro e he; cases he
      · simp [runData_eq, bidsOf]
      · exact hB
    by_cases hblk : f.blk.length ≠ 0
    · rw [if_pos hblk]
      obtain ⟨r, d', e1, e2, e3, e4, e5⟩ := FS.write_spec hp hB h.own (x := f.blk ++ List.replicate (P.B - f.blk.length) P.maxV)
        (by simp; omega) (fun b hb => List.mem_append_right _ hb) h.trig
      rw [e1]
      refine ⟨_, d', rfl, fin' (f.run ++ r) d' (List.replicate (P.B - f.blk.length) P.maxV) ?_ (fun b hb => e3 b ?_) e4 ?_
        (fun x hx => List.eq_of_mem_replicate hx), fun b hb => e3 b (.inr hb)⟩
      · exact e2.congr (by simp [bidsOf])
      · rcases hb with hb | hb
        · exact .inl (List.mem_append_left _ hb)
        · exact .inr hb
      · rw [e5, ← List.append_assoc, h.data]
    · rw [if_neg hblk]
      have hb : f.blk = [] := List.length_eq_zero_iff.mp (by omega)
      refine ⟨_, d, rfl, fin' f.run d [] h.own (fun _ _ => rfl) h.trig ?_ (by simp), fun _ _ => rfl⟩
      rw [List.append_nil, ← h.data, hb, List.append_nil]

theorem FInv.new {d : D α} {F : List Nat} (ho : Own d [] F) (hB : 0 < P.B) : FInv lt P d { res := SRuns.new, run := [], blk := [] } [] [] F := by
  refine ⟨by simpa [SRuns.new, SRuns.bids, bidsOf] using ho, rfl, SInv.new d, rfl, (fun e he => by cases he), (by simp [runData_eq, bidsOf]), hB⟩

/-- After `finish` the result can be given to a merger. -/
theorem FInv.result {d : D α} {f : FS α} {xs : List α} {F : List Nat} (h : FInv lt P d f xs [] F) (hB : 0 < P.B) :
    SInv lt P d f.res xs ∧ Own d f.res.bids F := by
  have hr : f.run = [] := by
    have := trig_len h.trig
    have hd := (List.append_eq_nil_iff.mp h.data).1
    rw [hd] at this
    rcases Nat.mul_eq_zero.mp this.symm with h | h
    · exact List.length_eq_zero_iff.mp h
    · omega
  have ho := h.own
  rw [hr] at ho
  have hs := h.runs
  have he : f.res.elements = xs.length := by rw [h.el]; simp
  rw [← he] at hs
  exact ⟨hs, by simpa [bidsOf] using ho⟩

end Stxxl.Sorter
