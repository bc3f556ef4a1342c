import Verif.Sorter.Rec

/-! # The run creators: every element of the input ends up in exactly one run -/

namespace Stxxl.Sorter

open Stxxl.Srt Stxxl.Streams

variable {α : Type} {lt : α → α → Bool} {P : Par α}

theorem part_length {d : D α} {e : Run α × Nat} (h : RunSz lt P d e) : (part d e).length = e.2 := by
  unfold part; rw [List.length_take]; have := h.le; omega

theorem SInv.runs_nil {d : D α} {s : SRuns α} (h : SInv lt P d s []) : s.runs = [] ∧ s.small = [] := by
  have hp := h.perm.eq_nil
  rw [List.append_eq_nil_iff] at hp
  refine ⟨?_, hp.1⟩
  cases hr : s.runs with
  | nil => rfl
  | cons e rs =>
    have he := h.runs e (by rw [hr]; exact List.mem_cons_self ..)
    have h2 := hp.2
    rw [hr] at h2
    have : part d e = [] := (List.append_eq_nil_iff.mp h2).1
    have hl := part_length he
    rw [this] at hl
    have := he.pos
    simp only [List.length_nil] at hl
    omega

theorem elInRun_pos (hP : POk P) {mem : Nat} (hm : 2 * P.raw * P.fac ≤ mem) : 0 < mem / P.raw / P.fac / 2 ∧ 0 < elInRun P mem := by
  have h : 0 < mem / P.raw / P.fac / 2 := by
    apply Nat.div_pos _ (by omega)
    rw [Nat.le_div_iff_mul_le hP.fac, Nat.le_div_iff_mul_le hP.raw]
    calc 2 * P.fac * P.raw = 2 * P.raw * P.fac := by rw [Nat.mul_assoc, Nat.mul_assoc, Nat.mul_comm P.fac]
      _ ≤ mem := hm
  exact ⟨h, Nat.mul_pos h hP.B⟩

/-- The creator in the input phase holds `xs`. -/
structure CIn (lt : α → α → Bool) (P : Par α) (mem : Nat) (d : D α) (c : RC α) (xs R : List α) (F : List Nat) : Prop where
  own : Own d c.res.bids F
  runs : SInv lt P d c.res R
  small : c.res.small = []
  perm : (R ++ c.cur).Perm xs
  le : c.cur.length ≤ elInRun P mem
  computed : c.computed = false
  bufs : c.bufs = true

/-- The creator after `result()`. -/
structure CFin (lt : α → α → Bool) (P : Par α) (d : D α) (c : RC α) (xs : List α) (F : List Nat) : Prop where
  own : Own d c.res.bids F
  runs : SInv lt P d c.res xs
  computed : c.computed = true

theorem allocate_spec {d : D α} {c : RC α} {F : List Nat} (h : Own d c.res.bids F) {mem : Nat} :
    ∃ c' d', c.allocate d = some (c', d') ∧ CIn lt P mem d' c' [] [] F ∧ d'.disk = d.disk := by
  obtain ⟨d', h1, h2, h3⟩ := delAll_own c.res.bids (X := []) (R := F) (by rw [List.append_nil]; exact h)
  refine ⟨_, d', by unfold RC.allocate; rw [h1], ⟨?_, SInv.new _, rfl, by simp, by simp, rfl, rfl⟩, h2⟩
  exact h3

theorem push_spec {pick : Pick} (hp : PickOk pick) {srt : List α → List α} (hsrt : SortFn lt srt) (hP : POk P) {mem : Nat}
    (hm : 2 * P.raw * P.fac ≤ mem) {d : D α} {c : RC α} {xs ys : List α} {F : List Nat} (h : CIn lt P mem d c xs ys F) (v : α) :
    ∃ c' d' ys', c.push pick srt P mem d v = some (c', d') ∧ CIn lt P mem d' c' (xs ++ [v]) ys' F ∧ (∀ b ∈ F, d'.disk b = d.disk b) := by
  obtain ⟨hk, hel⟩ := elInRun_pos hP hm
  have hc := h.computed
  have hb := h.bufs
  have hle := h.le
  unfold RC.push
  rw [if_neg (by simp [hc, hb])]
  by_cases hlt : c.cur.length < elInRun P mem
  · rw [if_pos hlt]
    refine ⟨_, d, ys, rfl, ⟨h.own, h.runs, h.small, ?_, ?_, hc, hb⟩, fun _ _ => rfl⟩
    · show (ys ++ (c.cur ++ [v])).Perm _
      rw [← List.append_assoc]; exact h.perm.append_right _
    · simp only [List.length_append, List.length_singleton]; omega
  · rw [if_neg hlt]
    have heq : elInRun P mem = c.cur.length := by omega
    rw [if_neg (by omega)]
    have hlen : (srt c.cur).length = c.cur.length := (hsrt.perm _).length_eq
    obtain ⟨r, d', s1, s2, s3, s4, s5⟩ := storeRun_full (P := P) (lt := lt) hp hP.B h.own (l := srt c.cur) (k := mem / P.raw / P.fac / 2)
      (by intro h0; rw [h0] at hlen; simp at hlen; omega) (by rw [hlen, ← heq]; rfl) (hsrt.sorted _)
    have s1' : storeRun pick P (divCeil (elInRun P mem) P.B) d (srt c.cur) = some (r, d') := s1
    rw [s1']
    have hl2 : elInRun P mem = (srt c.cur).length := by omega
    refine ⟨_, d', ys ++ srt c.cur, rfl, ⟨?_, ?_, h.small, ?_, by simp; omega, hc, hb⟩, fun b hb => s3 b (.inr hb)⟩
    · show Own d' (c.res.addRun r (elInRun P mem)).bids F
      rw [addRun_bids]; exact s2.congr (by permc)
    · show SInv lt P d' (c.res.addRun r (elInRun P mem)) _
      rw [hl2]
      exact h.runs.addRun h.small (fun b hb => s3 b (.inl hb)) s4 s5
    · show (ys ++ srt c.cur ++ [v]).Perm _
      exact (((hsrt.perm c.cur).append_left ys).trans h.perm).append_right _

theorem result_spec {pick : Pick} (hp : PickOk pick) {srt : List α → List α} (hsrt : SortFn lt srt) (hs : SWO lt) (hP : POk P) {mem : Nat}
    {d : D α} {c : RC α} {xs ys : List α} {F : List Nat} (h : CIn lt P mem d c xs ys F) (hf : ∀ x ∈ xs, Fits lt P x) :
    ∃ c' d', c.result pick srt P d = some (c', d') ∧ CFin lt P d' c' xs F ∧ (∀ b ∈ F, d'.disk b = d.disk b) ∧ c'.bufs = c.bufs ∧
      c'.cur.length = c.cur.length := by
  unfold RC.result
  rw [if_neg (by simp [h.computed])]
  unfold RC.compute
  by_cases h0 : c.cur.length = 0
  · rw [if_pos h0]
    have hcur : c.cur = [] := List.length_eq_zero_iff.mp h0
    have hperm := h.perm
    rw [hcur, List.append_nil] at hperm
    exact ⟨_, d, rfl, ⟨h.own, h.runs.perm_of hperm, rfl⟩, fun _ _ => rfl, rfl, rfl⟩
  · rw [if_neg h0]
    have hlen : (srt c.cur).length = c.cur.length := (hsrt.perm _).length_eq
    have hx : (ys ++ srt c.cur).Perm xs := ((hsrt.perm c.cur).append_left ys).trans h.perm
    dsimp only
    by_cases hc : (srt c.cur).length ≤ P.B ∧ c.res.elements = 0
    · rw [if_pos hc]
      have hy : ys = [] := List.length_eq_zero_iff.mp (by rw [← h.runs.el]; exact hc.2)
      subst hy
      have hr := h.runs.runs_nil.1
      rw [List.nil_append] at hx
      refine ⟨_, d, rfl, ⟨?_, ⟨?_, ?_, .inr hr, hsrt.sorted _, ?_⟩, rfl⟩, fun _ _ => rfl, rfl, hlen⟩
      · have := h.own
        rw [bids_eq, hr] at this
        show Own d (bidsR c.res.runs) F
        rw [hr]; exact this
      · exact hx.length_eq
      · show ∀ e ∈ c.res.runs, _
        rw [hr]; simp
      · show (srt c.cur ++ parts d c.res.runs).Perm xs
        rw [hr]; simpa [parts] using hx
    · rw [if_neg hc]
      obtain ⟨r, d', s1, s2, s3, s4, s5⟩ := storeRun_spec (P := P) (lt := lt) hp hP.B h.own (l := srt c.cur)
        (by intro h1; rw [h1] at hlen; simp at hlen; omega) (hsrt.sorted _)
        (fun x hx' => (hf x (hx.mem_iff.mp (List.mem_append_right _ hx'))).le hs) (hs.irrefl _)
      rw [s1]
      refine ⟨_, d', rfl, ⟨?_, ?_, rfl⟩, fun b hb => s3 b (.inr hb), rfl, hlen⟩
      · show Own d' (c.res.addRun r _).bids F
        rw [addRun_bids]; exact s2.congr (by permc)
      · exact (h.runs.addRun h.small (fun b hb => s3 b (.inl hb)) s4 s5).perm_of hx

theorem result_fin {pick : Pick} {srt : List α → List α} {d : D α} {c : RC α} (h : c.computed = true) :
    c.result pick srt P d = some (c, d) := by
  unfold RC.result; rw [if_pos h]

/-! ## `basic_runs_creator` -/

theorem bcLoop_spec {pick : Pick} (hp : PickOk pick) {srt : List α → List α} (hsrt : SortFn lt srt) (hs : SWO lt) (hP : POk P) {el : Nat}
    (hel : 0 < el) {F : List Nat} : ∀ (n : Nat) (d : D α) (s : SRuns α) (ys inp : List α), inp.length < n → Own d s.bids F → SInv lt P d s ys →
    s.small = [] → (∀ x ∈ inp, Fits lt P x) →
    ∃ s' d', bcLoop pick srt P el n d s inp = some (s', d') ∧ Own d' s'.bids F ∧ SInv lt P d' s' (ys ++ inp) ∧ (∀ b ∈ F, d'.disk b = d.disk b) := by
  intro n
  induction n with
  | zero => intro d s ys inp h; omega
  | succ n ih =>
    intro d s ys inp hn ho h hsm hf
    unfold bcLoop
    by_cases h0 : inp = []
    · rw [if_pos h0]
      exact ⟨s, d, rfl, ho, by rw [h0, List.append_nil]; exact h, fun _ _ => rfl⟩
    · rw [if_neg h0]
      have hpos := List.length_pos_of_ne_nil h0
      have hlen : (srt (inp.take el)).length = (inp.take el).length := (hsrt.perm _).length_eq
      obtain ⟨r, d', s1, s2, s3, s4, s5⟩ := storeRun_spec (P := P) (lt := lt) hp hP.B ho (l := srt (inp.take el))
        (by intro h1; rw [h1, List.length_take] at hlen; simp at hlen; omega) (hsrt.sorted _)
        (fun x hx' => (hf x (List.mem_of_mem_take ((hsrt.perm _).mem_iff.mp hx'))).le hs) (hs.irrefl _)
      dsimp only
      rw [s1]
      dsimp only
      obtain ⟨s', d'', i1, i2, i3, i4⟩ := ih d' (s.addRun r (srt (inp.take el)).length) (ys ++ srt (inp.take el)) (inp.drop el)
        (by rw [List.length_drop]; omega) (by rw [addRun_bids]; exact s2.congr (by permc))
        (h.addRun hsm (fun b hb => s3 b (.inl hb)) s4 s5) hsm (fun x hx => hf x (List.mem_of_mem_drop hx))
      refine ⟨s', d'', i1, i2, i3.perm_of ?_, fun b hb => by rw [i4 b hb, s3 b (.inr hb)]⟩
      rw [List.append_assoc]
      refine List.Perm.append_left ys ?_
      conv => rhs; rw [← List.take_append_drop el inp]
      exact (hsrt.perm _).append_right _

theorem bcResult_spec {pick : Pick} (hp : PickOk pick) {srt : List α → List α} (hsrt : SortFn lt srt) (hs : SWO lt) (hP : POk P) {mem : Nat}
    (hm : 2 * P.raw * P.fac ≤ mem) {F : List Nat} {d : D α} (ho : Own d [] F) {inp : List α} (hf : ∀ x ∈ inp, Fits lt P x) :
    ∃ s' d', bcResult pick srt P mem d inp = some (s', d') ∧ Own d' s'.bids F ∧ SInv lt P d' s' inp ∧ (∀ b ∈ F, d'.disk b = d.disk b) := by
  obtain ⟨hk, hel⟩ := elInRun_pos hP hm
  unfold bcResult
  dsimp only
  have hlen : (srt (inp.take (elInRun P mem))).length = (inp.take (elInRun P mem)).length := (hsrt.perm _).length_eq
  have hf1 : ∀ x ∈ srt (inp.take (elInRun P mem)), Fits lt P x :=
    fun x hx' => hf x (List.mem_of_mem_take ((hsrt.perm _).mem_iff.mp hx'))
  have hall : (srt (inp.take (elInRun P mem)) ++ inp.drop (elInRun P mem)).Perm inp := by
    conv => rhs; rw [← List.take_append_drop (elInRun P mem) inp]
    exact (hsrt.perm _).append_right _
  generalize hl1 : srt (inp.take (elInRun P mem)) = l1 at *
  have hsort1 : Sorted lt l1 := by rw [← hl1]; exact hsrt.sorted _
  by_cases h1 : l1.length ≤ P.B ∧ inp.drop (elInRun P mem) = []
  · rw [if_pos h1]
    rw [h1.2, List.append_nil] at hall
    refine ⟨_, d, rfl, ho, ⟨hall.length_eq, by simp, .inr rfl, hsort1, by simpa [parts] using hall⟩, fun _ _ => rfl⟩
  · rw [if_neg h1]
    have hl1ne : l1 ≠ [] := by
      rintro h0
      rw [h0, List.length_nil, List.length_take] at hlen
      apply h1
      rw [h0]
      refine ⟨Nat.zero_le _, List.drop_of_length_le (by omega)⟩
    obtain ⟨r1, d1, s1, s2, s3, s4, s5⟩ := storeRun_spec (P := P) (lt := lt) hp hP.B ho (l := l1) hl1ne hsort1
      (fun x hx' => (hf1 x hx').le hs) (hs.irrefl _)
    rw [s1]
    dsimp only
    have hone : SInv lt P d1 (SRuns.new.addRun r1 l1.length) l1 := by
      have := (SInv.new d).addRun (lt := lt) (P := P) (l := l1) rfl (fun b hb => by simp [SRuns.new, bidsR, bidsOf] at hb) s4 s5
      rwa [List.nil_append] at this
    have hone' : Own d1 (SRuns.new.addRun r1 l1.length).bids F := by rw [addRun_bids]; exact s2.congr (by simp [SRuns.new, SRuns.bids])
    by_cases h2 : inp.drop (elInRun P mem) = []
    · rw [if_pos h2]
      rw [h2, List.append_nil] at hall
      exact ⟨_, d1, rfl, hone', hone.perm_of hall, fun b hb => s3 b (.inr hb)⟩
    · rw [if_neg h2]
      have hlonger : elInRun P mem < inp.length := by
        rcases Nat.lt_or_ge (elInRun P mem) inp.length with h | h
        · exact h
        · exact absurd (List.drop_of_length_le h) h2
      have hl1len : l1.length = elInRun P mem := by rw [hlen, List.length_take]; omega
      have hf2 : ∀ x ∈ inp.drop (elInRun P mem), Fits lt P x := fun x hx => hf x (List.mem_of_mem_drop hx)
      have h2pos := List.length_pos_of_ne_nil h2
      generalize hrest : inp.drop (elInRun P mem) = rest at *
      have hl2ne : rest.take (elInRun P mem) ≠ [] := by
        intro h0
        have := congrArg List.length h0
        rw [List.length_take, List.length_nil] at this; omega
      by_cases h3 : rest.drop (elInRun P mem) = []
      · rw [if_pos h3]
        have hrt : rest.take (elInRun P mem) = rest := by
          have := List.take_append_drop (elInRun P mem) rest
          rw [h3, List.append_nil] at this; exact this
        rw [hrt]
        obtain ⟨d2, f1, f2, f3⟩ := delAll_own (bidsOf r1) (X := []) (R := F) (s2.congr (by simp))
        have f1' : delAll (List.map (fun x => x.1) r1) d1 = some d2 := f1
        rw [f1']
        dsimp only
        have hlen2 : (srt (l1 ++ rest)).length = rest.length + elInRun P mem := by
          rw [(hsrt.perm _).length_eq, List.length_append]; omega
        rw [← hlen2]
        have hperm2 : (srt (l1 ++ rest)).Perm inp := (hsrt.perm _).trans hall
        obtain ⟨r, d3, t1, t2, t3, t4, t5⟩ := storeRun_spec (P := P) (lt := lt) hp hP.B f3 (l := srt (l1 ++ rest))
          (by intro h0; rw [h0] at hlen2; simp at hlen2; omega) (hsrt.sorted _)
          (fun x hx' => (hf x (hperm2.mem_iff.mp hx')).le hs) (hs.irrefl _)
        rw [t1]
        refine ⟨_, d3, rfl, ?_, ⟨hperm2.length_eq, ?_, .inl rfl, List.Pairwise.nil, ?_⟩, fun b hb => by rw [t3 b (.inr hb), f2, s3 b (.inr hb)]⟩
        · rw [bids_eq]
          simpa [bidsR] using t2
        · intro e he
          simp only [List.mem_singleton] at he
          rw [he]; exact t4
        · rw [List.nil_append, parts_one, t5]; exact hperm2
      · rw [if_neg h3]
        have h3len : elInRun P mem < rest.length := by
          rcases Nat.lt_or_ge (elInRun P mem) rest.length with h | h
          · exact h
          · exact absurd (List.drop_of_length_le h) h3
        have hl2len : (rest.take (elInRun P mem)).length = elInRun P mem := by rw [List.length_take]; omega
        have hsl2 : (srt (rest.take (elInRun P mem))).length = elInRun P mem := by rw [(hsrt.perm _).length_eq, hl2len]
        obtain ⟨r2, d2, t1, t2, t3, t4, t5⟩ := storeRun_full (P := P) (lt := lt) hp hP.B s2 (l := srt (rest.take (elInRun P mem)))
          (k := mem / P.raw / P.fac / 2) (by intro h0; rw [h0] at hsl2; simp at hsl2; omega) hsl2 (hsrt.sorted _)
        have t1' : storeRun pick P (divCeil (rest.take (elInRun P mem)).length P.B) d1 (srt (rest.take (elInRun P mem))) = some (r2, d2) := by
          rw [hl2len]; exact t1
        rw [t1']
        dsimp only
        have hkeep : ∀ b ∈ bidsR (SRuns.new.addRun r1 l1.length : SRuns α).runs, d2.disk b = d1.disk b := by
          intro b hb
          refine t3 b (.inl ?_)
          rw [← bids_eq, addRun_bids] at hb
          simpa [SRuns.new, SRuns.bids] using hb
        have htwo := hone.addRun rfl hkeep t4 t5
        rw [hsl2.trans hl2len.symm] at htwo
        have ho2 : Own d2 ((SRuns.new.addRun r1 l1.length : SRuns α).addRun r2 (rest.take (elInRun P mem)).length).bids F := by
          rw [addRun_bids, addRun_bids]
          exact t2.congr (by simp only [SRuns.new, SRuns.bids, List.map_nil, List.flatten_nil]; permc)
        obtain ⟨s', d', i1, i2, i3, i4⟩ := bcLoop_spec hp hsrt hs hP hel ((rest.drop (elInRun P mem)).length + 1) d2 _ _
          (rest.drop (elInRun P mem)) (by omega) ho2 htwo rfl (fun x hx => hf2 x (List.mem_of_mem_drop hx))
        rw [i1]
        refine ⟨s', d', rfl, i2, i3.perm_of ?_, fun b hb => by rw [i4 b hb, t3 b (.inr hb), s3 b (.inr hb)]⟩
        refine List.Perm.trans ?_ hall
        rw [List.append_assoc]
        refine List.Perm.append_left l1 ?_
        conv => rhs; rw [← List.take_append_drop (elInRun P mem) rest]
        exact (hsrt.perm _).append_right _

end Stxxl.Sorter
