import Verif.Sorter.FromSorted

/-! # Histories of a sorter -/

namespace Stxxl.Sorter

open Stxxl.Srt Stxxl.Streams

variable {α : Type}

/-- What is assumed of the environment of a sorter (see `Sort/Own.lean` for `PickOk`, `SortFn`, `SWO`): `m_runs_merger`'s memory is `mmem`. -/
structure EOk (E : Env α) (mmem : Nat) : Prop where
  pick : PickOk E.pick
  srt : SortFn E.lt E.srt
  swo : SWO E.lt
  mf : ∀ n a, 2 ≤ a → a < n → 2 ≤ E.mf n a
  P : POk E.P
  cmem : 2 * E.P.raw * E.P.fac ≤ E.cmem
  depth : mmem / E.P.raw < E.depth

/-- What the user did last: pushing elements, `finish`, reading the output. -/
inductive Mode
  | inp
  | fin
  | out
  deriving DecidableEq

/-- The histories of a sorter: its state, the state of the disk, the multiset of elements (as a list), the mode, and the blocks that belong
to other objects. Other objects may allocate, free and write their own blocks at any time (`env`). -/
inductive Hist (E : Env α) (mmem : Nat) : St α → D α → List α → Mode → List Nat → Prop
  | new {st d R} (hd : d.live.Perm R) (hn : R.Nodup) (h : new E mmem = .ok st) : Hist E mmem st d [] .inp R
  | env {st d d' xs m R R'} (h : Hist E mmem st d xs m R) (hd : ∀ b ∈ d.live, b ∉ R → d'.disk b = d.disk b ∧ b ∈ d'.live)
      (hR : ∀ b, b ∈ R' ↔ b ∈ d'.live ∧ ¬ (b ∈ d.live ∧ b ∉ R)) (hn : d'.live.Nodup) (hn' : R'.Nodup) : Hist E mmem st d' xs m R'
  | push {st d xs R v st' d'} (h : Hist E mmem st d xs .inp R) (hv : Fits E.lt E.P v) (hs : push E st d v = .ok (st', d')) :
      Hist E mmem st' d' (xs ++ [v]) .inp R
  | clear {st d xs m R st' d'} (h : Hist E mmem st d xs m R) (hs : clear st d = .ok (st', d')) : Hist E mmem st' d' [] .inp R
  | finish {st d xs m R st' d'} (h : Hist E mmem st d xs m R) (hs : finish E st d = .ok (st', d')) : Hist E mmem st' d' xs .fin R
  | finishClear {st d xs R st' d'} (h : Hist E mmem st d xs .out R) (hs : finishClear E st d = .ok (st', d')) : Hist E mmem st' d' [] .fin R
  | sort {st d xs m R st' d'} (h : Hist E mmem st d xs m R) (hs : sort E st d = .ok (st', d')) : Hist E mmem st' d' xs .out R
  | sortReuse {st d xs R st' d'} (h : Hist E mmem st d xs .inp R) (hs : sortReuse E st d = .ok (st', d')) : Hist E mmem st' d' xs .out R
  | rewind {st d xs R st' d'} (h : Hist E mmem st d xs .out R) (hs : rewind E st d = .ok (st', d')) : Hist E mmem st' d' xs .out R
  | next {st d xs R st'} (h : Hist E mmem st d xs .out R) (hs : next E st = .ok st') : Hist E mmem st' d xs .out R

/-- What the user reads with `empty`, `size`, `*` and `++`. -/
inductive Reads (E : Env α) : St α → List α → Prop
  | done {st} (he : empty st = .ok true) (hz : size st = 0) : Reads E st []
  | step {st st' x zs} (he : empty st = .ok false) (hz : size st = zs.length + 1) (hx : deref E st = .ok x) (hn : next E st = .ok st')
      (h : Reads E st' zs) : Reads E st (x :: zs)

/-- The invariant. -/
inductive Inv (E : Env α) (mmem : Nat) (st : St α) (d : D α) (xs : List α) (R : List Nat) : Mode → Prop
  | inp (ys : List α) (c : CIn E.lt E.P E.cmem d st.rc xs ys R) (o : st.out = false) : Inv E mmem st d xs R .inp
  | fin (c : CFin E.lt E.P d st.rc xs R) : Inv E mmem st d xs R .fin
  | out (c : CFin E.lt E.P d st.rc xs R) (zs : List α) (t : MG α) (o : st.out = true) (y : Yields (merger E.lt E.P.B) st.mg zs t) :
      Inv E mmem st d xs R .out

variable {E : Env α} {mmem : Nat}

theorem Inv.own {st : St α} {d : D α} {xs : List α} {m : Mode} {R : List Nat} (h : Inv E mmem st d xs R m) : Own d st.rc.res.bids R := by
  cases h with
  | inp ys c o => exact c.own
  | fin c => exact c.own
  | out c zs t o y => exact c.own

/-- What `deallocate`/`result` of the creator do in every mode. -/
theorem Inv.result (hE : EOk E mmem) {st : St α} {d : D α} {xs : List α} {m : Mode} {R : List Nat} (h : Inv E mmem st d xs R m)
    (hf : ∀ x ∈ xs, Fits E.lt E.P x) :
    ∃ rc d', st.rc.result E.pick E.srt E.P d = some (rc, d') ∧ CFin E.lt E.P d' rc xs R ∧ (∀ b ∈ R, d'.disk b = d.disk b) := by
  cases h with
  | inp ys c o =>
    obtain ⟨c', d', h1, h2, h3, _⟩ := result_spec hE.pick hE.srt hE.swo hE.P c hf
    exact ⟨c', d', h1, h2, h3⟩
  | fin c => exact ⟨_, d, result_fin c.computed, c, fun _ _ => rfl⟩
  | out c zs t o y => exact ⟨_, d, result_fin c.computed, c, fun _ _ => rfl⟩

theorem Inv.dealloc (hE : EOk E mmem) {st : St α} {d : D α} {xs : List α} {m : Mode} {R : List Nat} (h : Inv E mmem st d xs R m)
    (hf : ∀ x ∈ xs, Fits E.lt E.P x) :
    ∃ rc d', st.rc.deallocate E.pick E.srt E.P d = some (rc, d') ∧ CFin E.lt E.P d' rc xs R ∧ (∀ b ∈ R, d'.disk b = d.disk b) := by
  obtain ⟨rc, d', h1, h2, h3⟩ := h.result hE hf
  refine ⟨{ rc with bufs := false }, d', by unfold RC.deallocate; rw [h1], ⟨h2.own, h2.runs, h2.computed⟩, h3⟩

/-- The reasons for `bad_parameter`. -/
def Short (E : Env α) (mmem : Nat) : Prop := mmem / E.P.raw < 4 * E.P.nd + 3 ∨ BigFactor E.mf

theorem startOutput_spec (hE : EOk E mmem) {st : St α} (hm : st.mmem = mmem) {d : D α} {xs : List α} {R : List Nat}
    (h : ∃ rc d', st.rc.result E.pick E.srt E.P d = some (rc, d') ∧ CFin E.lt E.P d' rc xs R ∧ (∀ b ∈ R, d'.disk b = d.disk b))
    (hf : ∀ x ∈ xs, Fits E.lt E.P x) :
    (∃ st' d' zs t, startOutput E st d = .ok (st', d') ∧ CFin E.lt E.P d' st'.rc xs R ∧ Yields (merger E.lt E.P.B) st'.mg zs t ∧ Sorted E.lt zs ∧
      zs.Perm xs ∧ st'.out = true ∧ st'.mmem = mmem ∧ (∀ b ∈ R, d'.disk b = d.disk b)) ∨ (startOutput E st d = .error .noMem ∧ Short E mmem) := by
  obtain ⟨rc, d1, h1, h2, h3⟩ := h
  unfold startOutput
  rw [h1, hm]
  dsimp only
  rcases initMerger_spec hE.pick hE.swo hE.P hE.mf E.depth mmem hE.depth d1 rc.res xs [] R h2.runs (by rw [List.append_nil]; exact h2.own) hf
    with ⟨⟨m, s, d2⟩, i1, ⟨zs, t, i2, i3, i4, i5⟩, i6, i7, i8⟩ | ⟨i1, i2⟩
  · rw [i1]
    refine .inl ⟨_, d2, zs, t, rfl, ⟨?_, i6, h2.computed⟩, i2, i3, i4, rfl, rfl, fun b hb => by rw [← h3 b hb]; exact i8 b (.inr hb)⟩
    rw [List.append_nil] at i7; exact i7
  · rw [i1]
    refine .inr ⟨rfl, ?_⟩
    rcases i2 with i2 | i2
    · exact .inl i2.2
    · exact .inr i2

theorem sort_spec (hE : EOk E mmem) {st : St α} (hm : st.mmem = mmem) {d : D α} {xs : List α} {R : List Nat}
    (h : ∃ rc d', st.rc.deallocate E.pick E.srt E.P d = some (rc, d') ∧ CFin E.lt E.P d' rc xs R ∧ (∀ b ∈ R, d'.disk b = d.disk b))
    (hf : ∀ x ∈ xs, Fits E.lt E.P x) :
    (∃ st' d' zs t, sort E st d = .ok (st', d') ∧ CFin E.lt E.P d' st'.rc xs R ∧ Yields (merger E.lt E.P.B) st'.mg zs t ∧ Sorted E.lt zs ∧
      zs.Perm xs ∧ st'.out = true ∧ st'.mmem = mmem ∧ (∀ b ∈ R, d'.disk b = d.disk b)) ∨ (sort E st d = .error .noMem ∧ Short E mmem) := by
  obtain ⟨rc, d', c1, c2, c3⟩ := h
  unfold sort
  rw [c1]
  dsimp only
  rcases startOutput_spec hE (st := { st with rc := rc, mg := if st.out then st.mg.dealloc else st.mg, att := if st.out then false else st.att })
    hm (d := d') ⟨rc, d', result_fin c2.computed, c2, fun _ _ => rfl⟩ hf with ⟨st', d'', zs, t, s1, s2, s3, s4, s5, s6, s7, s8⟩ | ⟨s1, s2⟩
  · exact .inl ⟨st', d'', zs, t, s1, s2, s3, s4, s5, s6, s7, fun b hb => by rw [s8 b hb, c3 b hb]⟩
  · exact .inr ⟨s1, s2⟩

theorem reads_of_yields {st : St α} (ho : st.out = true) {zs : List α} {t : MG α} (h : Yields (merger E.lt E.P.B) st.mg zs t) : Reads E st zs := by
  obtain ⟨hg, ht⟩ := h
  generalize hs : st.mg = g at hg
  induction hg generalizing st with
  | nil u =>
    subst hs
    have h0 : st.mg.rem = 0 := by simpa [merger] using ht
    exact .done (by simp [empty, ho, h0]) (by simp [size, ho, h0])
  | cons he hc hn hr ih =>
    rename_i s s1 u x xs
    subst hs
    have hne : st.mg.rem ≠ 0 := by simpa [merger] using he
    have hrem := gives_rem (Gives.cons he hc hn hr)
    have ht0 : u.rem = 0 := by simpa [merger] using ht
    refine .step (st' := { st with mg := s1 }) ?_ ?_ ?_ ?_ (ih ho ht rfl)
    · simp [empty, ho, hne]
    · unfold size; rw [if_pos ho, hrem, ht0]; simp
    · unfold deref; rw [if_pos ho, hc]; rfl
    · unfold next; rw [if_pos ho, hn]

theorem clear_spec {st : St α} {d : D α} {R : List Nat} (h : Own d st.rc.res.bids R) :
    ∃ st' d', clear st d = .ok (st', d') ∧ Inv E mmem st' d' [] R .inp ∧ st'.mmem = st.mmem ∧ d'.disk = d.disk ∧ d'.live.Perm R := by
  obtain ⟨c', d', h1, h2, h3⟩ := allocate_spec (lt := E.lt) (P := E.P) (mem := E.cmem) h
  unfold clear
  rw [h1]
  refine ⟨_, d', rfl, .inp [] h2 rfl, rfl, h3, ?_⟩
  have := h2.own.perm
  rw [bids_eq, h2.runs.runs_nil.1] at this
  simpa [bidsR, bidsOf] using this

theorem finishClear_spec (hE : EOk E mmem) {st : St α} {d : D α} {xs : List α} {R : List Nat} (h : Inv E mmem st d xs R .out) :
    ∃ st' d', finishClear E st d = .ok (st', d') ∧ Inv E mmem st' d' [] R .fin ∧ st'.mmem = st.mmem ∧ d'.disk = d.disk ∧ d'.live.Perm R := by
  cases h with
  | out c zs t o y =>
    unfold finishClear
    rw [if_pos o, result_fin c.computed]
    dsimp only
    obtain ⟨d', h1, h2, h3⟩ := delAll_own st.rc.res.bids (X := []) (R := R) (by rw [List.append_nil]; exact c.own)
    rw [h1]
    dsimp only
    have hr : RC.deallocate E.pick E.srt E.P d' { st.rc with res := SRuns.new } = some ({ st.rc with res := SRuns.new, bufs := false }, d') := by
      unfold RC.deallocate
      rw [result_fin (c := { st.rc with res := SRuns.new }) c.computed]
    rw [hr]
    refine ⟨_, d', rfl, .fin ⟨?_, SInv.new d', c.computed⟩, rfl, h2, ?_⟩
    · exact h3
    · have := h3.perm; simpa using this

end Stxxl.Sorter
