import Verif.NodeCache.Refine

/-!
# C42: the B-tree's node cache is transparent

Specification: `Spec.step` / `Spec.run` (`NodeCache/Spec.lean`).  `run` executes the same calls on the model; undefined
behaviour makes it return `none`.
-/

namespace NodeCache
open Spec (Op Out)
variable {V : Type} {R : Nat → Prop} {d0 : Nat → Nat × V}

theorem start_sim (n : Nat) (node : Nat → Nat × V) (val : Nat → V) :
    Sim R d0 (ctor n node d0) (Spec.start val) ∧ Tight (Spec.start val) := by
  refine ⟨{ hp := .refl _, lsz := rfl, inj := ?_, mlt := ?_, mfree := ?_, cover := ?_, fnd := ?_, flt := ?_, ffix := ?_, fpend := ?_, mlive := ?_, live := rfl, lnd := ?_, fx := ?_, fxnd := ?_, pnd := ?_, cont := ?_, clean := ?_, out := ?_, recent := ?_, ptr := ?_, foreign := ?_ }, ?_⟩
  all_goals try (intro a b i h; cases h; done)
  all_goals try (intro a b h; cases h; done)
  · intro i hi; left; simpa [ctor] using hi
  · show (List.range n).reverse.Nodup
    rw [List.nodup_reverse]; exact List.nodup_range
  · intro i hi; simpa [ctor] using hi
  · intro i _; rfl
  · intro i _; rfl
  · exact List.nodup_nil
  · intro b; simp [Spec.start, ctor]
  · exact List.nodup_nil
  · intro b hb; cases hb
  · simp [Spec.start]
  · intro b _; exact ⟨rfl, by simp [ctor]⟩

theorem run_sim {init : V} {pick : List Nat → Nat} (hpick : ∀ L, pick L ∉ L ∧ ¬ R (pick L)) :
    ∀ (ops : List (Op V)) {s : St V} {σ σ' : Spec.M V} {os : List (Out V)}, Sim R d0 s σ → Tight σ →
      Spec.run s.n init pick σ ops = some (σ', os) →
      ∃ s', run init pick s ops = some (s', os) ∧ Sim R d0 s' σ' ∧ Tight σ'
  | [], s, σ, σ', os, h, ht, hr => by
    cases hr
    exact ⟨s, rfl, h, ht⟩
  | op :: ops, s, σ, σ', os, h, ht, hr => by
    simp only [Spec.run] at hr
    cases hst : Spec.step s.n init pick σ op with
    | none => rw [hst] at hr; cases hr
    | some r =>
      obtain ⟨σ1, o⟩ := r
      rw [hst] at hr
      dsimp only at hr
      cases hr1 : Spec.run s.n init pick σ1 ops with
      | none => rw [hr1] at hr; cases hr
      | some r1 =>
        obtain ⟨σ2, os1⟩ := r1
        rw [hr1] at hr
        cases hr
        obtain ⟨s1, e1, g1, g2, g3⟩ := step_sim hpick h ht hst
        obtain ⟨s2, e2, g4, g5⟩ := run_sim hpick ops g1 g2 (by rw [g3]; exact hr1)
        refine ⟨s2, ?_, g4, g5⟩
        simp only [run]
        rw [e1]
        dsimp only
        rw [e2]

theorem saveSlot_sim {s : St V} {σ : Spec.M V} (h : Sim R d0 s σ) {i : Nat} (hi : i < s.n) :
    Sim R d0 (saveSlot s i) σ ∧ (saveSlot s i).n = s.n ∧ (saveSlot s i).map = s.map ∧ (∀ b, s.disk b = (b, σ.val b) → (saveSlot s i).disk b = (b, σ.val b)) ∧
      (∀ b, s.map b = some i → (saveSlot s i).disk b = (b, σ.val b)) := by
  unfold saveSlot
  by_cases hf : i ∈ s.free
  · rw [if_pos hf]
    exact ⟨h, rfl, rfl, fun b hb => hb, fun b hb => absurd hf (h.mfree b i hb)⟩
  · rw [if_neg hf]
    obtain ⟨b, hb⟩ := (h.cover i hi).resolve_left hf
    obtain ⟨w1, w2, w3, w4, w5, w6, w7, w8, w9, w10, w11, w12⟩ := h.wait hb
    have hb1 : (wait s i).map b = some i := by rw [w3]; exact hb
    have hnode := w1.cont b i hb1 w2
    dsimp only
    generalize wait s i = s1 at *
    by_cases hd : s1.dirty i = true
    · rw [if_pos hd, hnode]
      have hdisk : ∀ c, s1.disk c = (c, σ.val c) → upd s1.disk b (b, σ.val b) c = (c, σ.val c) := by
        intro c hc
        by_cases hcb : c = b
        · subst hcb; simp
        · rw [upd_ne _ _ hcb]; exact hc
      refine ⟨{ w1 with clean := ?_, out := ?_, foreign := ?_ }, w5, w3, ?_, ?_⟩
      · intro c j h1 h2; exact hdisk c (w1.clean c j h1 h2)
      · intro c hc h1; exact hdisk c (w1.out c hc h1)
      · intro c hc
        obtain ⟨g1, g2⟩ := w1.foreign c hc
        refine ⟨?_, g2⟩
        dsimp only
        rw [upd_ne _ _ (by intro he; subst he; exact g2 (w1.mlive c i hb1))]; exact g1
      · intro c hc; exact hdisk c (by rw [w10]; exact hc)
      · intro c hc
        have := h.inj c b i hc hb
        subst this; simp
    · rw [if_neg hd]
      refine ⟨w1, w5, w3, fun c hc => by rw [w10]; exact hc, ?_⟩
      intro c hc
      exact w1.clean c i (by rw [w3]; exact hc) (by simpa using hd)

theorem save_all {σ : Spec.M V} : ∀ (l : List Nat) {s : St V}, Sim R d0 s σ → (∀ i ∈ l, i < s.n) →
    Sim R d0 (l.foldl saveSlot s) σ ∧ (l.foldl saveSlot s).map = s.map ∧ (∀ b, s.disk b = (b, σ.val b) → (l.foldl saveSlot s).disk b = (b, σ.val b)) ∧
      (∀ b i, i ∈ l → s.map b = some i → (l.foldl saveSlot s).disk b = (b, σ.val b))
  | [], s, h, _ => ⟨h, rfl, fun _ hb => hb, fun _ _ hi => by cases hi⟩
  | j :: l, s, h, hl => by
    obtain ⟨g1, g2, g3, g4, g5⟩ := saveSlot_sim h (hl j (by simp))
    obtain ⟨f1, f2, f3, f4⟩ := save_all l g1 (fun i hi => by rw [g2]; exact hl i (by simp [hi]))
    refine ⟨f1, f2.trans g3, fun b hb => f3 b (g4 b hb), ?_⟩
    intro b i hi hb
    rcases List.mem_cons.mp hi with rfl | hi
    · exact f3 b (g5 b hb)
    · exact f4 b i hi (by rw [g3]; exact hb)

/-- **C42.** Every history of calls whose preconditions hold gives the results of the specification, with no undefined behaviour:
pointers to nodes that are fixed, or have been used recently enough, see exactly the last value written to the
node, however often nodes were kicked out and loaded again; NULL is returned exactly if all nodes are fixed.
The destructor leaves the current contents of every allocated block on disk; blocks of others (`R`) are not touched. -/
theorem C42_transparent (n : Nat) {init : V} {pick : List Nat → Nat} (hpick : ∀ L, pick L ∉ L ∧ ¬ R (pick L)) (node : Nat → Nat × V) (val : Nat → V)
    {ops : List (Op V)} {σ' : Spec.M V} {os : List (Out V)} (hr : Spec.run n init pick (Spec.start val) ops = some (σ', os)) :
    ∃ s', run init pick (ctor n node d0) ops = some (s', os) ∧
      (∀ b ∈ σ'.live, (dtor s').disk b = (b, σ'.val b)) ∧ (∀ b, R b → (dtor s').disk b = d0 b) := by
  obtain ⟨h, ht⟩ := start_sim (R := R) (d0 := d0) n node val
  obtain ⟨s', e, g, _⟩ := run_sim hpick ops h ht hr
  refine ⟨s', e, ?_, ?_⟩
  · intro b hb
    obtain ⟨f1, f2, f3, f4⟩ := save_all (List.range s'.n) g (fun i hi => List.mem_range.mp hi)
    cases hm : s'.map b with
    | none => exact f3 b (g.out b (by rw [g.live]; exact hb) hm)
    | some i => exact f4 b i (List.mem_range.mpr (g.mlt b i hm)) hm
  · intro b hb
    obtain ⟨f1, _⟩ := save_all (List.range s'.n) g (fun i hi => List.mem_range.mp hi)
    exact (f1.foreign b hb).1

/-- **C42, use without fixing** (as in leaf.h:93-104: a new leaf is used after the predecessor has been fetched): a pointer just
obtained survives the next access, whatever it is, as long as two more nodes than the fixed ones fit into the cache. -/
theorem C42_survives_one_access (n : Nat) {σ σ1 : Spec.M V} {init : V} {pick : List Nat → Nat} {b c k k' : Nat} {fix : Bool}
    (hk : k ≠ k') (hcb : c ≠ b) (hfix : b ∉ σ.fx) (hr : σ.recent.head? = some b) (hptr : σ.ptr k = some (b, true)) (hroom : σ.fx.length + 2 ≤ n)
    (hstep : Spec.step n init pick σ (.get c fix k') = some (σ1, .unit)) : σ1.ptr k = some (b, true) := by
  have hb : b ∈ σ.recent := by
    cases hx : σ.recent with
    | nil => rw [hx] at hr; cases hr
    | cons a l => rw [hx] at hr; cases hr; simp
  have htake : b ∈ σ.recent.take (n - 1 - σ.fx.length) := by
    cases hx : σ.recent with
    | nil => rw [hx] at hr; cases hr
    | cons a l =>
      rw [hx] at hr; cases hr
      obtain ⟨m, hm⟩ : ∃ m, n - 1 - σ.fx.length = m + 1 := ⟨n - 2 - σ.fx.length, by omega⟩
      rw [hm]; simp
  simp only [Spec.step] at hstep
  split_ifs at hstep
  have hstep := Option.some.inj hstep
  have key : ∀ σ0 : Spec.M V, σ0.ptr = σ.ptr → b ∈ σ0.recent → (Spec.drop (Spec.setPtr (Spec.touch σ0 c fix) k' (some (c, true)))).ptr k = some (b, true) := by
    intro σ0 h1 h2
    have hp : (Spec.setPtr (Spec.touch σ0 c fix) k' (some (c, true))).ptr k = some (b, true) := by
      show (if k = k' then _ else σ0.ptr k) = _
      rw [if_neg hk, h1, hptr]
    have hh : Spec.hot (Spec.setPtr (Spec.touch σ0 c fix) k' (some (c, true))) b = true := by
      rw [hot_iff]; right
      show b ∈ (if fix = true then σ0.recent.erase c else c :: σ0.recent.erase c)
      cases fix <;> simp [List.mem_erase_of_ne (Ne.symm hcb), h2]
    show (match (Spec.setPtr (Spec.touch σ0 c fix) k' (some (c, true))).ptr k with
      | some (b, w) => if Spec.hot (Spec.setPtr (Spec.touch σ0 c fix) k' (some (c, true))) b then some (b, w) else none
      | none => none) = _
    rw [hp]
    dsimp only
    rw [if_pos hh]
  unfold Spec.access at hstep
  split_ifs at hstep
  · have := congrArg Prod.fst hstep
    dsimp only at this
    rw [← this]
    exact key σ rfl hb
  · have := congrArg Prod.snd hstep
    cases this
  · have := congrArg Prod.fst hstep
    dsimp only at this
    rw [← this]
    exact key (Spec.shrink n σ) rfl htake

/-! ### Examples -/

def exPick (L : List Nat) : Nat := L.foldl (fun a b => if a ≤ b then b + 1 else a) 10

/-- Three slots, five blocks: each is written through a pointer; re-reading them reloads them from disk. -/
def exOps : List (Op Nat) :=
  [.new 0, .write 0 100, .new 1, .write 1 101, .new 2, .write 2 102, .new 3, .write 3 103, .get 10 true 0, .read 0, .cget 11 true 1,
   .prefetch 12, .cget 13 true 3, .cget 12 false 2, .read 1, .write 0 7, .unfix 10, .cget 12 false 2, .read 2, .del 11, .unfix 13, .cget 10 false 0, .read 0]

theorem C42_nonvacuous :
    ((Spec.run 3 0 exPick (Spec.start (fun _ => 0)) exOps).map Prod.snd) =
      some [.bid 10, .unit, .bid 11, .unit, .bid 12, .unit, .bid 13, .unit, .unit, .val 100, .unit, .unit, .unit, .null, .val 101, .unit, .unit, .unit, .val 102, .unit, .unit, .unit, .val 7] := by
  decide +kernel

/-- The same history on the model. -/
theorem C42_example : (run 0 exPick (ctor 3 (fun _ => (0, 0)) (fun _ => (0, 0))) exOps).map Prod.snd =
      some [.bid 10, .unit, .bid 11, .unit, .bid 12, .unit, .bid 13, .unit, .unit, .val 100, .unit, .unit, .unit, .null, .val 101, .unit, .unit, .unit, .val 102, .unit, .unit, .unit, .val 7] := by
  decide +kernel

/-- A write through a pointer that is no longer certain to be valid can be lost: after three more blocks the pointer points to
another node. -/
theorem C42_stale_pointer : (run 0 exPick (ctor 3 (fun _ => (0, 0)) (fun _ => (0, 0)))
      [.new 0, .write 0 100, .new 1, .new 2, .new 3, .write 0 55, .cget 10 false 4, .read 4]).map (fun r => r.2.getLast?) = some (some (.val 100)) := by
  decide +kernel

/-- Cache A: node 10 is written (1), kicked out, fetched and written again (100).  Cache B: all nodes in memory are unmodified. -/
def swapHist (swap : St Nat → St Nat → St Nat × St Nat) : Option (List (Out Nat)) :=
  match run 0 exPick (ctor 3 (fun _ => (0, 0)) (fun _ => (0, 0))) [.new 0, .write 0 1, .new 1, .new 2, .new 3, .cget 10 false 4, .cget 11 false 4, .cget 12 false 4, .cget 13 false 4, .get 10 false 0, .write 0 100],
        run 0 exPick (ctor 3 (fun _ => (0, 0)) (fun _ => (0, 0))) [.new 0, .new 1, .new 2, .new 3, .cget 10 false 4, .cget 11 false 4, .cget 12 false 4, .cget 13 false 4] with
  | some (a, _), some (b, _) => (run 0 exPick (swap a b).2 [.cget 10 false 0, .read 0, .cget 11 false 1, .cget 12 false 2, .cget 13 false 3, .cget 10 false 0, .read 0]).map Prod.snd
  | _, _ => none

/-- **Found: `swap` loses updates.**  `m_dirty` is not exchanged.  After `swap(A, B)` the second cache has A's nodes but B's dirty
flags: reading other nodes kicks node 10 out without writing it, and the value 100 is gone. -/
theorem C42_swap_loses_update : swapHist swap = some [.unit, .val 100, .unit, .unit, .unit, .unit, .val 1] := by
  decide +kernel

/-- Exchanging `m_dirty` too cures this. -/
theorem C42_swap_repaired : swapHist (fun a b => (b, a)) = some [.unit, .val 100, .unit, .unit, .unit, .unit, .val 100] := by
  decide +kernel

end NodeCache
