import Verif.WinnerTree.Steps

/-!
# C39: the winner tree reports a minimal active player

`Op` are the operations of the class and the changes of players' values from outside. `spec` says, without any tree, which players are
active and for which of them a replay is still due. `Run` are all histories of legal calls.
-/

namespace Stxxl.WinnerTree

variable {V : Type}

inductive Op (V : Type)
  /-- the user changes the value of a player -/
  | setVal (i : Nat) (x : V)
  | activate (i : Nat)
  | activateWithoutReplay (i : Nat)
  | deactivateWithoutReplay (i : Nat)
  | deactivate (i : Nat)
  | deactivateStep (i : Nat)
  | replayOnDeactivations (i : Nat)
  | notifyChange (i : Nat)
  | replayOnPop
  | clear
  | resizeAndClear (n : Nat)
  | resizeAndRebuild (n : Nat)
  | rebuild

/-- The program. -/
def exec (lt : V → V → Bool) (s : S V) : Op V → Option (S V)
  | .setVal i x => some { s with val := upd s.val i x }
  | .activate i => activate lt s i
  | .activateWithoutReplay i => activateWithoutReplay s i
  | .deactivateWithoutReplay i => deactivateWithoutReplay s i
  | .deactivate i => deactivate lt s i
  | .deactivateStep i => deactivateStep s i
  | .replayOnDeactivations i => deactivate lt s i
  | .notifyChange i => notifyChange lt s i
  | .replayOnPop => replayOnPop lt s
  | .clear => some (clear s)
  | .resizeAndClear n => some (resizeAndClear s n)
  | .resizeAndRebuild n => resizeAndRebuild lt s n
  | .rebuild => some (rebuild lt s)

/-- The specification: which players are active, and for which a replay is due. `t` is the player `top()` returned before the call. -/
def spec (a : A) (t : Option Nat) : Op V → A
  | .setVal i _ => { a with dirty := fun j => a.dirty j ∨ (j = i ∧ a.act i) }
  | .activate i | .notifyChange i => { act := fun j => j = i ∨ a.act j, dirty := fun j => j ≠ i ∧ a.dirty j }
  | .activateWithoutReplay i => { act := fun j => j = i ∨ a.act j, dirty := fun j => j = i ∨ a.dirty j }
  | .deactivateWithoutReplay i | .deactivateStep i => { act := fun j => j ≠ i ∧ a.act j, dirty := fun j => j = i ∨ a.dirty j }
  | .deactivate i | .replayOnDeactivations i => { act := fun j => j ≠ i ∧ a.act j, dirty := fun j => j ≠ i ∧ a.dirty j }
  | .replayOnPop => { act := fun j => some j = t ∨ a.act j, dirty := fun j => some j ≠ t ∧ a.dirty j }
  | .clear | .resizeAndClear _ => { act := fun _ => False, dirty := fun _ => False }
  | .resizeAndRebuild n => { act := fun j => j < n, dirty := fun _ => False }
  | .rebuild => { a with dirty := fun _ => False }

/-- Legal calls: players are slots of the tree (`num_slots()`), `replay_on_pop` only if the tree is not empty, at least one player. -/
def Legal (s : S V) : Op V → Prop
  | .activate i | .activateWithoutReplay i | .deactivateWithoutReplay i | .deactivate i | .deactivateStep i | .replayOnDeactivations i
  | .notifyChange i => i < s.slots
  | .replayOnPop => empty s = false
  | .resizeAndRebuild n => 0 < n
  | _ => True

/-- All histories, with the state of the specification. -/
inductive Run (lt : V → V → Bool) : S V → A → Prop
  | ctor {n val s} (h : ctor n val = some s) : Run lt s { act := fun _ => False, dirty := fun _ => False }
  | step {s s' a op} (h : Run lt s a) (hl : Legal s op) (he : exec lt s op = some s') : Run lt s' (spec a (top s) op)

theorem ilog2Floor_lt (i : Nat) : i < 2 ^ (ilog2Floor i + 1) := by
  induction i using Nat.strongRecOn with
  | _ i ih =>
    rw [ilog2Floor]
    by_cases h : i / 2 = 0
    · simp only [h, if_true]; omega
    · simp only [h, if_false]
      have := ih (i / 2) (by omega)
      rw [Nat.pow_succ]; omega

theorem le_ilog2Ceil (n : Nat) : n ≤ 2 ^ ilog2Ceil n := by
  unfold ilog2Ceil
  split
  · simpa using by omega
  · have := ilog2Floor_lt (n - 1); omega

theorem A.ext' {a b : A} (h1 : ∀ i, a.act i ↔ b.act i) (h2 : ∀ i, a.dirty i ↔ b.dirty i) : a = b := by
  cases a; cases b
  simp only [A.mk.injEq]
  exact ⟨funext fun i => propext (h1 i), funext fun i => propext (h2 i)⟩

theorem activateRange_inv {lt : V → V → Bool} : ∀ (n m : Nat) (s : S V) (a : A), Inv lt s a → m + n ≤ s.slots →
    ∃ s' a', activateRange s m n = some s' ∧ Inv lt s' a' ∧ (∀ j, a'.act j ↔ a.act j ∨ (m ≤ j ∧ j < m + n)) ∧ s'.slots = s.slots ∧
      s'.val = s.val := by
  intro n
  induction n with
  | zero =>
    intro m s a h hm
    exact ⟨s, a, rfl, h, fun j => ⟨Or.inl, fun hj => hj.elim id (fun hj => by omega)⟩, rfl, rfl⟩
  | succ n ih =>
    intro m s a h hm
    have hi := h.setLeaf (i := m) (by omega) (x := some m) { act := fun j => j = m ∨ a.act j, dirty := fun j => j = m ∨ a.dirty j }
      (Or.inl ⟨rfl, Or.inl rfl⟩) (fun j hj => ⟨⟨fun hc => hc.resolve_left hj, Or.inr⟩, ⟨fun hc => hc.resolve_left hj, Or.inr⟩⟩) (Or.inl rfl)
    obtain ⟨s', a', g1, g2, g3, g4, g5⟩ := ih (m + 1) _ _ hi (by show m + 1 + n ≤ s.slots; omega)
    refine ⟨s', a', ?_, g2, ?_, g4, g5⟩
    · unfold activateRange activateWithoutReplay
      rw [if_neg (by omega), half h]
      exact g1
    · intro j
      rw [g3]
      constructor
      · rintro ((rfl | hc) | hc)
        · right; omega
        · exact Or.inl hc
        · right; omega
      · rintro (hc | hc)
        · exact Or.inl (Or.inr hc)
        · by_cases hj : j = m
          · exact Or.inl (Or.inl hj)
          · right; omega

/-- Every legal operation succeeds and keeps the invariant. -/
theorem exec_inv {lt : V → V → Bool} (hlt : SWO lt) {s : S V} {a : A} (h : Inv lt s a) (op : Op V) (hl : Legal s op) :
    ∃ s', exec lt s op = some s' ∧ Inv lt s' (spec a (top s) op) ∧
      (Backed s → (∀ i, op ≠ .deactivateWithoutReplay i) → Backed s') := by
  have hp := h.pos
  have hsz := h.sz
  have rep : ∀ i, i < s.slots → ∀ d, ∃ s', replay lt s i d = some s' ∧ Inv lt s' (a.replay i d) ∧ (Backed s → Backed s') := by
    intro i hi d
    obtain ⟨s', h1, h2, _, _, h3⟩ := h.replay hi d
    exact ⟨s', h1, h2, h3⟩
  have repF : ∀ i, a.replay i false = { act := fun j => j = i ∨ a.act j, dirty := fun j => j ≠ i ∧ a.dirty j } := by
    intro i
    apply A.ext'
    · intro j; by_cases hj : j = i <;> simp [A.replay, hj]
    · intro j; rfl
  have repT : ∀ i, a.replay i true = { act := fun j => j ≠ i ∧ a.act j, dirty := fun j => j ≠ i ∧ a.dirty j } := by
    intro i
    apply A.ext'
    · intro j; by_cases hj : j = i <;> simp [A.replay, hj]
    · intro j; rfl
  cases op with
  | setVal i x => exact ⟨_, rfl, h.setVal hlt i x, fun hb _ => hb⟩
  | activate i =>
    obtain ⟨s', h1, h2, h3⟩ := rep i hl false
    exact ⟨s', by simpa [exec, activate, Nat.not_le.2 hl] using h1, by rw [repF] at h2; exact h2, fun hb _ => h3 hb⟩
  | notifyChange i =>
    obtain ⟨s', h1, h2, h3⟩ := rep i hl false
    exact ⟨s', h1, by rw [repF] at h2; exact h2, fun hb _ => h3 hb⟩
  | deactivate i =>
    obtain ⟨s', h1, h2, h3⟩ := rep i hl true
    exact ⟨s', by simpa [exec, deactivate, Nat.not_le.2 hl] using h1, by rw [repT] at h2; exact h2, fun hb _ => h3 hb⟩
  | replayOnDeactivations i =>
    obtain ⟨s', h1, h2, h3⟩ := rep i hl true
    exact ⟨s', by simpa [exec, deactivate, Nat.not_le.2 hl] using h1, by rw [repT] at h2; exact h2, fun hb _ => h3 hb⟩
  | replayOnPop =>
    have hne : s.tree 0 ≠ none := by simpa [Legal, empty] using hl
    obtain ⟨i, hi⟩ := Option.ne_none_iff_exists'.1 hne
    have his := (h.anc 0 i (by omega) hi).1
    obtain ⟨s', h1, h2, h3⟩ := rep i his false
    refine ⟨s', ?_, ?_, fun hb _ => h3 hb⟩
    · simp only [exec, replayOnPop, hi]; exact h1
    · rw [repF] at h2
      have : spec a (top s) (.replayOnPop : Op V) = { act := fun j => j = i ∨ a.act j, dirty := fun j => j ≠ i ∧ a.dirty j } := by
        apply A.ext' <;> intro j <;> simp [spec, top, hi]
      rw [this]; exact h2
  | activateWithoutReplay i =>
    have hl : i < s.slots := hl
    refine ⟨{ s with tree := upd s.tree (s.slots - 1 + i) (some i) }, ?_, ?_, ?_⟩
    · simp only [exec, activateWithoutReplay, half h]; rw [if_neg (by omega)]
    · exact h.setLeaf hl (x := some i) { act := fun j => j = i ∨ a.act j, dirty := fun j => j = i ∨ a.dirty j }
        (Or.inl ⟨rfl, Or.inl rfl⟩) (fun j hj => ⟨⟨fun hc => hc.resolve_left hj, Or.inr⟩, ⟨fun hc => hc.resolve_left hj, Or.inr⟩⟩) (Or.inl rfl)
    · intro hb _ v j hv
      have hv : v < s.slots - 1 := hv
      show upd _ _ _ v = _ → upd _ _ _ _ = _ ∨ upd _ _ _ _ = _
      rw [upd_ne _ _ (by omega)]
      intro ht
      have hkeep : ∀ w, s.tree w = some j → upd s.tree (s.slots - 1 + i) (some i) w = some j := by
        intro w hw
        by_cases hwi : w = s.slots - 1 + i
        · subst hwi
          rw [upd_same]
          by_cases hact : a.act i
          · rw [(h.leaf i hl).1 hact] at hw; exact hw
          · rw [(h.leaf i hl).2 hact] at hw; cases hw
        · rw [upd_ne _ _ hwi]; exact hw
      exact (hb v j hv ht).imp (hkeep _) (hkeep _)
  | deactivateWithoutReplay i =>
    have hl : i < s.slots := hl
    refine ⟨{ s with tree := upd s.tree (s.slots - 1 + i) none }, ?_, ?_, ?_⟩
    · simp only [exec, deactivateWithoutReplay, half h]; rw [if_neg (by omega)]
    · exact h.setLeaf hl (x := none) { act := fun j => j ≠ i ∧ a.act j, dirty := fun j => j = i ∨ a.dirty j }
        (Or.inr ⟨rfl, fun hc => hc.1 rfl⟩) (fun j hj => ⟨⟨fun hc => hc.2, fun hc => ⟨hj, hc⟩⟩, ⟨fun hc => hc.resolve_left hj, Or.inr⟩⟩)
        (Or.inl rfl)
    · intro _ hno; exact absurd rfl (hno i)
  | deactivateStep i =>
    obtain ⟨s', h1, h2, _, _, _, h3⟩ := h.step hl
    exact ⟨s', h1, h2, fun hb _ => (h3 hb).1⟩
  | clear =>
    have hb := Inv.blank (lt := lt) hp s.val
    have he : clear s = { tree := fun _ => none, size := 2 * s.slots - 1, slots := s.slots, val := s.val } := by
      unfold clear; rw [← hsz]
    exact ⟨clear s, rfl, by rw [he]; exact hb.1, fun _ _ => by rw [he]; exact hb.2⟩
  | resizeAndClear n =>
    have hb := Inv.blank (lt := lt) (n := 2 ^ ilog2Ceil n) (Nat.pow_pos (by omega)) s.val
    exact ⟨_, rfl, hb.1, fun _ _ => hb.2⟩
  | resizeAndRebuild n =>
    have hl : 0 < n := hl
    have hb := Inv.blank (lt := lt) (n := 2 ^ ilog2Ceil n) (Nat.pow_pos (by omega)) s.val
    obtain ⟨s', a', g1, g2, g3, g4, g5⟩ := activateRange_inv n 0 _ _ hb.1
      (by show 0 + n ≤ 2 ^ ilog2Ceil n; have := le_ilog2Ceil n; omega)
    have e : exec lt s (.resizeAndRebuild n) = some (rebuild lt s') := by
      have g1' : activateRange (resizeAndClear s n) 0 n = some s' := g1
      simp only [exec, resizeAndRebuild, g1']
      rw [if_neg (by omega)]
    obtain ⟨i1, _, _, i2⟩ := g2.rebuild
    refine ⟨_, e, ?_, fun _ _ => i2⟩
    have : spec a (top s) (.resizeAndRebuild n : Op V) = { a' with dirty := fun _ => False } := by
      apply A.ext'
      · intro j; show j < n ↔ a'.act j; rw [g3]; simp
      · intro j; exact Iff.rfl
    rw [this]; exact i1
  | rebuild =>
    obtain ⟨i1, _, _, i2⟩ := h.rebuild
    exact ⟨_, rfl, i1, fun _ _ => i2⟩

theorem ctor_inv {lt : V → V → Bool} {n : Nat} {val : Nat → V} {s : S V} (h : ctor n val = some s) :
    Inv lt s { act := fun _ => False, dirty := fun _ => False } ∧ Backed s ∧ n ≤ s.slots := by
  unfold ctor at h
  split at h
  · cases h
  · cases h
    have hb := Inv.blank (lt := lt) (n := 2 ^ ilog2Ceil n) (Nat.pow_pos (by omega)) val
    exact ⟨hb.1, hb.2, le_ilog2Ceil n⟩

theorem run_inv {lt : V → V → Bool} (hlt : SWO lt) {s : S V} {a : A} (h : Run lt s a) : Inv lt s a := by
  induction h with
  | ctor h => exact (ctor_inv h).1
  | step _ hl he ih =>
    obtain ⟨s', h1, h2, _⟩ := exec_inv hlt ih _ hl
    rw [he] at h1; cases h1
    exact h2

/-- **C39, safety.** No legal call reaches undefined behaviour. -/
theorem C39_no_failure {lt : V → V → Bool} (hlt : SWO lt) {s : S V} {a : A} (h : Run lt s a) (op : Op V) (hl : Legal s op) :
    exec lt s op ≠ none := by
  obtain ⟨s', h1, _⟩ := exec_inv hlt (run_inv hlt h) op hl
  rw [h1]; simp

/-- **C39.** In every history, whenever no replay is due: `top()` is an active player, no active player has a smaller value, and the tree is
`empty()` exactly if no player is active. -/
theorem C39_top {lt : V → V → Bool} (hlt : SWO lt) {s : S V} {a : A} (h : Run lt s a) (hc : ∀ i, ¬ a.dirty i) :
    (∀ i, top s = some i → a.act i ∧ ∀ j, a.act j → lt (s.val j) (s.val i) = false) ∧ (empty s = true ↔ ∀ j, ¬ a.act j) := by
  have hi := run_inv hlt h
  have hp := hi.pos
  have hm := hi.min hlt s.size 0 (by omega) (by have := hi.sz; omega) (fun i hd => absurd hd (hc i))
  constructor
  · intro i ht
    obtain ⟨h1, h2⟩ := hm.1 i ht
    exact ⟨h1, fun j hj => h2 j hj (anc_root _)⟩
  · constructor
    · intro he j hj
      exact hm.2 (by simpa [empty] using he) j hj (anc_root _)
    · intro hn
      cases ht : s.tree 0 with
      | none => simp [empty, ht]
      | some i => exact absurd (hm.1 i ht).1 (hn i)

/-- Histories that never call `deactivate_without_replay`. -/
inductive RunStep (lt : V → V → Bool) : S V → A → Prop
  | ctor {n val s} (h : ctor n val = some s) : RunStep lt s { act := fun _ => False, dirty := fun _ => False }
  | step {s s' a op} (h : RunStep lt s a) (hl : Legal s op) (hn : ∀ i, op ≠ .deactivateWithoutReplay i)
      (he : exec lt s op = some s') : RunStep lt s' (spec a (top s) op)

/-- **C39, batches.** If players are only deactivated by `deactivate_player` and `deactivate_player_step`, no node of the tree holds a player
that is not active, also while replays are due: the comparator (which is called with entries of the tree only) never sees a player
that is gone. In particular `top()` is active. -/
theorem C39_no_stale_player {lt : V → V → Bool} (hlt : SWO lt) {s : S V} {a : A} (h : RunStep lt s a) :
    ∀ v i, v < s.size → s.tree v = some i → a.act i := by
  have key : Inv lt s a ∧ Backed s := by
    induction h with
    | ctor h => exact ⟨(ctor_inv h).1, (ctor_inv (lt := lt) h).2.1⟩
    | step _ hl hn he ih =>
      obtain ⟨s', h1, h2, h3⟩ := exec_inv hlt ih.1 _ hl
      rw [he] at h1; cases h1
      exact ⟨h2, h3 ih.2 hn⟩
  intro v i hv ht
  exact (key.1.backed_act key.2 hv ht).1

/-- The constructor makes a slot for each of the players. -/
theorem C39_ctor_slots {n : Nat} {val : Nat → V} (hn : 0 < n) : ∃ s : S V, ctor n val = some s ∧ n ≤ s.slots := by
  refine ⟨_, by unfold ctor; rw [if_neg (by omega)], le_ilog2Ceil n⟩

/-- The first loop of `double_num_slots` counts an unsigned variable down "while it is at least zero": for every tree (that fits into
memory) it reaches an access outside of the tree. -/
theorem double_num_slots_undefined {lt : V → V → Bool} {s : S V} {a : A} (h : Inv lt s a) (hfit : s.size * 2 + 2 < W) :
    ∃ n, doubleIters (doubleStart s).1 n (doubleStart s).2 = none := by
  have hp := h.pos
  have hsz := h.sz
  have hW : W = 18446744073709551616 := by decide
  have key : ∀ (k : Nat) (size : Nat) (t : Nat → Option Nat) (i : Nat), i < k → size < W - 1 →
      ∃ n, doubleIters size n (t, i) = none := by
    intro k
    induction k with
    | zero => intro size t i hi; omega
    | succ k ih =>
      intro size t i hi hs
      cases hd : doubleIter size (t, i) with
      | none => exact ⟨1, by simp [doubleIters, hd]⟩
      | some x =>
        have hx : x.2 = (i + (W - 1)) % W ∧ i < size := by
          unfold doubleIter at hd
          dsimp only at hd
          split at hd
          · rename_i hc; cases hd; exact ⟨rfl, hc.1⟩
          · cases hd
        by_cases hi0 : i = 0
        · subst hi0
          refine ⟨2, ?_⟩
          have hx2 : x.2 = W - 1 := by rw [hx.1, Nat.zero_add, Nat.mod_eq_of_lt (by omega)]
          have : doubleIter size x = none := by
            unfold doubleIter
            dsimp only
            rw [hx2, if_neg (by omega)]
          simp [doubleIters, hd, this]
        · have hx2 : x.2 = i - 1 := by
            rw [hx.1, show i + (W - 1) = (i - 1) + W by omega, Nat.add_mod_right, Nat.mod_eq_of_lt (by omega)]
          obtain ⟨n, hn⟩ := ih size x.1 (i - 1) (by omega) hs
          refine ⟨n + 1, ?_⟩
          simp only [doubleIters, hd]
          rw [← hx2] at hn
          exact hn
  exact key (s.size) _ _ _ (by show s.size - 1 < s.size; omega) (by show s.slots * 2 * 2 - 1 < W - 1; omega)

/-- **C39, found in the code.** Growing the tree is undefined behaviour: from every reachable state (of a tree that fits into memory),
`activate_player(i)` for a player beyond the current slots calls `double_num_slots`, whose loop leaves the tree's memory. -/
theorem C39_growing_is_undefined {lt : V → V → Bool} (hlt : SWO lt) {s : S V} {a : A} (h : Run lt s a) (hfit : s.size * 2 + 2 < W)
    {i : Nat} (hi : s.slots ≤ i) :
    exec lt s (.activate i) = none ∧ ∃ n, doubleIters (doubleStart s).1 n (doubleStart s).2 = none := by
  refine ⟨?_, double_num_slots_undefined (run_inv hlt h) hfit⟩
  simp [exec, activate, hi]

def ltN (a b : Nat) : Bool := decide (a < b)

def runOps (s : Option (S Nat)) (l : List (Op Nat)) : Option (S Nat) :=
  l.foldl (fun s op => match s with | none => none | some s => exec ltN s op) s

/-- **C39, found in the code.** The public `resize` leaves the entries of the old tree at positions where they mean something else:
with players 0 and 1 in a tree of 2 slots, after `resize(4)` and the deactivation of both players `top()` is still player 1. -/
theorem C39_resize_breaks :
    ((runOps (ctor 2 id) [.activate 0, .activate 1]).bind fun s => runOps (some (resize s 4)) [.deactivate 0, .deactivate 1]).map top
      = some (some 1) := by decide +kernel

/-- A concrete history: three players with values 7, 3, 5; the winner leaves; a value changes. -/
example : (runOps (ctor 3 (fun i => if i = 0 then 7 else if i = 1 then 3 else 5))
    [.activate 0, .activate 1, .activate 2]).map top = some (some 1) := by decide +kernel

example : (runOps (ctor 3 (fun i => if i = 0 then 7 else if i = 1 then 3 else 5))
    [.activate 0, .activate 1, .activate 2, .deactivate 1]).map top = some (some 2) := by decide +kernel

example : (runOps (ctor 3 (fun i => if i = 0 then 7 else if i = 1 then 3 else 5))
    [.activate 0, .activate 1, .activate 2, .deactivateStep 1, .deactivateStep 2, .replayOnDeactivations 1, .replayOnDeactivations 2,
     .setVal 0 9, .replayOnPop]).map top = some (some 0) := by decide +kernel

instance (s : S V) (op : Op V) : Decidable (Legal s op) := by
  cases op <;> simp only [Legal] <;> infer_instance

/-- Run a list of operations as long as they are legal. -/
def hist (s : S Nat) (a : A) : List (Op Nat) → Option (S Nat × A)
  | [] => some (s, a)
  | op :: l =>
    if Legal s op then
      match exec ltN s op with
      | none => none
      | some s' => hist s' (spec a (top s) op) l
    else none

theorem hist_run : ∀ (l : List (Op Nat)) (s : S Nat) (a : A) (x : S Nat × A), Run ltN s a → hist s a l = some x → Run ltN x.1 x.2 := by
  intro l
  induction l with
  | nil => intro s a x h hx; cases hx; exact h
  | cons op l ih =>
    intro s a x h hx
    simp only [hist] at hx
    split at hx
    · rename_i hl
      split at hx
      · cases hx
      · rename_i s' he
        exact ih s' _ x (.step h hl he) hx
    · cases hx

/-- The hypotheses of `C39_top` are met after a history in which both players are active and a value has changed. -/
example : ∃ s a, Run ltN s a ∧ (∀ i, ¬ a.dirty i) ∧ a.act 0 ∧ a.act 1 ∧ top s = some 1 := by
  have h0 : Run ltN { tree := fun _ => none, size := 2 * 2 ^ ilog2Ceil 2 - 1, slots := 2 ^ ilog2Ceil 2, val := fun i => 5 - i }
    { act := fun _ => False, dirty := fun _ => False } := .ctor (n := 2) (val := fun i => 5 - i) rfl
  generalize hs : ({ tree := fun _ => none, size := 2 * 2 ^ ilog2Ceil 2 - 1, slots := 2 ^ ilog2Ceil 2, val := fun i => 5 - i } : S Nat) = s0 at h0
  generalize ha : ({ act := fun _ => False, dirty := fun _ => False } : A) = a0 at h0
  have ht : (hist s0 a0 [.activate 0, .activate 1, .setVal 1 2, .notifyChange 1]).map (fun x => top x.1) = some (some 1) := by
    subst hs; subst ha; decide +kernel
  obtain ⟨x, hx, hx'⟩ := Option.map_eq_some_iff.1 ht
  have hr := hist_run _ _ _ _ h0 hx
  have hspec : x.2 = spec (V := Nat) (spec (V := Nat) (spec (V := Nat) (spec (V := Nat) a0 none (.activate 0)) none (.activate 1)) none (.setVal 1 2)) none (.notifyChange 1 : Op Nat) := by
    simp only [hist] at hx
    repeat' split at hx
    all_goals cases hx
    rfl
  subst ha
  refine ⟨x.1, x.2, hr, ?_, ?_, ?_, hx'⟩ <;> rw [hspec] <;> simp [spec]

end Stxxl.WinnerTree
