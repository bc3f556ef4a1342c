import Verif.BTree.Refine
import Verif.BTree.BulkUp
import Mathlib.Data.Nat.Basic

/-!
# C30: stxxl::map behaves as a sorted map

Specification: `Spec.step` / `Spec.run` (`BTree/Spec.lean`), a list of pairs with ascending keys and the
client's iterator variables.  `run` (`BTree/Step.lean`) executes the same calls on the model of the B-tree;
undefined behaviour (a failed assertion, an access outside an array, a dangling leaf) makes `run` return `none`.
`c.cap` is the number of nodes of the node cache: the only exception is thrown when the tree becomes higher.
-/

namespace BTree
open Spec (Op Out)
variable {K V : Type} [LinearOrder K]

/-- The tree and the specification agree: same contents, and `s` is a well-formed tree owning, besides the
blocks `R` of others, exactly the allocated blocks. -/
theorem start_sim {c : Cfg K} (hc : c.Ok) {pick : List Nat → Nat} (hpick : ∀ L, pick L ∉ L) {R : List Nat} (hn : R.Nodup) :
    Sim c R (ctor (V := V) c pick R) Spec.start :=
  ⟨(ctor_ok hc hpick hn).1, (ctor_ok hc hpick hn).2.symm, fun _ => trivial⟩

theorem run_sim {c : Cfg K} (hc : c.Ok) {pick : List Nat → Nat} (hpick : ∀ L, pick L ∉ L) (hcap : 3 ≤ c.cap) {R : List Nat} :
    ∀ (ops : List (Op K V)) {s : St K V} {σ σ' : Spec.M K V} {os : List (Out K V)}, Sim c R s σ →
      Spec.run c.mx σ ops = some (σ', os) → Spec.peak c.mx σ ops < 2 ^ (c.cap + 2) →
      ∃ s', run c pick s ops = some (s', os.map some) ∧ Sim c R s' σ'
  | [], s, σ, σ', os, h, hr, _ => by
    simp only [Spec.run, Option.some.injEq, Prod.mk.injEq] at hr
    obtain ⟨rfl, rfl⟩ := hr
    exact ⟨s, rfl, h⟩
  | op :: ops, s, σ, σ', os, h, hr, hp => by
    simp only [Spec.run] at hr
    cases hst : Spec.step c.mx σ op with
    | none => rw [hst] at hr; simp at hr
    | some r =>
      obtain ⟨σ1, o⟩ := r
      rw [hst] at hr
      dsimp only at hr
      cases hr1 : Spec.run c.mx σ1 ops with
      | none => rw [hr1] at hr; simp at hr
      | some r1 =>
        obtain ⟨σ2, os1⟩ := r1
        rw [hr1] at hr
        simp only [Option.some.injEq, Prod.mk.injEq] at hr
        obtain ⟨rfl, rfl⟩ := hr
        simp only [Spec.peak, hst] at hp
        rcases step_sim hc hpick h hst with ⟨s1, e1, h1⟩ | ⟨s1, x, e1, hx, h1, hc1, hh⟩
        · obtain ⟨s2, e2, h2⟩ := run_sim hc hpick hcap ops h1 hr1 (by omega)
          refine ⟨s2, ?_, h2⟩
          simp only [run]
          rw [e1]
          simp [e2]
        · exfalso
          have h3 := h1.inv.height hc (by omega)
          rw [h1.inv.size, ← h1.m] at h3
          have h4 : (2 : Nat) ^ (c.cap + 2) ≤ 2 ^ (s1.h + 2) := Nat.pow_le_pow_right (by decide) (by omega)
          have h5 : (Spec.ins σ.m x).length = σ1.m.length := by
            cases op <;> simp only [Spec.Op.inserts, Option.some.injEq, reduceCtorEq] at hx
            all_goals
              subst hx
              simp only [Spec.step] at hst
              split_ifs at hst
              simp only [Option.some.injEq, Prod.mk.injEq] at hst
              obtain ⟨rfl, _⟩ := hst
              try simp [Spec.put]
          have h6 : σ1.m.length ≤ Spec.peak c.mx σ1 ops := by
            cases ops with
            | nil => exact Nat.le_refl _
            | cons op2 ops2 =>
              simp only [Spec.peak]
              split
              · exact Nat.le_refl _
              · exact Nat.le_max_left _ _
          dsimp only at h3
          omega

/-- **C30.** Every history of calls whose preconditions hold, on a map constructed empty, gives exactly the results
the sorted map of the specification gives, with no undefined behaviour and no exception, whatever the capacities of
leaves and nodes (at least 4) and the block numbers the allocator picks, as long as the map has fewer than `2 ^ (cap + 2)` elements at all
times.  The contents are ascending, and the destructor gives back every block that the tree allocated and no other. -/
theorem C30_history {c : Cfg K} (hc : c.Ok) (hcap : 3 ≤ c.cap) {pick : List Nat → Nat} (hpick : ∀ L, pick L ∉ L)
    {R : List Nat} (hn : R.Nodup) {ops : List (Op K V)} {σ' : Spec.M K V} {os : List (Out K V)}
    (hr : Spec.run c.mx Spec.start ops = some (σ', os)) (hp : Spec.peak c.mx Spec.start ops < 2 ^ (c.cap + 2)) :
    ∃ s', run c pick (ctor c pick R) ops = some (s', os.map some) ∧
      σ'.m.Pairwise (fun a b => a.1 < b.1) ∧ s'.dealloc.Perm R := by
  obtain ⟨s', e, h⟩ := run_sim hc hpick hcap ops (start_sim hc hpick hn) hr hp
  refine ⟨s', e, ?_, dealloc_ok h.inv⟩
  rw [h.m]; exact h.inv.sorted

theorem safe_sim {c : Cfg K} (hc : c.Ok) {pick : List Nat → Nat} (hpick : ∀ L, pick L ∉ L) {R : List Nat} :
    ∀ (ops : List (Op K V)) {s : St K V} {σ : Spec.M K V}, Sim c R s σ → Spec.Safe c.mx σ ops →
      ∃ s' os σ', run c pick s ops = some (s', os) ∧ Spec.Hist c.mx σ ops os σ' ∧ Sim c R s' σ'
  | [], s, σ, h, _ => ⟨s, [], σ, rfl, .nil _, h⟩
  | op :: ops, s, σ, h, ⟨σ1, o, hst, h1, h2⟩ => by
    rcases step_sim hc hpick h hst with ⟨s1, e1, g1⟩ | ⟨s1, x, e1, hx, g1, _⟩
    · obtain ⟨s2, os, σ2, e2, e3, g2⟩ := safe_sim hc hpick ops g1 h1
      refine ⟨s2, some o :: os, σ2, ?_, .ok hst e3, g2⟩
      simp only [run]; rw [e1]; simp [e2]
    · obtain ⟨s2, os, σ2, e2, e3, g2⟩ := safe_sim hc hpick ops g1 (h2 x hx)
      refine ⟨s2, none :: os, σ2, ?_, .thrown hx e3, g2⟩
      simp only [run]; rw [e1]; simp [e2]

/-- **C30, without a bound on the number of elements.**  If insertions may throw (the tree gets higher than the node
cache has nodes), the element has been inserted all the same, and the map goes on working. -/
theorem C30_history_exceptions {c : Cfg K} (hc : c.Ok) {pick : List Nat → Nat} (hpick : ∀ L, pick L ∉ L)
    {R : List Nat} (hn : R.Nodup) {ops : List (Op K V)} (hs : Spec.Safe c.mx Spec.start ops) :
    ∃ s' os σ', run c pick (ctor c pick R) ops = some (s', os) ∧ Spec.Hist c.mx Spec.start ops os σ' ∧
      σ'.m.Pairwise (fun a b => a.1 < b.1) ∧ s'.dealloc.Perm R := by
  obtain ⟨s', os, σ', e, e2, h⟩ := safe_sim hc hpick ops (start_sim hc hpick hn) hs
  refine ⟨s', os, σ', e, e2, ?_, dealloc_ok h.inv⟩
  rw [h.m]; exact h.inv.sorted

/-- **C30, bulk construction.**  Constructing from a range sorted by key (equal keys allowed), with fill factors between
one half and one, gives the map that inserting the elements one after the other gives: every later history
behaves as the specification says on that map.  The constructor throws only if there are at least `2 ^ (cap + 2)` elements. -/
theorem C30_bulk {c : Cfg K} (hc : c.Ok) (hcap : 3 ≤ c.cap) {pick : List Nat → Nat} (hpick : ∀ L, pick L ∉ L)
    {R : List Nat} (hn : R.Nodup) {mle mne : Nat} (hl1 : c.maxL / 2 ≤ mle) (hl2 : mle ≤ c.maxL) (hm1 : c.maxN / 2 ≤ mne)
    (hm2 : mne ≤ c.maxN) {xs : List (K × V)} (hs : xs.Pairwise (fun a b => a.1 ≤ b.1)) (hx : ∀ x ∈ xs, x.1 < c.mx)
    {s0 : St K V} (hb : bulk c pick mle mne xs R = .ok s0 ()) {ops : List (Op K V)} {σ' : Spec.M K V} {os : List (Out K V)}
    (hr : Spec.run c.mx ⟨xs.foldl Spec.ins [], fun _ => .sing⟩ ops = some (σ', os))
    (hp : Spec.peak c.mx ⟨xs.foldl Spec.ins [], fun _ => .sing⟩ ops < 2 ^ (c.cap + 2)) :
    ∃ s', run c pick s0 ops = some (s', os.map some) ∧ σ'.m.Pairwise (fun a b => a.1 < b.1) ∧ s'.dealloc.Perm R := by
  obtain ⟨s', h1, _, _, h3⟩ := bulk_ok hc hpick hl1 hl2 hm1 hm2 hn hs hx
  have : s' = s0 := by
    rcases h1 with ⟨_, h⟩ | ⟨_, h⟩
    · rw [hb] at h; cases h; rfl
    · rw [hb] at h; cases h
  subst this
  obtain ⟨g1, g2⟩ := h3 hb
  have hsim : Sim c R s' ⟨xs.foldl Spec.ins [], fun _ => .sing⟩ := ⟨g1, g2.symm, fun _ => trivial⟩
  obtain ⟨s2, e, h⟩ := run_sim hc hpick hcap ops hsim hr hp
  refine ⟨s2, e, ?_, dealloc_ok h.inv⟩
  rw [h.m]; exact h.inv.sorted

/-- **C30, bulk construction succeeds** (no undefined behaviour) if there are fewer than `2 ^ (cap + 2)` distinct keys. -/
theorem C30_bulk_succeeds {c : Cfg K} (hc : c.Ok) (hcap : 3 ≤ c.cap) {pick : List Nat → Nat} (hpick : ∀ L, pick L ∉ L)
    {R : List Nat} (hn : R.Nodup) {mle mne : Nat} (hl1 : c.maxL / 2 ≤ mle) (hl2 : mle ≤ c.maxL) (hm1 : c.maxN / 2 ≤ mne)
    (hm2 : mne ≤ c.maxN) {xs : List (K × V)} (hs : xs.Pairwise (fun a b => a.1 ≤ b.1)) (hx : ∀ x ∈ xs, x.1 < c.mx)
    (hlen : (xs.foldl Spec.ins []).length < 2 ^ (c.cap + 2)) : ∃ s0, bulk c pick mle mne xs R = .ok s0 () := by
  obtain ⟨s', h1, _, h2, _⟩ := bulk_ok hc hpick hl1 hl2 hm1 hm2 hn hs hx
  rcases h1 with ⟨_, h⟩ | ⟨a, _⟩
  · exact ⟨s', h⟩
  · exfalso
    have h3 := h2 a.2
    have h4 : (2 : Nat) ^ (c.cap + 2) ≤ 2 ^ (s'.h + 2) := Nat.pow_le_pow_right (by decide) (by omega)
    omega

/-- **C30, bulk construction that throws** leaves all blocks of the tree allocated: the constructor has no owner for
them, and they are blocks the tree allocated (there are as many as blocks in the tree built so far, at least 2). -/
theorem C30_bulk_throw_leaks {c : Cfg K} (hc : c.Ok) {pick : List Nat → Nat} (hpick : ∀ L, pick L ∉ L)
    {R : List Nat} (hn : R.Nodup) {mle mne : Nat} (hl1 : c.maxL / 2 ≤ mle) (hl2 : mle ≤ c.maxL) (hm1 : c.maxN / 2 ≤ mne)
    (hm2 : mne ≤ c.maxN) {xs : List (K × V)} (hs : xs.Pairwise (fun a b => a.1 ≤ b.1)) (hx : ∀ x ∈ xs, x.1 < c.mx)
    {s0 : St K V} (hb : bulk c pick mle mne xs R = .thrown s0) : s0.live.Perm (bidsK s0.h s0.root ++ R) ∧ 2 ^ (c.cap + 2) ≤ (xs.foldl Spec.ins []).length := by
  obtain ⟨s', h1, h3, h2, _⟩ := bulk_ok hc hpick hl1 hl2 hm1 hm2 hn hs hx
  rcases h1 with ⟨_, h⟩ | ⟨a, h⟩
  · rw [hb] at h; cases h
  · rw [hb] at h; cases h
    refine ⟨h3, ?_⟩
    have h3 := h2 a.2
    have h4 : (2 : Nat) ^ (c.cap + 2) ≤ 2 ^ (s0.h + 2) := Nat.pow_le_pow_right (by decide) (by omega)
    omega

/-! ### The hypotheses can be met; what happens when they are not -/

/-- Keys are numbers up to 99, four elements to a block. -/
def exCfg : Cfg Nat := { lt := fun a b => decide (a < b), mx := 99, maxL := 4, maxN := 4, cap := 3 }
def exPick (L : List Nat) : Nat := L.foldl Nat.max 0 + 1

theorem exPick_ok : ∀ L, exPick L ∉ L := by
  have h1 : ∀ (L : List Nat) (a : Nat), a ≤ L.foldl Nat.max a := by
    intro L
    induction L with
    | nil => intro a; exact Nat.le_refl _
    | cons x L ih => intro a; exact Nat.le_trans (Nat.le_max_left a x) (ih _)
  have h2 : ∀ (L : List Nat) (a x : Nat), x ∈ L → x ≤ L.foldl Nat.max a := by
    intro L
    induction L with
    | nil => intro a x hx; cases hx
    | cons y L ih =>
      intro a x hx
      rcases List.mem_cons.mp hx with rfl | hx
      · exact Nat.le_trans (Nat.le_max_right a x) (h1 L _)
      · exact ih _ x hx
  intro L h
  have := h2 L 0 _ h
  unfold exPick at this
  omega

theorem exCfg_ok : exCfg.Ok := ⟨fun _ _ => rfl, by decide, by decide⟩

/-- 30 insertions (in the order 0, 7, 14, …), a walk, erasures. -/
def exOps : List (Op Nat Nat) :=
  (List.range 30).map (fun i => .insert (i * 7 % 30, i) 0) ++
  [.lower 12 1, .deref 1, .incr 1, .deref 1, .decr 1, .decr 1, .deref 1] ++
  (List.range 25).map (fun i => .erase (i * 11 % 30)) ++
  [.size, .begin_ 2, .deref 2, .incr 2, .deref 2, .end_ 3, .eq 2 3, .erase 77, .indexSet 5 0 9, .index 5 0, .find 5 0, .eraseRange 0 2, .size]

theorem C30_history_nonvacuous :
    ((Spec.run exCfg.mx Spec.start exOps).map (fun r => (r.1.m, r.2.drop 30))).isSome = true ∧
      Spec.peak exCfg.mx Spec.start exOps = 30 := by
  constructor <;> decide +kernel

/-- The same history on the tree has the same results; on the way the tree has height 3. -/
theorem C30_history_example :
    (run exCfg exPick (ctor exCfg exPick [1, 2]) exOps).map (fun r => (r.2, r.1.dealloc)) =
      (Spec.run exCfg.mx Spec.start exOps).map (fun r => (r.2.map some, [1, 2])) ∧
    (run exCfg exPick (ctor exCfg exPick [1, 2]) (exOps.take 30)).map (fun r => r.1.h + 2) = some 3 := by
  constructor <;> decide +kernel

theorem C30_bulk_nonvacuous :
    (match bulk exCfg exPick 3 3 ((List.range 29).map (fun i => (i * 2 / 3, i))) [1, 2] with
      | .ok s _ => some (s.h, (s.root.flatMap (fun e => BTree.leaves s.h e.2)).flatMap Blk.els)
      | _ => none) = some (1, ((List.range 29).map (fun i => (i * 2 / 3, i))).foldl Spec.ins []) := by
  decide +kernel

/-- With keys up to `max_value()` itself everything still works, except `upper_bound(max_value())`: undefined behaviour
(the root's `upper_bound` returns the end of the root's map, btree.h:749-775). -/
theorem C30_upper_bound_max_ub :
    (run exCfg exPick (ctor exCfg exPick []) [.insert (99, 1) 0, .find 99 1, .deref 1]).map Prod.snd =
        some [some (.bool true), some .unit, some (.val (99, 1))] ∧
      (run exCfg exPick (ctor (V := Nat) exCfg exPick []) [.insert (99, 1) 0, .upper 99 1]).isNone = true := by
  constructor <;> decide +kernel

/-- An insertion that makes the tree higher than the node cache has nodes throws, but the element has been inserted. -/
theorem C30_throw_inserts :
    (run { exCfg with cap := 1 } exPick (ctor { exCfg with cap := 1 } exPick []) ((List.range 11).map (fun i => .insert (i, i) 0) ++ [.size])).map
        (fun r => r.2.drop 9) = some [some (.bool true), none, some (.num 11)] := by
  decide +kernel

/-- `erase(begin(), end())` is `clear()`: unlike `std::map`, an iterator equal to `end()` before is not equal to `end()`
afterwards. -/
theorem C30_clear_invalidates_end :
    (run exCfg exPick (ctor exCfg exPick []) [.insert (5, 1) 0, .end_ 3, .begin_ 1, .eraseRange 1 3, .end_ 4, .eq 3 4]).map
        (fun r => r.2.drop 5) = some [some (.bool false)] := by
  decide +kernel

/-- Numbers ordered by their tens: an order whose equivalence is coarser than `==`. -/
def tens : Cfg Nat := { exCfg with lt := fun a b => decide (a / 10 < b / 10) }

/-- The order has to distinguish all keys that `==` distinguishes (`Cfg.Ok.lt`): otherwise `insert` finds an equivalent
key present although `find`, `count` and `erase` do not find it. -/
theorem C30_coarse_order_inconsistent :
    (run tens exPick (ctor tens exPick []) [.insert (11, 1) 0, .insert (12, 2) 1, .count 12, .count 11, .erase 12, .size]).map Prod.snd =
      some [some (.bool true), some (.bool false), some (.num 0), some (.num 1), some (.num 0), some (.num 1)] := by
  decide +kernel

/-- Bulk construction from keys that are all `max_value()` gives an empty map: the first element is taken for a duplicate
of the initial "last key" (btree.h:268, 286-289). -/
theorem C30_bulk_max_skipped :
    (match bulk exCfg exPick 3 3 [(99, 1)] [1, 2] with | .ok s _ => some s.size | _ => none) = some 0 := by
  decide +kernel

end BTree
