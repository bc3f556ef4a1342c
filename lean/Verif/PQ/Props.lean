import Verif.PQ.QOps

/-!
# C29: the priority queue

`stxxl::priority_queue` (sequential build) returns, for every history of `push`, `pop`, `top`, `size` and `empty` that
respects the documented preconditions, what the multiset of the elements pushed and not popped prescribes.
-/

namespace Stxxl.PQ
open Stxxl.LT (upd)

variable {α : Type}

/-- For every comparator that is a strict weak ordering, every admissible configuration, and every legal history of any
length: no assertion fails, no exception is thrown and no access is out of range; `top()` returns a largest element of the
multiset of elements pushed and not popped, repeated `top()`s return the same element, `pop()` removes exactly the element
that `top()` returns, and `size()` and `empty()` are those of the multiset. -/
theorem C29_priority_queue {c : Cfg} {C : Cmp α} {H : StdHeap α} (hC : C.Ok) (hc : c.Ok) (hH : H.Ok C) (ops : List (Op α))
    (hl : Legal C 0 ops) : ∃ obs s, run c C H (init C H) ops = some (obs, s) ∧ Run C [] none ops obs := by
  obtain ⟨obs, s, e, r, _⟩ := run_ok hC hc hH ops none (init_ok hC hc hH) (by simp) hl
  exact ⟨obs, s, e, r⟩

/-! ### Sorting with the queue -/

/-- `n` times `top(); pop();`. -/
def drainOps : Nat → List (Op α)
  | 0 => []
  | n + 1 => .top :: .pop :: drainOps n

theorem legal_drain (C : Cmp α) : ∀ n, Legal C n (drainOps n)
  | 0 => trivial
  | n + 1 => ⟨by omega, by omega, legal_drain C n⟩

theorem legal_sort (C : Cmp α) : ∀ (xs : List α) (n : Nat), (∀ x ∈ xs, C.Real x) → Legal C n (xs.map Op.push ++ drainOps (xs.length + n))
  | [], n, _ => by simpa using legal_drain C n
  | x :: xs, n, h => by
    refine ⟨h x (by simp), ?_⟩
    have := legal_sort C xs (n + 1) (fun y hy => h y (List.mem_cons_of_mem _ hy))
    have e : (x :: xs).length + n = xs.length + (n + 1) := by simp; omega
    rw [e]; exact this

/-- The values among the observations. -/
def vals : List (Obs α) → List α
  | [] => []
  | .val x :: t => x :: vals t
  | _ :: t => vals t

theorem run_drain {C : Cmp α} : ∀ (n : Nat) {ms : List α} {obs : List (Obs α)}, ms.length = n → Run C ms none (drainOps n) obs →
    (vals obs).Perm ms ∧ (vals obs).Pairwise (fun a b => C.less a b = false)
  | 0, ms, obs, hn, h => by
    have : ms = [] := List.length_eq_zero_iff.1 hn
    subst this
    cases h
    exact ⟨List.Perm.refl _, List.Pairwise.nil⟩
  | n + 1, ms, obs, hn, h => by
    cases h with
    | top hm hmax hp r =>
      cases r with
      | @pop _ _ t ms' _ _ hperm hmax' hp' r =>
        have : t = _ := hp' _ rfl
        subst this
        have hl := hperm.length_eq
        simp only [List.length_cons] at hl
        obtain ⟨a, b⟩ := run_drain n (by omega) r
        refine ⟨(List.Perm.cons _ a).trans hperm.symm, List.pairwise_cons.2 ⟨?_, b⟩⟩
        intro y hy
        exact hmax y (hperm.mem_iff.2 (List.mem_cons_of_mem _ (a.mem_iff.1 hy)))

theorem run_pushes {C : Cmp α} : ∀ (xs : List α) {ms : List α} {pend : Option α} {ops : List (Op α)} {obs : List (Obs α)}, pend = none →
    Run C ms pend (xs.map Op.push ++ ops) obs → ∃ obs', vals obs = vals obs' ∧ Run C (xs.reverse ++ ms) none ops obs'
  | [], ms, pend, ops, obs, hp, h => ⟨obs, rfl, by subst hp; exact h⟩
  | x :: xs, ms, pend, ops, obs, hp, h => by
    cases h with
    | push r =>
      obtain ⟨obs', e, r'⟩ := run_pushes xs rfl r
      exact ⟨obs', e, by simpa using r'⟩

/-- Pushing any elements and then alternating `top` and `pop` yields the elements in non-increasing order. -/
theorem C29_heapsort {c : Cfg} {C : Cmp α} {H : StdHeap α} (hC : C.Ok) (hc : c.Ok) (hH : H.Ok C) (xs : List α)
    (hr : ∀ x ∈ xs, C.Real x) : ∃ obs s, run c C H (init C H) (xs.map Op.push ++ drainOps xs.length) = some (obs, s) ∧
      (vals obs).Perm xs ∧ (vals obs).Pairwise (fun a b => C.less a b = false) := by
  obtain ⟨obs, s, e, r⟩ := C29_priority_queue hC hc hH (xs.map Op.push ++ drainOps xs.length) (legal_sort C xs 0 hr)
  obtain ⟨obs', ev, r'⟩ := run_pushes xs rfl r
  rw [List.append_nil] at r'
  obtain ⟨a, b⟩ := run_drain xs.length (by simp) r'
  exact ⟨obs, s, e, by rw [ev]; exact a.trans (List.reverse_perm _), by rw [ev]; exact b⟩

/-- `top()` on an empty queue returns `min_value()` (or an equivalent of it): it is not an element. -/
theorem C29_top_empty {c : Cfg} {C : Cmp α} {H : StdHeap α} (hC : C.Ok) (hc : c.Ok) (hH : H.Ok C) (ops : List (Op α))
    (hl : Legal C 0 ops) {obs : List (Obs α)} {s : State α} (he : run c C H (init C H) ops = some (obs, s)) (h0 : s.count = 0) :
    top C s = some C.minv := by
  obtain ⟨obs', s', e, _, ms, q⟩ := run_ok hC hc hH ops none (init_ok hC hc hH) (by simp) hl
  rw [he] at e
  obtain ⟨rfl, rfl⟩ := Prod.mk.inj (Option.some.inj e)
  obtain ⟨hs, a, b, d, p⟩ := q.hs
  have hms : ms = [] := List.length_eq_zero_iff.1 (by rw [← count_ok q]; exact h0)
  subst hms
  have hnil := List.nil_perm.1 p
  have h1 : hs = [] := by simp at hnil; exact hnil.1
  have h2 : s.del = [] := by simp at hnil; exact hnil.2.1
  subst h1
  have h3 := List.perm_singleton.1 a
  unfold top
  rw [h3, h2]
  simp

/-! ### The type generator -/

/-- `compute_N<(1 << a), X, 4 * Buffer1Size>`, `priority_queue.h:954-970` with `Buffer1Size = 32` (`:1017`): `(N, AI)`. -/
def computeN (X : Nat) : Nat → Option (Nat × Nat)
  | 0 => none
  | a + 1 => if X / (2 ^ (a + 1) * 2 ^ (a + 1)) ≥ 128 then some (X / (2 ^ (a + 1) * 2 ^ (a + 1)), 2 ^ (a + 1)) else computeN X a

/-- The configuration that `PRIORITY_QUEUE_GENERATOR` selects, `priority_queue.h:1017-1037`; `bs` is the number of elements
of a block. -/
def generated (tune X bs m : Nat) : Option Cfg :=
  match computeN X tune with
  | none => none
  | some (N, AI) => some ⟨32, N, AI, 2, bs, if m / 2 < 2 then 2 else m / 2, 2⟩

theorem computeN_spec {X : Nat} : ∀ {a N AI : Nat}, computeN X a = some (N, AI) → 128 ≤ N ∧ ∃ b, b ≤ a ∧ AI = 2 ^ b ∧ 1 ≤ b ∧
    (∀ b', b < b' → b' ≤ a → X / (2 ^ b' * 2 ^ b') < 128)
  | 0, N, AI, h => by cases h
  | a + 1, N, AI, h => by
    unfold computeN at h
    split at h
    · rename_i hge
      simp only [Option.some.injEq, Prod.mk.injEq] at h
      exact ⟨by omega, a + 1, Nat.le_refl _, h.2.symm, by omega, fun b' h1 h2 => by omega⟩
    · rename_i hlt
      obtain ⟨h1, b, h2, h3, h4, h5⟩ := computeN_spec h
      refine ⟨h1, b, by omega, h3, h4, ?_⟩
      intro b' g1 g2
      by_cases e : b' = a + 1
      · subst e; omega
      · exact h5 b' g1 (by omega)

/-- With enough internal memory (`X ≥ 8192` elements) and `Tune ≥ 3`, the generated configuration is admissible. -/
theorem C29_generator {tune X bs m : Nat} {c : Cfg} (ht : 3 ≤ tune) (hX : 8192 ≤ X) (hb : 0 < bs) (hg : generated tune X bs m = some c) : c.Ok := by
  unfold generated at hg
  cases hcn : computeN X tune with
  | none => rw [hcn] at hg; cases hg
  | some r =>
    obtain ⟨N, AI⟩ := r
    rw [hcn] at hg
    have hg := Option.some.inj hg
    subst hg
    obtain ⟨h1, b, h2, h3, h4, h5⟩ := computeN_spec hcn
    have hb3 : 3 ≤ b := by
      by_contra hlt
      have := h5 3 (by omega) ht
      have this : X / 64 < 128 := this
      omega
    refine ⟨by show 0 < 32; omega, by show 32 ≤ N; omega, ⟨b, h3⟩, ?_, by show 0 < 2; omega, by show 0 < 2; omega, by show 2 + 2 ≤ 4; omega, hb, ?_⟩
    · show 2 + 2 + 1 ≤ AI
      rw [h3]
      have := Nat.pow_le_pow_right (by omega : 0 < 2) hb3
      omega
    · show 2 ≤ if m / 2 < 2 then 2 else m / 2
      split <;> omega

/-- With less memory the generator selects the internal arities 2 and 4, which are not admissible. -/
theorem C29_generator_small : (generated 6 1000 4 8).map (·.intK) = some 2 ∧ (generated 6 4000 4 8).map (·.intK) = some 4 := by decide

/-! ### Library functions that satisfy the assumptions -/

/-- Insertion into a non-increasing list. -/
def insD (C : Cmp α) (x : α) : List α → List α
  | [] => [x]
  | y :: t => if C.less x y then y :: insD C x t else x :: y :: t

def sortD (C : Cmp α) (l : List α) : List α := l.foldr (insD C) []

/-- Reference versions of the three library functions. -/
def refHeap (C : Cmp α) : StdHeap α := ⟨sortD C, fun l => sortD C l.tail ++ l.take 1, fun l => (sortD C l).reverse⟩

theorem insD_perm (C : Cmp α) (x : α) : ∀ l, (insD C x l).Perm (x :: l)
  | [] => List.Perm.refl _
  | y :: t => by
    unfold insD; split
    · exact (List.Perm.cons y (insD_perm C x t)).trans (List.Perm.swap _ _ _)
    · exact List.Perm.refl _

theorem sortD_perm (C : Cmp α) : ∀ l, (sortD C l).Perm l
  | [] => List.Perm.refl _
  | x :: t => (insD_perm C x _).trans (List.Perm.cons x (sortD_perm C t))

theorem insD_desc {C : Cmp α} (hC : C.Ok) (x : α) : ∀ {l}, Desc C l → Desc C (insD C x l)
  | [], _ => List.pairwise_singleton _ _
  | y :: t, h => by
    have h' := List.pairwise_cons.1 h
    unfold insD; split
    · rename_i hxy
      refine List.pairwise_cons.2 ⟨?_, insD_desc hC x h'.2⟩
      intro z hz
      rcases List.mem_cons.1 ((insD_perm C x t).mem_iff.1 hz) with rfl | hz
      · exact hC.asymm _ _ hxy
      · exact h'.1 z hz
    · rename_i hxy
      have hxy : C.less x y = false := by simpa using hxy
      refine List.pairwise_cons.2 ⟨?_, h⟩
      intro z hz
      rcases List.mem_cons.1 hz with rfl | hz
      · exact hxy
      · exact hC.negtrans _ _ _ hxy (h'.1 z hz)

theorem sortD_desc {C : Cmp α} (hC : C.Ok) : ∀ l, Desc C (sortD C l)
  | [] => List.Pairwise.nil
  | x :: t => insD_desc hC x (sortD_desc hC t)

theorem desc_heap {C : Cmp α} {l : List α} (h : Desc C l) : IsHeap C l := by
  intro i hi h0
  exact (List.pairwise_iff_getElem.1 h) _ _ _ _ (by omega)

theorem refHeap_ok {C : Cmp α} (hC : C.Ok) : (refHeap C).Ok C where
  push_perm := sortD_perm C
  push_heap := fun l x _ => desc_heap (sortD_desc hC _)
  pop_last := fun x t _ => ⟨sortD C t, rfl, sortD_perm C t, desc_heap (sortD_desc hC t)⟩
  sort_perm := fun l => (List.reverse_perm _).trans (sortD_perm C l)
  sort_sorted := fun l => List.pairwise_reverse.2 (sortD_desc hC l)

/-! ### Non-vacuity and necessity of the conditions on the configuration -/

def natC : Cmp Nat := ⟨fun a b => decide (a < b), 0⟩

theorem natC_ok : natC.Ok := natSWO

def smallCfg : Cfg := ⟨2, 3, 8, 2, 2, 3, 2⟩

theorem smallCfg_ok : smallCfg.Ok := ⟨by decide, by decide, ⟨3, rfl⟩, by decide, by decide, by decide, by decide, by decide, by decide⟩

/-- The hypotheses can be met, and the operations reach the external groups. -/
example : ∃ obs s, run smallCfg natC (refHeap natC) (init natC (refHeap natC))
    ((((List.range 300).map fun i => i * 37 % 101 + 1).map Op.push) ++ drainOps 300) = some (obs, s) ∧
    (vals obs).Perm ((List.range 300).map fun i => i * 37 % 101 + 1) ∧ (vals obs).Pairwise (fun a b => natC.less a b = false) := by
  have := C29_heapsort natC_ok smallCfg_ok (refHeap_ok natC_ok) ((List.range 300).map fun i => i * 37 % 101 + 1) (by
    intro x hx
    obtain ⟨i, _, rfl⟩ := List.mem_map.1 hx
    simp [Cmp.Real, natC])
  simpa using this

/-- `n` pushes of decreasing numbers, with a `pop` after the pushes `i` with `(i + off) % m = 0`. -/
def mixOps (n m off : Nat) : List (Op Nat) :=
  (List.range n).flatMap fun i => if (i + off) % m = 0 then [.push (n - i), .pop] else [.push (n - i)]

def legalB : Nat → List (Op Nat) → Bool
  | _, [] => true
  | n, .push x :: ops => decide (0 < x) && legalB (n + 1) ops
  | n, .pop :: ops => decide (0 < n) && legalB (n - 1) ops
  | n, .top :: ops => decide (0 < n) && legalB n ops
  | n, .size :: ops => legalB n ops
  | n, .isEmpty :: ops => legalB n ops

theorem legalB_ok : ∀ (ops : List (Op Nat)) (n : Nat), legalB n ops = true → Legal natC n ops
  | [], n, h => trivial
  | .push x :: ops, n, h => by
    simp only [legalB, Bool.and_eq_true, decide_eq_true_eq] at h
    exact ⟨by simp [Cmp.Real, natC, h.1], legalB_ok ops _ h.2⟩
  | .pop :: ops, n, h => by
    simp only [legalB, Bool.and_eq_true, decide_eq_true_eq] at h
    exact ⟨h.1, legalB_ok ops _ h.2⟩
  | .top :: ops, n, h => by
    simp only [legalB, Bool.and_eq_true, decide_eq_true_eq] at h
    exact ⟨h.1, legalB_ok ops _ h.2⟩
  | .size :: ops, n, h => legalB_ok ops n h
  | .isEmpty :: ops, n, h => legalB_ok ops n h

/-- The run of a legal history ends in a failing assertion, an exception or an access out of range. -/
def Breaks (c : Cfg) : Prop := ∃ ops : List (Op Nat), Legal natC 0 ops ∧ (run c natC (refHeap natC) (init natC (refHeap natC)) ops).isNone = true

/-- Internal arity 2, which the type generator selects for small memory: merge tree 0 overflows (`empty_insert_heap` inserts
up to `1 + levels` segments into it, `priority_queue.h:814-834`). -/
theorem C29_internal_arity_two_breaks : Breaks ⟨1, 2, 2, 2, 2, 2, 2⟩ :=
  ⟨mixOps 14 12 4, legalB_ok _ _ (by decide +kernel), by decide +kernel⟩

/-- Internal arity 4 with the four groups of the generated configurations breaks as well. -/
theorem C29_internal_arity_four_breaks : Breaks ⟨1, 2, 4, 2, 2, 2, 2⟩ :=
  ⟨mixOps 160 12 4, legalB_ok _ _ (by decide +kernel), by decide +kernel⟩

/-- An internal arity that is not a power of two: `double_k` writes behind the arrays of `int_merger`. -/
theorem C29_internal_arity_three_breaks : Breaks ⟨1, 1, 3, 2, 2, 2, 2⟩ :=
  ⟨mixOps 6 20 4, legalB_ok _ _ (by decide +kernel), by decide +kernel⟩

/-- More than four groups (the default arguments of `priority_queue_config` give six): `refill_delete_buffer` throws. -/
theorem C29_five_groups_break : Breaks ⟨1, 1, 8, 1, 2, 2, 4⟩ :=
  ⟨mixOps 122 20 4, legalB_ok _ _ (by decide +kernel), by decide +kernel⟩

/-- A delete buffer longer than `N`. -/
theorem C29_delete_buffer_longer_than_N_breaks : Breaks ⟨2, 1, 8, 2, 2, 2, 2⟩ :=
  ⟨mixOps 5 6 3, legalB_ok _ _ (by decide +kernel), by decide +kernel⟩

end Stxxl.PQ
