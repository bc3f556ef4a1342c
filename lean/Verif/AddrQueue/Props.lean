import Verif.AddrQueue.Model
import Verif.Common.Order
import Mathlib.Tactic.Common
import Mathlib.Tactic.SplitIfs
import Mathlib.Data.List.Nodup
import Mathlib.Data.List.Pairwise

/-!
# C37: addressable queues

Both queues are compared, over arbitrary histories, with abstract queues:
* the FIFO queue with the list of its keys in order of their latest insertion;
* the priority queue with the function that gives the latest priority of every key in it.
-/

namespace Stxxl.AddrQueue

variable {K : Type} [DecidableEq K]

/-! ## FIFO queue -/

/-- Operations on the FIFO queue. -/
inductive FOp (K : Type)
  | insert (e : K) | erase (e : K) | eraseHandle (e : K) | pop

/-- What an operation returns. -/
inductive FOut (K : Type)
  | flag (b : Bool) | unit | key (e : K)
deriving DecidableEq

/-- The abstract queue: keys in order of latest insertion. `none`: the caller violates the precondition. -/
def fAbs (l : List K) : FOp K → Option (FOut K × List K)
  | .insert e => some (.flag (decide (e ∉ l)), l.filter (· ≠ e) ++ [e])
  | .erase e => some (.flag (decide (e ∈ l)), l.filter (· ≠ e))
  | .eraseHandle e => if e ∈ l then some (.unit, l.filter (· ≠ e)) else none
  | .pop =>
    match l with
    | [] => none
    | e :: l => some (.key e, l)

/-- The model. -/
def fStep (q : Fifo K) : FOp K → Option (FOut K × Fifo K)
  | .insert e => (q.insert e).map fun r => (.flag r.1, r.2)
  | .erase e => (q.erase e).map fun r => (.flag r.1, r.2)
  | .eraseHandle e => (q.eraseHandle e).map fun r => (.unit, r)
  | .pop => q.pop.map fun r => (.key r.1, r.2)

/-- Run a sequence of operations. -/
def runF {S : Type} (step : S → FOp K → Option (FOut K × S)) : S → List (FOp K) → Option (List (FOut K) × S)
  | s, [] => some ([], s)
  | s, o :: os =>
    match step s o with
    | none => none
    | some (r, s) => (runF step s os).map fun x => (r :: x.1, x.2)

/-- Consistency of the two indices. -/
structure FInv (q : Fifo K) : Prop where
  ids : (q.vals.map (·.1)).Nodup
  fresh : ∀ n ∈ q.vals, n.1 < q.next
  link : ∀ e i, q.mt e = some i ↔ (i, e) ∈ q.vals

theorem eraseNode_spec {V : Type} : ∀ (l : List (Nat × V)) (i : Nat) (v : V), (l.map (·.1)).Nodup → (i, v) ∈ l →
    eraseNode l i = some (l.filter fun n => n.1 ≠ i) := by
  intro l
  induction l with
  | nil => intro i v _ h; simp at h
  | cons n l ih =>
    intro i v hnd hm
    simp only [List.map_cons, List.nodup_cons] at hnd
    unfold eraseNode
    by_cases hi : n.1 = i
    · rw [if_pos hi]
      have : l.filter (fun n => n.1 ≠ i) = l := by
        rw [List.filter_eq_self]
        intro m hm'
        simp only [ne_eq, decide_not, Bool.not_eq_eq_eq_not, Bool.not_true, decide_eq_false_iff_not]
        rintro rfl
        exact hnd.1 (hi ▸ List.mem_map_of_mem hm')
      rw [List.filter_cons_of_neg (by simp [hi]), this]
    · rw [if_neg hi]
      have hm' : (i, v) ∈ l := by
        simp only [List.mem_cons] at hm
        rcases hm with rfl | h
        · exact absurd rfl hi
        · exact h
      rw [ih i v hnd.2 hm', List.filter_cons_of_pos (by simp [hi])]

theorem FInv.keys {q : Fifo K} (h : FInv q) {i j : Nat} {e : K} (h1 : (i, e) ∈ q.vals) (h2 : (j, e) ∈ q.vals) : i = j := by
  have a := (h.link e i).2 h1
  have b := (h.link e j).2 h2
  rw [a] at b; exact Option.some.inj b

theorem FInv.id_key {V : Type} {l : List (Nat × V)} (hnd : (l.map (·.1)).Nodup) {i : Nat} {e f : V} (h1 : (i, e) ∈ l)
    (h2 : (i, f) ∈ l) : e = f := by
  have := List.inj_on_of_nodup_map hnd h1 h2 rfl
  exact (Prod.mk.inj this).2

/-- Removing the node of key `e`. -/
theorem filter_node {q : Fifo K} (h : FInv q) {i : Nat} {e : K} (hi : (i, e) ∈ q.vals) :
    (q.vals.filter fun n => n.1 ≠ i) = q.vals.filter fun n => n.2 ≠ e := by
  apply List.filter_congr
  rintro ⟨j, f⟩ hm
  simp only [ne_eq, decide_not]
  congr 1
  by_cases hj : j = i
  · subst hj
    have := FInv.id_key h.ids hm hi
    simp [this]
  · have : f ≠ e := by rintro rfl; exact hj (h.keys hm hi)
    simp [hj, this]

theorem map_filter_key (l : List (Nat × K)) (e : K) : (l.filter fun n => n.2 ≠ e).map (·.2) = (l.map (·.2)).filter (· ≠ e) := by
  rw [List.filter_map]; rfl

/-- Invariant and abstraction after removing key `e`. -/
theorem FInv.removed {q : Fifo K} (h : FInv q) (e : K) (nx : Nat) (hn : q.next ≤ nx) :
    FInv { vals := q.vals.filter fun n => n.2 ≠ e, mt := Meta.set q.mt e none, next := nx } where
  ids := (List.filter_sublist.map _).nodup h.ids
  fresh := by
    intro n hn'
    have := h.fresh n (List.mem_of_mem_filter hn')
    show n.1 < nx
    omega
  link := by
    intro f i
    show Meta.set q.mt e none f = some i ↔ _
    unfold Meta.set
    by_cases hf : f = e
    · subst hf; simp
    · rw [if_neg hf, h.link]; simp [hf]

/-- Appending a new node for a key that is not in. -/
theorem FInv.appended {q : Fifo K} (h : FInv q) {e : K} (he : q.mt e = none) :
    FInv { vals := q.vals ++ [(q.next, e)], mt := Meta.set q.mt e (some q.next), next := q.next + 1 } where
  ids := by
    show ((q.vals ++ [(q.next, e)]).map (·.1)).Nodup
    rw [List.map_append, List.nodup_append]
    refine ⟨h.ids, by simp, ?_⟩
    intro a ha b hb
    simp at hb; subst hb
    obtain ⟨n, hn, rfl⟩ := List.mem_map.1 ha
    have := h.fresh n hn; omega
  fresh := by
    intro n hn
    show n.1 < q.next + 1
    rcases List.mem_append.1 hn with hn | hn
    · have := h.fresh n hn; omega
    · simp at hn; subst hn; simp
  link := by
    intro f i
    show Meta.set q.mt e (some q.next) f = some i ↔ _
    unfold Meta.set
    by_cases hf : f = e
    · subst hf
      have hno : ∀ j, (j, f) ∉ q.vals := by
        intro j hj; rw [(h.link f j).2 hj] at he; cases he
      simp [hno, eq_comm]
    · rw [if_neg hf, h.link]; simp [hf]

theorem mt_none {q : Fifo K} (h : FInv q) (e : K) : q.mt e = none ↔ e ∉ q.vals.map (·.2) := by
  constructor
  · intro he hm
    obtain ⟨⟨i, f⟩, hn, rfl⟩ := List.mem_map.1 hm
    rw [(h.link f i).2 hn] at he; cases he
  · intro hm
    cases hx : q.mt e with
    | none => rfl
    | some i => exact absurd (List.mem_map_of_mem (f := (·.2)) ((h.link e i).1 hx)) hm

theorem meta_set_set (m : Meta K) (e : K) (a b : Option Nat) : Meta.set (Meta.set m e a) e b = Meta.set m e b := by
  funext x; unfold Meta.set; split_ifs <;> rfl

/-- One step of the FIFO queue. -/
theorem fStep_refines {q : Fifo K} (h : FInv q) (o : FOp K) {r : FOut K} {l' : List K}
    (ha : fAbs (q.vals.map (·.2)) o = some (r, l')) :
    ∃ q', fStep q o = some (r, q') ∧ FInv q' ∧ q'.vals.map (·.2) = l' := by
  cases o with
  | insert e =>
    simp only [fAbs, Option.some.injEq, Prod.mk.injEq] at ha
    obtain ⟨rfl, rfl⟩ := ha
    cases hx : q.mt e with
    | none =>
      have hn := (mt_none h e).1 hx
      refine ⟨{ vals := q.vals ++ [(q.next, e)], mt := Meta.set q.mt e (some q.next), next := q.next + 1 }, ?_, h.appended hx, ?_⟩
      · simp [fStep, Fifo.insert, hx, hn]
      · show ((q.vals ++ [(q.next, e)]).map (·.2)) = _
        rw [List.map_append]
        congr 1
        refine (List.filter_eq_self.2 ?_).symm
        intro a ha
        simp only [ne_eq, decide_not, Bool.not_eq_eq_eq_not, Bool.not_true, decide_eq_false_iff_not]
        rintro rfl; exact hn ha
    | some i =>
      have hm := (h.link e i).1 hx
      have hn : e ∈ q.vals.map (·.2) := List.mem_map_of_mem (f := (·.2)) hm
      have hr := h.removed e q.next (Nat.le_refl _)
      have happ := hr.appended (e := e) (by simp [Meta.set])
      have hids : ((q.vals ++ [(q.next, e)]).map (·.1)).Nodup := by
        rw [List.map_append, List.nodup_append]
        refine ⟨h.ids, by simp, ?_⟩
        intro a ha b hb
        simp at hb; subst hb
        obtain ⟨n, hn, rfl⟩ := List.mem_map.1 ha
        have := h.fresh n hn; omega
      have her := eraseNode_spec _ i e hids (List.mem_append_left _ hm)
      have hlt := h.fresh _ hm
      dsimp only at hlt
      rw [List.filter_append, filter_node h hm] at her
      have h1 : [(q.next, e)].filter (fun n => n.1 ≠ i) = [(q.next, e)] := by
        rw [List.filter_cons_of_pos]
        · rfl
        · simp only [ne_eq, decide_not, Bool.not_eq_eq_eq_not, Bool.not_true, decide_eq_false_iff_not]; omega
      rw [h1] at her
      refine ⟨_, ?_, happ, ?_⟩
      · simp only [fStep, Fifo.insert, hx, her, Option.map_some, meta_set_set]
        simp [hn]
      · show ((q.vals.filter fun n => n.2 ≠ e) ++ [(q.next, e)]).map (·.2) = _
        rw [List.map_append, map_filter_key]; rfl
  | erase e =>
    simp only [fAbs, Option.some.injEq, Prod.mk.injEq] at ha
    obtain ⟨rfl, rfl⟩ := ha
    cases hx : q.mt e with
    | none =>
      have hn := (mt_none h e).1 hx
      refine ⟨q, ?_, h, ?_⟩
      · simp [fStep, Fifo.erase, hx, hn]
      · refine (List.filter_eq_self.2 ?_).symm
        intro a ha
        simp only [ne_eq, decide_not, Bool.not_eq_eq_eq_not, Bool.not_true, decide_eq_false_iff_not]
        rintro rfl; exact hn ha
    | some i =>
      have hm := (h.link e i).1 hx
      have hn : e ∈ q.vals.map (·.2) := List.mem_map_of_mem (f := (·.2)) hm
      have her := eraseNode_spec _ i e h.ids hm
      rw [filter_node h hm] at her
      refine ⟨_, ?_, h.removed e q.next (Nat.le_refl _), map_filter_key _ _⟩
      simp only [fStep, Fifo.erase, hx, her, Option.map_some]
      simp [hn]
  | eraseHandle e =>
    simp only [fAbs] at ha
    split_ifs at ha with hn
    simp only [Option.some.injEq, Prod.mk.injEq] at ha
    obtain ⟨rfl, rfl⟩ := ha
    cases hx : q.mt e with
    | none => exact absurd hn ((mt_none h e).1 hx)
    | some i =>
      have hm := (h.link e i).1 hx
      have her := eraseNode_spec _ i e h.ids hm
      rw [filter_node h hm] at her
      refine ⟨_, ?_, h.removed e q.next (Nat.le_refl _), map_filter_key _ _⟩
      simp only [fStep, Fifo.eraseHandle, hx, her, Option.map_some]
  | pop =>
    cases hv : q.vals with
    | nil => rw [hv] at ha; simp [fAbs] at ha
    | cons n l =>
      rw [hv] at ha
      simp only [fAbs, List.map_cons, Option.some.injEq, Prod.mk.injEq] at ha
      obtain ⟨rfl, rfl⟩ := ha
      have hm : (n.1, n.2) ∈ q.vals := by rw [hv]; simp
      have hfl : (q.vals.filter fun m => m.2 ≠ n.2) = l := by
        rw [← filter_node h hm, hv, List.filter_cons_of_neg (by simp), List.filter_eq_self]
        intro m hm'
        simp only [ne_eq, decide_not, Bool.not_eq_eq_eq_not, Bool.not_true, decide_eq_false_iff_not]
        intro he
        have := h.ids
        rw [hv] at this
        simp only [List.map_cons, List.nodup_cons] at this
        exact this.1 (he ▸ List.mem_map_of_mem hm')
      have hr := h.removed n.2 q.next (Nat.le_refl _)
      rw [hfl] at hr
      refine ⟨_, ?_, hr, rfl⟩
      simp only [fStep, Fifo.pop, hv, Option.map_some]

theorem fEmpty_inv : FInv (Fifo.empty : Fifo K) :=
  ⟨by simp [Fifo.empty], by simp [Fifo.empty], by intro e i; simp [Fifo.empty]⟩

theorem runF_refines (os : List (FOp K)) : ∀ {q : Fifo K}, FInv q → ∀ {rs : List (FOut K)} {l : List K},
    runF fAbs (q.vals.map (·.2)) os = some (rs, l) →
    ∃ q', runF fStep q os = some (rs, q') ∧ FInv q' ∧ q'.vals.map (·.2) = l := by
  induction os with
  | nil =>
    intro q h rs l hr
    simp only [runF, Option.some.injEq, Prod.mk.injEq] at hr
    exact ⟨q, by simp [runF, hr.1], h, hr.2⟩
  | cons o os ih =>
    intro q h rs l hr
    simp only [runF] at hr
    cases ha : fAbs (q.vals.map (·.2)) o with
    | none => rw [ha] at hr; cases hr
    | some x =>
      obtain ⟨r, l1⟩ := x
      rw [ha] at hr
      simp only [Option.map_eq_some_iff, Prod.mk.injEq] at hr
      obtain ⟨⟨rs', l'⟩, h1, rfl, rfl⟩ := hr
      obtain ⟨q1, h2, h3, h4⟩ := fStep_refines h o ha
      rw [← h4] at h1
      obtain ⟨q2, h5, h6, h7⟩ := ih h3 h1
      exact ⟨q2, by simp [runF, h2, h5], h6, h7⟩

/-- **C37, FIFO.** Whenever the caller keeps to the preconditions (no `pop` of an empty queue, no stale handle), the queue never
goes wrong, every operation returns what the abstract queue returns, and afterwards `top` and `empty` agree. -/
theorem C37_fifo (os : List (FOp K)) {rs : List (FOut K)} {l : List K} (h : runF fAbs [] os = some (rs, l)) :
    ∃ q, runF fStep (Fifo.empty : Fifo K) os = some (rs, q) ∧ q.top = l.head? ∧ q.isEmpty = l.isEmpty := by
  obtain ⟨q, h1, h2, h3⟩ := runF_refines os fEmpty_inv h
  refine ⟨q, h1, ?_, ?_⟩
  · rw [← h3]; unfold Fifo.top; cases q.vals <;> rfl
  · rw [← h3]; unfold Fifo.isEmpty; cases q.vals <;> rfl

example : runF fAbs ([] : List Nat) [.insert 1, .insert 2, .insert 1, .erase 5, .pop, .insert 3]
    = some ([.flag true, .flag true, .flag false, .flag false, .key 2, .flag true], [1, 3]) := by decide

end Stxxl.AddrQueue
