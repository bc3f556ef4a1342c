import Verif.Tuple.Model
import Verif.Utils.Props

/-!
# C98: tuples, their comparators and streams
-/
namespace Stxxl.Tuple

open Stxxl.Utils (StrictWeak)

/-! ## Specification -/

/-- What a comparator orders by: keys, compared lexicographically. -/
def lexLt : List Int → List Int → Prop
  | _, [] => False
  | [], _ :: _ => True
  | a :: as, b :: bs => a < b ∨ (a = b ∧ lexLt as bs)

/-- Every component of the tuple is within the limits. -/
def Within (l : Limits) (x : T) : Prop :=
  l.lo.first ≤ x.first ∧ x.first ≤ l.hi.first ∧ l.lo.second ≤ x.second ∧ x.second ≤ l.hi.second

/-- `c` orders by the key `key`. -/
def OrdersBy (c : Cmp) (key : T → List Int) : Prop := ∀ a b : T, c.lt a b = true ↔ lexLt (key a) (key b)

/-- The sentinels of `c` bound all tuples, and `max_value()` is strictly after a tuple, `min_value()` strictly before it, exactly if their keys
differ. -/
def Sentinels (c : Cmp) (key : T → List Int) : Prop :=
  ∀ (l : Limits) (x : T), Within l x →
    c.lt x (c.minValue l) = false ∧ c.lt (c.maxValue l) x = false ∧
    (c.lt x (c.maxValue l) = true ↔ key x ≠ key (c.maxValue l)) ∧ (c.lt (c.minValue l) x = true ↔ key x ≠ key (c.minValue l))

theorem lexLt1 (a b : Int) : lexLt [a] [b] ↔ a < b := by simp [lexLt]

theorem lexLt2 (a b c d : Int) : lexLt [a, b] [c, d] ↔ a < c ∨ (a = c ∧ b < d) := by simp [lexLt]

/-! ## Theorems -/

/-- All five comparators are strict weak orderings by the components in their names; `tuple_greater1st` is `tuple_less1st` reversed. -/
theorem C98_comparators :
    (∀ c ∈ [less1st, greater1st, less1stLess2nd, less2nd, less2ndLess1st], StrictWeak c.lt) ∧
    OrdersBy less1st (fun x => [x.first]) ∧ OrdersBy greater1st (fun x => [-x.first]) ∧ OrdersBy less1stLess2nd (fun x => [x.first, x.second]) ∧
    OrdersBy less2nd (fun x => [x.second]) ∧ OrdersBy less2ndLess1st (fun x => [x.second, x.first]) := by
  refine ⟨?_, fun a b => ?_, fun a b => ?_, fun a b => ?_, fun a b => ?_, fun a b => ?_⟩
  · intro c hc
    simp only [List.mem_cons, List.not_mem_nil, or_false] at hc
    rcases hc with rfl | rfl | rfl | rfl | rfl <;>
      (constructor <;> simp only [less1st, greater1st, less1stLess2nd, less2nd, less2ndLess1st, beq_iff_eq]) <;>
      intros <;> (repeat' split at *) <;> simp only [decide_eq_true_eq, decide_eq_false_iff_not] at * <;> omega
  · simp [less1st, lexLt]
  · simp only [greater1st, lexLt1, decide_eq_true_eq]; omega
  · simp only [less1stLess2nd, lexLt2, beq_iff_eq]
    split <;> simp only [decide_eq_true_eq] <;> omega
  · simp [less2nd, lexLt]
  · simp only [less2ndLess1st, lexLt2, beq_iff_eq]
    split <;> simp only [decide_eq_true_eq] <;> omega

/-- The sentinels of all five comparators are right for component types in which `numeric_limits<T>::min()` is the least value. -/
theorem C98_sentinels :
    Sentinels less1st (fun x => [x.first]) ∧ Sentinels greater1st (fun x => [x.first]) ∧ Sentinels less1stLess2nd (fun x => [x.first, x.second]) ∧
    Sentinels less2nd (fun x => [x.second]) ∧ Sentinels less2ndLess1st (fun x => [x.second, x.first]) := by
  refine ⟨fun l x h => ?_, fun l x h => ?_, fun l x h => ?_, fun l x h => ?_, fun l x h => ?_⟩ <;>
    obtain ⟨h1, h2, h3, h4⟩ := h <;>
    simp only [less1st, greater1st, less1stLess2nd, less2nd, less2ndLess1st, T.minValue, T.maxValue, beq_iff_eq, ne_eq, List.cons.injEq, and_true] <;>
    (refine ⟨?_, ?_, ?_, ?_⟩ <;> (repeat' split) <;> simp only [decide_eq_true_eq, decide_eq_false_iff_not] <;> omega)

/-- Refuted for floating point components, where `numeric_limits<T>::min()` is the least positive value: every tuple with a smaller first component
comes before `min_value()` of `tuple_less1st`, and after `max_value()` of `tuple_greater1st`. -/
theorem C98_sentinels_of_floats (l : Limits) (x : T) (h : x.first < l.lo.first) :
    less1st.lt x (less1st.minValue l) = true ∧ greater1st.lt (greater1st.maxValue l) x = true := by
  simp only [less1st, greater1st, T.minValue, T.maxValue, decide_eq_true_eq]
  omega

/-- `==` is equality of all components, `!=` its negation. -/
theorem C98_equality (a b : T) : (T.eq a b = true ↔ a = b) ∧ (T.ne a b = true ↔ a ≠ b) := by
  have h : T.eq a b = true ↔ a = b := by
    cases a; cases b
    simp [T.eq, and_assoc]
  refine ⟨h, ?_⟩
  have e : T.ne a b = !T.eq a b := rfl
  rw [e, ne_eq, ← h]
  simp

variable {α : Type}

/-- `concatenate` yields the first stream, then the second, each element once, reading no empty stream; `counter` counts on from its start. -/
theorem C98_streams (a b : List α) (k : Nat) (start : Int) :
    catDrain (a.length + b.length) a b = some (a ++ b, true) ∧ (catEmpty a b = true ↔ a ++ b = []) ∧
    (counter k start).length = k ∧ ∀ i : Nat, i < k → (counter k start)[i]? = some (start + i) := by
  refine ⟨?_, ?_, ?_, ?_⟩
  · induction a with
    | nil =>
      induction b with
      | nil => rfl
      | cons y b ih =>
        simp only [List.length_nil, Nat.zero_add, List.nil_append] at ih ⊢
        simp [catDrain, catEmpty, catGet, catNext, ih]
    | cons x a ih =>
      have e : (x :: a).length + b.length = (a.length + b.length) + 1 := by simp; omega
      rw [e]
      simp [catDrain, catEmpty, catGet, catNext, ih]
  · cases a <;> cases b <;> simp [catEmpty]
  · induction k generalizing start with
    | zero => rfl
    | succ k ih => simp [counter, ih]
  · induction k generalizing start with
    | zero => intro i hi; omega
    | succ k ih =>
      intro i hi
      cases i with
      | zero => simp [counter]
      | succ i =>
        simp only [counter, List.getElem?_cons_succ]
        rw [ih (start + 1) i (by omega)]
        congr 1
        omega

/-! ## Non-vacuity -/

example : Within ⟨⟨0, 0, []⟩, ⟨255, 255, []⟩⟩ ⟨255, 3, []⟩ ∧ less1stLess2nd.lt ⟨255, 3, []⟩ ⟨255, 255, []⟩ = true ∧
    less1st.lt ⟨255, 3, []⟩ ⟨255, 255, []⟩ = false := by
  simp [Within, less1stLess2nd, less1st]

end Stxxl.Tuple
