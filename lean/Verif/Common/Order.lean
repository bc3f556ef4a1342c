/-!
# Comparators and sortedness (specification vocabulary)

A C++ comparator is a function `lt : α → α → Bool`. The documentation of every sorting facility of STXXL asks for a
"StrictWeakOrdering"; `SWO` is that requirement. Equivalent elements need not be equal.
-/

namespace Stxxl

/-- `lt` is a strict weak ordering: asymmetric, and its complement is transitive. -/
structure SWO {α : Type} (lt : α → α → Bool) : Prop where
  asymm : ∀ a b, lt a b = true → lt b a = false
  negtrans : ∀ a b c, lt a b = false → lt b c = false → lt a c = false

namespace SWO
variable {α : Type} {lt : α → α → Bool}

theorem irrefl (h : SWO lt) (a : α) : lt a a = false := by
  cases h' : lt a a
  · rfl
  · have := h.asymm _ _ h'; rw [h'] at this; exact this

theorem trans (h : SWO lt) {a b c : α} (h1 : lt a b = true) (h2 : lt b c = true) : lt a c = true := by
  cases h3 : lt a c
  · have := h.negtrans _ _ _ h3 (h.asymm _ _ h2); rw [h1] at this; cases this
  · rfl

/-- `a < b ≤ c` gives `a < c`. -/
theorem lt_of_lt_of_le (h : SWO lt) {a b c : α} (h1 : lt a b = true) (h2 : lt c b = false) : lt a c = true := by
  cases h3 : lt a c
  · have := h.negtrans _ _ _ h3 h2; rw [h1] at this; cases this
  · rfl

/-- `a ≤ b < c` gives `a < c`. -/
theorem lt_of_le_of_lt (h : SWO lt) {a b c : α} (h1 : lt b a = false) (h2 : lt b c = true) : lt a c = true := by
  cases h3 : lt a c
  · have := h.negtrans _ _ _ h1 h3; rw [h2] at this; cases this
  · rfl

end SWO

/-- The list is sorted: no later element is less than an earlier one. -/
def Sorted {α : Type} (lt : α → α → Bool) (l : List α) : Prop := l.Pairwise fun a b => lt b a = false

theorem natSWO : SWO (fun a b : Nat => decide (a < b)) where
  asymm := by intro a b; simp; omega
  negtrans := by intro a b c; simp; omega

/-- Pairs compared by their first component only: distinct elements can be equivalent. -/
theorem fstSWO : SWO (fun a b : Nat × Nat => decide (a.1 < b.1)) where
  asymm := by intro a b; simp; omega
  negtrans := by intro a b c; simp; omega

end Stxxl
