/-!
# Specification of a stack

The abstract stack is a list, bottom first.
-/

namespace Stxxl.Stack

inductive Op (α : Type) where
  | push (v : α)
  | pop
  /-- `top() = v` -/
  | setTop (v : α)

/-- In-memory stack. -/
def specStep {α : Type} (l : List α) : Op α → List α
  | .push v => l ++ [v]
  | .pop => l.dropLast
  | .setTop v => l.dropLast ++ [v]

/-- `pop` and `top` need a non-empty stack. -/
def specLegal {α : Type} (l : List α) : Op α → Prop
  | .push _ => True
  | .pop => l ≠ []
  | .setTop _ => l ≠ []

def specTop {α : Type} (l : List α) : Option α := l.getLast?

end Stxxl.Stack
