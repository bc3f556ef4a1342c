import Verif.Wbtl.Model

/-!
# What the caller of `wbtl_file` expects (C36)

The file is an array of logical blocks: what was last written at an offset and not discarded since.
-/

namespace Stxxl.Wbtl

variable {β : Type}

/-- The caller's view: file size and contents of the logical blocks. -/
structure Spec (β : Type) where
  sz : Int
  cont : Int → Option (List β)

/-- A new file. -/
def Spec.init : Spec β := ⟨0, fun _ => none⟩

/-- The effect an operation should have. -/
def Spec.step (sp : Spec β) : Op β → Spec β
  | .setSize n => { sp with sz := n }
  | .write off d _ => { sp with cont := fun o => if o = off then some d else sp.cont o }
  | .discard off _ _ => { sp with cont := fun o => if o = off then none else sp.cont o }
  | .read _ _ => sp
  | .progress _ => sp
  | .finish => sp

/-- How the file is used: it never shrinks; blocks are not empty and fit into a write buffer; a block is
overwritten and discarded with the size it was written with, and not read beyond it; all sizes are even (the
block manager's blocks are multiples of 4096). -/
def Legal (W : Int) (sp : Spec β) : Op β → Prop
  | .setSize n => sp.sz ≤ n ∧ 2 ∣ n
  | .write off d _ => d ≠ [] ∧ (d.length : Int) ≤ W ∧ 2 ∣ d.length ∧
      ∀ d', sp.cont off = some d' → d'.length = d.length
  | .discard off size _ => ∀ d', sp.cont off = some d' → size = d'.length
  | .read off n => ∀ d, sp.cont off = some d → n ≤ d.length
  | .progress _ => True
  | .finish => True

/-- A history of such uses. -/
def LegalHist (W : Int) : Spec β → List (Op β) → Prop
  | _, [] => True
  | sp, o :: os => Legal W sp o ∧ LegalHist W (sp.step o) os

/-- The answers the caller may get: a write may fail for lack of space; a read of a block returns the
beginning of what was last written there. A read where nothing was written is unconstrained. -/
def OutOk (sp : Spec β) : Op β → Out β → Prop
  | .write _ _ _, out => out = .done ∨ out = .exc .outOfSpace
  | .read off n, out => ∀ d, sp.cont off = some d → out = .got (.data (d.take n))
  | .setSize _, out => out = .done
  | .discard _ _ _, out => out = .done
  | .progress _, out => out = .done
  | .finish, out => out = .done

/-- All answers of a history are right, up to the first write that fails for lack of space. -/
def Conforms : Spec β → List (Op β) → List (Out β) → Prop
  | _, [], outs => outs = []
  | _, _ :: _, [] => False
  | sp, o :: os, out :: outs => OutOk sp o out ∧ (out = .exc .outOfSpace ∨ Conforms (sp.step o) os outs)

/-- States a file can be in after a history of legal uses without a failed write, with the caller's view. -/
inductive Reach (c : Cfg) : Spec β → State β → Prop where
  | init (mem disk) : Reach c Spec.init (init c mem disk)
  | step {sp s} (o : Op β) : Reach c sp s → Legal c.W sp o → (step c s o).2 ≠ .exc .outOfSpace →
      Reach c (sp.step o) (step c s o).1

end Stxxl.Wbtl
