import Verif.FileIo.Model

/-!
# What a user of a file expects

Independent of the file types: a file is a sequence of bytes; a block is an interval of offsets; a read gives back what
the last write to that block stored.
-/

namespace Stxxl.FileIo

/-- Byte `i` of a file; zero behind the end. -/
def byteAt (f : List Byte) (i : Nat) : Byte := f.getD i 0

/-- `n` bytes of the file from `off` on. -/
def bytesAt (f : List Byte) (off n : Nat) : List Byte := (List.range n).map fun i => byteAt f (off + i)

/-- The interval of offsets a call works on. -/
def Op.range : Op → Option (Nat × Nat)
  | .read off len => some (off, len)
  | .write off buf => some (off, buf.length)
  | .setSize _ => none
  | .discard off len => some (off, len)

/-- Two intervals are the same block, or have no byte in common and do not start at the same place. -/
def SameOrDisjoint (a b : Nat × Nat) : Prop := a = b ∨ (a.1 ≠ b.1 ∧ (a.1 + a.2 ≤ b.1 ∨ b.1 + b.2 ≤ a.1))

/-- The block discipline (what the block manager gives out): any two requests are for the same block or for disjoint
ones. -/
def Blocks (qs : List Op) : Prop := ∀ a ∈ qs, ∀ b ∈ qs, ∀ x y, a.range = some x → b.range = some y → SameOrDisjoint x y

/-- The size of the file after a history (newest event first): the last successful `set_size`. -/
def sizeAfter (n0 : Nat) : List Ev → Nat
  | [] => n0
  | ⟨.setSize n, .ok, _⟩ :: _ => n
  | _ :: h => sizeAfter n0 h

/-- What the block `(off, len)` must contain after a history (newest event first); `none`: nothing is promised, because
the block has not been written, or the last write failed, or it was discarded, or the file was made too short. -/
def contentAfter (off len : Nat) : List Ev → Option (List Byte)
  | [] => none
  | ⟨.write o buf, out, _⟩ :: h => if o = off then (if out = .ok then some buf else none) else contentAfter off len h
  | ⟨.discard o _, _, _⟩ :: h => if o = off then none else contentAfter off len h
  | ⟨.setSize n, _, _⟩ :: h => if off + len ≤ n then contentAfter off len h else none
  | ⟨.read _ _, _, _⟩ :: h => contentAfter off len h

/-- Every request lies inside the file as it is then (`h`: the events so far, newest first). -/
def Inside (n0 : Nat) : List Ev → List Ev → Prop
  | _, [] => True
  | h, ev :: es => (∀ x, ev.op.range = some x → x.1 + x.2 ≤ sizeAfter n0 h) ∧ Inside n0 (ev :: h) es

end Stxxl.FileIo
