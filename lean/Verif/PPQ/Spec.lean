import Verif.Common.Order
/-!
Specification of a priority queue with bulk operations. Independent of the model.

`lt x y`: `x` is extracted before `y`.
-/
namespace Stxxl.PPQ
variable {α : Type}

/-- The calls. `p` is the number of the insertion heap (the thread). -/
inductive Op (α : Type)
  | push (x : α) (p : Nat)
  | top
  | pop
  | size
  | bulkPushBegin
  | bulkPush (x : α) (p : Nat)
  | bulkPushEnd
  | bulkPop (maxSize : Nat)
  | bulkPopLimit (limit : α) (maxSize : Option Nat)
  | limitBegin (limit : α)
  | limitPush (x : α) (p : Nat)
  | limitTop
  | limitPop
  | limitEnd

/-- What a call returns. -/
inductive Out (α : Type)
  | unit
  | val (v : α)
  | num (n : Nat)
  | list (l : List α)
  | listFlag (l : List α) (all : Bool)
  deriving DecidableEq

inductive Mode (α : Type)
  | normal
  | bulk
  | limit (l : α)

/-- What the user knows: the elements in the queue, the phase, and the element returned by `top` or `limit_top` if that was the last call. -/
structure Q (α : Type) where
  elems : List α
  mode : Mode α
  last : Option α

/-- No element is before `v`. -/
def Least (lt : α → α → Bool) (v : α) (m : List α) : Prop := v ∈ m ∧ ∀ y ∈ m, lt y v = false

/-- The calls that are allowed. -/
def Legal (lt : α → α → Bool) (q : Q α) : Op α → Prop
  | .push _ _ | .size | .bulkPushBegin | .bulkPop _ | .bulkPopLimit _ _ | .limitBegin _ => q.mode = .normal
  | .top | .pop => q.mode = .normal ∧ q.elems ≠ []
  | .bulkPush _ _ | .bulkPushEnd => q.mode = .bulk
  | .limitPush x _ => ∃ l, q.mode = .limit l ∧ lt x l = false
  | .limitTop | .limitEnd => ∃ l, q.mode = .limit l
  | .limitPop => ∃ l v, q.mode = .limit l ∧ q.last = some v ∧ lt v l = true

/-- The elements `out` were taken from the queue in sorted order, and nothing that is left is before one of them. -/
structure Extracted (lt : α → α → Bool) (m out m' : List α) : Prop where
  perm : List.Perm m (out ++ m')
  sorted : Sorted lt out
  least : ∀ x ∈ out, ∀ y ∈ m', lt y x = false

/-- What a call may return, and what is in the queue afterwards. -/
def Step (lt : α → α → Bool) (q : Q α) (op : Op α) (out : Out α) (q' : Q α) : Prop :=
  match op with
  | .push x _ | .bulkPush x _ | .limitPush x _ => out = .unit ∧ List.Perm q'.elems (x :: q.elems) ∧ q'.mode = q.mode ∧ q'.last = none
  | .top => ∃ v, out = .val v ∧ Least lt v q.elems ∧ q' = { q with last := some v }
  | .pop => out = .unit ∧ ∃ v, Least lt v q.elems ∧ (∀ w, q.last = some w → v = w) ∧ List.Perm q.elems (v :: q'.elems) ∧
      q'.mode = q.mode ∧ q'.last = none
  | .size => out = .num q.elems.length ∧ q' = q
  | .bulkPushBegin => out = .unit ∧ q' = ⟨q.elems, .bulk, none⟩
  | .bulkPushEnd | .limitEnd => out = .unit ∧ q' = ⟨q.elems, .normal, none⟩
  | .bulkPop n => ∃ l, out = .list l ∧ Extracted lt q.elems l q'.elems ∧ (0 < n → l.length ≤ n) ∧ q'.mode = q.mode ∧ q'.last = none
  | .bulkPopLimit lim n => ∃ l all, out = .listFlag l all ∧ Extracted lt q.elems l q'.elems ∧ (∀ x ∈ l, lt x lim = true) ∧
      (∀ k, n = some k → l.length ≤ k) ∧ (all = true → ∀ y ∈ q'.elems, lt y lim = false) ∧ q'.mode = q.mode ∧ q'.last = none
  | .limitBegin lim => out = .unit ∧ q' = ⟨q.elems, .limit lim, none⟩
  | .limitTop => ∃ l v, q.mode = .limit l ∧ out = .val v ∧
      ((Least lt v q.elems ∧ lt v l = true) ∨ (v = l ∧ ∀ y ∈ q.elems, lt y l = false)) ∧ q' = { q with last := some v }
  | .limitPop => out = .unit ∧ ∃ v, q.last = some v ∧ List.Perm q.elems (v :: q'.elems) ∧ q'.mode = q.mode ∧ q'.last = none

/-- A history of calls and results is that of a priority queue, up to the first call that is not allowed. -/
def Matches (lt : α → α → Bool) : Q α → List (Op α × Out α) → Prop
  | _, [] => True
  | q, (op, out) :: l => Legal lt q op → ∃ q', Step lt q op out q' ∧ Matches lt q' l

/-- The calls that never read the first element, in the right phases (`b`: in a bulk push), for existing insertion heaps. -/
def BulkHist (nh : Nat) : Bool → List (Op α) → Prop
  | _, [] => True
  | false, .push _ p :: l => p < nh ∧ BulkHist nh false l
  | false, .size :: l => BulkHist nh false l
  | false, .bulkPop _ :: l => BulkHist nh false l
  | false, .bulkPushBegin :: l => BulkHist nh true l
  | true, .bulkPush _ p :: l => p < nh ∧ BulkHist nh true l
  | true, .bulkPushEnd :: l => BulkHist nh false l
  | _, _ :: _ => False

/-- The results are those of a priority queue, and `bulk_pop` delivers as many elements as it was asked for, if there are as many. -/
def Served (lt : α → α → Bool) : Q α → List (Op α × Out α) → Prop
  | _, [] => True
  | q, (op, out) :: l => Legal lt q op ∧ ∃ q', Step lt q op out q' ∧
      (∀ n, op = .bulkPop n → 0 < n → ∃ r, out = .list r ∧ r.length = min n q.elems.length) ∧ Served lt q' l

end Stxxl.PPQ
