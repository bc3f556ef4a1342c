import Verif.SwapVec.Model
/-!
# C88: swap_vector
-/
namespace Stxxl.SwapVec
variable {α : Type}

/-! ## Specification -/

inductive Op (α : Type) where
  | reserve (n : Nat) | resize (n : Nat) | swapBack (x : α) | clear | erase (first last : Nat) | eraseIf (pred : α → Bool)

/-- The list a user sees before and after an operation. `resize` to a larger size says nothing about the new elements. -/
inductive Step : List α → Op α → List α → Prop where
  | reserve (l n) : Step l (.reserve n) l
  | shrink (l n) (h : n ≤ l.length) : Step l (.resize n) (l.take n)
  | grow (l new) : Step l (.resize (l.length + new.length)) (l ++ new)
  | swapBack (l x) : Step l (.swapBack x) (l ++ [x])
  | clear (l) : Step l .clear []
  | erase (l first last) (h : first ≤ last) (h' : last ≤ l.length) : Step l (.erase first last) (l.take first ++ l.drop last)
  | eraseIf (l pred) : Step l (.eraseIf pred) (l.filter fun x => !pred x)

/-- The elements of the vector. -/
def Vec.view (v : Vec α) : List α := v.cells.take v.size

/-- Every reachable vector has room for its elements. -/
def Vec.Ok (v : Vec α) : Prop := v.size ≤ v.cells.length

/-- One call. -/
def Vec.run (dflt : α) (v : Vec α) : Op α → Option (Vec α)
  | .reserve n => v.reserve dflt n
  | .resize n => v.resize dflt n
  | .swapBack x => (v.swapBack dflt x).map (·.1)
  | .clear => some v.clear
  | .erase f l => v.erase f l
  | .eraseIf p => v.eraseIf p

/-- Calls that are allowed: `erase` gets a range of the vector that does not end one element before its end. -/
def Vec.Allowed (v : Vec α) : Op α → Prop
  | .erase f l => f ≤ l ∧ l ≤ v.size ∧ (l + 1 = v.size → f = l)
  | _ => True

/-! ## Proofs -/

theorem view_length {v : Vec α} (h : v.Ok) : v.view.length = v.size := by
  unfold Vec.view
  rw [List.length_take]
  exact Nat.min_eq_left h

theorem moveLoop_spec (tmp : List α) : ∀ (k i : Nat) (new : List α), i + k ≤ tmp.length → i + k ≤ new.length → new.take i = tmp.take i →
    ∃ c, moveLoop tmp k i new = some c ∧ c.length = new.length ∧ c.take (i + k) = tmp.take (i + k) := by
  intro k
  induction k with
  | zero => intro i new _ _ h; exact ⟨new, rfl, rfl, by simpa using h⟩
  | succ k ih =>
    intro i new h1 h2 h
    rw [moveLoop, List.getElem?_eq_getElem (show i < tmp.length by omega), List.getElem?_eq_getElem (show i < new.length by omega)]
    obtain ⟨c, c1, c2, c3⟩ := ih (i + 1) (new.set i tmp[i]) (by omega) (by simp; omega) (by
      rw [List.take_succ, List.take_succ, List.take_set_of_le (Nat.le_refl i), h]
      simp [show i < tmp.length by omega, show i < new.length by omega])
    refine ⟨c, c1, by simpa using c2, ?_⟩
    rw [show i + (k + 1) = i + 1 + k by omega]
    exact c3

theorem reserve_spec (dflt : α) {v : Vec α} (hv : v.Ok) (h32 : v.size < 2 ^ 32) (n : Nat) :
    ∃ w, v.reserve dflt n = some w ∧ w.Ok ∧ w.size = v.size ∧ w.view = v.view ∧ n ≤ w.cells.length ∧ v.cells.length ≤ w.cells.length := by
  unfold Vec.reserve Vec.Ok at *
  split
  · rename_i h
    split
    · rename_i hc
      have hs : v.size = 0 := by rw [hc] at hv; simpa using hv
      refine ⟨_, rfl, by simp; omega, rfl, ?_, by simp, by simp; omega⟩
      unfold Vec.view
      simp [hs]
    · rw [if_neg (by omega)]
      obtain ⟨c, c1, c2, c3⟩ := moveLoop_spec v.cells v.size 0 (List.replicate n dflt) (by omega) (by simp; omega) (by simp)
      rw [c1]
      rw [List.length_replicate] at c2
      refine ⟨⟨c, v.size⟩, rfl, by simp only; omega, rfl, ?_, by simp only; omega, by simp only; omega⟩
      unfold Vec.view
      simpa using c3
  · exact ⟨v, rfl, hv, rfl, rfl, by omega, by omega⟩

theorem swapAt_spec {xs : List α} {i j : Nat} (hi : i < xs.length) (hj : j < xs.length) :
    swapAt xs i j = some ((xs.set i xs[j]).set j xs[i]) := by
  unfold swapAt
  rw [List.getElem?_eq_getElem hi, List.getElem?_eq_getElem hj]

/-- One swap of a cell `i ≤ j` with cell `j`: the prefix grows by the element of `j`, what is behind `j` stays. -/
theorem swap_prefix {xs : List α} {i j : Nat} (hij : i ≤ j) (hj : j < xs.length) :
    ∃ ys, swapAt xs i j = some ys ∧ List.Perm ys xs ∧ ys.take (i + 1) = xs.take i ++ [xs[j]] ∧ ys.drop (j + 1) = xs.drop (j + 1) := by
  have hi : i < xs.length := by omega
  refine ⟨_, swapAt_spec hi hj, List.set_set_perm hi hj, ?_, ?_⟩
  · rw [List.take_succ]
    have e1 : ((xs.set i xs[j]).set j xs[i]).take i = xs.take i := by
      rw [List.take_set_of_le (by omega), List.take_set_of_le (Nat.le_refl _)]
    have e2 : ((xs.set i xs[j]).set j xs[i])[i]? = some xs[j] := by
      by_cases h : i = j
      · subst h; simp [hi]
      · rw [List.getElem?_set_ne (by omega), List.getElem?_set_self hi]
    rw [e1, e2]
    rfl
  · rw [List.drop_set_of_lt (by omega), List.drop_set_of_lt (by omega)]

theorem swapAt_comm {xs : List α} {i j : Nat} (hi : i < xs.length) (hj : j < xs.length) : swapAt xs i j = swapAt xs j i := by
  rw [swapAt_spec hi hj, swapAt_spec hj hi]
  by_cases h : i = j
  · subst h; rfl
  · rw [List.set_comm _ _ h]

theorem eraseLoop_spec : ∀ (k f l : Nat) (xs : List α), f ≤ l → l + k ≤ xs.length →
    ∃ ys, eraseLoop k f l xs = some ys ∧ List.Perm ys xs ∧ ys.take (f + k) = xs.take f ++ (xs.drop l).take k := by
  intro k
  induction k with
  | zero => intro f l xs _ _; exact ⟨xs, rfl, .refl _, by simp⟩
  | succ k ih =>
    intro f l xs hfl hl
    obtain ⟨ys, y1, y2, y3, y4⟩ := swap_prefix hfl (show l < xs.length by omega)
    obtain ⟨zs, z1, z2, z3⟩ := ih (f + 1) (l + 1) ys (by omega) (by rw [y2.length_eq]; omega)
    refine ⟨zs, by rw [eraseLoop, y1]; exact z1, z2.trans y2, ?_⟩
    rw [show f + (k + 1) = f + 1 + k by omega, z3, y3, y4, List.append_assoc,
      List.drop_eq_getElem_cons (show l < xs.length by omega), List.take_succ_cons]
    rfl

/-- What `erase` does, including its mistake. -/
theorem erase_spec {v : Vec α} (hv : v.Ok) {f l : Nat} (hfl : f ≤ l) (hl : l ≤ v.size) :
    ∃ w, v.erase f l = some w ∧ w.Ok ∧ List.Perm w.cells v.cells ∧
      w.view = if l + 1 = v.size then v.view.take (v.size - (l - f)) else v.view.take f ++ v.view.drop l := by
  have hvl := view_length hv
  unfold Vec.Ok at hv
  unfold Vec.erase
  rw [if_neg (by omega)]
  split
  · rename_i h
    obtain ⟨ys, y1, y2, y3⟩ := eraseLoop_spec (v.size - l) f l v.cells hfl (by omega)
    rw [y1]
    refine ⟨_, rfl, ?_, y2, ?_⟩
    · unfold Vec.Ok; simp only; rw [y2.length_eq]; omega
    · rw [if_neg (by omega)]
      unfold Vec.view
      simp only
      rw [show v.size - (l - f) = f + (v.size - l) by omega, y3, List.take_take, Nat.min_eq_left (show f ≤ v.size by omega), List.drop_take]
  · rename_i h
    refine ⟨_, rfl, ?_, .refl _, ?_⟩
    · unfold Vec.Ok; simp only; omega
    · have e : (⟨v.cells, v.size - (l - f)⟩ : Vec α).view = v.view.take (v.size - (l - f)) := by
        unfold Vec.view
        simp only
        rw [List.take_take, Nat.min_eq_left (by omega)]
      refine e.trans ?_
      split
      · rfl
      · have : l = v.size := by omega
        rw [this, show v.size - (v.size - f) = f by omega]
        rw [List.drop_of_length_le (by omega), List.append_nil]

theorem removeLoop_spec (pred : α → Bool) : ∀ (k first result : Nat) (xs : List α), result ≤ first → first + k ≤ xs.length →
    ∃ ys r, removeLoop pred k first result xs = some (ys, r) ∧ List.Perm ys xs ∧ r ≤ first + k ∧ ys.drop (first + k) = xs.drop (first + k) ∧
      ys.take r = xs.take result ++ ((xs.drop first).take k).filter fun x => !pred x := by
  intro k
  induction k with
  | zero => intro first result xs h1 h2; exact ⟨xs, result, rfl, .refl _, h1, rfl, by simp⟩
  | succ k ih =>
    intro first result xs h1 h2
    have hf : first < xs.length := by omega
    rw [removeLoop, List.getElem?_eq_getElem hf]
    simp only
    by_cases hp : pred xs[first] = true
    · rw [if_pos hp]
      obtain ⟨ys, r, y1, y2, y3, y4, y5⟩ := ih (first + 1) result xs (by omega) (by omega)
      refine ⟨ys, r, y1, y2, by omega, by rw [show first + (k + 1) = first + 1 + k by omega]; exact y4, ?_⟩
      rw [y5, List.drop_eq_getElem_cons hf, List.take_succ_cons, List.filter_cons]
      simp [hp]
    · rw [if_neg hp]
      obtain ⟨zs, z1, z2, z3, z4⟩ := swap_prefix h1 hf
      rw [swapAt_comm hf (by omega), z1]
      simp only
      obtain ⟨ys, r, y1, y2, y3, y4, y5⟩ := ih (first + 1) (result + 1) zs (by omega) (by rw [z2.length_eq]; omega)
      refine ⟨ys, r, y1, y2.trans z2, by omega, ?_, ?_⟩
      · rw [show first + (k + 1) = first + 1 + k by omega, y4, ← List.drop_drop, z4, List.drop_drop]
      · rw [y5, z3, z4, List.drop_eq_getElem_cons hf, List.take_succ_cons, List.filter_cons, List.append_assoc]
        simp [hp]

/-- **C88.** `swap_remove_if` on any range of any array: no element is lost or duplicated, nothing outside the range changes, and from the
beginning of the range to the returned position are exactly the elements to keep, in their order. -/
theorem C88_swap_remove_if (pred : α → Bool) {xs : List α} {first last : Nat} (h : first ≤ last) (h' : last ≤ xs.length) :
    ∃ ys r, swapRemoveIf pred first last xs = some (ys, r) ∧ List.Perm ys xs ∧ first ≤ r ∧ r ≤ last ∧
      ys.take first = xs.take first ∧ ys.drop last = xs.drop last ∧
      (ys.take r).drop first = ((xs.take last).drop first).filter fun x => !pred x := by
  obtain ⟨ys, r, y1, y2, y3, y4, y5⟩ := removeLoop_spec pred (last - first) first first xs (Nat.le_refl _) (by omega)
  rw [show first + (last - first) = last by omega] at y3 y4
  have hl : (ys.take r).length = first + (((xs.drop first).take (last - first)).filter fun x => !pred x).length := by
    rw [y5, List.length_append, List.length_take, Nat.min_eq_left (by omega)]
  have hr : first ≤ r := by
    rw [List.length_take] at hl
    omega
  refine ⟨ys, r, y1, y2, hr, y3, ?_, y4, ?_⟩
  · have := congrArg (List.take first) y5
    rw [List.take_take, Nat.min_eq_left hr, List.take_append_of_le_length (by rw [List.length_take]; omega), List.take_take, Nat.min_self] at this
    exact this
  · rw [y5, List.drop_append_of_le_length (by rw [List.length_take]; omega), List.drop_of_length_le (by rw [List.length_take]; omega), List.nil_append,
      List.drop_take]

theorem eraseIf_spec (pred : α → Bool) {v : Vec α} (hv : v.Ok) :
    ∃ w, v.eraseIf pred = some w ∧ w.Ok ∧ List.Perm w.cells v.cells ∧ w.view = v.view.filter fun x => !pred x := by
  unfold Vec.eraseIf
  obtain ⟨ys, r, y1, y2, _, y4, _, _, y7⟩ := C88_swap_remove_if pred (Nat.zero_le v.size) hv
  rw [y1]
  simp only
  have hok : (⟨ys, v.size⟩ : Vec α).Ok := by unfold Vec.Ok; simp only; rw [y2.length_eq]; exact hv
  obtain ⟨w, w1, w2, w3, w4⟩ := erase_spec hok (f := r) (l := v.size) y4 (Nat.le_refl _)
  refine ⟨w, w1, w2, w3.trans y2, ?_⟩
  rw [w4, if_neg (by simp only; omega)]
  have hl := view_length hok
  rw [List.drop_of_length_le (by rw [hl]; exact Nat.le_refl _), List.append_nil]
  unfold Vec.view
  simp only
  rw [List.take_take, Nat.min_eq_left y4]
  simpa using y7

theorem swapBack_spec (dflt x : α) {v : Vec α} (hv : v.Ok) (h32 : v.size < 2 ^ 32) :
    ∃ w old, v.swapBack dflt x = some (w, old) ∧ w.Ok ∧ w.view = v.view ++ [x] := by
  unfold Vec.swapBack
  have hw : ∃ w, (if v.cells.length < v.size + 1 then v.reserve dflt (Nat.max 2 (2 * v.cells.length)) else some v) = some w ∧
      w.size = v.size ∧ w.view = v.view ∧ w.size < w.cells.length := by
    unfold Vec.Ok at hv
    split
    · obtain ⟨w, w1, w2, w3, w4, w5, w6⟩ := reserve_spec dflt hv h32 (Nat.max 2 (2 * v.cells.length))
      refine ⟨w, w1, w3, w4, ?_⟩
      have a := Nat.le_max_left 2 (2 * v.cells.length)
      have b := Nat.le_max_right 2 (2 * v.cells.length)
      have c : Nat.max 2 (2 * v.cells.length) = max 2 (2 * v.cells.length) := rfl
      omega
    · exact ⟨v, rfl, rfl, rfl, by omega⟩
  obtain ⟨w, w1, w2, w3, w4⟩ := hw
  simp only
  rw [w1]
  simp only
  rw [List.getElem?_eq_getElem w4]
  refine ⟨_, _, rfl, ?_, ?_⟩
  · unfold Vec.Ok; simp; omega
  · rw [← w3]
    unfold Vec.view
    simp only
    rw [List.take_succ, List.take_set_of_le (Nat.le_refl _), List.getElem?_set_self w4]
    rfl

/-- **C88.** Every history: as long as no `erase` range ends one element before the end and there are fewer than 2^32 elements, nothing is
undefined, and the elements change as the operations say. -/
theorem C88_step (dflt : α) {v : Vec α} (hv : v.Ok) (h32 : v.size < 2 ^ 32) (o : Op α) (ha : v.Allowed o) :
    ∃ w, v.run dflt o = some w ∧ w.Ok ∧ Step v.view o w.view := by
  have hvl := view_length hv
  cases o with
  | reserve n =>
    obtain ⟨w, w1, w2, _, w4, _⟩ := reserve_spec dflt hv h32 n
    exact ⟨w, w1, w2, by rw [w4]; exact .reserve _ _⟩
  | resize n =>
    obtain ⟨w, w1, w2, w3, w4, w5, _⟩ := reserve_spec dflt hv h32 n
    refine ⟨{ w with size := n }, by show Vec.resize dflt v n = _; unfold Vec.resize; rw [w1], w5, ?_⟩
    have e : (⟨w.cells, n⟩ : Vec α).view = w.cells.take n := rfl
    show Step v.view (.resize n) (⟨w.cells, n⟩ : Vec α).view
    rw [e]
    by_cases hn : n ≤ v.size
    · have : w.cells.take n = v.view.take n := by
        rw [← w4]; unfold Vec.view
        rw [List.take_take, w3, Nat.min_eq_left hn]
      rw [this]
      exact .shrink _ _ (by omega)
    · have e2 : w.cells.take n = v.view ++ (w.cells.drop v.size).take (n - v.size) := by
        rw [← w4]; unfold Vec.view
        rw [w3]
        rw [← List.take_add, show v.size + (n - v.size) = n by omega]
      have := Step.grow v.view ((w.cells.drop v.size).take (n - v.size))
      rw [hvl, List.length_take, List.length_drop, Nat.min_eq_left (by omega), show v.size + (n - v.size) = n by omega] at this
      rw [e2]
      exact this
  | swapBack x =>
    obtain ⟨w, old, w1, w2, w3⟩ := swapBack_spec dflt x hv h32
    refine ⟨w, by show (v.swapBack dflt x).map (·.1) = _; rw [w1]; rfl, w2, by rw [w3]; exact .swapBack _ _⟩
  | clear => exact ⟨v.clear, rfl, Nat.zero_le _, by unfold Vec.view Vec.clear; simpa using Step.clear _⟩
  | erase f l =>
    obtain ⟨hfl, hl, hx⟩ := ha
    obtain ⟨w, w1, w2, _, w4⟩ := erase_spec hv hfl hl
    refine ⟨w, w1, w2, ?_⟩
    have : w.view = v.view.take f ++ v.view.drop l := by
      rw [w4]
      split
      · rename_i h
        rw [hx h, List.take_append_drop, Nat.sub_self, Nat.sub_zero, List.take_of_length_le (by omega)]
      · rfl
    rw [this]
    exact .erase _ _ _ hfl (by omega)
  | eraseIf p =>
    obtain ⟨w, w1, w2, _, w4⟩ := eraseIf_spec p hv
    exact ⟨w, w1, w2, by rw [w4]; exact .eraseIf _ _⟩

/-- A history of calls with the lists the user sees. -/
inductive Hist (dflt : α) : Vec α → List (Op α) → Vec α → Prop where
  | nil (v) : Hist dflt v [] v
  | cons {v w z o os} (h : v.run dflt o = some w) (hr : Hist dflt w os z) : Hist dflt v (o :: os) z

/-- The lists according to the specification. -/
inductive Steps : List α → List (Op α) → List α → Prop where
  | nil (l) : Steps l [] l
  | cons {l m n o os} (h : Step l o m) (hr : Steps m os n) : Steps l (o :: os) n

/-- Calls allowed in every state of the run, and never 2^32 elements. -/
def AllAllowed (dflt : α) : Vec α → List (Op α) → Prop
  | _, [] => True
  | v, o :: os => v.size < 2 ^ 32 ∧ v.Allowed o ∧ ∀ w, v.run dflt o = some w → AllAllowed dflt w os

theorem C88_history (dflt : α) (size capacity : Nat) : ∀ (ops : List (Op α)), AllAllowed dflt (Vec.make dflt size capacity) ops →
    ∃ w, Hist dflt (Vec.make dflt size capacity) ops w ∧ w.Ok ∧ Steps (List.replicate size dflt) ops w.view := by
  have hok : (Vec.make dflt size capacity).Ok := by
    unfold Vec.Ok Vec.make
    rw [List.length_replicate]
    exact Nat.le_max_left _ _
  have hview : (Vec.make dflt size capacity).view = List.replicate size dflt := by
    unfold Vec.view Vec.make
    simp only
    rw [List.take_replicate, Nat.min_eq_left (Nat.le_max_left _ _)]
  intro ops
  rw [← hview]
  generalize Vec.make dflt size capacity = v at hok
  clear hview
  induction ops generalizing v with
  | nil => intro _; exact ⟨v, .nil _, hok, .nil _⟩
  | cons o os ih =>
    intro h
    obtain ⟨w, w1, w2, w3⟩ := C88_step dflt hok h.1 o h.2.1
    obtain ⟨z, z1, z2, z3⟩ := ih w w2 (h.2.2 w w1)
    exact ⟨z, .cons w1 z1, z2, .cons w3 z3⟩

/-- **C88.** Erasing destroys nothing: the erased elements stay in the array behind the end. -/
theorem C88_nothing_lost {v : Vec α} (hv : v.Ok) :
    (∀ f l w, f ≤ l → l ≤ v.size → v.erase f l = some w → List.Perm w.cells v.cells) ∧
    (∀ pred w, v.eraseIf pred = some w → List.Perm w.cells v.cells) := by
  constructor
  · intro f l w hfl hl h
    obtain ⟨w', w1, _, w3, _⟩ := erase_spec hv hfl hl
    rw [w1] at h
    rw [← Option.some.inj h]; exact w3
  · intro pred w h
    obtain ⟨w', w1, _, w3, _⟩ := eraseIf_spec pred hv
    rw [w1] at h
    rw [← Option.some.inj h]; exact w3

/-- **C88.** `erase` of a range that ends one element before the end: nothing is moved, and the last elements are removed instead. -/
theorem C88_erase_second_to_last {v : Vec α} (hv : v.Ok) {f l : Nat} (hfl : f ≤ l) (hl : l + 1 = v.size) :
    ∃ w, v.erase f l = some w ∧ w.view = v.view.take (v.size - (l - f)) := by
  obtain ⟨w, w1, _, _, w4⟩ := erase_spec hv hfl (show l ≤ v.size by omega)
  exact ⟨w, w1, by rw [w4, if_pos hl]⟩

/-- **C88.** So `erase(position)` of the last but one element removes the last. -/
theorem C88_erase_removes_wrong_element : Vec.eraseOne (⟨[10, 20, 30], 3⟩ : Vec Nat) 1 = some ⟨[10, 20, 30], 2⟩ := by decide

/-- **C88.** `resize` after `clear` brings old elements back, and `swap_back` hands an old element to the caller. -/
theorem C88_stale_elements :
    (Vec.clear (⟨[10, 20, 30], 3⟩ : Vec Nat)).resize 0 2 = some ⟨[10, 20, 30], 2⟩ ∧
    (Vec.clear (⟨[10, 20, 30], 3⟩ : Vec Nat)).swapBack 0 7 = some (⟨[7, 20, 30], 1⟩, 10) := by decide

/-- **C88.** With 2^32 elements or more, growing never ends. -/
theorem C88_reserve_diverges (dflt : α) {v : Vec α} (hv : v.Ok) (h : 2 ^ 32 ≤ v.size) {n : Nat} (hn : v.cells.length < n) :
    v.reserve dflt n = none := by
  unfold Vec.reserve
  unfold Vec.Ok at hv
  rw [if_pos hn, if_neg (by intro hc; rw [hc] at hv; simp at hv; omega), if_pos h]

/-! Non-vacuity -/
def exOps : List (Op Nat) := [.swapBack 5, .swapBack 6, .swapBack 7, .swapBack 8, .erase 1 2, .eraseIf (fun x => x == 5), .swapBack 9, .erase 1 3]

example : AllAllowed 0 (Vec.make 0 0 0) exOps := by
  have e : ∀ (v w w' : Vec Nat) o, v.run 0 o = some w' → v.run 0 o = some w → w = w' := fun v w w' o h h' => by rw [h] at h'; exact (Option.some.inj h').symm
  refine ⟨by decide, trivial, fun w h => ?_⟩
  obtain rfl := e _ _ ⟨[5, 0], 1⟩ _ (by decide) h
  refine ⟨by decide, trivial, fun w h => ?_⟩
  obtain rfl := e _ _ ⟨[5, 6], 2⟩ _ (by decide) h
  refine ⟨by decide, trivial, fun w h => ?_⟩
  obtain rfl := e _ _ ⟨[5, 6, 7, 0], 3⟩ _ (by decide) h
  refine ⟨by decide, trivial, fun w h => ?_⟩
  obtain rfl := e _ _ ⟨[5, 6, 7, 8], 4⟩ _ (by decide) h
  refine ⟨by decide, by simp [Vec.Allowed], fun w h => ?_⟩
  obtain rfl := e _ _ ⟨[5, 7, 8, 6], 3⟩ _ (by decide) h
  refine ⟨by decide, trivial, fun w h => ?_⟩
  obtain rfl := e _ _ ⟨[7, 8, 5, 6], 2⟩ _ (by decide) h
  refine ⟨by decide, trivial, fun w h => ?_⟩
  obtain rfl := e _ _ ⟨[7, 8, 9, 6], 3⟩ _ (by decide) h
  exact ⟨by decide, by simp [Vec.Allowed], fun w h => trivial⟩

end Stxxl.SwapVec
