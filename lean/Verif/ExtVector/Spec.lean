import Verif.ExtVector.Ops

/-!
# Specification of the external vector: operations, legality, abstract array

The abstract vector is a `List (Option α)`: `some v` = element was last assigned `v`; `none` = never assigned since it
was created (its value is unspecified, as in the C++ documentation: "this will not call the constructor").
-/

namespace Stxxl.ExtVector

variable {α : Type}

/-- One call of the public interface. `victim` is the slot the pager would evict, `fresh` the block ids the block
manager would hand out, should the call need them. -/
inductive Op (α : Type) where
  /-- `v[i] = x` -/
  | write (i : Nat) (x : α) (victim : Nat)
  /-- `x = v[i]` on a non-const vector -/
  | readMut (i victim : Nat)
  /-- `x = v[i]` on a const vector / through a const iterator -/
  | readConst (i victim : Nat)
  | pushBack (x : α) (victim : Nat) (fresh : List Nat)
  | popBack
  | resize (n : Nat) (fresh : List Nat)
  /-- `resize(n, true)` -/
  | resizeShrink (n : Nat) (fresh : List Nat)
  | reserve (n : Nat) (fresh : List Nat)
  | flush
  | clear
  /-- an algorithm writes block `k` of the vector on disk and calls `block_externally_updated` -/
  | external (k : Nat) (c : Nat → α)
  /-- somebody else writes a block that does not belong to the vector -/
  | foreign (b : Nat) (c : Nat → α)

/-- Effect of a call on the model; the second component is the value read, `none` overall is a failed assertion or an
out-of-bounds access. -/
def step (B P : Nat) (s : Sys α) : Op α → Option (Sys α × Option α)
  | .write i x victim => (elementWrite B P s i x victim).map (·, none)
  | .readMut i victim => (elementRead B P s i victim).map (fun r => (r.1, some r.2))
  | .readConst i victim => (constElement B P s i victim).map (fun r => (r.1, some r.2))
  | .pushBack x victim fresh => (pushBack B P s x victim fresh).map (·, none)
  | .popBack => some (popBack B P s, none)
  | .resize n fresh => some (resizeV B P s n fresh, none)
  | .resizeShrink n fresh => some (resizeShrink B P s n fresh, none)
  | .reserve n fresh => some (reserve B P s n fresh, none)
  | .flush => (flush P s).map (·, none)
  | .clear => some (clear s, none)
  | .external k c => (externalWrite B P s k c).map (·, none)
  | .foreign b c => some ({ s with disk := upd s.disk b c }, none)

/-- The abstract array after the call. -/
def absStep (B : Nat) (abs : List (Option α)) : Op α → List (Option α)
  | .write i x _ => abs.set i (some x)
  | .pushBack x _ _ => abs ++ [some x]
  | .popBack => abs.dropLast
  | .resize n _ => abs.take n ++ List.replicate (n - abs.length) none
  | .resizeShrink n _ => abs.take n ++ List.replicate (n - abs.length) none
  | .clear => []
  | .external k c => abs.mapIdx (fun i a => if i / B = k then some (c (i % B)) else a)
  | _ => abs

/-- Guarantee of the block manager (C06) for a call that raises the capacity to `n` elements: as many ids as asked
for, pairwise different, none of them still in use by the vector. -/
def FreshIds (B : Nat) (s : Sys α) (n : Nat) (fresh : List Nat) : Prop :=
  capacity B s.vec < n → s.vec.fromFile = false →
    fresh.length = divCeil n B - s.vec.bids.length ∧ fresh.Nodup ∧ (∀ b ∈ fresh, b ∉ s.vec.bids)

/-- Preconditions of the calls. `shrink` says whether the history may use `resize(n, true)`; in such histories a later
call must not make the page table shorter than it is (the code does not handle that, see `C10_grow_after_shrink_ub`);
without `resize(n, true)` there is no such condition. -/
def Legal (B P : Nat) (shrink : Bool) (s : Sys α) : Op α → Prop
  | .write i _ victim => i < s.vec.size ∧ victim < s.vec.npages
  | .readMut i victim => i < s.vec.size ∧ victim < s.vec.npages
  | .readConst i victim => i < s.vec.size ∧ victim < s.vec.npages
  | .pushBack _ victim fresh => victim < s.vec.npages ∧ FreshIds B s (s.vec.size + 1) fresh ∧
      (shrink = true → NoCut B P s (s.vec.size + 1))
  | .popBack => True
  | .resize n fresh => FreshIds B s n fresh ∧ (shrink = true → NoCut B P s n)
  | .resizeShrink n fresh => shrink = true ∧ FreshIds B s n fresh ∧ NoCut B P s n
  | .reserve n fresh => FreshIds B s n fresh ∧ (shrink = true → NoCut B P s n)
  | .flush => True
  | .clear => True
  | .external k _ => k < s.vec.bids.length ∧ s.vec.status[k / P]? ≠ some .dirty
  | .foreign b _ => b ∉ s.vec.bids

/-- States that can be reached by legal histories, together with the abstract array. -/
inductive Reach (B P : Nat) (shrink : Bool) : Sys α → List (Option α) → Prop
  /-- `vector(n, npages)` -/
  | new (n npages : Nat) (fresh : List Nat) (s2p cache disk) :
      0 < npages → fresh.length = divCeil n B → fresh.Nodup →
      Reach B P shrink (newVec B P n npages fresh s2p cache disk) (List.replicate n none)
  /-- `vector(file, n, npages)` -/
  | file (n npages : Nat) (s2p cache disk) :
      0 < npages →
      Reach B P shrink (newFromFile B P n npages s2p cache disk)
        ((List.range n).map (fun i => some (disk (i / B) (i % B))))
  /-- `set_content` of an empty vector -/
  | content (n npages : Nat) (bids : List Nat) (s2p cache disk) :
      0 < npages → bids.length = divCeil n B → bids.Nodup →
      Reach B P shrink (setContent B P (newVec B P 0 npages [] s2p cache disk) bids n)
        ((List.range n).map (fun i => (bids[i / B]?).map (fun b => disk b (i % B))))
  | step (s s' : Sys α) (abs : List (Option α)) (op : Op α) (r : Option α) :
      Reach B P shrink s abs → Legal B P shrink s op → step B P s op = some (s', r) →
      Reach B P shrink s' (absStep B abs op)

/-! ## The invariant along histories -/

variable {B P : Nat}

structure WInv (B P : Nat) (shrink : Bool) (s : Sys α) (abs : List (Option α)) : Prop where
  inv : Inv B P s abs
  ids : FileIds s
  tight : shrink = false → s.vec.status.length = divCeil s.vec.bids.length P
  own : s.vec.fromFile = false → ∀ b ∈ s.vec.bids, b ∈ s.owned
  own' : shrink = false → s.vec.fromFile = false → ∀ b ∈ s.owned, b ∈ s.vec.bids

theorem divCeil_mono {a b d : Nat} (hd : 0 < d) (h : a ≤ b) : divCeil a d ≤ divCeil b d := by
  rw [divCeil_le_iff hd]
  have := divCeil_le_mul b hd
  omega

theorem WInv.noCut {sh} {s : Sys α} {abs} (h : WInv B P sh s abs) (n : Nat) (hc : sh = true → NoCut B P s n) :
    NoCut B P s n := by
  cases sh with
  | true => exact hc rfl
  | false =>
    intro hlt
    rw [h.tight rfl]
    apply divCeil_mono h.inv.hP
    have := (lt_divCeil_iff (n := n) (m := s.vec.bids.length) h.inv.hB).2 hlt
    omega

/-- Tables after `reserve`. -/
theorem reserve_tables {s : Sys α} {n : Nat} {fresh : List Nat} (hB : 0 < B) (hf : FreshIds B s n fresh) :
    (capacity B s.vec < n →
      (reserve B P s n fresh).vec.status.length = divCeil (reserve B P s n fresh).vec.bids.length P) ∧
    (¬ capacity B s.vec < n → reserve B P s n fresh = s) ∧
    (s.vec.fromFile = false → (∀ b ∈ s.vec.bids, b ∈ s.owned) →
      ∀ b ∈ (reserve B P s n fresh).vec.bids, b ∈ (reserve B P s n fresh).owned) ∧
    (s.vec.fromFile = false → (∀ b ∈ s.owned, b ∈ s.vec.bids) →
      ∀ b ∈ (reserve B P s n fresh).owned, b ∈ (reserve B P s n fresh).vec.bids) ∧
    (reserve B P s n fresh).vec.fromFile = s.vec.fromFile := by
  unfold reserve
  by_cases hle : n ≤ capacity B s.vec
  · rw [if_pos hle]
    exact ⟨fun h => by omega, fun _ => rfl, fun _ h => h, fun _ h => h, rfl⟩
  · rw [if_neg hle]
    have hlt : capacity B s.vec < n := by omega
    have hbig : s.vec.bids.length < divCeil n B := (lt_divCeil_iff hB).2 hlt
    by_cases hff : s.vec.fromFile = true
    · simp only [hff, if_true]
      refine ⟨fun _ => ?_, fun h => absurd hlt h, by simp, by simp, trivial⟩
      simp only [resizeList_length, List.length_append, List.length_range']
      congr 1; omega
    · have hff' : s.vec.fromFile = false := by simpa using hff
      obtain ⟨f1, _, _⟩ := hf hlt hff'
      simp only [hff', Bool.false_eq_true, if_false]
      refine ⟨fun _ => ?_, fun h => absurd hlt h, ?_, ?_, trivial⟩
      · simp only [resizeList_length, List.length_append, f1]
        congr 1; omega
      · intro _ h b hb
        simp only [List.mem_append] at hb ⊢
        exact hb.imp (h b) id
      · intro _ h b hb
        simp only [List.mem_append] at hb ⊢
        exact hb.imp (h b) id

theorem WInv.reserve {sh} {s : Sys α} {abs} (h : WInv B P sh s abs) {n : Nat} {fresh : List Nat}
    (hf : FreshIds B s n fresh) :
    (sh = false → (reserve B P s n fresh).vec.status.length = divCeil (reserve B P s n fresh).vec.bids.length P) ∧
    (s.vec.fromFile = false → ∀ b ∈ (reserve B P s n fresh).vec.bids, b ∈ (reserve B P s n fresh).owned) ∧
    (sh = false → s.vec.fromFile = false →
      ∀ b ∈ (reserve B P s n fresh).owned, b ∈ (reserve B P s n fresh).vec.bids) := by
  obtain ⟨t1, t2, t3, t4, _⟩ := reserve_tables (P := P) (s := s) (n := n) (fresh := fresh) h.inv.hB hf
  refine ⟨fun hs => ?_, fun hff => t3 hff (h.own hff), fun hs hff => t4 hff (h.own' hs hff)⟩
  by_cases hlt : capacity B s.vec < n
  · exact t1 hlt
  · rw [t2 hlt]; exact h.tight hs

/-- States related by page traffic only. -/
theorem WInv.ofSame {sh} {s s' : Sys α} {abs abs'} (h : WInv B P sh s abs) (hi : Inv B P s' abs') (hs : Same s s') :
    WInv B P sh s' abs' := by
  refine ⟨hi, ?_, ?_, ?_, ?_⟩
  · intro hx; rw [hs.bids]; exact h.ids (by rw [← hs.fromFile]; exact hx)
  · intro hx; rw [hs.slen, hs.bids]; exact h.tight hx
  · intro hx; rw [hs.bids, hs.owned]; exact h.own (by rw [← hs.fromFile]; exact hx)
  · intro hx hy; rw [hs.bids, hs.owned]; exact h.own' hx (by rw [← hs.fromFile]; exact hy)

theorem evictLoop_fromFile (k : Nat) : ∀ (s : Sys α) (i : Nat), (evictLoop s k i).vec.fromFile = s.vec.fromFile := by
  induction k with
  | zero => intros; rfl
  | succ k ih =>
    intro s i
    simp only [evictLoop]
    rw [ih]
    cases s.vec.p2s[i]? with
    | none => rfl
    | some m => cases m <;> rfl

theorem resizeV_fromFile (s : Sys α) (n : Nat) (fresh : List Nat) :
    (resizeV B P s n fresh).vec.fromFile = (reserve B P s n fresh).vec.fromFile := by
  unfold resizeV
  simp only
  split
  · exact evictLoop_fromFile _ _ _
  · rfl

theorem step_ok {sh} {s : Sys α} {abs} (h : WInv B P sh s abs) (op : Op α) (hl : Legal B P sh s op) :
    ∃ s' r, step B P s op = some (s', r) ∧ WInv B P sh s' (absStep B abs op) := by
  cases op with
  | write i x victim =>
    obtain ⟨s', h1, h2, h3⟩ := elementWrite_inv h.inv x hl.1 hl.2
    exact ⟨s', none, by simp [step, h1], h.ofSame h2 h3⟩
  | readMut i victim =>
    obtain ⟨s', r, h1, h2, h3, _⟩ := elementRead_inv h.inv hl.1 hl.2
    exact ⟨s', some r, by simp [step, h1], h.ofSame h2 h3⟩
  | readConst i victim =>
    obtain ⟨s', r, h1, h2, h3, _⟩ := constElement_inv h.inv hl.1 hl.2
    exact ⟨s', some r, by simp [step, h1], h.ofSame h2 h3⟩
  | pushBack x victim fresh =>
    obtain ⟨l1, l2, l3⟩ := hl
    obtain ⟨s', h1, h2, h3, h4, h5, h6⟩ := pushBack_inv h.inv x l1 l2 (h.noCut _ l3) h.ids
    obtain ⟨r1, r2, r3⟩ := h.reserve l2
    obtain ⟨_, _, _, _, t5⟩ := reserve_tables (P := P) h.inv.hB l2
    have hff : s'.vec.fromFile = s.vec.fromFile := by
      obtain ⟨q1, q2, q3, q4, q5, q6⟩ := resizeV_inv h.inv l2 (h.noCut _ l3) h.ids
      obtain ⟨s'', w1, w2, w3⟩ := elementWrite_inv q1 x (i := s.vec.size) (victim := victim)
        (by rw [← q1.len, absResize_length]; omega) (by rw [q2]; exact l1)
      have : s'' = s' := by
        have := h1; unfold pushBack at this; rw [w1] at this; exact Option.some.inj this
      rw [← this, w3.fromFile, resizeV_fromFile, t5]
    refine ⟨s', none, by simp [step, h1], ⟨h2, h3, ?_, ?_, ?_⟩⟩
    · intro hx; rw [h4, h5]; exact r1 hx
    · intro hx; rw [h4, h6]; exact r2 (by rw [← hff]; exact hx)
    · intro hx hy; rw [h4, h6]; exact r3 hx (by rw [← hff]; exact hy)
  | popBack =>
    obtain ⟨h1, h2, h3, h4, h5, h6⟩ := popBack_inv h.inv h.ids
    have hff : (popBack B P s).vec.fromFile = s.vec.fromFile := by
      have hle : ¬ capacity B s.vec < s.vec.size - 1 := by have := h.inv.cap; simp only [capacity]; omega
      unfold popBack
      rw [resizeV_fromFile, (reserve_tables (P := P) h.inv.hB (fun hx => absurd hx hle)).2.2.2.2]
    refine ⟨_, none, rfl, ⟨h1, h3, ?_, ?_, ?_⟩⟩
    · intro hx; rw [h4, h5]; exact h.tight hx
    · intro hx; rw [h4, h6]; exact h.own (by rw [← hff]; exact hx)
    · intro hx hy; rw [h4, h6]; exact h.own' hx (by rw [← hff]; exact hy)
  | resize n fresh =>
    obtain ⟨l2, l3⟩ := hl
    obtain ⟨h1, h2, h3, h4, h5, h6⟩ := resizeV_inv h.inv l2 (h.noCut _ l3) h.ids
    obtain ⟨r1, r2, r3⟩ := h.reserve l2
    obtain ⟨_, _, _, _, t5⟩ := reserve_tables (P := P) h.inv.hB l2
    have hff := (resizeV_fromFile (B := B) (P := P) s n fresh).trans t5
    refine ⟨_, none, rfl, ⟨h1, h3, ?_, ?_, ?_⟩⟩
    · intro hx; rw [h4, h5]; exact r1 hx
    · intro hx; rw [h4, h6]; exact r2 (by rw [← hff]; exact hx)
    · intro hx hy; rw [h4, h6]; exact r3 hx (by rw [← hff]; exact hy)
  | resizeShrink n fresh =>
    obtain ⟨rfl, l2, l3⟩ := hl
    obtain ⟨h1, h2, h3⟩ := resizeShrink_inv h.inv l2 l3 h.ids
    refine ⟨_, none, rfl, ⟨h1, h3, by simp, ?_, by simp⟩⟩
    obtain ⟨r1, r2, r3⟩ := h.reserve l2
    obtain ⟨_, _, _, _, t5⟩ := reserve_tables (P := P) h.inv.hB l2
    unfold resizeShrink
    dsimp only
    split
    · intro hx; exact r2 (by rw [← t5]; exact hx)
    · split
      · by_cases hff : s.vec.fromFile = true
        · simp [hff]
        · have hff' : s.vec.fromFile = false := by simpa using hff
          intro _ b hb
          simp only [hff', Bool.false_eq_true, if_false] at hb ⊢
          simpa [release] using h.own hff' b (List.mem_of_mem_take hb)
      · exact h.own
  | reserve n fresh =>
    obtain ⟨l2, l3⟩ := hl
    obtain ⟨h1, h2, h3, h4, h5, h6, _⟩ := reserve_inv h.inv l2 (h.noCut _ l3) h.ids
    obtain ⟨r1, r2, r3⟩ := h.reserve l2
    refine ⟨_, none, rfl, ⟨h1, h6, r1, ?_, ?_⟩⟩
    · intro hx; exact r2 (by rw [← h5]; exact hx)
    · intro hx hy; exact r3 hx (by rw [← h5]; exact hy)
  | flush =>
    obtain ⟨s', h1, h2, h3, _⟩ := flush_inv h.inv
    exact ⟨s', none, by simp [step, h1], h.ofSame h2 h3⟩
  | clear =>
    refine ⟨_, none, rfl, ⟨clear_inv h.inv, by intro _; rfl, ?_, by intro _ b hb; simp [clear] at hb, ?_⟩⟩
    · intro _; simp [clear, divCeil]
    · intro hx hy b hb
      simp only [clear] at hy hb
      simp only [hy, Bool.false_eq_true, if_false, release, List.mem_filter] at hb
      have := h.own' hx hy b hb.1
      simp [this] at hb
  | external k c =>
    obtain ⟨s', h1, h2, h3⟩ := externalWrite_inv h.inv c hl.1 hl.2
    exact ⟨s', none, by simp [step, h1], h.ofSame h2 h3⟩
  | foreign b c =>
    refine ⟨_, none, rfl, ⟨?_, h.ids, h.tight, h.own, h.own'⟩⟩
    refine { h.inv with content := ?_ }
    intro i v hi
    obtain ⟨st, c1, c2, c3, c4⟩ := h.inv.content i v hi
    refine ⟨st, c1, c2, c3, fun hv b' hb' => ?_⟩
    rw [← c4 hv b' hb']
    simp only
    rw [upd_ne]
    rintro rfl
    exact hl (List.mem_of_getElem? hb')

theorem reach_inv (hB : 0 < B) (hP : 0 < P) {sh} {s : Sys α} {abs} (h : Reach B P sh s abs) : WInv B P sh s abs := by
  induction h with
  | new n npages fresh s2p cache disk h1 h2 h3 =>
    refine ⟨newVec_inv hB hP h1 h2 h3 _ _ _, by simp [FileIds, newVec], ?_, ?_, ?_⟩
    · simp [newVec, h2]
    · simp [newVec]
    · simp [newVec]
  | file n npages s2p cache disk h1 =>
    refine ⟨?_, ?_, ?_, ?_, ?_⟩
    · have := opened_inv hB hP h1 (bids := List.range (divCeil n B)) (n := n) (by simp) List.nodup_range s2p cache disk true
        [] (divCeil n B)
      have e : diskElems B (List.range (divCeil n B)) disk n =
          (List.range n).map (fun i => some (disk (i / B) (i % B))) := by
        unfold diskElems
        apply List.map_congr_left
        intro i hi
        have : i / B < divCeil n B := by
          rw [lt_divCeil_iff hB]; have := Nat.div_mul_le_self i B; simp at hi; omega
        simp [this]
      rw [e] at this
      exact this
    · simp [FileIds, newFromFile]
    · simp [newFromFile]
    · simp [newFromFile]
    · simp [newFromFile]
  | content n npages bids s2p cache disk h1 h2 h3 =>
    refine ⟨?_, ?_, ?_, ?_, ?_⟩
    · have := opened_inv hB hP h1 (bids := bids) (n := n) h2 h3 s2p cache disk false ([] ++ bids) 0
      have e : divCeil (divCeil 0 B) P = 0 := by simp [divCeil]
      have e2 : ∀ {β} (x y : β) (k : Nat), resizeList (List.replicate 0 x) k y = List.replicate k y := by
        intro β x y k; simp [resizeList]
      simpa only [setContent, newVec, e, e2, diskElems] using this
    · simp [FileIds, setContent, newVec]
    · simp [setContent, newVec, resizeList_length, h2]
    · simp [setContent, newVec]
    · simp [setContent, newVec]
  | step s s' abs op r h1 h2 h3 ih =>
    obtain ⟨s'', r', h4, h5⟩ := step_ok ih op h2
    rw [h3] at h4
    cases h4; exact h5

end Stxxl.ExtVector
