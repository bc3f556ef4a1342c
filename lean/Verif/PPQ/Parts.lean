import Verif.PPQ.Inv
/-! Invariants of the parts of the queue, and what the internal operations do to them. -/
namespace Stxxl.PPQ
open MwMerge.Spec
variable {α : Type}

def items (ias : List (IA α)) : List α := (ias.map (·.items)).flatten
def rests (eas : List (EA α)) : List α := (eas.map EA.rest).flatten
def ords (hs : List (Hp α)) : List α := (hs.map (·.ord)).flatten
def pends (hs : List (Hp α)) : List α := (hs.map (·.pend)).flatten

/-- Internal arrays. -/
structure IntOk (c : Cfg α) (ias : List (IA α)) (isize : Nat) : Prop where
  sorted : ∀ a ∈ ias, Sorted c.lt a.items
  size : isize = (items ias).length

/-- External arrays. -/
structure ExtOk (c : Cfg α) (eas : List (EA α)) (esize : Nat) (emt : List (Option α)) : Prop where
  ok : ∀ e ∈ eas, EAok c e
  size : esize = (rests eas).length
  tree : ∀ i, emt.getD i none = (eas[i]?).bind (·.nextMin c.B)
  len : eas.length ≤ emt.length

/-- Insertion heaps. -/
structure HeapsOk (c : Cfg α) (hs : List (Hp α)) (hsize : Nat) (mh : List (Option α)) (hdH : Option α) : Prop where
  sorted : ∀ h ∈ hs, Sorted c.lt h.ord
  size : hsize = (ords hs).length
  tree : mh = hs.map (·.ord.head?)
  head : hdH = (argmin c.lt mh).map (·.2)

/-- The tree of internal arrays. -/
def IAtree (c : Cfg α) (ias : List (IA α)) (mia : List (Option α)) (hdI : Option α) : Prop :=
  (ias = [] ∧ hdI = none) ∨
    ((∀ i, mia.getD i none = (ias[i]?).bind (·.items.head?)) ∧ hdI = (argmin c.lt mia).map (·.2))

/-! ### Hints -/

def noHint (e : EA α) : EA α := { e with unh := 0 }

def HintEq (a b : List (EA α)) : Prop := a.map noHint = b.map noHint

theorem HintEq.refl (a : List (EA α)) : HintEq a a := rfl
theorem HintEq.trans {a b d : List (EA α)} (h1 : HintEq a b) (h2 : HintEq b d) : HintEq a d := Eq.trans h1 h2

theorem HintEq.map {β : Type} {a b : List (EA α)} (h : HintEq a b) (f : EA α → β) (hf : ∀ e, f (noHint e) = f e) : a.map f = b.map f := by
  have h1 : ∀ l : List (EA α), l.map f = (l.map noHint).map f := by intro l; simp [hf]
  rw [h1 a, h1 b, h]

theorem HintEq.length {a b : List (EA α)} (h : HintEq a b) : a.length = b.length := by
  have := congrArg List.length h; simpa using this

theorem HintEq.get {a b : List (EA α)} (h : HintEq a b) (i : Nat) : (a[i]?).map noHint = (b[i]?).map noHint := by
  rw [← List.getElem?_map, ← List.getElem?_map, h]

theorem noHint_ok {c : Cfg α} {e : EA α} : EAok c (noHint e) ↔ EAok c e :=
  ⟨fun h => ⟨h.sorted, h.le, h.len, h.bnd⟩, fun h => ⟨h.sorted, h.le, h.len, h.bnd⟩⟩

theorem HintEq.rests {a b : List (EA α)} (h : HintEq a b) : PPQ.rests a = PPQ.rests b := by
  unfold PPQ.rests; rw [h.map EA.rest (fun _ => rfl)]

theorem ExtOk.congr {c : Cfg α} {a b : List (EA α)} {n : Nat} {emt : List (Option α)} (h : ExtOk c b n emt) (hh : HintEq a b) :
    ExtOk c a n emt := by
  refine ⟨?_, by rw [hh.rests]; exact h.size, ?_, by rw [hh.length]; exact h.len⟩
  · intro e he
    have h1 : noHint e ∈ a.map noHint := List.mem_map_of_mem he
    rw [hh] at h1
    obtain ⟨e', he', h2⟩ := List.mem_map.1 h1
    rw [← noHint_ok, ← h2, noHint_ok]
    exact h.ok e' he'
  · intro i
    rw [h.tree i]
    have h1 := hh.get i
    cases ha : a[i]? with
    | none => rw [ha] at h1; cases hb : b[i]? with
      | none => rfl
      | some y => rw [hb] at h1; simp at h1
    | some x => rw [ha] at h1; cases hb : b[i]? with
      | none => rw [hb] at h1; simp at h1
      | some y =>
        rw [hb] at h1
        simp only [Option.map_some, Option.some.injEq] at h1
        show y.nextMin c.B = x.nextMin c.B
        rw [show y.nextMin c.B = (noHint y).nextMin c.B from rfl, ← h1]; rfl

theorem modify_hintEq (f : EA α → EA α) (hf : ∀ e, noHint (f e) = noHint e) (eas : List (EA α)) (i : Nat) :
    HintEq (eas.modify i f) eas := by
  unfold HintEq
  apply List.ext_getElem?
  intro k
  rw [List.getElem?_map, List.getElem?_map, List.getElem?_modify]
  cases eas[k]? with
  | none => simp
  | some e =>
    by_cases hk : i = k
    · simp [hk, hf]
    · simp [hk]

theorem hintLoop_eq (c : Cfg α) : ∀ (f : Nat) (eas : List (EA α)), HintEq (hintLoop c f eas).2 eas := by
  intro f
  induction f with
  | zero => intro eas; exact HintEq.refl _
  | succ f ih =>
    intro eas
    rw [hintLoop]
    split
    · exact HintEq.refl _
    · exact (ih _).trans (modify_hintEq (fun e => { e with unh := e.unh + 1 }) (fun _ => rfl) _ _)

theorem hintExternal_eq (c : Cfg α) (s : S α) : ∃ eas free, hintExternal c s = { s with eas := eas, free := free } ∧ HintEq eas s.eas :=
  ⟨_, _, rfl, hintLoop_eq c _ _⟩

theorem rebuildHints_eq (c : Cfg α) (s : S α) : ∃ eas free, rebuildHints c s = { s with eas := eas, free := free } ∧ HintEq eas s.eas := by
  refine ⟨_, _, rfl, (hintLoop_eq c _ _).trans ?_⟩
  unfold HintEq
  rw [List.map_map]
  rfl

theorem resizePool_eq (c : Cfg α) (s : S α) : ∃ R free, resizePool c s = { s with R := R, free := free } := by
  unfold resizePool
  dsimp only
  split
  · exact ⟨_, _, rfl⟩
  · exact ⟨_, _, rfl⟩

/-! ### Trees of minima -/

theorem headEvent_eq (c : Cfg α) (s : S α) : ∃ oob, headEvent c s = { s with root := headGame c s, oob := oob } := ⟨_, rfl⟩

theorem items_filter : ∀ ias : List (IA α), items (ias.filter fun a => !a.items.isEmpty) = items ias := by
  intro ias
  unfold items
  induction ias with
  | nil => rfl
  | cons a l ih =>
    rw [List.filter_cons]
    cases ha : a.items with
    | nil => simp [ha, ih]
    | cons x r => simp [ha, ih]

theorem IntOk.filter {c : Cfg α} {ias : List (IA α)} {n : Nat} (h : IntOk c ias n) :
    IntOk c (ias.filter fun a => !a.items.isEmpty) n :=
  ⟨fun a ha => h.sorted a (List.mem_filter.1 ha).1, by rw [items_filter]; exact h.size⟩

theorem slotsFrom_ge : ∀ (f p n : Nat), n ≤ p + f → 0 < p → n ≤ slotsFrom f p n := by
  intro f
  induction f with
  | zero => intro p n h _; simpa [slotsFrom] using h
  | succ f ih =>
    intro p n h hp
    rw [slotsFrom]
    split
    · assumption
    · exact ih _ _ (by omega) (by omega)

/-- After cleaning up the internal arrays, their tree is right. -/
theorem cleanupInt_eq (c : Cfg α) (s : S α) : ∃ mia hdI root oob,
    cleanupInt c s = { s with ias := s.ias.filter fun a => !a.items.isEmpty, mia := mia, hdI := hdI, root := root, oob := oob } ∧
    IAtree c (s.ias.filter fun a => !a.items.isEmpty) mia hdI ∧ root = headGame c { s with hdI := hdI } := by
  unfold cleanupInt rebuildIAmin
  dsimp only
  split <;> rename_i h
  · exact ⟨_, _, _, _, rfl, .inl ⟨List.isEmpty_iff.1 h, rfl⟩, rfl⟩
  · refine ⟨_, _, _, _, rfl, .inr ⟨?_, rfl⟩, rfl⟩
    intro i
    generalize hL : (s.ias.filter fun a => !a.items.isEmpty) = L
    have hge := slotsFrom_ge L.length 1 L.length (by omega) (by omega)
    rw [List.getD_eq_getElem?_getD, List.getElem?_map]
    by_cases hi : i < slotsFrom L.length 1 L.length
    · rw [List.getElem?_range hi]; rfl
    · rw [List.getElem?_eq_none (by simp; omega), List.getElem?_eq_none (l := L) (by omega)]; rfl

/-- Adding an internal array to the tree. -/
theorem addIAmin_eq {c : Cfg α} {s s' : S α} {ias : List (IA α)} {a : IA α} (hs : s.ias = ias ++ [a]) (hne : a.items ≠ [])
    (hI : IAtree c ias s.mia s.hdI) (h : addIAmin c s ias.length = some s') : ∃ mia hdI root oob,
    s' = { s with mia := mia, hdI := hdI, root := root, oob := oob } ∧ IAtree c s.ias mia hdI ∧ root = headGame c { s with hdI := hdI } := by
  unfold addIAmin at h
  split_ifs at h with h1 h2
  simp only [Option.some.injEq] at h
  subst h
  refine ⟨_, _, _, _, rfl, .inr ⟨?_, rfl⟩, rfl⟩
  intro i
  rw [List.getD_eq_getElem?_getD, List.getElem?_set]
  by_cases hi : ias.length = i
  · subst hi
    rw [if_pos rfl, if_pos (by omega)]; rfl
  · rw [if_neg hi, ← List.getD_eq_getElem?_getD]
    rcases hI with ⟨h3, h4⟩ | ⟨h3, h4⟩
    · subst h3
      simp only [List.any_eq_true, Bool.and_eq_true, not_exists, not_and] at h2
      have hout : s.ias[i]? = none := by rw [hs]; exact List.getElem?_eq_none (by simp at hi ⊢; omega)
      rw [hout]
      cases hg : s.mia.getD i none with
      | none => rfl
      | some y =>
        by_cases hlt : i < s.mia.length
        · have h5 := h2 i (List.mem_range.2 hlt)
          rw [hg] at h5
          exfalso
          refine h5 ⟨by simpa using fun h => hi h.symm, rfl⟩ ?_
          simp [iaKey, hout]
        · rw [List.getD_eq_getElem?_getD, List.getElem?_eq_none (by omega)] at hg
          simp at hg
    · rw [h3 i, hs]
      by_cases hlt : i < ias.length
      · rw [List.getElem?_append_left hlt]
      · rw [List.getElem?_eq_none (l := ias) (by omega), List.getElem?_eq_none (by simp; omega)]

/-! ### Merging -/

theorem merges_all {lt : α → α → Bool} {Q Q' : List (List α)} {out : List α} (h : Merges lt false Q Q.flatten.length out Q') :
    List.Perm out Q.flatten := by
  have h1 := h.perm.length_eq
  rw [List.length_append, h.length] at h1
  have : Q'.flatten = [] := List.length_eq_zero_iff.1 (by omega)
  have h2 := h.perm
  rw [this, List.append_nil] at h2
  exact h2

theorem items_clear (p : IA α → Bool) : ∀ ias : List (IA α),
    List.Perm (items ias) (items (ias.map fun a => if p a then { a with items := [] } else a) ++
      ((ias.filter fun a => p a && !a.items.isEmpty).map (·.items)).flatten) := by
  intro ias
  classical
  induction ias with
  | nil => simp [items]
  | cons a l ih =>
    have hc := fun x => List.perm_iff_count.1 ih x
    refine List.perm_iff_count.2 fun x => ?_
    have h3 := hc x
    rw [List.filter_cons]
    simp only [items, List.map_cons, List.flatten_cons, List.count_append] at h3 ⊢
    cases hp : p a with
    | false => simp only [Bool.false_and, Bool.false_eq_true, if_false]; omega
    | true =>
      simp only [Bool.true_and, if_true]
      cases hi : a.items with
      | nil => simp only [List.isEmpty_nil, Bool.not_true, Bool.false_eq_true, if_false, List.count_nil]; omega
      | cons y r => simp only [List.isEmpty_cons, Bool.not_false, if_true, List.map_cons, List.flatten_cons, List.count_append, hi,
          List.count_nil]; omega

theorem items_append (a b : List (IA α)) : items (a ++ b) = items a ++ items b := by simp [items]

/-- `add_as_internal_array` -/
theorem addIA_eq {c : Cfg α} (hc : CfgOk c) (o : Oracle) : ∀ (f : Nat) (s s' : S α) (vals : List α) (level : Nat),
    IntOk c s.ias s.isize → Sorted c.lt vals → addIA c o f s vals level = some s' →
    ∃ ias isize mia hdI root oob, s' = { s with ias := ias, isize := isize, mia := mia, hdI := hdI, root := root, oob := oob } ∧
      IntOk c ias isize ∧ List.Perm (items ias) (vals ++ items s.ias) ∧
      (s.eb ≠ [] → IAtree c s.ias s.mia s.hdI → IAtree c ias mia hdI ∧ root = headGame c { s with hdI := hdI }) := by
  intro f
  induction f with
  | zero => intro s s' vals level _ _ h; simp [addIA] at h
  | succ f ih =>
    intro s s' vals level hI hv h
    rw [addIA] at h
    by_cases hve : vals.isEmpty = true
    · rw [if_pos hve] at h; simp at h
    rw [if_neg hve] at h
    by_cases hca : c.asserts = true
    · rw [if_pos hca] at h; simp at h
    rw [if_neg hca] at h
    dsimp only at h
    -- the first part
    have key : ∀ s2, (if s.eb.isEmpty then some { s with ias := s.ias ++ [⟨vals, level⟩] } else
        addIAmin c { s with ias := s.ias ++ [⟨vals, level⟩] } s.ias.length) = some s2 →
        ∃ mia hdI root oob, s2 = { s with ias := s.ias ++ [⟨vals, level⟩], mia := mia, hdI := hdI, root := root, oob := oob } ∧
          (s.eb ≠ [] → IAtree c s.ias s.mia s.hdI → IAtree c (s.ias ++ [⟨vals, level⟩]) mia hdI ∧ root = headGame c { s with hdI := hdI }) := by
      intro s2 h2
      by_cases heb : s.eb.isEmpty = true
      · rw [if_pos heb, Option.some.injEq] at h2
        subst h2
        exact ⟨_, _, _, _, rfl, fun h3 => absurd (List.isEmpty_iff.1 heb) h3⟩
      · rw [if_neg heb] at h2
        by_cases ht : IAtree c s.ias s.mia s.hdI
        · obtain ⟨mia, hdI, root, oob, h3, h4, h5⟩ := addIAmin_eq (s := { s with ias := s.ias ++ [⟨vals, level⟩] }) rfl
            (by simpa using hve) ht h2
          exact ⟨mia, hdI, root, oob, h3, fun _ _ => ⟨h4, h5⟩⟩
        · unfold addIAmin at h2
          split_ifs at h2
          rw [Option.some.injEq] at h2
          subst h2
          exact ⟨_, _, _, _, rfl, fun _ h3 => absurd h3 ht⟩
    split at h
    · simp at h
    · rename_i s2 h2
      obtain ⟨mia, hdI, root, oob, rfl, htree⟩ := key s2 h2
      have hI3 : IntOk c (s.ias ++ [⟨vals, level⟩]) (s.isize + vals.length) := by
        refine ⟨?_, ?_⟩
        · intro a ha
          simp only [List.mem_append, List.mem_singleton] at ha
          rcases ha with ha | rfl
          · exact hI.sorted a ha
          · exact hv
        · rw [items_append, hI.size]; simp [items]
      have hp3 : List.Perm (items (s.ias ++ [⟨vals, level⟩])) (vals ++ items s.ias) := by
        rw [items_append]; simpa [items] using List.perm_append_comm
      dsimp only at h
      split_ifs at h with h4 h5
      · rw [Option.some.injEq] at h
        subst h
        exact ⟨_, _, _, _, _, _, rfl, hI3, hp3, htree⟩
      · rw [Option.some.injEq] at h
        subst h
        exact ⟨_, _, _, _, _, _, rfl, hI3, hp3, htree⟩
      · split at h
        · simp at h
        · rename_i out rest hmm
          generalize hL : s.ias ++ [⟨vals, level⟩] = L at *
          generalize hQ : (L.filter fun a => decide (a.level = level) && !a.items.isEmpty).map (·.items) = Q at *
          have hQs : ∀ q ∈ Q, Sorted c.lt q := by
            intro q hq
            rw [← hQ] at hq
            obtain ⟨a, ha, rfl⟩ := List.mem_map.1 hq
            exact hI3.sorted a (List.mem_filter.1 ha).1
          rw [total_flatten] at hmm h
          have hm := hc.merges Q _ out rest hQs (Nat.le_refl _) hmm
          have hperm := merges_all hm
          obtain ⟨mia2, hdI2, root2, oob2, he, ht2, hr2⟩ := cleanupInt_eq c
            { s with
              ias := L.map fun a => if a.level = level then { a with items := [] } else a
              isize := s.isize + vals.length, mia := mia, hdI := hdI, root := root, oob := oob }
          rw [he] at h
          have hcl := items_clear (fun a => decide (a.level = level)) L
          rw [hQ] at hcl
          simp only [decide_eq_true_eq] at hcl
          have hI4 : IntOk c ((L.map fun a => if a.level = level then { a with items := [] } else a).filter fun a => !a.items.isEmpty)
              (s.isize + vals.length - Q.flatten.length) := by
            refine IntOk.filter ⟨?_, ?_⟩
            · intro a ha
              obtain ⟨b, hb, rfl⟩ := List.mem_map.1 ha
              split
              · exact sorted_nil
              · exact hI3.sorted b hb
            · have := hcl.length_eq
              rw [List.length_append] at this
              have := hI3.size
              omega
          obtain ⟨ias', isize', mia', hdI', root', oob', e1, e2, e3, e4⟩ := ih _ s' out (level + 1) hI4 hm.sorted h
          refine ⟨ias', isize', mia', hdI', root', oob', e1, e2, ?_, ?_⟩
          · refine e3.trans ?_
            rw [items_filter]
            refine (hperm.append_right _).trans ?_
            refine List.perm_append_comm.trans ?_
            exact hcl.symm.trans hp3
          · intro hne _
            exact e4 hne ht2

end Stxxl.PPQ
