import Verif.PPQ.Flush
/-! The insertion heaps. -/
namespace Stxxl.PPQ
open MwMerge.Spec
variable {α : Type}

/-- If the extract buffer is not empty, the trees are right and nothing in the external arrays is before an element of it. -/
structure FrontOk (c : Cfg α) (s : S α) : Prop where
  hdE : s.hdE = true
  tree : IAtree c s.ias s.mia s.hdI
  root : s.root = headGame c s
  ext : ∀ x ∈ s.eb, ∀ y ∈ rests s.eas, c.lt y x = false

def Front (c : Cfg α) (s : S α) : Prop := s.eb ≠ [] → FrontOk c s

/-- The invariant of the queue. -/
structure Inv (c : Cfg α) (s : S α) : Prop where
  heaps : HeapsOk c s.heaps s.hsize s.mh s.hdH
  core : Core c s
  front : Front c s

theorem headGame_congr {c : Cfg α} {s s' : S α} (h1 : s'.hdH = s.hdH) (h2 : s'.hdI = s.hdI) (h3 : s'.hdE = s.hdE) (h4 : s'.eb = s.eb) :
    headGame c s' = headGame c s := by
  unfold headGame; rw [h1, h2, h3, h4]

theorem Moved.rests {c : Cfg α} {s s' : S α} (h : Moved c s s') (h1 : s'.eb = s.eb) (h2 : s'.ias = s.ias) :
    List.Perm (PPQ.rests s'.eas) (PPQ.rests s.eas) := by
  have := h.perm
  unfold arrays at this
  rw [h1, h2] at this
  exact (List.perm_append_left_iff _).1 this

theorem Front.moved {c : Cfg α} {s s' : S α} (hf : Front c s) (h : Moved c s s') : Front c s' := by
  intro hne
  rcases h.eb with he | ⟨h1, h2, h3, h4, h5, h6⟩
  · exact absurd he hne
  · have h0 := hf (by rw [← h1]; exact hne)
    refine ⟨by rw [h5]; exact h0.hdE, by rw [h2, h3, h4]; exact h0.tree, ?_, ?_⟩
    · rw [h6, headGame_congr h.hdH h4 h5 h1]; exact h0.root
    · intro x hx y hy
      exact h0.ext x (by rw [← h1]; exact hx) y ((h.rests h1 h2).mem_iff.1 hy)

theorem Inv.moved {c : Cfg α} {s s' : S α} (hi : Inv c s) (h : Moved c s s') : Inv c s' :=
  ⟨by rw [h.heaps, h.hsize, h.mh, h.hdH]; exact hi.heaps, h.core, hi.front.moved h⟩

/-- Replacing one of several collections. -/
theorem flat_set {β : Type} (f : β → List α) : ∀ (l : List β) (i : Nat) (b b' : β), l[i]? = some b →
    List.Perm (((l.set i b').map f).flatten ++ f b) ((l.map f).flatten ++ f b') := by
  intro l
  classical
  induction l with
  | nil => intro i b b' h; simp at h
  | cons x l ih =>
    intro i b b' h
    cases i with
    | zero =>
      simp at h
      subst h
      refine List.perm_iff_count.2 fun y => ?_
      simp only [List.set_cons_zero, List.map_cons, List.flatten_cons, List.count_append]
      omega
    | succ i =>
      rw [List.getElem?_cons_succ] at h
      refine List.perm_iff_count.2 fun y => ?_
      have := List.perm_iff_count.1 (ih i b b' h) y
      simp only [List.set_cons_succ, List.map_cons, List.flatten_cons, List.count_append] at this ⊢
      omega

/-- Notifying the tree of a changed heap. -/
theorem updHeap_eq {c : Cfg α} {s : S α} {hs : List (Hp α)} {p : Nat} {h' : Hp α} (hm : s.mh = hs.map (·.ord.head?))
    (hh : s.heaps = hs.set p h') (hp : p < hs.length) : ∃ root oob, updHeap c s p =
    { s with
      mh := s.heaps.map (·.ord.head?), hdH := (argmin c.lt (s.heaps.map (·.ord.head?))).map (·.2), root := root, oob := oob } ∧
    root = headGame c { s with hdH := (argmin c.lt (s.heaps.map (·.ord.head?))).map (·.2) } := by
  have h1 : s.mh.set p ((s.heaps[p]?).bind (·.ord.head?)) = s.heaps.map (·.ord.head?) := by
    rw [hm, hh, List.map_set, List.getElem?_set_self hp]; rfl
  unfold updHeap headH
  rw [h1]
  exact ⟨_, _, rfl, rfl⟩

/-- The loop over the heaps that notifies the tree. -/
theorem updLoop_eq {c : Cfg α} (b : List (Hp α) → Nat → Bool) : ∀ (L : List Nat) (s : S α),
    s.mh.length = s.heaps.length → s.hdH = (argmin c.lt s.mh).map (·.2) →
    (∀ i ∈ L, b s.heaps i = false → s.mh[i]? = s.heaps[i]?.map (·.ord.head?)) →
    ∃ mh hdH root oob, L.foldl (fun s p => if b s.heaps p then updHeap c s p else s) s = { s with mh := mh, hdH := hdH, root := root, oob := oob } ∧
      mh.length = s.heaps.length ∧ hdH = (argmin c.lt mh).map (·.2) ∧
      (∀ i, mh[i]? = if i ∈ L then s.heaps[i]?.map (·.ord.head?) else s.mh[i]?) ∧ (s.root = headGame c s → root = headGame c { s with hdH := hdH }) := by
  intro L
  induction L with
  | nil =>
    intro s h1 h2 _
    exact ⟨_, _, _, _, rfl, h1, h2, fun i => by simp, fun h => h⟩
  | cons p L ih =>
    intro s h1 h2 h3
    rw [List.foldl_cons]
    cases hb : b s.heaps p with
    | false =>
      rw [if_neg (by simp)]
      obtain ⟨mh, hdH, root, oob, e1, e2, e3, e4, e5⟩ := ih s h1 h2 (fun i hi => h3 i (List.mem_cons_of_mem _ hi))
      refine ⟨mh, hdH, root, oob, e1, e2, e3, ?_, e5⟩
      intro i
      rw [e4 i]
      by_cases hi : i ∈ L
      · rw [if_pos hi, if_pos (List.mem_cons_of_mem _ hi)]
      · rw [if_neg hi]
        by_cases hip : i = p
        · subst hip; rw [if_pos List.mem_cons_self]; exact h3 i List.mem_cons_self hb
        · rw [if_neg (by simp [hip, hi])]
    | true =>
      rw [if_pos rfl]
      generalize hk : (s.heaps[p]?).bind (·.ord.head?) = k
      have hget : ∀ i, (s.mh.set p k)[i]? = if i = p then s.heaps[i]?.map (·.ord.head?) else s.mh[i]? := by
        intro i
        rw [List.getElem?_set]
        by_cases hip : p = i
        · subst hip
          rw [if_pos rfl, if_pos rfl, h1]
          by_cases hlt : p < s.heaps.length
          · rw [if_pos hlt, ← hk, List.getElem?_eq_getElem hlt]; rfl
          · rw [if_neg hlt, List.getElem?_eq_none (by omega)]; rfl
        · rw [if_neg hip, if_neg (Ne.symm hip)]
      have hu : updHeap c s p = headEvent c { s with mh := s.mh.set p k, hdH := (argmin c.lt (s.mh.set p k)).map (·.2) } := by
        unfold updHeap headH; rw [hk]
      obtain ⟨mh, hdH, root, oob, e1, e2, e3, e4, e5⟩ := ih (updHeap c s p)
        (by rw [hu]; show (s.mh.set p k).length = s.heaps.length; rw [List.length_set]; exact h1)
        (by rw [hu]; rfl)
        (by
          intro i hi hbi
          rw [hu] at hbi ⊢
          show (s.mh.set p k)[i]? = s.heaps[i]?.map _
          rw [hget i]
          split
          · rfl
          · exact h3 i (List.mem_cons_of_mem _ hi) hbi)
      rw [hu] at e1 e2 e4 e5 ⊢
      refine ⟨mh, hdH, root, oob, e1, e2, e3, ?_, fun _ => e5 rfl⟩
      intro i
      rw [e4 i]
      show (if i ∈ L then s.heaps[i]?.map (·.ord.head?) else (s.mh.set p k)[i]?) = _
      rw [hget i]
      by_cases hi : i ∈ L
      · rw [if_pos hi, if_pos (List.mem_cons_of_mem _ hi)]
      · rw [if_neg hi]
        by_cases hip : i = p
        · subst hip; rw [if_pos rfl, if_pos List.mem_cons_self]
        · rw [if_neg hip, if_neg (by simp [hip, hi])]

theorem updLoop_range {c : Cfg α} (b : List (Hp α) → Nat → Bool) (s : S α)
    (h1 : s.mh.length = s.heaps.length) (h2 : s.hdH = (argmin c.lt s.mh).map (·.2))
    (h3 : ∀ i, i < s.heaps.length → b s.heaps i = false → s.mh[i]? = s.heaps[i]?.map (·.ord.head?)) :
    ∃ mh hdH root oob, (List.range s.heaps.length).foldl (fun s p => if b s.heaps p then updHeap c s p else s) s =
        { s with mh := mh, hdH := hdH, root := root, oob := oob } ∧
      mh = s.heaps.map (·.ord.head?) ∧ hdH = (argmin c.lt mh).map (·.2) ∧ (s.root = headGame c s → root = headGame c { s with hdH := hdH }) := by
  obtain ⟨mh, hdH, root, oob, e1, e2, e3, e4, e5⟩ := updLoop_eq (c := c) b (List.range s.heaps.length) s h1 h2
    (fun i hi => h3 i (List.mem_range.1 hi))
  refine ⟨mh, hdH, root, oob, e1, ?_, e3, e5⟩
  apply List.ext_getElem?
  intro i
  rw [e4 i, List.getElem?_map]
  split
  · rfl
  · rename_i hi
    rw [List.mem_range] at hi
    rw [List.getElem?_eq_none (by omega), List.getElem?_eq_none (by omega)]; rfl

/-- `flush_insertion_heap` -/
theorem flushHeap_eq {c : Cfg α} (hc : CfgOk c) (o : Oracle) {p n : Nat} {h : Hp α} {s s' : S α} (hH : HeapsOk c s.heaps n s.mh s.hdH)
    (hC : Core c s) (hF : Front c s) (hp : s.heaps[p]? = some h) (hn : s.hsize = n + h.pend.length) (hh : flushHeap c o p s = some s') :
    Inv c s' ∧ s'.heaps = s.heaps.set p ⟨[], []⟩ ∧ s'.lim = s.lim ∧ List.Perm (arrays s') (h.ord ++ h.pend ++ arrays s) ∧
      (s'.eb = [] ∨ s'.eb = s.eb) ∧ (s'.full = true → s.full = true ∧ s'.eb = s.eb) := by
  unfold flushHeap at hh
  rw [hp] at hh
  dsimp only at hh
  split at hh
  · simp at hh
  · rename_i s1 h1
    have hm := flushMem_eq hc o 0 hC h1
    have hlt : p < s.heaps.length := (List.getElem?_eq_some_iff.1 hp).1
    obtain ⟨root, oob, hu, hr⟩ := updHeap_eq (c := c) (s := { s1 with heaps := s1.heaps.set p ⟨[], []⟩ }) (hs := s1.heaps) (p := p) (h' := ⟨[], []⟩)
      (by show s1.mh = _; rw [hm.mh, hm.heaps]; exact hH.tree) rfl (by rw [hm.heaps]; exact hlt)
    rw [hu] at hh
    generalize hv : sortList c.lt (h.ord ++ h.pend) = vals at hh
    have hvp : List.Perm vals (h.ord ++ h.pend) := by rw [← hv]; exact sortList_perm _ _
    split at hh
    · simp at hh
    · rename_i s2 h2
      obtain ⟨ias, isize, mia, hdI, root2, oob2, rfl, e2, e3, e4⟩ := addIA_eq hc o _ _ _ _ _ (by exact hm.core.int)
        (by rw [← hv]; exact sortList_sorted hc.swo _) h2
      rw [Option.some.injEq] at hh
      subst hh
      have hset := flat_set (·.ord) s.heaps p h ⟨[], []⟩ hp
      refine ⟨⟨?_, ⟨e2, hm.core.ext, hm.core.ebS⟩, ?_⟩, by rw [← hm.heaps], hm.lim, ?_, ?_, hm.full⟩
      · dsimp only
        rw [hm.heaps]
        refine ⟨?_, ?_, rfl, rfl⟩
        · intro x hx
          rcases List.mem_or_eq_of_mem_set hx with hx | rfl
          · exact hH.sorted x hx
          · exact sorted_nil
        · have := hset.length_eq
          have h5 := hvp.length_eq
          have h6 := hH.size
          rw [hm.hsize, hn]
          simp only [List.length_append, List.length_nil] at this h5
          unfold ords at h6 ⊢
          omega
      · intro hne
        have hF1 := (hF.moved hm) hne
        obtain ⟨h7, h8⟩ := e4 hne hF1.tree
        exact ⟨hF1.hdE, h7, h8, hF1.ext⟩
      · show List.Perm (s1.eb ++ items ias ++ rests s1.eas) _
        have h9 := hm.perm
        classical
        refine List.perm_iff_count.2 fun x => ?_
        have a1 := List.perm_iff_count.1 h9 x
        have a2 := List.perm_iff_count.1 e3 x
        have a3 := List.perm_iff_count.1 hvp x
        unfold arrays at a1 ⊢
        simp only [List.count_append] at a1 a2 a3 ⊢
        omega
      · rcases hm.eb with he | he
        · exact .inl he
        · exact .inr he.1

theorem argmin_nones {lt : α → α → Bool} {β : Type} (hw : SWO lt) (l : List β) : argmin lt (l.map fun _ => (none : Option α)) = none := by
  cases h : argmin lt (l.map fun _ => (none : Option α)) with
  | none => rfl
  | some q =>
    have := (argmin_some hw (j := q.1) (x := q.2) h).1
    have := List.mem_of_getElem? this
    simp at this

/-- `flush_insertion_heaps` -/
theorem flushHeaps_eq {c : Cfg α} (hc : CfgOk c) (o : Oracle) {s s' : S α} (hI : Inv c s) (hpe : pends s.heaps = [])
    (hh : flushHeaps c o s = some s') :
    Inv c s' ∧ ords s'.heaps = [] ∧ pends s'.heaps = [] ∧ s'.lim = s.lim ∧ List.Perm (arrays s') (ords s.heaps ++ arrays s) := by
  unfold flushHeaps at hh
  split at hh
  · simp at hh
  · rename_i s1 h1
    have hm := flushMem_eq hc o 0 hI.core h1
    have hperm0 : List.Perm (s.heaps.map fun h => sortList c.lt (h.ord ++ h.pend)).flatten (ords s.heaps) := by
      unfold ords
      have : ∀ hs : List (Hp α), pends hs = [] →
          List.Perm (hs.map fun h => sortList c.lt (h.ord ++ h.pend)).flatten (hs.map (·.ord)).flatten := by
        intro hs
        induction hs with
        | nil => intro _; exact List.Perm.refl _
        | cons h l ih =>
          intro hq
          simp only [pends, List.map_cons, List.flatten_cons, List.append_eq_nil_iff] at hq
          rw [List.map_cons, List.flatten_cons, List.map_cons, List.flatten_cons]
          refine List.Perm.append ?_ (ih hq.2)
          have := sortList_perm c.lt (h.ord ++ h.pend)
          rw [hq.1, List.append_nil] at this
          rw [hq.1, List.append_nil]
          exact this
      exact this _ hpe
    split at hh
    · simp at hh
    · rename_i out rest hmm
      rw [hm.heaps, hm.hsize, hI.heaps.size, ← hperm0.length_eq] at hmm
      have hmg := hc.merges _ _ _ _ (by
        intro q hq
        obtain ⟨h, -, rfl⟩ := List.mem_map.1 hq
        exact sortList_sorted hc.swo _) (Nat.le_refl _) hmm
      have hpo := (merges_all hmg).trans hperm0
      split at hh
      · simp at hh
      · rename_i s2 h2
        obtain ⟨ias, isize, mia, hdI, root2, oob2, rfl, e2, e3, e4⟩ := addIA_eq hc o _ _ _ _ _ (by exact hm.core.int) hmg.sorted h2
        rw [Option.some.injEq] at hh
        subst hh
        have hnil : ∀ (l : List (Hp α)) (f : Hp α → List α), f ⟨[], []⟩ = [] → ((l.map fun _ => (⟨[], []⟩ : Hp α)).map f).flatten = [] := by
          intro l f hf
          rw [List.flatten_eq_nil_iff]
          intro x hx
          simp only [List.map_map, List.mem_map, Function.comp] at hx
          obtain ⟨-, -, rfl⟩ := hx
          exact hf
        refine ⟨⟨⟨?_, ?_, ?_, ?_⟩, ⟨e2, hm.core.ext, hm.core.ebS⟩, ?_⟩, hnil _ _ rfl, hnil _ _ rfl, hm.lim, ?_⟩
        · intro x hx
          obtain ⟨-, -, rfl⟩ := List.mem_map.1 hx
          exact sorted_nil
        · show 0 = _
          show 0 = (((s1.heaps.map fun _ => (⟨[], []⟩ : Hp α)).map (·.ord)).flatten).length
          rw [hnil s1.heaps (·.ord) rfl]; rfl
        · show (s1.mh.map fun _ => none) = ((s1.heaps.map fun _ => (⟨[], []⟩ : Hp α)).map (·.ord.head?))
          rw [hm.mh, hI.heaps.tree, hm.heaps, List.map_map, List.map_map]
          rfl
        · show none = (argmin c.lt (s1.mh.map fun _ => none)).map (·.2)
          rw [argmin_nones hc.swo]; rfl
        · intro hne
          have hF1 := (hI.front.moved hm) hne
          obtain ⟨h7, h8⟩ := e4 hne hF1.tree
          exact ⟨hF1.hdE, h7, rfl, hF1.ext⟩
        · show List.Perm (s1.eb ++ items ias ++ rests s1.eas) _
          have h9 := hm.perm
          classical
          refine List.perm_iff_count.2 fun x => ?_
          have a1 := List.perm_iff_count.1 h9 x
          have a2 := List.perm_iff_count.1 e3 x
          have a3 := List.perm_iff_count.1 hpo x
          unfold arrays at a1 ⊢
          simp only [List.count_append] at a1 a2 a3 ⊢
          omega

theorem ords_split (p : α → Bool) : ∀ hs : List (Hp α),
    List.Perm (ords hs) ((hs.map fun h => h.ord.takeWhile p).flatten ++ ords (hs.map fun h => { h with ord := h.ord.dropWhile p })) := by
  intro hs
  classical
  induction hs with
  | nil => simp [ords]
  | cons h l ih =>
    refine List.perm_iff_count.2 fun x => ?_
    have h3 := List.perm_iff_count.1 ih x
    have h4 : List.count x h.ord = List.count x (h.ord.takeWhile p) + List.count x (h.ord.dropWhile p) := by
      rw [← List.count_append, List.takeWhile_append_dropWhile]
    simp only [ords, List.map_cons, List.flatten_cons, List.count_append] at h3 ⊢
    omega

/-- `flush_insertion_heaps_with_limit`; called with an empty extract buffer -/
theorem flushLimit_eq {c : Cfg α} (hc : CfgOk c) (o : Oracle) {l : α} {s s' : S α} (hI : Inv c s) (heb : s.eb = [])
    (hh : flushLimit c o l s = some s') :
    Inv c s' ∧ s'.eb = [] ∧ pends s'.heaps = pends s.heaps ∧ s'.lim = s.lim ∧
      List.Perm (ords s'.heaps ++ arrays s') (ords s.heaps ++ arrays s) ∧ (∀ y ∈ ords s'.heaps, c.lt y l = false) := by
  unfold flushLimit at hh
  split_ifs at hh with h1
  dsimp only at hh
  have hge : ∀ y ∈ ords (s.heaps.map fun h => { h with ord := h.ord.dropWhile fun x => c.lt x l }), c.lt y l = false := by
    intro y hy
    simp only [ords, List.map_map, List.mem_flatten, List.mem_map, Function.comp] at hy
    obtain ⟨-, ⟨h, hm, rfl⟩, hy⟩ := hy
    exact dropWhile_ge hc.swo l _ (hI.heaps.sorted h hm) y hy
  have hsp := ords_split (fun x => c.lt x l) s.heaps
  split_ifs at hh with h2
  · rw [Option.some.injEq] at hh
    subst hh
    rw [List.isEmpty_iff] at h2
    rw [h2, List.nil_append] at hsp
    exact ⟨hI, heb, rfl, rfl, List.Perm.refl _, fun y hy => hge y (hsp.mem_iff.1 hy)⟩
  · split at hh
    · simp at hh
    · rename_i s1 hm1
      have hm := flushMem_eq hc o 1 hI.core hm1
      have heb1 : s1.eb = [] := by
        rcases hm.eb with h | h
        · exact h
        · rw [h.1, heb]
      rw [hm.heaps] at hh
      generalize hHs : (s.heaps.map fun h => { h with ord := h.ord.dropWhile fun x => c.lt x l }) = hs at *
      have hlen : hs.length = s.heaps.length := by rw [← hHs, List.length_map]
      obtain ⟨mh, hdH, root, oob, e1, e2, e3, -⟩ := updLoop_range (c := c) (fun _ _ => true) { s1 with heaps := hs }
        (by show s1.mh.length = hs.length; rw [hm.mh, hI.heaps.tree, List.length_map, hlen])
        (by show s1.hdH = _; rw [hm.hdH, hI.heaps.head]; show _ = Option.map _ (argmin c.lt s1.mh); rw [hm.mh])
        (by intro i _ h; simp at h)
      have e1' : (List.range ({ s1 with heaps := hs } : S α).heaps.length).foldl (updHeap c) { s1 with heaps := hs } = _ := e1
      rw [e1'] at hh
      generalize hv : (s.heaps.map fun h => h.ord.takeWhile fun x => c.lt x l).flatten = vals at *
      split at hh
      · simp at hh
      · rename_i s2 h2
        obtain ⟨ias, isize, mia, hdI, root2, oob2, rfl, f2, f3, -⟩ := addIA_eq hc o _ _ _ _ _ (by exact hm.core.int)
          (sortList_sorted hc.swo _) h2
        rw [Option.some.injEq] at hh
        subst hh
        refine ⟨⟨⟨?_, ?_, e2, e3⟩, ⟨f2, hm.core.ext, hm.core.ebS⟩, fun h => absurd heb1 h⟩, heb1, ?_, hm.lim, ?_, hge⟩
        · intro x (hx : x ∈ hs)
          rw [← hHs] at hx
          obtain ⟨h, hx2, rfl⟩ := List.mem_map.1 hx
          exact (hI.heaps.sorted h hx2).sublist (List.dropWhile_sublist _)
        · show s1.hsize - vals.length = (ords hs).length
          have := hsp.length_eq
          rw [List.length_append] at this
          rw [hm.hsize, hI.heaps.size]; omega
        · show pends hs = _
          rw [← hHs]
          unfold pends
          rw [List.map_map]; rfl
        · show List.Perm (ords hs ++ (s1.eb ++ items ias ++ rests s1.eas)) _
          classical
          refine List.perm_iff_count.2 fun x => ?_
          have a1 := List.perm_iff_count.1 hm.perm x
          have a2 := List.perm_iff_count.1 f3 x
          have a3 := List.perm_iff_count.1 (sortList_perm c.lt vals) x
          have a4 := List.perm_iff_count.1 hsp x
          unfold arrays at a1 ⊢
          simp only [List.count_append] at a1 a2 a3 a4 ⊢
          omega

end Stxxl.PPQ
