import Verif.PPQ.Ops
/-! Each operation does to the model what the specification says. -/
namespace Stxxl.PPQ
open MwMerge.Spec
variable {α : Type}

theorem perm_set {hs : List (Hp α)} {p : Nat} {h h' : Hp α} (hp : hs[p]? = some h) :
    List.Perm (ords (hs.set p h') ++ h.ord) (ords hs ++ h'.ord) ∧ List.Perm (pends (hs.set p h') ++ h.pend) (pends hs ++ h'.pend) :=
  ⟨flat_set (·.ord) hs p h h' hp, flat_set (·.pend) hs p h h' hp⟩

theorem set_sorted {c : Cfg α} {hs : List (Hp α)} {p : Nat} {h' : Hp α} (h1 : ∀ h ∈ hs, Sorted c.lt h.ord) (h2 : Sorted c.lt h'.ord) :
    ∀ h ∈ hs.set p h', Sorted c.lt h.ord := by
  intro x hx
  rcases List.mem_or_eq_of_mem_set hx with hx | rfl
  · exact h1 x hx
  · exact h2

theorem pends_nil {hs : List (Hp α)} (h : pends hs = []) {p : Nat} {x : Hp α} (hp : hs[p]? = some x) : x.pend = [] := by
  unfold pends at h
  rw [List.flatten_eq_nil_iff] at h
  exact h _ (List.mem_map_of_mem (List.mem_of_getElem? hp))

/-- `pop` -/
theorem pop_eq {c : Cfg α} (hc : CfgOk c) (o : Oracle) {s s' : S α} (hI : Inv c s) (hp : pends s.heaps = []) (h : pop c o s = some s') :
    ∃ v, Least c.lt v (elems s) ∧ (ReadyOk c s → peek c s = some v) ∧ Inv c s' ∧ pends s'.heaps = [] ∧ List.Perm (elems s) (v :: elems s') := by
  unfold pop at h
  split at h
  · simp at h
  rename_i s1 h1
  obtain ⟨hI1, hR, hH, hP, hK⟩ := prep_eq hc o hI h1
  have hp1 : pends s1.heaps = [] := by rw [hH]; exact hp
  suffices hs : ∃ v, peek c s1 = some v ∧ Inv c s' ∧ pends s'.heaps = [] ∧ List.Perm (elems s1) (v :: elems s') by
    obtain ⟨v, a1, a2, a3, a4⟩ := hs
    obtain ⟨-, -, -, b3⟩ := peek_least hc hI1 hR hp1 a1
    refine ⟨v, ⟨?_, ?_⟩, fun hr => by rw [← hK hr]; exact a1, a2, a3, hP.symm.trans a4⟩
    · exact hP.mem_iff.1 (a4.mem_iff.2 List.mem_cons_self)
    · intro y hy; exact b3 y (hP.mem_iff.2 hy)
  have hroot := hR.root
  unfold peek
  split at h
  · simp at h
  · rename_i ht
    rw [ht]
    dsimp only
    split at h
    · simp at h
    rename_i i x ha
    split at h
    · rename_i y l q hi
      rw [Option.some.injEq] at h
      have hlt : i < s1.heaps.length := (List.getElem?_eq_some_iff.1 hi).1
      obtain ⟨root, oob, hu, hr⟩ := updHeap_eq (c := c) (s := { s1 with heaps := s1.heaps.set i ⟨l, q⟩, hsize := s1.hsize - 1 })
        (hs := s1.heaps) (p := i) (h' := ⟨l, q⟩) hI1.heaps.tree rfl hlt
      rw [hu] at h
      subst h
      obtain ⟨hs1, hs2⟩ := perm_set (h' := ⟨l, q⟩) hi
      have hs1' : List.Perm (ords s1.heaps) (y :: ords (s1.heaps.set i ⟨l, q⟩)) := by
        classical
        refine List.perm_iff_count.2 fun z => ?_
        have := List.perm_iff_count.1 hs1 z
        simp only [List.count_append, List.count_cons] at this ⊢
        omega
      have hs2' : List.Perm (pends (s1.heaps.set i ⟨l, q⟩)) (pends s1.heaps) := (List.perm_append_right_iff _).1 hs2
      refine ⟨y, by rw [ha]; simp [hi], ⟨⟨?_, ?_, rfl, rfl⟩, ⟨hI1.core.int, hI1.core.ext, hI1.core.ebS⟩, ?_⟩, ?_, ?_⟩
      · exact set_sorted hI1.heaps.sorted (sorted_cons.1 (hI1.heaps.sorted _ (List.mem_of_getElem? hi))).2
      · show s1.hsize - 1 = _
        rw [hI1.heaps.size, hs1'.length_eq]; rfl
      · intro hne
        have := hI1.front hne
        exact ⟨this.hdE, this.tree, hr, this.ext⟩
      · rw [hp1] at hs2'; exact List.perm_nil.1 hs2'
      · show List.Perm (ords s1.heaps ++ pends s1.heaps ++ arrays s1) (y :: (ords (s1.heaps.set i ⟨l, q⟩) ++ pends (s1.heaps.set i ⟨l, q⟩) ++ arrays s1))
        rw [← List.cons_append, ← List.cons_append]
        exact (hs1'.append hs2'.symm).append_right _
    · simp at h
  · rename_i ht
    rw [ht]
    dsimp only
    split at h
    · simp at h
    rename_i i x ha
    split at h
    · rename_i y l q hi
      rw [Option.some.injEq] at h
      subst h
      have hset := flat_set (·.items) s1.ias i ⟨y :: l, q⟩ ⟨l, q⟩ hi
      have hset' : List.Perm (items s1.ias) (y :: items (s1.ias.set i ⟨l, q⟩)) := by
        classical
        refine List.perm_iff_count.2 fun z => ?_
        have := List.perm_iff_count.1 hset z
        unfold items
        simp only [List.count_append, List.count_cons] at this ⊢
        omega
      have hilt : i < s1.ias.length := (List.getElem?_eq_some_iff.1 hi).1
      have hmlt : i < s1.mia.length := (List.getElem?_eq_some_iff.1 (argmin_some hc.swo ha).1).1
      have hIA : IntOk c (s1.ias.set i ⟨l, q⟩) (s1.isize - 1) := by
        refine ⟨?_, by rw [hI1.core.int.size, hset'.length_eq]; rfl⟩
        intro a ha'
        rcases List.mem_or_eq_of_mem_set ha' with h2 | rfl
        · exact hI1.core.int.sorted a h2
        · exact (sorted_cons.1 (hI1.core.int.sorted _ (List.mem_of_getElem? hi))).2
      refine ⟨y, by rw [ha]; simp [iaKey, hi], ⟨hI1.heaps, ⟨hIA, hI1.core.ext, hI1.core.ebS⟩, ?_⟩, hp1, ?_⟩
      · intro hne
        have := hI1.front hne
        refine ⟨this.hdE, .inr ⟨?_, rfl⟩, rfl, this.ext⟩
        intro j
        show (s1.mia.set i (((s1.ias.set i ⟨l, q⟩)[i]?).bind (·.items.head?))).getD j none = ((s1.ias.set i ⟨l, q⟩)[j]?).bind (·.items.head?)
        rw [List.getD_eq_getElem?_getD, List.getElem?_set]
        by_cases hij : i = j
        · subst hij; rw [if_pos rfl, if_pos hmlt]; rfl
        · rw [if_neg hij, List.getElem?_set_ne hij, ← List.getD_eq_getElem?_getD]
          rcases this.tree with ⟨h2, -⟩ | ⟨h2, -⟩
          · rw [h2] at hilt; simp at hilt
          · exact h2 j
      · show List.Perm (ords s1.heaps ++ pends s1.heaps ++ (s1.eb ++ items s1.ias ++ rests s1.eas))
          (y :: (ords s1.heaps ++ pends s1.heaps ++ (s1.eb ++ items (s1.ias.set i ⟨l, q⟩) ++ rests s1.eas)))
        classical
        refine List.perm_iff_count.2 fun z => ?_
        have := List.perm_iff_count.1 hset' z
        simp only [List.count_append, List.count_cons] at this ⊢
        omega
    · simp at h
  · rename_i ht
    rw [ht]
    dsimp only
    split at h
    · simp at h
    · rename_i y l heb
      rw [Option.some.injEq] at h
      have hsrt : Sorted c.lt (y :: l) := by rw [← heb]; exact hI1.core.ebS
      have hperm : ∀ s2 : S α, s2.heaps = s1.heaps → s2.ias = s1.ias → s2.eas = s1.eas → s2.eb = l → List.Perm (elems s1) (y :: elems s2) := by
        intro s2 e1 e2 e3 e4
        unfold elems arrays
        rw [e1, e2, e3, e4, heb]
        classical
        refine List.perm_iff_count.2 fun z => ?_
        simp only [List.count_append, List.count_cons]
        omega
      refine ⟨y, by rw [heb]; rfl, ?_⟩
      split_ifs at h with hl
      · subst h
        exact ⟨⟨hI1.heaps, ⟨hI1.core.int, hI1.core.ext, (sorted_cons.1 hsrt).2⟩, fun hne => absurd (List.isEmpty_iff.1 hl) hne⟩, hp1, hperm _ rfl rfl rfl rfl⟩
      · subst h
        have hf := hI1.front (by rw [heb]; simp)
        exact ⟨⟨hI1.heaps, ⟨hI1.core.int, hI1.core.ext, (sorted_cons.1 hsrt).2⟩, fun _ => ⟨rfl, hf.tree, rfl,
          fun x hx y' hy => hf.ext x (by rw [heb]; exact List.mem_cons_of_mem _ hx) y' hy⟩⟩, hp1, hperm _ rfl rfl rfl rfl⟩

/-- `push` -/
theorem push_eq {c : Cfg α} (hc : CfgOk c) (o : Oracle) {x : α} {p : Nat} {s s' : S α} (hI : Inv c s) (hp : pends s.heaps = [])
    (h : push c o x p s = some s') : Inv c s' ∧ pends s'.heaps = [] ∧ List.Perm (elems s') (x :: elems s) := by
  unfold push at h
  split at h
  · simp at h
  rename_i h0 hh0
  split at h
  · simp at h
  rename_i s1 h1
  have hs1 : Inv c s1 ∧ pends s1.heaps = [] ∧ List.Perm (elems s1) (elems s) := by
    split_ifs at h1 with hcap
    · have hpn := pends_nil hp hh0
      obtain ⟨a1, a2, -, a3, -, -⟩ := flushHeap_eq hc o hI.heaps hI.core hI.front hh0 (by rw [hpn]; rfl) h1
      obtain ⟨b1, b2⟩ := perm_set (h' := ⟨[], []⟩) hh0
      rw [hpn, List.append_nil, hp, ← a2] at b2
      refine ⟨a1, List.perm_nil.1 b2, ?_⟩
      rw [← a2] at b1
      rw [hpn] at a3
      unfold elems
      classical
      refine List.perm_iff_count.2 fun z => ?_
      have c1 := List.perm_iff_count.1 b1 z
      have c2 := List.perm_iff_count.1 b2 z
      have c3 := List.perm_iff_count.1 a3 z
      rw [hp]
      simp only [List.count_append, List.count_nil] at c1 c2 c3 ⊢
      omega
    · rw [Option.some.injEq] at h1
      subst h1
      exact ⟨hI, hp, List.Perm.refl _⟩
  obtain ⟨hI1, hp1, hP1⟩ := hs1
  split at h
  · simp at h
  rename_i h2 hh2
  rw [Option.some.injEq] at h
  have hlt : p < s1.heaps.length := (List.getElem?_eq_some_iff.1 hh2).1
  have hord := hI1.heaps.sorted _ (List.mem_of_getElem? hh2)
  obtain ⟨b1, b2⟩ := perm_set (h' := { h2 with ord := insertSorted c.lt x h2.ord }) hh2
  have b2' := (List.perm_append_right_iff _).1 b2
  rw [hp1] at b2'
  have b2'' := List.perm_nil.1 b2'
  have b1' : List.Perm (ords (s1.heaps.set p { h2 with ord := insertSorted c.lt x h2.ord })) (x :: ords s1.heaps) := by
    classical
    refine List.perm_iff_count.2 fun z => ?_
    have c1 := List.perm_iff_count.1 b1 z
    have c2 := List.perm_iff_count.1 (insertSorted_perm c.lt x h2.ord) z
    simp only [List.count_append, List.count_cons] at c1 c2 ⊢
    omega
  have hels : ∀ s2 : S α, s2.heaps = s1.heaps.set p { h2 with ord := insertSorted c.lt x h2.ord } → arrays s2 = arrays s1 →
      List.Perm (elems s2) (x :: elems s) := by
    intro s2 e1 e2
    refine List.Perm.trans ?_ (hP1.cons x)
    unfold elems
    rw [e1, e2, b2'', hp1, List.append_nil, List.append_nil, ← List.cons_append]
    exact b1'.append_right _
  have hsorted := set_sorted (p := p) (h' := { h2 with ord := insertSorted c.lt x h2.ord }) hI1.heaps.sorted (insertSorted_sorted hc.swo x _ hord)
  split_ifs at h with hb
  · obtain ⟨root, oob, hu, hr⟩ := updHeap_eq (c := c)
      (s := { s1 with heaps := s1.heaps.set p { h2 with ord := insertSorted c.lt x h2.ord }, hsize := s1.hsize + 1 })
      (hs := s1.heaps) (p := p) (h' := { h2 with ord := insertSorted c.lt x h2.ord }) hI1.heaps.tree rfl hlt
    rw [hu] at h
    subst h
    refine ⟨⟨⟨hsorted, ?_, rfl, rfl⟩, ⟨hI1.core.int, hI1.core.ext, hI1.core.ebS⟩, ?_⟩, b2'', hels _ rfl rfl⟩
    · show s1.hsize + 1 = _
      rw [hI1.heaps.size, b1'.length_eq]; rfl
    · intro hne
      have := hI1.front hne
      exact ⟨this.hdE, this.tree, hr, this.ext⟩
  · subst h
    refine ⟨⟨⟨hsorted, ?_, ?_, hI1.heaps.head⟩, ⟨hI1.core.int, hI1.core.ext, hI1.core.ebS⟩, ?_⟩, b2'', hels _ rfl rfl⟩
    · show s1.hsize + 1 = _
      rw [hI1.heaps.size, b1'.length_eq]; rfl
    · show s1.mh = (s1.heaps.set p { h2 with ord := insertSorted c.lt x h2.ord }).map (·.ord.head?)
      rw [hI1.heaps.tree, List.map_set]
      have : (insertSorted c.lt x h2.ord).head? = h2.ord.head? := by rw [insertSorted_head, if_neg hb]
      dsimp only
      rw [this]
      apply List.ext_getElem?
      intro i
      rw [List.getElem?_set]
      by_cases hpi : p = i
      · subst hpi
        rw [if_pos rfl, List.length_map, if_pos hlt, List.getElem?_map, hh2]; rfl
      · rw [if_neg hpi]
    · intro hne
      have := hI1.front hne
      exact ⟨this.hdE, this.tree, this.root, this.ext⟩

/-- `bulk_push` -/
theorem bulkPush_eq {c : Cfg α} (hc : CfgOk c) (o : Oracle) {x : α} {p : Nat} {s s' : S α} (hI : Inv c s) (h : bulkPush c o x p s = some s') :
    Inv c s' ∧ List.Perm (elems s') (x :: elems s) ∧ s'.lim = s.lim ∧ (∀ y ∈ pends s'.heaps, y = x ∨ y ∈ pends s.heaps) ∧
      (s'.eb = [] ∨ s'.eb = s.eb) ∧ (s'.full = true → s.full = true ∧ s'.eb = s.eb) := by
  unfold bulkPush at h
  split at h
  · simp at h
  rename_i h0 hh0
  split at h
  · simp at h
  rename_i s1 h1
  have hs1 : Inv c s1 ∧ List.Perm (elems s1) (elems s) ∧ s1.lim = s.lim ∧ (∀ y ∈ pends s1.heaps, y ∈ pends s.heaps) ∧
      (s1.eb = [] ∨ s1.eb = s.eb) ∧ (s1.full = true → s.full = true ∧ s1.eb = s.eb) := by
    split_ifs at h1 with hcap
    · obtain ⟨a1, a2, a3, a4, a5, a6⟩ := flushHeap_eq (s := { s with hsize := s.hsize + h0.pend.length }) hc o hI.heaps
        ⟨hI.core.int, hI.core.ext, hI.core.ebS⟩ (fun hne => ⟨(hI.front hne).hdE, (hI.front hne).tree, (hI.front hne).root, (hI.front hne).ext⟩) hh0 rfl h1
      obtain ⟨b1, b2⟩ := perm_set (h' := ⟨[], []⟩) hh0
      dsimp only at a2
      rw [← a2] at b1 b2
      rw [List.append_nil] at b2
      refine ⟨a1, ?_, a3, fun y hy => b2.mem_iff.1 (List.mem_append_left _ hy), a5, a6⟩
      unfold elems
      classical
      refine List.perm_iff_count.2 fun z => ?_
      have c1 := List.perm_iff_count.1 b1 z
      have c2 := List.perm_iff_count.1 b2 z
      have c3 := List.perm_iff_count.1 a4 z
      have e : arrays { s with hsize := s.hsize + h0.pend.length } = arrays s := rfl
      rw [e] at c3
      simp only [List.count_append, List.count_nil] at c1 c2 c3 ⊢
      omega
    · rw [Option.some.injEq] at h1
      subst h1
      exact ⟨hI, List.Perm.refl _, rfl, fun y hy => hy, .inr rfl, fun h => ⟨h, rfl⟩⟩
  obtain ⟨hI1, hP1, hl1, hpe1, heb1, hfu1⟩ := hs1
  split at h
  · simp at h
  rename_i h2 hh2
  rw [Option.some.injEq] at h
  subst h
  obtain ⟨b1, b2⟩ := perm_set (h' := { h2 with pend := h2.pend ++ [x] }) hh2
  have b1' := (List.perm_append_right_iff _).1 b1
  have b2' : List.Perm (pends (s1.heaps.set p { h2 with pend := h2.pend ++ [x] })) (x :: pends s1.heaps) := by
    classical
    refine List.perm_iff_count.2 fun z => ?_
    have c1 := List.perm_iff_count.1 b2 z
    simp only [List.count_append, List.count_cons, List.count_nil] at c1 ⊢
    omega
  have hord := hI1.heaps.sorted _ (List.mem_of_getElem? hh2)
  refine ⟨⟨⟨set_sorted hI1.heaps.sorted hord, ?_, ?_, hI1.heaps.head⟩, ⟨hI1.core.int, hI1.core.ext, hI1.core.ebS⟩, ?_⟩, ?_, hl1, ?_, heb1, hfu1⟩
  · show s1.hsize = _
    rw [hI1.heaps.size, b1'.length_eq]
  · show s1.mh = (s1.heaps.set p { h2 with pend := h2.pend ++ [x] }).map (·.ord.head?)
    rw [hI1.heaps.tree, List.map_set]
    apply List.ext_getElem?
    intro i
    rw [List.getElem?_set]
    by_cases hpi : p = i
    · subst hpi
      rw [if_pos rfl, List.length_map, if_pos (List.getElem?_eq_some_iff.1 hh2).1, List.getElem?_map, hh2]; rfl
    · rw [if_neg hpi]
  · intro hne
    have := hI1.front hne
    exact ⟨this.hdE, this.tree, this.root, this.ext⟩
  · refine List.Perm.trans ?_ (hP1.cons x)
    show List.Perm (ords (s1.heaps.set p { h2 with pend := h2.pend ++ [x] }) ++ pends (s1.heaps.set p { h2 with pend := h2.pend ++ [x] }) ++ arrays s1)
      (x :: (ords s1.heaps ++ pends s1.heaps ++ arrays s1))
    classical
    refine List.perm_iff_count.2 fun z => ?_
    have c1 := List.perm_iff_count.1 b1' z
    have c2 := List.perm_iff_count.1 b2' z
    simp only [List.count_append, List.count_cons] at c1 c2 ⊢
    omega
  · intro y hy
    have := b2'.mem_iff.1 hy
    rw [List.mem_cons] at this
    exact this.imp id (hpe1 y)

/-- `bulk_push_end` -/
theorem bulkEnd_eq {c : Cfg α} (hc : CfgOk c) {s : S α} (hI : Inv c s) :
    Inv c (bulkEnd c s) ∧ pends (bulkEnd c s).heaps = [] ∧ List.Perm (elems (bulkEnd c s)) (elems s) := by
  unfold bulkEnd
  dsimp only
  generalize hHs : (s.heaps.map fun h => (⟨h.pend.foldl (fun acc x => insertSorted c.lt x acc) h.ord, []⟩ : Hp α)) = hs
  have hlen : hs.length = s.heaps.length := by rw [← hHs, List.length_map]
  have hsorted : ∀ h ∈ hs, Sorted c.lt h.ord := by
    intro x hx
    rw [← hHs] at hx
    obtain ⟨y, hy, rfl⟩ := List.mem_map.1 hx
    exact foldl_insert_sorted hc.swo _ _ (hI.heaps.sorted y hy)
  have hpe : pends hs = [] := by
    unfold pends
    rw [List.flatten_eq_nil_iff, ← hHs]
    intro l hl
    simp only [List.map_map, List.mem_map, Function.comp] at hl
    obtain ⟨-, -, rfl⟩ := hl
    rfl
  have hperm : List.Perm (ords hs) (ords s.heaps ++ pends s.heaps) := by
    rw [← hHs]
    generalize s.heaps = L
    classical
    induction L with
    | nil => exact List.Perm.refl _
    | cons h l ih =>
      refine List.perm_iff_count.2 fun z => ?_
      have c1 := List.perm_iff_count.1 ih z
      have c2 := List.perm_iff_count.1 (foldl_insert_perm c.lt h.pend h.ord) z
      unfold ords pends at c1 ⊢
      simp only [List.map_cons, List.flatten_cons, List.count_append] at c1 c2 ⊢
      omega
  obtain ⟨mh, hdH, root, oob, e1, e2, e3, e4⟩ := updLoop_range (c := c) (fun hs p => ((hs[p]?).bind (·.ord.head?)).isSome)
    { s with bulk := false, hsize := s.hsize + (s.heaps.map (·.pend.length)).sum, heaps := hs }
    (by show s.mh.length = hs.length; rw [hI.heaps.tree, List.length_map, hlen]) hI.heaps.head
    (by
      intro i hi hb
      dsimp only at hi hb ⊢
      rw [hI.heaps.tree, List.getElem?_map]
      rw [← hHs, List.getElem?_map] at hb ⊢
      cases hg : s.heaps[i]? with
      | none => rfl
      | some h =>
        rw [hg] at hb
        simp only [Option.map_some, Option.bind_some] at hb ⊢
        have h1 : h.pend.foldl (fun acc x => insertSorted c.lt x acc) h.ord = [] := by
          cases hq : h.pend.foldl (fun acc x => insertSorted c.lt x acc) h.ord with
          | nil => rfl
          | cons y r => rw [hq] at hb; simp at hb
        have h2 := foldl_insert_perm c.lt h.pend h.ord
        rw [h1] at h2
        have h3 := List.nil_perm.1 h2
        rw [List.append_eq_nil_iff] at h3
        rw [h1, h3.1])
  rw [show (List.range hs.length).foldl (fun s p => if ((s.heaps[p]?).bind (·.ord.head?)).isSome = true then updHeap c s p else s)
    { s with bulk := false, hsize := s.hsize + (s.heaps.map (·.pend.length)).sum, heaps := hs } = _ from e1]
  have hInv : Inv c { s with
      bulk := false, hsize := s.hsize + (s.heaps.map (·.pend.length)).sum, heaps := hs, mh := mh, hdH := hdH, root := root, oob := oob } := by
    refine ⟨⟨hsorted, ?_, e2, e3⟩, ⟨hI.core.int, hI.core.ext, hI.core.ebS⟩, ?_⟩
    · show s.hsize + (s.heaps.map (·.pend.length)).sum = (ords hs).length
      rw [hI.heaps.size, hperm.length_eq, List.length_append]
      unfold pends
      rw [List.length_flatten, List.map_map]; rfl
    · intro hne
      have hf := hI.front hne
      exact ⟨hf.hdE, hf.tree, e4 hf.root, hf.ext⟩
  have hels : List.Perm (elems { s with
      bulk := false, hsize := s.hsize + (s.heaps.map (·.pend.length)).sum, heaps := hs, mh := mh, hdH := hdH, root := root, oob := oob }) (elems s) := by
    show List.Perm (ords hs ++ pends hs ++ arrays s) (ords s.heaps ++ pends s.heaps ++ arrays s)
    rw [hpe, List.append_nil]
    exact hperm.append_right _
  split_ifs with hd
  · exact ⟨hInv, hpe, hels⟩
  · obtain ⟨eas, free, f1, f2⟩ := rebuildHints_eq c { s with
      bulk := false, hsize := s.hsize + (s.heaps.map (·.pend.length)).sum, heaps := hs, mh := mh, hdH := hdH, root := root, oob := oob }
    rw [f1]
    refine ⟨⟨hInv.heaps, ⟨hInv.core.int, hInv.core.ext.congr f2, hInv.core.ebS⟩, ?_⟩, hpe, ?_⟩
    · intro hne
      have hf := hInv.front hne
      exact ⟨hf.hdE, hf.tree, hf.root, fun x hx y hy => hf.ext x hx y (by rw [← f2.rests]; exact hy)⟩
    · refine List.Perm.trans ?_ hels
      unfold elems arrays
      dsimp only
      rw [f2.rests]

/-- `bulk_pop` -/
theorem bulkPop_eq {c : Cfg α} (hc : CfgOk c) (o : Oracle) {n : Nat} {s s' : S α} {out : List α} (hI : Inv c s) (hp : pends s.heaps = [])
    (h : bulkPop c o n s = some (out, s')) :
    Inv c s' ∧ pends s'.heaps = [] ∧ Extracted c.lt (elems s) out (elems s') ∧ (0 < n → out.length ≤ n) := by
  have hsize : size s = (elems s).length := by
    unfold size elems arrays
    rw [hp, hI.heaps.size, hI.core.int.size, hI.core.ext.size]
    simp only [List.length_append, List.length_nil]
    omega
  unfold bulkPop at h
  dsimp only at h
  split at h
  · simp at h
  rename_i s1 h1
  have hs1 : Inv c s1 ∧ ords s1.heaps = [] ∧ pends s1.heaps = [] ∧ List.Perm (arrays s1) (elems s) := by
    split_ifs at h1 with hz
    · obtain ⟨a1, a2, a3, -, a4⟩ := flushHeaps_eq hc o hI hp h1
      refine ⟨a1, a2, a3, ?_⟩
      unfold elems; rw [hp, List.append_nil]; exact a4
    · rw [Option.some.injEq] at h1
      subst h1
      have h0 : ords s.heaps = [] := List.length_eq_zero_iff.1 (by rw [← hI.heaps.size]; omega)
      refine ⟨hI, h0, hp, ?_⟩
      unfold elems; rw [h0, hp]; exact List.Perm.refl _
  obtain ⟨hI1, ho1, hp1, hP1⟩ := hs1
  split at h
  · simp at h
  rename_i s2 h2
  obtain ⟨hm2, heb2⟩ := convert_eq hc o 2 hI1.core h2
  have hI2 := hI1.moved hm2
  split at h
  · simp at h
  rename_i s3 h3
  simp only [Option.some.injEq, Prod.mk.injEq] at h
  obtain ⟨rfl, rfl⟩ := h
  obtain ⟨a1, a2, a3, a4, -, -, a5, a6, a7, a8, a9⟩ := refill_eq hc o _ _ hI2.core heb2 h3
  have hh : s3.heaps = s1.heaps := by rw [a1, hm2.heaps]
  have hEl : elems (deactEB c { s3 with eb := [] }) = items s3.ias ++ rests s3.eas := by
    show ords s3.heaps ++ pends s3.heaps ++ ([] ++ items s3.ias ++ rests s3.eas) = _
    rw [hh, ho1, hp1]; rfl
  have hPerm : List.Perm (elems s) (s3.eb ++ (items s3.ias ++ rests s3.eas)) := by
    rw [← List.append_assoc]
    exact ((a7.trans hm2.perm).trans hP1).symm
  refine ⟨⟨?_, ⟨a5.int, a5.ext, sorted_nil⟩, fun h => absurd rfl h⟩, ?_, ⟨?_, a5.ebS, ?_⟩, ?_⟩
  · show HeapsOk c s3.heaps s3.hsize s3.mh s3.hdH
    rw [a1, a2, a3, a4]; exact hI2.heaps
  · show pends s3.heaps = []
    rw [hh]; exact hp1
  · rw [hEl]; exact hPerm
  · rw [hEl]; exact a8
  · intro hn
    by_cases hz : min n (size s) = 0
    · have : size s = 0 := by omega
      rw [hsize, hPerm.length_eq, List.length_append] at this
      omega
    · rw [if_neg hz] at a9; omega

/-- What limit mode relies on. -/
structure LimOk (c : Cfg α) (l : α) (s : S α) : Prop where
  lim : s.lim = some l
  ebl : ∀ x ∈ s.eb, c.lt x l = true
  oth : ∀ x ∈ s.eb, ∀ y ∈ ords s.heaps ++ pends s.heaps ++ (items s.ias ++ rests s.eas), c.lt y x = false
  pe : ∀ y ∈ pends s.heaps, c.lt y l = false
  fu : s.full = true → ∀ y ∈ ords s.heaps ++ pends s.heaps ++ (items s.ias ++ rests s.eas), c.lt y l = false

/-- Refilling the extract buffer in limit mode. -/
theorem limitRefill_eq {c : Cfg α} (hc : CfgOk c) (o : Oracle) {l : α} {s s' : S α} (hI : Inv c s) (hl : s.lim = some l)
    (hpe : ∀ y ∈ pends s.heaps, c.lt y l = false) (h : limitRefill c o l s = some s') :
    Inv c s' ∧ LimOk c l s' ∧ List.Perm (elems s') (elems s) := by
  unfold limitRefill at h
  split at h
  · simp at h
  rename_i out fl s1 h1
  obtain ⟨a1, a2, a3, a4, a5, a6, a7, -, a8⟩ := bulkPopLimit_eq hc o hI hpe h1
  rw [Option.some.injEq] at h
  have hels : elems s1 = ords s1.heaps ++ pends s1.heaps ++ (items s1.ias ++ rests s1.eas) := by
    unfold elems arrays; rw [a2]; rfl
  rw [hels] at a6 a8
  have hperm : List.Perm (ords s1.heaps ++ pends s1.heaps ++ (out ++ items s1.ias ++ rests s1.eas)) (elems s) := by
    refine List.Perm.trans ?_ a6.perm.symm
    classical
    refine List.perm_iff_count.2 fun z => ?_
    simp only [List.count_append]
    omega
  have hlim : s1.lim = some l := by rw [a5, hl]
  have hpe1 : ∀ y ∈ pends s1.heaps, c.lt y l = false := by rw [a4]; exact hpe
  split_ifs at h with he
  · subst h
    rw [List.isEmpty_iff] at he
    exact ⟨⟨a1.heaps, ⟨a1.core.int, a1.core.ext, a6.sorted⟩, fun hne => absurd he hne⟩, ⟨hlim, a7, a6.least, hpe1, a8⟩, hperm⟩
  · subst h
    exact ⟨⟨a1.heaps, ⟨a1.core.int, a1.core.ext, a6.sorted⟩, fun _ => ⟨rfl, a3, rfl, fun x hx y hy => a6.least x hx y
      (List.mem_append_right _ (List.mem_append_right _ hy))⟩⟩, ⟨hlim, a7, a6.least, hpe1, a8⟩, hperm⟩

/-- The value of a player of the tree is in the queue. -/
theorem key_mem {c : Cfg α} (hc : CfgOk c) {s : S α} (hI : Inv c s) (ht : IAtree c s.ias s.mia s.hdI) {t : Ty} {v : α} (hk : key s t = some v) :
    v ∈ (match t with | .H => ords s.heaps | .I => items s.ias | .E => s.eb) := by
  have hfl : ∀ {β : Type} (f : β → List α) (L : List β) (i : Nat) (b : β), L[i]? = some b → (f b).head? = some v → v ∈ (L.map f).flatten := by
    intro β f L i b h1 h2
    exact List.mem_flatten.2 ⟨f b, List.mem_map_of_mem (List.mem_of_getElem? h1), List.mem_of_mem_head? (by rw [h2]; rfl)⟩
  cases t with
  | H =>
    have h3 : s.hdH = some v := hk
    rw [hI.heaps.head] at h3
    cases ha : argmin c.lt s.mh with
    | none => rw [ha] at h3; simp at h3
    | some p =>
      rw [ha] at h3
      simp only [Option.map_some, Option.some.injEq] at h3
      have h4 := (argmin_some hc.swo (j := p.1) (x := p.2) ha).1
      rw [hI.heaps.tree, List.getElem?_map, h3] at h4
      cases hg : s.heaps[p.1]? with
      | none => rw [hg] at h4; simp at h4
      | some hh =>
        rw [hg] at h4
        simp only [Option.map_some, Option.some.injEq] at h4
        exact hfl (fun h : Hp α => h.ord) _ _ _ hg h4
  | I =>
    have h3 : s.hdI = some v := hk
    rcases ht with ⟨-, h4⟩ | ⟨h4, h5⟩
    · rw [h4] at h3; simp at h3
    · rw [h5] at h3
      cases ha : argmin c.lt s.mia with
      | none => rw [ha] at h3; simp at h3
      | some p =>
        rw [ha] at h3
        simp only [Option.map_some, Option.some.injEq] at h3
        have h6 := (argmin_some hc.swo (j := p.1) (x := p.2) ha).1
        have h7 := h4 p.1
        rw [List.getD_eq_getElem?_getD, h6, h3] at h7
        cases hg : s.ias[p.1]? with
        | none => rw [hg] at h7; simp at h7
        | some a =>
          rw [hg] at h7
          simp only [Option.getD_some, Option.bind_some] at h7
          exact hfl (fun a : IA α => a.items) _ _ _ hg h7.symm
  | E =>
    have h3 : s.eb.head? = some v := hk
    exact List.mem_of_mem_head? (by rw [h3]; rfl)

/-- The extract buffer wins against everything that is not before its first element. -/
theorem headGame_E {c : Cfg α} {s : S α} {x : α} {r : List α} (hE : s.hdE = true) (heb : s.eb = x :: r)
    (h1 : ∀ w, s.hdH = some w → c.lt w x = false) (h2 : ∀ w, s.hdI = some w → c.lt w x = false) : headGame c s = some .E := by
  unfold headGame game
  rw [hE, heb]
  cases hH : s.hdH with
  | none =>
    cases hI : s.hdI with
    | none => simp
    | some y => simp [h2 y hI]
  | some z =>
    cases hI : s.hdI with
    | none => simp [h1 z hH]
    | some y =>
      by_cases hzy : c.lt z y = true
      · simp [hzy, h1 z hH]
      · simp [hzy, h2 y hI]

/-- How the model is related to what the user knows. -/
structure Sim (c : Cfg α) (q : Q α) (s : S α) : Prop where
  inv : Inv c s
  perm : List.Perm q.elems (elems s)
  normal : q.mode = .normal → pends s.heaps = [] ∧ ∀ w, q.last = some w → ReadyOk c s ∧ peek c s = some w
  limit : ∀ l, q.mode = .limit l → LimOk c l s ∧ ∀ w, q.last = some w → s.eb.head? = some w ∨ (s.eb = [] ∧ w = l)

theorem elems_limit (s : S α) : List.Perm (elems s) (s.eb ++ (ords s.heaps ++ pends s.heaps ++ (items s.ias ++ rests s.eas))) := by
  unfold elems arrays
  classical
  refine List.perm_iff_count.2 fun z => ?_
  simp only [List.count_append]
  omega

theorem step_sim {c : Cfg α} (hc : CfgOk c) (o : Oracle) {q : Q α} {s s' : S α} {op : Op α} {out : Out α} (hS : Sim c q s)
    (hL : Legal c.lt q op) (h : exec c o op s = some (out, s')) : ∃ q', Step c.lt q op out q' ∧ Sim c q' s' := by
  have hI := hS.inv
  cases op with
  | push x p =>
    obtain ⟨hp, -⟩ := hS.normal hL
    simp only [exec, Option.map_eq_some_iff, Prod.mk.injEq] at h
    obtain ⟨s1, h1, rfl, rfl⟩ := h
    obtain ⟨a1, a2, a3⟩ := push_eq hc o hI hp h1
    refine ⟨⟨elems s1, q.mode, none⟩, ⟨rfl, a3.trans (hS.perm.symm.cons x), rfl, rfl⟩, a1, List.Perm.refl _, fun _ => ⟨a2, by simp⟩, ?_⟩
    intro l hl
    have : q.mode = .normal := hL
    rw [this] at hl; simp at hl
  | top =>
    obtain ⟨hp, -⟩ := hS.normal hL.1
    simp only [exec, Option.map_eq_some_iff, Prod.mk.injEq] at h
    obtain ⟨⟨v, s1⟩, h1, rfl, rfl⟩ := h
    rw [top_eq] at h1
    cases hpr : prep c o s with
    | none => rw [hpr] at h1; simp at h1
    | some s2 =>
      rw [hpr] at h1
      simp only [Option.bind_some, Option.map_eq_some_iff, Prod.mk.injEq] at h1
      obtain ⟨v', hv, rfl, rfl⟩ := h1
      obtain ⟨b1, b2, b3, b4, -⟩ := prep_eq hc o hI hpr
      have hp2 : pends s2.heaps = [] := by rw [b3]; exact hp
      obtain ⟨t, -, hk, hle⟩ := peek_least hc b1 b2 hp2 hv
      have hmem : v' ∈ elems s2 := by
        have := key_mem hc b1 b2.tree hk
        unfold elems arrays
        cases t with
        | H => exact List.mem_append_left _ (List.mem_append_left _ this)
        | I => exact List.mem_append_right _ (List.mem_append_left _ (List.mem_append_right _ this))
        | E => exact List.mem_append_right _ (List.mem_append_left _ (List.mem_append_left _ this))
      have hPm : List.Perm q.elems (elems s2) := hS.perm.trans b4.symm
      refine ⟨{ q with last := some v' }, ⟨v', rfl, ⟨hPm.mem_iff.2 hmem, fun y hy => hle y (hPm.mem_iff.1 hy)⟩, rfl⟩, b1, hPm,
        fun _ => ⟨hp2, ?_⟩, ?_⟩
      · intro w hw
        simp only [Option.some.injEq] at hw
        subst hw
        exact ⟨b2, hv⟩
      · intro l hl
        have : q.mode = .normal := hL.1
        rw [show ({ q with last := some v' } : Q α).mode = q.mode from rfl, this] at hl; simp at hl
  | pop =>
    obtain ⟨hp, hlast⟩ := hS.normal hL.1
    simp only [exec, Option.map_eq_some_iff, Prod.mk.injEq] at h
    obtain ⟨s1, h1, rfl, rfl⟩ := h
    obtain ⟨v, a1, a2, a3, a4, a5⟩ := pop_eq hc o hI hp h1
    refine ⟨⟨elems s1, q.mode, none⟩, ⟨rfl, v, ⟨hS.perm.mem_iff.2 a1.1, fun y hy => a1.2 y (hS.perm.mem_iff.1 hy)⟩, ?_, hS.perm.trans a5, rfl, rfl⟩,
      a3, List.Perm.refl _, fun _ => ⟨a4, by simp⟩, ?_⟩
    · intro w hw
      obtain ⟨b1, b2⟩ := hlast w hw
      rw [a2 b1] at b2
      exact Option.some.inj b2
    · intro l hl
      have : q.mode = .normal := hL.1
      rw [show (⟨elems s1, q.mode, none⟩ : Q α).mode = q.mode from rfl, this] at hl; simp at hl
  | size =>
    obtain ⟨hp, -⟩ := hS.normal hL
    simp only [exec, Option.some.injEq, Prod.mk.injEq] at h
    obtain ⟨rfl, rfl⟩ := h
    refine ⟨q, ⟨?_, rfl⟩, hS⟩
    rw [hS.perm.length_eq]
    unfold size elems arrays
    rw [hp, hI.heaps.size, hI.core.int.size, hI.core.ext.size]
    congr 1
    simp only [List.length_append, List.length_nil]
    omega
  | bulkPushBegin =>
    simp only [exec, Option.some.injEq, Prod.mk.injEq] at h
    obtain ⟨rfl, rfl⟩ := h
    refine ⟨⟨q.elems, .bulk, none⟩, ⟨rfl, rfl⟩, ⟨hI.heaps, ⟨hI.core.int, hI.core.ext, hI.core.ebS⟩, fun hne => ?_⟩, hS.perm, by simp, by simp⟩
    have := hI.front hne
    exact ⟨this.hdE, this.tree, this.root, this.ext⟩
  | bulkPush x p =>
    simp only [exec, Option.map_eq_some_iff, Prod.mk.injEq] at h
    obtain ⟨s1, h1, rfl, rfl⟩ := h
    obtain ⟨a1, a2, -⟩ := bulkPush_eq hc o hI h1
    have hm : q.mode = .bulk := hL
    exact ⟨⟨elems s1, q.mode, none⟩, ⟨rfl, a2.trans (hS.perm.symm.cons x), rfl, rfl⟩, a1, List.Perm.refl _, by simp [hm], by simp [hm]⟩
  | bulkPushEnd =>
    simp only [exec, Option.some.injEq, Prod.mk.injEq] at h
    obtain ⟨rfl, rfl⟩ := h
    obtain ⟨a1, a2, a3⟩ := bulkEnd_eq hc hI
    exact ⟨⟨q.elems, .normal, none⟩, ⟨rfl, rfl⟩, a1, hS.perm.trans a3.symm, fun _ => ⟨a2, by simp⟩, by simp⟩
  | bulkPop n =>
    obtain ⟨hp, -⟩ := hS.normal hL
    simp only [exec, Option.map_eq_some_iff, Prod.mk.injEq] at h
    obtain ⟨⟨l, s1⟩, h1, rfl, rfl⟩ := h
    obtain ⟨a1, a2, a3, a4⟩ := bulkPop_eq hc o hI hp h1
    have hm : q.mode = .normal := hL
    exact ⟨⟨elems s1, q.mode, none⟩, ⟨l, rfl, ⟨hS.perm.trans a3.perm, a3.sorted, a3.least⟩, a4, rfl, rfl⟩, a1, List.Perm.refl _,
      fun _ => ⟨a2, by simp⟩, by simp [hm]⟩
  | bulkPopLimit l n =>
    obtain ⟨hp, -⟩ := hS.normal hL
    simp only [exec, Option.map_eq_some_iff, Prod.mk.injEq] at h
    obtain ⟨⟨⟨out1, fl⟩, s1⟩, h1, rfl, rfl⟩ := h
    obtain ⟨a1, -, -, a4, -, a6, a7, a8, a9⟩ := bulkPopLimit_eq hc o hI (by rw [hp]; simp) h1
    have hm : q.mode = .normal := hL
    exact ⟨⟨elems s1, q.mode, none⟩, ⟨out1, fl, rfl, ⟨hS.perm.trans a6.perm, a6.sorted, a6.least⟩, a7, a8, a9, rfl, rfl⟩, a1, List.Perm.refl _,
      fun _ => ⟨by rw [a4, hp], by simp⟩, by simp [hm]⟩
  | limitBegin l =>
    obtain ⟨hp, -⟩ := hS.normal hL
    simp only [exec, Option.map_eq_some_iff, Prod.mk.injEq] at h
    obtain ⟨s1, h1, rfl, rfl⟩ := h
    unfold limitBegin at h1
    split at h1
    · simp at h1
    rename_i s2 h2
    rw [Option.some.injEq] at h1
    subst h1
    obtain ⟨a1, a2, a3⟩ := limitRefill_eq (s := { s with lim := some l }) hc o
      ⟨hI.heaps, ⟨hI.core.int, hI.core.ext, hI.core.ebS⟩, fun hne => ⟨(hI.front hne).hdE, (hI.front hne).tree, (hI.front hne).root, (hI.front hne).ext⟩⟩
      rfl (by show ∀ y ∈ pends s.heaps, _; rw [hp]; simp) h2
    refine ⟨⟨q.elems, .limit l, none⟩, ⟨rfl, rfl⟩, ⟨a1.heaps, ⟨a1.core.int, a1.core.ext, a1.core.ebS⟩, fun hne => ?_⟩, hS.perm.trans a3.symm, by simp, ?_⟩
    · have := a1.front hne
      exact ⟨this.hdE, this.tree, this.root, this.ext⟩
    · intro l' hl'
      simp only [Mode.limit.injEq] at hl'
      subst hl'
      exact ⟨⟨a2.lim, a2.ebl, a2.oth, a2.pe, a2.fu⟩, by simp⟩
  | limitPush x p =>
    obtain ⟨l, hm, hx⟩ := hL
    obtain ⟨hL, -⟩ := hS.limit l hm
    simp only [exec, Option.map_eq_some_iff, Prod.mk.injEq] at h
    obtain ⟨s1, h1, rfl, rfl⟩ := h
    obtain ⟨a1, a2, a3, a4, a5, a6⟩ := bulkPush_eq hc o hI h1
    refine ⟨⟨elems s1, q.mode, none⟩, ⟨rfl, a2.trans (hS.perm.symm.cons x), rfl, rfl⟩, a1, List.Perm.refl _, by simp [hm], ?_⟩
    intro l' hl'
    have hll : l = l' := by
      have : (Mode.limit l : Mode α) = .limit l' := by rw [← hm]; exact hl'
      simpa using this
    subst hll
    -- what is not in the extract buffer
    have hoth : s1.eb = s.eb → ∀ y ∈ ords s1.heaps ++ pends s1.heaps ++ (items s1.ias ++ rests s1.eas),
        y = x ∨ y ∈ ords s.heaps ++ pends s.heaps ++ (items s.ias ++ rests s.eas) := by
      intro he y hy
      have h2 : List.Perm (s1.eb ++ (ords s1.heaps ++ pends s1.heaps ++ (items s1.ias ++ rests s1.eas)))
          (s.eb ++ (x :: (ords s.heaps ++ pends s.heaps ++ (items s.ias ++ rests s.eas)))) := by
        refine (elems_limit s1).symm.trans (a2.trans ?_)
        exact ((elems_limit s).cons x).trans List.perm_middle.symm
      rw [he] at h2
      have := ((List.perm_append_left_iff _).1 h2).mem_iff.1 hy
      rwa [List.mem_cons] at this
    refine ⟨⟨by rw [a3]; exact hL.lim, ?_, ?_, ?_, ?_⟩, by simp⟩
    · rcases a5 with h | h
      · rw [h]; simp
      · rw [h]; exact hL.ebl
    · intro y hy z hz
      rcases a5 with h | h
      · rw [h] at hy; simp at hy
      · rw [h] at hy
        rcases hoth h z hz with rfl | h3
        · exact hc.swo.negtrans _ _ _ hx (hc.swo.asymm _ _ (hL.ebl y hy))
        · exact hL.oth y hy z h3
    · intro y hy
      rcases a4 y hy with rfl | h
      · exact hx
      · exact hL.pe y h
    · intro hf y hy
      obtain ⟨h3, h4⟩ := a6 hf
      rcases hoth h4 y hy with rfl | h5
      · exact hx
      · exact hL.fu h3 y h5
  | limitTop =>
    obtain ⟨l, hm⟩ := hL
    obtain ⟨hL, -⟩ := hS.limit l hm
    simp only [exec, Option.map_eq_some_iff, Prod.mk.injEq] at h
    obtain ⟨⟨v, s1⟩, h1, rfl, rfl⟩ := h
    unfold limitTop at h1
    rw [hL.lim] at h1
    dsimp only at h1
    split_ifs at h1 with hA hB
    · simp only [Option.some.injEq, Prod.mk.injEq] at h1
      obtain ⟨rfl, rfl⟩ := h1
      rw [Bool.and_eq_true, List.isEmpty_iff] at hA
      refine ⟨{ q with last := some l }, ⟨l, l, hm, rfl, .inr ⟨rfl, ?_⟩, rfl⟩, hI, hS.perm, by simp [hm], ?_⟩
      · intro y hy
        have := (elems_limit s).mem_iff.1 (hS.perm.mem_iff.1 hy)
        rw [hA.1, List.nil_append] at this
        exact hL.fu hA.2 y this
      · intro l' hl'
        have hll : l = l' := by
          have : (Mode.limit l : Mode α) = .limit l' := by rw [← hm]; exact hl'
          simpa using this
        subst hll
        exact ⟨hL, fun w hw => .inr ⟨hA.1, (Option.some.inj hw).symm⟩⟩
    all_goals
      split at h1
      · simp at h1
      rename_i s2 h2
      have hs2 : Inv c s2 ∧ LimOk c l s2 ∧ List.Perm (elems s2) (elems s) := by
        first
        | exact limitRefill_eq hc o hI hL.lim hL.pe h2
        | (rw [Option.some.injEq] at h2; subst h2; exact ⟨hI, hL, List.Perm.refl _⟩)
      obtain ⟨b1, b2, b3⟩ := hs2
      simp only [Option.map_eq_some_iff, Prod.mk.injEq] at h1
      obtain ⟨v', hv, rfl, rfl⟩ := h1
      have hmem : v' ∈ s2.eb := List.mem_of_mem_head? (by rw [hv]; rfl)
      have hP : List.Perm q.elems (elems s2) := hS.perm.trans b3.symm
      refine ⟨{ q with last := some v' }, ⟨l, v', hm, rfl, .inl ⟨⟨?_, ?_⟩, b2.ebl v' hmem⟩, rfl⟩, b1, hP, by simp [hm], ?_⟩
      · exact hP.mem_iff.2 ((elems_limit s2).mem_iff.2 (List.mem_append_left _ hmem))
      · intro y hy
        have hy' := (elems_limit s2).mem_iff.1 (hP.mem_iff.1 hy)
        rw [List.mem_append] at hy'
        rcases hy' with hy' | hy'
        · obtain ⟨w, hw, hle⟩ := head_le hc.swo b1.core.ebS hy'
          rw [hv] at hw
          rw [Option.some.inj hw]; exact hle
        · exact b2.oth v' hmem y hy'
      · intro l' hl'
        have hll : l = l' := by
          have : (Mode.limit l : Mode α) = .limit l' := by rw [← hm]; exact hl'
          simpa using this
        subst hll
        exact ⟨b2, fun w hw => .inl (by rw [hv]; exact hw)⟩
  | limitPop =>
    obtain ⟨l, v, hm, hlast, hv⟩ := hL
    obtain ⟨hL, hla⟩ := hS.limit l hm
    have hhd : s.eb.head? = some v := by
      rcases hla v hlast with h | ⟨-, rfl⟩
      · exact h
      · rw [hc.swo.irrefl] at hv; simp at hv
    simp only [exec, Option.map_eq_some_iff, Prod.mk.injEq] at h
    obtain ⟨s1, h1, rfl, rfl⟩ := h
    cases heb : s.eb with
    | nil => rw [heb] at hhd; simp at hhd
    | cons y r =>
      have hlp : limitPop c o s = if r.isEmpty && !s.full then limitRefill c o l { s with eb := r } else some { s with eb := r } := by
        unfold limitPop
        split
        · rename_i l' y' r' e1 e2
          rw [hL.lim, Option.some.injEq] at e1
          rw [heb, List.cons.injEq] at e2
          obtain ⟨-, rfl⟩ := e2
          subst e1
          rfl
        · rename_i hno
          exact absurd heb (hno l y r hL.lim)
      rw [hlp] at h1
      rw [heb] at hhd
      simp only [List.head?_cons, Option.some.injEq] at hhd
      subst hhd
      have hsub : ∀ x ∈ r, x ∈ s.eb := fun x hx => by rw [heb]; exact List.mem_cons_of_mem _ hx
      have hLim0 : LimOk c l { s with eb := r } :=
        ⟨hL.lim, fun x hx => hL.ebl x (hsub x hx), fun x hx => hL.oth x (hsub x hx), hL.pe, hL.fu⟩
      have hI0 : Inv c { s with eb := r } := by
        refine ⟨hI.heaps, ⟨hI.core.int, hI.core.ext, by
            have := hI.core.ebS; rw [heb] at this; exact (sorted_cons.1 this).2⟩, fun hne => ?_⟩
        have hf := hI.front (by rw [heb]; simp)
        have hroot : ∀ (s2 : S α) (x : α) (r2 : List α), s2.eb = x :: r2 → x ∈ s.eb → s2.hdE = s.hdE → s2.hdH = s.hdH → s2.hdI = s.hdI →
            headGame c s2 = some .E := by
          intro s2 x r2 e1 e2 e3 e4 e5
          refine headGame_E (by rw [e3]; exact hf.hdE) e1 ?_ ?_
          · intro w hw
            have := key_mem hc hI hf.tree (t := .H) (v := w) (by rw [← hw, e4]; rfl)
            exact hL.oth x e2 w (List.mem_append_left _ (List.mem_append_left _ this))
          · intro w hw
            have := key_mem hc hI hf.tree (t := .I) (v := w) (by rw [← hw, e5]; rfl)
            exact hL.oth x e2 w (List.mem_append_right _ (List.mem_append_left _ this))
        refine ⟨hf.hdE, hf.tree, ?_, fun x hx => hf.ext x (hsub x hx)⟩
        cases hr : r with
        | nil => exact absurd hr hne
        | cons z r' =>
          show s.root = _
          rw [hf.root, hroot s y r heb (by rw [heb]; exact List.mem_cons_self) rfl rfl rfl]
          exact (hroot { s with eb := z :: r' } z r' rfl (hsub z (by rw [hr]; exact List.mem_cons_self)) rfl rfl rfl).symm
      have hP0 : List.Perm q.elems (y :: elems { s with eb := r }) := by
        refine hS.perm.trans ?_
        unfold elems arrays
        rw [heb]
        classical
        refine List.perm_iff_count.2 fun z => ?_
        simp only [List.count_append, List.count_cons]
        omega
      have hs1 : Inv c s1 ∧ LimOk c l s1 ∧ List.Perm (elems s1) (elems { s with eb := r }) := by
        split_ifs at h1 with hre
        · exact limitRefill_eq hc o hI0 hL.lim hL.pe h1
        · rw [Option.some.injEq] at h1
          subst h1
          exact ⟨hI0, hLim0, List.Perm.refl _⟩
      obtain ⟨b1, b2, b3⟩ := hs1
      refine ⟨⟨elems s1, q.mode, none⟩, ⟨rfl, y, hlast, hP0.trans (b3.symm.cons y), rfl, rfl⟩, b1, List.Perm.refl _, by simp [hm], ?_⟩
      intro l' hl'
      have hll : l = l' := by
        have : (Mode.limit l : Mode α) = .limit l' := by rw [← hm]; exact hl'
        simpa using this
      subst hll
      exact ⟨b2, by simp⟩
  | limitEnd =>
    simp only [exec, Option.some.injEq, Prod.mk.injEq] at h
    obtain ⟨rfl, rfl⟩ := h
    obtain ⟨a1, a2, a3⟩ := bulkEnd_eq hc hI
    refine ⟨⟨q.elems, .normal, none⟩, ⟨rfl, rfl⟩, ⟨a1.heaps, ⟨a1.core.int, a1.core.ext, a1.core.ebS⟩, fun hne => ?_⟩, hS.perm.trans a3.symm,
      fun _ => ⟨a2, by simp⟩, by simp⟩
    have := a1.front hne
    exact ⟨this.hdE, this.tree, this.root, this.ext⟩

end Stxxl.PPQ
