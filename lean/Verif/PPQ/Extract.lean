import Verif.PPQ.Heaps
import Mathlib.Tactic.Tauto
/-! Extracting elements from the arrays. -/
namespace Stxxl.PPQ
open MwMerge.Spec
variable {α : Type}

theorem seqs_sorted {c : Cfg α} {s : S α} (hC : Core c s) (v : Option α) : ∀ q ∈ seqs c s v, Sorted c.lt q := by
  intro q hq
  unfold seqs at hq
  rw [List.mem_append] at hq
  rcases hq with hq | hq
  · obtain ⟨e, he, rfl⟩ := List.mem_map.1 hq
    exact below_sorted (loaded_sorted (hC.ext.ok e he))
  · obtain ⟨a, ha, rfl⟩ := List.mem_map.1 hq
    exact below_sorted (hC.int.sorted a ha)

theorem seqs_lt {c : Cfg α} {s : S α} {v : α} : ∀ x ∈ (seqs c s (some v)).flatten, c.lt x v = true := by
  intro x hx
  obtain ⟨q, hq, hx⟩ := List.mem_flatten.1 hx
  unfold seqs at hq
  rw [List.mem_append] at hq
  rcases hq with hq | hq
  · obtain ⟨e, -, rfl⟩ := List.mem_map.1 hq
    exact below_lt x hx
  · obtain ⟨e, -, rfl⟩ := List.mem_map.1 hq
    exact below_lt x hx

/-- `advance_arrays` -/
theorem advance_eq {c : Cfg α} (hc : CfgOk c) {s : S α} {v : Option α} {n : Nat} {out : List α} {Q' : List (List α)} (hC : Core c s)
    (hv : ∀ e ∈ s.eas, LimitOk c v e) (hm : Merges c.lt false (seqs c s v) n out Q') :
    ∃ eas emt R free esize ias isize mia hdI root oob, advance c s (seqs c s v) Q' =
        { s with
          eas := eas, emt := emt, R := R, free := free, esize := esize, ias := ias, isize := isize, mia := mia, hdI := hdI
          root := root, oob := oob } ∧
      IntOk c ias isize ∧ ExtOk c eas esize emt ∧ IAtree c ias mia hdI ∧ root = headGame c { s with hdI := hdI } ∧
      List.Perm (items s.ias ++ rests s.eas) (out ++ (items ias ++ rests eas)) ∧
      (∀ x ∈ out, ∀ y ∈ items ias ++ rests eas, c.lt y x = false) ∧
      (n = (seqs c s v).flatten.length → ∀ y ∈ items ias ++ rests eas, AtLeast c v y) := by
  classical
  have hsuf := suf_of _ _ hm.seqs hm.suffix
  obtain ⟨hs1, hs2⟩ := Suf.split hsuf
  rw [List.length_map] at hs1 hs2
  obtain ⟨r1, a1, a2, a3, a4, a5⟩ := take_ext hc v s.eas _ (fun e he => ⟨hC.ext.ok e he, hv e he⟩) hs1
  obtain ⟨r2, b1, b2, b3, b4⟩ := take_int hc v s.ias _ hC.int.sorted hs2
  have d1 := diffs_sum hs1
  have d2 := diffs_sum hs2
  have l1 := diffs_length hs1
  rw [List.length_map] at l1
  generalize hA : List.map (fun e => below c.lt v e.loaded) s.eas = QE at *
  generalize hB : List.map (fun a => below c.lt v a.items) s.ias = QI at *
  have hQE : QE.length = s.eas.length := by rw [← hA, List.length_map]
  have hQ : seqs c s v = QE ++ QI := by unfold seqs; rw [hA, hB]
  have hde : (diffs (seqs c s v) Q').take s.eas.length = diffs QE (Q'.take s.eas.length) := by
    unfold diffs
    rw [List.take_zipWith, hQ, List.take_left' hQE]
  have hdi : (diffs (seqs c s v) Q').drop s.eas.length = diffs QI (Q'.drop s.eas.length) := by
    unfold diffs
    rw [List.drop_zipWith, hQ, List.drop_left' hQE]
  unfold advance
  dsimp only
  rw [show List.zipWith (fun (a b : List α) => a.length - b.length) (seqs c s v) Q' = diffs (seqs c s v) Q' from rfl, hde, hdi]
  generalize diffs QE (Q'.take s.eas.length) = de at *
  generalize diffs QI (Q'.drop s.eas.length) = di at *
  rw [List.map_zipWith, List.map_zipWith]
  generalize hE : List.zipWith (fun (e : EA α) n => (e.remove c.B n).1) s.eas de = E1 at *
  generalize hI : List.zipWith (fun (a : IA α) n => ({ a with items := a.items.drop n } : IA α)) s.ias di = I1 at *
  generalize (List.zipWith (fun (e : EA α) n => (e.remove c.B n).2) s.eas de).sum = freed
  have hE1l : E1.length = s.eas.length := by rw [← hE, List.length_zipWith, l1, Nat.min_self]
  have hExt : ExtOk c E1 (s.esize - de.sum) s.emt := by
    refine ⟨a4, ?_, ?_, by rw [hE1l]; exact hC.ext.len⟩
    · have h1 := a1.length_eq
      have h2 := a2.length_eq
      rw [List.length_append] at h1 h2
      rw [hC.ext.size]; omega
    · intro i
      rw [hC.ext.tree i]
      have : (E1.map (·.nextMin c.B))[i]? = (s.eas.map (·.nextMin c.B))[i]? := by rw [a5]
      rw [List.getElem?_map, List.getElem?_map] at this
      cases h1 : E1[i]? with
      | none => rw [h1] at this; cases h2 : s.eas[i]? with
        | none => rfl
        | some y => rw [h2] at this; simp at this
      | some x => rw [h1] at this; cases h2 : s.eas[i]? with
        | none => rw [h2] at this; simp at this
        | some y => rw [h2] at this; simp at this; exact this.symm
  have hInt : IntOk c I1 (s.isize - di.sum) := by
    refine ⟨b4, ?_⟩
    have h1 := b1.length_eq
    have h2 := b2.length_eq
    rw [List.length_append] at h1 h2
    rw [hC.int.size]; omega
  have hQ' : Q'.flatten = (Q'.take s.eas.length).flatten ++ (Q'.drop s.eas.length).flatten := by
    rw [← List.flatten_append, List.take_append_drop]
  obtain ⟨emt, R, free, e1, e2⟩ := cleanupExt_ok (c := c)
    (s := { s with eas := E1, free := s.free + freed, esize := s.esize - de.sum, ias := I1, isize := s.isize - di.sum }) hExt
  rw [e1]
  have hfin : ∀ (s2 : S α) (eas : List (EA α)) (free : Nat),
      s2 = { s with
        eas := eas, emt := emt, R := R, free := free, esize := s.esize - de.sum, ias := I1, isize := s.isize - di.sum } →
      HintEq eas (E1.filter fun e => !e.isEmpty) →
      ∃ eas emt R free esize ias isize mia hdI root oob, cleanupInt c s2 =
        { s with
          eas := eas, emt := emt, R := R, free := free, esize := esize, ias := ias, isize := isize, mia := mia, hdI := hdI
          root := root, oob := oob } ∧
      IntOk c ias isize ∧ ExtOk c eas esize emt ∧ IAtree c ias mia hdI ∧ root = headGame c { s with hdI := hdI } ∧
      List.Perm (items s.ias ++ rests s.eas) (out ++ (items ias ++ rests eas)) ∧
      (∀ x ∈ out, ∀ y ∈ items ias ++ rests eas, c.lt y x = false) ∧
      (n = (seqs c s v).flatten.length → ∀ y ∈ items ias ++ rests eas, AtLeast c v y) := by
    intro s2 eas free2 he hh
    obtain ⟨mia, hdI, root, oob, f1, f2, f3⟩ := cleanupInt_eq c s2
    subst he
    have hre : rests eas = rests E1 := by rw [hh.rests, rests_filter]
    have hmem : ∀ y, y ∈ items I1 ++ rests E1 ↔ y ∈ Q'.flatten ∨ y ∈ r1 ∨ y ∈ r2 := by
      intro y
      rw [List.mem_append, a2.mem_iff, b2.mem_iff, hQ', List.mem_append, List.mem_append, List.mem_append]
      tauto
    refine ⟨_, _, _, _, _, _, _, _, _, _, _, f1, hInt.filter, e2.congr hh, f2, f3, ?_, ?_, ?_⟩
    · rw [items_filter, hre]
      refine List.perm_iff_count.2 fun x => ?_
      have p1 := List.perm_iff_count.1 a1 x
      have p2 := List.perm_iff_count.1 a2 x
      have p3 := List.perm_iff_count.1 b1 x
      have p4 := List.perm_iff_count.1 b2 x
      have p5 := List.perm_iff_count.1 hm.perm x
      rw [hQ, hQ', List.flatten_append] at p5
      simp only [List.count_append] at p1 p2 p3 p4 p5 ⊢
      omega
    · rw [items_filter, hre]
      intro x hx y hy
      rw [hmem] at hy
      have hxs : x ∈ (seqs c s v).flatten := hm.perm.mem_iff.1 (List.mem_append_left _ hx)
      have hr : AtLeast c v y → c.lt y x = false := by
        intro h
        cases v with
        | none => exact absurd h (by simp [AtLeast])
        | some v => exact hc.swo.negtrans _ _ _ h (hc.swo.asymm _ _ (seqs_lt x hxs))
      rcases hy with hy | hy | hy
      · exact hm.smallest x hx y hy
      · exact hr (a3 y hy)
      · exact hr (b3 y hy)
    · rw [items_filter, hre]
      intro hn y hy
      rw [hmem] at hy
      have hz : Q'.flatten = [] := by
        have := hm.perm.length_eq
        rw [List.length_append, hm.length] at this
        exact List.length_eq_zero_iff.1 (by omega)
      rcases hy with hy | hy | hy
      · rw [hz] at hy; simp at hy
      · exact a3 y hy
      · exact b3 y hy
  split
  · exact hfin _ _ _ rfl (HintEq.refl _)
  · obtain ⟨eas2, free2, g1, g2⟩ := hintExternal_eq c
      { s with
        eas := E1.filter fun e => !e.isEmpty, emt := emt, R := R, free := free, esize := s.esize - de.sum, ias := I1
        isize := s.isize - di.sum }
    rw [g1]
    exact hfin _ _ _ rfl g2

theorem refillLoop_eq {c : Cfg α} (hc : CfgOk c) (o : Oracle) (mi : Nat) : ∀ (f : Nat) (s s' : S α), ExtOk c s.eas s.esize s.emt →
    refillLoop c o mi f s = some s' →
    ∃ eas emt, s' = { s with eas := eas, emt := emt } ∧ ExtOk c eas s.esize emt ∧ rests eas = rests s.eas := by
  intro f
  induction f with
  | zero => intro s s' _ h; simp [refillLoop] at h
  | succ f ih =>
    intro s s' hE h
    rw [refillLoop] at h
    split_ifs at h with h1
    · rw [Option.some.injEq] at h; subst h; exact ⟨_, _, rfl, hE, rfl⟩
    · split at h
      · rw [Option.some.injEq] at h; subst h; exact ⟨_, _, rfl, hE, rfl⟩
      · split at h
        · simp at h
        · split_ifs at h with h2
          · rw [Option.some.injEq] at h; subst h; exact ⟨_, _, rfl, hE, rfl⟩
          · obtain ⟨eas, emt, e1, e2, e3⟩ := waitEA_eq hc hE _ _
            rw [e1] at h
            obtain ⟨eas2, emt2, rfl, g2, g3⟩ := ih _ _ (by exact e2) h
            exact ⟨_, _, rfl, g2, g3.trans e3⟩

/-- The queue after a refill: all trees are right, and if the extract buffer is empty so are the arrays. -/
structure ReadyOk (c : Cfg α) (s : S α) : Prop where
  hdE : s.hdE = !s.eb.isEmpty
  tree : IAtree c s.ias s.mia s.hdI
  root : s.root = headGame c s
  ext : ∀ x ∈ s.eb, ∀ y ∈ rests s.eas, c.lt y x = false
  arr : s.eb = [] → s.ias = [] ∧ s.eas = []

/-- `refill_extract_buffer` -/
theorem refill_eq {c : Cfg α} (hc : CfgOk c) (o : Oracle) (mi ma : Nat) {s s' : S α} (hC : Core c s) (heb : s.eb = [])
    (hh : refill c o mi ma s = some s') :
    s'.heaps = s.heaps ∧ s'.hsize = s.hsize ∧ s'.mh = s.mh ∧ s'.hdH = s.hdH ∧ s'.lim = s.lim ∧ s'.full = s.full ∧
      Core c s' ∧ ReadyOk c s' ∧ List.Perm (arrays s') (arrays s) ∧ (∀ x ∈ s'.eb, ∀ y ∈ items s'.ias ++ rests s'.eas, c.lt y x = false) ∧
      s'.eb.length ≤ (if ma = 0 then c.ebLimit else ma) := by
  unfold refill at hh
  dsimp only at hh
  obtain ⟨emt, R, free, e1, e2⟩ := cleanupExt_ok hC.ext
  rw [e1] at hh
  obtain ⟨mia, hdI, root, oob, e3, e4, e5⟩ := cleanupInt_eq c (clearIAmin c { s with eas := s.eas.filter fun e => !e.isEmpty, emt := emt, R := R, free := free })
  rw [e3] at hh
  have harr : arrays s = items s.ias ++ rests s.eas := by unfold arrays; rw [heb]; rfl
  generalize (if ma = 0 then c.ebLimit else ma) = M at hh ⊢
  split_ifs at hh with h1 h2
  · rw [Option.some.injEq] at hh
    subst hh
    rw [Bool.and_eq_true] at h1
    have hE0 : (s.eas.filter fun e => !e.isEmpty) = [] := List.isEmpty_iff.1 h1.1
    have hI0 : (s.ias.filter fun a => !a.items.isEmpty) = [] := List.isEmpty_iff.1 h1.2
    refine ⟨rfl, rfl, rfl, rfl, rfl, rfl, ⟨hC.int.filter, e2, sorted_nil⟩, ⟨rfl, e4, rfl, fun x hx => ?_, fun _ => ⟨hI0, hE0⟩⟩, ?_, fun x hx => ?_, Nat.zero_le _⟩
    · exact absurd hx (by simp [deactEB, headEvent])
    · show List.Perm ([] ++ items (s.ias.filter fun a => !a.items.isEmpty) ++ rests (s.eas.filter fun e => !e.isEmpty)) _
      rw [items_filter, rests_filter, harr]; exact List.Perm.refl _
    · exact absurd hx (by simp [deactEB, headEvent])
  all_goals
    split at hh
    · simp at hh
    rename_i s1 hl
    have hs1 : ∃ eas emt2, s1 = { s with
        eas := eas, emt := emt2, R := R, free := free, ias := (s.ias.filter fun a => !a.items.isEmpty)
        mia := mia, hdI := hdI, root := root, oob := oob } ∧ ExtOk c eas s.esize emt2 ∧ rests eas = rests s.eas := by
      first
      | (obtain ⟨eas, emt2, f1, f2, f3⟩ := refillLoop_eq hc o _ _ _ _ (by exact e2) hl
         exact ⟨eas, emt2, f1, f2, by rw [f3]; exact rests_filter _⟩)
      | (rw [Option.some.injEq] at hl
         exact ⟨_, _, hl.symm, e2, rests_filter _⟩)
    obtain ⟨eas, emt2, rfl, f2, f3⟩ := hs1
    split_ifs at hh with h3
    split at hh
    · simp at hh
    rename_i out S' hmm
    rw [Option.some.injEq] at hh
    rw [total_flatten] at hmm h3
    have hC1 : Core c { s with
        eas := eas, emt := emt2, R := R, free := free, ias := (s.ias.filter fun a => !a.items.isEmpty)
        mia := mia, hdI := hdI, root := root, oob := oob } := ⟨hC.int.filter, f2, hC.ebS⟩
    have hm := hc.merges _ _ _ _ (seqs_sorted hC1 _) (Nat.min_le_left _ _) hmm
    obtain ⟨eas3, emt3, R3, free3, esize3, ias3, isize3, mia3, hdI3, root3, oob3, g1, g2, g3, g4, g5, g6, g7, -⟩ :=
      advance_eq (s := { s with
        eb := out
        eas := eas, emt := emt2, R := R, free := free, ias := (s.ias.filter fun a => !a.items.isEmpty)
        mia := mia, hdI := hdI, root := root, oob := oob }) hc ⟨hC1.int, hC1.ext, hm.sorted⟩ (limitOk_argmin hc f2.tree) (by exact hm)
    have g1' : advance c _ (seqs c { s with
        eas := eas, emt := emt2, R := R, free := free, ias := (s.ias.filter fun a => !a.items.isEmpty)
        mia := mia, hdI := hdI, root := root, oob := oob } _) S' = _ := g1
    rw [extLimit, g1'] at hh
    subst hh
    have hone : out ≠ [] := by
      intro h; exact h3 (by rw [← hm.length, h]; rfl)
    dsimp only at g6
    rw [items_filter, f3] at g6
    refine ⟨rfl, rfl, rfl, rfl, rfl, rfl, ⟨g2, g3, hm.sorted⟩, ⟨?_, g4, rfl, ?_, fun h => absurd h hone⟩, ?_, g7, ?_⟩
    · show true = !out.isEmpty
      cases out with
      | nil => exact absurd rfl hone
      | cons _ _ => rfl
    · intro x hx y hy; exact g7 x hx y (List.mem_append_right _ hy)
    · show List.Perm (out ++ items ias3 ++ rests eas3) _
      rw [harr, List.append_assoc]
      exact g6.symm
    · show out.length ≤ _
      rw [hm.length]; exact Nat.min_le_right _ _

/-- The loop of `bulk_pop_limit` -/
theorem limitLoop_eq {c : Cfg α} (hc : CfgOk c) (o : Oracle) (l : α) : ∀ (f : Nat) (s s' : S α) (v : α) (full : Bool),
    ExtOk c s.eas s.esize s.emt → limitLoop c o l f s = some (s', v, full) →
    (∃ eas emt, s' = { s with eas := eas, emt := emt } ∧ ExtOk c eas s.esize emt ∧ rests eas = rests s.eas) ∧
      (∀ e ∈ s'.eas, LimitOk c (some v) e) ∧ (c.lt l v = false) ∧ (full = true → v = l) := by
  intro f
  induction f with
  | zero => intro s s' v full _ h; simp [limitLoop] at h
  | succ f ih =>
    intro s s' v full hE h
    rw [limitLoop] at h
    split at h
    · rename_i ha
      simp only [Option.some.injEq, Prod.mk.injEq] at h
      obtain ⟨rfl, rfl, rfl⟩ := h
      refine ⟨⟨_, _, rfl, hE, rfl⟩, ?_, hc.swo.irrefl _, fun _ => rfl⟩
      intro e he u hu
      have := limitOk_argmin hc hE.tree e he
      rw [ha] at this
      have h2 : e.nextMin c.B = none := this
      rw [h2] at hu; simp at hu
    · rename_i i w ha
      split at h
      · simp at h
      · rename_i e hi
        split at h
        · simp at h
        · rename_i v0 hv0
          have hw : v0 = w := by
            have h1 := (argmin_some hc.swo ha).1
            have h2 := hE.tree i
            rw [List.getD_eq_getElem?_getD, h1, hi] at h2
            simp only [Option.getD_some, Option.bind_some] at h2
            rw [hv0] at h2
            exact (Option.some.inj h2).symm
          subst hw
          have hmin : ∀ e ∈ s.eas, LimitOk c (some v0) e := by
            have := limitOk_argmin hc hE.tree
            rw [ha] at this
            exact this
          split_ifs at h with h1 h2
          · simp only [Option.some.injEq, Prod.mk.injEq] at h
            obtain ⟨rfl, rfl, rfl⟩ := h
            refine ⟨⟨_, _, rfl, hE, rfl⟩, ?_, hc.swo.irrefl _, fun _ => rfl⟩
            intro e he u hu
            exact hc.swo.negtrans _ _ _ (hmin e he u hu) (hc.swo.asymm _ _ h1)
          · simp only [Option.some.injEq, Prod.mk.injEq] at h
            obtain ⟨rfl, rfl, rfl⟩ := h
            exact ⟨⟨_, _, rfl, hE, rfl⟩, hmin, by simpa using h1, fun h => by simp at h⟩
          · obtain ⟨eas, emt, e1, e2, e3⟩ := waitEA_eq hc hE i (o.poll f)
            rw [e1] at h
            obtain ⟨⟨eas2, emt2, rfl, g2, g3⟩, g4, g5, g6⟩ := ih _ _ _ _ (by exact e2) h
            exact ⟨⟨_, _, rfl, g2, g3.trans e3⟩, g4, g5, g6⟩

/-- All elements. -/
def elems (s : S α) : List α := ords s.heaps ++ pends s.heaps ++ arrays s

/-- `bulk_pop_limit` -/
theorem bulkPopLimit_eq {c : Cfg α} (hc : CfgOk c) (o : Oracle) {l : α} {mx : Option Nat} {s s' : S α} {out : List α} {fl : Bool}
    (hI : Inv c s) (hpe : ∀ y ∈ pends s.heaps, c.lt y l = false) (hh : bulkPopLimit c o l mx s = some ((out, fl), s')) :
    Inv c s' ∧ s'.eb = [] ∧ IAtree c s'.ias s'.mia s'.hdI ∧ pends s'.heaps = pends s.heaps ∧ s'.lim = s.lim ∧
      Extracted c.lt (elems s) out (elems s') ∧ (∀ x ∈ out, c.lt x l = true) ∧ (∀ k, mx = some k → out.length ≤ k) ∧
      (fl = true → ∀ y ∈ elems s', c.lt y l = false) := by
  unfold bulkPopLimit at hh
  split at hh
  · simp at hh
  rename_i s1 h1
  obtain ⟨hm1, heb1⟩ := convert_eq hc o 2 hI.core h1
  have hI1 := hI.moved hm1
  split at hh
  · simp at hh
  rename_i s2 h2
  have hs2 : Inv c s2 ∧ s2.eb = [] ∧ pends s2.heaps = pends s1.heaps ∧ s2.lim = s1.lim ∧
      List.Perm (ords s2.heaps ++ arrays s2) (ords s1.heaps ++ arrays s1) ∧ (∀ y ∈ ords s2.heaps, c.lt y l = false) := by
    split_ifs at h2 with h3
    · exact flushLimit_eq hc o hI1 heb1 h2
    · rw [Option.some.injEq] at h2
      subst h2
      refine ⟨hI1, heb1, rfl, rfl, List.Perm.refl _, ?_⟩
      have : ords s1.heaps = [] := List.length_eq_zero_iff.1 (by rw [← hI1.heaps.size]; omega)
      rw [this]; simp
  obtain ⟨hI2, heb2, hpe2, hlim2, hperm2, hge2⟩ := hs2
  split at hh
  · simp at hh
  rename_i s3 v full h3
  obtain ⟨⟨eas, emt, rfl, g2, g3⟩, g4, g5, g6⟩ := limitLoop_eq hc o l _ _ _ _ _ hI2.core.ext h3
  dsimp only at hh
  split at hh
  · simp at hh
  rename_i out1 S' hmm
  simp only [Option.some.injEq, Prod.mk.injEq] at hh
  obtain ⟨⟨rfl, rfl⟩, rfl⟩ := hh
  rw [total_flatten] at hmm ⊢
  have hC3 : Core c { s2 with eas := eas, emt := emt } := ⟨hI2.core.int, g2, hI2.core.ebS⟩
  have hm := hc.merges _ _ _ _ (seqs_sorted hC3 _) (Nat.min_le_left _ _) hmm
  obtain ⟨eas3, emt3, R3, free3, esize3, ias3, isize3, mia3, hdI3, root3, oob3, f1, f2, f3, f4, f5, f6, f7, f8⟩ :=
    advance_eq hc hC3 g4 hm
  rw [f1]
  have hpends : pends s2.heaps = pends s.heaps := by rw [hpe2, hm1.heaps]
  have hlt : ∀ x ∈ out1, c.lt x l = true := fun x hx =>
    hc.swo.lt_of_lt_of_le (seqs_lt x (hm.perm.mem_iff.1 (List.mem_append_left _ hx))) g5
  dsimp only at f6
  rw [g3] at f6
  have harr3 : elems { s2 with
      eas := eas3, emt := emt3, R := R3, free := free3, esize := esize3, ias := ias3, isize := isize3, mia := mia3, hdI := hdI3
      root := root3, oob := oob3 } = ords s2.heaps ++ pends s.heaps ++ (items ias3 ++ rests eas3) := by
    unfold elems arrays
    dsimp only
    rw [heb2, hpends]; rfl
  have hels : List.Perm (elems s) (ords s2.heaps ++ pends s.heaps ++ (items s2.ias ++ rests s2.eas)) := by
    classical
    refine List.perm_iff_count.2 fun x => ?_
    have p1 := List.perm_iff_count.1 hm1.perm x
    have p2 := List.perm_iff_count.1 hperm2 x
    unfold arrays at p1 p2
    unfold elems arrays
    rw [heb1] at p1 p2
    rw [heb2] at p2
    rw [hm1.heaps] at p2
    simp only [List.count_append, List.count_nil] at p1 p2 ⊢
    omega
  rw [harr3]
  refine ⟨⟨hI2.heaps, ⟨f2, f3, hI2.core.ebS⟩, fun h => absurd heb2 h⟩, heb2, f4, hpends, by rw [← hm1.lim, ← hlim2], ⟨?_, hm.sorted, ?_⟩, hlt, ?_, ?_⟩
  · refine hels.trans ?_
    classical
    refine List.perm_iff_count.2 fun x => ?_
    have p1 := List.perm_iff_count.1 f6 x
    simp only [List.count_append] at p1 ⊢
    omega
  · intro x hx y hy
    have hl := hc.swo.asymm _ _ (hlt x hx)
    rw [List.mem_append, List.mem_append] at hy
    rcases hy with (hy | hy) | hy
    · exact hc.swo.negtrans _ _ _ (hge2 y hy) hl
    · exact hc.swo.negtrans _ _ _ (hpe y hy) hl
    · exact f7 x hx y hy
  · intro k hk
    rw [hm.length, hk]; exact Nat.min_le_right _ _
  · intro hfl y hy
    rw [Bool.and_eq_true, decide_eq_true_eq] at hfl
    rw [List.mem_append, List.mem_append] at hy
    rcases hy with (hy | hy) | hy
    · exact hge2 y hy
    · exact hpe y hy
    · have := f8 (Nat.min_eq_left hfl.2) y hy
      rw [g6 hfl.1] at this
      exact this

end Stxxl.PPQ
