import Verif.PPQ.Hist
/-! With enough memory, and only bulk extraction, nothing goes wrong (C72). -/
namespace Stxxl.PPQ
open MwMerge.Spec
variable {α : Type}

/-- The merge ends and is defined unless everything is empty (C63); the numbers of arrays and heaps are 64-bit. -/
structure MergeTotal (c : Cfg α) : Prop where
  total : ∀ (Q : List (List α)) (n : Nat), (∀ q ∈ Q, Sorted c.lt q) → Q.flatten ≠ [] → n ≤ Q.flatten.length → Q.length ≤ 2 ^ 64 →
    ∃ out Q', c.mm Q n = some (out, Q')
  ias : c.maxIL ^ 8 ≤ 2 ^ 64
  heaps : c.numHeaps ≤ 2 ^ 64

/-- How many flushes have gone into the internal arrays, at least. -/
def weight (c : Cfg α) (ias : List (IA α)) : Nat := (ias.map fun a => c.maxIL ^ a.level).sum

theorem weight_append (c : Cfg α) (a b : List (IA α)) : weight c (a ++ b) = weight c a + weight c b := by simp [weight]

theorem weight_filter (c : Cfg α) (p : IA α → Bool) : ∀ l : List (IA α), weight c (l.filter p) ≤ weight c l := by
  intro l
  induction l with
  | nil => simp [weight]
  | cons a l ih =>
    rw [List.filter_cons]
    simp only [weight, List.map_cons, List.sum_cons] at ih ⊢
    split
    · simp only [List.map_cons, List.sum_cons]; omega
    · omega

theorem length_le_weight (c : Cfg α) (h : 0 < c.maxIL) : ∀ l : List (IA α), l.length ≤ weight c l := by
  intro l
  induction l with
  | nil => simp
  | cons a l ih =>
    have : 0 < c.maxIL ^ a.level := Nat.pow_pos h
    simp only [weight, List.map_cons, List.sum_cons, List.length_cons] at ih ⊢
    omega

theorem maxIL_pos {c : Cfg α} {W : Nat} (h : W < c.maxIL ^ 8) : 0 < c.maxIL := by
  rcases Nat.eq_zero_or_pos c.maxIL with h0 | h0
  · rw [h0] at h; simp at h
  · exact h0

/-- What is left when all arrays of a level are removed. -/
theorem weight_level (c : Cfg α) (level : Nat) : ∀ l : List (IA α),
    weight c ((l.map fun a => if a.level = level then { a with items := [] } else a).filter fun a => !a.items.isEmpty) +
      (l.filter fun a => decide (a.level = level)).length * c.maxIL ^ level ≤ weight c l := by
  intro l
  induction l with
  | nil => simp [weight]
  | cons a l ih =>
    simp only [List.map_cons, List.filter_cons]
    by_cases h : a.level = level
    · simp only [h, if_true, List.isEmpty_nil, Bool.not_true, Bool.false_eq_true, if_false, decide_true, List.length_cons, Nat.add_mul, Nat.one_mul]
      have : weight c (a :: l) = c.maxIL ^ level + weight c l := by simp [weight, h]
      rw [this]; omega
    · simp only [h, if_false, decide_false, Bool.false_eq_true]
      have : weight c (a :: l) = c.maxIL ^ a.level + weight c l := by simp [weight]
      rw [this]
      split
      · have : ∀ r, weight c (a :: r) = c.maxIL ^ a.level + weight c r := by intro r; simp [weight]
        rw [this]; omega
      · omega

/-- `add_as_internal_array` succeeds. -/
theorem addIA_total {c : Cfg α} (hc : CfgOk c) (hm : MergeTotal c) (ha : c.asserts = false) (o : Oracle) :
    ∀ (f : Nat) (s : S α) (vals : List α) (level : Nat), IntOk c s.ias s.isize → s.eb = [] → Sorted c.lt vals → vals ≠ [] → level + f = 8 →
      weight c s.ias + c.maxIL ^ level < c.maxIL ^ 8 →
      ∃ s', addIA c o f s vals level = some s' ∧ weight c s'.ias ≤ weight c s.ias + c.maxIL ^ level := by
  intro f
  induction f with
  | zero =>
    intro s vals level _ _ _ _ hl hw
    rw [show level = 8 from by omega] at hw; omega
  | succ f ih =>
    intro s vals level hI heb hv hne hl hw
    rw [addIA]
    rw [if_neg (by simpa using hne), if_neg (by simp [ha])]
    dsimp only
    rw [if_pos (by simp [heb])]
    dsimp only
    have hw1 : weight c (s.ias ++ [⟨vals, level⟩]) = weight c s.ias + c.maxIL ^ level := by
      rw [weight_append]; simp [weight]
    have hI1 : IntOk c (s.ias ++ [⟨vals, level⟩]) (s.isize + vals.length) := by
      refine ⟨?_, ?_⟩
      · intro a ha
        rcases List.mem_append.1 ha with h | h
        · exact hI.sorted a h
        · rw [List.mem_singleton.1 h]; exact hv
      · rw [items_append, List.length_append, hI.size]; simp [items]
    split_ifs with h1 h2
    · exact ⟨_, rfl, Nat.le_of_eq hw1⟩
    · exact ⟨_, rfl, Nat.le_of_eq hw1⟩
    · generalize hL : s.ias ++ [⟨vals, level⟩] = L at *
      have hmem : (⟨vals, level⟩ : IA α) ∈ L := by rw [← hL]; simp
      generalize hS : (L.filter fun a => decide (a.level = level) && !a.items.isEmpty).map (·.items) = Q
      have hQs : ∀ q ∈ Q, Sorted c.lt q := by
        intro q hq
        rw [← hS, List.mem_map] at hq
        obtain ⟨a, ha, rfl⟩ := hq
        exact hI1.sorted a (List.mem_filter.1 ha).1
      have hvQ : vals ∈ Q := by
        rw [← hS, List.mem_map]
        refine ⟨⟨vals, level⟩, List.mem_filter.2 ⟨hmem, ?_⟩, rfl⟩
        simpa using hne
      have htot : total Q = Q.flatten.length := by unfold total; rw [List.length_flatten]
      have hQne : Q.flatten ≠ [] := by
        obtain ⟨x, r, rfl⟩ := List.exists_cons_of_ne_nil hne
        intro h0
        have : x ∈ Q.flatten := List.mem_flatten.2 ⟨_, hvQ, by simp⟩
        rw [h0] at this; simp at this
      have hlenQ : Q.length ≤ 2 ^ 64 := by
        have h5 := length_le_weight c (maxIL_pos hw) L
        have h6 : Q.length ≤ L.length := by rw [← hS, List.length_map]; exact List.length_filter_le _ _
        have := hm.ias
        omega
      obtain ⟨out, Q', hmm⟩ := hm.total Q (total Q) hQs hQne (by omega) hlenQ
      rw [hmm]; dsimp only
      have hM := hc.merges Q (total Q) out Q' hQs (by omega) hmm
      obtain ⟨mia, hdI, root, oob, e1, -, -⟩ := cleanupInt_eq c
        { s with ias := L.map fun a => if a.level = level then { a with items := [] } else a, isize := s.isize + vals.length }
      rw [e1]
      have hwl := weight_level c level L
      simp only [Nat.not_lt] at h1
      have hpow : c.maxIL ^ (level + 1) ≤ (L.filter fun a => decide (a.level = level)).length * c.maxIL ^ level := by
        rw [Nat.pow_succ, Nat.mul_comm]; exact Nat.mul_le_mul_right _ h1
      have hperm := items_clear (fun a => decide (a.level = level)) L
      generalize hN : ((L.map fun a => if a.level = level then { a with items := [] } else a).filter fun a => !a.items.isEmpty) = N at *
      have hNI : IntOk c N (s.isize + vals.length - total Q) := by
        rw [← hN]
        refine ⟨?_, ?_⟩
        · intro a ha
          have := (List.mem_filter.1 ha).1
          rw [List.mem_map] at this
          obtain ⟨b, hb, rfl⟩ := this
          split
          · exact List.Pairwise.nil
          · exact hI1.sorted b hb
        · rw [items_filter]
          have h5 := hperm.length_eq
          simp only [decide_eq_true_eq] at h5
          have h6 := hI1.size
          rw [hS] at h5
          rw [List.length_append] at h5
          omega
      have hon : out ≠ [] := by
        intro h0
        have := hM.length
        rw [h0, htot] at this
        exact hQne (List.length_eq_zero_iff.1 this.symm)
      obtain ⟨s', h3, h4⟩ := ih { s with
          ias := N
          isize := s.isize + vals.length - total Q
          mia := mia
          hdI := hdI
          root := root
          oob := oob } out (level + 1) hNI heb hM.sorted hon (by omega) (by dsimp only; omega)
      refine ⟨s', h3, ?_⟩
      dsimp only at h4
      omega

/-- No external arrays, nothing in the extract buffer. -/
structure K (c : Cfg α) (W : Nat) (s : S α) : Prop where
  eb : s.eb = []
  eas : s.eas = []
  nh : s.heaps.length = c.numHeaps
  w : weight c s.ias ≤ W

theorem addIA_K {c : Cfg α} (hc : CfgOk c) (hm : MergeTotal c) (ha : c.asserts = false) (o : Oracle) {W : Nat} {s : S α} {vals : List α}
    (hI : IntOk c s.ias s.isize) (hK : K c W s) (hW : W + 1 < c.maxIL ^ 8) (hv : Sorted c.lt vals) (hne : vals ≠ []) :
    ∃ s', addIA c o 8 s vals 0 = some s' ∧ K c (W + 1) s' ∧ s'.heaps = s.heaps ∧ s'.hsize = s.hsize := by
  obtain ⟨s', h1, h2⟩ := addIA_total hc hm ha o 8 s vals 0 hI hK.eb hv hne rfl (by have := hK.w; simp only [Nat.pow_zero]; omega)
  obtain ⟨ias, isize, mia, hdI, root, oob, rfl, -⟩ := addIA_eq hc o 8 s s' vals 0 hI hv h1
  refine ⟨_, h1, ⟨hK.eb, hK.eas, hK.nh, ?_⟩, rfl, rfl⟩
  have := hK.w
  simp only [Nat.pow_zero] at h2
  show weight c ias ≤ W + 1
  omega

theorem flushHeap_K {c : Cfg α} (hc : CfgOk c) (hm : MergeTotal c) (ha : c.asserts = false) {o : Oracle} (ho : ∀ n, o.memFree n = true)
    {W p : Nat} {s : S α} {h : Hp α} (hI : IntOk c s.ias s.isize) (hK : K c W s) (hW : W + 1 < c.maxIL ^ 8) (hp : s.heaps[p]? = some h)
    (hne : h.ord ++ h.pend ≠ []) : ∃ s', flushHeap c o p s = some s' ∧ K c (W + 1) s' := by
  unfold flushHeap
  rw [hp]; dsimp only
  unfold flushMem
  rw [if_pos (ho 0)]; dsimp only
  have hK1 : K c W (updHeap c { s with heaps := s.heaps.set p ⟨[], []⟩ } p) :=
    ⟨hK.eb, hK.eas, by show (s.heaps.set p _).length = _; rw [List.length_set]; exact hK.nh, hK.w⟩
  obtain ⟨s', h1, h2, -⟩ := addIA_K hc hm ha o (s := updHeap c { s with heaps := s.heaps.set p ⟨[], []⟩ } p) hI hK1 hW
    (sortList_sorted hc.swo (h.ord ++ h.pend)) (by
      intro h0
      have := (sortList_perm c.lt (h.ord ++ h.pend)).length_eq
      rw [h0] at this
      exact hne (List.length_eq_zero_iff.1 this.symm))
  rw [h1]
  exact ⟨_, rfl, h2.eb, h2.eas, h2.nh, h2.w⟩

theorem push_K {c : Cfg α} (hc : CfgOk c) (hm : MergeTotal c) (ha : c.asserts = false) (hcap : 0 < c.heapCap) {o : Oracle}
    (ho : ∀ n, o.memFree n = true) {W p : Nat} {x : α} {s : S α} (hI : IntOk c s.ias s.isize) (hK : K c W s) (hW : W + 1 < c.maxIL ^ 8)
    (hp : p < c.numHeaps) : ∃ s', push c o x p s = some s' ∧ K c (W + 1) s' := by
  unfold push
  have hl : p < s.heaps.length := by rw [hK.nh]; exact hp
  rw [List.getElem?_eq_getElem hl]; dsimp only
  have key : ∃ s1, (if (s.heaps[p]).ord.length + (s.heaps[p]).pend.length ≥ c.heapCap then flushHeap c o p s else some s) = some s1 ∧ K c (W + 1) s1 := by
    split_ifs with h1
    · exact flushHeap_K hc hm ha ho hI hK hW (List.getElem?_eq_getElem hl) (by
        intro h0
        have := congrArg List.length h0
        rw [List.length_append, List.length_nil] at this
        omega)
    · exact ⟨_, rfl, hK.eb, hK.eas, hK.nh, by have := hK.w; omega⟩
  obtain ⟨s1, h1, h2⟩ := key
  rw [h1]; dsimp only
  rw [List.getElem?_eq_getElem (by rw [h2.nh]; exact hp)]; dsimp only
  refine ⟨_, rfl, ?_⟩
  split_ifs <;> exact ⟨h2.eb, h2.eas, by first | (show (List.set _ _ _).length = _; rw [List.length_set]; exact h2.nh), h2.w⟩

theorem bulkPush_K {c : Cfg α} (hc : CfgOk c) (hm : MergeTotal c) (ha : c.asserts = false) (hcap : 0 < c.heapCap) {o : Oracle}
    (ho : ∀ n, o.memFree n = true) {W p : Nat} {x : α} {s : S α} (hI : IntOk c s.ias s.isize) (hK : K c W s) (hW : W + 1 < c.maxIL ^ 8)
    (hp : p < c.numHeaps) : ∃ s', bulkPush c o x p s = some s' ∧ K c (W + 1) s' := by
  unfold bulkPush
  have hl : p < s.heaps.length := by rw [hK.nh]; exact hp
  rw [List.getElem?_eq_getElem hl]; dsimp only
  have key : ∃ s1, (if (s.heaps[p]).ord.length + (s.heaps[p]).pend.length ≥ c.heapCap then
      flushHeap c o p { s with hsize := s.hsize + (s.heaps[p]).pend.length } else some s) = some s1 ∧ K c (W + 1) s1 := by
    split_ifs with h1
    · exact flushHeap_K hc hm ha ho (s := { s with hsize := s.hsize + (s.heaps[p]).pend.length }) hI ⟨hK.eb, hK.eas, hK.nh, hK.w⟩ hW
        (h := s.heaps[p]) (List.getElem?_eq_getElem hl) (by
        intro h0
        have := congrArg List.length h0
        rw [List.length_append, List.length_nil] at this
        omega)
    · exact ⟨_, rfl, hK.eb, hK.eas, hK.nh, by have := hK.w; omega⟩
  obtain ⟨s1, h1, h2⟩ := key
  rw [h1]; dsimp only
  rw [List.getElem?_eq_getElem (by rw [h2.nh]; exact hp)]; dsimp only
  refine ⟨_, rfl, h2.eb, h2.eas, ?_, h2.w⟩
  show (List.set _ _ _).length = _; rw [List.length_set]; exact h2.nh

theorem weight_zip (c : Cfg α) : ∀ (l : List (IA α)) (d : List Nat),
    weight c (List.zipWith (fun (a : IA α) n => { a with items := a.items.drop n }) l d) ≤ weight c l := by
  intro l
  induction l with
  | nil => intro d; simp [weight]
  | cons a l ih =>
    intro d
    cases d with
    | nil => simp [weight]
    | cons n d =>
      have := ih d
      simp only [weight, List.zipWith_cons_cons, List.map_cons, List.sum_cons] at this ⊢
      omega

theorem cleanupExt_noext (c : Cfg α) (s : S α) (h : s.eas = []) : ∃ emt R free, cleanupExt c s = { s with emt := emt, R := R, free := free } := by
  unfold cleanupExt
  dsimp only
  generalize ((List.range s.emt.length).map fun i => _) = E
  obtain ⟨R, free, e⟩ := resizePool_eq c { s with eas := s.eas.filter fun e => !e.isEmpty, emt := E }
  refine ⟨E, R, free, ?_⟩
  rw [e, h]; simp [h]

theorem advance_noext (c : Cfg α) (s : S α) (h : s.eas = []) (Q Q' : List (List α)) :
    (advance c s Q Q').eas = [] ∧ (advance c s Q Q').heaps = s.heaps ∧ weight c (advance c s Q Q').ias ≤ weight c s.ias ∧
      (advance c s Q Q').eb = s.eb := by
  unfold advance
  dsimp only
  rw [h]
  simp only [List.zipWith_nil_left, List.map_nil, List.sum_nil, Nat.add_zero]
  obtain ⟨emt, R, free, e1⟩ := cleanupExt_noext c { s with
    eas := ([] : List (EA α))
    free := s.free
    esize := s.esize - (List.take ([] : List (EA α)).length (List.zipWith (fun a b => a.length - b.length) Q Q')).sum
    ias := List.zipWith (fun (a : IA α) n => { a with items := a.items.drop n }) s.ias (List.drop ([] : List (EA α)).length (List.zipWith (fun a b => a.length - b.length) Q Q'))
    isize := s.isize - (List.drop ([] : List (EA α)).length (List.zipWith (fun a b => a.length - b.length) Q Q')).sum } rfl
  simp only [List.length_nil, List.drop_zero, List.take_zero, List.sum_nil, Nat.sub_zero] at e1 ⊢
  rw [e1]
  simp only [if_true]
  obtain ⟨mia, hdI, root, oob, e2, -, -⟩ := cleanupInt_eq c { s with
    eas := ([] : List (EA α))
    free := free
    emt := emt
    R := R
    ias := List.zipWith (fun (a : IA α) n => { a with items := a.items.drop n }) s.ias (List.zipWith (fun a b => a.length - b.length) Q Q')
    isize := s.isize - (List.zipWith (fun a b => a.length - b.length) Q Q').sum }
  rw [e2]
  refine ⟨rfl, rfl, ?_, rfl⟩
  exact Nat.le_trans (weight_filter c _ _) (weight_zip c _ _)


theorem flushHeaps_K {c : Cfg α} (hc : CfgOk c) (hm : MergeTotal c) (ha : c.asserts = false) {o : Oracle} (ho : ∀ n, o.memFree n = true)
    {W : Nat} {s : S α} (hI : Inv c s) (hpe : pends s.heaps = []) (hK : K c W s) (hW : W + 1 < c.maxIL ^ 8) (hs : 0 < s.hsize) :
    ∃ s', flushHeaps c o s = some s' ∧ K c (W + 1) s' := by
  unfold flushHeaps flushMem
  rw [if_pos (ho 0)]; dsimp only
  have hperm0 : ∀ hs : List (Hp α), (hs.map fun h => sortList c.lt (h.ord ++ h.pend)).flatten.length = (ords hs).length + (pends hs).length := by
    intro hs
    induction hs with
    | nil => rfl
    | cons h l ih =>
      have := (sortList_perm c.lt (h.ord ++ h.pend)).length_eq
      rw [List.length_append] at this
      simp only [ords, pends, List.map_cons, List.flatten_cons, List.length_append] at ih ⊢
      omega
  have hlen := hperm0 s.heaps
  rw [hpe, ← hI.heaps.size] at hlen
  generalize hQ : (s.heaps.map fun h => sortList c.lt (h.ord ++ h.pend)) = Q at *
  have hQs : ∀ q ∈ Q, Sorted c.lt q := by
    intro q hq
    rw [← hQ, List.mem_map] at hq
    obtain ⟨h, -, rfl⟩ := hq
    exact sortList_sorted hc.swo _
  rw [List.length_nil, Nat.add_zero] at hlen
  obtain ⟨out, Q', hmm⟩ := hm.total Q s.hsize hQs (by intro h0; rw [h0] at hlen; simp at hlen; omega) (by omega)
    (by rw [← hQ, List.length_map, hK.nh]; exact hm.heaps)
  rw [hmm]; dsimp only
  have hM := hc.merges Q s.hsize out Q' hQs (by omega) hmm
  obtain ⟨s', h1, h2, h3, -⟩ := addIA_K hc hm ha o hI.core.int hK hW hM.sorted (by
    intro h0
    have := hM.length
    rw [h0] at this; simp at this; omega)
  rw [h1]
  exact ⟨_, rfl, h2.eb, h2.eas, by show (List.map _ _).length = _; rw [List.length_map]; exact h2.nh, h2.w⟩

/-- `refill_extract_buffer` without external arrays. -/
theorem refill_K {c : Cfg α} (hc : CfgOk c) (hm : MergeTotal c) (hlim : 0 < c.ebLimit) (o : Oracle) (mi ma : Nat) {W : Nat} {s : S α}
    (hC : Core c s) (hK : K c W s) (hW : W < c.maxIL ^ 8) :
    ∃ s', refill c o mi ma s = some s' ∧ s'.eas = [] ∧ s'.heaps = s.heaps ∧ weight c s'.ias ≤ W ∧
      s'.eb.length = min (arrays s).length (if ma = 0 then c.ebLimit else ma) := by
  have harr : (arrays s).length = (items s.ias).length := by
    unfold arrays; rw [hK.eb, hK.eas]; simp [rests]
  unfold refill
  dsimp only
  obtain ⟨emt, R, free, e1, e2⟩ := cleanupExt_ok hC.ext
  rw [e1]
  obtain ⟨mia, hdI, root, oob, e3, e4, e5⟩ := cleanupInt_eq c (clearIAmin c { s with eas := s.eas.filter fun e => !e.isEmpty, emt := emt, R := R, free := free })
  rw [e3]
  have hM0 : 0 < (if ma = 0 then c.ebLimit else ma) := by split <;> omega
  generalize (if ma = 0 then c.ebLimit else ma) = M at *
  simp only [hK.eas, List.filter_nil] at e2 ⊢
  have hF : (clearIAmin c { s with eas := ([] : List (EA α)), emt := emt, R := R, free := free }).ias = s.ias := rfl
  rw [hF]
  generalize hN : (s.ias.filter fun a => !a.items.isEmpty) = N
  have hNi : items N = items s.ias := by rw [← hN]; exact items_filter _
  have hNs : ∀ a ∈ N, Sorted c.lt a.items := by
    intro a ha; rw [← hN] at ha
    exact hC.int.sorted a (List.mem_filter.1 ha).1
  have hNw : weight c N ≤ W := by rw [← hN]; exact Nat.le_trans (weight_filter c _ _) hK.w
  have hemt : argmin c.lt emt = none := by
    cases h : argmin c.lt emt with
    | none => rfl
    | some q =>
      have h1 := (argmin_some hc.swo (j := q.1) (x := q.2) h).1
      have h2 := e2.tree q.1
      rw [List.getD_eq_getElem?_getD, h1] at h2
      simp at h2
  by_cases hE : N = []
  · rw [if_pos (by simp only [hE, List.isEmpty_nil, Bool.and_true]; rfl)]
    refine ⟨_, rfl, rfl, rfl, ?_, ?_⟩
    · show weight c N ≤ W
      exact hNw
    · show ([] : List α).length = _
      rw [harr, ← hNi, hE]; simp [items]
  rw [if_neg (by simp [hE])]
  generalize hT : ({ clearIAmin c { s with eas := ([] : List (EA α)), emt := emt, R := R, free := free } with
    ias := N, mia := mia, hdI := hdI, root := root, oob := oob } : S α) = T
  have t1 : T.eas = [] := by rw [← hT]; rfl
  have t2 : T.ias = N := by rw [← hT]
  have t3 : T.emt = emt := by rw [← hT]; rfl
  have t4 : T.heaps = s.heaps := by rw [← hT]; rfl
  have hloop : (if mi > 0 then refillLoop c o mi (fuelOf c T) T else some T) = some T := by
    split
    · unfold fuelOf
      rw [t1]
      show refillLoop c o mi (0 + 1) T = _
      rw [refillLoop]
      split
      · rfl
      · rw [t3, hemt]
    · rfl
  rw [hloop]; dsimp only
  have hS : seqs c T (extLimit c T) = N.map (·.items) := by
    unfold seqs extLimit
    rw [t1, t2, t3, hemt]; simp [below]
  rw [hS]
  have htot : total (N.map (·.items)) = (items N).length := by unfold total items; rw [List.length_flatten]
  have hpos : 0 < (items N).length := by
    obtain ⟨a, r, rfl⟩ := List.exists_cons_of_ne_nil hE
    have : a ∈ s.ias.filter fun a => !a.items.isEmpty := by rw [hN]; simp
    have := (List.mem_filter.1 this).2
    rw [items_cons, List.length_append]
    cases h : a.items with
    | nil => rw [h] at this; simp at this
    | cons x l => rw [List.length_cons]; omega
  rw [if_neg (by rw [htot]; omega)]
  have hQs : ∀ q ∈ N.map (·.items), Sorted c.lt q := by
    intro q hq
    rw [List.mem_map] at hq
    obtain ⟨a, ha, rfl⟩ := hq
    exact hNs a ha
  obtain ⟨out, Q', hmm⟩ := hm.total (N.map (·.items)) (min (total (N.map (·.items))) M) hQs
    (by intro h0; unfold items at hpos; rw [h0] at hpos; simp at hpos) (by rw [htot]; show _ ≤ (items N).length; omega)
    (by
      have := length_le_weight c (maxIL_pos hW) N
      have := hm.ias
      rw [List.length_map]; omega)
  rw [hmm]; dsimp only
  have hMg := hc.merges _ _ out Q' hQs (by rw [htot]; show _ ≤ (items N).length; omega) hmm
  obtain ⟨b1, b2, b3, b4⟩ := advance_noext c { T with eb := out } t1 (N.map (·.items)) Q'
  refine ⟨_, rfl, b1, ?_, ?_, ?_⟩
  · show (advance c { T with eb := out } (N.map (·.items)) Q').heaps = _
    rw [b2]; exact t4
  · show weight c (advance c { T with eb := out } (N.map (·.items)) Q').ias ≤ _
    refine Nat.le_trans b3 ?_
    show weight c T.ias ≤ W
    rw [t2]; exact hNw
  · show (advance c { T with eb := out } (N.map (·.items)) Q').eb.length = _
    rw [b4]
    show out.length = _
    rw [hMg.length, htot, harr, hNi]

theorem bulkPop_K {c : Cfg α} (hc : CfgOk c) (hm : MergeTotal c) (ha : c.asserts = false) (hlim : 0 < c.ebLimit) {o : Oracle}
    (ho : ∀ n, o.memFree n = true) {W n : Nat} {s : S α} (hI : Inv c s) (hpe : pends s.heaps = []) (hK : K c W s) (hW : W + 1 < c.maxIL ^ 8) :
    ∃ out s', bulkPop c o n s = some (out, s') ∧ K c (W + 1) s' ∧ (0 < n → out.length = min n (elems s).length) := by
  have hsize : size s = (elems s).length := by
    unfold size elems arrays
    rw [hpe, hI.heaps.size, hI.core.int.size, hI.core.ext.size]
    simp only [List.length_append, List.length_nil]
    omega
  unfold bulkPop
  dsimp only
  have key : ∃ s1, (if s.hsize > 0 then flushHeaps c o s else some s) = some s1 ∧ K c (W + 1) s1 ∧ Core c s1 ∧
      List.Perm (arrays s1) (elems s) := by
    split_ifs with hz
    · obtain ⟨s1, h1, h2⟩ := flushHeaps_K hc hm ha ho hI hpe hK hW hz
      obtain ⟨a1, -, -, -, a4⟩ := flushHeaps_eq hc o hI hpe h1
      refine ⟨s1, h1, h2, a1.core, ?_⟩
      unfold elems; rw [hpe, List.append_nil]; exact a4
    · have h0 : ords s.heaps = [] := List.length_eq_zero_iff.1 (by rw [← hI.heaps.size]; omega)
      refine ⟨s, rfl, ⟨hK.eb, hK.eas, hK.nh, Nat.le_succ_of_le hK.w⟩, hI.core, ?_⟩
      unfold elems; rw [h0, hpe]; exact List.Perm.refl _
  obtain ⟨s1, h1, h2, h3, h4⟩ := key
  rw [h1]; dsimp only
  have : convert c o 2 s1 = some s1 := by unfold convert; rw [if_pos (by simp [h2.eb])]
  rw [this]; dsimp only
  obtain ⟨s2, r1, r2, r3, r4, r5⟩ := refill_K hc hm hlim o (min n (size s)) (min n (size s)) h3 h2 hW
  rw [r1]
  refine ⟨_, _, rfl, ⟨rfl, r2, by show s2.heaps.length = _; rw [r3]; exact h2.nh, r4⟩, ?_⟩
  intro hn
  rw [r5, h4.length_eq, hsize]
  split_ifs with h0
  · have : (elems s).length = 0 := by omega
    omega
  · omega

theorem bulkEnd_K {c : Cfg α} {W : Nat} {s : S α} (hK : K c W s) : K c (W + 1) (bulkEnd c s) := by
  have hl : ∀ (L : List Nat) (s : S α),
      (L.foldl (fun s p => if ((s.heaps[p]?).bind (·.ord.head?)).isSome then updHeap c s p else s) s).eb = s.eb ∧
      (L.foldl (fun s p => if ((s.heaps[p]?).bind (·.ord.head?)).isSome then updHeap c s p else s) s).eas = s.eas ∧
      (L.foldl (fun s p => if ((s.heaps[p]?).bind (·.ord.head?)).isSome then updHeap c s p else s) s).heaps = s.heaps ∧
      (L.foldl (fun s p => if ((s.heaps[p]?).bind (·.ord.head?)).isSome then updHeap c s p else s) s).ias = s.ias := by
    intro L
    induction L with
    | nil => intro s; exact ⟨rfl, rfl, rfl, rfl⟩
    | cons p L ih =>
      intro s
      rw [List.foldl_cons]
      obtain ⟨h1, h2, h3, h4⟩ := ih (if ((s.heaps[p]?).bind (·.ord.head?)).isSome then updHeap c s p else s)
      rw [h1, h2, h3, h4]
      split <;> exact ⟨rfl, rfl, rfl, rfl⟩
  have fin : ∀ (S1 : S α) (L : List Nat), K c (W + 1) S1 →
      K c (W + 1) (if (L.foldl (fun s p => if ((s.heaps[p]?).bind (·.ord.head?)).isSome then updHeap c s p else s) S1).delayed =
          (L.foldl (fun s p => if ((s.heaps[p]?).bind (·.ord.head?)).isSome then updHeap c s p else s) S1).eas.length then
        L.foldl (fun s p => if ((s.heaps[p]?).bind (·.ord.head?)).isSome then updHeap c s p else s) S1 else
        rebuildHints c (L.foldl (fun s p => if ((s.heaps[p]?).bind (·.ord.head?)).isSome then updHeap c s p else s) S1)) := by
    intro S1 L hS
    obtain ⟨h1, h2, h3, h4⟩ := hl L S1
    generalize L.foldl (fun s p => if ((s.heaps[p]?).bind (·.ord.head?)).isSome then updHeap c s p else s) S1 = T at *
    split_ifs
    · exact ⟨by rw [h1, hS.eb], by rw [h2, hS.eas], by rw [h3, hS.nh], by rw [h4]; exact hS.w⟩
    · obtain ⟨eas, free, e5, e6⟩ := rebuildHints_eq c T
      rw [e5]
      refine ⟨by show T.eb = _; rw [h1, hS.eb], ?_, by show T.heaps.length = _; rw [h3, hS.nh], by show weight c T.ias ≤ _; rw [h4]; exact hS.w⟩
      show eas = []
      have := e6.length
      rw [h2, hS.eas] at this
      exact List.length_eq_zero_iff.1 this
  exact fin _ _ ⟨hK.eb, hK.eas, by show (List.map _ _).length = _; rw [List.length_map]; exact hK.nh, Nat.le_succ_of_le hK.w⟩

theorem run_K {c : Cfg α} (hc : CfgOk c) (hm : MergeTotal c) (ha : c.asserts = false) (hcap : 0 < c.heapCap) (hlim : 0 < c.ebLimit) :
    ∀ (hist : List (Op α × Oracle)) (b : Bool) (q : Q α) (s : S α) (W : Nat), (∀ x ∈ hist, ∀ n, x.2.memFree n = true) →
      BulkHist c.numHeaps b (hist.map (·.1)) → Sim c q s → K c W s → W + hist.length < c.maxIL ^ 8 →
      q.mode = (if b then .bulk else .normal) →
      ∃ outs s', run c hist s = some (outs, s') ∧ outs.map (·.1) = hist.map (·.1) ∧ Served c.lt q outs := by
  intro hist
  induction hist with
  | nil => intro b q s W _ _ _ _ _ _; exact ⟨[], s, rfl, rfl, trivial⟩
  | cons a l ih =>
    obtain ⟨op, o⟩ := a
    intro b q s W hmem hB hS hK hW hmode
    have ho : ∀ n, o.memFree n = true := hmem (op, o) (by simp)
    have hml : ∀ x ∈ l, ∀ n, x.2.memFree n = true := fun x hx => hmem x (by simp [hx])
    rw [List.length_cons] at hW
    have step : ∃ b' out s', BulkHist c.numHeaps b' (l.map (·.1)) ∧ exec c o op s = some (out, s') ∧ Legal c.lt q op ∧ K c (W + 1) s' ∧
        (∀ n, op = .bulkPop n → 0 < n → ∃ r, out = .list r ∧ r.length = min n q.elems.length) ∧
        (∀ q', Step c.lt q op out q' → q'.mode = (if b' then .bulk else .normal)) := by
      rw [List.map_cons] at hB
      cases b with
      | false =>
        have hn : q.mode = .normal := hmode
        obtain ⟨hp, -⟩ := hS.normal hn
        cases op with
        | push x p =>
          obtain ⟨s', h1, h2⟩ := push_K hc hm ha hcap ho (x := x) hS.inv.core.int hK (by omega) hB.1
          exact ⟨false, .unit, s', hB.2, by simp [exec, h1], hn, h2, by simp, fun q' h => by rw [h.2.2.1]; exact hn⟩
        | size =>
          exact ⟨false, _, s, hB, rfl, hn, ⟨hK.eb, hK.eas, hK.nh, Nat.le_succ_of_le hK.w⟩, by simp, fun q' h => by rw [h.2]; exact hn⟩
        | bulkPop n =>
          obtain ⟨out, s', h1, h2, h3⟩ := bulkPop_K hc hm ha hlim ho (n := n) hS.inv hp hK (by omega)
          refine ⟨false, .list out, s', hB, by simp [exec, h1], hn, h2, ?_, ?_⟩
          · intro m hm hm0
            rw [Op.bulkPop.injEq] at hm
            subst hm
            exact ⟨out, rfl, by rw [h3 hm0, hS.perm.length_eq]⟩
          · rintro q' ⟨r, -, -, -, h5, -⟩
            rw [h5]; exact hn
        | bulkPushBegin =>
          exact ⟨true, .unit, bulkBegin s, hB, rfl, hn, ⟨hK.eb, hK.eas, hK.nh, Nat.le_succ_of_le hK.w⟩, by simp, fun q' h => by rw [h.2]; rfl⟩
        | _ => exact absurd hB (by simp [BulkHist])
      | true =>
        have hn : q.mode = .bulk := hmode
        cases op with
        | bulkPush x p =>
          obtain ⟨s', h1, h2⟩ := bulkPush_K hc hm ha hcap ho (x := x) hS.inv.core.int hK (by omega) hB.1
          exact ⟨true, .unit, s', hB.2, by simp [exec, h1], hn, h2, by simp, fun q' h => by rw [h.2.2.1]; exact hn⟩
        | bulkPushEnd =>
          refine ⟨false, .unit, bulkEnd c s, hB, rfl, hn, ?_, by simp, fun q' h => by rw [h.2]; rfl⟩
          exact bulkEnd_K hK
        | _ => exact absurd hB (by simp [BulkHist])
    obtain ⟨b', out, s', g1, g2, g3, g4, g5, g6⟩ := step
    obtain ⟨q', hq, hS'⟩ := step_sim hc o hS g3 g2
    obtain ⟨outs, s2, k1, k2, k3⟩ := ih b' q' s' (W + 1) hml g1 hS' g4 (by omega) (g6 q' hq)
    refine ⟨(op, out) :: outs, s2, ?_, by simp [k2], g3, q', hq, g5, k3⟩
    rw [run, g2]; dsimp only; rw [k1]

end Stxxl.PPQ
