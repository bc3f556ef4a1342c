import Verif.HashMap.Search

/-! # The stream of all stored values -/
namespace Verif.HashMap
variable {K V : Type} {P : Params K V}

/-- Reader `r` over `nB` blocks stands at position `p` (nothing is known if there are no blocks). -/
def RAt (P : Params K V) (nB : Nat) (r : Reader) (p : Nat) : Prop :=
  r.endB = nB ∧ (nB = 0 ∧ r.curr = 0 ∨
    0 < nB ∧ p < nB * P.BB ∧ r.curr * P.BB + r.iv = p ∧ r.iv < P.BB ∧ r.sb = r.curr ∧
      r.si = r.iv / P.SS)

section
variable (ok : P.OK)
include ok

theorem RAt.curr_lt {nB p : Nat} {r : Reader} (h : RAt P nB r p) (h0 : 0 < nB) : r.curr < nB := by
  obtain ⟨_, h | h⟩ := h
  · omega
  · obtain ⟨_, h2, h3, h4, _⟩ := h
    have : r.curr * P.BB < nB * P.BB := by omega
    exact Nat.lt_of_mul_lt_mul_right this

theorem RAt.value {nB p : Nat} {r : Reader} (h : RAt P nB r p) (h0 : 0 < nB) (mem : Nat → K × V) :
    r.value P mem = mem p := by
  obtain ⟨_, h | h⟩ := h
  · omega
  · obtain ⟨_, h2, h3, h4, h5, h6⟩ := h
    unfold Reader.value
    rw [h5, h6]
    congr 1
    have e := Nat.div_add_mod r.iv P.SS
    rw [Nat.mul_comm] at e
    omega

theorem RAt.inc {nB p : Nat} {r : Reader} (h : RAt P nB r p) (h0 : 0 < nB)
    (hp : p + 1 < nB * P.BB) : RAt P nB (r.inc P) (p + 1) := by
  have hc := h.curr_lt ok h0
  obtain ⟨he, h | h⟩ := h
  · omega
  · obtain ⟨_, h2, h3, h4, h5, h6⟩ := h
    unfold Reader.inc
    rw [if_neg (by omega)]
    by_cases hb : r.iv + 1 < P.BB
    · rw [if_pos hb]
      dsimp only
      by_cases hm : (r.iv + 1) % P.SS = 0
      · rw [if_pos hm]
        exact ⟨he, Or.inr ⟨h0, hp, by dsimp only; omega, hb, rfl, rfl⟩⟩
      · rw [if_neg hm]
        refine ⟨he, Or.inr ⟨h0, hp, by dsimp only; omega, hb, h5, ?_⟩⟩
        show r.si = (r.iv + 1) / P.SS
        rw [h6, Nat.succ_div]
        rw [if_neg (by rw [Nat.dvd_iff_mod_eq_zero]; exact hm)]
        rfl
    · rw [if_neg hb]
      dsimp only
      have hbb := ok.bb
      have hiv : r.iv + 1 = P.BB := by omega
      have hcl : r.curr + 1 < nB := by
        have : (r.curr + 1) * P.BB < nB * P.BB := by rw [Nat.add_mul]; omega
        exact Nat.lt_of_mul_lt_mul_right this
      rw [if_neg (by omega)]
      refine ⟨he, Or.inr ⟨h0, hp, ?_, ?_, rfl, ?_⟩⟩
      · dsimp only; rw [Nat.add_mul]; omega
      · exact hbb
      · simp

theorem RAt.skip {nB p b i : Nat} {r : Reader} (h : RAt P nB r p)
    (hb : 0 < nB → p ≤ b * P.BB + i * P.SS ∧ b < nB ∧ i < P.BS) :
    ∃ r', r.skipTo P b i = some r' ∧ RAt P nB r' (b * P.BB + i * P.SS) := by
  rcases Nat.eq_zero_or_pos nB with h0 | h0
  · obtain ⟨he, h | h⟩ := h
    · exact ⟨r, by unfold Reader.skipTo; rw [if_pos (by omega)], he, Or.inl h⟩
    · omega
  · have hc := h.curr_lt ok h0
    obtain ⟨hb1, hb2, hb3⟩ := hb h0
    have hi : i * P.SS < P.BB := by
      unfold Params.BB
      exact Nat.mul_lt_mul_of_pos_right hb3 ok.ss
    have hble : (b + 1) * P.BB ≤ nB * P.BB := Nat.mul_le_mul_right _ hb2
    rw [Nat.add_mul] at hble
    obtain ⟨he, h | h⟩ := h
    · omega
    · obtain ⟨_, h2, h3, h4, h5, h6⟩ := h
      have hcb : r.curr < b + 1 := by
        have : r.curr * P.BB < (b + 1) * P.BB := by rw [Nat.add_mul]; omega
        exact Nat.lt_of_mul_lt_mul_right this
      unfold Reader.skipTo
      rw [if_neg (by omega), if_neg (by omega), if_neg (by omega)]
      refine ⟨_, rfl, he, Or.inr ⟨h0, by omega, rfl, hi, rfl, ?_⟩⟩
      show i = i * P.SS / P.SS
      rw [Nat.mul_div_cancel _ ok.ss]

theorem RAt.mk' {nB b i : Nat} (hb : 0 < nB → b < nB ∧ i < P.BS) (hz : nB = 0 → b = 0) :
    RAt P nB (Reader.mk' P nB b i) (b * P.BB + i * P.SS) := by
  unfold Reader.mk'
  rcases Nat.eq_zero_or_pos nB with h0 | h0
  · have := hz h0
    rw [if_pos (by omega)]
    exact ⟨rfl, Or.inl ⟨h0, this⟩⟩
  · obtain ⟨hb2, hb3⟩ := hb h0
    have hi : i * P.SS < P.BB := by
      unfold Params.BB
      exact Nat.mul_lt_mul_of_pos_right hb3 ok.ss
    have hble : (b + 1) * P.BB ≤ nB * P.BB := Nat.mul_le_mul_right _ hb2
    rw [Nat.add_mul] at hble
    rw [if_neg (by omega)]
    refine ⟨rfl, Or.inr ⟨h0, by omega, rfl, hi, rfl, ?_⟩⟩
    show i = i * P.SS / P.SS
    rw [Nat.mul_div_cancel _ ok.ss]

end

/-! ## Merging the buffer list with the external values -/

/-- The stored values of a bucket: buffer nodes win over external values with the same key, deleted
nodes hide them. -/
def mergeB (P : Params K V) : List (Node K V) → List (K × V) → List (K × V)
  | [], es => es
  | n :: ns, [] => if n.del then mergeB P ns [] else (n.key, n.val) :: mergeB P ns []
  | n :: ns, e :: es =>
    if P.leq n.key e.1 then
      let es' := if P.eqv n.key e.1 then es else e :: es
      if n.del then mergeB P ns es' else (n.key, n.val) :: mergeB P ns es'
    else e :: mergeB P (n :: ns) es
termination_by ns es => ns.length + es.length
decreasing_by all_goals (simp_wf; try split_ifs) <;> (try simp) <;> omega

theorem mergeB_nil (es : List (K × V)) : mergeB P [] es = es := by rw [mergeB]

/-- What `scanBucket` finds and leaves. -/
def ScanOK (P : Params K V) (mem : Nat → K × V) (nB nExt p : Nat) (nodes : List (Node K V)) (ie : Nat)
    (res : Option (Src × (K × V)) × List (Node K V) × Nat × Reader) : Prop :=
  ie ≤ res.2.2.1 ∧ res.2.2.1 ≤ nExt ∧ RAt P nB res.2.2.2 (p + (res.2.2.1 - ie)) ∧
  res.2.1.length ≤ nodes.length ∧
  match res.1 with
  | none => mergeB P nodes (extL mem p (nExt - ie)) = [] ∧ res.2.2.1 = nExt
  | some (.internal, x) => ∃ n ns, res.2.1 = n :: ns ∧ x = (n.key, n.val) ∧
      mergeB P nodes (extL mem p (nExt - ie)) =
        x :: mergeB P ns (extL mem (p + (res.2.2.1 - ie)) (nExt - res.2.2.1))
  | some (_, x) => res.2.2.1 < nExt ∧ x = mem (p + (res.2.2.1 - ie)) ∧
      mergeB P nodes (extL mem p (nExt - ie)) =
        x :: mergeB P res.2.1 (extL mem (p + (res.2.2.1 - ie) + 1) (nExt - res.2.2.1 - 1))

theorem extL_pos (mem : Nat → K × V) (p n i : Nat) (h : i < n) :
    extL mem p (n - i) = mem p :: extL mem (p + 1) (n - (i + 1)) := by
  rw [show n - i = (n - (i + 1)) + 1 by omega, extL]

section
variable (ok : P.OK)
include ok

theorem ScanOK.step {mem : Nat → K × V} {nB nExt p : Nat} {nodes nodes' : List (Node K V)}
    {ie ie' : Nat} {res : Option (Src × (K × V)) × List (Node K V) × Nat × Reader}
    (h : ScanOK P mem nB nExt (p + (ie' - ie)) nodes' ie' res) (hle : ie ≤ ie')
    (hlen : nodes'.length ≤ nodes.length)
    (hm : mergeB P nodes (extL mem p (nExt - ie)) =
      mergeB P nodes' (extL mem (p + (ie' - ie)) (nExt - ie'))) :
    ScanOK P mem nB nExt p nodes ie res := by
  obtain ⟨h1, h2, h3, h4, h5⟩ := h
  have e : p + (ie' - ie) + (res.2.2.1 - ie') = p + (res.2.2.1 - ie) := by omega
  rw [e] at h3 h5
  refine ⟨by omega, h2, h3, by omega, ?_⟩
  rw [hm]
  exact h5

theorem scanBucket_ok (mem : Nat → K × V) (nB nExt : Nat) :
    ∀ (nodes : List (Node K V)) (ie p : Nat) (r : Reader), RAt P nB r p → ie ≤ nExt →
      (nB = 0 → ie = nExt) → (0 < nB → p + (nExt - ie) < nB * P.BB) →
      ScanOK P mem nB nExt p nodes ie (scanBucket P mem nExt nodes ie r) := by
  intro nodes
  induction nodes with
  | nil =>
    intro ie p r hr hle h0 h1
    unfold scanBucket
    by_cases h : ie < nExt
    · rw [if_pos h]
      have hpos : 0 < nB := by omega
      refine ⟨Nat.le_refl _, hle, by simpa using hr, Nat.le_refl _, ?_⟩
      show ie < nExt ∧ _ ∧ _
      refine ⟨h, ?_, ?_⟩
      · dsimp only; rw [hr.value ok hpos]; simp
      · dsimp only; rw [hr.value ok hpos, mergeB_nil, mergeB_nil, extL_pos mem p nExt ie h]
        simp only [Nat.sub_self, Nat.add_zero]
        rw [Nat.sub_sub]
    · rw [if_neg h]
      refine ⟨Nat.le_refl _, hle, by simpa using hr, Nat.le_refl _, ?_⟩
      show _ = [] ∧ ie = nExt
      refine ⟨?_, by omega⟩
      rw [show nExt - ie = 0 by omega, mergeB_nil]; rfl
  | cons n ns ih =>
    intro ie p r hr hle h0 h1
    rw [scanBucket]
    by_cases h : ie < nExt
    · rw [if_pos h]
      have hpos : 0 < nB := by omega
      have hlt := h1 hpos
      dsimp only
      rw [hr.value ok hpos]
      have hex := extL_pos mem p nExt ie h
      by_cases hl : P.leq n.key (mem p).1 = true
      · rw [if_pos hl]
        obtain ⟨ie', hie⟩ : ∃ ie', ie' = if P.eqv n.key (mem p).1 = true then ie + 1 else ie := ⟨_, rfl⟩
        obtain ⟨r', hr'⟩ : ∃ r', r' = if P.eqv n.key (mem p).1 = true then r.inc P else r := ⟨_, rfl⟩
        rw [← hie, ← hr']
        have hA : ie ≤ ie' ∧ ie' ≤ nExt ∧ RAt P nB r' (p + (ie' - ie)) ∧
            (if P.eqv n.key (mem p).1 = true then extL mem (p + 1) (nExt - (ie + 1))
              else mem p :: extL mem (p + 1) (nExt - (ie + 1))) =
              extL mem (p + (ie' - ie)) (nExt - ie') := by
          by_cases he : P.eqv n.key (mem p).1 = true
          · rw [if_pos he] at hie hr'
            subst hie hr'
            rw [if_pos he]
            refine ⟨by omega, by omega, ?_, ?_⟩
            · have := hr.inc ok hpos (by omega)
              rw [show ie + 1 - ie = 1 by omega]; exact this
            · rw [show ie + 1 - ie = 1 by omega]
          · rw [if_neg he] at hie hr'
            subst hie hr'
            rw [if_neg he]
            refine ⟨by omega, by omega, by simpa using hr, ?_⟩
            rw [← hex]; simp
        obtain ⟨a1, a2, a3, a4⟩ := hA
        by_cases hd : n.del = true
        · rw [if_pos hd]
          apply ScanOK.step ok (ih ie' (p + (ie' - ie)) r' a3 a2 (by omega) (by intro; omega)) a1 (by simp)
          rw [hex, mergeB, if_pos hl, if_pos hd, a4]
        · rw [if_neg hd]
          refine ⟨a1, a2, a3, Nat.le_refl _, ?_⟩
          refine ⟨n, ns, rfl, rfl, ?_⟩
          rw [hex, mergeB, if_pos hl, if_neg hd]
          dsimp only
          rw [a4]
      · rw [if_neg hl]
        refine ⟨Nat.le_refl _, hle, by simpa using hr, Nat.le_refl _, ?_⟩
        refine ⟨h, by simp, ?_⟩
        rw [hex, mergeB, if_neg hl]
        simp only [Nat.sub_self, Nat.add_zero]
        rw [Nat.sub_sub]
    · rw [if_neg h]
      have hz : nExt - ie = 0 := by omega
      by_cases hd : n.del = true
      · rw [if_pos hd]
        have := ih ie p r hr hle h0 h1
        apply ScanOK.step ok (ie' := ie) (nodes' := ns) (by simpa using this) (Nat.le_refl _) (by simp)
        rw [hz]
        simp only [extL]
        rw [mergeB, if_pos hd]
      · rw [if_neg hd]
        refine ⟨Nat.le_refl _, hle, by simpa using hr, Nat.le_refl _, ?_⟩
        refine ⟨n, ns, rfl, rfl, ?_⟩
        rw [hz]
        simp only [extL]
        rw [mergeB, if_neg hd]

end

/-! ## All buckets -/

/-- Layout of the buckets in the block sequence. -/
structure Layout (P : Params K V) (nB : Nat) (bs : List (Bucket K V)) : Prop where
  zero : nB = 0 → ∀ b ∈ bs, b.nExt = 0 ∧ b.iBlock = 0
  pos : 0 < nB → ∀ b ∈ bs, bstart P b + b.nExt < nB * P.BB ∧ b.iBlock < nB ∧ b.iSub < P.BS
  ord : bs.Pairwise fun b b' => bstart P b + b.nExt ≤ bstart P b'

/-- All stored values with their bucket, in stream order. -/
def allFrom (P : Params K V) (mem : Nat → K × V) : Nat → List (Bucket K V) → List (Nat × (K × V))
  | _, [] => []
  | i, b :: bs => (mergeB P b.list (bext P mem b)).map (fun x => (i, x)) ++ allFrom P mem (i + 1) bs

/-- A consistent stream state. -/
def StOK (P : Params K V) (nB : Nat) (st : VStream K V) : Prop :=
  Layout P nB st.bs ∧ match st.bs with
  | [] => True
  | b :: _ => st.iExt ≤ b.nExt ∧ RAt P nB st.rd (bstart P b + st.iExt)

/-- What a stream state has yet to deliver. -/
def restOf (P : Params K V) (mem : Nat → K × V) (st : VStream K V) : List (Nat × (K × V)) :=
  match st.bs with
  | [] => []
  | b :: bs => (mergeB P st.nodes (extL mem (bstart P b + st.iExt) (b.nExt - st.iExt))).map
      (fun x => (st.i, x)) ++ allFrom P mem (st.i + 1) bs

/-- Bound for the number of values still to come. -/
def measure (st : VStream K V) : Nat :=
  match st.bs with
  | [] => 0
  | b :: bs => st.nodes.length + (b.nExt - st.iExt) + total bs

theorem total_cons (b : Bucket K V) (bs : List (Bucket K V)) :
    total (b :: bs) = b.list.length + b.nExt + total bs := by simp [total]

section
variable (ok : P.OK)
include ok

theorem findNext_ok (mem : Nat → K × V) (nB : Nat) :
    ∀ (bs : List (Bucket K V)) (i : Nat) (nodes : List (Node K V)) (ie : Nat) (r : Reader),
      StOK P nB ⟨bs, i, nodes, ie, r⟩ →
      (restOf P mem ⟨bs, i, nodes, ie, r⟩ = [] ∧
        ∃ st', findNext P mem bs i nodes ie r = some (none, st')) ∨
      (∃ hv st', findNext P mem bs i nodes ie r = some (some hv, st') ∧
        restOf P mem ⟨bs, i, nodes, ie, r⟩ = (hv.bkt, hv.val) :: restOf P mem (st'.adv P hv.src) ∧
        StOK P nB (st'.adv P hv.src) ∧
        measure (st'.adv P hv.src) < measure ⟨bs, i, nodes, ie, r⟩) := by
  intro bs
  induction bs with
  | nil => intro i nodes ie r _; left; exact ⟨rfl, _, rfl⟩
  | cons b bs ih =>
    intro i nodes ie r ⟨hL, hst⟩
    dsimp only at hL hst
    obtain ⟨h1, h2⟩ := hst
    have hsc := scanBucket_ok ok mem nB b.nExt nodes ie (bstart P b + ie) r h2 h1
      (by intro h; have := (hL.zero h b (by simp)).1; omega)
      (by intro h; have := (hL.pos h b (by simp)).1; omega)
    rw [findNext]
    generalize hres : scanBucket P mem b.nExt nodes ie r = res at hsc
    obtain ⟨o, nodes', ie', r'⟩ := res
    obtain ⟨s1, s2, s3, s4, s5⟩ := hsc
    dsimp only at s1 s2 s3 s4 s5
    match o with
    | none =>
      dsimp only at s5
      obtain ⟨s5, s6⟩ := s5
      match hbs : bs with
      | [] =>
        left
        refine ⟨?_, _, rfl⟩
        unfold restOf
        dsimp only
        rw [s5]; rfl
      | b' :: bs' =>
        have hL' : Layout P nB (b' :: bs') :=
          ⟨fun h x hx => hL.zero h x (List.mem_cons_of_mem _ hx),
           fun h x hx => hL.pos h x (List.mem_cons_of_mem _ hx), (List.pairwise_cons.1 hL.ord).2⟩
        obtain ⟨r'', hr1, hr2⟩ := s3.skip ok (b := b'.iBlock) (i := b'.iSub) (by
          intro h
          have := (List.pairwise_cons.1 hL.ord).1 b' (by simp)
          have h3 := hL.pos h b' (by simp)
          refine ⟨?_, h3.2.1, h3.2.2⟩
          unfold bstart at this ⊢
          omega)
        dsimp only
        rw [hr1]
        dsimp only
        have hst' : StOK P nB ⟨b' :: bs', i + 1, b'.list, 0, r''⟩ :=
          ⟨hL', Nat.zero_le _, by simpa [bstart] using hr2⟩
        have hrest : restOf P mem ⟨b :: b' :: bs', i, nodes, ie, r⟩ =
            restOf P mem ⟨b' :: bs', i + 1, b'.list, 0, r''⟩ := by
          unfold restOf
          dsimp only
          rw [s5, allFrom]
          simp [bext]
        have hmeas : measure ⟨b' :: bs', i + 1, b'.list, 0, r''⟩ ≤
            measure ⟨b :: b' :: bs', i, nodes, ie, r⟩ := by
          unfold measure
          dsimp only
          rw [total_cons]; omega
        rcases ih (i + 1) b'.list 0 r'' hst' with ⟨g1, st', g2⟩ | ⟨hv, st', g1, g2, g3, g4⟩
        · left; exact ⟨by rw [hrest]; exact g1, st', g2⟩
        · right; exact ⟨hv, st', g1, by rw [hrest]; exact g2, g3, by omega⟩
    | some (src, x) =>
      right
      have hext : ∀ (hx : ie' < b.nExt ∧ x = mem (bstart P b + ie + (ie' - ie)) ∧
          mergeB P nodes (extL mem (bstart P b + ie) (b.nExt - ie)) =
          x :: mergeB P nodes' (extL mem (bstart P b + ie + (ie' - ie) + 1) (b.nExt - ie' - 1)))
          (sr : Src), sr ≠ .internal →
          restOf P mem ⟨b :: bs, i, nodes, ie, r⟩ = (i, x) :: restOf P mem
            (VStream.adv P ⟨b :: bs, i, nodes', ie', r'⟩ sr) ∧
          StOK P nB (VStream.adv P ⟨b :: bs, i, nodes', ie', r'⟩ sr) ∧
          measure (VStream.adv P ⟨b :: bs, i, nodes', ie', r'⟩ sr) <
            measure ⟨b :: bs, i, nodes, ie, r⟩ := by
        rintro ⟨x1, x2, x3⟩ sr hsr
        have hadv : VStream.adv P ⟨b :: bs, i, nodes', ie', r'⟩ sr =
            ⟨b :: bs, i, nodes', ie' + 1, r'.inc P⟩ := by
          cases sr
          · exact absurd rfl hsr
          · rfl
          · rfl
        rw [hadv]
        have hpos : 0 < nB := by
          rcases Nat.eq_zero_or_pos nB with h | h
          · have := (hL.zero h b (by simp)).1; omega
          · exact h
        refine ⟨?_, ⟨hL, ?_⟩, ?_⟩
        · unfold restOf
          dsimp only
          rw [x3, List.map_cons, List.cons_append]
          rw [show bstart P b + (ie' + 1) = bstart P b + ie + (ie' - ie) + 1 by omega,
            show b.nExt - (ie' + 1) = b.nExt - ie' - 1 by omega]
        · dsimp only
          refine ⟨by omega, ?_⟩
          have := s3.inc ok hpos (by have := (hL.pos hpos b (by simp)).1; omega)
          rw [show bstart P b + (ie' + 1) = bstart P b + ie + (ie' - ie) + 1 by omega]
          exact this
        · unfold measure; dsimp only; omega
      cases src with
      | internal =>
        obtain ⟨n, ns, t1, t2, t3⟩ := s5
        refine ⟨⟨x, i, .internal⟩, ⟨b :: bs, i, nodes', ie', r'⟩, rfl, ?_, ?_, ?_⟩
        · unfold restOf
          simp only [VStream.adv]
          rw [t3, t1, List.map_cons, List.cons_append, List.tail_cons]
          rw [show bstart P b + ie' = bstart P b + ie + (ie' - ie) by omega]
        · refine ⟨hL, s2, ?_⟩
          simp only [VStream.adv]
          rw [show bstart P b + ie' = bstart P b + ie + (ie' - ie) by omega]
          exact s3
        · subst t1
          unfold measure
          simp only [VStream.adv, List.tail_cons]
          rw [List.length_cons] at s4
          omega
      | external =>
        obtain ⟨g1, g2, g3⟩ := hext s5 .external (by simp)
        exact ⟨⟨x, i, .external⟩, ⟨b :: bs, i, nodes', ie', r'⟩, rfl, g1, g2, g3⟩
      | unknown =>
        obtain ⟨g1, g2, g3⟩ := hext s5 .unknown (by simp)
        exact ⟨⟨x, i, .unknown⟩, ⟨b :: bs, i, nodes', ie', r'⟩, rfl, g1, g2, g3⟩

theorem streamGo_ok (mem : Nat → K × V) (nB : Nat) :
    ∀ (fuel : Nat) (st : VStream K V), StOK P nB st → measure st < fuel →
      ∃ hs, streamGo P mem fuel st = some hs ∧
        hs.map (fun h => (h.bkt, h.val)) = restOf P mem st := by
  intro fuel
  induction fuel with
  | zero => intro st _ h; omega
  | succ fuel ih =>
    intro st hst hm
    rw [streamGo]
    rcases findNext_ok ok mem nB st.bs st.i st.nodes st.iExt st.rd hst with
      ⟨g1, st', g2⟩ | ⟨hv, st', g1, g2, g3, g4⟩
    · rw [g2]
      exact ⟨[], rfl, by rw [List.map_nil]; exact g1.symm⟩
    · rw [g1]
      obtain ⟨hs, e1, e2⟩ := ih (st'.adv P hv.src) g3 (by
        have : measure ⟨st.bs, st.i, st.nodes, st.iExt, st.rd⟩ = measure st := rfl
        omega)
      dsimp only
      rw [e1]
      refine ⟨hv :: hs, rfl, ?_⟩
      rw [List.map_cons, e2]
      exact g2.symm

/-- The stream delivers the stored values of all buckets in bucket order. -/
theorem streamAll_ok (s : HMap K V) (hL : Layout P s.nBids s.buckets)
    (hfirst : ∀ b ∈ s.buckets.head?, bstart P b = 0) :
    ∃ hs, streamAll P s = some hs ∧
      hs.map (fun h => (h.bkt, h.val)) = allFrom P s.mem 0 s.buckets := by
  unfold streamAll
  have hr : RAt P s.nBids (Reader.mk' P s.nBids 0 0) 0 := by
    have := RAt.mk' ok (nB := s.nBids) (b := 0) (i := 0) (fun h => ⟨h, ok.bs⟩) (fun _ => rfl)
    simpa using this
  cases hb : s.buckets with
  | nil =>
    obtain ⟨hs, e1, e2⟩ := streamGo_ok ok s.mem s.nBids (total ([] : List (Bucket K V)) + 1)
      ⟨[], 0, [], 0, Reader.mk' P s.nBids 0 0⟩
      ⟨⟨by simp, by simp, by simp⟩, trivial⟩ (by simp [measure])
    exact ⟨hs, e1, e2⟩
  | cons b bs =>
    rw [hb] at hL hfirst
    have h0 : bstart P b = 0 := hfirst b (by simp)
    obtain ⟨hs, e1, e2⟩ := streamGo_ok ok s.mem s.nBids (total (b :: bs) + 1)
      ⟨b :: bs, 0, b.list, 0, Reader.mk' P s.nBids 0 0⟩
      ⟨hL, Nat.zero_le _, by rw [h0]; exact hr⟩
      (by rw [total_cons]; simp [measure])
    refine ⟨hs, by simpa using e1, ?_⟩
    rw [e2]
    simp [restOf, allFrom, bext]

end
end Verif.HashMap
