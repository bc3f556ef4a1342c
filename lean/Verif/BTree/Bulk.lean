/-
Bulk construction of a map from a sorted range (`btree::bulk_construction`, btree.h:262-431).
-/
import Verif.BTree.Refine

namespace BTree

section
variable {K V : Type}

/-- The first loop's variables (btree.h:268-286): `bids` with the leaves in place of their BIDs, the
current leaf, `last_key`, `m_size`, and the world. -/
structure BL (K V : Type) where
  done : List (K × Blk K V)
  cur : Blk K V
  last : K
  size : Nat
  w : W
  live : List Nat

/-- One element of the range (btree.h:287-309); `mle` is `max_leaf_elements`. -/
def bulkPut (c : Cfg K) (pick : List Nat → Nat) (mle : Nat) (b : BL K V) (x : K × V) : Option (BL K V) :=
  if c.lt x.1 b.last || c.lt b.last x.1 then
    if b.cur.els.length = mle then
      match b.cur.els.getLast? with
      | none => none
      | some e =>
        let nb := pick b.live
        -- `init` of the new leaf clears its links (leaf.h:257-263), then the links are set
        some { done := b.done ++ [(e.1, b.cur)], cur := { bid := nb, els := [x] }, last := x.1, size := b.size + 1,
               w := { b.w with succ := upd (upd b.w.succ nb none) b.cur.bid (some nb),
                               pred := upd b.w.pred nb (some b.cur.bid) },
               live := nb :: b.live }
    else some { b with cur := { b.cur with els := b.cur.els ++ [x] }, last := x.1, size := b.size + 1 }
  else some b

def bulkPuts (c : Cfg K) (pick : List Nat → Nat) (mle : Nat) (b : BL K V) : List (K × V) → Option (BL K V)
  | [] => some b
  | x :: xs =>
    match bulkPut c pick mle b x with
    | none => none
    | some b' => bulkPuts c pick mle b' xs

/-- The first leaf (btree.h:268-283). -/
def bulkInit (c : Cfg K) (pick : List Nat → Nat) (w : W) (live : List Nat) : BL K V :=
  let nb := pick live
  { done := [], cur := { bid := nb, els := [] }, last := c.mx, size := 0,
    w := { w with succ := upd w.succ nb none, pred := upd w.pred nb none }, live := nb :: live }

/-- Rebalancing the last leaf (btree.h:311-335) and the last entry of `bids` (btree.h:341). -/
def bulkLast (c : Cfg K) (b : BL K V) : Option (List (K × Blk K V) × Blk K V × W × List Nat) :=
  match b.done.getLast? with
  | some (_, left) =>
    if b.cur.els.length < c.min 0 then
      match fob c 0 left b.cur b.w b.live with
      | none => none
      | some (lft, cur', w', live') => some (b.done.dropLast ++ lft.toList, cur', w', live')
    else some (b.done, b.cur, b.w, b.live)
  | none => some (b.done, b.cur, b.w, b.live)

/-- One level of inner nodes (btree.h:361-417); `mne` is `max_node_elements`.  `balance` is called with
`check_constraints = false` there; the constraint it would check holds anyway.  The fuel makes it total. -/
def pack [DecidableEq K] (c : Cfg K) (pick : List Nat → Nat) (mne h : Nat) : Nat → List (K × Tree K V h) → List (K × Tree K V (h + 1)) →
      W → List Nat → Option (List (K × Tree K V (h + 1)) × W × List Nat)
  | _, [], parents, w, live => some (parents, w, live)
  | 0, _ :: _, _, _, _ => none
  | n + 1, x :: bids, parents, w, live =>
    let nb := pick live
    let node : Tree K V (h + 1) := { bid := nb, els := (x :: bids).take mne }
    let rest := (x :: bids).drop mne
    let live1 := nb :: live
    if node.els.length < c.min (h + 1) then
      match rest, parents.getLast? with
      | [], some (_, left) =>                 -- assertions btree.h:379-380
        match fob c (h + 1) left node w live1 with
        | none => none
        | some (lft, node', w', live') =>
          match node'.els.getLast? with
          | none => none
          | some e => some (parents.dropLast ++ lft.toList ++ [(e.1, node')], w', live')
      | _, _ => none
    else
      match node.els.getLast? with
      | none => none
      | some e =>
        if node.els.length ≤ c.maxN then pack c pick mne h n rest (parents ++ [(e.1, node)]) w live1
        else none                              -- assertion btree.h:415

/-- The loop over the levels (btree.h:352-426). -/
def bulkUp [DecidableEq K] (c : Cfg K) (pick : List Nat → Nat) (mne size : Nat) :
    Nat → (h : Nat) → List (K × Tree K V h) → W → List Nat → Res (St K V) Unit
  | 0, _, _, _, _ => .ub
  | n + 1, h, bids, w, live =>
    if bids.length ≤ c.maxN then .ok { h := h, root := bids, size := size, w := w, live := live } ()
    else match pack c pick mne h (bids.length + 1) bids [] w live with
      | none => .ub
      | some (parents, w', live') =>
        if c.cap < h + 2 then .thrown { h := h + 1, root := parents, size := size, w := w', live := live' }
        else bulkUp c pick mne size n (h + 1) parents w' live'

/-- `bulk_construction` (btree.h:262-431), from the constructors btree.h:971-1038 with `range_sorted`;
`mle`, `mne` are the products of the capacities with the fill factors, rounded down. -/
def bulk [DecidableEq K] (c : Cfg K) (pick : List Nat → Nat) (mle mne : Nat) (xs : List (K × V)) (live : List Nat) : Res (St K V) Unit :=
  match bulkPuts c pick mle (bulkInit c pick { succ := fun _ => none, pred := fun _ => none, its := fun _ => none } live) xs with
  | none => .ub
  | some b =>
    match bulkLast c b with
    | none => .ub
    | some (done, cur, w, live') =>
      let root : List (K × Tree K V 0) := done ++ [(c.mx, cur)]
      bulkUp c pick mne b.size (root.length + 1) 0 root (w.reg 0 (cur.bid, cur.els.length)) live'

end

variable {K V : Type} [LinearOrder K]

/-! ### The leaves -/

/-- Invariant of the first loop: `m` is the specified contents so far. -/
structure BInv (c : Cfg K) (mle : Nat) (R : List Nat) (m : List (K × V)) (b : BL K V) : Prop where
  ents : ents (b.done.map Prod.snd ++ [b.cur]) = m
  sorted : m.Pairwise (fun a b => a.1 < b.1)
  keys : ∃ mid, Kids (fun lo k (l : Blk K V) => OrdE (V := V) 0 lo k l.els) none b.done mid ∧ ∀ e ∈ b.cur.els, GtO mid e.1
  len : ∀ d ∈ b.done, d.2.els.length = mle
  curlen : b.cur.els.length ≤ mle
  curne : b.done ≠ [] → b.cur.els ≠ []
  last : b.last = (m.getLast?.map Prod.fst).getD c.mx
  size : b.size = m.length
  nd : b.live.Nodup
  live : b.live.Perm ((b.done.map Prod.snd ++ [b.cur]).map Blk.bid ++ R)
  links : Links b.w none (b.done.map Prod.snd ++ [b.cur]) none

theorem last_le {m : List (K × V)} (hs : m.Pairwise (fun a b => a.1 < b.1)) {z : K × V} (hz : m.getLast? = some z) :
    ∀ e ∈ m, e.1 ≤ z.1 := by
  obtain ⟨A, rfl⟩ := List.getLast?_eq_some_iff.mp hz
  intro e he
  rcases List.mem_append.mp he with he | he
  · exact le_of_lt ((List.pairwise_append.mp hs).2.2 e he z (by simp))
  · simp only [List.mem_singleton] at he; rw [he]

theorem ins_above {m : List (K × V)} {x : K × V} (h : ∀ e ∈ m, e.1 < x.1) : Spec.ins m x = m ++ [x] := by
  unfold Spec.ins
  rw [lookup_none (fun e he => ne_of_lt (h e he))]
  dsimp only
  rw [List.filter_eq_self.mpr (fun e he => by simpa using h e he), List.filter_eq_nil_iff.mpr (fun e he => by simpa using le_of_lt (h e he))]

theorem bulkPut_ok {c : Cfg K} (hc : c.Ok) {pick : List Nat → Nat} (hpick : ∀ L, pick L ∉ L) {mle : Nat} (hm : 1 ≤ mle)
    {R : List Nat} {m : List (K × V)} {b : BL K V} (h : BInv c mle R m b) {x : K × V} (hx : x.1 < c.mx)
    (hle : ∀ e ∈ m, e.1 ≤ x.1) : ∃ b', bulkPut c pick mle b x = some b' ∧ BInv c mle R (Spec.ins m x) b' := by
  obtain ⟨h1, h2, ⟨mid, k1, k2⟩, h4, h5, h6, h7, h8, h9, h10, h11⟩ := h
  unfold bulkPut
  by_cases hdup : x.1 = b.last
  · rw [if_neg (by rw [hdup, hc.lt]; simp)]
    refine ⟨b, rfl, ?_⟩
    have : Spec.ins m x = m := by
      unfold Spec.ins
      cases hz : m.getLast? with
      | none => rw [hz] at h7; simp at h7; rw [h7] at hdup; exact absurd hx (by rw [hdup]; exact lt_irrefl _)
      | some z =>
        rw [hz] at h7
        simp only [Option.map_some, Option.getD_some] at h7
        have : Spec.lookup m x.1 = some z := by
          rw [hdup, h7]
          exact lookup_some h2 (by obtain ⟨A, rfl⟩ := List.getLast?_eq_some_iff.mp hz; simp)
        rw [this]
    rw [this]
    exact ⟨h1, h2, ⟨mid, k1, k2⟩, h4, h5, h6, h7, h8, h9, h10, h11⟩
  · have hlt : ∀ e ∈ m, e.1 < x.1 := by
      intro e he
      cases hz : m.getLast? with
      | none => rw [List.getLast?_eq_none_iff] at hz; rw [hz] at he; simp at he
      | some z =>
        rw [hz] at h7
        simp only [Option.map_some, Option.getD_some] at h7
        have hzm : z ∈ m := List.mem_of_getLast? hz
        have := lt_of_le_of_ne (hle z hzm) (fun hh => hdup (by rw [h7, hh]))
        exact lt_of_le_of_lt (last_le h2 hz e he) this
    rw [if_pos (by rw [hc.lt, hc.lt]; rcases lt_or_gt_of_ne hdup with h | h <;> simp [h])]
    rw [ins_above hlt]
    have hs' : (m ++ [x]).Pairwise (fun a b => a.1 < b.1) :=
      List.pairwise_append.mpr ⟨h2, by simp, fun a ha b hb => by simp only [List.mem_singleton] at hb; rw [hb]; exact hlt a ha⟩
    have hcur : ∀ e ∈ b.cur.els, e ∈ m := by
      intro e he; rw [← h1]; exact mem_ents.mpr ⟨b.cur, by simp, he⟩
    by_cases hfull : b.cur.els.length = mle
    · rw [if_pos hfull]
      have hne : b.cur.els ≠ [] := by intro hh; rw [hh] at hfull; simp at hfull; omega
      obtain ⟨e, he⟩ : ∃ e, b.cur.els.getLast? = some e := by
        cases hh : b.cur.els.getLast? with
        | none => exact absurd (List.getLast?_eq_none_iff.mp hh) hne
        | some e => exact ⟨e, rfl⟩
      rw [he]
      have hem : e ∈ b.cur.els := List.mem_of_getLast? he
      have hcs : b.cur.els.Pairwise (fun a b => a.1 < b.1) := by
        rw [← h1, ents_append] at h2
        simpa using (List.pairwise_append.mp h2).2.1
      have hpl : pick b.live ∉ (b.done.map Prod.snd ++ [b.cur]).map Blk.bid := by
        intro hh; exact hpick b.live (h10.mem_iff.mpr (List.mem_append_left _ hh))
      refine ⟨_, rfl, ?_, hs', ?_, ?_, ?_, ?_, ?_, ?_, ?_, ?_, ?_⟩
      · dsimp only
        rw [List.map_append, ents_append, ← h1]; simp
      · refine ⟨some e.1, Kids.append.mpr ⟨mid, k1, k2 e hem, ⟨hcs, ?_⟩, rfl⟩, ?_⟩
        · intro f hf; exact ⟨k2 f hf, last_le hcs he f hf⟩
        · intro f hf a ha
          simp only [List.mem_singleton] at hf
          cases ha
          rw [hf]; exact hlt e (hcur e hem)
      · intro d hd
        rcases List.mem_append.mp hd with hd | hd
        · exact h4 d hd
        · simp only [List.mem_singleton] at hd; rw [hd]; exact hfull
      · show 1 ≤ mle; exact hm
      · intro _; simp
      · show x.1 = _; simp
      · show b.size + 1 = _; rw [h8]; simp
      · exact List.nodup_cons.mpr ⟨hpick _, h9⟩
      · dsimp only
        refine (h10.cons _).trans ?_
        rw [List.perm_iff_count]; intro y
        simp only [List.map_append, List.map_cons, List.map_nil, List.count_append, List.count_cons, List.count_nil]; omega
      · dsimp only
        have e0 : List.map Prod.snd (b.done ++ [(e.1, b.cur)]) ++ [({ bid := pick b.live, els := [x] } : Blk K V)] =
            (b.done.map Prod.snd) ++ (b.cur :: [{ bid := pick b.live, els := [x] }]) := by simp
        rw [e0]
        obtain ⟨l1, l2, l3, _⟩ := Links.append.mp h11
        have hnd : ((b.done.map Prod.snd ++ [b.cur]).map Blk.bid).Nodup :=
          (List.nodup_append.mp (h10.nodup_iff.mp h9)).1
        obtain ⟨n1, _⟩ := nd_parts (C := []) hnd
        refine Links.append.mpr ⟨?_, ?_⟩
        · simp only [List.head?_cons, Option.map_some, Option.some_or] at l1 ⊢
          refine Links.congr (w := b.w) ?_ l1
          intro l hl
          have hb1 : l.bid ≠ pick b.live := by
            intro hh; apply hpl; rw [← hh]; exact List.mem_map_of_mem (List.mem_append_left _ hl)
          have hb2 := n1 l hl
          simp [upd, hb1, hb2]
        · have hb1 : b.cur.bid ≠ pick b.live := by
            intro hh; apply hpl; rw [← hh]; simp
          refine ⟨?_, ?_, ?_, ?_, trivial⟩
          · simp only [upd, if_neg hb1]; exact l2
          · simp [upd]
          · simp [upd]
          · simp [upd, Ne.symm hb1]
    · rw [if_neg hfull]
      refine ⟨_, rfl, ?_, hs', ⟨mid, k1, ?_⟩, h4, ?_, ?_, ?_, ?_, h9, ?_, ?_⟩
      · dsimp only; rw [← h1]; simp
      · intro f hf a ha
        rcases List.mem_append.mp hf with hf | hf
        · exact k2 f hf a ha
        · simp only [List.mem_singleton] at hf
          rw [hf]
          have hd : b.done ≠ [] := by
            intro hh; rw [hh] at k1; cases (show none = mid from k1); simp at ha
          obtain ⟨f', fs, hf'⟩ := List.exists_cons_of_ne_nil (h6 hd)
          have hf2 : f' ∈ b.cur.els := by rw [hf']; simp
          exact lt_trans (k2 f' hf2 a ha) (hlt f' (hcur f' hf2))
      · show (b.cur.els ++ [x]).length ≤ mle; simp; omega
      · intro _; simp
      · show x.1 = _; simp
      · show b.size + 1 = _; rw [h8]; simp
      · simpa using h10
      · exact Links.map (A := b.done.map Prod.snd ++ [b.cur]) (by simp) h11

theorem bulkPuts_ok {c : Cfg K} (hc : c.Ok) {pick : List Nat → Nat} (hpick : ∀ L, pick L ∉ L) {mle : Nat} (hm : 1 ≤ mle)
    {R : List Nat} : ∀ {xs : List (K × V)} {m : List (K × V)} {b : BL K V}, BInv c mle R m b →
      (∀ x ∈ xs, x.1 < c.mx) → xs.Pairwise (fun a b => a.1 ≤ b.1) → (∀ e ∈ m, ∀ x ∈ xs, e.1 ≤ x.1) →
      ∃ b', bulkPuts c pick mle b xs = some b' ∧ BInv c mle R (xs.foldl Spec.ins m) b'
  | [], m, b, h, _, _, _ => ⟨b, rfl, h⟩
  | x :: xs, m, b, h, h1, h2, h3 => by
    obtain ⟨b1, e1, i1⟩ := bulkPut_ok hc hpick hm h (h1 x (by simp)) (fun e he => h3 e he x (by simp))
    obtain ⟨p1, p2⟩ := List.pairwise_cons.mp h2
    obtain ⟨b', e2, i2⟩ := bulkPuts_ok hc hpick hm (xs := xs) i1 (fun y hy => h1 y (by simp [hy])) p2 (by
      intro e he y hy
      have : e = x ∨ e ∈ m := by
        unfold Spec.ins at he
        cases hl : Spec.lookup m x.1 with
        | some z => rw [hl] at he; exact Or.inr he
        | none =>
          rw [hl] at he
          simp only [List.mem_append, List.mem_filter, List.mem_cons] at he
          tauto
      rcases this with rfl | he
      · exact p1 y hy
      · exact h3 e he y (by simp [hy]))
    refine ⟨b', ?_, i2⟩
    unfold bulkPuts
    rw [e1]
    exact e2

theorem bulkInit_ok {c : Cfg K} {pick : List Nat → Nat} (hpick : ∀ L, pick L ∉ L) {mle : Nat} {R : List Nat} (hn : R.Nodup) (w : W) :
    BInv (V := V) c mle R [] (bulkInit c pick w R) := by
  refine ⟨rfl, List.Pairwise.nil, ⟨none, rfl, by simp [bulkInit]⟩, by simp [bulkInit], by simp [bulkInit], by simp [bulkInit], rfl, rfl,
    List.nodup_cons.mpr ⟨hpick _, hn⟩, List.Perm.refl _, ?_⟩
  simp [bulkInit, Links, upd]

theorem mv_links {L L' : List (Blk K V)} {w w' : W} (h : Mv L w L' w') (nd : (L.map Blk.bid).Nodup) (hl : Links w none L none) :
    (L'.map Blk.bid).Nodup ∧ Links w' none L' none ∧ ents L' = ents L := by
  induction h with
  | refl => exact ⟨nd, hl, rfl⟩
  | trans _ _ ih1 ih2 =>
    obtain ⟨a1, a2, a3⟩ := ih1 nd hl
    obtain ⟨b1, b2, b3⟩ := ih2 a1 a2
    exact ⟨b1, b2, b3.trans a3⟩
  | fuse A C l r w =>
    have nd' : ((A ++ ({ r with els := l.els ++ r.els } : Blk K V) :: C).map Blk.bid).Nodup := by
      simp only [List.map_append, List.map_cons] at nd ⊢
      exact nd.sublist (List.Sublist.append_left (List.sublist_cons_self _ _) _)
    refine ⟨nd', ?_, by simp⟩
    unfold leafFuseW
    refine links_fuse (l := l) (r := r) rfl nd ?_
    exact Links.congr (w := w) (fun _ _ => ⟨rfl, rfl⟩) hl
  | bal A C l r w nl hle hpos =>
    refine ⟨by simpa using nd, ?_, ?_⟩
    · obtain ⟨b1, b2⟩ := leafBalW_links l r nl w
      refine Links.map (A := A ++ l :: r :: C) (by simp) (Links.congr (w := w) ?_ hl)
      intro x _; rw [b1, b2]; exact ⟨rfl, rfl⟩
    · simp only [ents_append, ents_cons]
      rw [← List.append_assoc (List.take _ _), List.take_append_drop]; simp

/-- What the levels above the leaves start from and preserve. -/
structure UInv (c : Cfg K) (R : List Nat) (m : List (K × V)) (h : Nat) (bids : List (K × Tree K V h)) (w : W) (live : List Nat) : Prop where
  ord : OrdE (V := V) (h + 1) none c.mx bids
  good : ∀ e ∈ bids, (Blk.els (Prod.snd e)).length ≤ c.max h ∧ GoodE c h (Blk.els (Prod.snd e)) ∧
    (c.min h ≤ (Blk.els (Prod.snd e)).length ∨ (h = 0 ∧ bids.length = 1))
  nd : live.Nodup
  live : live.Perm (bidsK h bids ++ R)
  lf : LInv (leavesK h bids) w
  ents : ents (leavesK h bids) = m

theorem leavesK_zero (bids : List (K × Blk K V)) : leavesK (V := V) 0 bids = bids.map Prod.snd := by
  induction bids with
  | nil => rfl
  | cons e bids ih => rw [leavesK_cons, ih]; rfl
theorem bidsK_zero (bids : List (K × Blk K V)) : bidsK (V := V) 0 bids = (bids.map Prod.snd).map Blk.bid := by
  induction bids with
  | nil => rfl
  | cons e bids ih => rw [bidsK_cons, ih]; rfl

theorem bulkLast_ok {c : Cfg K} (hc : c.Ok) {mle : Nat} (hm1 : c.min 0 ≤ mle) (hm2 : mle ≤ c.maxL) {R : List Nat} {m : List (K × V)}
    {b : BL K V} (h : BInv c mle R m b) (hx : ∀ e ∈ m, e.1 < c.mx) :
    ∃ done cur w live, bulkLast c b = some (done, cur, w, live) ∧
      UInv c R m 0 (done ++ [(c.mx, cur)]) (w.reg 0 (cur.bid, cur.els.length)) live := by
  obtain ⟨h1, h2, ⟨mid, k1, k2⟩, h4, h5, h6, h7, h8, h9, h10, h11⟩ := h
  have hmx := hc.max 0
  have hmn : c.min 0 = c.max 0 / 2 := rfl
  have hmL : c.max 0 = c.maxL := rfl
  have hcs : b.cur.els.Pairwise (fun a b => a.1 < b.1) := by
    rw [← h1, ents_append] at h2
    simpa using (List.pairwise_append.mp h2).2.1
  have hcm : ∀ e ∈ b.cur.els, e ∈ m := by
    intro e he; rw [← h1]; exact mem_ents.mpr ⟨b.cur, by simp, he⟩
  have hmid : GtO mid c.mx := by
    intro a ha
    by_cases hd : b.done = []
    · rw [hd] at k1; cases (show none = mid from k1); simp at ha
    · obtain ⟨f', fs, hf'⟩ := List.exists_cons_of_ne_nil (h6 hd)
      have hf2 : f' ∈ b.cur.els := by rw [hf']; simp
      exact lt_trans (k2 f' hf2 a ha) (hx f' (hcm f' hf2))
  have hord : OrdE (V := V) 1 none c.mx (b.done ++ [(c.mx, b.cur)]) :=
    Kids.append.mpr ⟨mid, k1, hmid, ⟨hcs, fun e he => ⟨k2 e he, le_of_lt (hx e (hcm e he))⟩⟩, rfl⟩
  have hLs : leavesK (V := V) 0 (b.done ++ [(c.mx, b.cur)]) = b.done.map Prod.snd ++ [b.cur] := by rw [leavesK_zero]; simp
  have hnd : ((b.done.map Prod.snd ++ [b.cur]).map Blk.bid).Nodup := (List.nodup_append.mp (h10.nodup_iff.mp h9)).1
  have hlive : b.live.Perm (bidsK (V := V) 0 (b.done ++ [(c.mx, b.cur)]) ++ R) := by
    rw [bidsK_zero]; simpa using h10
  -- the case without a repair
  have plain : (c.min 0 ≤ b.cur.els.length ∨ b.done = []) →
      UInv c R m 0 (b.done ++ [(c.mx, b.cur)]) (b.w.reg 0 (b.cur.bid, b.cur.els.length)) b.live := by
    intro hcase
    refine ⟨hord, ?_, h9, hlive, ?_, by rw [hLs]; exact h1⟩
    · intro e he
      rcases List.mem_append.mp he with he | he
      · have := h4 e he
        refine ⟨?_, trivial, Or.inl ?_⟩
        · rw [this]; exact hm2
        · rw [this]; exact hm1
      · simp only [List.mem_singleton] at he
        subst he
        refine ⟨Nat.le_trans h5 hm2, trivial, ?_⟩
        rcases hcase with hh | hh
        · exact Or.inl hh
        · exact Or.inr ⟨rfl, by rw [hh]; rfl⟩
    · rw [hLs]
      refine ⟨hnd, Links.congr (w := b.w) (fun _ _ => ⟨rfl, rfl⟩) h11, b.cur, by simp, reg_its _ _ _⟩
  unfold bulkLast
  rcases List.eq_nil_or_concat b.done with hd | ⟨D, d, hd⟩
  · rw [hd] at plain ⊢
    exact ⟨[], b.cur, b.w, b.live, rfl, plain (Or.inr rfl)⟩
  · rw [List.concat_eq_append] at hd
    obtain ⟨kl, left⟩ := d
    have hdne : b.done ≠ [] := by rw [hd]; simp
    rw [hd]
    simp only [List.getLast?_append, List.getLast?_singleton, Option.some_or]
    by_cases hun : b.cur.els.length < c.min 0
    · rw [if_pos hun]
      have hll : left.els.length = mle := h4 (kl, left) (by rw [hd]; simp)
      have hE : D ++ [(kl, left)] ++ [(c.mx, b.cur)] = D ++ (kl, left) :: (c.mx, b.cur) :: [] := by simp
      rw [hd, hE] at hord hlive hLs
      obtain ⟨lft, cur', w', live', f1, f2, f3, f4, f5, f6⟩ := pair_ok hc (h := 0) b.w b.live hord trivial trivial
        (by rw [hll]; exact hm2) (Nat.le_trans h5 hm2) (by intro hh; rw [hh] at hll; simp at hll; omega) (h6 hdne)
        (Or.inr ⟨hun, by rw [hll]; exact hm1⟩)
      rw [f1]
      dsimp only
      have e1 : (D ++ [(kl, left)]).dropLast = D := by simp
      rw [e1]
      refine ⟨_, _, _, _, rfl, ?_⟩
      rw [hd] at h1 h11 hnd
      have hLs2 : leavesK (V := V) 0 (D ++ (kl, left) :: (c.mx, b.cur) :: []) = List.map Prod.snd (D ++ [(kl, left)]) ++ [b.cur] := by
        rw [leavesK_zero]; simp
      rw [hLs2] at f4
      obtain ⟨g1, g2, g3⟩ := mv_links f4 hnd h11
      refine ⟨f2, ?_, f5 h9, f6 R hlive, ⟨g1, Links.congr (w := w') (fun _ _ => ⟨rfl, rfl⟩) g2, cur', ?_, reg_its _ _ _⟩, by rw [g3, h1]⟩
      · intro e he
        have hcase : e ∈ D ∨ e ∈ lft.toList ++ [(c.mx, cur')] := by
          simp only [List.mem_append, List.mem_cons, List.not_mem_nil, or_false] at he ⊢; tauto
        rcases hcase with hh | hh
        · have := h4 e (by rw [hd]; simp [hh])
          exact ⟨by rw [this]; exact hm2, trivial, Or.inl (by rw [this]; exact hm1)⟩
        · obtain ⟨a1, a2, a3⟩ := f3 e hh
          exact ⟨a2, a3, Or.inl a1⟩
      · rw [leavesK_zero]; simp
    · rw [if_neg hun, ← hd]
      exact ⟨_, _, _, _, rfl, plain (Or.inl (by omega))⟩

end BTree
