/-
The whole tree: its invariant, and `insert` on it.
-/
import Verif.BTree.InsertLeaf

namespace BTree
variable {K V : Type} [LinearOrder K]

/-- The invariant of the tree object between two calls; `R` are the blocks it does not own. -/
structure Inv (c : Cfg K) (R : List Nat) (s : St K V) : Prop where
  ord : OrdE (V := V) (s.h + 1) none c.mx s.root
  good : ∀ e ∈ s.root, (Blk.els (Prod.snd e)).length ≤ c.max s.h ∧ GoodE c s.h (Blk.els (Prod.snd e)) ∧
    (c.min s.h ≤ (Blk.els (Prod.snd e)).length ∨ (s.h = 0 ∧ s.root.length = 1))
  rmax : s.root.length ≤ c.maxN
  rmin : s.h ≠ 0 → 2 ≤ s.root.length
  nd : s.live.Nodup
  live : s.live.Perm (bidsK s.h s.root ++ R)
  lf : LInv s.leaves s.w
  size : s.size = (ents s.leaves).length

theorem St.leaves_eq (s : St K V) : s.leaves = leavesK s.h s.root := rfl

theorem nodup_leaves {h : Nat} {els : List (K × Tree K V h)} {live R : List Nat} (hn : live.Nodup)
    (hp : live.Perm (bidsK h els ++ R)) : ((leavesK h els).map Blk.bid).Nodup := by
  obtain ⟨R', hR⟩ := leavesK_sub h els
  have := (hp.trans (hR.append_right R)).nodup_iff.mp hn
  exact (List.nodup_append.mp (List.nodup_append.mp this).1).1

theorem mapIns_ok {X : Type} {c : Cfg K} (hc : c.Ok) {A B : List (K × X)} {e f : K × X} (hA : ∀ a ∈ A, a.1 < e.1)
    (hf : e.1 < f.1) : mapIns c.lt e (A ++ f :: B) = some (A ++ e :: f :: B) := by
  have hl : lb c.lt e.1 (A ++ f :: B) = A.length := lb_append hc hA (by
    intro g hg; simp only [List.head?_cons, Option.some.injEq] at hg; subst hg; exact le_of_lt hf)
  unfold mapIns
  dsimp only
  rw [hl, get_len]
  dsimp only
  rw [if_pos (by rw [hc.lt]; exact decide_eq_true hf), take_len, drop_len]

/-- The contents of a tree that satisfies the invariant are sorted. -/
theorem leaves_sorted : ∀ {h : Nat} {lo : Option K} {hi : K} {b : Tree K V h}, OrdE h lo hi b.els →
    (ents (leaves h b)).Pairwise (fun a b => a.1 < b.1)
  | 0, _, _, b, ho => by
    simp only [leaves, ents_cons, ents_nil, List.append_nil]; exact ho.1
  | h + 1, lo, hi, b, ho => by
    have key : ∀ {els : List (K × Tree K V h)} {lo hi : Option K},
        Kids (fun lo k (b : Tree K V h) => OrdE h lo k b.els) lo els hi →
          (ents (leavesK h els)).Pairwise (fun a b => a.1 < b.1) := by
      intro els
      induction els with
      | nil => intro lo hi _; simp
      | cons y els ih =>
        obtain ⟨k, ch⟩ := y
        intro lo hi ⟨o1, o2, o3⟩
        rw [leavesK_cons, ents_append]
        refine List.pairwise_append.mpr ⟨leaves_sorted o2, ih o3, ?_⟩
        intro a ha b hb
        obtain ⟨l, hl, ha⟩ := mem_ents.mp ha
        obtain ⟨l', hl', hb⟩ := mem_ents.mp hb
        exact lt_of_le_of_lt (leaf_keys o2 l hl a ha).2 ((kids_leaf_keys o3 l' hl' b hb).1 k rfl)
    exact key ho

theorem Inv.sorted {c : Cfg K} {R : List Nat} {s : St K V} (hI : Inv c R s) :
    (ents s.leaves).Pairwise (fun a b => a.1 < b.1) :=
  leaves_sorted (h := s.h + 1) (b := ({ bid := 0, els := s.root } : Tree K V (s.h + 1))) hI.ord

theorem Inv.keys {c : Cfg K} {R : List Nat} {s : St K V} (hI : Inv c R s) : ∀ e ∈ ents s.leaves, e.1 ≤ c.mx := by
  intro e he
  obtain ⟨l, hl, he⟩ := mem_ents.mp he
  exact (leaf_keys (h := s.h + 1) (b := ({ bid := 0, els := s.root } : Tree K V (s.h + 1))) hI.ord l hl e he).2

/-- The outcome of a call that inserts: normal return, or the exception for a node cache that is too small
for the new height; in both cases the state is `s'`. -/
def Outcome {σ α : Type} (r : Res σ α) (s : σ) (a : α) (throws : Prop) : Prop :=
  (¬ throws ∧ r = .ok s a) ∨ (throws ∧ r = .thrown s)

theorem insertIntoRoot_ok {c : Cfg K} (hc : c.Ok) {pick : List Nat → Nat} (hpick : ∀ L, pick L ∉ L) {s : St K V}
    {A B : List (K × Tree K V s.h)} {f e : K × Tree K V s.h} (hroot : s.root = A ++ f :: B) (hlen : s.root.length ≤ c.maxN)
    (hef : e.1 < f.1) (ho : OrdE (V := V) (s.h + 1) none c.mx (A ++ e :: f :: B))
    (hg : GoodE (V := V) c (s.h + 1) (A ++ e :: f :: B)) {R : List Nat} (hn : s.live.Nodup)
    (hlive : s.live.Perm (bidsK s.h (A ++ e :: f :: B) ++ R)) :
    ∃ s', Outcome (insertIntoRoot c pick s e) s' () (s'.h ≠ s.h ∧ c.cap < s'.h + 1) ∧
      OrdE (V := V) (s'.h + 1) none c.mx s'.root ∧ GoodE (V := V) c (s'.h + 1) s'.root ∧
      s'.root.length ≤ c.maxN ∧ 2 ≤ s'.root.length ∧ s'.live.Nodup ∧ s'.live.Perm (bidsK s'.h s'.root ++ R) ∧
      s'.leaves = leavesK s.h (A ++ e :: f :: B) ∧ s'.w = s.w ∧ s'.size = s.size ∧
      (s'.h = s.h ∨ s'.h = s.h + 1) := by
  have hA : ∀ a ∈ A, a.1 < e.1 := by
    intro a ha
    have hs := Kids.sorted ho
    exact (List.pairwise_append.mp hs).2.2 a ha e (by simp)
  have hm : mapIns c.lt e s.root = some (A ++ e :: f :: B) := by rw [hroot]; exact mapIns_ok hc hA hef
  have hl2 : (A ++ e :: f :: B).length = s.root.length + 1 := by rw [hroot]; simp; omega
  unfold insertIntoRoot
  rw [hm]
  dsimp only
  have h2 : 2 ≤ (A ++ e :: f :: B).length := by simp; omega
  by_cases hle : (A ++ e :: f :: B).length ≤ c.maxN
  · rw [if_pos hle]
    exact ⟨_, Or.inl ⟨by simp, rfl⟩, ho, hg, hle, h2, hn, hlive, rfl, rfl, rfl, Or.inl rfl⟩
  · rw [if_neg hle]
    generalize hE : A ++ e :: f :: B = E at *
    obtain ⟨T, D, g, t1, t2, t3, t4, t5, t6, t7, t8, t9, t10⟩ := halves hc.node (show E.length = c.maxN + 1 by omega)
    rw [t5]
    obtain ⟨z, hz⟩ : ∃ z, E.getLast? = some z := by
      cases hh : E.getLast? with
      | none => rw [List.getLast?_eq_none_iff] at hh; rw [hh] at h2; simp at h2
      | some z => exact ⟨z, rfl⟩
    rw [hz]
    dsimp only
    rw [← t2, ← t3]
    have ho' := ho
    rw [t1] at ho' hg
    obtain ⟨c1, c2, c3, c4⟩ := ord_cut (V := V) (h := s.h + 1) ho' t4 t6
    obtain ⟨g1, g2⟩ := good_append.mp hg
    have hz1 : z.1 = c.mx := by
      obtain ⟨E', hE'⟩ := List.getLast?_eq_some_iff.mp hz
      rw [hE'] at ho
      have := Kids.last ho
      simpa using this.symm
    have hmem : ∀ L : List Nat, pick (pick s.live :: L) ≠ pick s.live := by
      intro L hh; exact hpick (pick s.live :: L) (by rw [hh]; simp)
    refine ⟨{ h := s.h + 1, root := [(g.1, { bid := pick s.live, els := T }), (z.1, { bid := pick (pick s.live :: s.live), els := D })], size := s.size, w := s.w, live := pick (pick s.live :: s.live) :: pick s.live :: s.live }, ?_, ?_, ?_, ?_, ?_, ?_, ?_, ?_, rfl, rfl, Or.inr rfl⟩
    · unfold Outcome
      dsimp only
      by_cases hcap : c.cap < s.h + 1 + 1
      · rw [if_pos hcap]; exact Or.inr ⟨⟨by omega, hcap⟩, rfl⟩
      · rw [if_neg hcap]; exact Or.inl ⟨fun h => hcap h.2, rfl⟩
    · rw [hz1]
      exact ⟨c1, c3, fun a ha => by cases ha; exact c2, c4, rfl⟩
    · intro y hy
      simp only [List.mem_cons, List.not_mem_nil, or_false] at hy
      rcases hy with rfl | rfl
      · exact ⟨t7, t8, g1⟩
      · exact ⟨t9, t10, g2⟩
    · have := hc.node; simp; omega
    · simp
    · refine List.nodup_cons.mpr ⟨hpick _, List.nodup_cons.mpr ⟨hpick _, hn⟩⟩
    · rw [t1, bidsK_append] at hlive
      show (_ :: _ :: s.live).Perm ((bidsK s.h T ++ [pick s.live]) ++ ((bidsK s.h D ++ [pick (pick s.live :: s.live)]) ++ []) ++ R)
      refine ((hlive.cons _).cons _).trans ?_
      rw [List.perm_iff_count]; intro y
      simp only [List.count_append, List.count_cons, List.count_nil]; omega
    · show leavesK s.h T ++ (leavesK s.h D ++ []) = _
      rw [t1]; simp

/-- `insert` on the whole tree. -/
theorem insert_ok {c : Cfg K} (hc : c.Ok) {pick : List Nat → Nat} (hpick : ∀ L, pick L ∉ L) {R : List Nat} {s : St K V}
    (hI : Inv c R s) (x : K × V) (hx : x.1 ≤ c.mx) {rid : Nat} (hr : rid ≠ 0) :
    ∃ s' r, Outcome (insert c pick s x rid) s' r (s'.h ≠ s.h ∧ c.cap < s'.h + 1) ∧ Inv c R s' ∧
      Keeps (fun _ => True) (some rid) s.leaves s'.leaves s.w s'.w ∧ Pts s'.leaves s'.w rid x.1 ∧
      InsEnts x (ents s.leaves) (ents s'.leaves) r := by
  obtain ⟨A, k', ch, B, mid, e1, e2, m1, m2, m3, m4, m5, m6, m7⟩ :=
    kids_find hc (k := x.1) hI.ord (fun a ha => by cases ha) hx
  have hgch := hI.good (k', ch) (by rw [e1]; simp)
  have hk' : k' ≤ c.mx := by
    obtain ⟨b, eb, hb, _⟩ := Kids.lo_le m6 rfl
    cases eb; exact hb
  obtain ⟨ch', spl, r, w1, live1, i1, i2, i3, i4⟩ := ins_ok hc hpick x rid s.h ch s.w s.live mid k' m5 hgch.2.1 hgch.1 m2 m4 hk'
  have kA : ∀ a ∈ leavesK s.h A, ∀ e ∈ a.els, e.1 < x.1 := by
    intro a ha e he
    obtain ⟨_, b, eb, hb⟩ := kids_leaf_keys m1 a ha e he
    exact lt_of_le_of_lt hb (m2 b eb)
  have kB : ∀ a ∈ leavesK s.h B, ∀ e ∈ a.els, x.1 < e.1 := by
    intro a ha e he
    exact lt_of_le_of_lt m4 ((kids_leaf_keys m6 a ha e he).1 k' rfl)
  have hget : s.root[lb c.lt x.1 s.root]? = some (k', ch) := by rw [e2, e1]; exact get_len
  have hset : s.root.set (lb c.lt x.1 s.root) (k', ch') = A ++ (k', ch') :: B := by rw [e2, e1]; exact set_len
  have lv : s.leaves = leavesK s.h A ++ leaves s.h ch ++ leavesK s.h B := by
    rw [St.leaves_eq, e1]; simp
  have bd : s.live.Perm (dealloc s.h ch ++ (bidsK s.h A ++ bidsK s.h B ++ R)) := by
    refine hI.live.trans ?_
    rw [e1, bidsK_append, bidsK_cons]
    rw [List.perm_iff_count]; intro y
    simp only [List.count_append]; omega
  have at' := i4.ctx kA kB
  rw [← lv] at at'
  have hlive1 := i3.2 _ bd
  have hn1 := i3.1 hI.nd
  have hsz : ∀ Ls' : List (Blk K V), InsEnts x (ents s.leaves) (ents Ls') r →
      (if r then s.size + 1 else s.size) = (ents Ls').length := by
    intro Ls' h
    rcases h with ⟨rfl, e, _⟩ | ⟨rfl, P, Q, e, e', _⟩
    · rw [e]; exact hI.size
    · rw [e', hI.size, e]; simp; omega
  unfold insert
  dsimp only
  rw [hget]
  dsimp only
  rw [i1]
  dsimp only
  rw [hset]
  cases spl with
  | none =>
    obtain ⟨o1, o2, o3, o4⟩ := i2
    have e3 : leavesK s.h A ++ (splLeaves s.h none ++ leaves s.h ch') ++ leavesK s.h B = leavesK s.h (A ++ (k', ch') :: B) := by
      simp [splLeaves]
    rw [e3] at at'
    have hl' : live1.Perm (bidsK s.h (A ++ (k', ch') :: B) ++ R) := by
      refine hlive1.trans ?_
      simp only [splBids, bidsK_append, bidsK_cons]
      rw [List.perm_iff_count]; intro y
      simp only [List.count_append, List.count_nil]; omega
    obtain ⟨a1, a2, a3, a4⟩ := atLeaf_inv hc hr at' hI.lf (nodup_leaves hn1 hl')
    refine ⟨_, r, Or.inl ⟨by simp, rfl⟩, ?_, a2, a3, a4⟩
    refine ⟨kids_replace m1 m3 o1 m6, ?_, ?_, ?_, hn1, hl', a1, hsz _ a4⟩
    · intro e he
      have hlen : (A ++ (k', ch') :: B).length = s.root.length := by rw [e1]; simp
      show _ ∧ _ ∧ (_ ∨ s.h = 0 ∧ (A ++ (k', ch') :: B).length = 1)
      rw [hlen]
      rcases List.mem_append.mp he with he | he
      · exact hI.good e (by rw [e1]; simp [he])
      · rcases List.mem_cons.mp he with rfl | he
        · refine ⟨o3, o2, ?_⟩
          rcases hgch.2.2 with h | h
          · exact Or.inl (Nat.le_trans h o4)
          · exact Or.inr h
        · exact hI.good e (by rw [e1]; simp [he])
    · have := hI.rmax; rw [e1] at this; simpa using this
    · intro h; have := hI.rmin h; rw [e1] at this; simpa using this
  | some spl =>
    obtain ⟨sk, left⟩ := spl
    obtain ⟨o1, o2, o3, o4, o5, o6, o7, o8, o9, o10⟩ := i2
    have hmx : ¬ (eqv c.lt c.mx sk = true) := by
      rw [eqv_iff hc]; intro hh
      have := lt_of_lt_of_le o2 hk'
      rw [← hh] at this; exact lt_irrefl _ this
    dsimp only
    rw [if_neg hmx]
    have e3 : leavesK s.h A ++ (splLeaves s.h (some (sk, left)) ++ leaves s.h ch') ++ leavesK s.h B =
        leavesK s.h (A ++ (sk, left) :: (k', ch') :: B) := by
      simp [splLeaves]
    rw [e3] at at'
    have hl' : live1.Perm (bidsK s.h (A ++ (sk, left) :: (k', ch') :: B) ++ R) := by
      refine hlive1.trans ?_
      simp only [splBids, bidsK_append, bidsK_cons]
      rw [List.perm_iff_count]; intro y
      simp only [List.count_append]; omega
    have hgE : GoodE (V := V) c (s.h + 1) (A ++ (sk, left) :: (k', ch') :: B) := by
      have hAB : ∀ e, e ∈ A ∨ e ∈ B → c.min s.h ≤ (Blk.els (Prod.snd e)).length ∧ (Blk.els (Prod.snd e)).length ≤ c.max s.h ∧ GoodE c s.h (Blk.els (Prod.snd e)) := by
        intro e he
        have hm : e ∈ s.root := by rw [e1]; rcases he with he | he <;> simp [he]
        obtain ⟨g1, g2, g3⟩ := hI.good e hm
        refine ⟨?_, g1, g2⟩
        rcases g3 with h | ⟨_, h⟩
        · exact h
        · exfalso
          rw [e1] at h
          simp only [List.length_append, List.length_cons] at h
          rcases he with he | he
          · have := List.length_pos_of_mem he; omega
          · have := List.length_pos_of_mem he; omega
      intro e he
      rcases List.mem_append.mp he with he | he
      · exact hAB e (Or.inl he)
      · rcases List.mem_cons.mp he with rfl | he
        · exact ⟨o7, o8, o5⟩
        · rcases List.mem_cons.mp he with rfl | he
          · exact ⟨o9, o10, o6⟩
          · exact hAB e (Or.inr he)
    obtain ⟨a1, a2, a3, a4⟩ := atLeaf_inv hc hr at' hI.lf (nodup_leaves hn1 hl')
    have hl0 : (A ++ (k', ch') :: B).length ≤ c.maxN := by
      have := hI.rmax; rw [e1] at this; simpa using this
    obtain ⟨s', q1, q2, q3, q4, q5, q6, q7, q8, q9, q10, _⟩ := insertIntoRoot_ok hc hpick
      (s := { h := s.h, root := A ++ (k', ch') :: B, size := if r then s.size + 1 else s.size, w := w1, live := live1 })
      (f := (k', ch')) (e := (sk, left)) rfl hl0 o2 (kids_replace2 m1 o1 o2 o3 o4 m6) hgE hn1 hl'
    refine ⟨s', r, ?_, ?_, by rw [q8, q9]; exact a2, by rw [q8, q9]; exact a3, by rw [q8]; exact a4⟩
    · rcases q1 with ⟨t, q⟩ | ⟨t, q⟩
      · rw [q]; exact Or.inl ⟨t, rfl⟩
      · rw [q]; exact Or.inr ⟨t, rfl⟩
    · refine ⟨q2, ?_, q4, fun _ => q5, q6, q7, by rw [q8, q9]; exact a1, by rw [q10, q8]; exact hsz _ a4⟩
      intro e he
      obtain ⟨g1, g2, g3⟩ := q3 e he
      exact ⟨g2, g3, Or.inl g1⟩

end BTree
