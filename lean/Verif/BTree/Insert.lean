/-
`insert`: the recursion over the tree.
-/
import Verif.BTree.Tree
import Mathlib.Data.List.Count

namespace BTree
variable {K V X : Type} [LinearOrder K]

def splBids (h : Nat) : Option (K × Tree K V h) → List Nat
  | none => []
  | some e => dealloc h e.2

def splLeaves (h : Nat) : Option (K × Tree K V h) → List (Blk K V)
  | none => []
  | some e => leaves h e.2

/-- What an insertion below a block `b` with keys in `(lo,hi]` leaves: `b'` alone, or a new block to its left. -/
def InsOut (c : Cfg K) (h : Nat) (lo : Option K) (hi : K) (b b' : Tree K V h) : Option (K × Tree K V h) → Prop
  | none => OrdE h lo hi b'.els ∧ GoodE c h b'.els ∧ b'.els.length ≤ c.max h ∧ b.els.length ≤ b'.els.length
  | some (sk, left) => GtO lo sk ∧ sk < hi ∧ OrdE h lo sk left.els ∧ OrdE h (some sk) hi b'.els ∧
      GoodE c h left.els ∧ GoodE c h b'.els ∧ c.min h ≤ left.els.length ∧ left.els.length ≤ c.max h ∧
      c.min h ≤ b'.els.length ∧ b'.els.length ≤ c.max h

/-- Accounting of blocks. -/
def LiveOut (h : Nat) (b b' : Tree K V h) (spl : Option (K × Tree K V h)) (live live' : List Nat) : Prop :=
  (live.Nodup → live'.Nodup) ∧
    ∀ R, live.Perm (dealloc h b ++ R) → live'.Perm (splBids h spl ++ dealloc h b' ++ R)

theorem halves {els : List X} {m : Nat} (hm : 4 ≤ m) (hl : els.length = m + 1) :
    ∃ A B e, els = A ++ B ∧ A = els.take (els.length / 2) ∧ B = els.drop (els.length / 2) ∧ A.getLast? = some e ∧
      els[els.length / 2 - 1]? = some e ∧ B ≠ [] ∧ m / 2 ≤ A.length ∧ A.length ≤ m ∧ m / 2 ≤ B.length ∧ B.length ≤ m := by
  have hlt : els.length / 2 - 1 < els.length := by omega
  refine ⟨els.take (els.length / 2), els.drop (els.length / 2), els[els.length / 2 - 1], (List.take_append_drop _ _).symm,
    rfl, rfl, ?_, List.getElem?_eq_getElem hlt, ?_, ?_, ?_, ?_, ?_⟩
  · rw [List.getLast?_eq_getElem?, List.length_take, Nat.min_eq_left (by omega), List.getElem?_take,
      if_pos (by omega), List.getElem?_eq_getElem hlt]
  · intro h
    have := congrArg List.length h
    simp at this; omega
  · simp; omega
  · simp; omega
  · simp; omega
  · simp; omega

theorem leaf_ins_ord {lo : Option K} {hi : K} {A B : List (K × V)} {x : K × V} (h : OrdE (V := V) 0 lo hi (A ++ B))
    (hA : ∀ e ∈ A, e.1 < x.1) (hB : ∀ e ∈ B, x.1 < e.1) (h1 : GtO lo x.1) (h2 : x.1 ≤ hi) :
    OrdE (V := V) 0 lo hi (A ++ x :: B) := by
  obtain ⟨s, k⟩ := h
  obtain ⟨s1, s2, s3⟩ := List.pairwise_append.mp s
  refine ⟨List.pairwise_append.mpr ⟨s1, List.pairwise_cons.mpr ⟨hB, s2⟩, ?_⟩, ?_⟩
  · intro a ha b hb
    rcases List.mem_cons.mp hb with rfl | hb
    · exact hA a ha
    · exact s3 a ha b hb
  · intro e he
    simp only [List.mem_append, List.mem_cons] at he
    rcases he with he | rfl | he
    · exact k e (by simp [he])
    · exact ⟨h1, h2⟩
    · exact k e (by simp [he])

/-- The three cases of `normal_leaf::insert`. -/
theorem leafInsert_cases {c : Cfg K} (hc : c.Ok) (pick : List Nat → Nat) {l : Blk K V} (x : K × V) (rid : Nat) (w : W)
    (live : List Nat) (hs : l.els.Pairwise (fun a b => a.1 < b.1)) (hlen : l.els.length ≤ c.maxL) :
    (∃ p v, l.els[p]? = some (x.1, v) ∧
        leafInsert c pick l x rid w live = some (l, none, false, w.reg rid (l.bid, p), live)) ∨
    (∃ A B, l.els = A ++ B ∧ (∀ e ∈ A, e.1 < x.1) ∧ (∀ e ∈ B, x.1 < e.1) ∧
      let l1 : Blk K V := { l with els := A ++ x :: B }
      let w2 := (w.fix l.bid A.length l.els.length (fun p => (l.bid, p + 1))).reg rid (l.bid, A.length)
      ((l1.els.length ≤ c.maxL ∧ leafInsert c pick l x rid w live = some (l1, none, true, w2, live)) ∨
       (l1.els.length = c.maxL + 1 ∧ ∃ T D e, l1.els = T ++ D ∧ T.getLast? = some e ∧ D ≠ [] ∧ c.maxL / 2 ≤ T.length ∧
          T.length ≤ c.maxL ∧ c.maxL / 2 ≤ D.length ∧ D.length ≤ c.maxL ∧
          leafInsert c pick l x rid w live =
            some ({ l with els := D }, some (e.1, { bid := pick live, els := T }), true,
              (w2.linkSplit l.bid (pick live)).fix l.bid 0 l1.els.length
                (fun p => if p < T.length then (pick live, p) else (l.bid, p - T.length)), pick live :: live)))) := by
  obtain ⟨A, B, hAB, hA, hB, hl⟩ := lb_split hc x.1 hs
  have hget : l.els[lb c.lt x.1 l.els]? = B.head? := by
    rw [hl, hAB, List.getElem?_append_right (Nat.le_refl _), Nat.sub_self, List.head?_eq_getElem?]
  by_cases hp : ∃ v, B.head? = some (x.1, v)
  · left
    obtain ⟨v, hv⟩ := hp
    refine ⟨lb c.lt x.1 l.els, v, by rw [hget, hv], ?_⟩
    unfold leafInsert
    dsimp only
    rw [if_pos]
    unfold sameAt
    rw [hget, hv]
    exact (eqv_iff hc _ _).mpr rfl
  · right
    have hB' : ∀ e ∈ B, x.1 < e.1 := by
      intro e he
      cases B with
      | nil => simp at he
      | cons b B =>
        rw [hAB] at hs
        obtain ⟨_, s2, _⟩ := List.pairwise_append.mp hs
        have hb : x.1 < b.1 := by
          refine lt_of_le_of_ne (hB b (by simp)) ?_
          intro hh
          exact hp ⟨b.2, by rw [hh]; rfl⟩
        rcases List.mem_cons.mp he with rfl | he
        · exact hb
        · exact lt_trans hb ((List.pairwise_cons.mp s2).1 e he)
    have e1 : l.els.take (lb c.lt x.1 l.els) ++ x :: l.els.drop (lb c.lt x.1 l.els) = A ++ x :: B := by
      rw [hl, hAB]; simp
    have hcond : sameAt c.lt l.els (lb c.lt x.1 l.els) x.1 ≠ true := by
      unfold sameAt
      rw [hget]
      cases hh : B.head? with
      | none => simp
      | some e =>
        simp only
        rw [Ne, eqv_iff hc]
        intro h
        exact hp ⟨e.2, by rw [hh, ← h]⟩
    refine ⟨A, B, hAB, hA, hB', ?_⟩
    intro l1 w2
    by_cases hle : l1.els.length ≤ c.maxL
    · left
      refine ⟨hle, ?_⟩
      unfold leafInsert
      dsimp only
      rw [if_neg hcond, e1, if_pos hle, hl]
    · right
      have hll : l1.els.length = c.maxL + 1 := by
        have : l1.els.length = l.els.length + 1 := by rw [hAB]; simp [l1]; omega
        omega
      refine ⟨hll, ?_⟩
      obtain ⟨T, D, e, t1, t2, t3, t4, t5, t6, t7, t8, t9, t10⟩ := halves hc.leaf hll
      refine ⟨T, D, e, t1, t4, t6, t7, t8, t9, t10, ?_⟩
      unfold leafInsert
      dsimp only
      rw [if_neg hcond, e1, if_neg hle, hl]
      have hT : T.length = l1.els.length / 2 := by rw [t2, List.length_take]; omega
      have hsp : leafSplit pick l1 w2 live = some ({ l with els := D }, (e.1, { bid := pick live, els := T }),
          (w2.linkSplit l.bid (pick live)).fix l.bid 0 l1.els.length
                (fun p => if p < T.length then (pick live, p) else (l.bid, p - T.length)), pick live :: live) := by
        unfold leafSplit
        dsimp only
        rw [t5]
        simp only
        rw [hT, ← t2, ← t3]
      have e2 : ({ bid := l.bid, els := A ++ x :: B } : Blk K V) = l1 := rfl
      rw [e2, hsp]

theorem leafInsert_ok {c : Cfg K} (hc : c.Ok) {pick : List Nat → Nat} (hpick : ∀ L, pick L ∉ L) {l : Blk K V} (x : K × V)
    (rid : Nat) (w : W) (live : List Nat) {lo : Option K} {hi : K} (ho : OrdE (V := V) 0 lo hi l.els)
    (hlen : l.els.length ≤ c.maxL) (h1 : GtO lo x.1) (h2 : x.1 ≤ hi) :
    ∃ l' spl r w' live', leafInsert c pick l x rid w live = some (l', spl, r, w', live') ∧
      InsOut (V := V) c 0 lo hi l l' spl ∧ LiveOut (V := V) 0 l l' spl live live' ∧ l'.bid = l.bid := by
  rcases leafInsert_cases hc pick x rid w live ho.1 hlen with ⟨p, v, hp, e⟩ | ⟨A, B, hAB, hA, hB, hcase⟩
  · exact ⟨l, none, false, _, live, e, ⟨ho, trivial, hlen, Nat.le_refl _⟩, ⟨fun h => h, fun R h => h⟩, rfl⟩
  · have ho1 : OrdE (V := V) 0 lo hi (A ++ x :: B) := leaf_ins_ord (by rw [← hAB]; exact ho) hA hB h1 h2
    rcases hcase with ⟨hle, e⟩ | ⟨hll, T, D, e, t1, t4, t6, t7, t8, t9, t10, eq⟩
    · refine ⟨_, none, true, _, live, e, ⟨ho1, trivial, hle, ?_⟩, ⟨fun h => h, fun R h => h⟩, rfl⟩
      rw [hAB]; simp
    · obtain ⟨c1, c2, c3, c4⟩ := ord_cut (V := V) (h := 0) (by rw [← t1]; exact ho1) t4 t6
      refine ⟨_, _, true, _, _, eq, ⟨c1, c2, c3, c4, trivial, trivial, t7, t8, t9, t10⟩, ⟨?_, ?_⟩, rfl⟩
      · intro hn; exact List.nodup_cons.mpr ⟨hpick _, hn⟩
      · intro R hR
        exact List.Perm.cons _ hR

/-- The entries of a node after a child was replaced. -/
theorem kids_replace {h : Nat} {lo : Option K} {hi : K} {A B : List (K × Tree K V h)} {k' : K} {mid : Option K}
    {ch' : Tree K V h} (h1 : Kids (fun lo k (b : Tree K V h) => OrdE h lo k b.els) lo A mid) (hm : GtO mid k')
    (h2 : OrdE h mid k' ch'.els) (h3 : Kids (fun lo k (b : Tree K V h) => OrdE h lo k b.els) (some k') B (some hi)) :
    OrdE (V := V) (h + 1) lo hi (A ++ (k', ch') :: B) := Kids.append.mpr ⟨mid, h1, hm, h2, h3⟩

theorem kids_replace2 {h : Nat} {lo : Option K} {hi : K} {A B : List (K × Tree K V h)} {k' sk : K} {mid : Option K}
    {left ch' : Tree K V h} (h1 : Kids (fun lo k (b : Tree K V h) => OrdE h lo k b.els) lo A mid) (hm : GtO mid sk)
    (hs : sk < k') (hl : OrdE h mid sk left.els)
    (h2 : OrdE h (some sk) k' ch'.els) (h3 : Kids (fun lo k (b : Tree K V h) => OrdE h lo k b.els) (some k') B (some hi)) :
    OrdE (V := V) (h + 1) lo hi (A ++ (sk, left) :: (k', ch') :: B) :=
  Kids.append.mpr ⟨mid, h1, hm, hl, fun a ha => by cases ha; exact hs, h2, h3⟩

theorem leaf_keys : ∀ {h : Nat} {lo : Option K} {hi : K} {b : Tree K V h}, OrdE h lo hi b.els →
    ∀ l ∈ leaves h b, ∀ e ∈ l.els, GtO lo e.1 ∧ e.1 ≤ hi
  | 0, lo, hi, b, ho, l, hl, e, he => by
    simp only [leaves, List.mem_singleton] at hl
    subst hl
    exact ho.2 e he
  | h + 1, lo, hi, b, ho, l, hl, e, he => by
    have key : ∀ {els : List (K × Tree K V h)} {lo hi : Option K},
        Kids (fun lo k (b : Tree K V h) => OrdE h lo k b.els) lo els hi → l ∈ leavesK h els →
          GtO lo e.1 ∧ ∃ b, hi = some b ∧ e.1 ≤ b := by
      intro els
      induction els with
      | nil => intro lo hi _ hl; simp at hl
      | cons y els ih =>
        obtain ⟨k, ch⟩ := y
        intro lo hi ho hl
        rw [leavesK_cons, List.mem_append] at hl
        obtain ⟨o1, o2, o3⟩ := ho
        rcases hl with hl | hl
        · obtain ⟨a1, a2⟩ := leaf_keys o2 l hl e he
          obtain ⟨b, eb, hb, _⟩ := Kids.lo_le o3 rfl
          exact ⟨a1, b, eb, le_trans a2 hb⟩
        · obtain ⟨a1, a2⟩ := ih o3 hl
          exact ⟨fun a ha => lt_trans (o1 a ha) (a1 k rfl), a2⟩
    obtain ⟨a1, b', e', a2⟩ := key (els := b.els) ho hl
    cases e'
    exact ⟨a1, a2⟩

/-- Leaves of entries between two bounds have keys between them. -/
theorem kids_leaf_keys {h : Nat} {lo hi : Option K} {els : List (K × Tree K V h)}
    (ho : Kids (fun lo k (b : Tree K V h) => OrdE h lo k b.els) lo els hi) :
    ∀ l ∈ leavesK h els, ∀ e ∈ l.els, GtO lo e.1 ∧ ∃ b, hi = some b ∧ e.1 ≤ b := by
  intro l hl e he
  cases els with
  | nil => simp at hl
  | cons y els =>
    obtain ⟨k, ch⟩ := y
    obtain ⟨o1, o2, o3⟩ := ho
    obtain ⟨b, rfl, _, _⟩ := Kids.lo_le o3 rfl
    have := leaf_keys (b := ({ bid := 0, els := (k, ch) :: els } : Tree K V (h + 1))) (lo := lo) (hi := b) ⟨o1, o2, o3⟩ l hl e he
    exact ⟨this.1, b, rfl, this.2⟩

theorem take_len {A : List X} {x : X} {B : List X} : (A ++ x :: B).take A.length = A := by simp
theorem drop_len {A : List X} {x : X} {B : List X} : (A ++ x :: B).drop A.length = x :: B := by simp
theorem get_len {A : List X} {x : X} {B : List X} : (A ++ x :: B)[A.length]? = some x := by simp
theorem set_len {A : List X} {x y : X} {B : List X} : (A ++ x :: B).set A.length y = A ++ y :: B := by simp

/-- Where the insertion happened among the leaves. -/
def AtLeaf (c : Cfg K) (pick : List Nat → Nat) (x : K × V) (rid : Nat) (w : W) (live : List Nat)
    (Ls Ls' : List (Blk K V)) (r : Bool) (w' : W) : Prop :=
  ∃ A l C l' spl live0, Ls = A ++ l :: C ∧ leafInsert c pick l x rid w live = some (l', spl, r, w', live0) ∧
    Ls' = A ++ splLeaves (K := K) (V := V) 0 spl ++ l' :: C ∧
    (∀ a ∈ A, ∀ e ∈ a.els, e.1 < x.1) ∧ (∀ a ∈ C, ∀ e ∈ a.els, x.1 < e.1) ∧
    l.els.Pairwise (fun a b => a.1 < b.1) ∧ l.els.length ≤ c.maxL ∧ l'.bid = l.bid

theorem AtLeaf.ctx {c : Cfg K} {pick : List Nat → Nat} {x : K × V} {rid : Nat} {w : W} {live : List Nat}
    {Ls Ls' : List (Blk K V)} {r : Bool} {w' : W} (h : AtLeaf c pick x rid w live Ls Ls' r w') {P Q : List (Blk K V)}
    (hP : ∀ a ∈ P, ∀ e ∈ a.els, e.1 < x.1) (hQ : ∀ a ∈ Q, ∀ e ∈ a.els, x.1 < e.1) :
    AtLeaf c pick x rid w live (P ++ Ls ++ Q) (P ++ Ls' ++ Q) r w' := by
  obtain ⟨A, l, C, l', spl, live0, h1, h2, h3, h4, h5, h6, h7, h8⟩ := h
  refine ⟨P ++ A, l, C ++ Q, l', spl, live0, by rw [h1]; simp, h2, by rw [h3]; simp, ?_, ?_, h6, h7, h8⟩
  · intro a ha
    rcases List.mem_append.mp ha with ha | ha
    · exact hP a ha
    · exact h4 a ha
  · intro a ha
    rcases List.mem_append.mp ha with ha | ha
    · exact h5 a ha
    · exact hQ a ha

/-- `normal_node::insert(splitter, place)`. -/
theorem nodePut_ok {c : Cfg K} (hc : c.Ok) {pick : List Nat → Nat} (hpick : ∀ L, pick L ∉ L) {h : Nat}
    {n : Tree K V (h + 1)} {A B : List (K × Tree K V h)} {f e : K × Tree K V h} {lo : Option K} {hi : K}
    (hn : n.els = A ++ f :: B) (hne : f.1 ≠ e.1) (ho : OrdE (V := V) (h + 1) lo hi (A ++ e :: f :: B))
    (hg : GoodE (V := V) c (h + 1) (A ++ e :: f :: B)) (hlen : n.els.length ≤ c.maxN) (live : List Nat) :
    ∃ n' spl live', nodePut c pick n A.length e live = some (n', spl, live') ∧ InsOut (V := V) c (h + 1) lo hi n n' spl ∧
      n'.bid = n.bid ∧ splLeaves (h + 1) spl ++ leaves (h + 1) n' = leavesK h (A ++ e :: f :: B) ∧
      (live.Nodup → live'.Nodup) ∧
      (∀ R, live.Perm (bidsK h (A ++ e :: f :: B) ++ n.bid :: R) →
        live'.Perm (splBids (h + 1) spl ++ dealloc (h + 1) n' ++ R)) := by
  have hlen' : (A ++ e :: f :: B).length = n.els.length + 1 := by rw [hn]; simp; omega
  have e0 : n.els.take A.length ++ e :: n.els.drop A.length = A ++ e :: f :: B := by rw [hn]; simp
  have hunf : nodePut c pick n A.length e live =
      (if (A ++ e :: f :: B).length ≤ c.maxN then some ({ n with els := A ++ e :: f :: B }, none, live)
      else match (A ++ e :: f :: B)[(A ++ e :: f :: B).length / 2 - 1]? with
        | none => none
        | some g => some ({ n with els := (A ++ e :: f :: B).drop ((A ++ e :: f :: B).length / 2) },
            some (g.1, { bid := pick live, els := (A ++ e :: f :: B).take ((A ++ e :: f :: B).length / 2) }), pick live :: live)) := by
    have hg : n.els[A.length]? = some f := by rw [hn]; exact get_len
    unfold nodePut
    rw [hg]
    dsimp only
    rw [if_neg (by rw [eqv_iff hc]; exact hne), e0]
    generalize (A ++ e :: f :: B)[(A ++ e :: f :: B).length / 2 - 1]? = o
    cases o <;> rfl
  generalize hE : A ++ e :: f :: B = E at *
  by_cases hle : E.length ≤ c.maxN
  · rw [if_pos hle] at hunf
    refine ⟨_, none, live, hunf, ⟨ho, hg, hle, by dsimp only; omega⟩, rfl, rfl, fun h => h, ?_⟩
    intro R hR
    simp only [splBids, dealloc_succ, List.nil_append]
    refine hR.trans ?_
    simp
  · rw [if_neg hle] at hunf
    obtain ⟨T, D, g, t1, t2, t3, t4, t5, t6, t7, t8, t9, t10⟩ := halves hc.node (show E.length = c.maxN + 1 by omega)
    rw [t5, ← t2, ← t3] at hunf
    dsimp only at hunf
    rw [t1] at ho hg
    obtain ⟨c1, c2, c3, c4⟩ := ord_cut ho t4 t6
    obtain ⟨g1, g2⟩ := good_append.mp hg
    refine ⟨_, _, _, hunf, ⟨c1, c2, c3, c4, g1, g2, t7, t8, t9, t10⟩, rfl, ?_, ?_, ?_⟩
    · show leavesK h T ++ leavesK h D = _
      rw [← leavesK_append, ← t1]
    · intro hn; exact List.nodup_cons.mpr ⟨hpick _, hn⟩
    · intro R hR
      rw [t1, bidsK_append] at hR
      show (pick live :: live).Perm ((bidsK h T ++ [pick live]) ++ (bidsK h D ++ [n.bid]) ++ R)
      refine (List.Perm.cons _ hR).trans ?_
      rw [List.perm_iff_count]; intro y
      simp only [List.count_append, List.count_cons, List.count_nil]; omega

/-- `insert` into a subtree: it never fails, keeps the shape, and changes exactly one leaf. -/
theorem ins_ok {c : Cfg K} (hc : c.Ok) {pick : List Nat → Nat} (hpick : ∀ L, pick L ∉ L) (x : K × V) (rid : Nat) :
    ∀ (h : Nat) (b : Tree K V h) (w : W) (live : List Nat) (lo : Option K) (hi : K), OrdE h lo hi b.els →
      GoodE c h b.els → b.els.length ≤ c.max h → GtO lo x.1 → x.1 ≤ hi → hi ≤ c.mx →
      ∃ b' spl r w' live', ins c pick x rid h b w live = some (b', spl, r, w', live') ∧
        InsOut c h lo hi b b' spl ∧ LiveOut h b b' spl live live' ∧
        AtLeaf c pick x rid w live (leaves h b) (splLeaves h spl ++ leaves h b') r w'
  | 0, l, w, live, lo, hi, ho, hg, hlen, h1, h2, h3 => by
    obtain ⟨l', spl, r, w', live', e, o1, o2, o3⟩ := leafInsert_ok hc hpick x rid w live ho hlen h1 h2
    refine ⟨l', spl, r, w', live', e, o1, o2, [], l, [], l', spl, live', rfl, e, ?_, by simp, by simp, ho.1, hlen, o3⟩
    simp [leaves]
  | h + 1, n, w, live, lo, hi, ho, hg, hlen, h1, h2, h3 => by
    obtain ⟨A, k', ch, B, mid, e1, e2, m1, m2, m3, m4, m5, m6, m7⟩ := kids_find hc ho h1 h2
    have hgch := hg (k', ch) (by rw [e1]; simp)
    have hk' : k' ≤ hi := by
      obtain ⟨b, eb, hb, _⟩ := Kids.lo_le m6 rfl
      cases eb; exact hb
    obtain ⟨ch', spl, r, w1, live1, i1, i2, i3, i4⟩ := ins_ok hc hpick x rid h ch w live mid k' m5 hgch.2.2 hgch.2.1 m2 m4
      (le_trans hk' h3)
    have hgA : GoodE (V := V) c (h + 1) A := fun e he => hg e (by rw [e1]; simp [he])
    have hgB : GoodE (V := V) c (h + 1) B := fun e he => hg e (by rw [e1]; simp [he])
    have kA : ∀ a ∈ leavesK h A, ∀ e ∈ a.els, e.1 < x.1 := by
      intro a ha e he
      obtain ⟨_, b, eb, hb⟩ := kids_leaf_keys m1 a ha e he
      exact lt_of_le_of_lt hb (m2 b eb)
    have kB : ∀ a ∈ leavesK h B, ∀ e ∈ a.els, x.1 < e.1 := by
      intro a ha e he
      exact lt_of_le_of_lt m4 ((kids_leaf_keys m6 a ha e he).1 k' rfl)
    have hget : n.els[lb c.lt x.1 n.els]? = some (k', ch) := by rw [e2, e1]; exact get_len
    have hset : n.els.set (lb c.lt x.1 n.els) (k', ch') = A ++ (k', ch') :: B := by rw [e2, e1]; exact set_len
    have lv : leaves (h + 1) n = leavesK h A ++ leaves h ch ++ leavesK h B := by
      rw [leaves_succ, e1]; simp
    have bd : dealloc (h + 1) n = bidsK h A ++ (dealloc h ch ++ bidsK h B) ++ [n.bid] := by
      rw [dealloc_succ, e1]; simp
    have at' := i4.ctx kA kB
    unfold ins
    dsimp only
    rw [hget]
    dsimp only
    rw [i1]
    dsimp only
    rw [hset]
    cases spl with
    | none =>
      obtain ⟨o1, o2, o3, o4⟩ := i2
      refine ⟨_, none, r, w1, live1, rfl, ⟨kids_replace m1 m3 o1 m6, ?_, ?_, ?_⟩, ⟨i3.1, ?_⟩, ?_⟩
      · intro e he
        rcases List.mem_append.mp he with he | he
        · exact hgA e he
        · rcases List.mem_cons.mp he with rfl | he
          · exact ⟨Nat.le_trans hgch.1 o4, o3, o2⟩
          · exact hgB e he
      · rw [e1] at hlen; simpa using hlen
      · rw [e1]; simp
      · intro R hR
        rw [bd] at hR
        have := i3.2 (bidsK h A ++ bidsK h B ++ [n.bid] ++ R) (hR.trans (by
          rw [List.perm_iff_count]; intro y
          simp only [List.count_append, List.count_cons, List.count_nil]; omega))
        refine this.trans ?_
        show (splBids h none ++ dealloc h ch' ++ _).Perm ((bidsK h (A ++ (k', ch') :: B) ++ [n.bid]) ++ R)
        simp only [splBids, bidsK_append, bidsK_cons]
        rw [List.perm_iff_count]; intro y
        simp only [List.count_append, List.count_cons, List.count_nil]; omega
      · rw [lv]
        have e3 : splLeaves (h + 1) none ++ leaves (h + 1) ({ bid := n.bid, els := A ++ (k', ch') :: B } : Tree K V (h + 1)) =
            leavesK h A ++ (splLeaves h none ++ leaves h ch') ++ leavesK h B := by
          rw [leaves_succ]; simp [splLeaves]
        rw [e3]; exact at'
    | some spl =>
      obtain ⟨sk, left⟩ := spl
      obtain ⟨o1, o2, o3, o4, o5, o6, o7, o8, o9, o10⟩ := i2
      have hmx : ¬ (eqv c.lt c.mx sk = true) := by
        rw [eqv_iff hc]; intro hh
        have := lt_of_lt_of_le o2 (le_trans hk' h3)
        rw [← hh] at this; exact lt_irrefl _ this
      dsimp only
      rw [if_neg hmx]
      have hgE : GoodE (V := V) c (h + 1) (A ++ (sk, left) :: (k', ch') :: B) := by
        intro e he
        rcases List.mem_append.mp he with he | he
        · exact hgA e he
        · rcases List.mem_cons.mp he with rfl | he
          · exact ⟨o7, o8, o5⟩
          · rcases List.mem_cons.mp he with rfl | he
            · exact ⟨o9, o10, o6⟩
            · exact hgB e he
      have hoE := kids_replace2 m1 o1 o2 o3 o4 m6
      have hl1 : (A ++ (k', ch') :: B).length ≤ c.maxN := by rw [e1] at hlen; simpa [Cfg.max] using hlen
      obtain ⟨n', spl', live2, p1, p2, p3, p4, p5, p6⟩ := nodePut_ok hc hpick
        (n := ({ bid := n.bid, els := A ++ (k', ch') :: B } : Tree K V (h + 1))) (f := (k', ch')) (e := (sk, left)) rfl (ne_of_gt o2)
        hoE hgE hl1 live1
      have p1' : nodePut c pick ({ bid := n.bid, els := A ++ (k', ch') :: B } : Tree K V (h + 1)) (lb c.lt x.1 n.els) (sk, left) live1 =
          some (n', spl', live2) := by rw [e2]; exact p1
      rw [p1']
      refine ⟨n', spl', r, w1, live2, rfl, ?_, ⟨fun hn => p5 (i3.1 hn), ?_⟩, ?_⟩
      · cases spl' with
        | none =>
          obtain ⟨q1, q2, q3, q4⟩ := p2
          refine ⟨q1, q2, q3, Nat.le_trans ?_ q4⟩
          rw [e1]; simp
        | some s => exact p2
      · intro R hR
        rw [bd] at hR
        have := i3.2 (bidsK h A ++ bidsK h B ++ [n.bid] ++ R) (hR.trans (by
          rw [List.perm_iff_count]; intro y
          simp only [List.count_append, List.count_cons, List.count_nil]; omega))
        refine p6 R (this.trans ?_)
        simp only [splBids, bidsK_append, bidsK_cons]
        rw [List.perm_iff_count]; intro y
        simp only [List.count_append, List.count_cons, List.count_nil]; omega
      · rw [lv, p4]
        have e3 : leavesK h (A ++ (sk, left) :: (k', ch') :: B) =
            leavesK h A ++ (splLeaves h (some (sk, left)) ++ leaves h ch') ++ leavesK h B := by
          simp [splLeaves]
        rw [e3]; exact at'

end BTree
