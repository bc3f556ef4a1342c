/-
`erase`: the recursion over the tree.
-/
import Verif.BTree.Root

namespace BTree
variable {K V : Type} [LinearOrder K]

/-- Reorganisations of neighbouring leaves that keep the contents: fuse or balance. -/
inductive Mv : List (Blk K V) → W → List (Blk K V) → W → Prop
  | refl (L : List (Blk K V)) (w : W) : Mv L w L w
  | fuse (A C : List (Blk K V)) (l r : Blk K V) (w : W) :
      Mv (A ++ l :: r :: C) w (A ++ { r with els := l.els ++ r.els } :: C) (leafFuseW l r w)
  | bal (A C : List (Blk K V)) (l r : Blk K V) (w : W) (nl : Nat) (hle : nl ≤ l.els.length + r.els.length)
      (hpos : l.els.length ≤ nl → 0 < r.els.length - (l.els.length + r.els.length - nl)) :
      Mv (A ++ l :: r :: C) w
        (A ++ { l with els := (l.els ++ r.els).take nl } :: { r with els := (l.els ++ r.els).drop nl } :: C) (leafBalW l r nl w)
  | trans {L1 L2 L3 : List (Blk K V)} {w1 w2 w3 : W} : Mv L1 w1 L2 w2 → Mv L2 w2 L3 w3 → Mv L1 w1 L3 w3

theorem Mv.ctx {L L' : List (Blk K V)} {w w' : W} (h : Mv L w L' w') (P Q : List (Blk K V)) :
    Mv (P ++ L ++ Q) w (P ++ L' ++ Q) w' := by
  induction h with
  | refl => exact Mv.refl _ _
  | fuse A C l r w =>
    have := Mv.fuse (P ++ A) (C ++ Q) l r w
    simpa using this
  | bal A C l r w nl hle hpos =>
    have := Mv.bal (P ++ A) (C ++ Q) l r w nl hle hpos
    simpa using this
  | trans _ _ ih1 ih2 => exact ih1.trans ih2

theorem mv_inv {L L' : List (Blk K V)} {w w' : W} (h : Mv L w L' w') (hI : LInv L w) :
    LInv L' w' ∧ Keeps (fun _ => True) none L L' w w' ∧ ents L' = ents L := by
  induction h with
  | refl => exact ⟨hI, ⟨fun _ _ _ _ h => h, fun _ _ h => h⟩, rfl⟩
  | trans _ _ ih1 ih2 =>
    obtain ⟨a1, a2, a3⟩ := ih1 hI
    obtain ⟨b1, b2, b3⟩ := ih2 a1
    exact ⟨b1, a2.trans b2, b3.trans a3⟩
  | fuse A C l r w =>
    have nd' : ((A ++ ({ r with els := l.els ++ r.els } : Blk K V) :: C).map Blk.bid).Nodup := by
      have := hI.nd
      simp only [List.map_append, List.map_cons] at this ⊢
      exact this.sublist (List.Sublist.append_left (List.sublist_cons_self _ _) _)
    have lr : l.bid ≠ r.bid := by
      have nd2 : (((A ++ [l]) ++ r :: C).map Blk.bid).Nodup := by simpa using hI.nd
      exact (nd_parts nd2).1 l (by simp)
    obtain ⟨c1, c2⟩ := carry_fuse hI.nd
    refine ⟨⟨nd', ?_, fin_of (leafFuseW_its l r w lr 0) c2 hI.fin⟩, keeps_of (by simp) (fun id _ => leafFuseW_its l r w lr id) c1, ?_⟩
    · unfold leafFuseW
      refine links_fuse (l := l) (r := r) rfl hI.nd ?_
      exact Links.congr (w := w) (fun _ _ => ⟨rfl, rfl⟩) hI.links
    · simp
  | bal A C l r w nl hle hpos =>
    obtain ⟨c1, c2⟩ := carry_bal hI.nd hle hpos
    refine ⟨⟨by simpa using hI.nd, ?_, fin_of (leafBalW_its l r nl w 0) c2 hI.fin⟩,
      keeps_of (by simp) (fun id _ => leafBalW_its l r nl w id) c1, ?_⟩
    · obtain ⟨b1, b2⟩ := leafBalW_links l r nl w
      refine Links.map (A := A ++ l :: r :: C) (by simp) (Links.congr (w := w) ?_ hI.links)
      intro x _; rw [b1, b2]; exact ⟨rfl, rfl⟩
    · simp only [ents_append, ents_cons]
      rw [← List.append_assoc (List.take _ _), List.take_append_drop]; simp

/-- The outcome of fuse/balance of two neighbours with keys in `(lo, hi]`. -/
def FobOut (c : Cfg K) (h : Nat) (lo : Option K) (hi : K) (right' : Tree K V h) : Option (K × Tree K V h) → Prop
  | none => OrdE h lo hi right'.els ∧ GoodE c h right'.els ∧ c.min h ≤ right'.els.length ∧ right'.els.length ≤ c.max h
  | some (nk, left') => GtO lo nk ∧ nk < hi ∧ OrdE h lo nk left'.els ∧ OrdE h (some nk) hi right'.els ∧
      GoodE c h left'.els ∧ GoodE c h right'.els ∧ c.min h ≤ left'.els.length ∧ left'.els.length ≤ c.max h ∧
      c.min h ≤ right'.els.length ∧ right'.els.length ≤ c.max h

theorem perm_erase {live X : List Nat} {b : Nat} (h : live.Perm (b :: X)) : (live.erase b).Perm X := by
  have := h.erase b
  rwa [List.erase_cons_head] at this

theorem dealloc_perm : ∀ (h : Nat) (l r : Tree K V h) (R : List Nat), (dealloc h l ++ dealloc h r ++ R).Perm
    (l.bid :: (dealloc h ({ r with els := l.els ++ r.els } : Tree K V h) ++ R))
  | 0, l, r, R => List.Perm.refl _
  | h + 1, l, r, R => by
    show ((bidsK h l.els ++ [l.bid]) ++ (bidsK h r.els ++ [r.bid]) ++ R).Perm
      (l.bid :: ((bidsK h (l.els ++ r.els) ++ [r.bid]) ++ R))
    rw [bidsK_append, List.perm_iff_count]; intro y
    simp only [List.count_append, List.count_cons, List.count_nil]; omega

theorem dealloc_recut : ∀ (h : Nat) (l r : Tree K V h) (T D : List (K × Cont K V h)) (R : List Nat), l.els ++ r.els = T ++ D →
    (dealloc h l ++ dealloc h r ++ R).Perm
      (dealloc h ({ l with els := T } : Tree K V h) ++ dealloc h ({ r with els := D } : Tree K V h) ++ R)
  | 0, l, r, T, D, R, _ => List.Perm.refl _
  | h + 1, l, r, T, D, R, e => by
    show ((bidsK h l.els ++ [l.bid]) ++ (bidsK h r.els ++ [r.bid]) ++ R).Perm
      ((bidsK h T ++ [l.bid]) ++ (bidsK h D ++ [r.bid]) ++ R)
    have e' : bidsK h l.els ++ bidsK h r.els = bidsK h T ++ bidsK h D := by
      rw [← bidsK_append, ← bidsK_append]; exact congrArg _ e
    rw [List.perm_iff_count]; intro y
    have := congrArg (List.count y) e'
    simp only [List.count_append, List.count_cons, List.count_nil] at this ⊢; omega

/-- The world after fuse: leaf fields for leaves, nothing for nodes. -/
def fuseW : (h : Nat) → Tree K V h → Tree K V h → W → W
  | 0, l, r, w => leafFuseW l r w
  | _ + 1, _, _, w => w
def balW : (h : Nat) → Tree K V h → Tree K V h → Nat → W → W
  | 0, l, r, nl, w => leafBalW l r nl w
  | _ + 1, _, _, _, w => w

theorem fuse_mv : ∀ (h : Nat) (l r : Tree K V h) (w : W),
    Mv (leaves h l ++ leaves h r) w (leaves h ({ r with els := l.els ++ r.els } : Tree K V h)) (fuseW h l r w)
  | 0, l, r, w => Mv.fuse [] [] l r w
  | h + 1, l, r, w => by
    have : leaves (h + 1) l ++ leaves (h + 1) r = leaves (h + 1) ({ r with els := l.els ++ r.els } : Tree K V (h + 1)) := by
      rw [leaves_succ, leaves_succ, leaves_succ]; exact (leavesK_append h l.els r.els).symm
    rw [this]; exact Mv.refl _ _

theorem bal_mv : ∀ (h : Nat) (l r : Tree K V h) (w : W) (nl : Nat), nl ≤ l.els.length + r.els.length →
    (l.els.length ≤ nl → 0 < r.els.length - (l.els.length + r.els.length - nl)) →
    Mv (leaves h l ++ leaves h r) w
      (leaves h ({ l with els := (l.els ++ r.els).take nl } : Tree K V h) ++
        leaves h ({ r with els := (l.els ++ r.els).drop nl } : Tree K V h)) (balW h l r nl w)
  | 0, l, r, w, nl, h1, h2 => Mv.bal [] [] l r w nl h1 h2
  | h + 1, l, r, w, nl, _, _ => by
    have : leaves (h + 1) l ++ leaves (h + 1) r = leaves (h + 1) ({ l with els := (l.els ++ r.els).take nl } : Tree K V (h + 1)) ++
        leaves (h + 1) ({ r with els := (l.els ++ r.els).drop nl } : Tree K V (h + 1)) := by
      rw [leaves_succ, leaves_succ, leaves_succ, leaves_succ, ← leavesK_append, ← leavesK_append, List.take_append_drop]
    rw [this]; exact Mv.refl _ _

/-- `fuse_or_balance` on two neighbours of which one has just underflowed. -/
theorem fob_ok {c : Cfg K} (hc : c.Ok) {h : Nat} {left right : Tree K V h} (w : W) (live : List Nat) {lo : Option K} {kl kr : K}
    (hl : OrdE h lo kl left.els) (hr : OrdE h (some kl) kr right.els) (g : GtO lo kl) (hk : kl < kr)
    (gl : GoodE c h left.els) (gr : GoodE c h right.els) (l1 : left.els.length ≤ c.max h) (r1 : right.els.length ≤ c.max h)
    (lne : left.els ≠ []) (rne : right.els ≠ [])
    (hu : (left.els.length < c.min h ∧ c.min h ≤ right.els.length) ∨ (right.els.length < c.min h ∧ c.min h ≤ left.els.length)) :
    ∃ lft right' w' live', fob c h left right w live = some (lft, right', w', live') ∧ FobOut c h lo kr right' lft ∧
      Mv (leaves h left ++ leaves h right) w (splLeaves h lft ++ leaves h right') w' ∧ (live.Nodup → live'.Nodup) ∧
      ∀ R, live.Perm (dealloc h left ++ dealloc h right ++ R) → live'.Perm (splBids h lft ++ dealloc h right' ++ R) := by
  have hmax := hc.max h
  have hmin : c.min h = c.max h / 2 := rfl
  obtain ⟨a, ha⟩ : ∃ a, left.els.getLast? = some a := by
    cases hh : left.els.getLast? with
    | none => exact absurd (List.getLast?_eq_none_iff.mp hh) lne
    | some a => exact ⟨a, rfl⟩
  obtain ⟨b, hb⟩ : ∃ b, right.els.head? = some b := by
    cases hh : right.els.head? with
    | none => exact absurd (List.head?_eq_none_iff.mp hh) rne
    | some b => exact ⟨b, rfl⟩
  have hab : a.1 < b.1 := lt_of_le_of_lt (ord_last hl (List.mem_of_getLast? ha)).2
    ((ord_last hr (List.mem_of_head? hb)).1 kl rfl)
  have hcat := ord_concat g (le_of_lt hk) hl hr
  have hgood : GoodE c h (left.els ++ right.els) := good_append.mpr ⟨gl, gr⟩
  have key : ∀ lft right' w' live',
      (if left.els.length + right.els.length ≤ c.max h then
          some ((none : Option (K × Tree K V h)), ({ right with els := left.els ++ right.els } : Tree K V h), fuseW h left right w, live.erase left.bid)
        else
          let nl := (left.els.length + right.els.length) / 2
          let nr := left.els.length + right.els.length - nl
          if c.min h ≤ nl ∧ nl ≤ c.max h ∧ c.min h ≤ nr ∧ nr ≤ c.max h then
            if nl < left.els.length then
              match (left.els.take nl).getLast? with
              | none => none
              | some e => some (some (e.1, { left with els := left.els.take nl }),
                  { right with els := left.els.drop nl ++ right.els }, balW h left right nl w, live)
            else if nr < right.els.length then
              let m := right.els.length - nr
              let lels := left.els ++ right.els.take m
              match lels.getLast? with
              | none => none
              | some e => some (some (e.1, { left with els := lels }), { right with els := right.els.drop m }, balW h left right nl w, live)
            else none
          else none) = some (lft, right', w', live') → fob c h left right w live = some (lft, right', w', live') := by
    intro lft right' w' live' hh
    rw [← hh]
    unfold fob
    dsimp only
    rw [ha, hb]
    dsimp only
    rw [if_pos (by rw [hc.lt]; exact decide_eq_true hab)]
    cases h <;> rfl
  by_cases ht : left.els.length + right.els.length ≤ c.max h
  · refine ⟨none, _, _, _, key _ _ _ _ (if_pos ht), ⟨hcat, hgood, ?_, ?_⟩, ?_, ?_, ?_⟩
    · rw [List.length_append]; omega
    · rw [List.length_append]; exact ht
    · have := fuse_mv h left right w
      simpa [splLeaves] using this
    · intro hn; exact hn.erase _
    · intro R hR
      have := perm_erase (hR.trans (dealloc_perm h left right R))
      simpa [splBids] using this
  · rw [if_neg ht] at key
    have hnl : c.min h ≤ (left.els.length + right.els.length) / 2 ∧ (left.els.length + right.els.length) / 2 ≤ c.max h ∧
        c.min h ≤ left.els.length + right.els.length - (left.els.length + right.els.length) / 2 ∧
        left.els.length + right.els.length - (left.els.length + right.els.length) / 2 ≤ c.max h := by omega
    dsimp only at key
    rw [if_pos hnl] at key
    generalize hn : (left.els.length + right.els.length) / 2 = nl at *
    have hle : nl ≤ left.els.length + right.els.length := by omega
    have hpos : left.els.length ≤ nl → 0 < right.els.length - (left.els.length + right.els.length - nl) := by omega
    have hlenT : ((left.els ++ right.els).take nl).length = nl := by rw [List.length_take, List.length_append]; omega
    have hlenD : ((left.els ++ right.els).drop nl).length = left.els.length + right.els.length - nl := by
      rw [List.length_drop, List.length_append]
    obtain ⟨e, he⟩ : ∃ e, ((left.els ++ right.els).take nl).getLast? = some e := by
      cases hh : ((left.els ++ right.els).take nl).getLast? with
      | none =>
        rw [List.getLast?_eq_none_iff] at hh
        rw [hh] at hlenT; simp at hlenT; omega
      | some e => exact ⟨e, rfl⟩
    have hDne : (left.els ++ right.els).drop nl ≠ [] := by
      intro hh; rw [hh] at hlenD; simp at hlenD; omega
    have hcut := List.take_append_drop nl (left.els ++ right.els)
    obtain ⟨c1, c2, c3, c4⟩ := ord_cut (by rw [hcut]; exact hcat) he hDne
    obtain ⟨g1, g2⟩ := good_append.mp (show GoodE c h ((left.els ++ right.els).take nl ++ (left.els ++ right.els).drop nl) by
      rw [hcut]; exact hgood)
    have fin : fob c h left right w live = some (some (e.1, { left with els := (left.els ++ right.els).take nl }),
        { right with els := (left.els ++ right.els).drop nl }, balW h left right nl w, live) := by
      apply key
      by_cases hlt : nl < left.els.length
      · rw [if_pos hlt]
        have e1 : (left.els ++ right.els).take nl = left.els.take nl := by
          rw [List.take_append_of_le_length (by omega)]
        have e2 : (left.els ++ right.els).drop nl = left.els.drop nl ++ right.els := by
          rw [List.drop_append_of_le_length (by omega)]
        rw [e1] at he
        rw [he, e1, e2]
      · have e3 : right.els.length - (left.els.length + right.els.length - nl) = nl - left.els.length := by omega
        rw [if_neg hlt, if_pos (by omega), e3]
        have e1 : (left.els ++ right.els).take nl = left.els ++ right.els.take (nl - left.els.length) := by
          rw [List.take_append, List.take_of_length_le (by omega)]
        have e2 : (left.els ++ right.els).drop nl = right.els.drop (nl - left.els.length) := by
          rw [List.drop_append, List.drop_eq_nil_of_le (by omega)]; rfl
        rw [e1] at he
        rw [he, e1, e2]
    refine ⟨_, _, _, _, fin, ⟨c1, c2, c3, c4, g1, g2, ?_, ?_, ?_, ?_⟩, ?_, fun hn => hn, ?_⟩
    · rw [hlenT]; exact hnl.1
    · rw [hlenT]; exact hnl.2.1
    · rw [hlenD]; exact hnl.2.2.1
    · rw [hlenD]; exact hnl.2.2.2
    · exact bal_mv h left right w nl hle hpos
    · intro R hR
      exact hR.trans (dealloc_recut h left right _ _ R hcut.symm)

/-- Fuse/balance within a list of entries. -/
theorem pair_ok {c : Cfg K} (hc : c.Ok) {h : Nat} {P Q : List (K × Tree K V h)} {kl kr : K} {left right : Tree K V h} (w : W)
    (live : List Nat) {lo : Option K} {hi : K} (ho : OrdE (V := V) (h + 1) lo hi (P ++ (kl, left) :: (kr, right) :: Q))
    (gl : GoodE c h left.els) (gr : GoodE c h right.els) (l1 : left.els.length ≤ c.max h) (r1 : right.els.length ≤ c.max h)
    (lne : left.els ≠ []) (rne : right.els ≠ [])
    (hu : (left.els.length < c.min h ∧ c.min h ≤ right.els.length) ∨ (right.els.length < c.min h ∧ c.min h ≤ left.els.length)) :
    ∃ lft right' w' live', fob c h left right w live = some (lft, right', w', live') ∧
      OrdE (V := V) (h + 1) lo hi (P ++ lft.toList ++ (kr, right') :: Q) ∧
      (∀ e, e ∈ lft.toList ++ [(kr, right')] → c.min h ≤ (Blk.els (Prod.snd e)).length ∧
        (Blk.els (Prod.snd e)).length ≤ c.max h ∧ GoodE c h (Blk.els (Prod.snd e))) ∧
      Mv (leavesK h (P ++ (kl, left) :: (kr, right) :: Q)) w (leavesK h (P ++ lft.toList ++ (kr, right') :: Q)) w' ∧
      (live.Nodup → live'.Nodup) ∧
      (∀ R, live.Perm (bidsK h (P ++ (kl, left) :: (kr, right) :: Q) ++ R) →
        live'.Perm (bidsK h (P ++ lft.toList ++ (kr, right') :: Q) ++ R)) := by
  obtain ⟨mid, m1, m2, m3, m4, m5, m6⟩ := Kids.append.mp ho
  obtain ⟨lft, right', w', live', f1, f2, f3, f4, f5⟩ := fob_ok hc w live m3 m5 m2 (m4 kl rfl) gl gr l1 r1 lne rne hu
  refine ⟨lft, right', w', live', f1, ?_, ?_, ?_, f4, ?_⟩
  · cases lft with
    | none =>
      simp only [Option.toList_none, List.append_nil]
      exact kids_replace m1 (GtO.mono m2 (le_of_lt (m4 kl rfl))) f2.1 m6
    | some e =>
      obtain ⟨nk, left'⟩ := e
      simp only [Option.toList_some, List.append_assoc, List.singleton_append]
      obtain ⟨q1, q2, q3, q4, _⟩ := f2
      exact kids_replace2 m1 q1 q2 q3 q4 m6
  · intro e he
    cases lft with
    | none =>
      simp only [Option.toList_none, List.nil_append, List.mem_singleton] at he
      subst he
      obtain ⟨_, q2, q3, q4⟩ := f2
      exact ⟨q3, q4, q2⟩
    | some e' =>
      obtain ⟨nk, left'⟩ := e'
      obtain ⟨_, _, _, _, q5, q6, q7, q8, q9, q10⟩ := f2
      simp only [Option.toList_some, List.singleton_append, List.mem_cons, List.not_mem_nil, or_false] at he
      rcases he with rfl | rfl
      · exact ⟨q7, q8, q5⟩
      · exact ⟨q9, q10, q6⟩
  · have := f3.ctx (leavesK h P) (leavesK h Q)
    have e1 : leavesK h P ++ (leaves h left ++ leaves h right) ++ leavesK h Q = leavesK h (P ++ (kl, left) :: (kr, right) :: Q) := by
      simp
    have e2 : leavesK h P ++ (splLeaves h lft ++ leaves h right') ++ leavesK h Q = leavesK h (P ++ lft.toList ++ (kr, right') :: Q) := by
      cases lft <;> simp [splLeaves]
    rw [e1, e2] at this; exact this
  · intro R hR
    have := f5 (bidsK h P ++ bidsK h Q ++ R) (hR.trans (by
      simp only [bidsK_append, bidsK_cons]
      rw [List.perm_iff_count]; intro y
      simp only [List.count_append]; omega))
    refine this.trans ?_
    cases lft with
    | none =>
      simp only [splBids, Option.toList_none, List.append_nil, bidsK_append, bidsK_cons]
      rw [List.perm_iff_count]; intro y
      simp only [List.count_append, List.count_nil]; omega
    | some e =>
      simp only [splBids, Option.toList_some, bidsK_append, bidsK_cons, bidsK_nil]
      rw [List.perm_iff_count]; intro y
      simp only [List.count_append, List.count_nil]; omega

theorem nodeFob_eq {c : Cfg K} {h : Nat} {P Q : List (K × Tree K V h)} {kl kr : K} {left right : Tree K V h} {w w' : W}
    {live live' : List Nat} {i : Nat} {lft : Option (K × Tree K V h)} {right' : Tree K V h}
    (hi : (i = P.length ∧ True) ∨ (i = P.length + 1 ∧ Q = []))
    (hf : fob c h left right w live = some (lft, right', w', live')) :
    nodeFob c h (P ++ (kl, left) :: (kr, right) :: Q) i w live = some (P ++ lft.toList ++ (kr, right') :: Q, w', live') := by
  have hj : (if i = (P ++ (kl, left) :: (kr, right) :: Q).length - 1 then i - 1 else i) = P.length := by
    simp only [List.length_append, List.length_cons]
    rcases hi with ⟨rfl, _⟩ | ⟨rfl, rfl⟩
    · rw [if_neg (by omega)]
    · simp
  have hne : ¬ (i = (P ++ (kl, left) :: (kr, right) :: Q).length - 1 ∧ i = 0) := by
    simp only [List.length_append, List.length_cons]; omega
  have g1 : (P ++ (kl, left) :: (kr, right) :: Q)[P.length + 1]? = some (kr, right) := by
    rw [List.getElem?_append_right (by omega), show P.length + 1 - P.length = 1 by omega]; rfl
  have g2 : (P ++ (kl, left) :: (kr, right) :: Q).drop (P.length + 2) = Q := by
    rw [List.drop_append, List.drop_eq_nil_of_le (by omega), show P.length + 2 - P.length = 2 by omega]; rfl
  unfold nodeFob
  rw [if_neg hne]
  dsimp only
  rw [hj, get_len, g1]
  dsimp only
  rw [hf, take_len, g2]
  cases lft with
  | none => simp
  | some e => simp

/-- The cases of `normal_leaf::erase`. -/
theorem leafErase_cases {c : Cfg K} (hc : c.Ok) {l : Blk K V} (k : K) (w : W) (hs : l.els.Pairwise (fun a b => a.1 < b.1)) :
    ((∀ e ∈ l.els, e.1 ≠ k) ∧ leafErase c l k w = (l, 0, w)) ∨
    (∃ P v Q, l.els = P ++ (k, v) :: Q ∧
      leafErase c l k w = ({ l with els := P ++ Q }, 1, w.fix l.bid (P.length + 1) l.els.length (fun p => (l.bid, p - 1)))) := by
  obtain ⟨A, B, hAB, hA, hB, hl⟩ := lb_split hc k hs
  have hget : l.els[lb c.lt k l.els]? = B.head? := by
    rw [hl, hAB, List.getElem?_append_right (Nat.le_refl _), Nat.sub_self, List.head?_eq_getElem?]
  unfold leafErase
  dsimp only
  rw [hget]
  cases B with
  | nil =>
    left
    refine ⟨?_, rfl⟩
    intro e he; rw [hAB, List.append_nil] at he; exact ne_of_lt (hA e he)
  | cons b B =>
    simp only [List.head?_cons]
    by_cases hb : b.1 = k
    · right
      refine ⟨A, b.2, B, by rw [hAB, ← hb], ?_⟩
      have e1 : l.els.take (lb c.lt k l.els) ++ l.els.drop (lb c.lt k l.els + 1) = A ++ B := by
        rw [hl, hAB, take_len]
        congr 1
        rw [List.drop_append, List.drop_eq_nil_of_le (by omega), show A.length + 1 - A.length = 1 by omega]; rfl
      rw [if_neg (not_not.mpr hb), e1, hl]
    · left
      rw [if_pos hb]
      refine ⟨?_, rfl⟩
      intro e he
      rw [hAB] at he
      rcases List.mem_append.mp he with he | he
      · exact ne_of_lt (hA e he)
      · have hbk : k < b.1 := lt_of_le_of_ne (hB b (by simp)) (Ne.symm hb)
        rcases List.mem_cons.mp he with rfl | he
        · exact hb
        · rw [hAB] at hs
          have := (List.pairwise_cons.mp (List.pairwise_append.mp hs).2.1).1 e he
          exact ne_of_gt (lt_trans hbk this)

/-- Where the erasure happened among the leaves. -/
def AtErase (c : Cfg K) (k : K) (w : W) (Ls Ls' : List (Blk K V)) (r : Nat) (w' : W) : Prop :=
  ∃ A l C l' w1, Ls = A ++ l :: C ∧ leafErase c l k w = (l', r, w1) ∧ Mv (A ++ l' :: C) w1 Ls' w' ∧
    (∀ a ∈ A, ∀ e ∈ a.els, e.1 < k) ∧ (∀ a ∈ C, ∀ e ∈ a.els, k < e.1) ∧ l.els.Pairwise (fun a b => a.1 < b.1)

theorem AtErase.ctx {c : Cfg K} {k : K} {w : W} {Ls Ls' : List (Blk K V)} {r : Nat} {w' : W}
    (h : AtErase c k w Ls Ls' r w') {P Q : List (Blk K V)}
    (hP : ∀ a ∈ P, ∀ e ∈ a.els, e.1 < k) (hQ : ∀ a ∈ Q, ∀ e ∈ a.els, k < e.1) :
    AtErase c k w (P ++ Ls ++ Q) (P ++ Ls' ++ Q) r w' := by
  obtain ⟨A, l, C, l', w1, h1, h2, h3, h4, h5, h6⟩ := h
  refine ⟨P ++ A, l, C ++ Q, l', w1, by rw [h1]; simp, h2, by simpa using h3.ctx P Q, ?_, ?_, h6⟩
  · intro a ha
    rcases List.mem_append.mp ha with ha | ha
    · exact hP a ha
    · exact h4 a ha
  · intro a ha
    rcases List.mem_append.mp ha with ha | ha
    · exact h5 a ha
    · exact hQ a ha

theorem AtErase.mv {c : Cfg K} {k : K} {w : W} {Ls Ls' Ls2 : List (Blk K V)} {r : Nat} {w' w2 : W}
    (h : AtErase c k w Ls Ls' r w') (hm : Mv Ls' w' Ls2 w2) : AtErase c k w Ls Ls2 r w2 := by
  obtain ⟨A, l, C, l', w1, h1, h2, h3, h4, h5, h6⟩ := h
  exact ⟨A, l, C, l', w1, h1, h2, h3.trans hm, h4, h5, h6⟩

/-- Accounting of blocks. -/
def LiveErs (h : Nat) (b b' : Tree K V h) (live live' : List Nat) : Prop :=
  (live.Nodup → live'.Nodup) ∧ ∀ R, live.Perm (dealloc h b ++ R) → live'.Perm (dealloc h b' ++ R)

theorem leaf_ers_ord {lo : Option K} {hi : K} {A B : List (K × V)} {x : K × V} (h : OrdE (V := V) 0 lo hi (A ++ x :: B)) :
    OrdE (V := V) 0 lo hi (A ++ B) := by
  obtain ⟨s, k⟩ := h
  refine ⟨s.sublist (List.Sublist.append_left (List.sublist_cons_self _ _) _), ?_⟩
  intro e he
  exact k e (by simp only [List.mem_append, List.mem_cons] at he ⊢; tauto)

/-- the repair step of an erase, on the entry list of a node -/
theorem pair_step {c : Cfg K} (hc : c.Ok) {k : K} {h : Nat} {n : Tree K V (h + 1)} {w w1 : W} {live live1 : List Nat}
    {lo : Option K} {hi : K} {r i : Nat} {P Q : List (K × Tree K V h)} {kl kr : K} {left right : Tree K V h}
    (ho1 : OrdE (V := V) (h + 1) lo hi (P ++ (kl, left) :: (kr, right) :: Q))
    (hlenE : (P ++ (kl, left) :: (kr, right) :: Q).length = n.els.length)
    (hnd : live.Nodup → live1.Nodup)
    (hlv : ∀ R, live.Perm (dealloc (h + 1) n ++ R) →
      live1.Perm (bidsK h (P ++ (kl, left) :: (kr, right) :: Q) ++ (n.bid :: R)))
    (at' : AtErase c k w (leaves (h + 1) n) (leavesK h (P ++ (kl, left) :: (kr, right) :: Q)) r w1)
    (hi' : (i = P.length ∧ True) ∨ (i = P.length + 1 ∧ Q = []))
    (gl : GoodE c h left.els) (gr : GoodE c h right.els) (l1 : left.els.length ≤ c.max h)
    (r1 : right.els.length ≤ c.max h) (lne : left.els ≠ []) (rne : right.els ≠ [])
    (hu : (left.els.length < c.min h ∧ c.min h ≤ right.els.length) ∨
      (right.els.length < c.min h ∧ c.min h ≤ left.els.length))
    (hPQ : ∀ e, e ∈ P ∨ e ∈ Q → c.min h ≤ e.2.els.length ∧ e.2.els.length ≤ c.max h ∧ GoodE c h e.2.els) :
    ∃ b' r' w' live', (match nodeFob c h (P ++ (kl, left) :: (kr, right) :: Q) i w1 live1 with
      | none => none
      | some (els2, w2, live2) => some (({ bid := n.bid, els := els2 } : Tree K V (h + 1)), r, w2, live2)) =
        some (b', r', w', live') ∧
      OrdE (h + 1) lo hi b'.els ∧ GoodE c (h + 1) b'.els ∧ b'.els.length ≤ n.els.length ∧
      n.els.length ≤ b'.els.length + 1 ∧
      LiveErs (h + 1) n b' live live' ∧ AtErase c k w (leaves (h + 1) n) (leaves (h + 1) b') r' w' := by
  obtain ⟨lft, right', w', live', f1, f2, f3, f4, f5, f6⟩ := pair_ok hc w1 live1 ho1 gl gr l1 r1 lne rne hu
  rw [nodeFob_eq hi' f1]
  refine ⟨{ bid := n.bid, els := P ++ lft.toList ++ (kr, right') :: Q }, r, w', live', rfl, f2, ?_, ?_, ?_,
    ⟨fun hn => f5 (hnd hn), ?_⟩, ?_⟩
  · intro e he
    have hcase : (e ∈ P ∨ e ∈ Q) ∨ e ∈ lft.toList ++ [(kr, right')] := by
      simp only [List.mem_append, List.mem_cons, List.not_mem_nil, or_false] at he ⊢; tauto
    rcases hcase with hh | hh
    · exact hPQ e hh
    · exact f3 e hh
  · rw [← hlenE]; cases lft <;> simp
  · rw [← hlenE]; cases lft <;> (simp only [Option.toList, List.length_append, List.length_cons, List.length_nil]; omega)
  · intro R hR
    refine (f6 _ (hlv R hR)).trans ?_
    rw [dealloc_succ]
    rw [List.perm_iff_count]; intro y
    simp only [List.count_append, List.count_cons, List.count_nil]; omega
  · exact at'.mv f4

theorem ers_ok {c : Cfg K} (hc : c.Ok) (k : K) :
    ∀ (h : Nat) (b : Tree K V h) (w : W) (live : List Nat) (lo : Option K) (hi : K), OrdE h lo hi b.els →
      GoodE c h b.els → (h ≠ 0 → 2 ≤ b.els.length) → GtO lo k → k ≤ hi →
      ∃ b' r w' live', ers c k h b w live = some (b', r, w', live') ∧ OrdE h lo hi b'.els ∧ GoodE c h b'.els ∧
        b'.els.length ≤ b.els.length ∧ b.els.length ≤ b'.els.length + 1 ∧ LiveErs h b b' live live' ∧
        AtErase c k w (leaves h b) (leaves h b') r w'
  | 0, l, w, live, lo, hi, ho, _, _, h1, h2 => by
    rcases leafErase_cases hc k w ho.1 with ⟨hn, e⟩ | ⟨P, v, Q, hPQ, e⟩
    · refine ⟨l, 0, w, live, ?_, ho, trivial, Nat.le_refl _, Nat.le_succ _, ⟨fun h => h, fun R h => h⟩,
        [], l, [], l, w, rfl, e, Mv.refl _ _, by simp, by simp, ho.1⟩
      unfold ers; rw [e]
    · refine ⟨{ l with els := P ++ Q }, 1, _, live, ?_, ?_, trivial, ?_, ?_, ⟨fun h => h, fun R h => h⟩,
        [], l, [], _, _, rfl, e, Mv.refl _ _, by simp, by simp, ho.1⟩
      · unfold ers; rw [e]
      · exact leaf_ers_ord (x := (k, v)) (by rw [← hPQ]; exact ho)
      · rw [hPQ]; simp
      · rw [hPQ]; simp; omega
  | h + 1, n, w, live, lo, hi, ho, hg, hn2, h1, h2 => by
    obtain ⟨A, k', ch, B, mid, e1, e2, m1, m2, m3, m4, m5, m6, m7⟩ := kids_find hc ho h1 h2
    have hgch := hg (k', ch) (by rw [e1]; simp)
    have hmx := hc.max h
    have hmn : c.min h = c.max h / 2 := rfl
    have hch2 : 2 ≤ ch.els.length := by have := hgch.1; dsimp only at this; omega
    obtain ⟨ch', r, w1, live1, i1, i2, i3, i4, i5, i6, i7⟩ := ers_ok hc k h ch w live mid k' m5 hgch.2.2 (fun _ => hch2) m2 m4
    have hn2' := hn2 (by omega)
    have hgA : ∀ e ∈ A, _ := fun e he => hg e (by rw [e1]; simp [he])
    have hgB : ∀ e ∈ B, _ := fun e he => hg e (by rw [e1]; simp [he])
    have kA : ∀ a ∈ leavesK h A, ∀ e ∈ a.els, e.1 < k := by
      intro a ha e he
      obtain ⟨_, b, eb, hb⟩ := kids_leaf_keys m1 a ha e he
      exact lt_of_le_of_lt hb (m2 b eb)
    have kB : ∀ a ∈ leavesK h B, ∀ e ∈ a.els, k < e.1 := by
      intro a ha e he
      exact lt_of_le_of_lt m4 ((kids_leaf_keys m6 a ha e he).1 k' rfl)
    have hget : n.els[lb c.lt k n.els]? = some (k', ch) := by rw [e2, e1]; exact get_len
    have hset : n.els.set (lb c.lt k n.els) (k', ch') = A ++ (k', ch') :: B := by rw [e2, e1]; exact set_len
    have lv : leaves (h + 1) n = leavesK h A ++ leaves h ch ++ leavesK h B := by rw [leaves_succ, e1]; simp
    have lv' : leavesK h A ++ leaves h ch' ++ leavesK h B = leavesK h (A ++ (k', ch') :: B) := by simp
    have at' := i7.ctx kA kB
    rw [← lv, lv'] at at'
    have ho1 : OrdE (V := V) (h + 1) lo hi (A ++ (k', ch') :: B) := kids_replace m1 m3 i2 m6
    have hlenE : (A ++ (k', ch') :: B).length = n.els.length := by rw [e1]; simp
    have hlv : ∀ R, live.Perm (dealloc (h + 1) n ++ R) → live1.Perm (bidsK h (A ++ (k', ch') :: B) ++ (n.bid :: R)) := by
      intro R hR
      have := i6.2 (bidsK h A ++ bidsK h B ++ (n.bid :: R)) (hR.trans (by
        rw [dealloc_succ, e1, bidsK_append, bidsK_cons, List.perm_iff_count]; intro y
        simp only [List.count_append, List.count_cons, List.count_nil]; omega))
      refine this.trans ?_
      rw [bidsK_append, bidsK_cons, List.perm_iff_count]; intro y
      simp only [List.count_append, List.count_cons]; omega
    unfold ers
    dsimp only
    rw [hget]
    dsimp only
    rw [if_neg (by omega), i1]
    dsimp only
    rw [hset]
    by_cases hun : c.min h ≤ ch'.els.length
    · rw [if_pos hun]
      refine ⟨_, r, w1, live1, rfl, ho1, ?_, by dsimp only; omega, by dsimp only; omega, ⟨i6.1, ?_⟩, at'⟩
      · intro e he
        rcases List.mem_append.mp he with he | he
        · exact hgA e he
        · rcases List.mem_cons.mp he with rfl | he
          · exact ⟨hun, Nat.le_trans i4 hgch.2.1, i3⟩
          · exact hgB e he
      · intro R hR
        refine (hlv R hR).trans ?_
        rw [dealloc_succ]
        simp
    · rw [if_neg hun, e2]
      have hch'ne : ch'.els ≠ [] := by intro hh; rw [hh] at i5; simp at i5; omega
      have hch'len : ch'.els.length ≤ c.max h := Nat.le_trans i4 hgch.2.1
      have hPQ' : ∀ e, e ∈ A ∨ e ∈ B → c.min h ≤ e.2.els.length ∧ e.2.els.length ≤ c.max h ∧ GoodE c h e.2.els := by
        intro e he; rcases he with he | he
        · exact hgA e he
        · exact hgB e he
      cases B with
      | nil =>
        rcases List.eq_nil_or_concat A with rfl | ⟨A', z, rfl⟩
        · rw [e1] at hn2'; simp at hn2'
        · obtain ⟨kz, z⟩ := z
          have gz := hgA (kz, z) (by simp)
          have hE : (A' ++ [(kz, z)]) ++ [(k', ch')] = A' ++ (kz, z) :: (k', ch') :: [] := by simp
          rw [List.concat_eq_append] at *
          rw [hE] at ho1 hlenE hlv at' ⊢
          refine pair_step hc ho1 hlenE i6.1 hlv at' (Or.inr ⟨by simp, rfl⟩) gz.2.2 i3 gz.2.1 hch'len ?_ hch'ne ?_ ?_
          · intro hh; have := gz.1; dsimp only at this; rw [hh] at this; simp at this; omega
          · exact Or.inr ⟨by omega, gz.1⟩
          · intro e he; exact hPQ' e (by simp only [List.not_mem_nil, or_false] at he; left; simp [he])
      | cons b B' =>
        obtain ⟨kb, b⟩ := b
        have gb := hgB (kb, b) (by simp)
        refine pair_step hc ho1 hlenE i6.1 hlv at' (Or.inl ⟨rfl, trivial⟩) i3 gb.2.2 hch'len gb.2.1 hch'ne ?_ ?_ ?_
        · intro hh; have := gb.1; dsimp only at this; rw [hh] at this; simp at this; omega
        · exact Or.inl ⟨by omega, gb.1⟩
        · intro e he; exact hPQ' e (by simp only [List.mem_cons]; tauto)

end BTree
