/-
What `insert` does to the leaf sequence: links, iterators and contents.
-/
import Verif.BTree.Insert

namespace BTree
variable {K V : Type} [LinearOrder K]

/-- The entries of the map in leaf order. -/
def ents (Ls : List (Blk K V)) : List (K × V) := Ls.flatMap Blk.els

@[simp] theorem ents_append (A B : List (Blk K V)) : ents (A ++ B) = ents A ++ ents B := by simp [ents]
@[simp] theorem ents_cons (a : Blk K V) (B : List (Blk K V)) : ents (a :: B) = a.els ++ ents B := by simp [ents]
@[simp] theorem ents_nil : ents ([] : List (Blk K V)) = [] := rfl

theorem mem_ents {Ls : List (Blk K V)} {e : K × V} : e ∈ ents Ls ↔ ∃ l ∈ Ls, e ∈ l.els := by simp [ents]

/-- All iterators other than `rid` are carried along. -/
structure Keeps (P : K → Prop) (rid : Option Nat) (Ls Ls' : List (Blk K V)) (w w' : W) : Prop where
  pts : ∀ id, some id ≠ rid → ∀ k, P k → Pts Ls w id k → Pts Ls' w' id k
  fin : ∀ id, some id ≠ rid → w.its id = w.its 0 → w'.its id = w'.its 0

theorem keeps_of {P : K → Prop} {Ls Ls' : List (Blk K V)} {w w' : W} {g : Nat × Nat → Nat × Nat} {rid : Option Nat}
    (h0 : some 0 ≠ rid)
    (hi : ∀ id, some id ≠ rid → w'.its id = (w.its id).map g) (hc : Carry (fun e => P e.1) Ls Ls' g) :
    Keeps P rid Ls Ls' w w' :=
  ⟨fun id hid k hk hp => hc.pts (hi id hid) hp (fun _ => hk), fun id hid h => by rw [hi id hid, hi 0 h0, h]⟩

theorem Keeps.trans {P : K → Prop} {rid : Option Nat} {L1 L2 L3 : List (Blk K V)} {w1 w2 w3 : W}
    (a : Keeps P rid L1 L2 w1 w2) (b : Keeps P rid L2 L3 w2 w3) : Keeps P rid L1 L3 w1 w3 :=
  ⟨fun id h k hk hp => b.pts id h k hk (a.pts id h k hk hp), fun id h e => b.fin id h (a.fin id h e)⟩

theorem Keeps.mono {P Q : K → Prop} {rid : Option Nat} {L1 L2 : List (Blk K V)} {w1 w2 : W}
    (a : Keeps P rid L1 L2 w1 w2) (h : ∀ k, Q k → P k) : Keeps Q rid L1 L2 w1 w2 :=
  ⟨fun id hi k hk hp => a.pts id hi k (h k hk) hp, a.fin⟩

theorem fin_of {Ls Ls' : List (Blk K V)} {w w' : W} {g : Nat × Nat → Nat × Nat}
    (hi : w'.its 0 = (w.its 0).map g) (hc : CarryEnd Ls Ls' g)
    (hf : ∃ l, Ls.getLast? = some l ∧ w.its 0 = some (l.bid, l.els.length)) :
    ∃ l, Ls'.getLast? = some l ∧ w'.its 0 = some (l.bid, l.els.length) := by
  obtain ⟨l, h1, h2⟩ := hf
  obtain ⟨l', h3, h4⟩ := hc l h1
  exact ⟨l', h3, by rw [hi, h2]; simp [h4]⟩

theorem reg_its (w : W) (id : Nat) (q : Nat × Nat) : (w.reg id q).its id = some q := by simp [W.reg]
theorem reg_its_ne (w : W) {id i : Nat} (q : Nat × Nat) (h : i ≠ id) : (w.reg id q).its i = w.its i := by
  simp [W.reg, h]

theorem linkSplit_fix_links (w : W) (b nb bid a z : Nat) (f : Nat → Nat × Nat) :
    ((w.linkSplit b nb).fix bid a z f).succ = (w.linkSplit b nb).succ ∧
    ((w.linkSplit b nb).fix bid a z f).pred = (w.linkSplit b nb).pred := ⟨rfl, rfl⟩

/-- Registering an iterator does not disturb the rest. -/
theorem LInv.reg {Ls : List (Blk K V)} {w : W} (h : LInv Ls w) {rid : Nat} (hr : rid ≠ 0) (q : Nat × Nat) :
    LInv Ls (w.reg rid q) where
  nd := h.nd
  links := Links.congr (w := w) (fun _ _ => ⟨rfl, rfl⟩) h.links
  fin := by
    obtain ⟨l, h1, h2⟩ := h.fin
    exact ⟨l, h1, by rw [reg_its_ne _ _ (Ne.symm hr)]; exact h2⟩

theorem Keeps.reg {Ls : List (Blk K V)} {w : W} {rid : Nat} (hr : rid ≠ 0) (q : Nat × Nat) :
    Keeps (fun _ => True) (some rid) Ls Ls w (w.reg rid q) := by
  refine ⟨fun id hid k _ hp => ?_, fun id hid e => ?_⟩
  · obtain ⟨l, hl, p, v, h1, h2⟩ := hp
    exact ⟨l, hl, p, v, by rw [reg_its_ne _ _ (by simpa using hid)]; exact h1, h2⟩
  · rw [reg_its_ne _ _ (by simpa using hid), reg_its_ne _ _ (Ne.symm hr)]; exact e

/-- What an insertion does to contents. -/
def InsEnts (x : K × V) (m m' : List (K × V)) (r : Bool) : Prop :=
  (r = false ∧ m' = m ∧ ∃ v, (x.1, v) ∈ m) ∨
    (r = true ∧ ∃ P Q, m = P ++ Q ∧ m' = P ++ x :: Q ∧ (∀ e ∈ P, e.1 < x.1) ∧ (∀ e ∈ Q, x.1 < e.1))

theorem atLeaf_inv {c : Cfg K} (hc : c.Ok) {pick : List Nat → Nat} {x : K × V} {rid : Nat} (hr : rid ≠ 0) {w w' : W}
    {live : List Nat} {Ls Ls' : List (Blk K V)} {r : Bool} (hA : AtLeaf c pick x rid w live Ls Ls' r w')
    (hI : LInv Ls w) (nd' : (Ls'.map Blk.bid).Nodup) :
    LInv Ls' w' ∧ Keeps (fun _ => True) (some rid) Ls Ls' w w' ∧ Pts Ls' w' rid x.1 ∧ InsEnts x (ents Ls) (ents Ls') r := by
  obtain ⟨A, l, C, l', spl, live0, h1, h2, h3, hA1, hC1, hs, hlen, hb⟩ := hA
  subst h1
  have entsA : ∀ e ∈ ents A, e.1 < x.1 := by
    intro e he; obtain ⟨a, ha, he⟩ := mem_ents.mp he; exact hA1 a ha e he
  have entsC : ∀ e ∈ ents C, x.1 < e.1 := by
    intro e he; obtain ⟨a, ha, he⟩ := mem_ents.mp he; exact hC1 a ha e he
  rcases leafInsert_cases hc pick x rid w live hs hlen with ⟨p, v, hp, e⟩ | ⟨P, Q, hPQ, hP, hQ, hcase⟩
  · rw [h2] at e
    simp only [Option.some.injEq, Prod.mk.injEq] at e
    obtain ⟨rfl, rfl, rfl, rfl, rfl⟩ := e
    have : Ls' = A ++ l' :: C := by rw [h3]; simp [splLeaves]
    subst this
    refine ⟨hI.reg hr _, Keeps.reg hr _, ⟨l', by simp, p, v, reg_its _ _ _, hp⟩, Or.inl ⟨rfl, rfl, v, ?_⟩⟩
    exact mem_ents.mpr ⟨l', by simp, List.mem_of_getElem? hp⟩
  · have hi : P.length ≤ l.els.length := by rw [hPQ]; simp
    have e1 : l.els.take P.length ++ x :: l.els.drop P.length = P ++ x :: Q := by rw [hPQ]; simp
    obtain ⟨c1, c2⟩ := carry_insert (x := x) (i := P.length) hi hI.nd
    rw [e1] at c1 c2
    generalize hg1 : (fun q : Nat × Nat => if q.1 = l.bid ∧ P.length ≤ q.2 ∧ q.2 ≤ l.els.length then (l.bid, q.2 + 1) else q) = g1 at c1 c2
    -- the world after the insertion, before a split
    have inv1 : LInv (A ++ { l with els := P ++ x :: Q } :: C)
        ((w.fix l.bid P.length l.els.length (fun p => (l.bid, p + 1))).reg rid (l.bid, P.length)) := by
      refine LInv.reg ⟨?_, ?_, ?_⟩ hr _
      · simpa using hI.nd
      · exact links_swap (w := w) (l := l) rfl rfl rfl hI.links
      · exact fin_of (by rw [fix_its, ← hg1]) c2 hI.fin
    have k1 : Keeps (fun _ => True) (some rid) (A ++ l :: C) (A ++ { l with els := P ++ x :: Q } :: C) w
        ((w.fix l.bid P.length l.els.length (fun p => (l.bid, p + 1))).reg rid (l.bid, P.length)) := by
      refine keeps_of (by simpa using Ne.symm hr) ?_ c1
      intro id hid
      rw [reg_its_ne _ _ (by simpa using hid), fix_its, ← hg1]
    have p1 : Pts (A ++ { l with els := P ++ x :: Q } :: C)
        ((w.fix l.bid P.length l.els.length (fun p => (l.bid, p + 1))).reg rid (l.bid, P.length)) rid x.1 :=
      ⟨{ l with els := P ++ x :: Q }, by simp, P.length, x.2, reg_its _ _ _, by simp⟩
    have i1 : InsEnts x (ents (A ++ l :: C)) (ents A ++ (P ++ x :: Q) ++ ents C) true := by
      refine Or.inr ⟨rfl, ents A ++ P, Q ++ ents C, by simp [hPQ], by simp, ?_, ?_⟩
      · intro e he; rcases List.mem_append.mp he with he | he
        · exact entsA e he
        · exact hP e he
      · intro e he; rcases List.mem_append.mp he with he | he
        · exact hQ e he
        · exact entsC e he
    rcases hcase with ⟨hle, e⟩ | ⟨hll, T, D, e, t1, t4, t6, t7, t8, t9, t10, eq⟩
    · rw [h2] at e
      simp only [Option.some.injEq, Prod.mk.injEq] at e
      obtain ⟨rfl, rfl, rfl, rfl, rfl⟩ := e
      have : Ls' = A ++ { l with els := P ++ x :: Q } :: C := by rw [h3]; simp [splLeaves]
      subst this
      refine ⟨inv1, k1, p1, ?_⟩
      simpa using i1
    · rw [h2] at eq
      simp only [Option.some.injEq, Prod.mk.injEq] at eq
      obtain ⟨rfl, rfl, rfl, rfl, rfl⟩ := eq
      generalize hl1 : ({ l with els := P ++ x :: Q } : Blk K V) = l1 at *
      have hl1b : l1.bid = l.bid := by rw [← hl1]
      have hl1e : l1.els = P ++ x :: Q := by rw [← hl1]
      generalize hw2 : (w.fix l.bid P.length l.els.length (fun p => (l.bid, p + 1))).reg rid (l.bid, P.length) = w2 at *
      have hT : T = l1.els.take T.length := by rw [t1]; simp
      have hD : D = l1.els.drop T.length := by rw [t1]; simp
      have : Ls' = A ++ { bid := pick live, els := T } :: { l with els := D } :: C := by rw [h3]; simp [splLeaves, leaves]
      subst this
      have nd2 : ((A ++ { bid := pick live, els := T } :: l1 :: C).map Blk.bid).Nodup := by
        simpa [hl1b] using nd'
      have hlt : T.length < l1.els.length := by
        rw [t1, List.length_append]
        have := List.length_pos_of_ne_nil t6
        omega
      obtain ⟨c3, c4⟩ := carry_split (A := A) (C := C) (l := l1) (nb := pick live) (half := T.length) (Nat.le_of_lt hlt) hlt
        (by rw [← hT]; exact nd2)
      rw [← hT, ← hD, hl1b] at c3 c4
      generalize hg2 : (fun q : Nat × Nat => if q.1 = l.bid ∧ 0 ≤ q.2 ∧ q.2 ≤ l1.els.length then
        (if q.2 < T.length then (pick live, q.2) else (l.bid, q.2 - T.length)) else q) = g2 at c3 c4
      have hits : ∀ id, ((w2.linkSplit l.bid (pick live)).fix l.bid 0 l1.els.length
                (fun p => if p < T.length then (pick live, p) else (l.bid, p - T.length))).its id = (w2.its id).map g2 := by
        intro id; rw [fix_its, linkSplit_its, ← hg2]
      have k2 : Keeps (fun _ => True) none (A ++ l1 :: C) (A ++ { bid := pick live, els := T } :: { l with els := D } :: C) w2
          ((w2.linkSplit l.bid (pick live)).fix l.bid 0 l1.els.length
                (fun p => if p < T.length then (pick live, p) else (l.bid, p - T.length))) :=
        keeps_of (by simp) (fun id _ => hits id) c3
      rw [← hl1e] at i1 ⊢
      refine ⟨⟨nd', ?_, fin_of (hits 0) c4 inv1.fin⟩, k1.trans ⟨fun id _ => k2.pts id (by simp), fun id _ => k2.fin id (by simp)⟩,
        k2.pts rid (by simp) _ trivial p1, ?_⟩
      · have := links_split (l := l1) (nl := { bid := pick live, els := T }) (l2 := { l with els := D }) hl1b.symm nd2 inv1.links
        rw [hl1b] at this
        exact Links.congr (w := w2.linkSplit l.bid (pick live)) (fun _ _ => ⟨rfl, rfl⟩) this
      · have : ents (A ++ { bid := pick live, els := T } :: { l with els := D } :: C) = ents A ++ l1.els ++ ents C := by
          simp only [ents_append, ents_cons]
          rw [t1]; simp
        rw [this]; exact i1

end BTree
