/-
The sequence of leaves of the tree: links, registered iterators, and what the five leaf operations
(insert, split, erase, fuse, balance) do to them.
-/
import Verif.BTree.Model
import Mathlib.Data.List.Nodup
import Mathlib.Tactic.Tauto
import Mathlib.Tactic.ByContra

namespace BTree
variable {K V : Type}

/-- Consecutive leaves are linked: `p` is the leaf before, `n` the one after. -/
def Links (w : W) (p : Option Nat) : List (Blk K V) → Option Nat → Prop
  | [], _ => True
  | l :: rest, n => w.pred l.bid = p ∧ w.succ l.bid = (rest.head?.map Blk.bid).or n ∧ Links w (some l.bid) rest n

theorem Links.append {w : W} : ∀ {A B : List (Blk K V)} {p n : Option Nat},
    Links w p (A ++ B) n ↔
      Links w p A ((B.head?.map Blk.bid).or n) ∧ Links w ((A.getLast?.map Blk.bid).or p) B n
  | [], B, p, n => by simp [Links]
  | [a], B, p, n => by
    cases B <;> simp [Links]
    tauto
  | a :: b :: A, B, p, n => by
    have := Links.append (w := w) (A := b :: A) (B := B) (p := some a.bid) (n := n)
    simp only [List.cons_append, Links] at this ⊢
    simp only [List.head?_cons, Option.map_some, Option.some_or] at this ⊢
    rw [List.getLast?_cons_cons]
    have e : (Option.map Blk.bid (b :: A).getLast?).or (some a.bid) = (Option.map Blk.bid (b :: A).getLast?).or p := by
      cases h : (b :: A).getLast? with
      | none => simp at h
      | some x => rfl
    rw [e] at this
    tauto

/-- Links only depend on the fields of the leaves in the list. -/
theorem Links.congr {w w' : W} : ∀ {A : List (Blk K V)} {p n : Option Nat},
    (∀ l ∈ A, w'.succ l.bid = w.succ l.bid ∧ w'.pred l.bid = w.pred l.bid) → Links w p A n → Links w' p A n
  | [], _, _, _, _ => trivial
  | a :: A, p, n, h, ⟨h1, h2, h3⟩ => by
    refine ⟨by rw [(h a (by simp)).2, h1], by rw [(h a (by simp)).1, h2], ?_⟩
    exact Links.congr (fun l hl => h l (by simp [hl])) h3

/-- Only bids matter. -/
theorem Links.map {w : W} : ∀ {A B : List (Blk K V)} {p n : Option Nat},
    A.map Blk.bid = B.map Blk.bid → Links w p A n → Links w p B n
  | [], [], _, _, _, _ => trivial
  | [], b :: B, _, _, h, _ => by simp at h
  | a :: A, [], _, _, h, _ => by simp at h
  | a :: A, b :: B, p, n, h, ⟨h1, h2, h3⟩ => by
    simp only [List.map_cons, List.cons.injEq] at h
    refine ⟨by rw [← h.1, h1], ?_, ?_⟩
    · rw [← h.1, h2]
      congr 1
      rw [← List.head?_map, ← List.head?_map, h.2]
    · rw [← h.1]; exact Links.map h.2 h3

/-- What holds of the leaf sequence between two calls. -/
structure LInv (Ls : List (Blk K V)) (w : W) : Prop where
  nd : (Ls.map Blk.bid).Nodup
  links : Links w none Ls none
  fin : ∃ l, Ls.getLast? = some l ∧ w.its 0 = some (l.bid, l.els.length)

/-- Iterator `id` points to the entry with key `k`. -/
def Pts (Ls : List (Blk K V)) (w : W) (id : Nat) (k : K) : Prop :=
  ∃ l ∈ Ls, ∃ p v, w.its id = some (l.bid, p) ∧ l.els[p]? = some (k, v)

/-- A position map carries every entry satisfying `P` to itself. -/
def Carry (P : K × V → Prop) (Ls Ls' : List (Blk K V)) (g : Nat × Nat → Nat × Nat) : Prop :=
  ∀ l ∈ Ls, ∀ (p : Nat) (e : K × V), l.els[p]? = some e → P e →
    ∃ l' ∈ Ls', ∃ p', g (l.bid, p) = (l'.bid, p') ∧ l'.els[p']? = some e

/-- A position map carries the end position to the end position. -/
def CarryEnd (Ls Ls' : List (Blk K V)) (g : Nat × Nat → Nat × Nat) : Prop :=
  ∀ l, Ls.getLast? = some l → ∃ l', Ls'.getLast? = some l' ∧ g (l.bid, l.els.length) = (l'.bid, l'.els.length)

theorem Carry.pts {P : K × V → Prop} {Ls Ls' : List (Blk K V)} {g : Nat × Nat → Nat × Nat}
    (h : Carry P Ls Ls' g) {w w' : W} {id : Nat} (hi : w'.its id = (w.its id).map g) {k : K}
    (hp : Pts Ls w id k) (hk : ∀ v, P (k, v)) : Pts Ls' w' id k := by
  obtain ⟨l, hl, p, v, e1, e2⟩ := hp
  obtain ⟨l', hl', p', e3, e4⟩ := h l hl p _ e2 (hk v)
  exact ⟨l', hl', p', v, by rw [hi, e1]; simp [e3], e4⟩

theorem fix_its (w : W) (b a z : Nat) (f : Nat → Nat × Nat) (id : Nat) :
    (w.fix b a z f).its id =
      (w.its id).map (fun q => if q.1 = b ∧ a ≤ q.2 ∧ q.2 ≤ z then f q.2 else q) := by
  unfold W.fix
  dsimp only
  cases h : w.its id with
  | none => rfl
  | some q => simp only [Option.map_some]; split <;> rfl

theorem bid_inj {Ls : List (Blk K V)} (nd : (Ls.map Blk.bid).Nodup) {a b : Blk K V} (ha : a ∈ Ls) (hb : b ∈ Ls)
    (e : a.bid = b.bid) : a = b := List.inj_on_of_nodup_map nd ha hb e

theorem nd_parts {A C : List (Blk K V)} {l : Blk K V} (nd : ((A ++ l :: C).map Blk.bid).Nodup) :
    (∀ x ∈ A, x.bid ≠ l.bid) ∧ (∀ x ∈ C, x.bid ≠ l.bid) := by
  simp only [List.map_append, List.map_cons, List.nodup_append, List.nodup_cons, List.mem_map,
    List.mem_cons] at nd
  obtain ⟨h1, ⟨h2, h3⟩, h4⟩ := nd
  constructor
  · intro x hx e; exact h4 _ ⟨x, hx, rfl⟩ _ (Or.inl rfl) e
  · intro x hx e; exact h2 ⟨x, hx, e⟩

/-- Replacing one leaf by one with the same BID keeps the links. -/
theorem links_swap {w w' : W} {A C : List (Blk K V)} {l l' : Blk K V} (hb : l'.bid = l.bid)
    (hs : w'.succ = w.succ) (hp : w'.pred = w.pred) (h : Links w none (A ++ l :: C) none) :
    Links w' none (A ++ l' :: C) none := by
  refine Links.map (A := A ++ l :: C) (by simp [hb]) (Links.congr ?_ h)
  intro x _; rw [hs, hp]; exact ⟨rfl, rfl⟩

theorem last1 (A C : List (Blk K V)) (a z : Blk K V) : (A ++ a :: C.concat z).getLast? = some z := by
  rw [List.concat_eq_append, ← List.cons_append, ← List.append_assoc]; exact List.getLast?_concat
theorem last2 (A C : List (Blk K V)) (a b z : Blk K V) : (A ++ a :: b :: C.concat z).getLast? = some z := by
  rw [List.concat_eq_append, ← List.cons_append, ← List.cons_append, ← List.append_assoc]; exact List.getLast?_concat

/-! ### Insert into a leaf -/

theorem carry_insert {A C : List (Blk K V)} {l : Blk K V} {x : K × V} {i : Nat} (hi : i ≤ l.els.length)
    (nd : ((A ++ l :: C).map Blk.bid).Nodup) :
    let l1 : Blk K V := { l with els := l.els.take i ++ x :: l.els.drop i }
    let g := fun q : Nat × Nat => if q.1 = l.bid ∧ i ≤ q.2 ∧ q.2 ≤ l.els.length then (l.bid, q.2 + 1) else q
    Carry (fun _ => True) (A ++ l :: C) (A ++ l1 :: C) g ∧ CarryEnd (A ++ l :: C) (A ++ l1 :: C) g := by
  obtain ⟨n1, n2⟩ := nd_parts nd
  intro l1 g
  constructor
  · intro m hm p e he _
    by_cases hml : m = l
    · subst hml
      have hp : p < m.els.length := by
        by_contra hh; rw [List.getElem?_eq_none (by omega)] at he; cases he
      refine ⟨l1, by simp, if i ≤ p then p + 1 else p, ?_, ?_⟩
      · show (if _ then _ else _) = _
        by_cases hip : i ≤ p
        · simp only [hip, if_true]; rw [if_pos ⟨trivial, trivial, by omega⟩]
        · simp only [hip, if_false]; rw [if_neg (by simp)]
      · show (m.els.take i ++ x :: m.els.drop i)[_]? = _
        by_cases hip : i ≤ p
        · rw [if_pos hip, List.getElem?_append_right (by simp; omega)]
          rw [List.length_take, Nat.min_eq_left hi, show p + 1 - i = (p - i) + 1 by omega, List.getElem?_cons_succ,
            List.getElem?_drop, show i + (p - i) = p by omega, he]
        · rw [if_neg hip, List.getElem?_append_left (by simp; omega), List.getElem?_take, if_pos (by omega), he]
    · have hb : m.bid ≠ l.bid := by
        simp only [List.mem_append, List.mem_cons] at hm
        rcases hm with h | h | h
        · exact n1 _ h
        · exact absurd h hml
        · exact n2 _ h
      refine ⟨m, ?_, p, ?_, he⟩
      · simp only [List.mem_append, List.mem_cons] at hm ⊢
        rcases hm with h | h | h
        · exact Or.inl h
        · exact absurd h hml
        · exact Or.inr (Or.inr h)
      · show (if _ then _ else _) = _
        rw [if_neg]; rintro ⟨h, _⟩; exact hb h
  · intro m hm
    rcases List.eq_nil_or_concat C with rfl | ⟨C', z, rfl⟩
    · simp only [List.getLast?_append, List.getLast?_singleton, Option.some_or, Option.some.injEq] at hm
      subst hm
      refine ⟨l1, by simp, ?_⟩
      show (if _ then _ else _) = _
      rw [if_pos ⟨rfl, hi, Nat.le_refl _⟩]
      simp only [l1, List.length_append, List.length_cons, List.length_take, List.length_drop]
      congr 1; omega
    · have e : (A ++ l :: (C'.concat z)).getLast? = some z := last1 _ _ _ _
      have e' : (A ++ l1 :: (C'.concat z)).getLast? = some z := last1 _ _ _ _
      rw [e] at hm; have hm := Option.some.inj hm; subst hm
      refine ⟨z, e', ?_⟩
      show (if _ then _ else _) = _
      rw [if_neg]; rintro ⟨h, _⟩; exact n2 z (by simp) h

/-! ### Split -/

theorem linkSplit_its (w : W) (b nb : Nat) : (w.linkSplit b nb).its = w.its := by
  unfold W.linkSplit; dsimp only; split <;> rfl

theorem links_split {w : W} {A C : List (Blk K V)} {l nl l2 : Blk K V} (hb : l2.bid = l.bid)
    (nd : ((A ++ nl :: l :: C).map Blk.bid).Nodup) (h : Links w none (A ++ l :: C) none) :
    Links (w.linkSplit l.bid nl.bid) none (A ++ nl :: l2 :: C) none := by
  obtain ⟨h1, hp, hs, h2⟩ := Links.append.mp h
  obtain ⟨n1, n2⟩ := nd_parts nd
  have nd' : (((A ++ [nl]) ++ l :: C).map Blk.bid).Nodup := by simpa using nd
  obtain ⟨n3, n4⟩ := nd_parts nd'
  have nl_ne : nl.bid ≠ l.bid := n3 _ (by simp)
  rcases List.eq_nil_or_concat A with rfl | ⟨A', z, rfl⟩
  · simp only [List.getLast?_nil, Option.map_none, Option.none_or] at hp
    unfold W.linkSplit; rw [hp]
    simp only [List.nil_append]
    refine ⟨by simp [upd, nl_ne], by simp [upd, hb], by simp [upd, hb], ?_, ?_⟩
    · simp only [upd, hb, nl_ne.symm, if_false]; exact hs
    · refine Links.congr ?_ (show Links w (some l2.bid) C none by rw [hb]; exact h2)
      intro x hx
      have a1 : x.bid ≠ nl.bid := n2 x (by simp [hx])
      have a2 : x.bid ≠ l.bid := n4 x hx
      simp [upd, a1, a2]
  · rw [List.concat_eq_append] at *
    simp only [List.getLast?_append, List.getLast?_singleton, Option.some_or, Option.map_some] at hp
    unfold W.linkSplit; rw [hp]
    have z_nl : z.bid ≠ nl.bid := n1 z (by simp)
    have z_l : z.bid ≠ l.bid := n3 z (by simp)
    have z_A : ∀ x ∈ A', x.bid ≠ z.bid := by
      intro x hx e
      have : ((A' ++ z :: (nl :: l :: C)).map Blk.bid).Nodup := by simpa using nd
      exact (nd_parts this).1 x hx e
    have z_C : ∀ x ∈ C, x.bid ≠ z.bid := by
      intro x hx e
      have : ((A' ++ z :: (nl :: l :: C)).map Blk.bid).Nodup := by simpa using nd
      exact (nd_parts this).2 x (by simp [hx]) e
    obtain ⟨h3, hzp, hzs, _⟩ := Links.append.mp h1
    rw [Links.append, Links.append]
    refine ⟨⟨?_, ?_, ?_, trivial⟩, ?_, ?_, ?_, ?_, ?_⟩
    · refine Links.congr ?_ h3
      intro x hx
      have a1 : x.bid ≠ nl.bid := n1 x (by simp [hx])
      have a2 : x.bid ≠ l.bid := n3 x (by simp [hx])
      have a3 : x.bid ≠ z.bid := z_A x hx
      simp [upd, a1, a2, a3]
    · simp only [upd, z_nl, z_l, if_false]; exact hzp
    · simp [upd]
    · simp [upd, nl_ne]
    · simp [upd, hb, z_nl.symm]
    · simp [upd, hb]
    · simp only [upd, hb, nl_ne.symm, z_l.symm, if_false]; exact hs
    · refine Links.congr ?_ (show Links w (some l2.bid) C none by rw [hb]; exact h2)
      intro x hx
      have a1 : x.bid ≠ nl.bid := n2 x (by simp [hx])
      have a2 : x.bid ≠ l.bid := n4 x hx
      have a3 : x.bid ≠ z.bid := z_C x hx
      simp [upd, a1, a2, a3]

theorem carry_split {A C : List (Blk K V)} {l : Blk K V} {nb half : Nat} (hh : half ≤ l.els.length)
    (hh2 : half < l.els.length)
    (nd : ((A ++ { bid := nb, els := l.els.take half } :: l :: C).map Blk.bid).Nodup) :
    let nl : Blk K V := { bid := nb, els := l.els.take half }
    let l2 : Blk K V := { l with els := l.els.drop half }
    let g := fun q : Nat × Nat => if q.1 = l.bid ∧ 0 ≤ q.2 ∧ q.2 ≤ l.els.length then
      (if q.2 < half then (nb, q.2) else (l.bid, q.2 - half)) else q
    Carry (fun _ => True) (A ++ l :: C) (A ++ nl :: l2 :: C) g ∧ CarryEnd (A ++ l :: C) (A ++ nl :: l2 :: C) g := by
  intro nl l2 g
  have nd' : (((A ++ [nl]) ++ l :: C).map Blk.bid).Nodup := by simpa using nd
  obtain ⟨n3, n4⟩ := nd_parts nd'
  constructor
  · intro m hm p e he _
    by_cases hml : m = l
    · subst hml
      have hp : p < m.els.length := by
        by_contra hh; rw [List.getElem?_eq_none (by omega)] at he; cases he
      by_cases hlt : p < half
      · refine ⟨nl, by simp, p, ?_, ?_⟩
        · show (if _ then _ else _) = _
          rw [if_pos ⟨rfl, Nat.zero_le _, by omega⟩]; simp only; rw [if_pos hlt]
        · show (m.els.take half)[p]? = _
          rw [List.getElem?_take, if_pos hlt, he]
      · refine ⟨l2, by simp, p - half, ?_, ?_⟩
        · show (if _ then _ else _) = _
          rw [if_pos ⟨rfl, Nat.zero_le _, by omega⟩]; simp only; rw [if_neg hlt]
        · show (m.els.drop half)[_]? = _
          rw [List.getElem?_drop, show half + (p - half) = p by omega, he]
    · have hb : m.bid ≠ l.bid := by
        simp only [List.mem_append, List.mem_cons] at hm
        rcases hm with h | h | h
        · exact n3 _ (by simp [h])
        · exact absurd h hml
        · exact n4 _ h
      refine ⟨m, ?_, p, ?_, he⟩
      · simp only [List.mem_append, List.mem_cons] at hm ⊢
        rcases hm with h | h | h
        · exact Or.inl h
        · exact absurd h hml
        · exact Or.inr (Or.inr (Or.inr h))
      · show (if _ then _ else _) = _
        rw [if_neg]; rintro ⟨h, _⟩; exact hb h
  · intro m hm
    rcases List.eq_nil_or_concat C with rfl | ⟨C', z, rfl⟩
    · simp only [List.getLast?_append, List.getLast?_singleton, Option.some_or, Option.some.injEq] at hm
      subst hm
      refine ⟨l2, by simp, ?_⟩
      show (if _ then _ else _) = _
      rw [if_pos ⟨rfl, Nat.zero_le _, Nat.le_refl _⟩]
      simp only
      rw [if_neg (by omega)]
      simp [l2]
    · have e : (A ++ l :: (C'.concat z)).getLast? = some z := last1 _ _ _ _
      have e' : (A ++ nl :: l2 :: (C'.concat z)).getLast? = some z := last2 _ _ _ _ _
      rw [e] at hm; have hm := Option.some.inj hm; subst hm
      refine ⟨z, e', ?_⟩
      show (if _ then _ else _) = _
      rw [if_neg]; rintro ⟨h, _⟩; exact n4 z (by simp) h

/-! ### Erase -/

theorem carry_erase {A C : List (Blk K V)} {l : Blk K V} {i : Nat} (hi : i < l.els.length)
    (nd : ((A ++ l :: C).map Blk.bid).Nodup) (x : K × V) (hx : l.els[i]? = some x) :
    let l1 : Blk K V := { l with els := l.els.take i ++ l.els.drop (i + 1) }
    let g := fun q : Nat × Nat => if q.1 = l.bid ∧ i + 1 ≤ q.2 ∧ q.2 ≤ l.els.length then (l.bid, q.2 - 1) else q
    Carry (fun e => e.1 ≠ x.1) (A ++ l :: C) (A ++ l1 :: C) g ∧ CarryEnd (A ++ l :: C) (A ++ l1 :: C) g := by
  obtain ⟨n1, n2⟩ := nd_parts nd
  intro l1 g
  constructor
  · intro m hm p e he hne
    by_cases hml : m = l
    · subst hml
      have hp : p < m.els.length := by
        by_contra hh; rw [List.getElem?_eq_none (by omega)] at he; cases he
      have hpi : p ≠ i := by rintro rfl; rw [hx] at he; cases he; exact hne rfl
      refine ⟨l1, by simp, if i < p then p - 1 else p, ?_, ?_⟩
      · show (if _ then _ else _) = _
        by_cases hip : i < p
        · simp only [hip, if_true]; rw [if_pos ⟨trivial, by omega, by omega⟩]
        · simp only [hip, if_false]; rw [if_neg (by simp; omega)]
      · show (m.els.take i ++ m.els.drop (i + 1))[_]? = _
        by_cases hip : i < p
        · rw [if_pos hip, List.getElem?_append_right (by simp; omega)]
          rw [List.length_take, Nat.min_eq_left (by omega), List.getElem?_drop,
            show i + 1 + (p - 1 - i) = p by omega, he]
        · rw [if_neg hip, List.getElem?_append_left (by simp; omega), List.getElem?_take, if_pos (by omega), he]
    · have hb : m.bid ≠ l.bid := by
        simp only [List.mem_append, List.mem_cons] at hm
        rcases hm with h | h | h
        · exact n1 _ h
        · exact absurd h hml
        · exact n2 _ h
      refine ⟨m, ?_, p, ?_, he⟩
      · simp only [List.mem_append, List.mem_cons] at hm ⊢
        rcases hm with h | h | h
        · exact Or.inl h
        · exact absurd h hml
        · exact Or.inr (Or.inr h)
      · show (if _ then _ else _) = _
        rw [if_neg]; rintro ⟨h, _⟩; exact hb h
  · intro m hm
    rcases List.eq_nil_or_concat C with rfl | ⟨C', z, rfl⟩
    · simp only [List.getLast?_append, List.getLast?_singleton, Option.some_or, Option.some.injEq] at hm
      subst hm
      refine ⟨l1, by simp, ?_⟩
      show (if _ then _ else _) = _
      rw [if_pos ⟨rfl, by omega, Nat.le_refl _⟩]
      simp only [l1, List.length_append, List.length_take, List.length_drop]
      congr 1; omega
    · have e : (A ++ l :: (C'.concat z)).getLast? = some z := last1 _ _ _ _
      have e' : (A ++ l1 :: (C'.concat z)).getLast? = some z := last1 _ _ _ _
      rw [e] at hm; have hm := Option.some.inj hm; subst hm
      refine ⟨z, e', ?_⟩
      show (if _ then _ else _) = _
      rw [if_neg]; rintro ⟨h, _⟩; exact n2 z (by simp) h

/-! ### Fuse -/

theorem linkFuse_its (w : W) (l r : Nat) : (w.linkFuse l r).its = w.its := by
  unfold W.linkFuse; dsimp only; split <;> rfl

theorem links_fuse {w : W} {A C : List (Blk K V)} {l r r2 : Blk K V} (hb : r2.bid = r.bid)
    (nd : ((A ++ l :: r :: C).map Blk.bid).Nodup) (h : Links w none (A ++ l :: r :: C) none) :
    Links (w.linkFuse l.bid r.bid) none (A ++ r2 :: C) none := by
  obtain ⟨h1, hp, hs, hrp, hrs, h2⟩ := Links.append.mp h
  obtain ⟨n1, n2⟩ := nd_parts nd
  have nd' : (((A ++ [l]) ++ r :: C).map Blk.bid).Nodup := by simpa using nd
  obtain ⟨n3, n4⟩ := nd_parts nd'
  rcases List.eq_nil_or_concat A with rfl | ⟨A', z, rfl⟩
  · simp only [List.getLast?_nil, Option.map_none, Option.none_or] at hp
    unfold W.linkFuse; rw [hp]
    simp only [List.nil_append]
    refine ⟨by simp [upd, hb], by simp only [hb]; exact hrs, ?_⟩
    refine Links.congr ?_ (show Links w (some r2.bid) C none by rw [hb]; exact h2)
    intro x hx
    have a2 : x.bid ≠ r.bid := n4 x hx
    simp [upd, a2]
  · rw [List.concat_eq_append] at *
    simp only [List.getLast?_append, List.getLast?_singleton, Option.some_or, Option.map_some] at hp
    unfold W.linkFuse; rw [hp]
    have z_r : z.bid ≠ r.bid := n3 z (by simp)
    have ndz : ((A' ++ z :: (l :: r :: C)).map Blk.bid).Nodup := by simpa using nd
    obtain ⟨z_A, z_C⟩ := nd_parts ndz
    obtain ⟨h3, hzp, hzs, _⟩ := Links.append.mp h1
    rw [Links.append, Links.append]
    refine ⟨⟨?_, ?_, ?_, trivial⟩, ?_, ?_, ?_⟩
    · refine Links.congr ?_ h3
      intro x hx
      have a2 : x.bid ≠ r.bid := n3 x (by simp [hx])
      have a3 : x.bid ≠ z.bid := z_A x hx
      simp [upd, a2, a3]
    · simp only [upd, z_r, if_false]; exact hzp
    · simp [upd, hb]
    · simp [upd, hb]
    · simp only [upd, hb, z_r.symm, if_false]; exact hrs
    · refine Links.congr ?_ (show Links w (some r2.bid) C none by rw [hb]; exact h2)
      intro x hx
      have a2 : x.bid ≠ r.bid := n4 x hx
      have a3 : x.bid ≠ z.bid := z_C x (by simp [hx])
      simp [upd, a2, a3]

/-- The position map of `fuse`. -/
def gFuse (l r : Blk K V) (q : Nat × Nat) : Nat × Nat :=
  if q.1 = r.bid ∧ q.2 ≤ r.els.length then (r.bid, q.2 + l.els.length)
  else if q.1 = l.bid ∧ q.2 ≤ l.els.length then (r.bid, q.2) else q

theorem leafFuseW_its (l r : Blk K V) (w : W) (hne : l.bid ≠ r.bid) (id : Nat) :
    (leafFuseW l r w).its id = (w.its id).map (gFuse l r) := by
  unfold leafFuseW
  dsimp only
  rw [linkFuse_its, fix_its, fix_its, Option.map_map]
  congr 1
  funext ⟨b, p⟩
  simp only [Function.comp_apply, gFuse]
  by_cases h : b = r.bid ∧ p ≤ r.els.length
  · have h' : b = r.bid ∧ 0 ≤ p ∧ p ≤ r.els.length := ⟨h.1, Nat.zero_le _, h.2⟩
    simp only [h, h', if_true, and_self, Nat.zero_le]
    rw [if_neg]; rintro ⟨h', _⟩; exact hne h'.symm
  · have h' : ¬ (b = r.bid ∧ 0 ≤ p ∧ p ≤ r.els.length) := by rintro ⟨a, _, b⟩; exact h ⟨a, b⟩
    simp only [h, h', if_false, Nat.zero_le, true_and]

theorem carry_fuse {A C : List (Blk K V)} {l r : Blk K V} (nd : ((A ++ l :: r :: C).map Blk.bid).Nodup) :
    let r2 : Blk K V := { r with els := l.els ++ r.els }
    Carry (fun _ => True) (A ++ l :: r :: C) (A ++ r2 :: C) (gFuse l r) ∧
      CarryEnd (A ++ l :: r :: C) (A ++ r2 :: C) (gFuse l r) := by
  intro r2
  obtain ⟨n1, n2⟩ := nd_parts nd
  have nd' : (((A ++ [l]) ++ r :: C).map Blk.bid).Nodup := by simpa using nd
  obtain ⟨n3, n4⟩ := nd_parts nd'
  have lr : l.bid ≠ r.bid := n3 l (by simp)
  constructor
  · intro m hm p e he _
    have hp : p < m.els.length := by
      by_contra hh; rw [List.getElem?_eq_none (by omega)] at he; cases he
    simp only [List.mem_append, List.mem_cons] at hm
    rcases hm with h | rfl | rfl | h
    · refine ⟨m, by simp [h], p, ?_, he⟩
      unfold gFuse
      rw [if_neg (by rintro ⟨a, _⟩; exact n3 m (by simp [h]) a), if_neg (by rintro ⟨a, _⟩; exact n1 m h a)]
    · refine ⟨r2, by simp, p, ?_, ?_⟩
      · unfold gFuse
        rw [if_neg (by rintro ⟨a, _⟩; exact lr a), if_pos ⟨rfl, by omega⟩]
      · show (m.els ++ r.els)[p]? = _
        rw [List.getElem?_append_left hp, he]
    · refine ⟨r2, by simp, p + l.els.length, ?_, ?_⟩
      · unfold gFuse
        rw [if_pos ⟨rfl, by omega⟩]
      · show (l.els ++ m.els)[_]? = _
        rw [List.getElem?_append_right (by omega), Nat.add_sub_cancel, he]
    · refine ⟨m, by simp [h], p, ?_, he⟩
      unfold gFuse
      rw [if_neg (by rintro ⟨a, _⟩; exact n4 m h a), if_neg (by rintro ⟨a, _⟩; exact n2 m (by simp [h]) a)]
  · intro m hm
    rcases List.eq_nil_or_concat C with rfl | ⟨C', z, rfl⟩
    · have : m = r := by
        have e : (A ++ [l, r]).getLast? = some r := by simp
        rw [e] at hm; cases hm; rfl
      subst this
      refine ⟨r2, by simp, ?_⟩
      unfold gFuse
      rw [if_pos ⟨rfl, Nat.le_refl _⟩]
      simp [r2, Nat.add_comm]
    · have e : (A ++ l :: r :: (C'.concat z)).getLast? = some z := last2 _ _ _ _ _
      have e' : (A ++ r2 :: (C'.concat z)).getLast? = some z := last1 _ _ _ _
      rw [e] at hm; have hm := Option.some.inj hm; subst hm
      refine ⟨z, e', ?_⟩
      unfold gFuse
      rw [if_neg (by rintro ⟨a, _⟩; exact n4 z (by simp) a), if_neg (by rintro ⟨a, _⟩; exact n2 z (by simp) a)]

/-! ### Balance -/

/-- The position map of `balance`. -/
def gBal (l r : Blk K V) (nl : Nat) (q : Nat × Nat) : Nat × Nat :=
  if nl < l.els.length then
    if q.1 = r.bid ∧ q.2 ≤ r.els.length then (r.bid, q.2 + (l.els.length - nl))
    else if q.1 = l.bid ∧ nl ≤ q.2 ∧ q.2 ≤ l.els.length then (r.bid, q.2 - nl) else q
  else
    let m := r.els.length - (l.els.length + r.els.length - nl)
    if q.1 = r.bid ∧ m ≤ q.2 ∧ q.2 ≤ r.els.length then (r.bid, q.2 - m)
    else if q.1 = r.bid ∧ q.2 ≤ m - 1 then (l.bid, q.2 + l.els.length) else q

theorem leafBalW_its (l r : Blk K V) (nl : Nat) (w : W) (id : Nat) :
    (leafBalW l r nl w).its id = (w.its id).map (gBal l r nl) := by
  unfold leafBalW gBal
  split <;> (dsimp only; cases h : w.its id with
    | none => rfl
    | some q => simp only [Option.map_some]; split <;> [rfl; (split <;> rfl)])

theorem leafBalW_links (l r : Blk K V) (nl : Nat) (w : W) :
    (leafBalW l r nl w).succ = w.succ ∧ (leafBalW l r nl w).pred = w.pred := by
  unfold leafBalW; split <;> exact ⟨rfl, rfl⟩

/-- A balance is a re-cut of the concatenation at `nl`. -/
theorem carry_bal {A C : List (Blk K V)} {l r : Blk K V} {nl : Nat} (nd : ((A ++ l :: r :: C).map Blk.bid).Nodup)
    (hle : nl ≤ l.els.length + r.els.length) (hpos : l.els.length ≤ nl → 0 < r.els.length - (l.els.length + r.els.length - nl)) :
    let l2 : Blk K V := { l with els := (l.els ++ r.els).take nl }
    let r2 : Blk K V := { r with els := (l.els ++ r.els).drop nl }
    Carry (fun _ => True) (A ++ l :: r :: C) (A ++ l2 :: r2 :: C) (gBal l r nl) ∧
      CarryEnd (A ++ l :: r :: C) (A ++ l2 :: r2 :: C) (gBal l r nl) := by
  intro l2 r2
  obtain ⟨n1, n2⟩ := nd_parts nd
  have nd' : (((A ++ [l]) ++ r :: C).map Blk.bid).Nodup := by simpa using nd
  obtain ⟨n3, n4⟩ := nd_parts nd'
  have lr : l.bid ≠ r.bid := n3 l (by simp)
  have out : ∀ q : Nat × Nat, q.1 ≠ l.bid → q.1 ≠ r.bid → gBal l r nl q = q := by
    intro q h1 h2
    unfold gBal
    simp [h1, h2]
  have key : ∀ (b p j : Nat), gBal l r nl (b, p) =
      (if j < nl then (l.bid, j) else (r.bid, j - nl)) → (l.els ++ r.els)[j]?.isSome →
      ∃ l' ∈ A ++ l2 :: r2 :: C, ∃ p', gBal l r nl (b, p) = (l'.bid, p') ∧ l'.els[p']? = (l.els ++ r.els)[j]? := by
    intro b p j hg hj
    rw [hg]
    by_cases h : j < nl
    · exact ⟨l2, by simp, j, by rw [if_pos h], by show ((l.els ++ r.els).take nl)[j]? = _; rw [List.getElem?_take, if_pos h]⟩
    · refine ⟨r2, by simp, j - nl, by rw [if_neg h], ?_⟩
      show ((l.els ++ r.els).drop nl)[_]? = _
      rw [List.getElem?_drop, show nl + (j - nl) = j by omega]
  constructor
  · intro m hm p e he _
    have hp : p < m.els.length := by
      by_contra hh; rw [List.getElem?_eq_none (by omega)] at he; cases he
    simp only [List.mem_append, List.mem_cons] at hm
    rcases hm with h | rfl | rfl | h
    · exact ⟨m, by simp [h], p, out _ (n1 m h) (n3 m (by simp [h])), he⟩
    · have e1 : (m.els ++ r.els)[p]? = some e := by rw [List.getElem?_append_left hp, he]
      have := key m.bid p p ?_ (by rw [e1]; rfl)
      · rw [e1] at this; exact this
      · unfold gBal
        by_cases hc : nl < m.els.length
        · rw [if_pos hc, if_neg (by simp [lr])]
          by_cases h : p < nl
          · rw [if_pos h, if_neg (by simp; omega)]
          · rw [if_neg h, if_pos ⟨rfl, by simpa using h, by simp; omega⟩]
        · rw [if_neg hc, if_pos (show p < nl by omega)]
          simp [lr]
    · have e1 : (l.els ++ m.els)[p + l.els.length]? = some e := by
        rw [List.getElem?_append_right (by omega), Nat.add_sub_cancel, he]
      have := key m.bid p (p + l.els.length) ?_ (by rw [e1]; rfl)
      · rw [e1] at this; exact this
      · unfold gBal
        by_cases hc : nl < l.els.length
        · rw [if_pos hc, if_pos ⟨rfl, by simp; omega⟩, if_neg (by omega)]
          simp; omega
        · rw [if_neg hc]
          have := hpos (by omega)
          by_cases h : p + l.els.length < nl
          · rw [if_pos h]; dsimp only; rw [if_neg (by simp; omega), if_pos ⟨rfl, by omega⟩]
          · rw [if_neg h]; dsimp only; rw [if_pos ⟨rfl, by omega, by omega⟩]
            simp; omega
    · exact ⟨m, by simp [h], p, out _ (n2 m (by simp [h])) (n4 m h), he⟩
  · intro m hm
    rcases List.eq_nil_or_concat C with rfl | ⟨C', z, rfl⟩
    · have : m = r := by
        have e : (A ++ [l, r]).getLast? = some r := by simp
        rw [e] at hm; cases hm; rfl
      subst this
      refine ⟨r2, by simp, ?_⟩
      unfold gBal
      by_cases hc : nl < l.els.length
      · rw [if_pos hc, if_pos ⟨rfl, Nat.le_refl _⟩]
        simp [r2]; omega
      · rw [if_neg hc]; dsimp only; rw [if_pos ⟨rfl, by omega, Nat.le_refl _⟩]
        simp [r2]; omega
    · have e : (A ++ l :: r :: (C'.concat z)).getLast? = some z := last2 _ _ _ _ _
      have e' : (A ++ l2 :: r2 :: (C'.concat z)).getLast? = some z := last2 _ _ _ _ _
      rw [e] at hm; have hm := Option.some.inj hm; subst hm
      exact ⟨z, e', out _ (n2 z (by simp)) (n4 z (by simp))⟩

end BTree
