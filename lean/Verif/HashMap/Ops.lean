import Verif.HashMap.Inv

/-! # Effect of the operations on one bucket -/
namespace Verif.HashMap
variable {K V : Type} {P : Params K V}

/-- Where a key can be: in the buffer; in external memory; nowhere. -/
inductive Loc (P : Params K V) (s : HMap K V) (b : Bucket K V) (k : K) : Prop
  | node (n : Node K V) (h1 : findInt P k none b.list = some n) (h2 : n ∈ b.list) (h3 : n.key = k)
      (h4 : (findInt P k none b.list).filter (fun n => P.eqv n.key k) = some n)
      (h5 : ∀ v, Has P s k v ↔ n.del = false ∧ n.val = v)
  | ext (l1 l2 : List (Node K V)) (v : V) (i : Nat) (h1 : b.list = l1 ++ l2)
      (h2 : ∀ n ∈ l1, P.lt n.key k = true) (h3 : ∀ n ∈ l2, P.lt k n.key = true)
      (h4 : findInt P k none b.list = l1.getLast?)
      (h5 : (findInt P k none b.list).filter (fun n => P.eqv n.key k) = none)
      (h6 : i < b.nExt) (h7 : s.mem (bstart P b + i) = (k, v)) (h8 : findExt P s.mem b k = (i, (k, v)))
      (h9 : ∀ v', Has P s k v' ↔ v' = v)
  | no (l1 l2 : List (Node K V)) (h1 : b.list = l1 ++ l2)
      (h2 : ∀ n ∈ l1, P.lt n.key k = true) (h3 : ∀ n ∈ l2, P.lt k n.key = true)
      (h4 : findInt P k none b.list = l1.getLast?)
      (h5 : (findInt P k none b.list).filter (fun n => P.eqv n.key k) = none)
      (h8 : findExt P s.mem b k = (b.nExt, (P.dk, P.dv)))
      (h9 : ∀ v', ¬ Has P s k v')

theorem sortedN_unique (ok : P.OK) {l : List (Node K V)} (hs : SortedN P l) {a b : Node K V}
    (ha : a ∈ l) (hb : b ∈ l) (h : a.key = b.key) : a = b := by
  induction l with
  | nil => simp at ha
  | cons n ns ih =>
    unfold SortedN at hs
    rw [List.pairwise_cons] at hs
    rcases List.mem_cons.1 ha with rfl | ha' <;> rcases List.mem_cons.1 hb with rfl | hb'
    · rfl
    · exact absurd h (ok.lt_ne (hs.1 b hb'))
    · exact absurd h.symm (ok.lt_ne (hs.1 a ha'))
    · exact ih hs.2 ha' hb'

theorem sortedV_unique (ok : P.OK) {l : List (K × V)} (hs : SortedV P l) {a b : K × V}
    (ha : a ∈ l) (hb : b ∈ l) (h : a.1 = b.1) : a = b := by
  induction l with
  | nil => simp at ha
  | cons n ns ih =>
    unfold SortedV at hs
    rw [List.pairwise_cons] at hs
    rcases List.mem_cons.1 ha with rfl | ha' <;> rcases List.mem_cons.1 hb with rfl | hb'
    · rfl
    · exact absurd h (ok.lt_ne (hs.1 b hb'))
    · exact absurd h.symm (ok.lt_ne (hs.1 a ha'))
    · exact ih hs.2 ha' hb'

section
variable (ok : P.OK)
include ok

theorem locate {s : HMap K V} (I : Inv P s) (k : K) (b : Bucket K V)
    (hb : s.buckets[P.bktNum s.buckets.length k]? = some b) : Loc P s b k := by
  have B := I.bok _ b hb
  have hHas : ∀ v, Has P s k v ↔ LHas b.list (bext P s.mem b) k v := by
    intro v
    unfold Has
    rw [hb]
    constructor
    · rintro ⟨b', e, h⟩; cases e; exact h
    · intro h; exact ⟨b, rfl, h⟩
  rcases findInt_cases ok k b.list B.sn with ⟨n, h1, h2, h3⟩ | ⟨l1, l2, h1, h2, h3, h4⟩
  · refine Loc.node n h1 h2 h3 ?_ ?_
    · rw [h1]
      simp [(ok.eqv_iff n.key k).2 h3]
    · intro v
      rw [hHas]
      constructor
      · rintro (⟨y, y1, y2, y3, y4⟩ | ⟨y1, _⟩)
        · have := sortedN_unique ok B.sn y1 h2 (by rw [y2, h3])
          subst this; exact ⟨y3, y4⟩
        · exact absurd h3 (y1 n h2)
      · rintro ⟨y1, y2⟩
        exact Or.inl ⟨n, h2, h3, y1, y2⟩
  · have hno : ∀ n ∈ b.list, n.key ≠ k := by
      intro n hn
      rw [h1] at hn
      rcases List.mem_append.1 hn with hn | hn
      · exact ok.lt_ne (h2 n hn)
      · exact (ok.lt_ne (h3 n hn)).symm
    have hf : (findInt P k none b.list).filter (fun n => P.eqv n.key k) = none := by
      rw [h4, Option.filter_eq_none_iff]
      intro a ha
      rw [ok.eqv_iff]
      exact hno a (by rw [h1]; exact List.mem_append_left _ (List.mem_of_getLast? ha))
    rcases findExt_spec ok s.mem b k B.sv with ⟨i, e1, e2, e3⟩ | ⟨e1, e2⟩
    · generalize hx : s.mem (bstart P b + i) = x at *
      obtain ⟨x1, x2⟩ := x
      dsimp only at e2
      subst e2
      refine Loc.ext l1 l2 x2 i h1 h2 h3 h4 hf e1 hx e3 ?_
      intro v'
      rw [hHas]
      have hin : (x1, x2) ∈ bext P s.mem b := mem_extL.2 ⟨i, e1, hx⟩
      constructor
      · rintro (⟨y, y1, y2, _⟩ | ⟨_, y2⟩)
        · exact absurd y2 (hno y y1)
        · have := sortedV_unique ok B.sv y2 hin rfl
          cases this; rfl
      · rintro rfl
        exact Or.inr ⟨hno, hin⟩
    · refine Loc.no l1 l2 h1 h2 h3 h4 hf e2 ?_
      intro v'
      rw [hHas]
      rintro (⟨y, y1, y2, _⟩ | ⟨_, y2⟩)
      · exact absurd y2 (hno y y1)
      · obtain ⟨i, i1, i2⟩ := mem_extL.1 y2
        exact e1 i i1 (by rw [i2])

end

theorem sum_set (l : List (Bucket K V)) (i : Nat) (b b' : Bucket K V) (h : l[i]? = some b) :
    ((l.set i b').map fun b => b.list.length).sum + b.list.length =
      (l.map fun b => b.list.length).sum + b'.list.length := by
  induction l generalizing i with
  | nil => simp at h
  | cons a l ih =>
    cases i with
    | zero =>
      simp only [List.getElem?_cons_zero, Option.some.injEq] at h
      subst h
      simp; omega
    | succ i =>
      rw [List.getElem?_cons_succ] at h
      have := ih i h
      simp only [List.set_cons_succ, List.map_cons, List.sum_cons]
      omega

/-- Changing the buffer list of one bucket. -/
theorem change_bucket {s s' : HMap K V} (I : Inv P s) {i : Nat} {b : Bucket K V}
    (hb : s.buckets[i]? = some b) (l : List (Node K V))
    (e1 : s'.buckets = s.buckets.set i { b with list := l }) (e2 : s'.mem = s.mem)
    (e3 : s'.nBids = s.nBids) (e4 : s.nextAddr ≤ s'.nextAddr)
    (e5 : s'.bufSize + b.list.length = s.bufSize + l.length)
    (h1 : SortedN P l) (h2 : ∀ x ∈ l, P.bktNum s.buckets.length x.key = i)
    (h3 : (l.map (·.addr)).Nodup) (h4 : ∀ x ∈ l, x.addr < s'.nextAddr) :
    Inv P s' ∧ ∀ k v, Has P s' k v ↔
      (P.bktNum s.buckets.length k = i ∧ LHas l (bext P s.mem b) k v) ∨
      (P.bktNum s.buckets.length k ≠ i ∧ Has P s k v) := by
  have hlen : s'.buckets.length = s.buckets.length := by rw [e1, List.length_set]
  have hi : i < s.buckets.length := (List.getElem?_eq_some_iff.1 hb).1
  have B := I.bok i b hb
  have hget : ∀ j, s'.buckets[j]? = if i = j then some { b with list := l } else s.buckets[j]? := by
    intro j
    rw [e1, List.getElem?_set]
    by_cases h : i = j
    · rw [if_pos h, if_pos h, if_pos hi]
    · rw [if_neg h, if_neg h]
  have hmem : ∀ x ∈ s'.buckets, ∃ y ∈ s.buckets, x.nExt = y.nExt ∧ x.iBlock = y.iBlock ∧
      x.iSub = y.iSub := by
    intro x hx
    obtain ⟨j, hj⟩ := List.mem_iff_getElem?.1 hx
    rw [hget] at hj
    split_ifs at hj with h
    · cases hj
      exact ⟨b, List.mem_of_getElem? hb, rfl, rfl, rfl⟩
    · exact ⟨x, List.mem_of_getElem? hj, rfl, rfl, rfl⟩
  refine ⟨⟨⟨?_, ?_, ?_⟩, ?_, ?_, ?_⟩, ?_⟩
  · intro h x hx
    obtain ⟨y, y1, y2, y3, y4⟩ := hmem x hx
    rw [y2, y3]
    exact I.lay.zero (by rw [← e3]; exact h) y y1
  · intro h x hx
    obtain ⟨y, y1, y2, y3, y4⟩ := hmem x hx
    have := I.lay.pos (by rw [← e3]; exact h) y y1
    unfold bstart at this ⊢
    rw [y2, y3, y4, e3]
    exact this
  · rw [List.pairwise_iff_getElem]
    intro p q hp hq hpq
    have h := (List.pairwise_iff_getElem.1 I.lay.ord) p q (by omega) (by omega) hpq
    have key : ∀ (p : Nat) (hp : p < s'.buckets.length), bstart P s'.buckets[p] =
        bstart P (s.buckets[p]'(by omega)) ∧ s'.buckets[p].nExt = (s.buckets[p]'(by omega)).nExt := by
      intro p hp
      have := hget p
      rw [List.getElem?_eq_getElem hp] at this
      split_ifs at this with h
      · subst h
        have hbb : s.buckets[i] = b := by
          rw [List.getElem?_eq_getElem hi] at hb; exact Option.some.inj hb
        rw [Option.some.inj this, hbb]
        exact ⟨rfl, rfl⟩
      · rw [List.getElem?_eq_getElem (by omega)] at this
        rw [Option.some.inj this]
        exact ⟨rfl, rfl⟩
    rw [(key p hp).1, (key p hp).2, (key q hq).1]
    exact h
  · intro x hx
    rw [List.head?_eq_getElem?] at hx
    have h0 := hget 0
    rw [hx] at h0
    split_ifs at h0 with h
    · subst h
      rw [Option.some.inj h0]
      have := I.first b (by rw [List.head?_eq_getElem?, hb]; rfl)
      exact this
    · exact I.first x (by rw [List.head?_eq_getElem?, ← h0]; rfl)
  · intro j x hx
    rw [hget] at hx
    rw [hlen, e2]
    split_ifs at hx with h
    · subst h
      cases hx
      exact ⟨h1, B.sv, h2, B.eb, h3, h4⟩
    · have Bx := I.bok j x hx
      exact ⟨Bx.sn, Bx.sv, Bx.nb, Bx.eb, Bx.nd, fun y hy => Nat.lt_of_lt_of_le (Bx.na y hy) e4⟩
  · have := sum_set s.buckets i b { b with list := l } hb
    rw [← e1, ← I.buf] at this
    dsimp only at this
    omega
  · intro k v
    unfold Has
    rw [hlen, hget, e2]
    by_cases h : P.bktNum s.buckets.length k = i
    · rw [if_pos h.symm]
      constructor
      · rintro ⟨x, hx, hl⟩
        cases hx
        exact Or.inl ⟨h, hl⟩
      · rintro (⟨_, hl⟩ | ⟨h', _⟩)
        · exact ⟨_, rfl, hl⟩
        · exact absurd h h'
    · rw [if_neg (fun e => h e.symm)]
      constructor
      · intro hx; exact Or.inr ⟨h, hx⟩
      · rintro (⟨h', _⟩ | ⟨_, hx⟩)
        · exact absurd h' h
        · exact hx

theorem LHas_change {l l' : List (Node K V)} {es : List (K × V)} {x : Node K V}
    (h1 : ∀ n, n.key ≠ x.key → (n ∈ l' ↔ n ∈ l)) (h2 : ∀ n, n.key = x.key → (n ∈ l' ↔ n = x))
    (k : K) (v : V) : LHas l' es k v ↔
      (k = x.key ∧ x.del = false ∧ x.val = v) ∨ (k ≠ x.key ∧ LHas l es k v) := by
  unfold LHas
  constructor
  · rintro (⟨n, n1, n2, n3, n4⟩ | ⟨n1, n2⟩)
    · by_cases h : n.key = x.key
      · have := (h2 n h).1 n1
        subst this
        exact Or.inl ⟨n2.symm, n3, n4⟩
      · exact Or.inr ⟨by rw [← n2]; exact h, Or.inl ⟨n, (h1 n h).1 n1, n2, n3, n4⟩⟩
    · by_cases h : k = x.key
      · exact absurd h.symm (n1 x ((h2 x rfl).2 rfl))
      · refine Or.inr ⟨h, Or.inr ⟨?_, n2⟩⟩
        intro n hn e
        exact n1 n ((h1 n (by rw [e]; exact h)).2 hn) e
  · rintro (⟨rfl, h4, h5⟩ | ⟨h, ⟨n, n1, n2, n3, n4⟩ | ⟨n1, n2⟩⟩)
    · exact Or.inl ⟨x, (h2 x rfl).2 rfl, rfl, h4, h5⟩
    · exact Or.inl ⟨n, (h1 n (by rw [n2]; exact h)).2 n1, n2, n3, n4⟩
    · refine Or.inr ⟨?_, n2⟩
      intro n hn e
      exact n1 n ((h1 n (by rw [e]; exact h)).1 hn) e

section
variable (ok : P.OK)
include ok

/-- Linking a new node for a key without buffer node. -/
theorem add_node {s s' : HMap K V} (I : Inv P s) {b : Bucket K V} {k : K}
    (hb : s.buckets[P.bktNum s.buckets.length k]? = some b) {l1 l2 : List (Node K V)}
    (h1 : b.list = l1 ++ l2) (h2 : ∀ n ∈ l1, P.lt n.key k = true)
    (h3 : ∀ n ∈ l2, P.lt k n.key = true) {nd : Option (Node K V)} (h4 : nd = l1.getLast?)
    (v : V) (del : Bool)
    (e1 : s'.buckets = (s.addNode (P.bktNum s.buckets.length k) b nd k v del).buckets)
    (e2 : s'.mem = s.mem) (e3 : s'.nBids = s.nBids) (e4 : s'.nextAddr = s.nextAddr + 1)
    (e5 : s'.bufSize = s.bufSize + 1) :
    Inv P s' ∧ s'.buckets.length = s.buckets.length ∧ ∀ k' v', Has P s' k' v' ↔
      (k' = k ∧ del = false ∧ v = v') ∨ (k' ≠ k ∧ Has P s k' v') := by
  have B := I.bok _ b hb
  obtain ⟨x, hx⟩ : ∃ x : Node K V, x = ⟨s.nextAddr, k, v, del⟩ := ⟨_, rfl⟩
  have hlink : link nd x b.list = l1 ++ x :: l2 := by
    rw [h4, h1]; exact link_split x l1 l2 (by rw [← h1]; exact B.nd)
  have hxk : x.key = k := by rw [hx]
  have hkeys : ∀ n ∈ b.list, n.key ≠ k := by
    intro n hn
    rw [h1] at hn
    rcases List.mem_append.1 hn with hn | hn
    · exact ok.lt_ne (h2 n hn)
    · exact (ok.lt_ne (h3 n hn)).symm
  have hmem : ∀ n, n ∈ l1 ++ x :: l2 ↔ n = x ∨ n ∈ b.list := by
    intro n; rw [h1]; simp only [List.mem_append, List.mem_cons]
    constructor
    · rintro (h | h | h)
      · exact Or.inr (Or.inl h)
      · exact Or.inl h
      · exact Or.inr (Or.inr h)
    · rintro (h | h | h)
      · exact Or.inr (Or.inl h)
      · exact Or.inl h
      · exact Or.inr (Or.inr h)
  have hbk : s'.buckets = s.buckets.set (P.bktNum s.buckets.length k) { b with list := l1 ++ x :: l2 } := by
    rw [e1, ← hlink, hx]; rfl
  obtain ⟨I', hH⟩ := change_bucket I hb (l1 ++ x :: l2) hbk e2 e3 (by omega)
    (by rw [e5, h1]; simp; omega)
    (by
      have hsn := B.sn
      rw [h1] at hsn
      unfold SortedN at hsn ⊢
      rw [List.pairwise_append] at hsn ⊢
      rw [List.pairwise_cons]
      refine ⟨hsn.1, ⟨?_, hsn.2.1⟩, ?_⟩
      · intro y hy; rw [hxk]; exact h3 y hy
      · intro y hy z hz
        rcases List.mem_cons.1 hz with rfl | hz
        · rw [hxk]; exact h2 y hy
        · exact hsn.2.2 y hy z hz)
    (by
      intro y hy
      rcases (hmem y).1 hy with rfl | hy
      · rw [hxk]
      · exact B.nb y hy)
    (by
      have hp : ((l1 ++ x :: l2).map (·.addr)).Perm (x.addr :: (b.list.map (·.addr))) := by
        rw [h1]
        rw [← List.map_cons (f := fun n : Node K V => n.addr)]
        exact List.Perm.map _ List.perm_middle
      rw [hp.nodup_iff, List.nodup_cons]
      refine ⟨?_, B.nd⟩
      intro h
      obtain ⟨y, hy, e⟩ := List.mem_map.1 h
      have := B.na y hy
      rw [hx] at e
      dsimp only at e
      omega)
    (by
      intro y hy
      rcases (hmem y).1 hy with rfl | hy
      · rw [e4, hx]; exact Nat.lt_succ_self _
      · have := B.na y hy; omega)
  refine ⟨I', by rw [hbk, List.length_set], ?_⟩
  intro k' v'
  rw [hH, LHas_change (x := x) (l := b.list)
    (by intro n hn; rw [hmem]; constructor
        · rintro (rfl | h)
          · exact absurd rfl hn
          · exact h
        · exact Or.inr)
    (by intro n hn; rw [hmem]; constructor
        · rintro (h | h)
          · exact h
          · exact absurd (hn.trans hxk) (hkeys n h)
        · exact Or.inl)]
  have hval : x.val = v := by rw [hx]
  have hdel : x.del = del := by rw [hx]
  rw [hxk, hval, hdel]
  have hHas : P.bktNum s.buckets.length k' = P.bktNum s.buckets.length k →
      (LHas b.list (bext P s.mem b) k' v' ↔ Has P s k' v') := by
    intro h
    unfold Has
    rw [h, hb]
    constructor
    · intro hl; exact ⟨b, rfl, hl⟩
    · rintro ⟨b', e, hl⟩; cases e; exact hl
  constructor
  · rintro (⟨h, h' | ⟨h1', h2'⟩⟩ | ⟨h, h'⟩)
    · exact Or.inl h'
    · exact Or.inr ⟨h1', (hHas h).1 h2'⟩
    · exact Or.inr ⟨by rintro rfl; exact h rfl, h'⟩
  · rintro (⟨rfl, h⟩ | ⟨h, h'⟩)
    · exact Or.inl ⟨rfl, Or.inl ⟨rfl, h⟩⟩
    · by_cases hbk : P.bktNum s.buckets.length k' = P.bktNum s.buckets.length k
      · exact Or.inl ⟨hbk, Or.inr ⟨h, (hHas hbk).2 h'⟩⟩
      · exact Or.inr ⟨hbk, h'⟩

/-- Changing a buffer node in place. -/
theorem mod_node {s s' : HMap K V} (I : Inv P s) {b : Bucket K V} {k : K}
    (hb : s.buckets[P.bktNum s.buckets.length k]? = some b) {n : Node K V} (hn : n ∈ b.list)
    (hk : n.key = k) (f : Node K V → Node K V) (hf : (f n).key = k) (hfa : (f n).addr = n.addr)
    (e1 : s'.buckets = (s.modNode (P.bktNum s.buckets.length k) b n.addr f).buckets)
    (e2 : s'.mem = s.mem) (e3 : s'.nBids = s.nBids) (e4 : s'.nextAddr = s.nextAddr)
    (e5 : s'.bufSize = s.bufSize) :
    Inv P s' ∧ s'.buckets.length = s.buckets.length ∧ ∀ k' v', Has P s' k' v' ↔
      (k' = k ∧ (f n).del = false ∧ (f n).val = v') ∨ (k' ≠ k ∧ Has P s k' v') := by
  have B := I.bok _ b hb
  have huniq : ∀ y ∈ b.list, y.addr = n.addr → y = n := by
    intro y hy e
    exact List.inj_on_of_nodup_map B.nd hy hn e
  have hbk : s'.buckets = s.buckets.set (P.bktNum s.buckets.length k)
      { b with list := updNode n.addr f b.list } := by rw [e1]; rfl
  have hmem : ∀ y, y ∈ updNode n.addr f b.list ↔ (y = f n) ∨ (y ∈ b.list ∧ y.key ≠ k) := by
    intro y
    unfold updNode
    rw [List.mem_map]
    constructor
    · rintro ⟨z, hz, rfl⟩
      split_ifs with h
      · have := huniq z hz h; subst this; exact Or.inl rfl
      · refine Or.inr ⟨hz, ?_⟩
        intro hzk
        exact h (by rw [sortedN_unique ok B.sn hz hn (by rw [hzk, hk])])
    · rintro (rfl | ⟨hy, hyk⟩)
      · exact ⟨n, hn, by rw [if_pos rfl]⟩
      · refine ⟨y, hy, ?_⟩
        rw [if_neg]
        intro h
        exact hyk (by rw [huniq y hy h, hk])
  have hkeyEq : ∀ y ∈ b.list, (if y.addr = n.addr then f y else y).key = y.key ∧
      (if y.addr = n.addr then f y else y).addr = y.addr := by
    intro y hy
    split_ifs with h
    · have := huniq y hy h; subst this; exact ⟨by rw [hf, hk], hfa⟩
    · exact ⟨rfl, rfl⟩
  have haddr : (updNode n.addr f b.list).map (·.addr) = b.list.map (·.addr) := by
    unfold updNode
    rw [List.map_map]
    exact List.map_congr_left fun y hy => (hkeyEq y hy).2
  obtain ⟨I', hH⟩ := change_bucket I hb (updNode n.addr f b.list) hbk e2 e3 (by omega)
    (by rw [e5]; simp [updNode])
    (by
      unfold SortedN updNode
      rw [List.pairwise_map]
      exact (List.Pairwise.imp_of_mem (fun {a c} ha hc h => by
        rw [(hkeyEq a ha).1, (hkeyEq c hc).1]; exact h) B.sn))
    (by
      intro y hy
      rcases (hmem y).1 hy with rfl | ⟨hy, _⟩
      · rw [hf]
      · exact B.nb y hy)
    (by rw [haddr]; exact B.nd)
    (by
      intro y hy
      rw [e4]
      have : y.addr ∈ (updNode n.addr f b.list).map (·.addr) := List.mem_map_of_mem hy
      rw [haddr] at this
      obtain ⟨z, hz, e⟩ := List.mem_map.1 this
      have := B.na z hz
      omega)
  refine ⟨I', by rw [hbk, List.length_set], ?_⟩
  intro k' v'
  rw [hH, LHas_change (x := f n) (l := b.list)
    (by intro y hy; rw [hmem]; constructor
        · rintro (rfl | h)
          · exact absurd rfl hy
          · exact h.1
        · exact fun h => Or.inr ⟨h, by rw [← hf]; exact hy⟩)
    (by intro y hy; rw [hmem]; constructor
        · rintro (h | h)
          · exact h
          · exact absurd (hy.trans hf) h.2
        · exact Or.inl), hf]
  have hHas : P.bktNum s.buckets.length k' = P.bktNum s.buckets.length k →
      (LHas b.list (bext P s.mem b) k' v' ↔ Has P s k' v') := by
    intro h
    unfold Has
    rw [h, hb]
    constructor
    · intro hl; exact ⟨b, rfl, hl⟩
    · rintro ⟨b', e, hl⟩; cases e; exact hl
  constructor
  · rintro (⟨h, h' | ⟨h1', h2'⟩⟩ | ⟨h, h'⟩)
    · exact Or.inl h'
    · exact Or.inr ⟨h1', (hHas h).1 h2'⟩
    · exact Or.inr ⟨by rintro rfl; exact h rfl, h'⟩
  · rintro (⟨rfl, h⟩ | ⟨h, h'⟩)
    · exact Or.inl ⟨rfl, Or.inl ⟨rfl, h⟩⟩
    · by_cases hbk : P.bktNum s.buckets.length k' = P.bktNum s.buckets.length k
      · exact Or.inl ⟨hbk, Or.inr ⟨h, (hHas hbk).2 h'⟩⟩
      · exact Or.inr ⟨hbk, h'⟩

end
end Verif.HashMap
