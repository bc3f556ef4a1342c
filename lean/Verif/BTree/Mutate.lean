/-
Assignment through an iterator, construction, `clear`, and the erasures by iterator.
-/
import Verif.BTree.Search

namespace BTree
variable {K V : Type} [LinearOrder K]

/-! ### Assignment -/

section
variable {bid p : Nat} {f : K × V → K × V}

/-- What `setAt` does to one leaf. -/
def setLeaf (bid p : Nat) (f : K × V → K × V) (l : Blk K V) : Blk K V :=
  if l.bid = bid then { l with els := l.els.modify p f } else l

omit [LinearOrder K] in
@[simp] theorem setLeaf_bid (l : Blk K V) : (setLeaf bid p f l).bid = l.bid := by unfold setLeaf; split <;> rfl
omit [LinearOrder K] in
@[simp] theorem setLeaf_len (l : Blk K V) : (setLeaf bid p f l).els.length = l.els.length := by
  unfold setLeaf; split <;> simp
omit [LinearOrder K] in
theorem setLeaf_keys (hf : ∀ q, (f q).1 = q.1) (l : Blk K V) : (setLeaf bid p f l).els.map Prod.fst = l.els.map Prod.fst := by
  unfold setLeaf
  split
  · dsimp only
    apply List.ext_getElem?
    intro i
    simp only [List.getElem?_map, List.getElem?_modify]
    cases l.els[i]? with
    | none => simp
    | some e => simp only [Option.map_some, Option.some.injEq]; split <;> simp [hf]
  · rfl

omit [LinearOrder K] in
theorem setAt_leaves : ∀ (h : Nat) (b : Tree K V h), leaves h (setAt bid p f h b) = (leaves h b).map (setLeaf bid p f)
  | 0, b => rfl
  | h + 1, b => by
    show (b.els.map _).flatMap _ = (b.els.flatMap _).map _
    rw [List.flatMap_map, List.map_flatMap]
    congr 1
    funext e
    exact setAt_leaves h e.2

omit [LinearOrder K] in
theorem setAt_bid (h : Nat) (b : Tree K V h) : (setAt bid p f h b).bid = b.bid := by
  cases h with
  | zero => unfold setAt; split <;> rfl
  | succ h => rfl

omit [LinearOrder K] in
theorem setAt_len (h : Nat) (b : Tree K V h) : (setAt bid p f h b).els.length = b.els.length := by
  cases h with
  | zero => unfold setAt; split <;> simp
  | succ h => simp [setAt]

omit [LinearOrder K] in
theorem setAt_dealloc : ∀ (h : Nat) (b : Tree K V h), dealloc h (setAt bid p f h b) = dealloc h b
  | 0, b => by show [(setAt bid p f 0 b).bid] = [b.bid]; rw [setAt_bid]
  | h + 1, b => by
    show (b.els.map _).flatMap _ ++ [b.bid] = b.els.flatMap _ ++ [b.bid]
    rw [List.flatMap_map]
    congr 2
    funext e
    exact setAt_dealloc h e.2

theorem kids_map {X : Type} {P : Option K → K → X → Prop} {g : X → X} (hg : ∀ lo k x, P lo k x → P lo k (g x)) :
    ∀ {els : List (K × X)} {lo hi : Option K}, Kids P lo els hi → Kids P lo (els.map (fun e => (e.1, g e.2))) hi
  | [], _, _, h => h
  | _ :: _, _, _, ⟨h1, h2, h3⟩ => ⟨h1, hg _ _ _ h2, kids_map hg h3⟩

theorem setAt_ord (hf : ∀ q, (f q).1 = q.1) : ∀ {h : Nat} {b : Tree K V h} {lo : Option K} {hi : K},
    OrdE h lo hi b.els → OrdE h lo hi (setAt bid p f h b).els
  | 0, b, lo, hi, ⟨h1, h2⟩ => by
    have hk := setLeaf_keys (bid := bid) (p := p) hf b
    constructor
    · have : (b.els.map Prod.fst).Pairwise (· < ·) := List.pairwise_map.mpr h1
      rw [← hk] at this
      exact List.pairwise_map.mp this
    · intro e he
      have he' : e ∈ (setLeaf bid p f b).els := he
      have : e.1 ∈ (setLeaf bid p f b).els.map Prod.fst := List.mem_map.mpr ⟨e, he', rfl⟩
      rw [hk] at this
      obtain ⟨e', h3, h4⟩ := List.mem_map.mp this
      rw [← h4]; exact h2 e' h3
  | h + 1, b, lo, hi, ho => kids_map (P := fun lo k (b : Tree K V h) => OrdE h lo k b.els) (g := setAt bid p f h) (fun _ _ _ hh => setAt_ord hf hh) ho

theorem setAt_good {c : Cfg K} : ∀ {h : Nat} {b : Tree K V h}, GoodE c h b.els → GoodE c h (setAt bid p f h b).els
  | 0, _, _ => trivial
  | h + 1, b, hg => by
    intro e he
    simp only [setAt, List.mem_map] at he
    obtain ⟨e', h1, rfl⟩ := he
    obtain ⟨g1, g2, g3⟩ := hg e' h1
    dsimp only
    rw [setAt_len]
    exact ⟨g1, g2, setAt_good g3⟩

end

theorem head_map_bid {bid p : Nat} {f : K × V → K × V} (Ls : List (Blk K V)) :
    (Ls.map (setLeaf bid p f)).map Blk.bid = Ls.map Blk.bid := by
  simp

theorem assign_ok {c : Cfg K} {R : List Nat} {s : St K V} (hI : Inv c R s) {id : Nat} {k : K} (v : V)
    (hp : Pts s.leaves s.w id k) :
    ∃ s', assign s id v = some s' ∧ Inv c R s' ∧ s'.w = s.w ∧ s'.h = s.h ∧
      ents s'.leaves = (ents s.leaves).map (fun e => if e.1 = k then (k, v) else e) ∧
      (∀ i k', Pts s.leaves s.w i k' → Pts s'.leaves s'.w i k') := by
  obtain ⟨A, l, C, p, v0, e1, e2, e3, e4, e5⟩ := pts_split hp
  have hso := hI.sorted
  have hlf := hI.lf
  have hl : l ∈ s.leaves := by rw [e1]; simp
  let f : K × V → K × V := fun q => (q.1, v)
  have hf : ∀ q, (f q).1 = q.1 := fun _ => rfl
  refine ⟨{ s with root := s.root.map (fun e => (e.1, setAt l.bid p f s.h e.2)) }, ?_, ?_⟩
  · unfold assign
    rw [e2]
    dsimp only
    rw [leafOf_eq hlf hl]
    dsimp only [Option.bind_some]
    rw [e3]
  · have hlv : ({ s with root := s.root.map (fun e => (e.1, setAt l.bid p f s.h e.2)) } : St K V).leaves =
        s.leaves.map (setLeaf l.bid p f) := by
      show (s.root.map _).flatMap _ = (s.root.flatMap _).map _
      rw [List.flatMap_map, List.map_flatMap]
      congr 1
      funext e
      exact setAt_leaves s.h e.2
    have hents : ents (s.leaves.map (setLeaf l.bid p f)) = (ents s.leaves).map (fun e => if e.1 = k then (k, v) else e) := by
      have hnd := hlf.nd
      rw [e1] at hnd
      obtain ⟨n1, n2⟩ := nd_parts hnd
      have hm : ∀ B : List (Blk K V), (∀ x ∈ B, x.bid ≠ l.bid) → B.map (setLeaf l.bid p f) = B := by
        intro B hB
        conv => rhs; rw [← List.map_id B]
        apply List.map_congr_left
        intro x hx; unfold setLeaf; rw [if_neg (hB x hx)]; rfl
      have hsl : (setLeaf l.bid p f l).els = l.els.take p ++ (k, v) :: l.els.drop (p + 1) := by
        unfold setLeaf
        rw [if_pos rfl]
        dsimp only
        rw [List.modify_eq_take_cons_drop e5]
        congr 2
        obtain ⟨h0, h3⟩ := List.getElem?_eq_some_iff.mp e3
        rw [h3]
      rw [e4] at hso ⊢
      have s1 := List.pairwise_append.mp hso
      have s2 := List.pairwise_cons.mp s1.2.1
      rw [e1, List.map_append, List.map_cons, hm A n1, hm C n2, ents_append, ents_cons, hsl]
      rw [List.map_append, List.map_cons, if_pos rfl]
      have h1 : (ents A ++ l.els.take p).map (fun e => if e.1 = k then (k, v) else e) = ents A ++ l.els.take p := by
        conv => rhs; rw [← List.map_id (ents A ++ l.els.take p)]
        apply List.map_congr_left
        intro e he
        rw [if_neg (ne_of_lt (s1.2.2 e he (k, v0) (by simp)))]; rfl
      have h2 : (l.els.drop (p + 1) ++ ents C).map (fun e => if e.1 = k then (k, v) else e) = l.els.drop (p + 1) ++ ents C := by
        conv => rhs; rw [← List.map_id (l.els.drop (p + 1) ++ ents C)]
        apply List.map_congr_left
        intro e he
        rw [if_neg (ne_of_gt (s2.1 e he))]; rfl
      rw [h1, h2]
      simp
    refine ⟨?_, rfl, rfl, by rw [hlv]; exact hents, ?_⟩
    · refine ⟨?_, ?_, ?_, ?_, hI.nd, ?_, ?_, ?_⟩
      · exact kids_map (P := fun lo k (b : Tree K V s.h) => OrdE s.h lo k b.els) (g := setAt l.bid p f s.h) (fun _ _ _ hh => setAt_ord hf hh) hI.ord
      · intro e he
        obtain ⟨e', h1, rfl⟩ := List.mem_map.mp he
        obtain ⟨g1, g2, g3⟩ := hI.good e' h1
        dsimp only
        rw [setAt_len, List.length_map]
        exact ⟨g1, setAt_good g2, g3⟩
      · show (s.root.map _).length ≤ _; rw [List.length_map]; exact hI.rmax
      · show _ → 2 ≤ (s.root.map _).length; rw [List.length_map]; exact hI.rmin
      · have : bidsK s.h (s.root.map (fun e => (e.1, setAt l.bid p f s.h e.2))) = bidsK s.h s.root := by
          unfold bidsK
          rw [List.flatMap_map]
          congr 1
          funext e
          exact setAt_dealloc s.h e.2
        show s.live.Perm (bidsK s.h (s.root.map _) ++ R)
        rw [this]; exact hI.live
      · rw [hlv]
        refine ⟨by rw [head_map_bid]; exact hlf.nd, ?_, ?_⟩
        · exact Links.map (A := s.leaves) (head_map_bid _).symm hlf.links
        · obtain ⟨z, z1, z2⟩ := hlf.fin
          refine ⟨setLeaf l.bid p f z, by rw [List.getLast?_map, z1]; rfl, ?_⟩
          simpa using z2
      · rw [hlv, hents, List.length_map]; exact hI.size
    · rintro i k' ⟨l', hl', p', v', h1, h2⟩
      rw [hlv]
      refine ⟨setLeaf l.bid p f l', List.mem_map_of_mem hl', p', ?_⟩
      by_cases hb : l'.bid = l.bid
      · have hll := bid_inj hlf.nd hl' hl hb
        subst hll
        by_cases hpp : p' = p
        · subst hpp
          refine ⟨v, by simpa using h1, ?_⟩
          unfold setLeaf; rw [if_pos rfl]; dsimp only
          rw [List.getElem?_modify, h2]; simp [f]
        · refine ⟨v', by simpa using h1, ?_⟩
          unfold setLeaf; rw [if_pos rfl]; dsimp only
          rw [List.getElem?_modify, h2]; simp; intro hh; exact absurd hh.symm hpp
      · refine ⟨v', by simpa using h1, ?_⟩
        unfold setLeaf; rw [if_neg hb]; exact h2

/-! ### Construction, destruction, clear -/

theorem foldl_erase_perm : ∀ {bs live R : List Nat}, live.Perm (bs ++ R) → (bs.foldl List.erase live).Perm R
  | [], _, _, h => h
  | b :: bs, live, R, h => foldl_erase_perm (bs := bs) (perm_erase h)

theorem foldl_root : ∀ {h : Nat} (els : List (K × Tree K V h)) (live : List Nat),
    els.foldl (fun live e => (dealloc h e.2).foldl List.erase live) live = (bidsK h els).foldl List.erase live
  | _, [], _ => rfl
  | h, e :: els, live => by
    rw [List.foldl_cons, foldl_root els, bidsK_cons, List.foldl_append]

/-- The destructor gives back exactly the blocks of the tree. -/
theorem dealloc_ok {c : Cfg K} {R : List Nat} {s : St K V} (hI : Inv c R s) : s.dealloc.Perm R := by
  unfold St.dealloc
  rw [foldl_root]
  exact foldl_erase_perm hI.live

theorem empty_ok {c : Cfg K} (hc : c.Ok) {pick : List Nat → Nat} (hpick : ∀ L, pick L ∉ L) {R live : List Nat}
    (hp : live.Perm R) (hn : R.Nodup) (w : W) :
    Inv c R (createEmptyLeaf (V := V) c pick w live) ∧ ents (createEmptyLeaf (V := V) c pick w live).leaves = [] := by
  have hmx := hc.max 0
  refine ⟨⟨?_, ?_, ?_, ?_, ?_, ?_, ?_, ?_⟩, rfl⟩
  · show GtO none c.mx ∧ OrdE (V := V) 0 none c.mx [] ∧ some c.mx = some c.mx
    exact ⟨fun a ha => (by cases ha), ⟨List.Pairwise.nil, by simp⟩, rfl⟩
  · intro e he
    obtain rfl : e = (c.mx, ({ bid := pick live, els := [] } : Blk K V)) := List.mem_singleton.mp he
    exact ⟨Nat.zero_le _, trivial, Or.inr ⟨rfl, rfl⟩⟩
  · have := hc.node
    show 1 ≤ c.maxN; omega
  · intro h; exact absurd rfl h
  · exact List.nodup_cons.mpr ⟨hpick _, hp.nodup_iff.mpr hn⟩
  · exact hp.cons _
  · refine ⟨by simp [createEmptyLeaf, St.leaves, leaves], ⟨?_, ?_, trivial⟩, ⟨_, rfl, ?_⟩⟩
    · simp [createEmptyLeaf, W.reg, upd, leaves]
    · simp [createEmptyLeaf, W.reg, upd, leaves]
    · simp [createEmptyLeaf, W.reg, leaves]
  · rfl

theorem ctor_ok {c : Cfg K} (hc : c.Ok) {pick : List Nat → Nat} (hpick : ∀ L, pick L ∉ L) {R : List Nat} (hn : R.Nodup) :
    Inv c R (ctor (V := V) c pick R) ∧ ents (ctor (V := V) c pick R).leaves = [] :=
  empty_ok hc hpick (List.Perm.refl _) hn _

theorem clear_ok {c : Cfg K} (hc : c.Ok) {pick : List Nat → Nat} (hpick : ∀ L, pick L ∉ L) {R : List Nat} {s : St K V}
    (hI : Inv c R s) : Inv c R (clear c pick s) ∧ ents (clear c pick s).leaves = [] := by
  refine empty_ok hc hpick (dealloc_ok hI) ?_ _
  have := hI.live.nodup_iff.mp hI.nd
  exact (List.nodup_append.mp this).2.1

/-! ### Erasing through iterators -/

theorem Inv.reg {c : Cfg K} {R : List Nat} {s : St K V} (hI : Inv c R s) {rid : Nat} (hr : rid ≠ 0) (q : Nat × Nat) :
    Inv c R { s with w := s.w.reg rid q } :=
  ⟨hI.ord, hI.good, hI.rmax, hI.rmin, hI.nd, hI.live, hI.lf.reg hr q, hI.size⟩

theorem eraseIt_ok {c : Cfg K} (hc : c.Ok) {R : List Nat} {s : St K V} (hI : Inv c R s) {id : Nat} {k : K}
    (hp : Pts s.leaves s.w id k) :
    ∃ s', eraseIt c s id = some (s', 1) ∧ Inv c R s' ∧ Keeps (fun k' => k' ≠ k) none s.leaves s'.leaves s.w s'.w ∧
      ErsEnts k (ents s.leaves) (ents s'.leaves) 1 := by
  obtain ⟨v, hd, hm⟩ := deref_ok hI.lf hp
  obtain ⟨s', r, h1, h2, h3, h4⟩ := erase_ok hc hI k (hI.keys _ hm)
  have hr : r = 1 := by
    rcases h4 with ⟨_, _, h⟩ | ⟨h, _⟩
    · exact absurd rfl (h _ hm)
    · exact h
  subst hr
  refine ⟨s', ?_, h2, h3, h4⟩
  unfold eraseIt
  rw [if_neg (pts_ne_end hI hp), hd]
  dsimp only
  rw [h1]
  dsimp only
  rw [if_pos]
  rw [h2.size, hI.size]
  rcases h4 with ⟨h, _⟩ | ⟨_, P, v', Q, e, e'⟩
  · omega
  · rw [e, e']; simp

end BTree
