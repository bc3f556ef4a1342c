import Verif.HashMap.IterBulk

/-! # Traversal -/
namespace Verif.HashMap
variable {K V : Type} {P : Params K V}

/-- The position of a traversal inside a bucket: nodes `pre` and the first `ie` external values are behind it. -/
structure Cut (P : Params K V) (mem : Nat → K × V) (b : Bucket K V) (pre nodes : List (Node K V)) (ie : Nat) : Prop where
  split : b.list = pre ++ nodes
  le : ie ≤ b.nExt
  extLt : ∀ j, j < ie → ∀ n ∈ nodes, P.lt (mem (bstart P b + j)).1 n.key = true
  nodeLt : ∀ n ∈ pre, ∀ j, ie ≤ j → j < b.nExt → P.lt n.key (mem (bstart P b + j)).1 = true

/-- Keys that are behind the traversal. -/
def Done (P : Params K V) (mem : Nat → K × V) (b : Bucket K V) (pre : List (Node K V)) (ie : Nat) (k : K) : Prop :=
  (∃ n ∈ pre, n.key = k) ∨ ∃ j, j < ie ∧ (mem (bstart P b + j)).1 = k

/-- The node remembered by the traversal. -/
def NodeIn (l pre : List (Node K V)) (fr : Bool) (node : Option Nat) : Prop :=
  ∀ a, node = some a → ∃ l1 n l2, l = l1 ++ n :: l2 ∧ n.addr = a ∧ (fr = false → n ∈ pre) ∧ ∀ y ∈ l1, y ∈ pre

/-- What the search in a bucket found. -/
def FoundOK (P : Params K V) (mem : Nat → K × V) (nB : Nat) (b : Bucket K V) (fr : Bool) (f : Found K) : Prop :=
  RAt P nB f.rd (bstart P b + f.iExt) ∧
  ((f.src = .internal ∧ (∃ n ∈ b.list, f.node = some n.addr ∧ n.key = f.key ∧ n.del = false) ∧
      ExtLe P mem b f.iExt f.key) ∨
   (f.src = .external ∧ f.iExt < b.nExt ∧ (mem (bstart P b + f.iExt)).1 = f.key ∧
      (∀ n ∈ b.list, n.key ≠ f.key) ∧ NodeP P b.list fr false f.node f.key))

/-- Result of the search in a bucket. -/
def ScanRes (P : Params K V) (mem : Nat → K × V) (nB : Nat) (b : Bucket K V) (fr : Bool) (pre : List (Node K V)) (ie : Nat)
    (res : Option (Found K) × Reader) : Prop :=
  match res with
  | (none, r') => RAt P nB r' (bstart P b + b.nExt) ∧
      ∀ k v, LHas b.list (bext P mem b) k v → Done P mem b pre ie k
  | (some f, _) => FoundOK P mem nB b fr f ∧ (∀ k, Done P mem b pre ie k → P.lt k f.key = true) ∧
      ∀ k v, LHas b.list (bext P mem b) k v → Done P mem b pre ie k ∨ P.leq f.key k = true

section
variable (ok : P.OK)
include ok

theorem leq_trans {a b c : K} (h1 : P.leq a b = true) (h2 : P.leq b c = true) : P.leq a c = true := by
  rw [ok.leq_iff] at *
  rcases h1 with h1 | rfl
  · rcases h2 with h2 | rfl
    · exact .inl (ok.lt_trans h1 h2)
    · exact .inl h1
  · exact h2

theorem lt_of_lt_leq {a b c : K} (h1 : P.lt a b = true) (h2 : P.leq b c = true) : P.lt a c = true := by
  rw [ok.leq_iff] at h2
  rcases h2 with h2 | rfl
  · exact ok.lt_trans h1 h2
  · exact h1

theorem lt_of_leq_lt {a b c : K} (h1 : P.leq a b = true) (h2 : P.lt b c = true) : P.lt a c = true := by
  rw [ok.leq_iff] at h1
  rcases h1 with h1 | rfl
  · exact ok.lt_trans h1 h2
  · exact h2

theorem itScan_ok (mem : Nat → K × V) (nB : Nat) (b : Bucket K V) (fr : Bool) (hsn : SortedN P b.list)
    (hsv : SortedV P (bext P mem b)) (h0 : nB = 0 → b.nExt = 0) (h1 : 0 < nB → bstart P b + b.nExt < nB * P.BB) :
    ∀ (nodes pre : List (Node K V)) (nd : Option Nat) (ie : Nat) (r : Reader), Cut P mem b pre nodes ie →
      NodeIn b.list pre fr nd → RAt P nB r (bstart P b + ie) →
      ScanRes P mem nB b fr pre ie (itScan P mem b.nExt nd nodes ie r) := by
  have hs := sortedV_extL.1 hsv
  -- stored keys
  have stored : ∀ {pre nodes : List (Node K V)} {ie : Nat}, b.list = pre ++ nodes → ∀ k v, LHas b.list (bext P mem b) k v →
      Done P mem b pre ie k ∨ (∃ n ∈ nodes, n.key = k ∧ n.del = false) ∨
        (∃ j, ie ≤ j ∧ j < b.nExt ∧ (mem (bstart P b + j)).1 = k ∧ ∀ n ∈ b.list, n.key ≠ k) := by
    intro pre nodes ie hsp k v h
    rcases h with ⟨n, a1, a2, a3, _⟩ | ⟨a1, a2⟩
    · rw [hsp] at a1
      rcases List.mem_append.1 a1 with a1 | a1
      · exact .inl (.inl ⟨n, a1, a2⟩)
      · exact .inr (.inl ⟨n, a1, a2, a3⟩)
    · unfold bext at a2
      obtain ⟨j, j1, j2⟩ := mem_extL.1 a2
      rcases Nat.lt_or_ge j ie with h | h
      · exact .inl (.inr ⟨j, h, by rw [j2]⟩)
      · exact .inr (.inr ⟨j, h, j1, by rw [j2], a1⟩)
  -- an external value is delivered
  have ext : ∀ (nodes pre : List (Node K V)) (nd : Option Nat) (ie : Nat) (r rr : Reader), Cut P mem b pre nodes ie →
      NodeIn b.list pre fr nd → RAt P nB r (bstart P b + ie) → ie < b.nExt →
      (∀ n ∈ nodes, P.lt (mem (bstart P b + ie)).1 n.key = true) →
      ScanRes P mem nB b fr pre ie (some ⟨.external, (mem (bstart P b + ie)).1, nd, ie, r⟩, rr) := by
    intro nodes pre nd ie r rr C N hr hi hn
    refine ⟨⟨hr, .inr ⟨rfl, hi, rfl, ?_, ?_⟩⟩, ?_, ?_⟩
    · intro n hm
      rw [C.split] at hm
      rcases List.mem_append.1 hm with hm | hm
      · exact ok.lt_ne (C.nodeLt n hm ie (Nat.le_refl _) hi)
      · exact (ok.lt_ne (hn n hm)).symm
    · intro a ha
      obtain ⟨l1, n, l2, e1, e2, e3, e4⟩ := N a ha
      exact ⟨l1, n, l2, e1, e2, fun h => C.nodeLt n (e3 h) ie (Nat.le_refl _) hi,
        fun _ y hy => C.nodeLt y (e4 y hy) ie (Nat.le_refl _) hi⟩
    · rintro k (⟨n, a1, rfl⟩ | ⟨j, a1, rfl⟩)
      · exact C.nodeLt n a1 ie (Nat.le_refl _) hi
      · exact hs j ie a1 hi
    · intro k v hk
      rcases stored C.split k v hk with h | ⟨n, h, rfl, _⟩ | ⟨j, a1, a2, a3, _⟩
      · exact .inl h
      · exact .inr (ok.lt_leq (hn n h))
      · right
        rw [ok.leq_iff, ← a3]
        by_cases hj : ie = j
        · right; rw [hj]
        · left; exact hs ie j (by omega) a2
  intro nodes
  induction nodes with
  | nil =>
    intro pre nd ie r C N hr
    unfold itScan
    split_ifs with hi
    · have hnB : 0 < nB := Nat.pos_of_ne_zero fun h => by have := h0 h; omega
      rw [hr.value ok hnB mem]
      exact ext [] pre nd ie r r C N hr hi (by simp)
    · have : ie = b.nExt := by have := C.le; omega
      refine ⟨by rw [← this]; exact hr, fun k v hk => ?_⟩
      rcases stored C.split k v hk with h | ⟨n, hn, _⟩ | ⟨j, a1, a2, _⟩
      · exact h
      · cases hn
      · omega
  | cons n ns ih =>
    intro pre nd ie r C N hr
    have hsn' := hsn
    rw [C.split] at hsn'
    unfold SortedN at hsn'
    rw [List.pairwise_append, List.pairwise_cons] at hsn'
    obtain ⟨_, ⟨g1, _⟩, g2⟩ := hsn'
    have hnm : n ∈ b.list := by rw [C.split]; simp
    have hpn : ∀ y ∈ pre, P.lt y.key n.key = true := fun y hy => g2 y hy n List.mem_cons_self
    have hsp' : b.list = (pre ++ [n]) ++ ns := by rw [C.split]; simp
    have N' : NodeIn b.list (pre ++ [n]) fr (some n.addr) := by
      intro a ha
      cases ha
      exact ⟨pre, n, ns, C.split, rfl, fun _ => by simp, fun y hy => by simp [hy]⟩
    -- a deleted node is passed
    have skip : ∀ ie' r', n.del = true → Cut P mem b (pre ++ [n]) ns ie' → RAt P nB r' (bstart P b + ie') → ie ≤ ie' →
        (∀ j, ie ≤ j → j < ie' → (mem (bstart P b + j)).1 = n.key) →
        ScanRes P mem nB b fr pre ie (itScan P mem b.nExt (some n.addr) ns ie' r') := by
      intro ie' r' hd C' hr' hie hj
      have := ih (pre ++ [n]) (some n.addr) ie' r' C' N' hr'
      have up : ∀ k, Done P mem b pre ie k → Done P mem b (pre ++ [n]) ie' k := by
        rintro k (⟨y, y1, y2⟩ | ⟨j, j1, j2⟩)
        · exact .inl ⟨y, by simp [y1], y2⟩
        · exact .inr ⟨j, by omega, j2⟩
      have dn : ∀ k v, LHas b.list (bext P mem b) k v → Done P mem b (pre ++ [n]) ie' k → Done P mem b pre ie k := by
        intro k v hk hD
        have hne : n.key ≠ k := by
          intro e
          rcases hk with ⟨y, y1, y2, y3, _⟩ | ⟨y1, _⟩
          · have := sortedN_unique ok hsn y1 hnm (by rw [y2, e])
            rw [this, hd] at y3; cases y3
          · exact y1 n hnm e
        rcases hD with ⟨y, y1, y2⟩ | ⟨j, j1, j2⟩
        · rcases List.mem_append.1 y1 with y1 | y1
          · exact .inl ⟨y, y1, y2⟩
          · rw [List.mem_singleton] at y1
            rw [y1] at y2; exact absurd y2 hne
        · rcases Nat.lt_or_ge j ie with h | h
          · exact .inr ⟨j, h, j2⟩
          · exact absurd ((hj j h j1).symm.trans j2) hne
      generalize itScan P mem b.nExt (some n.addr) ns ie' r' = res at this ⊢
      rcases res with ⟨_ | f, r''⟩
      · exact ⟨this.1, fun k v hk => dn k v hk (this.2 k v hk)⟩
      · exact ⟨this.1, fun k hk => this.2.1 k (up k hk), fun k v hk => (this.2.2 k v hk).imp (dn k v hk) id⟩
    -- the node is delivered
    have give : ∀ ie' r' rr, n.del = false → RAt P nB r' (bstart P b + ie') → ie ≤ ie' → ExtLe P mem b ie' n.key →
        (∀ j, ie ≤ j → j < ie' → (mem (bstart P b + j)).1 = n.key) →
        ScanRes P mem nB b fr pre ie (some ⟨.internal, n.key, some n.addr, ie', r'⟩, rr) := by
      intro ie' r' rr hd hr' hie hE hj
      refine ⟨⟨hr', .inl ⟨rfl, ⟨n, hnm, rfl, rfl, hd⟩, hE⟩⟩, ?_, ?_⟩
      · rintro k (⟨y, y1, rfl⟩ | ⟨j, j1, rfl⟩)
        · exact hpn y y1
        · exact C.extLt j j1 n List.mem_cons_self
      · intro k v hk
        rcases stored C.split k v hk with h | ⟨y, hy, rfl, _⟩ | ⟨j, a1, a2, a3, a4⟩
        · exact .inl h
        · right
          rw [ok.leq_iff]
          rcases List.mem_cons.1 hy with rfl | hy
          · exact .inr rfl
          · exact .inl (g1 y hy)
        · right
          dsimp only
          rcases Nat.lt_or_ge j ie' with h | h
          · rw [ok.leq_iff, ← a3, hj j a1 h]; exact .inr rfl
          · have := (hE.2 j a2)
            have hnle : ¬ P.leq (mem (bstart P b + j)).1 n.key = true := fun e => by have := this.2 e; omega
            rw [a3] at hnle
            rw [ok.leq_iff]; left
            exact (ok.leq_false_iff _ _).1 (by simpa using hnle)
    -- without an external value of this key
    have noExt : (∀ j, ie ≤ j → j < b.nExt → P.lt n.key (mem (bstart P b + j)).1 = true) →
        Cut P mem b (pre ++ [n]) ns ie ∧ ExtLe P mem b ie n.key := by
      intro h
      refine ⟨⟨hsp', C.le, fun j hj m hm => C.extLt j hj m (List.mem_cons_of_mem _ hm), ?_⟩, C.le, ?_⟩
      · intro y hy j h1 h2
        rcases List.mem_append.1 hy with hy | hy
        · exact C.nodeLt y hy j h1 h2
        · rw [List.mem_singleton] at hy; subst hy; exact h j h1 h2
      · intro j hj
        rcases Nat.lt_or_ge j ie with h1 | h1
        · simp only [h1, true_iff]; exact ok.lt_leq (C.extLt j h1 n List.mem_cons_self)
        · have := (ok.leq_false_iff _ _).2 (h j h1 hj)
          rw [this]; simp; omega
    unfold itScan
    by_cases hi : ie < b.nExt
    · rw [if_pos hi]
      have hnB : 0 < nB := Nat.pos_of_ne_zero fun h => by have := h0 h; omega
      dsimp only
      rw [hr.value ok hnB mem]
      by_cases hle : P.leq n.key (mem (bstart P b + ie)).1 = true
      · rw [if_pos hle]
        by_cases he : P.eqv n.key (mem (bstart P b + ie)).1 = true
        · rw [if_pos he, if_pos he]
          have hk := (ok.eqv_iff _ _).1 he
          have hr' : RAt P nB (r.inc P) (bstart P b + (ie + 1)) := hr.inc ok hnB (by have := h1 hnB; omega)
          have hj : ∀ j, ie ≤ j → j < ie + 1 → (mem (bstart P b + j)).1 = n.key := by
            intro j j1 j2
            rw [show j = ie by omega]; exact hk.symm
          split_ifs with hd
          · refine skip (ie + 1) _ hd ⟨hsp', hi, ?_, ?_⟩ hr' (by omega) hj
            · intro j hj m hm
              by_cases hji : j = ie
              · rw [hji, ← hk]; exact g1 m hm
              · exact C.extLt j (by omega) m (List.mem_cons_of_mem _ hm)
            · intro y hy j j1 j2
              rcases List.mem_append.1 hy with hy | hy
              · exact C.nodeLt y hy j (by omega) j2
              · rw [List.mem_singleton] at hy; subst hy
                rw [hk]; exact hs ie j (by omega) j2
          · exact give (ie + 1) _ _ (by simpa using hd) hr' (by omega) (extLe_of ok hsv hi hk.symm) hj
        · rw [if_neg he, if_neg he]
          have hlt : P.lt n.key (mem (bstart P b + ie)).1 = true := by
            rcases (ok.leq_iff _ _).1 hle with h | h
            · exact h
            · exact absurd ((ok.eqv_iff _ _).2 h) he
          obtain ⟨C', E'⟩ := noExt fun j j1 j2 => by
            by_cases hji : j = ie
            · rw [hji]; exact hlt
            · exact ok.lt_trans hlt (hs ie j (by omega) j2)
          split_ifs with hd
          · exact skip ie _ hd C' hr (Nat.le_refl _) (fun j _ _ => by omega)
          · exact give ie _ _ (by simpa using hd) hr (Nat.le_refl _) E' (fun j _ _ => by omega)
      · rw [if_neg hle]
        have hlt : P.lt (mem (bstart P b + ie)).1 n.key = true := (ok.leq_false_iff _ _).1 (by simpa using hle)
        refine ext (n :: ns) pre nd ie r r C N hr hi fun m hm => ?_
        rcases List.mem_cons.1 hm with rfl | hm
        · exact hlt
        · exact ok.lt_trans hlt (g1 m hm)
    · rw [if_neg hi]
      obtain ⟨C', E'⟩ := noExt fun j j1 j2 => by omega
      split_ifs with hd
      · exact skip ie _ hd C' hr (Nat.le_refl _) (fun j _ _ => by omega)
      · exact give ie _ _ (by simpa using hd) hr (Nat.le_refl _) E' (fun j _ _ => by omega)

omit ok in
theorem foundKey {mem : Nat → K × V} {nB n na i : Nat} {b : Bucket K V} {fr : Bool} {f : Found K}
    (h : FoundOK P mem nB b fr f) (B : BOK P mem n na i b) : P.bktNum n f.key = i := by
  rcases h.2 with ⟨_, ⟨n, a2, a3, a4, a5⟩, _⟩ | ⟨_, a3, a4, a5, a6⟩
  · rw [← a4]; exact B.nb n a2
  · rw [← a4]
    refine B.eb _ ?_
    unfold bext
    exact mem_extL.2 ⟨f.iExt, a3, rfl⟩

/-- The search over the buckets. -/
theorem itSearch_ok {s : HMap K V} (I : Inv P s) (fr : Bool) :
    ∀ (bs : List (Bucket K V)) (i : Nat) (nd : Option Nat) (nodes pre : List (Node K V)) (ie : Nat) (r : Reader)
      (b : Bucket K V), s.buckets.drop i = bs → bs.head? = some b → Cut P s.mem b pre nodes ie →
      NodeIn b.list pre fr nd → RAt P s.nBids r (bstart P b + ie) →
      ∃ res, itSearch P s.mem bs i nd nodes ie r = some res ∧ match res with
        | none => ∀ k v, Has P s k v → i ≤ P.bktNum s.buckets.length k → Done P s.mem b pre ie k
        | some (i', f) => i ≤ i' ∧ (∃ b', s.buckets[i']? = some b' ∧ FoundOK P s.mem s.nBids b' fr f) ∧
            (∀ k, Done P s.mem b pre ie k → P.lt k f.key = true) ∧
            ∀ k v, Has P s k v → i ≤ P.bktNum s.buckets.length k → Done P s.mem b pre ie k ∨ P.leq f.key k = true := by
  have has : ∀ {k v i b}, s.buckets[i]? = some b → Has P s k v → P.bktNum s.buckets.length k = i →
      LHas b.list (bext P s.mem b) k v := by
    rintro k v i b hb ⟨b', h1, h2⟩ e
    rw [e, hb] at h1; cases h1; exact h2
  intro bs
  induction bs with
  | nil => intro i nd nodes pre ie r b _ h; cases h
  | cons b0 bs ih =>
    intro i nd nodes pre ie r b hdrop hhead C N hr
    simp only [List.head?_cons, Option.some.injEq] at hhead
    subst hhead
    have hi : s.buckets[i]? = some b0 := by
      have := congrArg (fun l => l[0]?) hdrop
      simpa using this
    have hmem := List.mem_of_getElem? hi
    have B := I.bok i b0 hi
    have hz : s.nBids = 0 → b0.nExt = 0 := fun h => (I.lay.zero h b0 hmem).1
    have hp : 0 < s.nBids → bstart P b0 + b0.nExt < s.nBids * P.BB := fun h => (I.lay.pos h b0 hmem).1
    have hscan := itScan_ok ok s.mem s.nBids b0 fr B.sn B.sv hz hp nodes pre nd ie r C N hr
    -- keys that are behind are of this bucket
    have hdone : ∀ k, Done P s.mem b0 pre ie k → P.bktNum s.buckets.length k = i := by
      rintro k (⟨n, h1, rfl⟩ | ⟨j, h1, rfl⟩)
      · exact B.nb n (by rw [C.split]; simp [h1])
      · refine B.eb _ ?_
        unfold bext
        exact mem_extL.2 ⟨j, by have := C.le; omega, rfl⟩
    unfold itSearch
    generalize hres : itScan P s.mem b0.nExt nd nodes ie r = res at hscan
    rcases res with ⟨_ | f, r'⟩
    · dsimp only
      obtain ⟨hr', hall⟩ := hscan
      have hdrop' : s.buckets.drop (i + 1) = bs := by
        have := congrArg List.tail hdrop
        rwa [List.tail_drop, List.tail_cons] at this
      cases bs with
      | nil =>
        refine ⟨none, rfl, fun k v hk hik => ?_⟩
        have hlt : P.bktNum s.buckets.length k < s.buckets.length := by
          obtain ⟨_, h1, _⟩ := hk; exact (List.getElem?_eq_some_iff.1 h1).1
        have hlen : s.buckets.length ≤ i + 1 := List.drop_eq_nil_iff.1 hdrop'
        exact hall k v (has hi hk (by omega))
      | cons b1 bs =>
        have hi1 : s.buckets[i + 1]? = some b1 := by
          have := congrArg (fun l => l[0]?) hdrop'
          simpa using this
        have hmem1 := List.mem_of_getElem? hi1
        have hord : bstart P b0 + b0.nExt ≤ bstart P b1 := by
          have := I.lay.ord
          rw [List.pairwise_iff_getElem] at this
          obtain ⟨q1, q2⟩ := List.getElem?_eq_some_iff.1 hi
          obtain ⟨q3, q4⟩ := List.getElem?_eq_some_iff.1 hi1
          have := this i (i + 1) q1 q3 (by omega)
          rw [q2, q4] at this; exact this
        obtain ⟨r'', e1, e2⟩ := hr'.skip ok (b := b1.iBlock) (i := b1.iSub) (fun h => by
          obtain ⟨_, z2, z3⟩ := I.lay.pos h b1 hmem1
          exact ⟨hord, z2, z3⟩)
        dsimp only
        rw [e1]
        dsimp only
        obtain ⟨res, g1, g2⟩ := ih (i + 1) none b1.list [] 0 r'' b1 hdrop' rfl
          ⟨rfl, Nat.zero_le _, (fun j hj => by omega), (fun n hn => by cases hn)⟩ (fun a ha => by cases ha) e2
        have nd0 : ∀ k, ¬ Done P s.mem b1 [] 0 k := by
          rintro k (⟨n, hn, _⟩ | ⟨j, hj, _⟩)
          · cases hn
          · omega
        refine ⟨res, g1, ?_⟩
        rcases res with _ | ⟨i', f⟩
        · intro k v hk hik
          rcases Nat.lt_or_ge i (P.bktNum s.buckets.length k) with h | h
          · exact absurd (g2 k v hk h) (nd0 k)
          · exact hall k v (has hi hk (by omega))
        · obtain ⟨c0, ⟨b', c1, c2⟩, _, c4⟩ := g2
          have hfk := foundKey c2 (I.bok _ _ c1)
          refine ⟨by omega, ⟨b', c1, c2⟩, ?_, ?_⟩
          · intro k hk
            exact ok.lt_of_bkt _ (by rw [hdone k hk, hfk]; omega)
          · intro k v hk hik
            rcases Nat.lt_or_ge i (P.bktNum s.buckets.length k) with h | h
            · exact .inr ((c4 k v hk h).resolve_left (nd0 k))
            · exact .inl (hall k v (has hi hk (by omega)))
    · refine ⟨_, rfl, Nat.le_refl _, ⟨b0, hi, hscan.1⟩, hscan.2.1, fun k v hk hik => ?_⟩
      have hfk := foundKey hscan.1 B
      rcases Nat.lt_or_ge i (P.bktNum s.buckets.length k) with h | h
      · exact .inr (ok.lt_leq (ok.lt_of_bkt _ (by rw [hfk]; exact h)))
      · exact hscan.2.2 k v (has hi hk (by omega))

end
end Verif.HashMap
