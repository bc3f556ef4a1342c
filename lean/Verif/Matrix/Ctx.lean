import Verif.Matrix.Store

/-!
# Block matrices in a common store

`Good` describes a state of the store as seen by one function: a list of block matrices in scope ("registers"), each with a colour, and
the mathematical value of each. Blocks of matrices of different colours are different, so writing into a matrix of a colour
that no other register has changes only that register.
-/

namespace Stxxl.Mat

variable {R : Type} [CommRing R]

/-- Value of the block at (r, c). -/
def V (B : Nat) (s : St R) (m : SBM) (r c : Nat) : M B R := vl B m.tr (s.blk (m.block r c))

/-- A block matrix in scope. Registers of colour 0 are only read. -/
structure Reg where
  m : SBM
  col : Nat

structure Good (B : Nat) (s0 : St R) (C : SBM) (tag : Nat → Nat) (own : List Nat) (Xs : List Reg) (s : St R)
    (F : Nat → Nat → Nat → M B R) : Prop where
  wf : s.Wf
  live : ∀ i, s.live i ↔ s0.live i ∨ i ∈ own
  fresh : ∀ i ∈ own, ¬ s0.live i
  nodup : own.Nodup
  val : ∀ (k : Nat) (x : Reg), Xs[k]? = some x → ∀ r c, r < x.m.h → c < x.m.w → V B s x.m r c = F k r c
  isLive : ∀ (k : Nat) (x : Reg), Xs[k]? = some x → Owned s x.m
  tagged : ∀ (k : Nat) (x : Reg), Xs[k]? = some x → ∀ r c, r < x.m.h → c < x.m.w → tag (x.m.block r c) = x.col
  inj : ∀ (k : Nat) (x : Reg), Xs[k]? = some x → x.col ≠ 0 → Inj x.m
  frame : ∀ i, s0.live i → tag i = 0 → s.blk i = s0.blk i
  tag0 : ∀ i, s0.live i → (∀ r c, r < C.h → c < C.w → C.block r c ≠ i) → tag i = 0
  len : ∀ (k : Nat) (x : Reg), Xs[k]? = some x → x.m.blocks.length = x.m.h * x.m.w

variable {B : Nat} {s0 s : St R} {C : SBM} {tag : Nat → Nat} {own : List Nat} {Xs : List Reg} {F : Nat → Nat → Nat → M B R}

theorem Good.congr (h : Good B s0 C tag own Xs s F) {F' : Nat → Nat → Nat → M B R}
    (hF : ∀ (k : Nat) (x : Reg), Xs[k]? = some x → ∀ r c, r < x.m.h → c < x.m.w → F k r c = F' k r c) : Good B s0 C tag own Xs s F' :=
  { h with val := fun k x hx r c hr hc => (h.val k x hx r c hr hc).trans (hF k x hx r c hr hc) }

/-- The start of a function that writes into the matrix `C` only; the blocks of `C` get the colours `g` (nonzero). -/
theorem exists_tag (hC : Inj C) (g : Nat → Nat → Nat) : ∃ tag : Nat → Nat,
    (∀ r c, r < C.h → c < C.w → tag (C.block r c) = g r c) ∧
      ∀ i, (∀ r c, r < C.h → c < C.w → C.block r c ≠ i) → tag i = 0 := by
  classical
  refine ⟨fun i => if h : ∃ p : Nat × Nat, p.1 < C.h ∧ p.2 < C.w ∧ C.block p.1 p.2 = i then g h.choose.1 h.choose.2 else 0, ?_, ?_⟩
  · intro r c hr hc
    have h : ∃ p : Nat × Nat, p.1 < C.h ∧ p.2 < C.w ∧ C.block p.1 p.2 = C.block r c := ⟨(r, c), hr, hc, rfl⟩
    dsimp only
    rw [dif_pos h]
    obtain ⟨h1, h2, h3⟩ := h.choose_spec
    obtain ⟨e1, e2⟩ := hC _ _ _ _ h1 h2 hr hc h3
    rw [e1, e2]
  · intro i hi
    dsimp only
    rw [dif_neg]
    rintro ⟨p, h1, h2, h3⟩
    exact hi _ _ h1 h2 h3

theorem Good.nil (hs : s0.Wf) (ht : ∀ i, s0.live i → (∀ r c, r < C.h → c < C.w → C.block r c ≠ i) → tag i = 0) :
    Good B s0 C tag [] [] s0 F where
  wf := hs
  live := by simp
  fresh := by simp
  nodup := by simp
  val := by simp
  isLive := by simp
  tagged := by simp
  inj := by simp
  frame := by simp
  tag0 := ht
  len := by simp

theorem getElem?_snoc {α : Type} {l : List α} {a x : α} {k : Nat} (h : (l ++ [a])[k]? = some x) :
    l[k]? = some x ∨ (k = l.length ∧ x = a) := by
  rcases Nat.lt_trichotomy k l.length with hk | hk | hk
  · left; rwa [List.getElem?_append_left hk] at h
  · right; subst hk
    rw [List.getElem?_append_right (Nat.le_refl _)] at h
    simp at h; exact ⟨rfl, h.symm⟩
  · rw [List.getElem?_eq_none (by simp; omega)] at h; cases h

theorem getElem?_lt {α : Type} {l : List α} {x : α} {k : Nat} (h : l[k]? = some x) : k < l.length := by
  by_contra hk
  rw [List.getElem?_eq_none (by omega)] at h; cases h

/-- A constructed matrix becomes a register. -/
theorem Good.add (h : Good B s0 C tag own Xs s F) {s' : St R} {q : SBM} (ha : Added s s' q) (k : Nat)
    (hw : ∀ r c, r < q.h → c < q.w → r < q.hs → c < q.ws → s.live (q.block r c) ∧ tag (q.block r c) = k)
    (hi : k ≠ 0 → ∀ r c r' c', r < q.h → c < q.w → r' < q.h → c' < q.w → r < q.hs → c < q.ws → r' < q.hs → c' < q.ws →
      q.block r c = q.block r' c' → r = r' ∧ c = c')
    (f : Nat → Nat → M B R)
    (hf : ∀ r c, r < q.h → c < q.w → (if r < q.hs ∧ c < q.ws then V B s q r c else 0) = f r c) :
    ∃ tag', (∀ i, s.live i → tag' i = tag i) ∧
      Good B s0 C tag' (own ++ q.own) (Xs ++ [⟨q, k⟩]) s' (Function.update F Xs.length f) := by
  classical
  have hnl : ∀ i, i ∈ q.own → ¬ s.live i := ha.fresh
  have hs0 : ∀ i, s0.live i → s.live i := fun i hi => (h.live i).2 (Or.inl hi)
  have htag : ∀ i, s.live i → (if i ∈ q.own then k else tag i) = tag i := by
    intro i hl; rw [if_neg (fun hm => hnl i hm hl)]
  have hq : ∀ r c, r < q.h → c < q.w → (r < q.hs ∧ c < q.ws) ∨ q.block r c ∈ q.own := by
    intro r c hr hc
    by_cases hin : r < q.hs ∧ c < q.ws
    · exact Or.inl hin
    · exact Or.inr (mem_own.2 ⟨r, c, hr, hc, hin, rfl⟩)
  refine ⟨fun i => if i ∈ q.own then k else tag i, htag, ?_⟩
  refine ⟨ha.wf, ?_, ?_, ?_, ?_, ?_, ?_, ?_, ?_, ?_, ?_⟩
  · intro i; rw [ha.live, h.live, List.mem_append, or_assoc]
  · intro i hi
    rcases List.mem_append.1 hi with hi | hi
    · exact h.fresh i hi
    · intro hl; exact hnl i hi (hs0 i hl)
  · refine List.Nodup.append h.nodup ha.nodup ?_
    intro i hi hi2
    exact hnl i hi2 ((h.live i).2 (Or.inr hi))
  · intro j x hx r c hr hc
    rcases getElem?_snoc hx with hx | ⟨rfl, rfl⟩
    · have := h.val j x hx r c hr hc
      have hj : j ≠ Xs.length := Nat.ne_of_lt (getElem?_lt hx)
      rw [Function.update_of_ne hj, ← this]
      simp [V, ha.blk]
    · rw [Function.update_self, ← hf r c hr hc]
      split
      · simp [V, ha.blk]
      · rename_i hn
        have : s.blk (q.block r c) = none := by
          apply h.wf.none
          rcases hq r c hr hc with h1 | h1
          · exact absurd h1 hn
          · exact hnl _ h1
        simp [V, ha.blk, this]
  · intro j x hx r c hr hc
    rw [ha.live]
    rcases getElem?_snoc hx with hx | ⟨rfl, rfl⟩
    · exact Or.inl (h.isLive j x hx r c hr hc)
    · rcases hq r c hr hc with h1 | h1
      · exact Or.inl (hw r c hr hc h1.1 h1.2).1
      · exact Or.inr h1
  · intro j x hx r c hr hc
    rcases getElem?_snoc hx with hx | ⟨rfl, rfl⟩
    · rw [htag _ (h.isLive j x hx r c hr hc)]; exact h.tagged j x hx r c hr hc
    · rcases hq r c hr hc with h1 | h1
      · obtain ⟨a, b⟩ := hw r c hr hc h1.1 h1.2
        rw [htag _ a]; exact b
      · simp only [h1, if_true]
  · intro j x hx hcol
    rcases getElem?_snoc hx with hx | ⟨rfl, rfl⟩
    · exact h.inj j x hx hcol
    · intro r c r' c' hr hc hr' hc' e
      by_cases h1 : r < q.hs ∧ c < q.ws
      · by_cases h2 : r' < q.hs ∧ c' < q.ws
        · exact hi hcol r c r' c' hr hc hr' hc' h1.1 h1.2 h2.1 h2.2 e
        · exfalso
          exact hnl _ (mem_own.2 ⟨r', c', hr', hc', h2, rfl⟩) (e ▸ (hw r c hr hc h1.1 h1.2).1)
      · by_cases h2 : r' < q.hs ∧ c' < q.ws
        · exfalso
          exact hnl _ (mem_own.2 ⟨r, c, hr, hc, h1, rfl⟩) (e ▸ (hw r' c' hr' hc' h2.1 h2.2).1)
        · exact ha.injOwn r c r' c' hr hc hr' hc' h1 h2 e
  · intro i hl ht
    rw [htag i (hs0 i hl)] at ht
    rw [ha.blk]; exact h.frame i hl ht
  · intro i hl hni
    rw [htag i (hs0 i hl)]; exact h.tag0 i hl hni
  · intro j x hx
    rcases getElem?_snoc hx with hx | ⟨rfl, rfl⟩
    · exact h.len j x hx
    · exact ha.len

/-- No other register has the colour of register `k`. -/
def Only (Xs : List Reg) (k : Nat) (x : Reg) : Prop :=
  Xs[k]? = some x ∧ x.col ≠ 0 ∧ ∀ (j : Nat) (y : Reg), Xs[j]? = some y → j ≠ k → y.col ≠ x.col

/-- Something that writes into the blocks of register `k` only. -/
theorem Good.write (h : Good B s0 C tag own Xs s F) {k : Nat} {x : Reg} (hk : Only Xs k x) {s' : St R} (hwf : s'.Wf)
    (hl : ∀ i, s'.live i ↔ s.live i)
    (hfr : ∀ i, s.live i → (∀ r c, r < x.m.h → c < x.m.w → x.m.block r c ≠ i) → s'.blk i = s.blk i)
    (f : Nat → Nat → M B R) (hf : ∀ r c, r < x.m.h → c < x.m.w → V B s' x.m r c = f r c) :
    Good B s0 C tag own Xs s' (Function.update F k f) := by
  have hne : ∀ i, tag i ≠ x.col → ∀ r c, r < x.m.h → c < x.m.w → x.m.block r c ≠ i := by
    intro i hi r c hr hc e
    exact hi (e ▸ h.tagged k x hk.1 r c hr hc)
  refine ⟨hwf, fun i => (hl i).trans (h.live i), h.fresh, h.nodup, ?_, ?_, h.tagged, h.inj, ?_, h.tag0, h.len⟩
  · intro j y hy r c hr hc
    by_cases hjk : j = k
    · subst hjk
      have : y = x := by rw [hk.1] at hy; exact (Option.some.inj hy).symm
      subst this
      rw [Function.update_self]; exact hf r c hr hc
    · rw [Function.update_of_ne hjk, ← h.val j y hy r c hr hc]
      unfold V
      rw [hfr _ (h.isLive j y hy r c hr hc)]
      apply hne
      rw [h.tagged j y hy r c hr hc]
      exact hk.2.2 j y hy hjk
  · intro j y hy r c hr hc
    exact (hl _).2 (h.isLive j y hy r c hr hc)
  · intro i hi ht
    rw [← h.frame i hi ht]
    apply hfr i ((h.live i).2 (Or.inl hi))
    apply hne
    rw [ht]; exact fun e => hk.2.1 e.symm

/-! ### One cell -/

/-- The values with those at cell (r, c) replaced. -/
def cellUpd (F : Nat → Nat → Nat → M B R) (r c : Nat) (u : Nat → M B R) : Nat → Nat → Nat → M B R :=
  fun k r' c' => if r' = r ∧ c' = c then u k else F k r' c'

theorem cellUpd_self (F : Nat → Nat → Nat → M B R) (r c : Nat) : cellUpd F r c (fun k => F k r c) = F := by
  funext k r' c'
  unfold cellUpd
  split
  · rename_i h; rw [h.1, h.2]
  · rfl

theorem set_wf {i : Nat} {v : Option (Raw R)} (h : s.Wf) (hi : s.live i) : (s.set i v).Wf := by
  refine ⟨h.nodup, h.lt, ?_⟩
  intro j hj
  have hj' : ¬ s.live j := hj
  have : j ≠ i := fun e => hj' (e ▸ hi)
  simp only [St.set, this, if_false]
  exact h.none j hj'

theorem Good.setCell {u : Nat → M B R} {r c : Nat} (h : Good B s0 C tag own Xs s (cellUpd F r c u)) {k : Nat} {x : Reg}
    (hk : Only Xs k x) (hr : r < x.m.h) (hc : c < x.m.w) (v : Option (Raw R)) (w : M B R) (hv : vl B x.m.tr v = w) :
    Good B s0 C tag own Xs (s.set (x.m.block r c) v) (cellUpd F r c (Function.update u k w)) := by
  have hlive := h.isLive k x hk.1 r c hr hc
  have hinj := h.inj k x hk.1 hk.2.1
  have h' := h.write hk (s' := s.set (x.m.block r c) v) (set_wf h.wf hlive) (fun i => Iff.rfl)
    (fun i _ hni => by
      have := hni r c hr hc
      simp only [St.set]; rw [if_neg (fun e => this e.symm)])
    (fun r' c' => if r' = r ∧ c' = c then w else F k r' c') (by
      intro r' c' hr' hc'
      by_cases e : r' = r ∧ c' = c
      · obtain ⟨rfl, rfl⟩ := e
        simp [V, St.set, hv]
      · rw [if_neg e]
        have hne : x.m.block r' c' ≠ x.m.block r c := fun e' => e (hinj _ _ _ _ hr' hc' hr hc e')
        have := h.val k x hk.1 r' c' hr' hc'
        simp only [cellUpd, if_neg e] at this
        rw [← this]
        simp [V, St.set, hne])
  refine h'.congr ?_
  intro j y _ r' c' _ _
  by_cases hjk : j = k
  · subst hjk; simp [cellUpd]
  · simp [cellUpd, Function.update_of_ne hjk]

theorem Good.cellVal {u : Nat → M B R} {r c : Nat} (h : Good B s0 C tag own Xs s (cellUpd F r c u)) {k : Nat} {x : Reg}
    (hx : Xs[k]? = some x) (hr : r < x.m.h) (hc : c < x.m.w) : vl B x.m.tr (s.blk (x.m.block r c)) = u k := by
  have := h.val k x hx r c hr hc
  simpa [cellUpd, V] using this

theorem Good.cell3 {u : Nat → M B R} {r c : Nat} (h : Good B s0 C tag own Xs s (cellUpd F r c u)) (op : Op R) {k i j : Nat} {x y z : Reg}
    (hk : Only Xs k x) (hi : Xs[i]? = some y) (hj : Xs[j]? = some z) (hr : r < x.m.h) (hc : c < x.m.w)
    (hry : r < y.m.h) (hcy : c < y.m.w) (hrz : r < z.m.h) (hcz : c < z.m.w) (tc ta tb : Bool)
    (ht : (tc = x.m.tr ∧ ta = y.m.tr ∧ tb = z.m.tr) ∨ (tc = false ∧ ta = false ∧ tb = false ∧ y.m.tr = x.m.tr ∧ z.m.tr = x.m.tr)) :
    Good B s0 C tag own Xs (cellOp3 B op tc ta tb x.m y.m z.m r c s) (cellUpd F r c (Function.update u k (op.m3 (u i) (u j)))) := by
  refine h.setCell hk hr hc _ _ ?_
  rw [← h.cellVal hi hry hcy, ← h.cellVal hj hrz hcz]
  rcases ht with ⟨rfl, rfl, rfl⟩ | ⟨rfl, rfl, rfl, e1, e2⟩
  · exact vl_blockOp3 ..
  · rw [blockOp3_same B op x.m.tr, vl_blockOp3, e1, e2]

theorem Good.cell2 {u : Nat → M B R} {r c : Nat} (h : Good B s0 C tag own Xs s (cellUpd F r c u)) (op : Op R)
    (hop : ∀ x : R, op.f2 x 0 = x) {k i : Nat} {x y : Reg}
    (hk : Only Xs k x) (hi : Xs[i]? = some y) (hr : r < x.m.h) (hc : c < x.m.w)
    (hry : r < y.m.h) (hcy : c < y.m.w) (tc ta : Bool)
    (ht : (tc = x.m.tr ∧ ta = y.m.tr) ∨ (tc = false ∧ ta = false ∧ y.m.tr = x.m.tr)) :
    Good B s0 C tag own Xs (cellOp2 B op tc ta x.m y.m r c s) (cellUpd F r c (Function.update u k (op.m2 (u k) (u i)))) := by
  refine h.setCell hk hr hc _ _ ?_
  rw [← h.cellVal hi hry hcy, ← h.cellVal hk.1 hr hc]
  rcases ht with ⟨rfl, rfl⟩ | ⟨rfl, rfl, e1⟩
  · exact vl_blockOp2 _ _ _ _ _ _ (fun _ => hop)
  · rw [blockOp2_same B op x.m.tr, vl_blockOp2 _ _ _ _ _ _ (fun _ => hop), e1]

/-! ### Loops over the cells -/

/-- A loop over cells whose body changes the values at its own cell only. -/
theorem Good.loop (n w : Nat) (body : Nat → Nat → St R → St R) (I : (Nat → Nat → Nat → M B R) → Prop)
    (G : Nat → Nat → (Nat → M B R) → Nat → M B R)
    (hI : ∀ F r c, r < n → c < w → I F → I (cellUpd F r c (G r c fun k => F k r c)))
    (hb : ∀ s F r c, r < n → c < w → I F → Good B s0 C tag own Xs s F →
      Good B s0 C tag own Xs (body r c s) (cellUpd F r c (G r c fun k => F k r c)))
    (hF : I F) (h : Good B s0 C tag own Xs s F) :
    Good B s0 C tag own Xs (forCells n w body s) (fun k r c => if r < n ∧ c < w then G r c (fun k => F k r c) k else F k r c) := by
  -- one row
  have row : ∀ r, r < n → ∀ m, m ≤ w → ∀ s F, I F → Good B s0 C tag own Xs s F →
      I (fun k r' c' => if r' = r ∧ c' < m then G r' c' (fun k => F k r' c') k else F k r' c') ∧
      Good B s0 C tag own Xs ((List.range m).foldl (fun s c => body r c s) s)
        (fun k r' c' => if r' = r ∧ c' < m then G r' c' (fun k => F k r' c') k else F k r' c') := by
    intro r hr m
    induction m with
    | zero =>
      intro _ s F hF h
      have e : (fun k r' c' => if r' = r ∧ c' < 0 then G r' c' (fun k => F k r' c') k else F k r' c') = F := by
        funext k r' c'; simp
      rw [e]; exact ⟨hF, h⟩
    | succ m ih =>
      intro hm s F hF h
      obtain ⟨i1, g1⟩ := ih (by omega) s F hF h
      have e : (fun k r' c' => if r' = r ∧ c' < m + 1 then G r' c' (fun k => F k r' c') k else F k r' c') =
          cellUpd (fun k r' c' => if r' = r ∧ c' < m then G r' c' (fun k => F k r' c') k else F k r' c') r m
            (G r m fun k => (fun k r' c' => if r' = r ∧ c' < m then G r' c' (fun k => F k r' c') k else F k r' c') k r m) := by
        funext k r' c'
        unfold cellUpd
        by_cases h1 : r' = r ∧ c' = m
        · obtain ⟨rfl, rfl⟩ := h1; simp
        · by_cases h2 : r' = r
          · subst h2
            have : c' < m + 1 ↔ c' < m := by
              constructor
              · intro h3; have : c' ≠ m := fun e => h1 ⟨rfl, e⟩; omega
              · intro h3; omega
            have h4 : c' ≠ m := fun e => h1 ⟨rfl, e⟩
            simp [h4, this]
          · simp [h2]
      rw [e, List.range_succ, List.foldl_append]
      exact ⟨hI _ r m hr (by omega) i1, hb _ _ r m hr (by omega) i1 g1⟩
  have all : ∀ m, m ≤ n →
      I (fun k r c => if r < m ∧ c < w then G r c (fun k => F k r c) k else F k r c) ∧
      Good B s0 C tag own Xs ((List.range m).foldl (fun s r => (List.range w).foldl (fun s c => body r c s) s) s)
        (fun k r c => if r < m ∧ c < w then G r c (fun k => F k r c) k else F k r c) := by
    intro m
    induction m with
    | zero =>
      intro _
      have e : (fun k r c => if r < 0 ∧ c < w then G r c (fun k => F k r c) k else F k r c) = F := by
        funext k r c; simp
      rw [e]; exact ⟨hF, h⟩
    | succ m ih =>
      intro hm
      obtain ⟨i1, g1⟩ := ih (by omega)
      have := row m (by omega) w (Nat.le_refl _) _ _ i1 g1
      rw [List.range_succ, List.foldl_append]
      have e : (fun k r c => if r < m + 1 ∧ c < w then G r c (fun k => F k r c) k else F k r c) =
          (fun k r' c' => if r' = m ∧ c' < w then G r' c' (fun k => (fun k r c => if r < m ∧ c < w then G r c (fun k => F k r c) k else F k r c) k r' c') k
            else (fun k r c => if r < m ∧ c < w then G r c (fun k => F k r c) k else F k r c) k r' c') := by
        funext k r c
        by_cases h1 : r = m
        · subst h1; by_cases h2 : c < w <;> simp [h2]
        · have : r < m + 1 ↔ r < m := by omega
          simp [h1, this]
      rw [e]; exact this
  exact (all n (Nat.le_refl _)).2

end Stxxl.Mat
