import Verif.WinnerTree.Inv

/-! # Winner tree: every operation keeps the invariant. -/

namespace Stxxl.WinnerTree

variable {V : Type} {lt : V → V → Bool} {s : S V} {a : A}

/-- A leaf is an ancestor of no other leaf. -/
theorem leaf_anc {n i j : Nat} (hn : 0 < n) (hi : i < n) (hj : j < n) (h : Anc (n - 1 + i) (n - 1 + j)) : i = j := by
  rcases h.split with h | h | h
  · omega
  · have := h.le; omega
  · have := h.le; omega

/-- Effect of `replay_on_change` on the active and dirty players. -/
def A.replay (a : A) (i : Nat) (done : Bool) : A :=
  { act := fun j => if j = i then done = false else a.act j, dirty := fun j => j ≠ i ∧ a.dirty j }

theorem half (h : Inv lt s a) : s.size / 2 = s.slots - 1 := by have := h.sz; have := h.pos; omega

theorem Inv.replay (h : Inv lt s a) {i : Nat} (hi : i < s.slots) (done : Bool) :
    ∃ s', replay lt s i done = some s' ∧ Inv lt s' (a.replay i done) ∧ s'.slots = s.slots ∧ s'.val = s.val ∧
      (Backed s → Backed s') := by
  have hp := h.pos
  have hsz := h.sz
  have hlt : s.slots - 1 + i < s.size := by omega
  obtain ⟨r1, r2, r3⟩ := replayLoop_spec lt s.val (s.slots - 1 + i) s.tree (if done then none else some i)
  refine ⟨{ s with tree := replayLoop lt s.val s.tree (s.slots - 1 + i) (if done then none else some i) }, ?_, ?_, rfl, rfl, ?_⟩
  · unfold WinnerTree.replay
    dsimp only
    rw [half h, if_pos hlt]
  · refine ⟨hp, hsz, ?_, ?_, ?_, ?_⟩
    · intro j hj
      simp only [A.replay] at hj
      split at hj
      · show j < s.slots
        omega
      · exact h.act_lt j hj
    · intro j hj
      show (_ → replayLoop _ _ _ _ _ (s.slots - 1 + j) = _) ∧ (_ → replayLoop _ _ _ _ _ (s.slots - 1 + j) = _)
      by_cases hji : j = i
      · subst hji
        rw [r2]
        simp only [A.replay, if_true]
        cases done <;> simp
      · have hn : ¬ Anc (s.slots - 1 + j) (s.slots - 1 + i) := fun hc => hji (leaf_anc hp hj hi hc)
        rw [r1 _ hn]
        simp only [A.replay, hji, if_false]
        exact h.leaf j hj
    · intro v j hv
      show replayLoop _ _ _ _ _ v = _ → j < s.slots ∧ Anc v (s.slots - 1 + j)
      have key : ∀ k v, s.size = v + k → 0 < k →
          replayLoop lt s.val s.tree (s.slots - 1 + i) (if done then none else some i) v = some j →
          j < s.slots ∧ Anc v (s.slots - 1 + j) := by
        intro k
        induction k using Nat.strongRecOn with
        | _ k ih =>
          intro v hk hpos hr
          by_cases ha : Anc v (s.slots - 1 + i)
          · by_cases hv : v = s.slots - 1 + i
            · subst hv
              rw [r2] at hr
              cases done
              · cases hr; exact ⟨hi, .refl⟩
              · cases hr
            · rw [r3 v ha hv] at hr
              have hle : v < s.slots - 1 := by
                rcases ha.split with h | h | h
                · exact absurd h hv
                · have := h.le; omega
                · have := h.le; omega
              rcases game_mem hr with hr | hr
              · obtain ⟨g1, g2⟩ := ih (k - v - 1) (by omega) (2 * v + 1) (by omega) (by omega) hr
                exact ⟨g1, (anc_left v).trans g2⟩
              · obtain ⟨g1, g2⟩ := ih (k - v - 2) (by omega) (2 * v + 2) (by omega) (by omega) hr
                exact ⟨g1, (anc_right v).trans g2⟩
          · rw [r1 v ha] at hr
            exact h.anc v j (by omega) hr
      have hv : v < s.size := hv
      exact key (s.size - v) v (by omega) (by omega)
    · intro v hv hcl
      have hv : v < s.slots - 1 := hv
      show replayLoop _ _ _ _ _ v = game _ _ (replayLoop _ _ _ _ _ _) (replayLoop _ _ _ _ _ _)
      by_cases ha : Anc v (s.slots - 1 + i)
      · exact r3 v ha (by omega)
      · rw [r1 v ha, r1 (2 * v + 1) (fun hc => ha ((anc_left v).trans hc)), r1 (2 * v + 2) (fun hc => ha ((anc_right v).trans hc))]
        refine h.ok v hv ?_
        intro j hd hj hc
        by_cases hji : j = i
        · subst hji; exact ha hc
        · exact hcl j ⟨hji, hd⟩ hj hc
  · intro hb v j hv
    have hv : v < s.slots - 1 := hv
    show replayLoop _ _ _ _ _ v = _ → replayLoop _ _ _ _ _ _ = _ ∨ replayLoop _ _ _ _ _ _ = _
    intro hr
    by_cases ha : Anc v (s.slots - 1 + i)
    · rw [r3 v ha (by omega)] at hr
      exact game_mem hr
    · rw [r1 v ha] at hr
      rw [r1 (2 * v + 1) (fun hc => ha ((anc_left v).trans hc)), r1 (2 * v + 2) (fun hc => ha ((anc_right v).trans hc))]
      exact hb v j hv hr

/-- A leaf is changed without replay. -/
theorem Inv.setLeaf (h : Inv lt s a) {i : Nat} (hi : i < s.slots) {x : Option Nat} (a' : A) (hx : x = some i ∧ a'.act i ∨ x = none ∧ ¬ a'.act i)
    (ho : ∀ j, j ≠ i → (a'.act j ↔ a.act j) ∧ (a'.dirty j ↔ a.dirty j)) (hd : a'.dirty i) :
    Inv lt { s with tree := upd s.tree (s.slots - 1 + i) x } a' := by
  have hp := h.pos
  have hsz := h.sz
  refine ⟨hp, hsz, ?_, ?_, ?_, ?_⟩
  · intro j hj
    by_cases hji : j = i
    · subst hji; exact hi
    · exact h.act_lt j ((ho j hji).1.1 hj)
  · intro j hj
    show (_ → upd _ _ _ (s.slots - 1 + j) = _) ∧ (_ → upd _ _ _ (s.slots - 1 + j) = _)
    by_cases hji : j = i
    · subst hji
      rw [upd_same]
      rcases hx with ⟨rfl, hx⟩ | ⟨rfl, hx⟩
      · exact ⟨fun _ => rfl, fun hn => absurd hx hn⟩
      · exact ⟨fun hn => absurd hn hx, fun _ => rfl⟩
    · rw [upd_ne _ _ (by omega), (ho j hji).1]
      exact h.leaf j hj
  · intro v j hv
    show upd _ _ _ v = _ → j < s.slots ∧ Anc v (s.slots - 1 + j)
    by_cases hvi : v = s.slots - 1 + i
    · subst hvi
      rw [upd_same]
      intro hj
      rcases hx with ⟨rfl, _⟩ | ⟨rfl, _⟩
      · cases hj; exact ⟨hi, .refl⟩
      · cases hj
    · rw [upd_ne _ _ hvi]; exact h.anc v j hv
  · intro v hv hcl
    have hv : v < s.slots - 1 := hv
    have ha : ¬ Anc v (s.slots - 1 + i) := hcl i hd hi
    show upd _ _ _ v = game _ _ (upd _ _ _ _) (upd _ _ _ _)
    have n1 : 2 * v + 1 ≠ s.slots - 1 + i := fun hc => ha (hc ▸ anc_left v)
    have n2 : 2 * v + 2 ≠ s.slots - 1 + i := fun hc => ha (hc ▸ anc_right v)
    rw [upd_ne _ _ (by omega), upd_ne _ _ n1, upd_ne _ _ n2]
    refine h.ok v hv ?_
    intro j hdj hj
    by_cases hji : j = i
    · subst hji; exact ha
    · exact hcl j ((ho j hji).2.2 hdj) hj

/-- Entries that come from below are active players. -/
theorem Inv.backed_act (h : Inv lt s a) (hb : Backed s) {v i : Nat} (hv : v < s.size) (ht : s.tree v = some i) :
    a.act i ∧ ∀ w, Anc v w → Anc w (s.slots - 1 + i) → s.tree w = some i := by
  have hp := h.pos
  have hsz := h.sz
  have key : ∀ k v, s.size = v + k → 0 < k → s.tree v = some i →
      a.act i ∧ ∀ w, Anc v w → Anc w (s.slots - 1 + i) → s.tree w = some i := by
    intro k
    induction k using Nat.strongRecOn with
    | _ k ih =>
      intro v hk hpos ht
      obtain ⟨hi, hanc⟩ := h.anc v i (by omega) ht
      by_cases hv : v < s.slots - 1
      · have hch : ∀ c, c = 2 * v + 1 ∨ c = 2 * v + 2 → s.tree c = some i →
            a.act i ∧ ∀ w, Anc v w → Anc w (s.slots - 1 + i) → s.tree w = some i := by
          intro c hc htc
          obtain ⟨g1, g2⟩ := ih (s.size - c) (by omega) c (by omega) (by omega) htc
          refine ⟨g1, ?_⟩
          intro w hw1 hw2
          have hac := (h.anc c i (by omega) htc).2
          -- `w` is `v`, or below a child of `v`; it must be the child `c`
          have huniq : ∀ p, Anc (2 * v + 1) p → Anc (2 * v + 2) p → False := by
            intro p
            induction p using Nat.strongRecOn with
            | _ p ihp =>
              intro h1 h2
              have l1 := h1.le
              have l2 := h2.le
              by_cases e2 : 2 * v + 2 = p
              · have := (h1.par (by omega)).2.le; omega
              · exact ihp ((p - 1) / 2) (by omega) (h1.par (by omega)).2 (h2.par e2).2
          rcases hw1.split with rfl | hw | hw
          · exact ht
          · rcases hc with rfl | rfl
            · exact g2 w hw hw2
            · exact absurd hac (fun hx => huniq _ (hw.trans hw2) hx)
          · rcases hc with rfl | rfl
            · exact absurd hac (fun hx => huniq _ hx (hw.trans hw2))
            · exact g2 w hw hw2
        rcases hb v i hv ht with hc | hc
        · exact hch _ (Or.inl rfl) hc
        · exact hch _ (Or.inr rfl) hc
      · have hv' : v = s.slots - 1 + i := by
          rcases hanc.split with h | h | h
          · exact h
          · have := h.le; omega
          · have := h.le; omega
        subst hv'
        constructor
        · by_cases hact : a.act i
          · exact hact
          · rw [(h.leaf i hi).2 hact] at ht; cases ht
        · intro w hw1 hw2
          have : w = s.slots - 1 + i := by have := hw1.le; have := hw2.le; omega
          subst this; exact ht
  exact key (s.size - v) v (by omega) (by omega) ht

/-- `deactivate_player_step` -/
theorem Inv.step (h : Inv lt s a) {i : Nat} (hi : i < s.slots) :
    ∃ s', deactivateStep s i = some s' ∧ Inv lt s' { act := fun j => j ≠ i ∧ a.act j, dirty := fun j => j = i ∨ a.dirty j } ∧
      s'.slots = s.slots ∧ s'.val = s.val ∧ s'.size = s.size ∧ (Backed s → Backed s' ∧ ∀ v, v < s.size → s'.tree v ≠ some i) := by
  have hp := h.pos
  have hsz := h.sz
  obtain ⟨r1, r2, r3⟩ := stepLoop_spec i (s.slots - 1 + i) s.tree
  -- the final tree
  have hfin : ∃ t : Nat → Option Nat,
      deactivateStep s i = some { s with tree := t } ∧
      (∀ v, t v = s.tree v ∨ (t v = none ∧ Anc v (s.slots - 1 + i) ∧ s.tree v = some i)) ∧
      t (s.slots - 1 + i) = none ∧
      (∀ v, Anc v (s.slots - 1 + i) → (∀ w, Anc v w → Anc w (s.slots - 1 + i) → s.tree w = some i) → t v = none) := by
    refine ⟨if stepLoop i s.tree (s.slots - 1 + i) 0 = some i then upd (stepLoop i s.tree (s.slots - 1 + i)) 0 none
      else stepLoop i s.tree (s.slots - 1 + i), ?_, ?_, ?_, ?_⟩
    · unfold deactivateStep
      rw [if_neg (by omega), half h]
    · intro v
      split
      · rename_i h0
        by_cases hv : v = 0
        · subst hv
          right
          refine ⟨by simp, anc_root _, ?_⟩
          rcases r1 0 with hc | hc
          · rw [← hc]; exact h0
          · exact hc.2.2
        · rw [upd_ne _ _ hv]; exact r1 v
      · exact r1 v
    · have hleaf : s.tree (s.slots - 1 + i) = some i ∨ s.tree (s.slots - 1 + i) = none := by
        by_cases ha : a.act i
        · exact Or.inl ((h.leaf i hi).1 ha)
        · exact Or.inr ((h.leaf i hi).2 ha)
      have hz : s.slots - 1 + i ≠ 0 → stepLoop i s.tree (s.slots - 1 + i) (s.slots - 1 + i) = none := by
        intro hz
        rcases hleaf with hl | hl
        · exact r2 hz hl
        · rcases r1 (s.slots - 1 + i) with hc | hc
          · rw [hc]; exact hl
          · exact hc.1
      split
      · rename_i h0
        by_cases hv : s.slots - 1 + i = 0
        · rw [hv]; simp
        · rw [upd_ne _ _ hv]; exact hz hv
      · rename_i h0
        by_cases hv : s.slots - 1 + i = 0
        · rw [hv]
          rw [hv] at r1 hleaf h0
          rcases r1 0 with hc | hc
          · rcases hleaf with hl | hl
            · rw [hc] at h0; exact absurd hl h0
            · rw [hc]; exact hl
          · exact hc.1
        · exact hz hv
    · intro v hv hw
      split
      · rename_i h0
        by_cases hv0 : v = 0
        · subst hv0; simp
        · rw [upd_ne _ _ hv0]; exact r3 v hv0 hv hw
      · rename_i h0
        by_cases hv0 : v = 0
        · subst hv0
          rcases r1 0 with hc | hc
          · rw [hc] at h0; exact absurd (hw 0 .refl hv) h0
          · exact hc.1
        · exact r3 v hv0 hv hw
  obtain ⟨t, e, t1, t2, t3⟩ := hfin
  refine ⟨_, e, ?_, rfl, rfl, rfl, ?_⟩
  · refine ⟨hp, hsz, ?_, ?_, ?_, ?_⟩
    · intro j hj; exact h.act_lt j hj.2
    · intro j hj
      show (_ → t (s.slots - 1 + j) = _) ∧ (_ → t (s.slots - 1 + j) = _)
      by_cases hji : j = i
      · subst hji
        exact ⟨fun hc => absurd rfl hc.1, fun _ => t2⟩
      · have hn : ¬ Anc (s.slots - 1 + j) (s.slots - 1 + i) := fun hc => hji (leaf_anc hp hj hi hc)
        rcases t1 (s.slots - 1 + j) with hc | hc
        · rw [hc]
          refine ⟨fun hx => (h.leaf j hj).1 hx.2, fun hx => (h.leaf j hj).2 (fun hy => hx ⟨hji, hy⟩)⟩
        · exact absurd hc.2.1 hn
    · intro v j hv
      show t v = _ → _
      intro ht
      rcases t1 v with hc | hc
      · rw [hc] at ht; exact h.anc v j hv ht
      · rw [hc.1] at ht; cases ht
    · intro v hv hcl
      have hv : v < s.slots - 1 := hv
      have ha : ¬ Anc v (s.slots - 1 + i) := hcl i (Or.inl rfl) hi
      show t v = game _ _ (t _) (t _)
      have hun : ∀ w, Anc v w → t w = s.tree w := by
        intro w hw
        rcases t1 w with hc | hc
        · exact hc
        · exact absurd (hw.trans hc.2.1) ha
      rw [hun v .refl, hun _ (anc_left v), hun _ (anc_right v)]
      exact h.ok v hv (fun j hd hj => hcl j (Or.inr hd) hj)
  · intro hb
    have hni : ∀ v, v < s.size → t v ≠ some i := by
      intro v hv ht
      rcases t1 v with hc | hc
      · rw [hc] at ht
        have hx := t3 v (h.anc v i hv ht).2 (h.backed_act hb hv ht).2
        rw [hc, ht] at hx; cases hx
      · rw [hc.1] at ht; cases ht
    refine ⟨?_, hni⟩
    intro v j hv
    have hv : v < s.slots - 1 := hv
    show t v = _ → t _ = _ ∨ t _ = _
    intro ht
    have hji : j ≠ i := fun hc => hni v (by omega) (hc ▸ ht)
    have hun : ∀ w, s.tree w = some j → t w = some j := by
      intro w hw
      rcases t1 w with hc | hc
      · rw [hc]; exact hw
      · rw [hc.2.2] at hw; cases hw; exact absurd rfl hji
    rcases t1 v with hc | hc
    · rw [hc] at ht
      rcases hb v j hv ht with hx | hx
      · exact Or.inl (hun _ hx)
      · exact Or.inr (hun _ hx)
    · rw [hc.1] at ht; cases ht

/-- A value changes. -/
theorem Inv.setVal (hlt : SWO lt) (h : Inv lt s a) (i : Nat) (x : V) :
    Inv lt { s with val := upd s.val i x } { a with dirty := fun j => a.dirty j ∨ (j = i ∧ a.act i) } := by
  have hp := h.pos
  have hsz := h.sz
  refine ⟨hp, hsz, h.act_lt, h.leaf, h.anc, ?_⟩
  intro v hv hcl
  have hv : v < s.slots - 1 := hv
  have hcl0 : Clean s a v := fun j hd hj => hcl j (Or.inl hd) hj
  show s.tree v = game lt (upd s.val i x) (s.tree _) (s.tree _)
  rw [h.ok v hv hcl0]
  have hne : ∀ w, Anc v w → w < s.size → s.tree w ≠ some i := by
    intro w hw hws ht
    have hact := ((h.min hlt (s.size - w) w (by omega) (by omega)
      (fun j hd hj hc => hcl0 j hd hj (hw.trans hc))).1 i ht).1
    obtain ⟨hi, hanc⟩ := h.anc w i hws ht
    exact hcl i (Or.inr ⟨rfl, hact⟩) hi (hw.trans hanc)
  apply game_congr
  · intro j hj; rw [upd_ne]; rintro rfl; exact hne _ (anc_left v) (by omega) hj
  · intro j hj; rw [upd_ne]; rintro rfl; exact hne _ (anc_right v) (by omega) hj

/-- `rebuild` -/
theorem Inv.rebuild (h : Inv lt s a) : Inv lt (rebuild lt s) { a with dirty := fun _ => False } ∧ (rebuild lt s).slots = s.slots ∧
    (rebuild lt s).val = s.val ∧ Backed (rebuild lt s) := by
  have hp := h.pos
  have hsz := h.sz
  obtain ⟨r1, r2⟩ := rebuildLoop_spec lt s.val (s.slots - 1) s.tree
  have hh : WinnerTree.rebuild lt s = { s with tree := rebuildLoop lt s.val (s.slots - 1) s.tree } := by
    unfold WinnerTree.rebuild; rw [half h]
  rw [hh]
  refine ⟨⟨hp, hsz, h.act_lt, ?_, ?_, ?_⟩, rfl, rfl, ?_⟩
  · intro i hi
    show (_ → rebuildLoop _ _ _ _ (s.slots - 1 + i) = _) ∧ (_ → rebuildLoop _ _ _ _ (s.slots - 1 + i) = _)
    rw [r1 _ (by omega)]
    exact h.leaf i hi
  · have key : ∀ k v i, s.size = v + k → 0 < k → rebuildLoop lt s.val (s.slots - 1) s.tree v = some i →
        i < s.slots ∧ Anc v (s.slots - 1 + i) := by
      intro k
      induction k using Nat.strongRecOn with
      | _ k ih =>
        intro v i hk hpos hr
        by_cases hv : v < s.slots - 1
        · rw [r2 v hv] at hr
          rcases game_mem hr with hr | hr
          · obtain ⟨g1, g2⟩ := ih (k - v - 1) (by omega) (2 * v + 1) i (by omega) (by omega) hr
            exact ⟨g1, (anc_left v).trans g2⟩
          · obtain ⟨g1, g2⟩ := ih (k - v - 2) (by omega) (2 * v + 2) i (by omega) (by omega) hr
            exact ⟨g1, (anc_right v).trans g2⟩
        · rw [r1 v (by omega)] at hr
          exact h.anc v i (by omega) hr
    intro v i hv
    have hv : v < s.size := hv
    exact key (s.size - v) v i (by omega) (by omega)
  · intro v hv _
    exact r2 v hv
  · intro v i hv hr
    have hr : rebuildLoop lt s.val (s.slots - 1) s.tree v = some i := hr
    rw [r2 v hv] at hr
    exact game_mem hr

/-- A tree without players. -/
theorem Inv.blank {n : Nat} (hn : 0 < n) (val : Nat → V) :
    Inv lt ({ tree := fun _ => none, size := 2 * n - 1, slots := n, val := val } : S V) { act := fun _ => False, dirty := fun _ => False } ∧
    Backed ({ tree := fun _ => none, size := 2 * n - 1, slots := n, val := val } : S V) := by
  refine ⟨⟨hn, rfl, fun _ h => h.elim, fun i _ => ⟨fun h => h.elim, fun _ => rfl⟩, ?_, ?_⟩, ?_⟩
  · intro v i _ h; cases h
  · intro v _ _; rfl
  · intro v i _ h; cases h

end Stxxl.WinnerTree
