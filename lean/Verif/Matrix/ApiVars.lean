import Verif.Matrix.ApiInv

/-!
# Variables and reference counts
-/

namespace Stxxl.Mat

variable {R : Type} [CommRing R] {B : Nat}

/-- A variable with value `v` refers to the block matrix `d`. -/
def PV (vars : List (Option Mat)) (σ : List (Option (Val R))) (d : Nat) (v : Val R) : Prop :=
  ∃ (x : Nat) (m : Mat), vars[x]? = some (some m) ∧ σ[x]? = some (some v) ∧ m.data = d

/-- The variables have the dimensions of their values. -/
structure Rel (vars : List (Option Mat)) (σ : List (Option (Val R))) : Prop where
  len : vars.length = σ.length
  fwd : ∀ (x : Nat) (m : Mat), vars[x]? = some (some m) → ∃ v, σ[x]? = some (some v) ∧ m.height = v.h ∧ m.width = v.w
  bwd : ∀ (x : Nat) (v : Val R), σ[x]? = some (some v) → ∃ m, vars[x]? = some (some m)

/-- The world holds the values `σ`. -/
structure Inv (B : Nat) (w : World R) (σ : List (Option (Val R))) : Prop where
  core : Core B w.st w.obj w.nobj (PV w.vars σ)
  rel : Rel w.vars σ

theorem var_iff {w : World R} {x : Nat} {m : Mat} : w.var x = some m ↔ w.vars[x]? = some (some m) := by
  unfold World.var
  cases h : w.vars[x]? with
  | none => simp
  | some o => cases o <;> simp

theorem join_iff {α : Type} {l : List (Option α)} {x : Nat} {v : α} : (l[x]?).join = some v ↔ l[x]? = some (some v) := by
  cases h : l[x]? with
  | none => simp
  | some o => cases o <;> simp

/-- Another variable refers to `d`. -/
theorem cnt_other {vars : List (Option Mat)} {x d : Nat} {m : Mat} (hx : vars[x]? = some (some m)) (hd : m.data = d) :
    cnt vars d = 1 ↔ ∀ (y : Nat) (m' : Mat), vars[y]? = some (some m') → m'.data = d → y = x := by
  have hlt := getElem?_lt hx
  have hget : vars[x] = some m := by
    rw [List.getElem?_eq_getElem hlt] at hx; exact Option.some.inj hx
  have key := List.countP_set (p := refers d) (l := vars) (i := x) (a := none) hlt
  have hp : 0 < cnt vars d := by
    unfold cnt
    rw [List.countP_pos_iff]
    exact ⟨some m, List.mem_of_getElem? hx, by simp [hd, refers]⟩
  have h0 : cnt (vars.set x none) d = cnt vars d - 1 := by
    unfold cnt
    rw [key, hget]; simp [hd, refers]
  have hz : cnt (vars.set x none) d = 0 ↔ ∀ (y : Nat) (m' : Mat), vars[y]? = some (some m') → m'.data = d → y = x := by
    unfold cnt
    rw [List.countP_eq_zero]
    constructor
    · intro h y m' hy hd'
      by_contra hne
      have : (vars.set x none)[y]? = some (some m') := by rw [List.getElem?_set_ne (Ne.symm hne)]; exact hy
      exact h _ (List.mem_of_getElem? this) (by simp [hd', refers])
    · intro h a ha
      obtain ⟨y, hy⟩ := List.mem_iff_getElem?.1 ha
      cases a with
      | none => simp [refers]
      | some m' =>
        by_cases hne : y = x
        · subst hne; rw [List.getElem?_set_self hlt] at hy; simp at hy
        · rw [List.getElem?_set_ne (Ne.symm hne)] at hy
          simp only [refers, beq_iff_eq]
          intro hd'
          exact hne (h y m' hy hd')
  rw [← hz, h0]
  omega

theorem cnt_zero {vars : List (Option Mat)} {d : Nat} :
    cnt vars d = 0 ↔ ∀ (y : Nat) (m : Mat), vars[y]? = some (some m) → m.data ≠ d := by
  unfold cnt
  rw [List.countP_eq_zero]
  constructor
  · intro h y m hy hd
    exact h _ (List.mem_of_getElem? hy) (by simp [hd, refers])
  · intro h a ha
    obtain ⟨y, hy⟩ := List.mem_iff_getElem?.1 ha
    cases a with
    | none => simp [refers]
    | some m => simpa [refers] using h y m hy

theorem getElem?_set_some {α : Type} {l : List α} {x y : Nat} {a b : α} (h : (l.set x a)[y]? = some b) :
    (y = x ∧ b = a ∧ x < l.length) ∨ (y ≠ x ∧ l[y]? = some b) := by
  by_cases e : y = x
  · subst e
    left
    have hl := getElem?_lt h
    rw [List.length_set] at hl
    rw [List.getElem?_set_self hl] at h
    exact ⟨rfl, (Option.some.inj h).symm, hl⟩
  · right
    rw [List.getElem?_set_ne (Ne.symm e)] at h
    exact ⟨e, h⟩

/-- `om` and `ov` are nothing, or a matrix and its value. -/
def Fits (om : Option Mat) (ov : Option (Val R)) : Prop :=
  (om = none ∧ ov = none) ∨ ∃ m v, om = some m ∧ ov = some v ∧ m.height = v.h ∧ m.width = v.w

theorem Rel.set {vars : List (Option Mat)} {σ : List (Option (Val R))} (h : Rel vars σ) {x : Nat} {om : Option Mat} {ov : Option (Val R)}
    (hf : Fits om ov) : Rel (vars.set x om) (σ.set x ov) := by
  refine ⟨by simpa using h.len, ?_, ?_⟩
  · intro y m hy
    rcases getElem?_set_some hy with ⟨rfl, e, hl⟩ | ⟨hne, hy⟩
    · rcases hf with ⟨rfl, rfl⟩ | ⟨m', v, rfl, rfl, e1, e2⟩
      · cases e
      · cases e
        exact ⟨v, by rw [List.getElem?_set_self (h.len ▸ hl)], e1, e2⟩
    · obtain ⟨v, hv, e⟩ := h.fwd y m hy
      exact ⟨v, by rw [List.getElem?_set_ne (Ne.symm hne)]; exact hv, e⟩
  · intro y v hy
    rcases getElem?_set_some hy with ⟨rfl, e, hl⟩ | ⟨hne, hy⟩
    · rcases hf with ⟨rfl, rfl⟩ | ⟨m', v', rfl, rfl, e1, e2⟩
      · cases e
      · exact ⟨m', by rw [List.getElem?_set_self (h.len ▸ hl)]⟩
    · obtain ⟨m, hm⟩ := h.bwd y v hy
      exact ⟨m, by rw [List.getElem?_set_ne (Ne.symm hne)]; exact hm⟩

/-- Assignment. -/
theorem assign_ok {w : World R} {σ : List (Option (Val R))} (hr : Rel w.vars σ) {x : Nat} (hx : x < w.vars.length) {om : Option Mat}
    {ov : Option (Val R)} (hf : Fits om ov)
    (hc : Core B w.st w.obj w.nobj (fun d v => PV w.vars σ d v ∨ ∃ m, om = some m ∧ ov = some v ∧ m.data = d)) :
    Inv B (w.assign x om) (σ.set x ov) := by
  have hr' : Rel (w.vars.set x om) (σ.set x ov) := hr.set hf
  have h1 : ∀ d v, PV (w.vars.set x om) (σ.set x ov) d v → PV w.vars σ d v ∨ ∃ m, om = some m ∧ ov = some v ∧ m.data = d := by
    rintro d v ⟨y, m, hy, hv, hd⟩
    rcases getElem?_set_some hy with ⟨rfl, e, hl⟩ | ⟨hne, hy⟩
    · rw [List.getElem?_set_self (hr.len ▸ hl)] at hv
      exact Or.inr ⟨m, e.symm, Option.some.inj hv, hd⟩
    · rw [List.getElem?_set_ne (Ne.symm hne)] at hv
      exact Or.inl ⟨y, m, hy, hv, hd⟩
  have h2 : ∀ d v, (PV w.vars σ d v ∨ ∃ m, om = some m ∧ ov = some v ∧ m.data = d) →
      (∀ m, w.vars[x]? = some (some m) → m.data = d → cnt (w.vars.set x om) d ≠ 0) → ∃ v', PV (w.vars.set x om) (σ.set x ov) d v' := by
    rintro d v (⟨y, m, hy, hv, hd⟩ | ⟨m, e1, e2, hd⟩) hcnt
    · by_cases e : y = x
      · subst e
        have hn := hcnt m hy hd
        rw [Ne, cnt_zero] at hn
        push Not at hn
        obtain ⟨z, m', hz, hd'⟩ := hn
        obtain ⟨v', hv', _⟩ := hr'.fwd z m' hz
        exact ⟨v', z, m', hz, hv', hd'⟩
      · exact ⟨v, y, m, by rw [List.getElem?_set_ne (Ne.symm e)]; exact hy, by rw [List.getElem?_set_ne (Ne.symm e)]; exact hv, hd⟩
    · exact ⟨v, x, m, by rw [List.getElem?_set_self hx, e1], by rw [List.getElem?_set_self (hr.len ▸ hx), e2], hd⟩
  unfold World.assign
  cases ho : w.var x with
  | none =>
    refine ⟨hc.mono h1 ?_, hr'⟩
    intro d v hp
    refine h2 d v hp ?_
    intro m hm
    rw [var_iff.2 hm] at ho; cases ho
  | some o =>
    have hox := var_iff.1 ho
    obtain ⟨vo, hvo, _⟩ := hr.fwd x o hox
    by_cases hz : cnt (w.vars.set x om) o.data = 0
    · simp only [if_pos hz]
      refine ⟨?_, hr'⟩
      refine hc.destroy (d := o.data) (v := vo) (Or.inl ⟨x, o, hox, hvo, rfl⟩) ?_ h1 ?_
      · rintro v ⟨y, m, hy, _, hd⟩
        exact cnt_zero.1 hz y m hy hd
      · intro e u hne hp
        refine h2 e u hp ?_
        intro m hm hd
        rw [hox] at hm; cases hm
        exact absurd hd.symm hne
    · simp only [if_neg hz]
      refine ⟨hc.mono h1 ?_, hr'⟩
      intro d v hp
      refine h2 d v hp ?_
      intro m hm hd
      rw [hox] at hm; cases hm
      rw [← hd]; exact hz

/-- An operation changed the block matrix of variable `x`, which nobody shares. -/
theorem write_ok {w : World R} {σ : List (Option (Val R))} (h : Inv B w σ) {x : Nat} {m m' : Mat} (hx : w.vars[x]? = some (some m))
    (hc : cnt w.vars m.data = 1) (v' : Val R) (o' : SBM) (s' : St R) (hm : m'.data = m.data) (hh : m'.height = v'.h) (hw : m'.width = v'.w)
    (hwf : s'.Wf) (hl : ∀ i, s'.live i ↔ w.st.live i) (hb : ∀ i, w.st.live i → ¬ HasBlock (w.obj m.data) i → s'.blk i = w.st.blk i)
    (ho : ∀ i, HasBlock o' i ↔ HasBlock (w.obj m.data) i) (hok : ObjOk B s' o' v') :
    Inv B { w with st := s', obj := fun e => if e = m.data then o' else w.obj e, vars := w.vars.set x (some m') } (σ.set x (some v')) := by
  obtain ⟨v, hv, _⟩ := h.rel.fwd x m hx
  have hlt := getElem?_lt hx
  have hlt' : x < σ.length := h.rel.len ▸ hlt
  have huniq := (cnt_other hx rfl).1 hc
  have hcore := h.core.write (d := m.data) (v := v) ⟨x, m, hx, hv, rfl⟩ o' hwf hl hb ho hok
  refine ⟨hcore.mono ?_ ?_, h.rel.set (Or.inr ⟨m', v', rfl, rfl, hh, hw⟩)⟩
  · rintro d u ⟨y, my, hy, hu, hd⟩
    rcases getElem?_set_some hy with ⟨rfl, e, _⟩ | ⟨hne, hy⟩
    · rw [List.getElem?_set_self hlt'] at hu
      have e' : my = m' := Option.some.inj e
      rw [if_pos (by rw [← hd, e', hm])]
      exact (Option.some.inj (Option.some.inj hu)).symm
    · rw [List.getElem?_set_ne (Ne.symm hne)] at hu
      rw [if_neg (fun e => hne (huniq y my hy (hd.trans e)))]
      exact ⟨y, my, hy, hu, hd⟩
  · intro d u hp
    by_cases e : d = m.data
    · exact ⟨v', x, m', List.getElem?_set_self hlt, List.getElem?_set_self hlt', hm.trans e.symm⟩
    · rw [if_neg e] at hp
      obtain ⟨y, my, hy, hu, hd⟩ := hp
      have hne : y ≠ x := by
        rintro rfl
        rw [hx] at hy; cases hy; exact e hd.symm
      exact ⟨u, y, my, by rw [List.getElem?_set_ne (Ne.symm hne)]; exact hy, by rw [List.getElem?_set_ne (Ne.symm hne)]; exact hu, hd⟩

end Stxxl.Mat
