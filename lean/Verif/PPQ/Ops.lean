import Verif.PPQ.Extract
import Mathlib.Tactic.SplitIfs
/-! The operations. -/
namespace Stxxl.PPQ
open MwMerge.Spec
variable {α : Type}

/-- The element `top` returns when the extract buffer has been refilled. -/
def peek (c : Cfg α) (s : S α) : Option α :=
  match s.root with
  | none => none
  | some .H => match argmin c.lt s.mh with
    | none => none
    | some (i, _) => (s.heaps[i]?).bind (·.ord.head?)
  | some .I => match argmin c.lt s.mia with
    | none => none
    | some (i, _) => iaKey s i
  | some .E => s.eb.head?

theorem top_eq (c : Cfg α) (o : Oracle) (s : S α) : top c o s = (prep c o s).bind fun s' => (peek c s').map (·, s') := by
  unfold top peek
  cases prep c o s with
  | none => rfl
  | some s' =>
    dsimp only [Option.bind_some]
    cases s'.root with
    | none => rfl
    | some t =>
      cases t
      · dsimp only; cases argmin c.lt s'.mh <;> rfl
      · dsimp only; cases argmin c.lt s'.mia <;> rfl
      · rfl

def key (s : S α) : Ty → Option α
  | .H => s.hdH
  | .I => s.hdI
  | .E => s.eb.head?

theorem headGame_spec {c : Cfg α} (hw : SWO c.lt) {s : S α} (hE : s.hdE = !s.eb.isEmpty) {t : Ty} (h : headGame c s = some t) :
    ∃ v, key s t = some v ∧ (∀ t' w, key s t' = some w → c.lt w v = false) := by
  have hi := hw.irrefl
  unfold headGame game at h
  rw [hE] at h
  cases heb : s.eb with
  | nil =>
    rw [heb] at h
    cases hH : s.hdH with
    | none =>
      cases hI : s.hdI with
      | none => rw [hH, hI] at h; simp at h
      | some y =>
        rw [hH, hI] at h
        simp at h
        subst h
        refine ⟨y, hI, ?_⟩
        intro t' w hk
        cases t' <;> simp [key, hH, hI, heb] at hk
        subst hk; exact hi _
    | some x =>
      cases hI : s.hdI with
      | none =>
        rw [hH, hI] at h
        simp at h
        subst h
        refine ⟨x, hH, ?_⟩
        intro t' w hk
        cases t' <;> simp [key, hH, hI, heb] at hk
        subst hk; exact hi _
      | some y =>
        rw [hH, hI] at h
        simp at h
        split_ifs at h with h1
        · simp at h
          subst h
          refine ⟨x, hH, ?_⟩
          intro t' w hk
          cases t' <;> simp [key, hH, hI, heb] at hk
          · subst hk; exact hi _
          · subst hk; exact hw.asymm _ _ h1
        · simp at h
          subst h
          refine ⟨y, hI, ?_⟩
          intro t' w hk
          cases t' <;> simp [key, hH, hI, heb] at hk
          · subst hk; simpa using h1
          · subst hk; exact hi _
  | cons z r =>
    rw [heb] at h
    cases hH : s.hdH with
    | none =>
      cases hI : s.hdI with
      | none =>
        rw [hH, hI] at h
        simp at h
        subst h
        refine ⟨z, by simp [key, heb], ?_⟩
        intro t' w hk
        cases t' <;> simp [key, hH, hI, heb] at hk
        subst hk; exact hi _
      | some y =>
        rw [hH, hI] at h
        simp at h
        split_ifs at h with h1
        · simp at h
          subst h
          refine ⟨y, hI, ?_⟩
          intro t' w hk
          cases t' <;> simp [key, hH, hI, heb] at hk
          · subst hk; exact hi _
          · subst hk; exact hw.asymm _ _ h1
        · simp at h
          subst h
          refine ⟨z, by simp [key, heb], ?_⟩
          intro t' w hk
          cases t' <;> simp [key, hH, hI, heb] at hk
          · subst hk; simpa using h1
          · subst hk; exact hi _
    | some x =>
      cases hI : s.hdI with
      | none =>
        rw [hH, hI] at h
        simp at h
        split_ifs at h with h1
        · simp at h
          subst h
          refine ⟨x, hH, ?_⟩
          intro t' w hk
          cases t' <;> simp [key, hH, hI, heb] at hk
          · subst hk; exact hi _
          · subst hk; exact hw.asymm _ _ h1
        · simp at h
          subst h
          refine ⟨z, by simp [key, heb], ?_⟩
          intro t' w hk
          cases t' <;> simp [key, hH, hI, heb] at hk
          · subst hk; simpa using h1
          · subst hk; exact hi _
      | some y =>
        rw [hH, hI] at h
        simp at h
        split_ifs at h with h1
        · obtain ⟨u, h⟩ := h
          dsimp only at h
          split_ifs at h with h2
          · simp at h
            obtain ⟨rfl, -⟩ := h
            refine ⟨x, hH, ?_⟩
            intro t' w hk
            cases t' <;> simp [key, hH, hI, heb] at hk
            · subst hk; exact hi _
            · subst hk; exact hw.asymm _ _ h1
            · subst hk; exact hw.asymm _ _ h2
          · simp at h
            obtain ⟨rfl, -⟩ := h
            refine ⟨z, by simp [key, heb], ?_⟩
            have h2' : c.lt x z = false := by simpa using h2
            intro t' w hk
            cases t' <;> simp [key, hH, hI, heb] at hk
            · subst hk; exact h2'
            · subst hk; exact hw.negtrans _ _ _ (hw.asymm _ _ h1) h2'
            · subst hk; exact hi _
        · obtain ⟨u, h⟩ := h
          dsimp only at h
          split_ifs at h with h2
          · simp at h
            obtain ⟨rfl, -⟩ := h
            refine ⟨y, hI, ?_⟩
            intro t' w hk
            cases t' <;> simp [key, hH, hI, heb] at hk
            · subst hk; simpa using h1
            · subst hk; exact hi _
            · subst hk; exact hw.asymm _ _ h2
          · simp at h
            obtain ⟨rfl, -⟩ := h
            refine ⟨z, by simp [key, heb], ?_⟩
            have h2' : c.lt y z = false := by simpa using h2
            have h1' : c.lt x y = false := by simpa using h1
            intro t' w hk
            cases t' <;> simp [key, hH, hI, heb] at hk
            · subst hk; exact hw.negtrans _ _ _ h1' h2'
            · subst hk; exact h2'
            · subst hk; exact hi _

theorem head_le {lt : α → α → Bool} (hw : SWO lt) {l : List α} (h : Sorted lt l) {y : α} (hy : y ∈ l) : ∃ x, l.head? = some x ∧ lt y x = false := by
  cases l with
  | nil => simp at hy
  | cons x l =>
    refine ⟨x, rfl, ?_⟩
    rw [List.mem_cons] at hy
    rcases hy with rfl | hy
    · exact hw.irrefl _
    · exact (sorted_cons.1 h).1 y hy

theorem keyH {c : Cfg α} (hc : CfgOk c) {s : S α} (h : HeapsOk c s.heaps s.hsize s.mh s.hdH) {y : α} (hy : y ∈ ords s.heaps) :
    ∃ w, s.hdH = some w ∧ c.lt y w = false := by
  obtain ⟨l, hl, hy⟩ := List.mem_flatten.1 hy
  obtain ⟨hp, hhp, rfl⟩ := List.mem_map.1 hl
  obtain ⟨x, hx, hle⟩ := head_le hc.swo (h.sorted hp hhp) hy
  have hm : some x ∈ s.mh := by rw [h.tree]; exact List.mem_map.2 ⟨hp, hhp, hx⟩
  obtain ⟨j, w, ha⟩ := argmin_isSome (lt := c.lt) hm
  refine ⟨w, by rw [h.head, ha]; rfl, ?_⟩
  exact hc.swo.negtrans _ _ _ hle ((argmin_some hc.swo ha).2 x hm)

theorem keyI {c : Cfg α} (hc : CfgOk c) {s : S α} (h : IntOk c s.ias s.isize) (ht : IAtree c s.ias s.mia s.hdI) {y : α} (hy : y ∈ items s.ias) :
    ∃ w, s.hdI = some w ∧ c.lt y w = false := by
  obtain ⟨l, hl, hy⟩ := List.mem_flatten.1 hy
  obtain ⟨a, ha, rfl⟩ := List.mem_map.1 hl
  rcases ht with ⟨h1, -⟩ | ⟨h1, h2⟩
  · rw [h1] at ha; simp at ha
  · obtain ⟨x, hx, hle⟩ := head_le hc.swo (h.sorted a ha) hy
    obtain ⟨i, hi⟩ := List.mem_iff_getElem?.1 ha
    have h3 := h1 i
    rw [hi] at h3
    simp only [Option.bind_some] at h3
    rw [hx, List.getD_eq_getElem?_getD] at h3
    have hm : some x ∈ s.mia := by
      cases hg : s.mia[i]? with
      | none => rw [hg] at h3; simp at h3
      | some w => rw [hg] at h3; simp at h3; rw [← h3]; exact List.mem_of_getElem? hg
    obtain ⟨j, w, hj⟩ := argmin_isSome (lt := c.lt) hm
    refine ⟨w, by rw [h2, hj]; rfl, ?_⟩
    exact hc.swo.negtrans _ _ _ hle ((argmin_some hc.swo hj).2 x hm)

theorem keyE {c : Cfg α} (hc : CfgOk c) {s : S α} (h : Sorted c.lt s.eb) (hr : ReadyOk c s) {y : α} (hy : y ∈ s.eb ++ rests s.eas) :
    ∃ w, s.eb.head? = some w ∧ c.lt y w = false := by
  rw [List.mem_append] at hy
  rcases hy with hy | hy
  · exact head_le hc.swo h hy
  · cases heb : s.eb with
    | nil => rw [(hr.arr heb).2] at hy; simp [rests] at hy
    | cons x r => exact ⟨x, rfl, hr.ext x (by rw [heb]; exact List.mem_cons_self) y hy⟩

/-- What `top` returns is least. -/
theorem peek_least {c : Cfg α} (hc : CfgOk c) {s : S α} (hI : Inv c s) (hr : ReadyOk c s) (hp : pends s.heaps = []) {v : α}
    (h : peek c s = some v) : ∃ t, s.root = some t ∧ key s t = some v ∧ ∀ y ∈ elems s, c.lt y v = false := by
  unfold peek at h
  cases ht : s.root with
  | none => rw [ht] at h; simp at h
  | some t =>
    rw [ht] at h
    have hroot := hr.root
    rw [ht] at hroot
    obtain ⟨v', hk, hle⟩ := headGame_spec hc.swo hr.hdE hroot.symm
    have hv : v' = v := by
      cases t with
      | H =>
        dsimp only at h
        split at h
        · simp at h
        · rename_i i x ha
          have h1 : s.hdH = some x := by rw [hI.heaps.head, ha]; rfl
          have h2 := (argmin_some hc.swo ha).1
          rw [hI.heaps.tree, List.getElem?_map] at h2
          have h3 : key s .H = s.hdH := rfl
          rw [h3, h1] at hk
          cases hh : s.heaps[i]? with
          | none => rw [hh] at h2; simp at h2
          | some hp =>
            rw [hh] at h2 h
            simp only [Option.map_some, Option.some.injEq, Option.bind_some] at h2 h hk
            rw [h2] at h
            rw [← hk]; exact Option.some.inj h
      | I =>
        dsimp only at h
        split at h
        · simp at h
        · rename_i i x ha
          have h3 : key s .I = s.hdI := rfl
          rw [h3] at hk
          rcases hr.tree with ⟨-, h1⟩ | ⟨h1, h2⟩
          · rw [h1] at hk; simp at hk
          · have h4 := (argmin_some hc.swo ha).1
            have h5 := h1 i
            rw [List.getD_eq_getElem?_getD, h4] at h5
            unfold iaKey at h
            rw [← h5] at h
            rw [h2, ha] at hk
            simp at h hk
            rw [← hk, ← h]
      | E =>
        have h3 : key s .E = s.eb.head? := rfl
        rw [h3] at hk
        dsimp only at h
        rw [h] at hk
        exact (Option.some.inj hk).symm
    subst hv
    refine ⟨t, rfl, hk, ?_⟩
    intro y hy
    unfold elems arrays at hy
    rw [hp] at hy
    simp only [List.mem_append, List.not_mem_nil, or_false] at hy
    have fin : ∀ t' w, key s t' = some w → c.lt y w = false → c.lt y v' = false := fun t' w h1 h2 =>
      hc.swo.negtrans _ _ _ h2 (hle t' w h1)
    rcases hy with hy | (hy | hy) | hy
    · obtain ⟨w, h1, h2⟩ := keyH hc hI.heaps hy
      exact fin .H w h1 h2
    · obtain ⟨w, h1, h2⟩ := keyE hc hI.core.ebS hr (List.mem_append_left _ hy)
      exact fin .E w h1 h2
    · obtain ⟨w, h1, h2⟩ := keyI hc hI.core.int hr.tree hy
      exact fin .I w h1 h2
    · obtain ⟨w, h1, h2⟩ := keyE hc hI.core.ebS hr (List.mem_append_right _ hy)
      exact fin .E w h1 h2

/-- `top` and `pop` begin with this. -/
theorem prep_eq {c : Cfg α} (hc : CfgOk c) (o : Oracle) {s s' : S α} (hI : Inv c s) (h : prep c o s = some s') :
    Inv c s' ∧ ReadyOk c s' ∧ s'.heaps = s.heaps ∧ List.Perm (elems s') (elems s) ∧ (ReadyOk c s → peek c s' = peek c s) := by
  unfold prep at h
  split_ifs at h with he
  · rw [List.isEmpty_iff] at he
    obtain ⟨h1, h2, h3, h4, -, -, h5, h6, h7, -, -⟩ := refill_eq hc o _ _ hI.core he h
    refine ⟨⟨by rw [h1, h2, h3, h4]; exact hI.heaps, h5, ?_⟩, h6, h1, ?_, ?_⟩
    · intro hne
      refine ⟨?_, h6.tree, h6.root, h6.ext⟩
      rw [h6.hdE]
      cases heb : s'.eb with
      | nil => exact absurd heb hne
      | cons _ _ => rfl
    · unfold elems; rw [h1]; exact List.Perm.append_left _ h7
    · intro hr
      obtain ⟨h8, h9⟩ := hr.arr he
      have harr : arrays s = [] := by unfold arrays; rw [he, h8, h9]; rfl
      rw [harr] at h7
      have h10 : arrays s' = [] := List.perm_nil.1 h7
      unfold arrays at h10
      rw [List.append_eq_nil_iff, List.append_eq_nil_iff] at h10
      have heb' := h10.1.1
      obtain ⟨h11, h12⟩ := h6.arr heb'
      have hd : ∀ s : S α, IAtree c s.ias s.mia s.hdI → s.ias = [] → s.hdI = none := by
        intro s ht h0
        rcases ht with ⟨-, h⟩ | ⟨hA, hB⟩
        · exact h
        · cases ha : argmin c.lt s.mia with
          | none => rw [hB, ha]; rfl
          | some p =>
            have h13 := (argmin_some hc.swo (j := p.1) (x := p.2) ha).1
            have h14 := hA p.1
            rw [List.getD_eq_getElem?_getD, h13, h0] at h14
            simp at h14
      have hroot : s'.root = s.root := by
        rw [h6.root, hr.root]
        exact headGame_congr h4 (by rw [hd s' h6.tree h11, hd s hr.tree h8]) (by rw [h6.hdE, hr.hdE, heb', he]) (by rw [heb', he])
      unfold peek
      rw [hroot, h3, h1]
      cases hrt : s.root with
      | none => rfl
      | some t =>
        cases t with
        | H => rfl
        | I =>
          rw [hr.root] at hrt
          obtain ⟨v, hk, -⟩ := headGame_spec hc.swo hr.hdE hrt
          have : key s .I = s.hdI := rfl
          rw [this, hd s hr.tree h8] at hk
          simp at hk
        | E => dsimp only; rw [heb', he]
  · rw [Option.some.injEq] at h
    subst h
    have hne : s.eb ≠ [] := by simpa using he
    have hf := hI.front hne
    refine ⟨hI, ⟨?_, hf.tree, hf.root, hf.ext, fun h => absurd h hne⟩, rfl, List.Perm.refl _, fun _ => rfl⟩
    rw [hf.hdE]
    cases heb : s.eb with
    | nil => exact absurd heb hne
    | cons _ _ => rfl

end Stxxl.PPQ
