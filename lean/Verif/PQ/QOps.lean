import Verif.PQ.QEmpty

/-! # The operations of the priority queue keep the invariant -/

namespace Stxxl.PQ
open Stxxl.LT (upd Below)

variable {α : Type} {C : Cmp α} {c : Cfg} {H : StdHeap α}

/-- The queue `s` holds the multiset `ms`. -/
structure QInv (c : Cfg) (C : Cmp α) (s : State α) (ms : List α) : Prop where
  B : BInv c C s
  D : DInv c C s
  heap : IsHeap C s.heap
  hs : ∃ hs : List α, s.heap.Perm (C.minv :: hs) ∧ (∀ x ∈ hs, C.Real x) ∧ hs.length ≤ c.N ∧ ms.Perm (hs ++ (s.del ++ below c s))

theorem heap_single (x : α) : IsHeap C [x] := by
  intro i hi h0; simp at hi; omega

theorem push_nil (hH : H.Ok C) : H.pushHeap [C.minv] = [C.minv] := List.perm_singleton.1 (hH.push_perm _)

theorem QInv.perm {s : State α} {ms ms' : List α} (h : QInv c C s ms) (hp : ms'.Perm ms) : QInv c C s ms' := by
  obtain ⟨hs, a, b, d, e⟩ := h.hs
  exact ⟨h.B, h.D, h.heap, hs, a, b, d, hp.trans e⟩

theorem init_ok (hC : C.Ok) (hc : c.Ok) (hH : H.Ok C) : QInv c C (init C H) [] := by
  have hb : below c (init C H) = [] := by
    unfold below
    rw [List.flatMap_eq_nil_iff]
    intro i _
    show [] ++ contents (Merger.init C) = []
    exact (init_inv hC (hc.mp 0)).2
  refine ⟨?_, ?_, ?_, [], ?_, by simp, by simp, ?_⟩
  · refine { nact_le := Nat.zero_le _, idle := fun i _ => ⟨rfl, (init_inv hC (hc.mp 0)).2⟩, mg := fun i => (init_inv hC (hc.mp i)).1, desc := fun i => List.Pairwise.nil, len := fun i => Nat.zero_le _, real := (fun i x hx => by cases hx), ge := (fun i x hx => by cases hx), size := ?_ }
    rw [hb]; rfl
  · exact ⟨List.Pairwise.nil, (fun x hx => by cases hx), (fun x hx => by cases hx), fun _ => rfl⟩
  · show IsHeap C (H.pushHeap [C.minv])
    rw [push_nil hH]; exact heap_single _
  · show (H.pushHeap [C.minv]).Perm _
    rw [push_nil hH]
  · rw [hb]; exact List.Perm.refl _

theorem heap_max (hC : C.Ok) {l : List α} (h : IsHeap C l) : ∀ (i : Nat) (hi : i < l.length), C.less (l[0]'(by omega)) l[i] = false := by
  intro i
  induction i using Nat.strongRecOn with
  | ind i ih =>
    intro hi
    by_cases h0 : i = 0
    · subst h0; exact irr hC _
    · have h1 := h i hi (by omega)
      have h2 := ih ((i - 1) / 2) (by omega) (by omega)
      exact hC.negtrans _ _ _ h2 h1

theorem heapPush_ok (hH : H.Ok C) {s : State α} {ms : List α} (h : QInv c C s ms) (hl : s.heap.length ≤ c.N) {x : α} (hx : C.Real x) :
    ∃ s', heapPush c H s x = some s' ∧ QInv c C s' (x :: ms) := by
  obtain ⟨hs, a, b, d, e⟩ := h.hs
  have hl2 := a.length_eq
  simp at hl2
  refine ⟨{ s with heap := H.pushHeap (s.heap ++ [x]) }, by unfold heapPush; rw [if_pos (by omega)], ?_⟩
  refine ⟨⟨{ nact_le := h.B.nact_le, idle := h.B.idle, mg := h.B.mg, desc := h.B.desc, len := h.B.len, real := h.B.real }, h.B.ge, h.B.size⟩,
    ⟨h.D.desc, h.D.real, h.D.ge, h.D.nil⟩, hH.push_heap _ _ h.heap, x :: hs, ?_, ?_, by simp; omega, ?_⟩
  · refine (hH.push_perm _).trans ?_
    refine (List.perm_append_singleton x s.heap).trans ?_
    exact (List.Perm.cons x a).trans (List.Perm.swap _ _ _)
  · intro y hy
    rcases List.mem_cons.1 hy with rfl | hy
    · exact hx
    · exact b y hy
  · exact List.Perm.cons x e

theorem push_ok (hC : C.Ok) (hc : c.Ok) (hH : H.Ok C) {s : State α} {ms : List α} (h : QInv c C s ms) {x : α} (hx : C.Real x) :
    ∃ s', push c C H s x = some s' ∧ QInv c C s' (x :: ms) := by
  obtain ⟨hs, a, b, d, e⟩ := h.hs
  have hl := a.length_eq
  simp at hl
  unfold push
  rw [if_neg (by rw [real_not_sentinel hx]; simp)]
  split
  · rename_i hfull
    obtain ⟨s', e1, B', D', h', p'⟩ := emptyHeap_ok hC hc hH h.B h.D a b hfull
    have hq : QInv c C s' ms :=
      ⟨B', D', by rw [h']; exact heap_single _, [], by rw [h'], by simp, by simp, by simpa using e.trans p'.symm⟩
    simp only [e1]
    rw [if_neg (by rw [h']; simp)]
    exact heapPush_ok hH hq (by rw [h']; have := hc.del_pos; have := hc.del_le_N; simp; omega) hx
  · rw [if_neg (by intro e; rw [e] at hl; simp at hl)]
    exact heapPush_ok hH h (by omega) hx

/-- The element that `top` returns: it is the one that `pop` removes. -/
theorem top_pop_ok (hC : C.Ok) (hc : c.Ok) (hH : H.Ok C) {s : State α} {ms : List α} (h : QInv c C s ms) (hne : ms ≠ []) :
    ∃ t ms' s', top C s = some t ∧ ms.Perm (t :: ms') ∧ IsMax C t ms ∧ pop c C H s = some s' ∧ QInv c C s' ms' := by
  obtain ⟨hs, a, b, dl, e⟩ := h.hs
  obtain ⟨t, r, hheap⟩ : ∃ t r, s.heap = t :: r := by
    apply List.exists_cons_of_ne_nil; intro e; rw [e] at a; have := a.length_eq; simp at this
  have hmax : ∀ y ∈ s.heap, C.less t y = false := by
    intro y hy
    obtain ⟨i, hi, rfl⟩ := List.getElem_of_mem hy
    have := heap_max hC h.heap i hi
    simpa [hheap] using this
  have hmaxs : ∀ y ∈ hs, C.less t y = false := fun y hy => hmax y (a.mem_iff.2 (List.mem_cons_of_mem _ hy))
  have hmem : ∀ y, y ∈ ms ↔ y ∈ hs ∨ y ∈ s.del ∨ y ∈ below c s := by
    intro y; rw [e.mem_iff]; simp
  have hdc : (s.del = [] ∧ s.del.headD C.minv = C.minv) ∨ ∃ d ds, s.del = d :: ds ∧ s.del.headD C.minv = d := by
    cases s.del with
    | nil => exact Or.inl ⟨rfl, rfl⟩
    | cons d ds => exact Or.inr ⟨d, ds, rfl, rfl⟩
  have hbn : s.del = [] → below c s = [] := by
    intro hn
    have := h.D.nil hn
    rw [h.B.size] at this
    exact List.length_eq_zero_iff.1 this
  generalize hd0 : s.del.headD C.minv = d0 at hdc
  have hd0ge : ∀ y, y ∈ s.del ∨ y ∈ below c s → C.less d0 y = false := by
    intro y hy
    rcases hdc with ⟨hn, _⟩ | ⟨d, ds, hd, rfl⟩
    · rcases hy with hy | hy
      · rw [hn] at hy; cases hy
      · rw [hbn hn] at hy; cases hy
    · rcases hy with hy | hy
      · have := h.D.desc
        rw [hd] at this hy
        rcases List.mem_cons.1 hy with rfl | hy
        · exact irr hC _
        · exact (List.pairwise_cons.1 this).1 y hy
      · exact h.D.ge d0 (by rw [hd]; simp) y hy
  cases hcmp : C.less d0 t with
  | true =>
    have htr : C.Real t := by
      rcases hdc with ⟨_, rfl⟩ | ⟨d, ds, hd, rfl⟩
      · exact hcmp
      · have h1 := h.D.real d0 (by rw [hd]; simp)
        by_contra hc'
        have hc' : C.less C.minv t = false := by unfold Cmp.Real at hc'; simpa using hc'
        have h2 := hC.negtrans C.minv t d0 hc' (hC.asymm _ _ hcmp)
        unfold Cmp.Real at h1; rw [h1] at h2; cases h2
    have htm : t ∈ hs := by
      have : t ∈ C.minv :: hs := a.mem_iff.1 (by rw [hheap]; simp)
      rcases List.mem_cons.1 this with rfl | h1
      · unfold Cmp.Real at htr; rw [irr hC] at htr; cases htr
      · exact h1
    obtain ⟨hs1, hs2, rfl⟩ := List.append_of_mem htm
    obtain ⟨l, e1, e2, e3⟩ := hH.pop_last t r (by rw [← hheap]; exact h.heap)
    have hrp : r.Perm (C.minv :: (hs1 ++ hs2)) := by
      have : (t :: r).Perm (t :: (C.minv :: (hs1 ++ hs2))) := by
        rw [← hheap]
        refine a.trans ?_
        refine (List.Perm.cons _ List.perm_middle).trans (List.Perm.swap _ _ _)
      exact this.cons_inv
    refine ⟨t, (hs1 ++ hs2) ++ (s.del ++ below c s), { s with heap := l }, ?_, ?_, ?_, ?_, ?_⟩
    · simp only [top, hheap, List.head?_cons, hd0, hcmp, if_true]
    · refine e.trans ?_
      have : hs1 ++ t :: hs2 ++ (s.del ++ below c s) = hs1 ++ t :: (hs2 ++ (s.del ++ below c s)) := by simp
      rw [this, List.append_assoc]
      exact List.perm_middle
    · intro y hy
      rcases (hmem y).1 hy with hy | hy
      · exact hmaxs y hy
      · exact hC.negtrans _ _ _ (hC.asymm _ _ hcmp) (hd0ge y hy)
    · simp only [pop, hheap, List.head?_cons, hd0, hcmp, if_true, e1, List.dropLast_concat]
    · refine ⟨⟨{ nact_le := h.B.nact_le, idle := h.B.idle, mg := h.B.mg, desc := h.B.desc, len := h.B.len, real := h.B.real }, h.B.ge, h.B.size⟩,
        ⟨h.D.desc, h.D.real, h.D.ge, h.D.nil⟩, e3, hs1 ++ hs2, e2.trans hrp, ?_, ?_, List.Perm.refl _⟩
      · intro x hx
        apply b
        rcases List.mem_append.1 hx with hx | hx
        · exact List.mem_append_left _ hx
        · exact List.mem_append_right _ (List.mem_cons_of_mem _ hx)
      · simp at dl ⊢; omega
  | false =>
    have hdn : ∃ d ds, s.del = d :: ds ∧ d0 = d := by
      rcases hdc with ⟨hn, rfl⟩ | h1
      · exfalso
        apply hne
        have hs0 : hs = [] := by
          apply List.eq_nil_iff_forall_not_mem.2
          intro y hy
          have h1 := b y hy
          have h2 := hC.negtrans _ _ _ hcmp (hmaxs y hy)
          unfold Cmp.Real at h1; rw [h1] at h2; cases h2
        rw [hs0, hn, hbn hn] at e
        exact List.perm_nil.1 e
      · exact h1
    obtain ⟨d, ds, hd, rfl⟩ := hdn
    have hmx : IsMax C d0 ms := by
      intro y hy
      rcases (hmem y).1 hy with hy | hy
      · exact hC.negtrans _ _ _ hcmp (hmaxs y hy)
      · exact hd0ge y hy
    have hpm : ms.Perm (d0 :: (hs ++ (ds ++ below c s))) := by
      refine e.trans ?_
      rw [hd]
      exact List.perm_middle
    have htop : top C s = some d0 := by
      simp only [top, hheap, List.head?_cons, hd0, hcmp, Bool.false_eq_true, if_false]
    have hpop : pop c C H s = if ds = [] then refillDelete c C { s with del := ds } else some { s with del := ds } := by
      unfold pop
      simp only [hheap, List.head?_cons, hd0, hcmp, Bool.false_eq_true, if_false]
      rw [hd]
    have hB1 : BInv c C { s with del := ds } :=
      ⟨{ nact_le := h.B.nact_le, idle := h.B.idle, mg := h.B.mg, desc := h.B.desc, len := h.B.len, real := h.B.real }, h.B.ge, h.B.size⟩
    by_cases hds : ds = []
    · obtain ⟨s', f1, f2, f3, f4, f5⟩ := refillDelete_ok hC hc hB1
      refine ⟨d0, hs ++ (ds ++ below c s), s', htop, hpm, hmx, by rw [hpop, if_pos hds]; exact f1, f2, f3, ?_, hs, ?_, b, dl, ?_⟩
      · rw [f5]; exact h.heap
      · rw [f5]; exact a
      · rw [hds, List.nil_append]
        exact (List.perm_append_left_iff hs).2 f4.symm
    · have hD' := h.D.desc
      rw [hd] at hD'
      refine ⟨d0, hs ++ (ds ++ below c s), { s with del := ds }, htop, hpm, hmx, by rw [hpop, if_neg hds], hB1, ?_, h.heap, hs, a, b, dl, List.Perm.refl _⟩
      exact ⟨(List.pairwise_cons.1 hD').2, fun x hx => h.D.real x (by rw [hd]; exact List.mem_cons_of_mem _ hx),
        fun x hx => h.D.ge x (by rw [hd]; exact List.mem_cons_of_mem _ hx), fun e => absurd e hds⟩

theorem count_ok {s : State α} {ms : List α} (h : QInv c C s ms) : s.count = ms.length := by
  obtain ⟨hs, a, b, d, e⟩ := h.hs
  have h1 := a.length_eq
  have h2 := e.length_eq
  have h3 := h.B.size
  simp only [List.length_cons, List.length_append] at h1 h2
  unfold State.count
  omega

theorem run_ok (hC : C.Ok) (hc : c.Ok) (hH : H.Ok C) : ∀ (ops : List (Op α)) {s : State α} {ms : List α} (pend : Option α), QInv c C s ms →
    (∀ p ∈ pend, top C s = some p) → Legal C ms.length ops → ∃ obs s', run c C H s ops = some (obs, s') ∧ Run C ms pend ops obs ∧ ∃ ms', QInv c C s' ms'
  | [], s, ms, pend, h, _, _ => ⟨[], s, rfl, .nil _ _, ms, h⟩
  | .push x :: ops, s, ms, pend, h, hp, hl => by
    obtain ⟨s1, e1, h1⟩ := push_ok hC hc hH h hl.1
    obtain ⟨obs, s', e2, r, q⟩ := run_ok hC hc hH ops none h1 (by simp) hl.2
    exact ⟨.unit :: obs, s', by simp only [run, step, e1, Option.map_some, e2], .push r, q⟩
  | .pop :: ops, s, ms, pend, h, hp, hl => by
    obtain ⟨t, ms', s1, a1, a2, a3, a4, a5⟩ := top_pop_ok hC hc hH h (by intro e; rw [e] at hl; exact absurd hl.1 (by simp))
    have hlen := a2.length_eq
    simp only [List.length_cons] at hlen
    obtain ⟨obs, s', e2, r, q⟩ := run_ok hC hc hH ops none a5 (by simp) (by have := hl.2; rwa [hlen] at this)
    refine ⟨.unit :: obs, s', by simp only [run, step, a4, Option.map_some, e2], .pop a2 a3 ?_ r, q⟩
    intro p hpp
    have := hp p hpp
    rw [a1] at this; exact Option.some.inj this
  | .top :: ops, s, ms, pend, h, hp, hl => by
    obtain ⟨t, ms', s1, a1, a2, a3, a4, a5⟩ := top_pop_ok hC hc hH h (by intro e; rw [e] at hl; exact absurd hl.1 (by simp))
    obtain ⟨obs, s', e2, r, q⟩ := run_ok hC hc hH ops (some t) h (by intro p hp'; simp at hp'; rw [← hp']; exact a1) hl.2
    refine ⟨.val t :: obs, s', by simp only [run, step, a1, Option.map_some, e2], .top (a2.mem_iff.2 (by simp)) a3 ?_ r, q⟩
    intro p hpp
    have := hp p hpp
    rw [a1] at this; exact Option.some.inj this
  | .size :: ops, s, ms, pend, h, hp, hl => by
    obtain ⟨obs, s', e2, r, q⟩ := run_ok hC hc hH ops pend h hp hl
    exact ⟨.num ms.length :: obs, s', by simp only [run, step, count_ok h, e2], .size r, q⟩
  | .isEmpty :: ops, s, ms, pend, h, hp, hl => by
    obtain ⟨obs, s', e2, r, q⟩ := run_ok hC hc hH ops pend h hp hl
    refine ⟨.bool ms.isEmpty :: obs, s', ?_, .isEmpty r, q⟩
    have : (s.count == 0) = ms.isEmpty := by rw [count_ok h]; cases ms <;> rfl
    simp only [run, step, this, e2]

end Stxxl.PQ
