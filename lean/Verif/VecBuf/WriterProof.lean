import Verif.VecBuf.Writer
import Verif.VecBuf.Spec
import Verif.ExtVector.Spec
import Mathlib.Tactic.ByContra
/-! Proofs about the buffered writer. -/
namespace Stxxl.VecBuf
open Stxxl.ExtVector
open Spec
variable {α : Type} {B P : Nat}

/-! ### Pending writes -/

theorem settle_not_mem {ps : List (Nat × (Nat → α))} : ∀ {d : Nat → Nat → α} {b : Nat}, b ∉ ps.map Prod.fst → settle d ps b = d b := by
  induction ps with
  | nil => intros; rfl
  | cons p ps ih =>
    intro d b h
    simp only [List.map_cons, List.mem_cons, not_or] at h
    show settle (upd d p.1 p.2) ps b = _
    rw [ih h.2, upd_ne _ _ h.1]

theorem settle_mem {ps : List (Nat × (Nat → α))} : ∀ {d : Nat → Nat → α} {p : Nat × (Nat → α)}, (ps.map Prod.fst).Nodup → p ∈ ps →
    settle d ps p.1 = p.2 := by
  induction ps with
  | nil => intro _ _ _ h; simp at h
  | cons q ps ih =>
    intro d p hn h
    simp only [List.map_cons, List.nodup_cons] at hn
    show settle (upd d q.1 q.2) ps p.1 = _
    rcases List.mem_cons.1 h with rfl | h
    · rw [settle_not_mem hn.1, upd_same]
    · exact ih hn.2 h

theorem settle_append (d : Nat → Nat → α) (ps : List (Nat × (Nat → α))) (b : Nat) (c : Nat → α) :
    settle d (ps ++ [(b, c)]) = upd (settle d ps) b c := by
  induction ps generalizing d with
  | nil => rfl
  | cons p ps ih => exact ih _

theorem done1_ok {d : Nat → Nat → α} {ps : List (Nat × (Nat → α))} (j : Nat) (hn : (ps.map Prod.fst).Nodup) :
    settle (done1 (d, ps) j).1 (done1 (d, ps) j).2 = settle d ps ∧ (done1 (d, ps) j).2.Sublist ps ∧
    ∀ b, b ∉ ps.map Prod.fst → (done1 (d, ps) j).1 b = d b := by
  unfold done1
  cases h : ps[j]? with
  | none => exact ⟨rfl, List.Sublist.refl _, fun _ _ => rfl⟩
  | some p =>
    obtain ⟨hj, hp⟩ := List.getElem?_eq_some_iff.1 h
    have hsub : (ps.eraseIdx j).Sublist ps := List.eraseIdx_sublist _ _
    refine ⟨?_, hsub, fun b hb => ?_⟩
    · dsimp only
      have hnd : ((ps.eraseIdx j).map Prod.fst).Nodup := hn.sublist (hsub.map _)
      have hpn : p.1 ∉ (ps.eraseIdx j).map Prod.fst := by
        intro hm
        obtain ⟨q, hq, hqe⟩ := List.mem_map.1 hm
        have he : (ps.map Prod.fst)[j]? = some p.1 := by rw [List.getElem?_map, h]; rfl
        obtain ⟨i, hi⟩ := List.mem_iff_getElem?.1 hq
        rw [List.getElem?_eraseIdx] at hi
        split at hi
        · have := nodup_get_inj hn (i := i) (j := j) (by rw [List.getElem?_map, hi]; exact congrArg some hqe) he
          omega
        · have := nodup_get_inj hn (i := i + 1) (j := j) (by rw [List.getElem?_map, hi]; exact congrArg some hqe) he
          omega
      funext b
      by_cases hb : b ∈ ps.map Prod.fst
      · obtain ⟨q, hq, rfl⟩ := List.mem_map.1 hb
        rw [settle_mem hn hq]
        by_cases hq2 : q ∈ ps.eraseIdx j
        · exact settle_mem hnd hq2
        · have hqp : q = p := by
            obtain ⟨i, hi⟩ := List.mem_iff_getElem?.1 hq
            by_contra hne
            apply hq2
            rw [List.mem_iff_getElem?]
            have hij : i ≠ j := by rintro rfl; rw [h] at hi; exact hne (Option.some.inj hi).symm
            rcases Nat.lt_or_ge i j with h1 | h1
            · exact ⟨i, by rw [List.getElem?_eraseIdx, if_pos h1]; exact hi⟩
            · exact ⟨i - 1, by rw [List.getElem?_eraseIdx, if_neg (by omega), show i - 1 + 1 = i by omega]; exact hi⟩
          subst hqp
          rw [settle_not_mem hpn, upd_same]
      · rw [settle_not_mem hb, settle_not_mem (fun hm => hb ((hsub.map Prod.fst).subset hm)), upd_ne]
        rintro rfl
        exact hb (List.mem_map.2 ⟨p, List.mem_of_getElem? h, rfl⟩)
    · exact upd_ne _ _ (by rintro rfl; exact hb (List.mem_map.2 ⟨p, List.mem_of_getElem? h, rfl⟩))

theorem doneSome_ok (srv : List Nat) : ∀ {d : Nat → Nat → α} {ps : List (Nat × (Nat → α))}, (ps.map Prod.fst).Nodup →
    settle (doneSome (d, ps) srv).1 (doneSome (d, ps) srv).2 = settle d ps ∧ (doneSome (d, ps) srv).2.Sublist ps ∧
    ∀ b, b ∉ ps.map Prod.fst → (doneSome (d, ps) srv).1 b = d b := by
  induction srv with
  | nil => intro d ps _; exact ⟨rfl, List.Sublist.refl _, fun _ _ => rfl⟩
  | cons j srv ih =>
    intro d ps hn
    obtain ⟨a1, a2, a3⟩ := done1_ok (d := d) j hn
    have := ih (d := (done1 (d, ps) j).1) (ps := (done1 (d, ps) j).2) (hn.sublist (a2.map _))
    obtain ⟨b1, b2, b3⟩ := this
    refine ⟨b1.trans a1, b2.trans a2, fun b hb => ?_⟩
    exact (b3 b (fun hm => hb ((a2.map Prod.fst).subset hm))).trans (a3 b hb)

/-! ### A vector without cached pages -/

/-- The structural invariant of the vector. -/
def Base (B P : Nat) (s : Sys α) : Prop := WInv B P false s (List.replicate s.vec.size none)

/-- No page is cached. -/
def Calm (s : Sys α) : Prop := ∀ (p t : Nat), s.vec.p2s[p]? ≠ some (some t)

theorem rep_none {n i : Nat} {v : α} : ¬ (List.replicate n (none : Option α))[i]? = some (some v) := by
  rw [List.getElem?_replicate]; split <;> simp

theorem WInv.base {s : Sys α} {A} (h : WInv B P false s A) : Base B P s :=
  ⟨{ h.inv with len := by simp, content := fun i v hi => absurd hi rep_none }, h.ids, h.tight, h.own, h.own'⟩

theorem Calm.not_dirty {s : Sys α} {A} (h : Inv B P s A) (c : Calm s) (p : Nat) : s.vec.status[p]? ≠ some .dirty := by
  intro hd
  obtain ⟨⟨t, ht⟩, _⟩ := h.dirtyC p hd
  exact c p t ht

theorem base_of {s0 s : Sys α} (h : Base B P s0) (c : Calm s0) (e1 : s.vec.size = s0.vec.size) (e2 : s.vec.bids = s0.vec.bids)
    (e3 : s.vec.npages = s0.vec.npages) (e4 : s.vec.fromFile = s0.vec.fromFile) (e5 : s.owned = s0.owned) (e6 : s.vec.p2s = s0.vec.p2s)
    (e7 : s.vec.status.length = s0.vec.status.length) (e8 : ∀ p : Nat, s.vec.status[p]? ≠ some .dirty) (e9 : s.vec.free.Perm s0.vec.free) :
    Base B P s ∧ Calm s := by
  have i := h.inv
  refine ⟨⟨⟨i.hB, i.hP, by rw [e3]; exact i.np, by simp, by rw [e1, e2]; exact i.cap, by rw [e2]; exact i.nod, by rw [e7, e6]; exact i.lens,
    by rw [e2, e7]; exact i.pages, ?_, ?_, ?_, ?_, fun p hp => absurd hp (e8 p), fun i v hi => absurd hi rep_none⟩, ?_, ?_, ?_, ?_⟩, ?_⟩
  · intro p t hp; rw [e6] at hp; exact absurd hp (c p t)
  · intro t ht; rw [e3]; exact i.freeLt t (e9.subset ht)
  · exact e9.nodup_iff.2 i.freeNd
  · intro t ht
    rw [e3] at ht
    rcases i.slots t ht with hf | hf
    · exact .inl (e9.symm.subset hf)
    · exact absurd hf (c _ _)
  · intro hx; rw [e2]; exact h.ids (by rw [← e4]; exact hx)
  · intro hx; rw [e7, e2]; exact h.tight hx
  · intro hx; rw [e2, e5]; exact h.own (by rw [← e4]; exact hx)
  · intro hx hy; rw [e2, e5]; exact h.own' hx (by rw [← e4]; exact hy)
  · intro p t hp; rw [e6] at hp; exact c p t hp

/-- What a flushed vector contains. -/
theorem calm_facts {s : Sys α} {A} (h : WInv B P false s A) (c : Calm s) {i : Nat} {v : α} (hi : A[i]? = some (some v)) :
    s.vec.status[i / B / P]? = some .valid ∧ ∀ b, s.vec.bids[i / B]? = some b → s.disk b (i % B) = v := by
  obtain ⟨st, c1, c2, _, c4⟩ := h.inv.content i v hi
  have hst : st = .valid := by
    cases st with
    | valid => rfl
    | uninit => exact absurd rfl c2
    | dirty => exact absurd c1 (c.not_dirty h.inv _)
  subst hst
  exact ⟨c1, c4 rfl⟩

theorem calm_inv {s : Sys α} {A : List (Option α)} (h : Base B P s) (c : Calm s) (hl : A.length = s.vec.size)
    (hf : ∀ (i : Nat) (v : α), A[i]? = some (some v) → s.vec.status[i / B / P]? = some .valid ∧
      ∀ b, s.vec.bids[i / B]? = some b → s.disk b (i % B) = v) : WInv B P false s A :=
  ⟨{ h.inv with
      len := hl
      content := fun i v hi => ⟨.valid, (hf i v hi).1, by simp, fun t ht => absurd ht (c _ t), fun _ => (hf i v hi).2⟩ },
    h.ids, h.tight, h.own, h.own'⟩

theorem flushLoop_calm (nf : Nat → Bool) : ∀ (k i : Nat) (s : Sys α), (∀ j, i ≤ j → j < i + k → nf j = false) →
    flushLoop P nf s k i = some { s with vec := { s.vec with free := s.vec.free ++ List.range' i k } } := by
  intro k
  induction k with
  | zero => intro i s _; simp [flushLoop]
  | succ k ih =>
    intro i s h
    simp only [flushLoop, h i (Nat.le_refl _) (by omega), Bool.false_eq_true, if_false]
    rw [ih _ _ (fun j h1 h2 => h j (by omega) (by omega))]
    simp [List.range'_succ]

/-- Flushing a vector without cached pages does nothing. -/
theorem flush_calm {s : Sys α} (h : Base B P s) (c : Calm s) :
    flush P s = some { s with vec := { s.vec with free := List.range s.vec.npages } } ∧ (List.range s.vec.npages).Perm s.vec.free := by
  have hall : ∀ t, t < s.vec.npages → t ∈ s.vec.free := by
    intro t ht
    rcases h.inv.slots t ht with hf | hf
    · exact hf
    · exact absurd hf (c _ _)
  constructor
  · unfold flush
    dsimp only
    rw [flushLoop_calm _ _ _ _ (fun j _ hj => by
      have := hall j (by omega)
      simp [this])]
    simp [List.range_eq_range']
  · refine (List.perm_ext_iff_of_nodup List.nodup_range h.inv.freeNd).2 fun t => ?_
    rw [List.mem_range]
    exact ⟨hall t, h.inv.freeLt t⟩

/-- Marking a page. -/
theorem mark_calm {s : Sys α} (h : Base B P s) (c : Calm s) {p : Nat} (hp : p < s.vec.status.length) :
    pageExternallyUpdated s p = some { s with vec := { s.vec with status := s.vec.status.set p .valid } } := by
  have h1 := List.getElem?_eq_getElem hp
  have h2 := List.getElem?_eq_getElem (l := s.vec.p2s) (i := p) (by rw [← h.inv.lens]; exact hp)
  unfold pageExternallyUpdated
  cases hm : s.vec.p2s[p]'(by rw [← h.inv.lens]; exact hp) with
  | some t => rw [hm] at h2; exact absurd h2 (c p t)
  | none =>
    rw [h1, h2, hm]
    dsimp only
    rw [if_neg (fun hd => c.not_dirty h.inv p (by rw [h1, hd]))]

end Stxxl.VecBuf
