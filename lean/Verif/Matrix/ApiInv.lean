import Verif.Matrix.Winograd2
import Verif.Matrix.ApiSpec

/-!
# Invariant of programs with matrices
-/

namespace Stxxl.Mat

variable {R : Type} [CommRing R] {B : Nat}

/-- Loops that set each block of `C` once. -/
theorem cells_foldl {C : SBM} (hC : Inj C) (G : Nat → Nat → (Nat → Option (Raw R)) → Option (Raw R))
    (hG : ∀ r c b b', r < C.h → c < C.w → b (C.block r c) = b' (C.block r c) →
      (∀ i, (∀ r c, r < C.h → c < C.w → C.block r c ≠ i) → b i = b' i) → G r c b = G r c b')
    (l : List (Nat × Nat)) (hl : ∀ p ∈ l, p.1 < C.h ∧ p.2 < C.w) (hn : l.Nodup) :
    ∀ {s : St R}, s.Wf → Owned s C →
      let s' := l.foldl (fun s p => s.set (C.block p.1 p.2) (G p.1 p.2 s.blk)) s
      s'.Wf ∧ (∀ i, s'.live i ↔ s.live i) ∧ (∀ p ∈ l, s'.blk (C.block p.1 p.2) = G p.1 p.2 s.blk) ∧
        ∀ i, (∀ p ∈ l, C.block p.1 p.2 ≠ i) → s'.blk i = s.blk i := by
  induction l with
  | nil => intro s hs _; exact ⟨hs, fun _ => Iff.rfl, by simp, by simp⟩
  | cons p l ih =>
    intro s hs ho
    have hp := hl p (by simp)
    rw [List.nodup_cons] at hn
    obtain ⟨a1, a2, a3, a4⟩ := ih (fun q hq => hl q (List.mem_cons_of_mem _ hq)) hn.2
      (s := s.set (C.block p.1 p.2) (G p.1 p.2 s.blk)) (set_wf hs (ho _ _ hp.1 hp.2)) ho
    have hne : ∀ q ∈ l, C.block q.1 q.2 ≠ C.block p.1 p.2 := by
      intro q hq e
      obtain ⟨e1, e2⟩ := hC _ _ _ _ (hl q (List.mem_cons_of_mem _ hq)).1 (hl q (List.mem_cons_of_mem _ hq)).2 hp.1 hp.2 e
      have : q = p := Prod.ext e1 e2
      exact hn.1 (this ▸ hq)
    refine ⟨a1, a2, ?_, ?_⟩
    · intro q hq
      rcases List.mem_cons.1 hq with rfl | hq
      · rw [List.foldl_cons, a4 _ hne]; simp [St.set]
      · rw [List.foldl_cons, a3 q hq]
        have hq' := hl q (List.mem_cons_of_mem _ hq)
        refine hG _ _ _ _ hq'.1 hq'.2 ?_ ?_
        · simp [St.set, hne q hq]
        · intro i hi
          have := hi _ _ hp.1 hp.2
          simp only [St.set]; rw [if_neg (fun e => this e.symm)]
    · intro i hi
      rw [List.foldl_cons, a4 i (fun q hq => hi q (List.mem_cons_of_mem _ hq))]
      have := hi p (by simp)
      simp only [St.set]; rw [if_neg (fun e => this e.symm)]

theorem forCells_eq (h w : Nat) (f : Nat → Nat → St R → St R) (s : St R) :
    forCells h w f s = ((List.range h).flatMap fun r => (List.range w).map fun c => (r, c)).foldl (fun s p => f p.1 p.2 s) s := by
  unfold forCells
  rw [List.foldl_flatMap]
  congr 1
  funext s r
  rw [List.foldl_map]

theorem mem_grid {h w : Nat} {p : Nat × Nat} :
    p ∈ ((List.range h).flatMap fun r => (List.range w).map fun c => (r, c)) ↔ p.1 < h ∧ p.2 < w := by
  obtain ⟨a, b⟩ := p
  simp

theorem nodup_grid (h w : Nat) : ((List.range h).flatMap fun r => (List.range w).map fun c => (r, c)).Nodup := by
  rw [List.nodup_flatMap]
  refine ⟨fun r _ => ?_, ?_⟩
  · exact (List.nodup_range).map (fun a b e => by simpa using e)
  · refine List.Pairwise.imp_of_mem ?_ (List.nodup_range (n := h))
    intro a b _ _ hab
    simp only [Function.onFun, List.disjoint_left, List.mem_map]
    rintro x ⟨c, _, rfl⟩ ⟨c', _, e⟩
    simp at e; exact hab e.1.symm

/-- What a loop over the blocks of `C` does. -/
theorem forCells_spec {C : SBM} (hC : Inj C) (G : Nat → Nat → (Nat → Option (Raw R)) → Option (Raw R))
    (hG : ∀ r c b b', r < C.h → c < C.w → b (C.block r c) = b' (C.block r c) →
      (∀ i, (∀ r c, r < C.h → c < C.w → C.block r c ≠ i) → b i = b' i) → G r c b = G r c b')
    {s : St R} (hs : s.Wf) (ho : Owned s C) (f : Nat → Nat → St R → St R)
    (hf : ∀ r c s, f r c s = s.set (C.block r c) (G r c s.blk)) :
    (forCells C.h C.w f s).Wf ∧ (∀ i, (forCells C.h C.w f s).live i ↔ s.live i) ∧
      (∀ r c, r < C.h → c < C.w → (forCells C.h C.w f s).blk (C.block r c) = G r c s.blk) ∧
      ∀ i, (∀ r c, r < C.h → c < C.w → C.block r c ≠ i) → (forCells C.h C.w f s).blk i = s.blk i := by
  have := cells_foldl hC G hG _ (fun p hp => mem_grid.1 hp) (nodup_grid C.h C.w) hs ho
  rw [forCells_eq]
  have e : (fun (s : St R) (p : Nat × Nat) => f p.1 p.2 s) = fun s p => s.set (C.block p.1 p.2) (G p.1 p.2 s.blk) := by
    funext s p; exact hf _ _ _
  rw [e]
  obtain ⟨a1, a2, a3, a4⟩ := this
  exact ⟨a1, a2, fun r c hr hc => a3 (r, c) (mem_grid.2 ⟨hr, hc⟩), fun i hi => a4 i (fun p hp => hi _ _ (mem_grid.1 hp).1 (mem_grid.1 hp).2)⟩

/-! ### Elements -/

theorem divCeil_lt (hB : 0 < B) {h r i : Nat} (hi : i < B) : r * B + i < h → r < divCeil h B := by
  intro hh
  unfold divCeil
  have h1 : r * B < h := by omega
  by_cases hm : h % B = 0
  · rw [if_pos hm, Nat.add_zero]
    have h2 := Nat.div_add_mod h B
    rw [hm, Nat.add_zero, Nat.mul_comm] at h2
    rw [← h2] at h1
    exact Nat.lt_of_mul_lt_mul_right h1
  · rw [if_neg hm]
    have : r ≤ h / B := (Nat.le_div_iff_mul_le hB).2 (by omega)
    omega

/-- The block matrix `o` holds the matrix `v`, with zeros around it. -/
structure ObjOk (B : Nat) (s : St R) (o : SBM) (v : Val R) : Prop where
  h : o.h = divCeil v.h B
  w : o.w = divCeil v.w B
  hs : o.hs = 0
  ws : o.ws = 0
  own : Owned s o
  inj : Inj o
  len : o.blocks.length = o.h * o.w
  val : ∀ r c, r < o.h → c < o.w → ∀ i j : Fin B, V B s o r c i j =
    if r * B + i < v.h ∧ c * B + j < v.w then v.f (r * B + i) (c * B + j) else 0

/-- `o` has a block `i`. -/
def HasBlock (o : SBM) (i : Nat) : Prop := ∃ r c, r < o.h ∧ c < o.w ∧ o.block r c = i

theorem ObjOk.frame {s s' : St R} {o : SBM} {v : Val R} (h : ObjOk B s o v) (hl : ∀ i, s.live i → HasBlock o i → s'.live i)
    (hb : ∀ i, s.live i → HasBlock o i → s'.blk i = s.blk i) : ObjOk B s' o v where
  h := h.h
  w := h.w
  hs := h.hs
  ws := h.ws
  own := fun r c hr hc => hl _ (h.own r c hr hc) ⟨r, c, hr, hc, rfl⟩
  inj := h.inj
  len := h.len
  val := fun r c hr hc i j => by
    rw [← h.val r c hr hc i j]
    simp only [V, hb _ (h.own r c hr hc) ⟨r, c, hr, hc, rfl⟩]

theorem mem_own_hb {o : SBM} (h : o.hs = 0) (i : Nat) : i ∈ o.own ↔ HasBlock o i := by
  rw [mem_own]
  constructor
  · rintro ⟨r, c, a, b, _, e⟩; exact ⟨r, c, a, b, e⟩
  · rintro ⟨r, c, a, b, e⟩; exact ⟨r, c, a, b, by omega, e⟩

/-- The block matrices `P d v` (address `d`, value `v`) are in order, and there are no other blocks. -/
structure Core (B : Nat) (s : St R) (obj : Nat → SBM) (nobj : Nat) (P : Nat → Val R → Prop) : Prop where
  wf : s.Wf
  lt : ∀ d v, P d v → d < nobj
  ok : ∀ d v, P d v → ObjOk B s (obj d) v
  dis : ∀ d v d' v', P d v → P d' v' → d ≠ d' → ∀ i, HasBlock (obj d) i → ¬ HasBlock (obj d') i
  cov : ∀ i, s.live i → ∃ d v, P d v ∧ HasBlock (obj d) i

variable {s s' : St R} {obj : Nat → SBM} {nobj : Nat} {P P' : Nat → Val R → Prop}

/-- Fewer references, but none lost. -/
theorem Core.mono (h : Core B s obj nobj P) (h1 : ∀ d v, P' d v → P d v) (h2 : ∀ d v, P d v → ∃ v', P' d v') :
    Core B s obj nobj P' where
  wf := h.wf
  lt := fun d v hp => h.lt d v (h1 d v hp)
  ok := fun d v hp => h.ok d v (h1 d v hp)
  dis := fun d v d' v' hp hp' => h.dis d v d' v' (h1 d v hp) (h1 d' v' hp')
  cov := by
    intro i hi
    obtain ⟨d, v, hp, hb⟩ := h.cov i hi
    obtain ⟨v', hp'⟩ := h2 d v hp
    exact ⟨d, v', hp', hb⟩

/-- Destruction of a block matrix that is not referenced any more. -/
theorem Core.destroy (h : Core B s obj nobj P) {d : Nat} {v : Val R} (hd : P d v) (h0 : ∀ v, ¬ P' d v) (h1 : ∀ e u, P' e u → P e u)
    (h2 : ∀ e u, e ≠ d → P e u → ∃ u', P' e u') : Core B (Mat.destroy s (obj d)) obj nobj P' := by
  have ok := h.ok d v hd
  have hm : ∀ i, i ∈ (obj d).own ↔ HasBlock (obj d) i := mem_own_hb ok.hs
  have hnd : (obj d).own.Nodup := by
    unfold SBM.own
    refine List.Nodup.map_on ?_ ((List.nodup_range).filter _)
    intro a ha b hb e
    have ha' := List.mem_range.1 (List.mem_filter.1 ha).1
    have hb' := List.mem_range.1 (List.mem_filter.1 hb).1
    obtain ⟨a1, a2, a3⟩ := pos_eta ha'
    obtain ⟨b1, b2, b3⟩ := pos_eta hb'
    obtain ⟨e1, e2⟩ := ok.inj _ _ _ _ a1 a2 b1 b2 (by simpa [SBM.block, a3, b3] using e)
    rw [← a3, ← b3, e1, e2]
  obtain ⟨r1, r2, r3⟩ := releases_spec (obj d).own h.wf (fun i hi => by
    obtain ⟨r, c, hr, hc, rfl⟩ := (hm i).1 hi; exact ok.own r c hr hc) hnd
  have hne : ∀ e u, P' e u → e ≠ d := fun e u hp he => h0 u (he ▸ hp)
  refine ⟨r1, fun e u hp => h.lt e u (h1 e u hp), ?_, fun e u e' u' hp hp' => h.dis e u e' u' (h1 _ _ hp) (h1 _ _ hp'), ?_⟩
  · intro e u hp
    have hdis : ∀ i, HasBlock (obj e) i → i ∉ (obj d).own := fun i hi hm' =>
      h.dis e u d v (h1 _ _ hp) hd (hne e u hp) i hi ((hm i).1 hm')
    exact (h.ok e u (h1 _ _ hp)).frame (fun i hl hi => (r2 i).2 ⟨hl, hdis i hi⟩) (fun i _ hi => r3 i (hdis i hi))
  · intro i hi
    obtain ⟨hl, hn⟩ := (r2 i).1 hi
    obtain ⟨e, u, hp, hb⟩ := h.cov i hl
    by_cases he : e = d
    · subst he; exact absurd ((hm i).2 hb) hn
    · obtain ⟨u', hp'⟩ := h2 e u he hp
      exact ⟨e, u', hp', hb⟩

/-- A new block matrix. -/
theorem Core.new (h : Core B s obj nobj P) (hh ww : Nat) :
    Core B (newSbm s (divCeil hh B) (divCeil ww B) false).2
      (fun d => if d = nobj then (newSbm s (divCeil hh B) (divCeil ww B) false).1 else obj d) (nobj + 1)
      (fun d v => P d v ∨ (d = nobj ∧ v = ⟨hh, ww, fun _ _ => 0⟩)) := by
  have ha := newSbm_added h.wf (divCeil hh B) (divCeil ww B) false
  have hhb := mem_own_hb (o := (newSbm s (divCeil hh B) (divCeil ww B) false).1) rfl
  have hne : ∀ d v, P d v → d ≠ nobj := fun d v hp e => by have := h.lt d v hp; omega
  have hfr : ∀ d v, P d v → ∀ i, HasBlock (obj d) i → ¬ HasBlock (newSbm s (divCeil hh B) (divCeil ww B) false).1 i := by
    intro d v hp i hi hn
    obtain ⟨r, c, hr, hc, rfl⟩ := hi
    exact ha.fresh _ ((hhb _).2 hn) ((h.ok d v hp).own r c hr hc)
  refine ⟨ha.wf, ?_, ?_, ?_, ?_⟩
  · rintro d v (hp | ⟨rfl, _⟩)
    · have := h.lt d v hp; omega
    · omega
  · rintro d v (hp | ⟨rfl, rfl⟩)
    · simp only [if_neg (hne d v hp)]
      exact (h.ok d v hp).frame (fun i hl _ => (ha.live i).2 (Or.inl hl)) (fun i _ _ => by rw [ha.blk])
    · simp only [if_true]
      refine ⟨rfl, rfl, rfl, rfl, ?_, ?_, ha.len, ?_⟩
      · intro r c hr hc
        exact (ha.live _).2 (Or.inr ((hhb _).2 ⟨r, c, hr, hc, rfl⟩))
      · intro r c r' c' hr hc hr' hc' e
        exact ha.injOwn r c r' c' hr hc hr' hc' (by simp [newSbm]) (by simp [newSbm]) e
      · intro r c hr hc i j
        have : s.blk ((newSbm s (divCeil hh B) (divCeil ww B) false).1.block r c) = none :=
          h.wf.none _ (ha.fresh _ ((hhb _).2 ⟨r, c, hr, hc, rfl⟩))
        simp [V, ha.blk, this]
  · rintro d v d' v' (hp | ⟨rfl, rfl⟩) (hp' | ⟨rfl, rfl⟩) hdd i hi hi'
    · simp only [if_neg (hne _ _ hp), if_neg (hne _ _ hp')] at hi hi'
      exact h.dis d v d' v' hp hp' hdd i hi hi'
    · simp only [if_neg (hne _ _ hp), if_true] at hi hi'
      exact hfr d v hp i hi hi'
    · simp only [if_neg (hne _ _ hp'), if_true] at hi hi'
      exact hfr d' v' hp' i hi' hi
    · exact hdd rfl
  · intro i hi
    rcases (ha.live i).1 hi with hl | hm
    · obtain ⟨d, v, hp, hb⟩ := h.cov i hl
      exact ⟨d, v, Or.inl hp, by simpa only [if_neg (hne d v hp)] using hb⟩
    · exact ⟨nobj, _, Or.inr ⟨rfl, rfl⟩, by simpa only [if_true] using (hhb i).1 hm⟩

/-- An operation that writes into the block matrix `d`. -/
theorem Core.write (h : Core B s obj nobj P) {d : Nat} {v v' : Val R} (hd : P d v) (o' : SBM)
    (hwf : s'.Wf) (hl : ∀ i, s'.live i ↔ s.live i) (hb : ∀ i, s.live i → ¬ HasBlock (obj d) i → s'.blk i = s.blk i)
    (ho : ∀ i, HasBlock o' i ↔ HasBlock (obj d) i) (hok : ObjOk B s' o' v') :
    Core B s' (fun e => if e = d then o' else obj e) nobj (fun e u => if e = d then u = v' else P e u) := by
  refine ⟨hwf, ?_, ?_, ?_, ?_⟩
  · intro e u hp
    by_cases he : e = d
    · subst he; exact h.lt e v hd
    · simp only [if_neg he] at hp; exact h.lt e u hp
  · intro e u hp
    by_cases he : e = d
    · subst he; simp only [if_true] at hp ⊢; subst hp; exact hok
    · simp only [if_neg he] at hp ⊢
      exact (h.ok e u hp).frame (fun i hl' _ => (hl i).2 hl') (fun i hl' hi => hb i hl' (fun hn => h.dis e u d v hp hd he i hi hn))
  · intro e u e' u' hp hp' hne i hi hi'
    by_cases he : e = d
    · subst he
      have he' : e' ≠ e := fun x => hne x.symm
      simp only [if_neg he', if_true] at hp' hi' hi
      exact h.dis e v e' u' hd hp' hne i ((ho i).1 hi) hi'
    · by_cases he' : e' = d
      · subst he'
        simp only [if_neg he, if_true] at hp hi' hi
        exact h.dis e u e' v hp hd hne i hi ((ho i).1 hi')
      · simp only [if_neg he, if_neg he'] at hp hp' hi hi'
        exact h.dis e u e' u' hp hp' hne i hi hi'
  · intro i hi
    obtain ⟨e, u, hp, hb'⟩ := h.cov i ((hl i).1 hi)
    by_cases he : e = d
    · subst he; exact ⟨e, v', by simp, by simpa using (ho i).2 hb'⟩
    · exact ⟨e, u, by simpa only [if_neg he] using hp, by simpa only [if_neg he] using hb'⟩

end Stxxl.Mat
