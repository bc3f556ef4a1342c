import Verif.Matrix.ApiOps

/-!
# Every statement does what it means
-/

namespace Stxxl.Mat

variable {R : Type} [CommRing R] {B : Nat} {w : World R} {σ : List (Option (Val R))}

theorem Inv.objOk (h : Inv B w σ) {x : Nat} {m : Mat} {v : Val R} (hx : w.vars[x]? = some (some m)) (hv : σ[x]? = some (some v)) :
    ObjOk B w.st (w.sbm m) v := h.core.ok _ _ ⟨x, m, hx, hv, rfl⟩

theorem Inv.dims (h : Inv B w σ) {x : Nat} {m : Mat} {v : Val R} (hx : w.vars[x]? = some (some m)) (hv : σ[x]? = some (some v)) :
    m.height = v.h ∧ m.width = v.w := by
  obtain ⟨v', hv', e⟩ := h.rel.fwd x m hx
  rw [hv] at hv'; cases hv'; exact e

/-- A new matrix beside the existing ones. -/
theorem newMat_self (h : Inv B w σ) (hh ww : Nat) : (w.newMat B hh ww).2.st.Wf ∧
    ObjOk B (w.newMat B hh ww).2.st ((w.newMat B hh ww).2.sbm (w.newMat B hh ww).1) ⟨hh, ww, fun _ _ => 0⟩ := by
  have hc := h.core.new hh ww
  exact ⟨hc.wf, hc.ok w.nobj _ (Or.inr ⟨rfl, rfl⟩)⟩

theorem newMat_other (h : Inv B w σ) (hh ww : Nat) {x : Nat} {m : Mat} {v : Val R} (hx : w.vars[x]? = some (some m)) (hv : σ[x]? = some (some v)) :
    ObjOk B (w.newMat B hh ww).2.st (w.sbm m) v ∧
      ∀ i, HasBlock (w.sbm m) i → ¬ HasBlock ((w.newMat B hh ww).2.sbm (w.newMat B hh ww).1) i := by
  have hc := h.core.new hh ww
  have hp : PV w.vars σ m.data v := ⟨x, m, hx, hv, rfl⟩
  have hne : m.data ≠ w.nobj := Nat.ne_of_lt (h.core.lt _ _ hp)
  have h1 := hc.ok m.data v (Or.inl hp)
  have h2 := hc.dis m.data v w.nobj _ (Or.inl hp) (Or.inr ⟨rfl, rfl⟩) hne
  have e1 : (if m.data = w.nobj then (newSbm w.st (divCeil hh B) (divCeil ww B) false).1 else w.obj m.data) = w.sbm m := if_neg hne
  refine ⟨?_, ?_⟩
  · rw [← e1]; exact h1
  · rw [← e1]; exact h2

/-- A new matrix is filled by `f` and assigned to `x`. -/
theorem fresh_ok (h : Inv B w σ) {x : Nat} (hx : x < w.vars.length) (hh ww : Nat) (f : St R → St R) (v' : Val R) (e1 : v'.h = hh) (e2 : v'.w = ww)
    (he : Eff B (w.newMat B hh ww).2.st (f (w.newMat B hh ww).2.st) ((w.newMat B hh ww).2.sbm (w.newMat B hh ww).1) v') :
    Inv B (((w.newMat B hh ww).2.run f).assign x (some (w.newMat B hh ww).1)) (σ.set x (some v')) := by
  have hc := h.core.new hh ww
  have hw := hc.write (d := w.nobj) (v := ⟨hh, ww, fun _ _ => 0⟩) (Or.inr ⟨rfl, rfl⟩) ((w.newMat B hh ww).2.sbm (w.newMat B hh ww).1)
    he.wf he.live (fun i hl hn => he.frame i hl hn) (fun _ => Iff.rfl) he.ok
  refine assign_ok (w := (w.newMat B hh ww).2.run f) h.rel hx (Or.inr ⟨_, v', rfl, rfl, e1.symm, e2.symm⟩) ?_
  have eobj : (fun e => if e = w.nobj then (w.newMat B hh ww).2.sbm (w.newMat B hh ww).1 else
      (fun d => if d = w.nobj then (newSbm w.st (divCeil hh B) (divCeil ww B) false).1 else w.obj d) e) = (w.newMat B hh ww).2.obj := by
    funext e
    by_cases he : e = w.nobj
    · subst he; rw [if_pos rfl]; rfl
    · rw [if_neg he]; rfl
  rw [eobj] at hw
  refine hw.mono ?_ ?_
  · rintro d v (hp | ⟨m, hm, hv, hd⟩)
    · have : d ≠ w.nobj := Nat.ne_of_lt (h.core.lt _ _ hp)
      rw [if_neg this]; exact Or.inl hp
    · cases hm; cases hv
      have hd' : d = w.nobj := hd.symm
      exact (if_pos hd').symm ▸ rfl
  · intro d v hp
    by_cases hd : d = w.nobj
    · subst hd
      exact ⟨v', Or.inr ⟨_, rfl, rfl, rfl⟩⟩
    · rw [if_neg hd] at hp
      rcases hp with hp | ⟨e, _⟩
      · exact ⟨v, Or.inl hp⟩
      · exact absurd e hd

theorem assign_vars (w : World R) (x : Nat) (m : Option Mat) : (w.assign x m).vars = w.vars.set x m ∧ (w.assign x m).obj = w.obj := by
  unfold World.assign
  cases w.var x with
  | none => exact ⟨rfl, rfl⟩
  | some o =>
    simp only
    split <;> exact ⟨rfl, rfl⟩

theorem set_self {α : Type} {l : List α} {x : Nat} {a : α} (h : l[x]? = some a) : l.set x a = l := by
  apply List.ext_getElem?
  intro y
  by_cases e : y = x
  · subst e; rw [List.getElem?_set_self (getElem?_lt h), h]
  · rw [List.getElem?_set_ne (Ne.symm e)]

/-- `unify` does not change the values. -/
theorem unify_ok (h : Inv B w σ) {x : Nat} {m : Mat} (hx : w.vars[x]? = some (some m)) :
    Inv B (w.unify B x m).2 σ ∧ (w.unify B x m).2.vars[x]? = some (some (w.unify B x m).1) ∧
      cnt (w.unify B x m).2.vars (w.unify B x m).1.data = 1 ∧ (w.unify B x m).1.height = m.height ∧ (w.unify B x m).1.width = m.width := by
  obtain ⟨v, hv, hd1, hd2⟩ := h.rel.fwd x m hx
  have hlt := getElem?_lt hx
  unfold World.unify
  by_cases hc : cnt w.vars m.data = 1
  · rw [if_pos hc]; exact ⟨h, hx, hc, rfl, rfl⟩
  · rw [if_neg hc]
    have hok := h.objOk hx hv
    obtain ⟨n1, n2⟩ := newMat_self h v.h v.w
    obtain ⟨o1, o2⟩ := newMat_other h v.h v.w hx hv
    have heff := op2_eff (B := B) (v := ⟨v.h, v.w, fun _ _ => 0⟩) .add (by simp [Op.f2]) (fun x => by simp [Op.f2]) n1 n2 o1 rfl rfl (Or.inl o2)
    have hfr := fresh_ok h hlt v.h v.w _ (⟨v.h, v.w, fun i j => Op.add.f2 (0 : R) (v.f i j)⟩ : Val R) rfl rfl heff
    have ev : (⟨v.h, v.w, fun i j => Op.add.f2 (0 : R) (v.f i j)⟩ : Val R) = v := by
      cases v; simp [Op.f2]
    have ev' : σ.set x (some (⟨v.h, v.w, fun i j => Op.add.f2 (0 : R) (v.f i j)⟩ : Val R)) = σ := by
      rw [ev]; exact set_self hv
    have ew : w.push (copySbm B w.st (w.sbm m)) = (w.newMat B v.h v.w).2.run
        (elementOp2 B .add ((w.newMat B v.h v.w).2.sbm (w.newMat B v.h v.w).1) (w.sbm m)) := by
      unfold copySbm World.push World.run World.newMat World.push World.sbm
      rw [show (w.obj m.data).h = divCeil v.h B from hok.h, show (w.obj m.data).w = divCeil v.w B from hok.w]
      simp
    have em : ({ m with data := w.nobj } : Mat) = (w.newMat B v.h v.w).1 := by
      unfold World.newMat; rw [← hd1, ← hd2]
    dsimp only at hfr ⊢
    rw [ew, em]
    refine ⟨?_, ?_, ?_, by simp [World.newMat, hd1], by simp [World.newMat, hd2]⟩
    · rw [← ev']; simpa only [ev'] using hfr
    · rw [(assign_vars _ _ _).1]
      exact List.getElem?_set_self hlt
    · rw [(assign_vars _ _ _).1]
      show cnt (w.vars.set x (some (w.newMat B v.h v.w).1)) (w.newMat B v.h v.w).1.data = 1
      rw [cnt_other (x := x) (m := (w.newMat B v.h v.w).1) (List.getElem?_set_self hlt) rfl]
      intro y m' hy hd'
      rcases getElem?_set_some hy with ⟨e, _⟩ | ⟨hne, hy⟩
      · exact e
      · exfalso
        obtain ⟨v', hv', _⟩ := h.rel.fwd y m' hy
        have := h.core.lt _ _ ⟨y, m', hy, hv', rfl⟩
        have e : m'.data = w.nobj := hd'
        omega

/-- A change of a variable that nobody shares. -/
theorem eff_ok (h : Inv B w σ) {x : Nat} {m : Mat} (hx : w.vars[x]? = some (some m)) (hc : cnt w.vars m.data = 1) (f : St R → St R) (v' : Val R)
    (e1 : m.height = v'.h) (e2 : m.width = v'.w) (he : Eff B w.st (f w.st) (w.sbm m) v') : Inv B (w.run f) (σ.set x (some v')) := by
  have := write_ok h hx hc v' (w.sbm m) (f w.st) (m' := m) rfl e1 e2 he.wf he.live he.frame (fun _ => Iff.rfl) he.ok
  have eo : (fun e => if e = m.data then w.sbm m else w.obj e) = w.obj := by
    funext e; by_cases he : e = m.data
    · subst he; rw [if_pos rfl]; rfl
    · rw [if_neg he]
  rw [eo, set_self hx] at this
  exact this

/-- A change that keeps all values. -/
theorem same_ok (h : Inv B w σ) {x : Nat} {m : Mat} {v : Val R} (hx : w.vars[x]? = some (some m)) (hv : σ[x]? = some (some v)) (f : St R → St R)
    (he : ∀ v', ObjOk B w.st (w.sbm m) v' → Eff B w.st (f w.st) (w.sbm m) v') : Inv B (w.run f) σ := by
  have e := he v (h.objOk hx hv)
  refine ⟨⟨e.wf, h.core.lt, ?_, h.core.dis, ?_⟩, h.rel⟩
  · intro d u hp
    by_cases hd : d = m.data
    · subst hd; exact (he u (h.core.ok _ _ hp)).ok
    · exact (h.core.ok d u hp).frame (fun i hl _ => (e.live i).2 hl)
        (fun i hl hi => e.frame i hl (fun hn => h.core.dis d u m.data v hp ⟨x, m, hx, hv, rfl⟩ hd i hi hn))
  · intro i hi
    exact h.core.cov i ((e.live i).1 hi)

theorem dims_get (h : Inv B w σ) {x : Nat} {v : Val R} (hv : σ[x]? = some (some v)) :
    ∃ m, w.var x = some m ∧ w.vars[x]? = some (some m) ∧ m.height = v.h ∧ m.width = v.w := by
  obtain ⟨m, hm⟩ := h.rel.bwd x v hv
  obtain ⟨e1, e2⟩ := h.dims hm hv
  exact ⟨m, var_iff.2 hm, hm, e1, e2⟩

theorem step_ok (hB : 0 < B) (h : Inv B w σ) (c : Cmd R) {σ' : List (Option (Val R))} {out : Option R} (hs : specStep σ c = some (σ', out)) :
    ∃ w', step B w c = some (w', out) ∧ Inv B w' σ' := by
  have hlen := h.rel.len
  cases c with
  | new x hh ww =>
    simp only [specStep] at hs
    split at hs
    · rename_i hx
      cases hs
      obtain ⟨n1, n2⟩ := newMat_self h hh ww
      refine ⟨_, by simp only [step]; rw [if_pos (hlen ▸ hx)], ?_⟩
      exact fresh_ok h (hlen ▸ hx) hh ww (fun s => s) ⟨hh, ww, fun _ _ => 0⟩ rfl rfl ⟨n1, fun _ => Iff.rfl, fun _ _ _ => rfl, n2⟩
    · cases hs
  | copy x y =>
    simp only [specStep] at hs
    obtain ⟨v, hv, hs⟩ := Option.bind_eq_some_iff.1 hs
    rw [join_iff] at hv
    obtain ⟨m, hm, hm', e1, e2⟩ := dims_get h hv
    split at hs
    · rename_i hx
      cases hs
      refine ⟨_, by simp only [step, hm]; rw [if_pos (hlen ▸ hx)], ?_⟩
      refine assign_ok h.rel (hlen ▸ hx) (Or.inr ⟨m, v, rfl, rfl, e1, e2⟩) (h.core.mono ?_ (fun d v hp => ⟨v, Or.inl hp⟩))
      rintro d u (hp | ⟨m', em, ev, ed⟩)
      · exact hp
      · cases em; cases ev; exact ⟨y, m, hm', hv, ed⟩
    · cases hs
  | drop x =>
    simp only [specStep] at hs
    split at hs
    · rename_i hx
      cases hs
      refine ⟨_, by simp only [step]; rw [if_pos (hlen ▸ hx)], ?_⟩
      refine assign_ok h.rel (hlen ▸ hx) (Or.inl ⟨rfl, rfl⟩) (h.core.mono ?_ (fun d v hp => ⟨v, Or.inl hp⟩))
      rintro d u (hp | ⟨m', em, _⟩)
      · exact hp
      · cases em
    · cases hs
  | set x r c e =>
    simp only [specStep] at hs
    obtain ⟨v, hv, hs⟩ := Option.bind_eq_some_iff.1 hs
    rw [join_iff] at hv
    obtain ⟨m, hm, hm', e1, e2⟩ := dims_get h hv
    split at hs
    · rename_i hrc
      cases hs
      obtain ⟨u1, u2, u3, u4, u5⟩ := unify_ok h hm'
      refine ⟨_, by simp only [step, hm]; rw [if_pos (by omega)], ?_⟩
      exact eff_ok u1 u2 u3 _ _ (by rw [u4, e1]) (by rw [u5, e2]) (write_eff hB u1.core.wf (u1.objOk u2 hv) hrc.1 hrc.2 e)
    · cases hs
  | get x r c =>
    simp only [specStep] at hs
    obtain ⟨v, hv, hs⟩ := Option.bind_eq_some_iff.1 hs
    rw [join_iff] at hv
    obtain ⟨m, hm, hm', e1, e2⟩ := dims_get h hv
    split at hs
    · rename_i hrc
      cases hs
      have hok := h.objOk hm' hv
      refine ⟨_, by simp only [step, hm]; rw [if_pos (by omega), read_val hB hok hrc.1 hrc.2], ?_⟩
      refine ⟨⟨(read_eff hB h.core.wf hok hrc.1 hrc.2).wf, h.core.lt, ?_, h.core.dis, ?_⟩, h.rel⟩
      · intro d u hp
        have e := read_eff hB h.core.wf hok hrc.1 hrc.2
        by_cases hd : d = m.data
        · subst hd
          have hu := h.core.ok _ _ hp
          have h1 : ObjOk B w.st (w.sbm m) u := hu
          refine ⟨h1.h, h1.w, h1.hs, h1.ws, fun r c hr hc => (e.live _).2 (h1.own r c hr hc), h1.inj, h1.len, ?_⟩
          intro r' c' hr' hc' i j
          have a := e.ok.val r' c' hr' hc' i j
          have b := hok.val r' c' hr' hc' i j
          have c := h1.val r' c' hr' hc' i j
          exact (a.trans b.symm).trans c
        · exact (h.core.ok d u hp).frame (fun i hl _ => (e.live i).2 hl)
            (fun i hl hi => e.frame i hl (fun hn => h.core.dis d u m.data v hp ⟨x, m, hm', hv, rfl⟩ hd i hi hn))
      · intro i hi
        exact h.core.cov i (((read_eff hB h.core.wf hok hrc.1 hrc.2).live i).1 hi)
    · cases hs
  | getNc x r c =>
    simp only [specStep] at hs
    obtain ⟨v, hv, hs⟩ := Option.bind_eq_some_iff.1 hs
    rw [join_iff] at hv
    obtain ⟨m, hm, hm', e1, e2⟩ := dims_get h hv
    split at hs
    · rename_i hrc
      cases hs
      obtain ⟨u1, u2, u3, u4, u5⟩ := unify_ok h hm'
      have hok := u1.objOk u2 hv
      refine ⟨_, by simp only [step, hm]; rw [if_pos (by omega), read_val hB hok hrc.1 hrc.2], ?_⟩
      have := eff_ok u1 u2 u3 (fun s => (readElem B ((w.unify B x m).2.sbm (w.unify B x m).1) r c s).2) v (by rw [u4, e1]) (by rw [u5, e2])
        (read_eff hB u1.core.wf hok hrc.1 hrc.2)
      rw [set_self hv] at this
      exact this
    · cases hs
  | transpose x =>
    simp only [specStep] at hs
    obtain ⟨v, hv, hs⟩ := Option.bind_eq_some_iff.1 hs
    rw [join_iff] at hv
    cases hs
    obtain ⟨m, hm, hm', e1, e2⟩ := dims_get h hv
    obtain ⟨u1, u2, u3, u4, u5⟩ := unify_ok h hm'
    refine ⟨_, by simp only [step, hm]; rfl, ?_⟩
    exact write_ok u1 u2 u3 ⟨v.w, v.h, fun i j => v.f j i⟩ _ _ (m' := { (w.unify B x m).1 with
      height := (w.unify B x m).1.width, width := (w.unify B x m).1.height }) rfl (by simp [u5, e2]) (by simp [u4, e1])
      u1.core.wf (fun _ => Iff.rfl) (fun _ _ _ => rfl) (fun i => transpose_has i) (transpose_ok (u1.objOk u2 hv))
  | setZero x =>
    simp only [specStep] at hs
    obtain ⟨v, hv, hs⟩ := Option.bind_eq_some_iff.1 hs
    rw [join_iff] at hv
    cases hs
    obtain ⟨m, hm, hm', e1, e2⟩ := dims_get h hv
    by_cases hc : cnt w.vars m.data = 1
    · refine ⟨_, by simp only [step, hm]; rw [if_pos hc], ?_⟩
      exact eff_ok h hm' hc _ _ e1 e2 (setZero_eff h.core.wf (h.objOk hm' hv))
    · refine ⟨_, by simp only [step, hm]; rw [if_neg hc], ?_⟩
      rw [e1, e2]
      obtain ⟨n1, n2⟩ := newMat_self h v.h v.w
      exact fresh_ok h (getElem?_lt hm') v.h v.w (fun s => s) ⟨v.h, v.w, fun _ _ => 0⟩ rfl rfl ⟨n1, fun _ => Iff.rfl, fun _ _ _ => rfl, n2⟩
  | add x a b =>
    simp only [specStep] at hs
    obtain ⟨va, hva, hs⟩ := Option.bind_eq_some_iff.1 hs
    obtain ⟨vb, hvb, hs⟩ := Option.bind_eq_some_iff.1 hs
    rw [join_iff] at hva hvb
    obtain ⟨ma, hma, hma', a1, a2⟩ := dims_get h hva
    obtain ⟨mb, hmb, hmb', b1, b2⟩ := dims_get h hvb
    split at hs
    · rename_i hc
      cases hs
      refine ⟨_, by simp only [step, hma, hmb]; rw [if_pos (by omega)], ?_⟩
      rw [a1, a2]
      obtain ⟨n1, n2⟩ := newMat_self h va.h va.w
      obtain ⟨o1, o2⟩ := newMat_other h va.h va.w hma' hva
      obtain ⟨p1, p2⟩ := newMat_other h va.h va.w hmb' hvb
      exact fresh_ok h (hlen ▸ hc.1) va.h va.w _ _ rfl rfl (op3_eff (v := ⟨va.h, va.w, fun _ _ => 0⟩) .add (by simp [Op.f3]) n1 n2 o1 p1 rfl rfl hc.2.1.symm hc.2.2.symm o2 p2)
    · cases hs
  | sub x a b =>
    simp only [specStep] at hs
    obtain ⟨va, hva, hs⟩ := Option.bind_eq_some_iff.1 hs
    obtain ⟨vb, hvb, hs⟩ := Option.bind_eq_some_iff.1 hs
    rw [join_iff] at hva hvb
    obtain ⟨ma, hma, hma', a1, a2⟩ := dims_get h hva
    obtain ⟨mb, hmb, hmb', b1, b2⟩ := dims_get h hvb
    split at hs
    · rename_i hc
      cases hs
      refine ⟨_, by simp only [step, hma, hmb]; rw [if_pos (by omega)], ?_⟩
      rw [a1, a2]
      obtain ⟨n1, n2⟩ := newMat_self h va.h va.w
      obtain ⟨o1, o2⟩ := newMat_other h va.h va.w hma' hva
      obtain ⟨p1, p2⟩ := newMat_other h va.h va.w hmb' hvb
      exact fresh_ok h (hlen ▸ hc.1) va.h va.w _ _ rfl rfl (op3_eff (v := ⟨va.h, va.w, fun _ _ => 0⟩) .sub (by simp [Op.f3]) n1 n2 o1 p1 rfl rfl hc.2.1.symm hc.2.2.symm o2 p2)
    · cases hs
  | scal x a k =>
    simp only [specStep] at hs
    obtain ⟨va, hva, hs⟩ := Option.bind_eq_some_iff.1 hs
    rw [join_iff] at hva
    obtain ⟨ma, hma, hma', a1, a2⟩ := dims_get h hva
    split at hs
    · rename_i hc
      cases hs
      refine ⟨_, by simp only [step, hma]; rw [if_pos (by omega)], ?_⟩
      rw [a1, a2]
      obtain ⟨n1, n2⟩ := newMat_self h va.h va.w
      obtain ⟨o1, o2⟩ := newMat_other h va.h va.w hma' hva
      exact fresh_ok h (hlen ▸ hc) va.h va.w _ _ rfl rfl (scal2_eff (v := ⟨va.h, va.w, fun _ _ => 0⟩) k n1 n2 rfl o1 rfl rfl o2)
    · cases hs
  | addTo x y =>
    simp only [specStep] at hs
    obtain ⟨vx, hvx, hs⟩ := Option.bind_eq_some_iff.1 hs
    obtain ⟨vy, hvy, hs⟩ := Option.bind_eq_some_iff.1 hs
    rw [join_iff] at hvx hvy
    obtain ⟨mx, hmx, hmx', a1, a2⟩ := dims_get h hvx
    obtain ⟨my, hmy, hmy', b1, b2⟩ := dims_get h hvy
    split at hs
    · rename_i hc
      cases hs
      obtain ⟨u1, u2, u3, u4, u5⟩ := unify_ok h hmx'
      obtain ⟨my2, hmy2, hmy2', c1, c2⟩ := dims_get u1 hvy
      refine ⟨_, by simp only [step, hmx, hmy]; rw [if_pos (by omega)]; simp only [hmy2]; rfl, ?_⟩
      have hdis : (∀ i, HasBlock ((w.unify B x mx).2.sbm my2) i → ¬ HasBlock ((w.unify B x mx).2.sbm (w.unify B x mx).1) i) ∨
          (w.unify B x mx).2.sbm my2 = (w.unify B x mx).2.sbm (w.unify B x mx).1 := by
        by_cases e : my2.data = (w.unify B x mx).1.data
        · right; unfold World.sbm; rw [e]
        · left; exact u1.core.dis _ vy _ vx ⟨y, my2, hmy2', hvy, rfl⟩ ⟨x, _, u2, hvx, rfl⟩ e
      exact eff_ok u1 u2 u3 _ _ (by rw [u4, a1]) (by rw [u5, a2])
        (op2_eff .add (by simp [Op.f2]) (fun x => by simp [Op.f2]) u1.core.wf (u1.objOk u2 hvx) (u1.objOk hmy2' hvy) hc.1.symm hc.2.symm hdis)
    · cases hs
  | subTo x y =>
    simp only [specStep] at hs
    obtain ⟨vx, hvx, hs⟩ := Option.bind_eq_some_iff.1 hs
    obtain ⟨vy, hvy, hs⟩ := Option.bind_eq_some_iff.1 hs
    rw [join_iff] at hvx hvy
    obtain ⟨mx, hmx, hmx', a1, a2⟩ := dims_get h hvx
    obtain ⟨my, hmy, hmy', b1, b2⟩ := dims_get h hvy
    split at hs
    · rename_i hc
      cases hs
      obtain ⟨u1, u2, u3, u4, u5⟩ := unify_ok h hmx'
      obtain ⟨my2, hmy2, hmy2', c1, c2⟩ := dims_get u1 hvy
      refine ⟨_, by simp only [step, hmx, hmy]; rw [if_pos (by omega)]; simp only [hmy2]; rfl, ?_⟩
      have hdis : (∀ i, HasBlock ((w.unify B x mx).2.sbm my2) i → ¬ HasBlock ((w.unify B x mx).2.sbm (w.unify B x mx).1) i) ∨
          (w.unify B x mx).2.sbm my2 = (w.unify B x mx).2.sbm (w.unify B x mx).1 := by
        by_cases e : my2.data = (w.unify B x mx).1.data
        · right; unfold World.sbm; rw [e]
        · left; exact u1.core.dis _ vy _ vx ⟨y, my2, hmy2', hvy, rfl⟩ ⟨x, _, u2, hvx, rfl⟩ e
      exact eff_ok u1 u2 u3 _ _ (by rw [u4, a1]) (by rw [u5, a2])
        (op2_eff .sub (by simp [Op.f2]) (fun x => by simp [Op.f2]) u1.core.wf (u1.objOk u2 hvx) (u1.objOk hmy2' hvy) hc.1.symm hc.2.symm hdis)
    · cases hs
  | scalTo x k =>
    simp only [specStep] at hs
    obtain ⟨v, hv, hs⟩ := Option.bind_eq_some_iff.1 hs
    rw [join_iff] at hv
    cases hs
    obtain ⟨m, hm, hm', e1, e2⟩ := dims_get h hv
    obtain ⟨u1, u2, u3, u4, u5⟩ := unify_ok h hm'
    refine ⟨_, by simp only [step, hm]; rfl, ?_⟩
    exact eff_ok u1 u2 u3 _ _ (by rw [u4, e1]) (by rw [u5, e2]) (scal1_eff k u1.core.wf (u1.objOk u2 hv))
  | mul alg x a b =>
    simp only [specStep] at hs
    obtain ⟨va, hva, hs⟩ := Option.bind_eq_some_iff.1 hs
    obtain ⟨vb, hvb, hs⟩ := Option.bind_eq_some_iff.1 hs
    rw [join_iff] at hva hvb
    obtain ⟨ma, hma, hma', a1, a2⟩ := dims_get h hva
    obtain ⟨mb, hmb, hmb', b1, b2⟩ := dims_get h hvb
    split at hs
    · rename_i hc
      cases hs
      refine ⟨_, by simp only [step, hma, hmb]; rw [if_pos (by omega)], ?_⟩
      rw [a1, b2]
      obtain ⟨n1, n2⟩ := newMat_self h va.h vb.w
      obtain ⟨o1, o2⟩ := newMat_other h va.h vb.w hma' hva
      obtain ⟨p1, p2⟩ := newMat_other h va.h vb.w hmb' hvb
      exact fresh_ok h (hlen ▸ hc.1) va.h vb.w _ _ rfl rfl (mulAlg_eff (v := ⟨va.h, vb.w, fun _ _ => 0⟩) alg hB n1 n2 rfl o1 p1 rfl rfl hc.2 o2 p2)
    · cases hs

theorem exec_ok (hB : 0 < B) : ∀ (cs : List (Cmd R)) (w : World R) (σ : List (Option (Val R))), Inv B w σ → ∀ σ' os, specExec σ cs = some (σ', os) →
    ∃ w', exec B w cs = some (w', os) ∧ Inv B w' σ' := by
  intro cs
  induction cs with
  | nil =>
    intro w σ h σ' os hs
    simp only [specExec, Option.some.injEq, Prod.mk.injEq] at hs
    obtain ⟨rfl, rfl⟩ := hs
    exact ⟨w, rfl, h⟩
  | cons c cs ih =>
    intro w σ h σ' os hs
    simp only [specExec] at hs
    split at hs
    · rename_i σ1 o h1
      split at hs
      · rename_i σ2 os2 h2
        simp only [Option.some.injEq, Prod.mk.injEq] at hs
        obtain ⟨rfl, rfl⟩ := hs
        obtain ⟨w1, e1, i1⟩ := step_ok hB h c h1
        obtain ⟨w2, e2, i2⟩ := ih w1 σ1 i1 _ _ h2
        exact ⟨w2, by simp only [exec, e1, e2], i2⟩
      · cases hs
    · cases hs

theorem init_inv (n : Nat) : Inv B (World.init (R := R) n) (List.replicate n none) := by
  refine ⟨⟨⟨by simp [World.init], by simp [World.init], fun _ _ => rfl⟩, ?_, ?_, ?_, ?_⟩, ⟨by simp [World.init], ?_, ?_⟩⟩
  · rintro d v ⟨x, m, hx, _⟩; simp [World.init, List.getElem?_replicate] at hx
  · rintro d v ⟨x, m, hx, _⟩; simp [World.init, List.getElem?_replicate] at hx
  · rintro d v _ _ ⟨x, m, hx, _⟩; simp [World.init, List.getElem?_replicate] at hx
  · intro i hi; simp [World.init, St.live] at hi
  · intro x m hx; simp [World.init, List.getElem?_replicate] at hx
  · intro x m hx; simp [List.getElem?_replicate] at hx

end Stxxl.Mat
