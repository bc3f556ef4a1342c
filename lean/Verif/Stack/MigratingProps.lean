import Verif.Stack.Migrating

/-!
# C14: proofs for `migrating_stack`
-/

namespace Stxxl.Stack
open Stxxl.ExtVector (upd)

namespace Mig
variable {α : Type} {B P crit : Nat}

theorem unload_ok (st : List α) : ∀ (n i : Nat) (tmp : List α), n + i = st.length → tmp.length = st.length →
    (∀ k, n ≤ k → tmp[k]? = st[k]?) → unload st.length n i (st.take n) tmp = some st := by
  intro n
  induction n with
  | zero =>
    intro i tmp _ _ h
    unfold unload
    congr 1
    apply List.ext_getElem?
    intro k; exact h k (Nat.zero_le _)
  | succ n ih =>
    intro i tmp hn hl h
    have hlt : n < st.length := by omega
    have hg : (st.take (n + 1)).getLast? = some st[n] := by
      rw [List.getLast?_eq_getElem?, List.length_take, Nat.min_eq_left (by omega)]
      simp [List.getElem?_take, hlt]
    unfold unload
    rw [hg]
    simp only
    rw [show (st.take (n + 1)).dropLast = st.take n from by rw [List.dropLast_eq_take, List.take_take, List.length_take]; congr 1; omega]
    refine ih _ _ (by omega) (by simpa using hl) ?_
    intro k hk
    rw [show st.length - i - 1 = n from by omega, List.getElem?_set]
    by_cases hkn : n = k
    · subst hkn; rw [if_pos rfl, if_pos (by omega)]; simp [hlt]
    · rw [if_neg hkn]; exact h k (by omega)

theorem unload_all (st : List α) (d : α) : unload st.length st.length 0 st (List.replicate st.length d) = some st := by
  have := unload_ok st st.length 0 (List.replicate st.length d) (by simp) (by simp) (by
    intro k hk
    rw [List.getElem?_eq_none (by simpa using hk), List.getElem?_eq_none (by simpa using hk)])
  rwa [List.take_length] at this

theorem push_bids {s s' : Normal α} {v : α} {fresh : List Nat} (h : Normal.push B P s v fresh = some s') :
    ∀ b ∈ s'.bids, b ∈ s.bids ∨ b ∈ fresh := by
  unfold Normal.push at h
  split at h
  · simp at h
  · split at h
    · cases h; intro b hb; simpa using hb
    · cases h; intro b hb; exact .inl hb

theorem pushAll_ok (hB : 0 < B) (hP : 0 < P) {e : Sup α} {used : List Nat} (he : e.Ok P used) (vs : List α) : ∀ (i : Nat) (s : Normal α) (l : List α),
    Normal.Reach B P s l → (∀ b ∈ s.bids, ∃ j < i, b ∈ e.fresh j) →
    ∃ s', pushAll B P e.fresh vs i s = some s' ∧ Normal.Reach B P s' (l ++ vs) := by
  induction vs with
  | nil => intro i s l h _; exact ⟨s, rfl, by simpa using h⟩
  | cons v vs ih =>
    intro i s l h hb
    have hf : ∀ b ∈ e.fresh i, b ∉ s.bids := by
      intro b h1 h2
      obtain ⟨j, hj, h3⟩ := hb b h2
      exact he.dis i j (by omega) b h1 h3
    obtain ⟨s1, e1, h1⟩ := C11_no_failure hB hP h (.push v) trivial (e.fresh i) (he.len i) (he.nod i) hf
    have e1' : Normal.push B P s v (e.fresh i) = some s1 := e1
    obtain ⟨s', e2, h2⟩ := ih (i + 1) s1 (l ++ [v]) h1 (by
      intro b hbb
      rcases push_bids e1' b hbb with h' | h'
      · obtain ⟨j, hj, h3⟩ := hb b h'
        exact ⟨j, by omega, h3⟩
      · exact ⟨i, by omega, h'⟩)
    refine ⟨s', ?_, by simpa using h2⟩
    unfold pushAll
    rw [e1']
    exact e2

theorem convert_ok (hB : 0 < B) (hP : 0 < P) {e : Sup α} {used : List Nat} (he : e.Ok P used) (st : List α) :
    ∃ x, convert B P e.dflt e.mem e.disk e.fresh st = some x ∧ Normal.Reach B P x st := by
  obtain ⟨x, e1, h1⟩ := pushAll_ok hB hP he st 0 _ [] (Normal.Reach.new e.mem e.disk) (by simp [Normal.new])
  refine ⟨x, ?_, by simpa using h1⟩
  unfold convert
  rw [unload_all]
  exact e1

inductive Inv (B P : Nat) : Mig α → List α → Bool → Prop
  | int (l : List α) : Inv B P ⟨some l, none⟩ l false
  | ext (x : Normal α) (l : List α) : Normal.Reach B P x l → Inv B P ⟨none, some x⟩ l true

theorem dropLast_length_crit {l : List α} (hl : l ≠ []) (v : α) : (l.dropLast ++ [v]).length = l.length := by
  have : 0 < l.length := List.length_pos_iff.2 hl
  simp; omega

/-- Height below the critical size while internal (if the critical size is positive). -/
def Low (crit : Nat) (l : List α) (t : Bool) : Prop := t = false → 0 < crit → l.length < crit

theorem step_ok (hB : 0 < B) (hP : 0 < P) (hc : 0 < crit) {m : Mig α} {l : List α} {t : Bool} (h : Inv B P m l t) (hlow : Low crit l t) {e : Sup α} (he : e.Ok P m.bids)
    {op : Op α} (hl : specLegal l op) : ∃ m', step B P crit m e op = some m' ∧
      Inv B P m' (specStep l op) (t || (specStep l op).length == crit) ∧ Low crit (specStep l op) (t || (specStep l op).length == crit) := by
  cases h with
  | int =>
    have hlow' : l.length < crit := hlow rfl hc
    cases op with
    | push v =>
      simp only [step, push, specStep]
      by_cases hcr : (l ++ [v]).length = crit
      · rw [if_pos hcr]
        obtain ⟨x, e1, h1⟩ := convert_ok hB hP he (l ++ [v])
        rw [e1]
        refine ⟨_, rfl, ?_, ?_⟩
        · simp only [hcr, beq_self_eq_true, Bool.or_true]; exact .ext x _ h1
        · intro h; simp only [hcr, beq_self_eq_true, Bool.or_true] at h; simp at h
      · rw [if_neg hcr]
        have : ((l ++ [v]).length == crit) = false := by simpa using hcr
        refine ⟨_, rfl, ?_, ?_⟩
        · rw [this]; exact .int _
        · intro _ _; simp at hcr ⊢; omega
    | pop =>
      simp only [step, pop, specStep]
      rw [if_neg hl]
      have : (l.dropLast.length == crit) = false := by simp; omega
      refine ⟨_, rfl, ?_, ?_⟩
      · rw [this]; exact .int _
      · intro _ _; simp; omega
    | setTop v =>
      simp only [step, setTop, specStep]
      rw [if_neg hl]
      have : ((l.dropLast ++ [v]).length == crit) = false := by rw [dropLast_length_crit hl]; simp; omega
      refine ⟨_, rfl, ?_, ?_⟩
      · rw [this]; exact .int _
      · intro _ _; rw [dropLast_length_crit hl]; exact hlow'
  | ext x _ hx =>
    obtain ⟨x', e1, h1⟩ := C11_no_failure hB hP hx op hl (e.fresh 0) (he.len 0) (he.nod 0) (he.new 0)
    refine ⟨⟨none, some x'⟩, ?_, .ext x' _ h1, by intro h; simp at h⟩
    cases op with
    | push v => simp only [step, push]; rw [show Normal.push B P x v (e.fresh 0) = some x' from e1]; rfl
    | pop => simp only [step, pop]; rw [show Normal.pop B P x = some x' from e1]; rfl
    | setTop v => simp only [step, setTop]; rw [show Normal.setTop x v = some x' from e1]; rfl

theorem reach_inv (hB : 0 < B) (hP : 0 < P) (hc : 0 < crit) {m : Mig α} {l : List α} {t : Bool} (h : Reach B P crit m l t) : Inv B P m l t ∧ Low crit l t := by
  induction h with
  | new => exact ⟨.int [], fun _ h => h⟩
  | step e op _ hl he hs ih =>
    obtain ⟨m', e1, h1⟩ := step_ok hB hP hc ih.1 ih.2 he hl
    rw [hs] at e1; cases e1; exact h1
  | foreign b c _ hb ih =>
    refine ⟨?_, ih.2⟩
    cases ih.1 with
    | ext _ _ hx => exact .ext _ _ (.foreign b c hx hb)

end Mig

/-- **C14** For every history, `top()`, `size()` and `empty()` are those of one in-memory stack, and the stack is external iff
its height once reached the critical size (it never moves back). -/
theorem C14_observers {α : Type} {B P crit : Nat} (hB : 0 < B) (hP : 0 < P) (hc : 0 < crit) {m : Mig α} {l : List α} {t : Bool}
    (h : Mig.Reach B P crit m l t) :
    m.top = specTop l ∧ m.size = some l.length ∧ m.isEmpty = some l.isEmpty ∧ m.internal = some (!t) := by
  cases (Mig.reach_inv hB hP hc h).1 with
  | int => exact ⟨rfl, rfl, rfl, rfl⟩
  | ext x _ hx =>
    have := C11_observers hB hP hx
    exact ⟨this.1, congrArg some this.2.1, congrArg some this.2.2, rfl⟩

/-- **C14** Every legal operation succeeds, in particular the migration. -/
theorem C14_no_failure {α : Type} {B P crit : Nat} (hB : 0 < B) (hP : 0 < P) (hc : 0 < crit) {m : Mig α} {l : List α} {t : Bool}
    (h : Mig.Reach B P crit m l t) (op : Op α) (hl : specLegal l op) (e : Mig.Sup α) (he : e.Ok P m.bids) :
    ∃ m', Mig.step B P crit m e op = some m' ∧ Mig.Reach B P crit m' (specStep l op) (t || (specStep l op).length == crit) := by
  obtain ⟨m', e1, _⟩ := Mig.step_ok hB hP hc (Mig.reach_inv hB hP hc h).1 (Mig.reach_inv hB hP hc h).2 he hl
  exact ⟨m', e1, .step e op h hl he e1⟩

/-- Non-vacuity: critical size 3, one-element blocks: the third push migrates (with an overflow during the migration), and after
popping below the critical size the stack is still external. -/
example : ∃ m : Mig Nat, Mig.Reach 1 1 3 m [7] true ∧ m.top = some 7 ∧ m.internal = some false := by
  let e : Mig.Sup Nat := ⟨0, fun _ _ _ => 0, fun _ _ => 0, fun i => [i]⟩
  have he : e.Ok 1 [] := ⟨by simp [e], by simp [e], by intro i j hij b hb; simp [e] at hb ⊢; omega, by simp⟩
  let e2 : Mig.Sup Nat := ⟨0, fun _ _ _ => 0, fun _ _ => 0, fun i => [i + 100]⟩
  have h1 : Mig.Reach 1 1 3 _ [7] false := Mig.Reach.step (B := 1) (P := 1) (crit := 3) e (.push 7) Mig.Reach.new trivial he rfl
  have h2 : Mig.Reach 1 1 3 _ [7, 8] false := Mig.Reach.step e (.push 8) h1 trivial he rfl
  have h3 : Mig.Reach 1 1 3 _ [7, 8, 9] true := Mig.Reach.step e (.push 9) h2 trivial he (some_getD (d := Mig.new) (by decide))
  have he2 : e2.Ok 1 [2] := ⟨by simp [e2], by simp [e2], by intro i j hij b hb; simp [e2] at hb ⊢; omega, by intro i b hb; simp [e2] at hb ⊢; omega⟩
  have h4 : Mig.Reach 1 1 3 _ [7, 8] true := Mig.Reach.step e2 .pop h3 (by simp [specLegal]) he2 (some_getD (d := Mig.new) (by decide))
  have h5 : Mig.Reach 1 1 3 _ [7] true := Mig.Reach.step e2 .pop h4 (by simp [specLegal]) he2 (some_getD (d := Mig.new) (by decide))
  exact ⟨_, h5, by decide, by decide⟩

end Stxxl.Stack
