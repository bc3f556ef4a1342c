import Verif.Small.Model

/-!
# C93: pointers kept outside; C94: the non-growing vector; C95: the stop watch
-/
namespace Stxxl.Small

/-! ## Specification -/

/-- Living instances of the shared pointer that point to `o`. -/
def St.instances (s : St) (o : Nat) : Nat := s.ps.count o

/-- How often `o` was wrapped, and unwrapped, so far. -/
def St.wraps (s : St) (o : Nat) : Nat := s.log.count (.wrapped o)
def St.unwraps (s : St) (o : Nat) : Nat := s.log.count (.unwrapped o)

/-- What a caller may do: use living instances; unwrap an object no more often than it was wrapped; get a pointer only while the object has not
been unwrapped as often as wrapped, or has a living instance. Wrappers may be made, copied, overwritten and dropped at will. -/
def Allowed (s : St) : Op → Prop
  | .copy i => i < s.ps.length
  | .assign i j => i < s.ps.length ∧ j < s.ps.length
  | .destroy i => i < s.ps.length
  | .wWrap i => i < s.ps.length
  | .wCopy k => k < s.slots.length
  | .wAssign _ l => l < s.slots.length
  | .unwrap k => ∃ o : Nat, s.slots[k]? = some (some o) ∧ s.unwraps o < s.wraps o
  | .get k => ∃ o : Nat, s.slots[k]? = some (some o) ∧ (s.unwraps o < s.wraps o ∨ o ∈ s.ps)
  | _ => True

def Proper (s : St) : List Op → Prop
  | [] => True
  | op :: ops => Allowed s op ∧ ∀ s' : St, step s op = some s' → Proper s' ops

/-- The stop watch runs after a history, the latest call first. -/
def isRunning : List (TOp × Int) → Bool
  | [] => false
  | (.start, _) :: _ => true
  | (.stop, _) :: _ => false
  | (_, _) :: e => isRunning e

/-- The time up to `now` during which the watch was running since the last reset, and what was added since. -/
def total : List (TOp × Int) → Int → Int
  | [], _ => 0
  | (op, t) :: e, now =>
    (match op with
      | .reset => 0
      | .add x => total e t + x
      | _ => total e t) + (if isRunning ((op, t) :: e) then now - t else 0)

/-- The watch is started only while it stands and stopped only while it runs. -/
def Alternating : List (TOp × Int) → Prop
  | [] => True
  | (.start, _) :: e => isRunning e = false ∧ Alternating e
  | (.stop, _) :: e => isRunning e = true ∧ Alternating e
  | (_, _) :: e => Alternating e

variable {α : Type}

/-- A sequence after one operation on it. -/
def specStep (zero : α) (l : List α) : VOp α → List α
  | .set i x => l.set i x
  | .resize n junk => (List.range n).map fun i => (l[i]?).getD (junk i)
  | .memzero => l.map fun _ => zero

def specRun (zero : α) (l : List α) : List (VOp α) → List α
  | [] => l
  | op :: ops => specRun zero (specStep zero l op) ops

/-- Only elements inside are written. -/
def InRange (zero : α) (l : List α) : List (VOp α) → Prop
  | [] => True
  | op :: ops => (∀ (i : Nat) (x : α), op = .set i x → i < l.length) ∧ InRange zero (specStep zero l op) ops

/-! ## Proofs -/

structure Inv (s : St) : Prop where
  bal : ∀ o : Nat, s.rc o + s.unwraps o = s.instances o + s.wraps o
  le : ∀ o : Nat, s.unwraps o ≤ s.wraps o
  fresh : ∀ o : Nat, s.next ≤ o → s.rc o = 0 ∧ s.unwraps o = 0 ∧ s.instances o = 0 ∧ s.wraps o = 0

theorem Inv.init : Inv St.init :=
  ⟨fun _ => rfl, fun _ => Nat.le_refl _, fun _ _ => ⟨rfl, rfl, rfl, rfl⟩⟩

theorem Inv.pos {s : St} (h : Inv s) {o : Nat} (ho : o ∈ s.ps) : s.rc o ≠ 0 := by
  have h1 := h.bal o
  have h2 := h.le o
  have h3 : 0 < s.instances o := List.count_pos_iff.2 ho
  omega

theorem mem_of_get {l : List Nat} {i o : Nat} (h : l[i]? = some o) : o ∈ l := List.mem_of_getElem? h

theorem Inv.get {s : St} (h : Inv s) {o : Nat} (hp : s.rc o ≠ 0) : ∃ s' : St, s.get o = some s' ∧ Inv s' := by
  refine ⟨_, by simp only [St.get, St.inc, if_neg hp]; rfl, ?_⟩
  have hc : ∀ x : Nat, (s.ps ++ [o]).count x = s.ps.count x + if x = o then 1 else 0 := by
    intro x
    rw [List.count_append, List.count_singleton]
    congr 1
    by_cases hx : x = o
    · simp [hx]
    · rw [if_neg hx]; simp [Ne.symm hx]
  constructor
  · intro x
    have := h.bal x
    simp only [St.instances, St.wraps, St.unwraps, hc] at this ⊢
    split <;> omega
  · exact h.le
  · intro x hx
    obtain ⟨f1, f2, f3, f4⟩ := h.fresh x hx
    have hne : x ≠ o := by rintro rfl; exact hp f1
    refine ⟨?_, f2, ?_, f4⟩
    · show (if x = o then s.rc x + 1 else s.rc x) = 0
      rw [if_neg hne, f1]
    · show (s.ps ++ [o]).count x = 0
      rw [hc, if_neg hne]
      exact f3

theorem count_ne {x o : Nat} (l : List Ev) (e : Ev) (f : Nat → Ev) (hf : f o = e) (hinj : ∀ a b : Nat, f a = f b → a = b) :
    (l ++ [e]).count (f x) = l.count (f x) + if x = o then 1 else 0 := by
  rw [List.count_append, List.count_singleton]
  congr 1
  by_cases hx : x = o
  · subst hx; simp [hf]
  · rw [if_neg hx]
    have : e ≠ f x := by
      rw [← hf]; intro he; exact hx (hinj _ _ he).symm
    simp [this]

theorem count_other (l : List Ev) (e g : Ev) (h : e ≠ g) : (l ++ [e]).count g = l.count g := by
  rw [List.count_append, List.count_singleton]
  simp [h]

theorem Inv.wrap {s : St} (h : Inv s) {o : Nat} (hp : s.rc o ≠ 0) : ∃ s' : St, s.wrap o = some s' ∧ Inv s' := by
  refine ⟨_, by simp [St.wrap, St.inc, St.dec, hp]; rfl, ?_⟩
  have hw : ∀ x : Nat, (s.log ++ [Ev.wrapped o]).count (.wrapped x) = s.log.count (.wrapped x) + if x = o then 1 else 0 :=
    fun x => count_ne _ _ Ev.wrapped rfl (fun a b e => by injection e)
  have hu : ∀ x : Nat, (s.log ++ [Ev.wrapped o]).count (.unwrapped x) = s.log.count (.unwrapped x) :=
    fun x => count_other _ _ _ (by simp)
  constructor
  · intro x
    have := h.bal x
    simp only [St.instances, St.wraps, St.unwraps, hw, hu] at this ⊢
    split <;> omega
  · intro x
    have := h.le x
    simp only [St.wraps, St.unwraps, hw, hu] at this ⊢
    omega
  · intro x hx
    obtain ⟨f1, f2, f3, f4⟩ := h.fresh x hx
    have hne : x ≠ o := by rintro rfl; exact hp f1
    simp only [St.instances, St.wraps, St.unwraps, hw, hu, if_neg hne] at *
    exact ⟨f1, f2, f3, f4⟩

theorem Inv.unwrap {s : St} (h : Inv s) {o : Nat} (hp : s.unwraps o < s.wraps o) : ∃ s' : St, s.unwrap o = some s' ∧ Inv s' := by
  have h0 : s.rc o ≠ 0 := by have := h.bal o; omega
  refine ⟨_, by simp only [St.unwrap, St.dec, if_neg h0]; rfl, ?_⟩
  have hw : ∀ x : Nat, (s.log ++ [Ev.unwrapped o]).count (.unwrapped x) = s.log.count (.unwrapped x) + if x = o then 1 else 0 :=
    fun x => count_ne _ _ Ev.unwrapped rfl (fun a b e => by injection e)
  have hu : ∀ x : Nat, (s.log ++ [Ev.unwrapped o]).count (.wrapped x) = s.log.count (.wrapped x) :=
    fun x => count_other _ _ _ (by simp)
  constructor
  · intro x
    have := h.bal x
    simp only [St.instances, St.wraps, St.unwraps, hw, hu] at this ⊢
    by_cases hx : x = o
    · subst hx; rw [if_pos rfl, if_pos rfl]; omega
    · rw [if_neg hx, if_neg hx]; omega
  · intro x
    have := h.le x
    simp only [St.wraps, St.unwraps, hw, hu] at this hp ⊢
    by_cases hx : x = o
    · subst hx; rw [if_pos rfl]; omega
    · rw [if_neg hx]; omega
  · intro x hx
    obtain ⟨f1, f2, f3, f4⟩ := h.fresh x hx
    have hne : x ≠ o := by rintro rfl; exact h0 f1
    simp only [St.instances, St.wraps, St.unwraps, hw, hu, if_neg hne] at *
    exact ⟨f1, f2, f3, f4⟩

theorem Inv.slots {s : St} (h : Inv s) (l : List (Option Nat)) : Inv { s with slots := l } := ⟨h.bal, h.le, h.fresh⟩

theorem Inv.step {s : St} (h : Inv s) (op : Op) (ha : Allowed s op) : ∃ s' : St, step s op = some s' ∧ Inv s' := by
  cases op with
  | make =>
    refine ⟨_, rfl, ?_⟩
    obtain ⟨f1, f2, f3, f4⟩ := h.fresh s.next (Nat.le_refl _)
    have hc : ∀ x : Nat, (s.ps ++ [s.next]).count x = s.ps.count x + if x = s.next then 1 else 0 := by
      intro x
      rw [List.count_append, List.count_singleton]
      congr 1
      by_cases hx : x = s.next
      · simp [hx]
      · rw [if_neg hx]; simp [Ne.symm hx]
    refine ⟨fun x => ?_, h.le, fun x hx => ?_⟩
    · have := h.bal x
      simp only [St.instances, St.wraps, St.unwraps, hc] at *
      by_cases hx : x = s.next
      · subst hx; rw [if_pos rfl, if_pos rfl]; omega
      · rw [if_neg hx, if_neg hx]; omega
    · have hx' : s.next + 1 ≤ x := hx
      have hne : x ≠ s.next := by omega
      have := h.fresh x (by omega)
      simp only [St.instances, St.wraps, St.unwraps, hc, if_neg hne] at *
      exact this
  | copy i =>
    have hi : i < s.ps.length := ha
    simp only [Small.step, List.getElem?_eq_getElem hi]
    exact h.get (h.pos (List.getElem_mem hi))
  | assign i j =>
    obtain ⟨hi, hj⟩ : i < s.ps.length ∧ j < s.ps.length := ha
    have hq := h.pos (List.getElem_mem hj)
    have ho := h.pos (List.getElem_mem hi)
    simp only [Small.step, List.getElem?_eq_getElem hi, List.getElem?_eq_getElem hj, St.inc, if_neg hq, St.dec]
    have h0 : (if s.ps[i] = s.ps[j] then s.rc s.ps[i] + 1 else s.rc s.ps[i]) ≠ 0 := by split <;> omega
    simp only [if_neg h0]
    refine ⟨_, rfl, ?_⟩
    have hc : ∀ x : Nat, (s.ps.set i s.ps[j]).count x + (if x = s.ps[i] then 1 else 0) = s.ps.count x + if x = s.ps[j] then 1 else 0 := by
      intro x
      rw [List.count_set hi]
      have h1 : x = s.ps[i] → 0 < s.ps.count x := fun e => List.count_pos_iff.2 (e ▸ List.getElem_mem hi)
      have e1 : (s.ps[i] == x) = true ↔ x = s.ps[i] := by rw [beq_iff_eq]; exact eq_comm
      have e2 : (s.ps[j] == x) = true ↔ x = s.ps[j] := by rw [beq_iff_eq]; exact eq_comm
      simp only [e1, e2]
      by_cases hx : x = s.ps[i]
      · have := h1 hx
        rw [if_pos hx]; omega
      · rw [if_neg hx]; omega
    refine ⟨fun x => ?_, h.le, fun x hx => ?_⟩
    · have h1 := h.bal x
      have h2 := hc x
      simp only [St.instances, St.wraps, St.unwraps] at *
      generalize (s.ps.set i s.ps[j]).count x = c at *
      by_cases hx1 : x = s.ps[i] <;> by_cases hx2 : x = s.ps[j]
      · rw [if_pos hx1] at h2 ⊢; rw [if_pos hx2] at h2 ⊢; omega
      · have : s.rc x ≠ 0 := hx1 ▸ ho
        rw [if_pos hx1] at h2 ⊢; rw [if_neg hx2] at h2 ⊢; omega
      · rw [if_neg hx1] at h2 ⊢; rw [if_pos hx2] at h2 ⊢; omega
      · rw [if_neg hx1] at h2 ⊢; rw [if_neg hx2] at h2 ⊢; omega
    · obtain ⟨f1, f2, f3, f4⟩ := h.fresh x hx
      have n1 : x ≠ s.ps[i] := by intro e; exact ho (e ▸ f1)
      have n2 : x ≠ s.ps[j] := by intro e; exact hq (e ▸ f1)
      have h2 := hc x
      rw [if_neg n1, if_neg n2] at h2
      refine ⟨?_, f2, ?_, f4⟩
      · show (if x = s.ps[i] then _ else _) = 0
        rw [if_neg n1, if_neg n2, f1]
      · simp only [St.instances] at *; omega
  | destroy i =>
    have hi : i < s.ps.length := ha
    have ho := h.pos (List.getElem_mem hi)
    simp only [Small.step, List.getElem?_eq_getElem hi, St.dec, if_neg ho]
    refine ⟨_, rfl, ?_⟩
    have hc : ∀ x : Nat, (s.ps.eraseIdx i).count x + (if x = s.ps[i] then 1 else 0) = s.ps.count x := by
      intro x
      have e1 : (s.ps[i] == x) = true ↔ x = s.ps[i] := by rw [beq_iff_eq]; exact eq_comm
      have h1 : s.ps.count x = (s.ps.take i ++ s.ps.drop i).count x := by rw [List.take_append_drop]
      rw [List.drop_eq_getElem_cons hi, List.count_append, List.count_cons] at h1
      rw [List.eraseIdx_eq_take_drop_succ, List.count_append, h1]
      simp only [e1]
      omega
    refine ⟨fun x => ?_, h.le, fun x hx => ?_⟩
    · have h1 := h.bal x
      have h2 := hc x
      simp only [St.instances, St.wraps, St.unwraps] at *
      by_cases hx : x = s.ps[i]
      · have : s.rc x ≠ 0 := hx ▸ ho
        rw [if_pos hx] at h2 ⊢; omega
      · rw [if_neg hx] at h2 ⊢; omega
    · obtain ⟨f1, f2, f3, f4⟩ := h.fresh x hx
      have n1 : x ≠ s.ps[i] := by intro e; exact ho (e ▸ f1)
      have h2 := hc x
      rw [if_neg n1] at h2
      refine ⟨?_, f2, ?_, f4⟩
      · show (if x = s.ps[i] then _ else _) = 0
        rw [if_neg n1, f1]
      · simp only [St.instances] at *; omega
  | wDefault => exact ⟨_, rfl, h.slots _⟩
  | wWrap i =>
    have hi : i < s.ps.length := ha
    simp only [Small.step, List.getElem?_eq_getElem hi]
    exact h.wrap (h.pos (List.getElem_mem hi))
  | wCopy k =>
    have hk : k < s.slots.length := ha
    simp only [Small.step, List.getElem?_eq_getElem hk]
    exact ⟨_, rfl, h.slots _⟩
  | wAssign k l =>
    have hl : l < s.slots.length := ha
    simp only [Small.step, List.getElem?_eq_getElem hl]
    exact ⟨_, rfl, h.slots _⟩
  | wDestroy k => exact ⟨_, rfl, h.slots _⟩
  | unwrap k =>
    obtain ⟨o, h1, h2⟩ := ha
    simp only [Small.step, h1]
    exact h.unwrap h2
  | get k =>
    obtain ⟨o, h1, h2⟩ := ha
    simp only [Small.step, h1]
    refine h.get ?_
    rcases h2 with h2 | h2
    · have := h.bal o; omega
    · exact h.pos h2

theorem Inv.run {ops : List Op} : ∀ {s : St}, Inv s → Proper s ops → ∃ s' : St, run s ops = some s' ∧ Inv s' := by
  induction ops with
  | nil => intro s h _; exact ⟨s, rfl, h⟩
  | cons op ops ih =>
    intro s h hp
    obtain ⟨s1, h1, h2⟩ := h.step op hp.1
    obtain ⟨s2, h3, h4⟩ := ih h2 (hp.2 s1 h1)
    exact ⟨s2, by simp only [Small.run, h1]; exact h3, h4⟩

theorem total_reset (t : Int) (e : List (TOp × Int)) (now : Int) :
    total ((.reset, t) :: e) now = 0 + (if isRunning e then now - t else 0) := rfl

theorem total_add (x t : Int) (e : List (TOp × Int)) (now : Int) :
    total ((.add x, t) :: e) now = total e t + x + (if isRunning e then now - t else 0) := rfl

theorem timer_spec : ∀ h : List (TOp × Int), Alternating h →
    (Timer.after h).running = isRunning h ∧ ∀ now : Int, (Timer.after h).seconds now = total h now
  | [], _ => ⟨rfl, fun _ => rfl⟩
  | (op, t) :: e, ha => by
    have key : Alternating e := by
      cases op with
      | start => exact ha.2
      | stop => exact ha.2
      | reset => exact ha
      | add x => exact ha
    obtain ⟨h1, h2⟩ := timer_spec e key
    have ht := h2 t
    cases op with
    | start =>
      have h3 : isRunning e = false := ha.1
      refine ⟨rfl, fun now => ?_⟩
      simp only [Timer.seconds, h1, h3, Bool.false_eq_true, if_false] at ht
      simp only [Timer.after, Timer.step, Timer.start, Timer.seconds, total, isRunning, if_true, ← ht]
      omega
    | stop =>
      have h3 : isRunning e = true := ha.1
      refine ⟨rfl, fun now => ?_⟩
      simp only [Timer.seconds, h1, h3, if_true] at ht
      simp only [Timer.after, Timer.step, Timer.stop, Timer.seconds, total, isRunning, Bool.false_eq_true, if_false, ← ht]
      omega
    | reset =>
      refine ⟨h1, fun now => ?_⟩
      simp only [Timer.after, Timer.step, Timer.reset, Timer.seconds, total_reset, h1]
      split <;> omega
    | add x =>
      refine ⟨h1, fun now => ?_⟩
      have hn := h2 now
      simp only [Timer.seconds, h1] at ht
      simp only [Timer.after, Timer.step, Timer.add, Timer.seconds, total_add, h1, Bool.false_eq_true, if_false, ← ht]
      by_cases hr : isRunning e = true
      · simp only [if_pos hr]; omega
      · simp only [if_neg hr]; omega

/-- A simple vector holds the sequence `l`. -/
def Holds (v : SVec α) (l : List α) : Prop := v.size = l.length ∧ (v.arr = some l ∨ (v.arr = none ∧ l = []))

theorem svec_step (zero : α) {v : SVec α} {l : List α} (h : Holds v l) (op : VOp α)
    (hr : ∀ (i : Nat) (x : α), op = .set i x → i < l.length) : ∃ v' : SVec α, v.step zero op = some v' ∧ Holds v' (specStep zero l op) := by
  obtain ⟨sz, arr⟩ := v
  obtain ⟨h1, h2⟩ := h
  simp only at h1 h2
  subst h1
  cases op with
  | set i x =>
    have hi := hr i x rfl
    rcases h2 with h2 | ⟨h2, h3⟩
    · subst h2
      exact ⟨⟨l.length, some (l.set i x)⟩, by simp only [SVec.step, SVec.set, if_pos hi], by simp [specStep], Or.inl rfl⟩
    · subst h3; simp at hi
  | resize n junk =>
    rcases h2 with h2 | ⟨h2, h3⟩
    · subst h2
      have hc : min l.length n ≤ l.length ∧ min l.length n ≤ ((List.range n).map junk).length := by simp; omega
      refine ⟨⟨n, some (l.take (min l.length n) ++ ((List.range n).map junk).drop (min l.length n))⟩,
        by simp only [SVec.step, SVec.resize, copyElems, if_pos hc], by simp [specStep], Or.inl ?_⟩
      refine congrArg some ?_
      apply List.ext_getElem?
      intro i
      simp only [specStep]
      rw [List.getElem?_append, List.length_take, Nat.min_eq_left hc.1]
      by_cases hi : i < min l.length n
      · rw [if_pos hi, List.getElem?_take_of_lt hi, List.getElem?_map, List.getElem?_range (by omega), List.getElem?_eq_getElem (by omega)]
        simp [List.getElem?_eq_getElem (show i < l.length by omega)]
      · rw [if_neg hi, List.getElem?_drop]
        have e : min l.length n + (i - min l.length n) = i := by omega
        rw [e]
        by_cases hn : i < n
        · rw [List.getElem?_map, List.getElem?_map, List.getElem?_range hn]
          simp [List.getElem?_eq_none (show l.length ≤ i by omega)]
        · rw [List.getElem?_eq_none (by simp; omega), List.getElem?_eq_none (by simp; omega)]
    · subst h2 h3
      exact ⟨_, rfl, by simp [specStep], Or.inl (by simp [specStep])⟩
  | memzero =>
    rcases h2 with h2 | ⟨h2, h3⟩
    · subst h2
      refine ⟨⟨l.length, some (List.replicate l.length zero ++ l.drop l.length)⟩, by simp [SVec.step, SVec.memzero], by simp [specStep], Or.inl ?_⟩
      simp only [specStep, List.drop_length, List.append_nil, List.map_const']
    · subst h2 h3
      exact ⟨_, rfl, rfl, Or.inr ⟨rfl, rfl⟩⟩

theorem svec_run (zero : α) : ∀ (ops : List (VOp α)) {v : SVec α} {l : List α}, Holds v l → InRange zero l ops →
    ∃ v' : SVec α, v.run zero ops = some v' ∧ Holds v' (specRun zero l ops)
  | [], v, l, h, _ => ⟨v, rfl, h⟩
  | op :: ops, v, l, h, hr => by
    obtain ⟨v1, h1, h2⟩ := svec_step zero h op hr.1
    obtain ⟨v2, h3, h4⟩ := svec_run zero ops h2 hr.2
    exact ⟨v2, by simp only [SVec.run, h1]; exact h3, h4⟩

/-! ## Theorems -/

/-- However wrappers are made, copied, written to disk, read back and dropped: as long as every object is unwrapped at most as often as it was
wrapped, nothing undefined happens, the reference count is the number of living instances plus the number of wraps not undone, and so an object
is destroyed exactly when it has no instance and every wrap is undone. -/
theorem C93_external_shared_ptr (ops : List Op) (h : Proper .init ops) :
    ∃ s : St, run .init ops = some s ∧
      (∀ o : Nat, o < s.next → s.unwraps o ≤ s.wraps o ∧ s.rc o = s.instances o + (s.wraps o - s.unwraps o)) ∧
      (∀ o : Nat, o < s.next → (s.rc o = 0 ↔ o ∉ s.ps ∧ s.unwraps o = s.wraps o)) ∧ ∀ o ∈ s.ps, o < s.next := by
  obtain ⟨s, h1, h2⟩ := Inv.init.run h
  refine ⟨s, h1, fun o _ => ⟨h2.le o, ?_⟩, fun o _ => ?_, fun o ho => ?_⟩
  · have := h2.bal o
    have := h2.le o
    omega
  · have h3 := h2.bal o
    have h4 := h2.le o
    have h5 : s.instances o = 0 ↔ o ∉ s.ps := List.count_eq_zero
    rw [← h5]; omega
  · have := h2.fresh o
    have h6 := h2.pos ho
    apply Classical.byContradiction
    intro hn
    exact h6 (this (by omega)).1

/-- Making, copying, overwriting and dropping wrappers changes no reference count and no instance; `get` gives an instance that points to the
wrapped object; two wrappers are equal exactly if they hold pointers to the same object. -/
theorem C93_wrappers_are_plain_data (s s' : St) :
    (∀ k : Nat, step s (.wCopy k) = some s' → s'.rc = s.rc ∧ s'.ps = s.ps ∧ ∃ b : Option Nat, s.slots[k]? = some b ∧ s'.slots = s.slots ++ [b]) ∧
    (∀ k l : Nat, step s (.wAssign k l) = some s' → s'.rc = s.rc ∧ s'.ps = s.ps ∧ ∃ b : Option Nat, s.slots[l]? = some b ∧ s'.slots = s.slots.set k b) ∧
    (∀ k : Nat, step s (.wDestroy k) = some s' → s'.rc = s.rc ∧ s'.ps = s.ps ∧ s'.slots = s.slots.eraseIdx k) ∧
    (∀ i : Nat, step s (.wWrap i) = some s' → s'.ps = s.ps ∧ ∃ o : Nat, s.ps[i]? = some o ∧ s'.slots = s.slots ++ [some o]) ∧
    (∀ k : Nat, step s (.get k) = some s' → ∃ o : Nat, s.slots[k]? = some (some o) ∧ s'.ps = s.ps ++ [o] ∧ s'.slots = s.slots) ∧
    (∀ k : Nat, step s (.unwrap k) = some s' → s'.ps = s.ps ∧ s'.slots = s.slots) ∧
    (∀ (a b : Option Nat) (r : Bool), eqW a b = some r → (r = true ↔ a = b)) := by
  refine ⟨fun k h => ?_, fun k l h => ?_, fun k h => ?_, fun i h => ?_, fun k h => ?_, fun k h => ?_, fun a b r h => ?_⟩
  · simp only [step] at h
    split at h
    · rename_i b hb
      injection h with h; subst h
      exact ⟨rfl, rfl, b, hb, rfl⟩
    · simp at h
  · simp only [step] at h
    split at h
    · rename_i b hb
      injection h with h; subst h
      exact ⟨rfl, rfl, b, hb, rfl⟩
    · simp at h
  · simp only [step] at h
    injection h with h; subst h
    exact ⟨rfl, rfl, rfl⟩
  · simp only [step] at h
    split at h
    · rename_i o ho
      by_cases h0 : s.rc o = 0
      · simp [St.wrap, St.inc, h0] at h
      · simp [St.wrap, St.inc, St.dec, h0] at h
        subst h
        exact ⟨rfl, o, ho, rfl⟩
    · simp at h
  · simp only [step] at h
    split at h
    · rename_i o ho
      by_cases h0 : s.rc o = 0
      · simp [St.get, St.inc, h0] at h
      · simp [St.get, St.inc, h0] at h
        subst h
        exact ⟨o, ho, rfl, rfl⟩
    · simp at h
  · simp only [step] at h
    split at h
    · rename_i o ho
      by_cases h0 : s.rc o = 0
      · simp [St.unwrap, St.dec, h0] at h
      · simp [St.unwrap, St.dec, h0] at h
        subst h
        exact ⟨rfl, rfl⟩
    · simp at h
  · cases a with
    | none => simp [eqW] at h
    | some o =>
      cases b with
      | none => simp [eqW] at h
      | some q => simp [eqW] at h; subst h; simp

/-- Refuted without the condition: unwrapping two copies of one wrapper destroys the object while an instance points to it. -/
theorem C93_copies_unwrapped_twice :
    ∃ s : St, run .init [.make, .wWrap 0, .wCopy 0, .unwrap 0, .unwrap 1] = some s ∧ s.rc 0 = 0 ∧ 0 ∈ s.ps := by
  have h : (run .init [.make, .wWrap 0, .wCopy 0, .unwrap 0, .unwrap 1]).map (fun s => (s.rc 0, s.ps)) = some (0, [0]) := by decide +kernel
  obtain ⟨s, hs, he⟩ := Option.map_eq_some_iff.1 h
  refine ⟨s, hs, ?_, ?_⟩
  · exact (Prod.ext_iff.1 he).1
  · have := (Prod.ext_iff.1 he).2
    simp only at this
    rw [this]; simp

/-- A simple vector of plain data is the sequence that was written: no access is outside, `resize` keeps the elements that fit. -/
theorem C94_simple_vector (zero : α) (junk : Nat → α) (sz : Nat) (ops : List (VOp α)) (h : InRange zero ((List.range sz).map junk) ops) :
    ∃ v : SVec α, (SVec.make junk sz).run zero ops = some v ∧
      v.size = (specRun zero ((List.range sz).map junk) ops).length ∧ ∀ i : Nat, v.get i = (specRun zero ((List.range sz).map junk) ops)[i]? := by
  have h0 : Holds (SVec.make junk sz) ((List.range sz).map junk) := by
    refine ⟨by simp [SVec.make], ?_⟩
    by_cases hz : sz > 0
    · exact Or.inl (if_pos hz)
    · have : sz = 0 := by omega
      subst this
      exact Or.inr ⟨rfl, rfl⟩
  obtain ⟨v, h1, h2, h3⟩ := svec_run zero ops h0 h
  refine ⟨v, h1, h2, fun i => ?_⟩
  rcases h3 with h3 | ⟨h3, h4⟩
  · simp only [SVec.get, h3]
  · simp only [SVec.get, h3, h4]
    simp

/-- `swap` exchanges sizes and elements. -/
theorem C94_simple_vector_swap (v w : SVec α) :
    (v.swap w).1.size = w.size ∧ (v.swap w).2.size = v.size ∧ ∀ i : Nat, (v.swap w).1.get i = w.get i ∧ (v.swap w).2.get i = v.get i :=
  ⟨rfl, rfl, fun _ => ⟨rfl, rfl⟩⟩

/-- Refuted for elements that own something: after `resize` of a non-empty vector to a positive size, its destructor releases the resource of the
first element a second time. -/
theorem C94_resize_releases_twice (x : Nat) (rest released : List Nat) (next n : Nat) (hn : 0 < n) :
    ∃ (a rel : List Nat), resizeOwners (rest.length + 1) (x :: rest) next n released = some (a, rel) ∧ 2 ≤ (deleteOwners a rel).count x := by
  have hc : min (rest.length + 1) n ≤ (x :: rest).length ∧ min (rest.length + 1) n ≤ ((List.range n).map (next + ·)).length := by
    simp; omega
  refine ⟨(x :: rest).take (min (rest.length + 1) n) ++ ((List.range n).map (next + ·)).drop (min (rest.length + 1) n), released ++ x :: rest,
    by simp only [resizeOwners, copyElems, if_pos hc], ?_⟩
  obtain ⟨k, hk⟩ : ∃ k : Nat, min (rest.length + 1) n = k + 1 := ⟨min (rest.length + 1) n - 1, by omega⟩
  simp only [deleteOwners, hk, List.take_succ_cons, List.count_append, List.count_cons_self]
  omega

/-- The stop watch shows the time during which it was running since the last reset, plus what was added, if it is started only while it stands and
stopped only while it runs; resets may happen at any time. Milliseconds and microseconds are multiples of seconds. -/
theorem C95_timer (h : List (TOp × Int)) (ha : Alternating h) (now : Int) :
    (Timer.after h).seconds now = total h now ∧ ∀ f : Int, (Timer.after h).scaled f now = total h now * f := by
  have h1 := (timer_spec h ha).2 now
  refine ⟨h1, fun f => ?_⟩
  rw [← h1]
  simp only [Timer.scaled, Timer.seconds]
  split <;> rfl

/-- Refuted without the condition: starting a running watch loses the time since the first start; stopping it twice counts the pause; stopping a
watch that was never started counts from the epoch. -/
theorem C95_timer_misuse (a b c : Int) :
    (Timer.after [(.start, b), (.start, a)]).seconds c = c - b ∧
    (Timer.after [(.stop, c), (.stop, b), (.start, a)]).seconds c = (b - a) + (c - a) ∧
    (Timer.after [(.stop, c)]).seconds c = c := by
  refine ⟨?_, ?_, ?_⟩ <;> simp [Timer.after, Timer.step, Timer.start, Timer.stop, Timer.seconds, Timer.init]

/-! ## Non-vacuity -/

example : Alternating [(.stop, 30), (.start, 20), (.add 7, 12), (.stop, 10), (.start, 0)] ∧
    (Timer.after [(.stop, 30), (.start, 20), (.add 7, 12), (.stop, 10), (.start, 0)]).seconds 100 = 27 := by
  refine ⟨?_, by decide⟩
  simp [Alternating, isRunning]

example : Proper .init [.make, .wWrap 0, .wCopy 0, .destroy 0, .wDestroy 0, .get 0, .unwrap 0] ∧
    (run .init [.make, .wWrap 0, .wCopy 0, .destroy 0, .wDestroy 0]).map (fun s => (s.rc 0, s.ps)) = some (1, []) := by
  refine ⟨?_, by decide +kernel⟩
  simp [Proper, Allowed, step, St.init, St.wrap, St.get, St.inc, St.dec, St.unwraps, St.wraps]

example : InRange 0 ((List.range 2).map fun _ => 9) [.set 1 5, .resize 3 (fun _ => 8), .set 2 4, .resize 1 (fun _ => 7)] ∧
    specRun 0 ((List.range 2).map fun _ => 9) [.set 1 5, .resize 3 (fun _ => 8)] = [9, 5, 8] := by
  refine ⟨?_, by decide⟩
  simp [InRange, specStep]

end Stxxl.Small
