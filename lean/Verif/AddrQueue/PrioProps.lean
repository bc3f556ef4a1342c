import Verif.AddrQueue.Props
import Mathlib.Data.List.Perm.Basic

/-! # C37: the addressable priority queue -/

namespace Stxxl.AddrQueue

variable {K P : Type} [DecidableEq K] {ltP : P → P → Bool} {ltK : K → K → Bool}

/-- Operations on the priority queue. -/
inductive POp (K P : Type)
  | insert (e : K) (o : P) | erase (e : K) | eraseHandle (e : K) | pop

/-- The abstract queue: the latest priority of every key in it. -/
abbrev Cur (K P : Type) := K → Option P

/-- `k` is a key with minimal priority in the queue, and the smallest such key. -/
def IsTop (ltP : P → P → Bool) (ltK : K → K → Bool) (c : Cur K P) (k : K) : Prop :=
  ∃ p, c k = some p ∧ ∀ k' p', c k' = some p' → ltP p' p = false ∧ (ltP p p' = false → ltK k' k = false)

def Cur.set (c : Cur K P) (k : K) (v : Option P) : Cur K P := fun x => if x = k then v else c x

/-- One step of the abstract queue. -/
inductive PAbs (ltP : P → P → Bool) (ltK : K → K → Bool) : Cur K P → POp K P → FOut K → Cur K P → Prop
  | insert (c : Cur K P) (e : K) (o : P) : PAbs ltP ltK c (.insert e o) (.flag (c e).isNone) (c.set e (some o))
  | erase (c : Cur K P) (e : K) : PAbs ltP ltK c (.erase e) (.flag (c e).isSome) (c.set e none)
  | eraseHandle (c : Cur K P) (e : K) (h : (c e).isSome) : PAbs ltP ltK c (.eraseHandle e) .unit (c.set e none)
  | pop (c : Cur K P) (e : K) (h : IsTop ltP ltK c e) : PAbs ltP ltK c .pop (.key e) (c.set e none)

/-- The precondition of an operation. -/
def PLegal (c : Cur K P) : POp K P → Prop
  | .insert _ _ => True
  | .erase _ => True
  | .eraseHandle e => (c e).isSome
  | .pop => ∃ k, (c k).isSome

/-- The model. -/
def pStep (ltP : P → P → Bool) (ltK : K → K → Bool) (q : Prio K P) : POp K P → Option (FOut K × Prio K P)
  | .insert e o => (q.insert ltP ltK e o).map fun r => (.flag r.1, r.2)
  | .erase e => (q.erase e).map fun r => (.flag r.1, r.2)
  | .eraseHandle e => (q.eraseHandle e).map fun r => (.unit, r)
  | .pop => q.pop.map fun r => (.key r.1, r.2)

/-- A strict total order on keys. -/
structure Total (ltK : K → K → Bool) : Prop where
  swo : SWO ltK
  tri : ∀ a b, ltK a b = false → ltK b a = false → a = b

/-- Consistency of the two indices, and with the abstract queue. -/
structure PInv (ltP : P → P → Bool) (ltK : K → K → Bool) (q : Prio K P) (c : Cur K P) : Prop where
  ids : (q.vals.map (·.1)).Nodup
  fresh : ∀ n ∈ q.vals, n.1 < q.next
  link : ∀ e i, q.mt e = some i ↔ ∃ p, (i, p, e) ∈ q.vals
  sorted : q.vals.Pairwise fun a b => cmp ltP ltK a.2 b.2 = true
  cur : ∀ e, (q.mt e).isSome = (c e).isSome
  prio : ∀ i p e, (i, p, e) ∈ q.vals → ∃ o, c e = some o ∧ ltP p o = false ∧ ltP o p = false

theorem cmp_trans (hP : SWO ltP) (hK : Total ltK) {a b c : P × K} (h1 : cmp ltP ltK a b = true) (h2 : cmp ltP ltK b c = true) :
    cmp ltP ltK a c = true := by
  unfold cmp at *
  simp only [Bool.or_eq_true, Bool.and_eq_true, Bool.not_eq_eq_eq_not, Bool.not_true] at *
  rcases h1 with h1 | ⟨h1, h1'⟩
  · rcases h2 with h2 | ⟨h2, _⟩
    · exact Or.inl (hP.trans h1 h2)
    · exact Or.inl (hP.lt_of_lt_of_le h1 h2)
  · rcases h2 with h2 | ⟨h2, h2'⟩
    · exact Or.inl (hP.lt_of_le_of_lt h1 h2)
    · exact Or.inr ⟨hP.negtrans _ _ _ h2 h1, hK.swo.trans h1' h2'⟩

theorem cmp_equiv (hK : Total ltK) {a b : P × K} (h1 : cmp ltP ltK a b = false) (h2 : cmp ltP ltK b a = false) :
    ltP a.1 b.1 = false ∧ ltP b.1 a.1 = false ∧ a.2 = b.2 := by
  unfold cmp at *
  simp only [Bool.or_eq_false_iff, Bool.and_eq_false_imp, Bool.not_eq_eq_eq_not, Bool.not_true] at *
  exact ⟨h1.1, h2.1, hK.tri _ _ (h1.2 h2.1) (h2.2 h1.1)⟩

/-- `std::set::insert`. -/
theorem setInsert_spec (hP : SWO ltP) (hK : Total ltK) (n : Nat) (x : P × K) : ∀ (l : List (Nat × P × K)),
    l.Pairwise (fun a b => cmp ltP ltK a.2 b.2 = true) →
    ((setInsert ltP ltK n x l).1 = n ∧ (setInsert ltP ltK n x l).2.1 = true ∧
      (setInsert ltP ltK n x l).2.2.Perm ((n, x) :: l) ∧
      (setInsert ltP ltK n x l).2.2.Pairwise (fun a b => cmp ltP ltK a.2 b.2 = true)) ∨
    (∃ p, (setInsert ltP ltK n x l).2.1 = false ∧ (setInsert ltP ltK n x l).2.2 = l ∧ ((setInsert ltP ltK n x l).1, p, x.2) ∈ l ∧
      ltP p x.1 = false ∧ ltP x.1 p = false) := by
  intro l
  induction l with
  | nil => intro _; left; simp [setInsert]
  | cons y l ih =>
    intro hl
    rw [List.pairwise_cons] at hl
    unfold setInsert
    by_cases h1 : cmp ltP ltK y.2 x = true
    · rw [if_pos h1]
      dsimp only
      rcases ih hl.2 with ⟨a1, a2, a3, a4⟩ | ⟨p, a1, a2, a3, a4⟩
      · left
        refine ⟨a1, a2, (a3.cons y).trans (List.Perm.swap _ _ _), ?_⟩
        rw [List.pairwise_cons]
        refine ⟨?_, a4⟩
        intro z hz
        rcases List.mem_cons.1 (a3.mem_iff.1 hz) with rfl | hz
        · exact h1
        · exact hl.1 z hz
      · right
        exact ⟨p, a1, by rw [a2], List.mem_cons_of_mem _ a3, a4⟩
    · rw [if_neg h1]
      by_cases h2 : cmp ltP ltK x y.2 = true
      · rw [if_pos h2]
        left
        refine ⟨rfl, rfl, List.Perm.refl _, ?_⟩
        rw [List.pairwise_cons]
        refine ⟨?_, List.pairwise_cons.2 hl⟩
        intro z hz
        rcases List.mem_cons.1 hz with rfl | hz
        · exact h2
        · exact cmp_trans hP hK h2 (hl.1 z hz)
      · rw [if_neg h2]
        right
        obtain ⟨b1, b2, b3⟩ := cmp_equiv hK (by simpa using h1) (by simpa using h2)
        refine ⟨y.2.1, rfl, rfl, ?_, b1, b2⟩
        rw [← b3]; simp

theorem PInv.keys {q : Prio K P} {c : Cur K P} (h : PInv ltP ltK q c) {n m : Nat × P × K} (hn : n ∈ q.vals) (hm : m ∈ q.vals)
    (he : n.2.2 = m.2.2) : n = m := by
  have a := (h.link n.2.2 n.1).2 ⟨n.2.1, hn⟩
  have b := (h.link m.2.2 m.1).2 ⟨m.2.1, hm⟩
  rw [he, b] at a
  exact List.inj_on_of_nodup_map h.ids hn hm (Option.some.inj a).symm

theorem filter_pnode {q : Prio K P} {c : Cur K P} (h : PInv ltP ltK q c) {i : Nat} {p : P} {e : K} (hi : (i, p, e) ∈ q.vals) :
    (q.vals.filter fun n => n.1 ≠ i) = q.vals.filter fun n => n.2.2 ≠ e := by
  apply List.filter_congr
  rintro ⟨j, r, f⟩ hm
  simp only [ne_eq, decide_not]
  congr 1
  by_cases hj : j = i
  · subst hj
    have := List.inj_on_of_nodup_map h.ids hm hi rfl
    simp only [Prod.mk.injEq] at this
    simp [this.2.2]
  · have : f ≠ e := by
      rintro rfl
      have := h.keys hm hi rfl
      simp only [Prod.mk.injEq] at this
      exact hj this.1
    simp [hj, this]

theorem PInv.removed {q : Prio K P} {c : Cur K P} (h : PInv ltP ltK q c) (e : K) (nx : Nat) (hn : q.next ≤ nx) :
    PInv ltP ltK { vals := q.vals.filter fun n => n.2.2 ≠ e, mt := Meta.set q.mt e none, next := nx } (c.set e none) where
  ids := (List.filter_sublist.map _).nodup h.ids
  fresh := by
    intro n hn'
    have := h.fresh n (List.mem_of_mem_filter hn')
    show n.1 < nx
    omega
  link := by
    intro f i
    show Meta.set q.mt e none f = some i ↔ _
    unfold Meta.set
    by_cases hf : f = e
    · subst hf; simp
    · rw [if_neg hf, h.link]; simp [hf]
  sorted := h.sorted.filter _
  cur := by
    intro f
    show (Meta.set q.mt e none f).isSome = (Cur.set c e none f).isSome
    unfold Meta.set Cur.set
    by_cases hf : f = e
    · simp [hf]
    · simp [hf, h.cur]
  prio := by
    intro i p f hm
    have hm' := List.mem_filter.1 hm
    have hf : f ≠ e := by simpa using hm'.2
    obtain ⟨o, h1, h2⟩ := h.prio i p f hm'.1
    exact ⟨o, by simp [Cur.set, hf, h1], h2⟩

/-- Adding a new node for key `e`, after removing a possible old one. -/
theorem PInv.added (hP : SWO ltP) {q : Prio K P} {c : Cur K P} (h : PInv ltP ltK q c) {e : K} {o : P} (he : q.mt e = none)
    {vals : List (Nat × P × K)} {n : Nat} (hn : q.next ≤ n) (hp : vals.Perm ((n, o, e) :: q.vals))
    (hs : vals.Pairwise fun a b => cmp ltP ltK a.2 b.2 = true) :
    PInv ltP ltK { vals := vals, mt := Meta.set q.mt e (some n), next := n + 1 } (c.set e (some o)) where
  ids := by
    show (vals.map (·.1)).Nodup
    refine (hp.map (·.1)).nodup_iff.2 ?_
    rw [List.map_cons, List.nodup_cons]
    refine ⟨?_, h.ids⟩
    intro hm
    obtain ⟨x, hx, hx'⟩ := List.mem_map.1 hm
    have := h.fresh x hx
    dsimp only at hx'
    omega
  fresh := by
    intro x hx
    show x.1 < n + 1
    rcases List.mem_cons.1 (hp.mem_iff.1 hx) with rfl | hx
    · show n < n + 1; omega
    · have := h.fresh x hx; omega
  link := by
    intro f i
    show Meta.set q.mt e (some n) f = some i ↔ ∃ p, (i, p, f) ∈ vals
    have hno : ∀ j p, (j, p, e) ∉ q.vals := by
      intro j p hj; rw [(h.link e j).2 ⟨p, hj⟩] at he; cases he
    simp only [hp.mem_iff, List.mem_cons, Prod.mk.injEq]
    unfold Meta.set
    by_cases hf : f = e
    · subst hf
      simp only [if_true, Option.some.injEq, hno, or_false, and_true]
      constructor
      · rintro rfl; exact ⟨o, rfl, rfl⟩
      · rintro ⟨p, rfl, _⟩; rfl
    · rw [if_neg hf, h.link]; simp [hf]
  sorted := hs
  cur := by
    intro f
    show (Meta.set q.mt e (some n) f).isSome = (Cur.set c e (some o) f).isSome
    unfold Meta.set Cur.set
    by_cases hf : f = e
    · simp [hf]
    · simp [hf, h.cur]
  prio := by
    intro i p f hm
    rcases List.mem_cons.1 (hp.mem_iff.1 hm) with hm | hm2
    · simp only [Prod.mk.injEq] at hm
      obtain ⟨rfl, rfl, rfl⟩ := hm
      exact ⟨p, by simp [Cur.set], hP.irrefl _, hP.irrefl _⟩
    · have hf : f ≠ e := by
        rintro rfl
        rw [(h.link f i).2 ⟨p, hm2⟩] at he; cases he
      obtain ⟨o', h1, h2⟩ := h.prio i p f hm2
      exact ⟨o', by simp [Cur.set, hf, h1], h2⟩

theorem cur_set_set (c : Cur K P) (e : K) (a b : Option P) : (c.set e a).set e b = c.set e b := by
  funext x; unfold Cur.set; split_ifs <;> rfl

/-- The first node of the set is a minimal one. -/
theorem head_top (hP : SWO ltP) (hK : Total ltK) {q : Prio K P} {c : Cur K P} (h : PInv ltP ltK q c) {n : Nat × P × K}
    {l : List (Nat × P × K)} (hv : q.vals = n :: l) : IsTop ltP ltK c n.2.2 := by
  obtain ⟨o, h1, h2, h3⟩ := h.prio n.1 n.2.1 n.2.2 (by rw [hv]; simp)
  refine ⟨o, h1, ?_⟩
  intro k' p' hk'
  have hs : (q.mt k').isSome := by rw [h.cur, hk']; rfl
  obtain ⟨i, hi⟩ := Option.isSome_iff_exists.1 hs
  obtain ⟨r, hr⟩ := (h.link k' i).1 hi
  obtain ⟨o', g1, g2, g3⟩ := h.prio i r k' hr
  rw [hk'] at g1
  obtain rfl := Option.some.inj g1
  rw [hv] at hr
  rcases List.mem_cons.1 hr with hr | hr
  · subst hr
    rw [hk'] at h1
    obtain rfl := Option.some.inj h1
    exact ⟨hP.irrefl _, fun _ => hK.swo.irrefl _⟩
  · have hso := h.sorted
    rw [hv, List.pairwise_cons] at hso
    have hc := hso.1 _ hr
    unfold cmp at hc
    simp only [Bool.or_eq_true, Bool.and_eq_true, Bool.not_eq_eq_eq_not, Bool.not_true] at hc
    rcases hc with hc | ⟨hc, hc'⟩
    · have : ltP o p' = true := hP.lt_of_lt_of_le (hP.lt_of_le_of_lt h2 hc) g3
      exact ⟨hP.asymm _ _ this, fun hx => by rw [hx] at this; cases this⟩
    · exact ⟨hP.negtrans _ _ _ g3 (hP.negtrans _ _ _ hc h2), fun _ => hK.swo.asymm _ _ hc'⟩

/-- One step of the priority queue. -/
theorem pStep_refines (hP : SWO ltP) (hK : Total ltK) {q : Prio K P} {c : Cur K P} (h : PInv ltP ltK q c) (o : POp K P)
    (hl : PLegal c o) :
    ∃ r q' c', pStep ltP ltK q o = some (r, q') ∧ PAbs ltP ltK c o r c' ∧ PInv ltP ltK q' c' := by
  cases o with
  | insert e o =>
    have hflag := h.cur e
    rcases setInsert_spec hP hK q.next (o, e) q.vals h.sorted with ⟨a1, a2, a3, a4⟩ | ⟨p, a1, a2, a3, a4⟩
    · cases hx : q.mt e with
      | none =>
        refine ⟨_, _, _, ?_, PAbs.insert c e o, h.added hP hx (Nat.le_refl _) a3 a4⟩
        have : c e = none := by rw [hx] at hflag; simpa using hflag.symm
        simp [pStep, Prio.insert, hx, a1, this]
      | some i =>
        obtain ⟨p, hp⟩ := (h.link e i).1 hx
        have hr := h.removed e q.next (Nat.le_refl _)
        have hids : (((setInsert ltP ltK q.next (o, e) q.vals).2.2).map (·.1)).Nodup := by
          refine (a3.map (·.1)).nodup_iff.2 ?_
          rw [List.map_cons, List.nodup_cons]
          refine ⟨?_, h.ids⟩
          intro hm
          obtain ⟨x, hx, hx'⟩ := List.mem_map.1 hm
          have := h.fresh x hx
          dsimp only at hx'
          omega
        have her := eraseNode_spec _ i (p, e) hids (a3.mem_iff.2 (List.mem_cons_of_mem _ hp))
        have hlt := h.fresh _ hp
        dsimp only at hlt
        have hperm : ((setInsert ltP ltK q.next (o, e) q.vals).2.2.filter fun n => n.1 ≠ i).Perm
            ((q.next, o, e) :: q.vals.filter fun n => n.2.2 ≠ e) := by
          have := a3.filter (fun n => decide (n.1 ≠ i))
          rw [List.filter_cons_of_pos (by simp; omega), filter_pnode h hp] at this
          exact this
        have hadd := hr.added hP (e := e) (o := o) (by simp [Meta.set]) (Nat.le_refl _) hperm (a4.filter _)
        rw [cur_set_set] at hadd
        refine ⟨_, _, _, ?_, PAbs.insert c e o, hadd⟩
        have : (c e).isSome := by rw [← hflag, hx]; rfl
        have hnone : (c e).isNone = false := by cases hc : c e <;> simp_all
        simp only [pStep, Prio.insert, hx, a1, a2, if_true, her, Option.map_some, meta_set_set, hnone]
    · dsimp only at a3 a4
      have hx : q.mt e = some (setInsert ltP ltK q.next (o, e) q.vals).1 := (h.link e _).2 ⟨p, a3⟩
      have hsome : (c e).isSome := by rw [← hflag, hx]; rfl
      have hnone : (c e).isNone = false := by cases hc : c e <;> simp_all
      refine ⟨_, { q with next := q.next + 1 }, _, ?_, PAbs.insert c e o, ?_⟩
      · simp [pStep, Prio.insert, hx, a1, a2, hnone]
      · refine ⟨h.ids, fun n hn => Nat.lt_succ_of_lt (h.fresh n hn), h.link, h.sorted, ?_, ?_⟩
        · intro f
          show (q.mt f).isSome = (Cur.set c e (some o) f).isSome
          unfold Cur.set
          by_cases hf : f = e
          · subst hf; simp [hx]
          · simp [hf, h.cur]
        · intro i r f hm
          by_cases hf : f = e
          · subst hf
            have := h.keys hm a3 rfl
            simp only [Prod.mk.injEq] at this
            obtain ⟨_, rfl, _⟩ := this
            exact ⟨o, by simp [Cur.set], a4⟩
          · obtain ⟨o', h1, h2⟩ := h.prio i r f hm
            exact ⟨o', by simp [Cur.set, hf, h1], h2⟩
  | erase e =>
    cases hx : q.mt e with
    | none =>
      have hce : c e = none := by have := h.cur e; rw [hx] at this; simpa using this.symm
      refine ⟨_, q, _, ?_, PAbs.erase c e, ?_⟩
      · simp [pStep, Prio.erase, hx, hce]
      · have : c.set e none = c := by funext x; unfold Cur.set; split_ifs with hx; exacts [by rw [hx, hce], rfl]
        rw [this]; exact h
    | some i =>
      obtain ⟨p, hp⟩ := (h.link e i).1 hx
      have hce : (c e).isSome := by rw [← h.cur e, hx]; rfl
      have her := eraseNode_spec _ i (p, e) h.ids hp
      rw [filter_pnode h hp] at her
      refine ⟨_, _, _, ?_, PAbs.erase c e, h.removed e q.next (Nat.le_refl _)⟩
      simp only [pStep, Prio.erase, hx, her, Option.map_some, hce]
  | eraseHandle e =>
    have hce : (c e).isSome := hl
    cases hx : q.mt e with
    | none => have := h.cur e; rw [hx, hce] at this; cases this
    | some i =>
      obtain ⟨p, hp⟩ := (h.link e i).1 hx
      have her := eraseNode_spec _ i (p, e) h.ids hp
      rw [filter_pnode h hp] at her
      refine ⟨_, _, _, ?_, PAbs.eraseHandle c e hce, h.removed e q.next (Nat.le_refl _)⟩
      simp only [pStep, Prio.eraseHandle, hx, her, Option.map_some]
  | pop =>
    cases hv : q.vals with
    | nil =>
      obtain ⟨k, hk⟩ := hl
      rw [← h.cur k] at hk
      obtain ⟨i, hi⟩ := Option.isSome_iff_exists.1 hk
      obtain ⟨p, hp⟩ := (h.link k i).1 hi
      rw [hv] at hp; simp at hp
    | cons n l =>
      have hm : (n.1, n.2.1, n.2.2) ∈ q.vals := by rw [hv]; simp
      have hfl : (q.vals.filter fun m => m.2.2 ≠ n.2.2) = l := by
        rw [← filter_pnode h hm, hv, List.filter_cons_of_neg (by simp), List.filter_eq_self]
        intro m hm'
        simp only [ne_eq, decide_not, Bool.not_eq_eq_eq_not, Bool.not_true, decide_eq_false_iff_not]
        intro he
        have := h.ids
        rw [hv] at this
        simp only [List.map_cons, List.nodup_cons] at this
        exact this.1 (he ▸ List.mem_map_of_mem hm')
      have hr := h.removed n.2.2 q.next (Nat.le_refl _)
      rw [hfl] at hr
      refine ⟨_, _, _, ?_, PAbs.pop c n.2.2 (head_top hP hK h hv), hr⟩
      simp only [pStep, Prio.pop, hv, Option.map_some]

/-- Histories: model and abstract queue side by side. -/
inductive PReach (ltP : P → P → Bool) (ltK : K → K → Bool) : Prio K P → Cur K P → Prop
  | init : PReach ltP ltK Prio.empty (fun _ => none)
  | step {q c o r q' c'} (h : PReach ltP ltK q c) (hl : PLegal c o) (hs : pStep ltP ltK q o = some (r, q'))
      (ha : PAbs ltP ltK c o r c') : PReach ltP ltK q' c'

theorem isTop_unique (hK : Total ltK) {c : Cur K P} {a b : K} (ha : IsTop ltP ltK c a) (hb : IsTop ltP ltK c b) : a = b := by
  obtain ⟨p, hp, h1⟩ := ha
  obtain ⟨r, hr, h2⟩ := hb
  have x := h1 _ _ hr
  have y := h2 _ _ hp
  exact hK.tri _ _ (y.2 x.1) (x.2 y.1)

theorem pAbs_det (hK : Total ltK) {c : Cur K P} {o : POp K P} {r r' : FOut K} {c' c'' : Cur K P} (h1 : PAbs ltP ltK c o r c')
    (h2 : PAbs ltP ltK c o r' c'') : r = r' ∧ c' = c'' := by
  cases h1 <;> cases h2
  · exact ⟨rfl, rfl⟩
  · exact ⟨rfl, rfl⟩
  · exact ⟨rfl, rfl⟩
  · rename_i a ha b hb
    obtain rfl := isTop_unique hK ha hb
    exact ⟨rfl, rfl⟩

theorem preach_inv (hP : SWO ltP) (hK : Total ltK) {q : Prio K P} {c : Cur K P} (h : PReach ltP ltK q c) : PInv ltP ltK q c := by
  induction h with
  | init =>
    exact ⟨by simp [Prio.empty], by simp [Prio.empty], by intro e i; simp [Prio.empty], by simp [Prio.empty], by simp [Prio.empty],
      by simp [Prio.empty]⟩
  | step h hl hs ha ih =>
    obtain ⟨r', q'', c'', g1, g2, g3⟩ := pStep_refines hP hK ih _ hl
    rw [hs] at g1
    simp only [Option.some.injEq, Prod.mk.injEq] at g1
    obtain ⟨rfl, rfl⟩ := g1
    obtain ⟨_, rfl⟩ := pAbs_det hK ha g2
    exact g3

/-- **C37, priority queue.** After any history in which the caller keeps to the preconditions, no operation goes wrong, and every
operation returns what the abstract queue allows: `insert` and `erase` report membership, `pop` returns a key of minimal current
priority (the smallest such key) and removes exactly it; the abstract queue is determined by the history. -/
theorem C37_priority (hP : SWO ltP) (hK : Total ltK) {q : Prio K P} {c : Cur K P} (h : PReach ltP ltK q c) (o : POp K P)
    (hl : PLegal c o) : ∃ r q' c', pStep ltP ltK q o = some (r, q') ∧ PAbs ltP ltK c o r c' ∧ PReach ltP ltK q' c' := by
  obtain ⟨r, q', c', h1, h2, _⟩ := pStep_refines hP hK (preach_inv hP hK h) o hl
  exact ⟨r, q', c', h1, h2, .step h hl h1 h2⟩

/-- **C37, priority queue.** `top` returns a key of minimal current priority, and there is none only if the queue is empty. -/
theorem C37_priority_top (hP : SWO ltP) (hK : Total ltK) {q : Prio K P} {c : Cur K P} (h : PReach ltP ltK q c) :
    (∀ k, q.top = some k → IsTop ltP ltK c k) ∧ (q.top = none ↔ ∀ k, c k = none) := by
  have hi := preach_inv hP hK h
  cases hv : q.vals with
  | nil =>
    refine ⟨by simp [Prio.top, hv], ?_⟩
    simp only [Prio.top, hv, true_iff]
    intro k
    have := hi.cur k
    cases hx : q.mt k with
    | none => rw [hx] at this; simpa using this.symm
    | some i => obtain ⟨p, hp⟩ := (hi.link k i).1 hx; rw [hv] at hp; simp at hp
  | cons n l =>
    have ht := head_top hP hK hi hv
    refine ⟨?_, ?_⟩
    · intro k hk; simp only [Prio.top, hv, Option.some.injEq] at hk; rw [← hk]; exact ht
    · simp only [Prio.top, hv, reduceCtorEq, false_iff]
      intro hc
      obtain ⟨p, hp, _⟩ := ht
      rw [hc] at hp; cases hp

theorem natTotal : Total (fun a b : Nat => decide (a < b)) := ⟨natSWO, by intro a b; simp; omega⟩

/-- Non-vacuity: a history with a changed priority. -/
example : ∃ q c, PReach (P := Nat) (K := Nat) (fun a b => decide (a < b)) (fun a b => decide (a < b)) q c ∧ q.top = some 2 ∧
    c 1 = some 9 := by
  refine ⟨_, _, .step (.step (.step .init (o := .insert 1 5) trivial rfl (.insert _ _ _)) (o := .insert 2 7) trivial rfl (.insert _ _ _))
    (o := .insert 1 9) trivial rfl (.insert _ _ _), rfl, rfl⟩

end Stxxl.AddrQueue
