import Verif.Stack.GrowShrink

/-!
# C12: proofs for `grow_shrink_stack`
-/

namespace Stxxl.Stack
open Stxxl.ExtVector (upd upd_same upd_ne nodup_get_inj)

namespace Gs
variable {α : Type} {B P : Nat}

/-- Block content `f` agrees with block number `k` of the abstract stack. -/
def Holds (B : Nat) (l : List α) (k : Nat) (f : Nat → α) : Prop :=
  ∀ x v, x < B → l[k * B + x]? = some v → f x = v

/-- Request `i` is outstanding. -/
def Pend (s : Gs α) (i : Nat) (r : Req) : Prop := s.reqs i = some r ∧ r.done = false

/-- What the disk block / the buffer will contain once the outstanding requests are served. -/
def DiskWill (s : Gs α) (b : Nat) (Q : (Nat → α) → Prop) : Prop :=
  (∀ i r, Pend s i r → r.isWrite = true → r.bid = b → Q (s.mem r.page i)) ∧
  ((∀ i r, Pend s i r → r.isWrite = true → r.bid ≠ b) → Q (s.disk b))

def MemWill (s : Gs α) (p : Bool) (i : Nat) (Q : (Nat → α) → Prop) : Prop :=
  (∀ r, Pend s i r → r.isWrite = false → r.page = p → Q (s.disk r.bid)) ∧
  ((∀ r, Pend s i r → r.isWrite = false → r.page ≠ p) → Q (s.mem p i))

/-- Outstanding requests are on different blocks. -/
def NC (s : Gs α) : Prop := ∀ i j r r', Pend s i r → Pend s j r' → i ≠ j → r.bid ≠ r'.bid

/-! ## Serving a request -/

structure SameCtl (s s' : Gs α) : Prop where
  size : s'.size = s.size
  off : s'.off = s.off
  cur : s'.cur = s.cur
  cb : s'.cb = s.cb
  bids : s'.bids = s.bids
  nul : ∀ i, s'.reqs i = none ↔ s.reqs i = none
  pend : ∀ i r, Pend s' i r → Pend s i r

theorem SameCtl.refl (s : Gs α) : SameCtl s s := ⟨rfl, rfl, rfl, rfl, rfl, fun _ => Iff.rfl, fun _ _ h => h⟩
theorem SameCtl.trans {a b c : Gs α} (h : SameCtl a b) (h' : SameCtl b c) : SameCtl a c :=
  ⟨h'.size.trans h.size, h'.off.trans h.off, h'.cur.trans h.cur, h'.cb.trans h.cb, h'.bids.trans h.bids,
    fun i => (h'.nul i).trans (h.nul i), fun i r hp => h.pend i r (h'.pend i r hp)⟩

theorem serve_not_pend (s : Gs α) (i : Nat) (h : ∀ r, ¬ Pend s i r) : serve s i = s := by
  unfold serve
  cases hr : s.reqs i with
  | none => rfl
  | some r =>
    simp only
    cases hd : r.done with
    | true => simp
    | false => exact absurd ⟨hr, hd⟩ (h r)

theorem serve_pend_write {s : Gs α} {i : Nat} {r : Req} (h : Pend s i r) (hw : r.isWrite = true) :
    serve s i = { s with disk := upd s.disk r.bid (s.mem r.page i), reqs := upd s.reqs i (some { r with done := true }) } := by
  unfold serve; simp [h.1, h.2, hw]

theorem serve_pend_read {s : Gs α} {i : Nat} {r : Req} (h : Pend s i r) (hw : r.isWrite = false) :
    serve s i = { s with mem := fun p => if p = r.page then upd (s.mem p) i (s.disk r.bid) else s.mem p
                         reqs := upd s.reqs i (some { r with done := true }) } := by
  unfold serve; simp [h.1, h.2, hw]

theorem pend_upd_done {s : Gs α} {i : Nat} {r : Req} {d : Nat → Nat → α} {m : Bool → Nat → Nat → α} {j : Nat} {r' : Req} :
    Pend { s with disk := d, mem := m, reqs := upd s.reqs i (some { r with done := true }) } j r' ↔ j ≠ i ∧ Pend s j r' := by
  unfold Pend
  by_cases hj : j = i
  · subst hj
    simp only [upd_same, ne_eq, not_true_eq_false, false_and, iff_false]
    rintro ⟨h1, h2⟩
    simp only [Option.some.injEq] at h1
    subst h1; simp at h2
  · simp only [upd_ne _ _ hj, ne_eq, hj, not_false_eq_true, true_and]

theorem pend_uniq {s : Gs α} {i : Nat} {r r' : Req} (h : Pend s i r) (h' : Pend s i r') : r' = r := by
  have := h.1.symm.trans h'.1
  exact (Option.some.inj this).symm

theorem serve_ctl (s : Gs α) (i : Nat) : SameCtl s (serve s i) ∧ ∀ r, ¬ Pend (serve s i) i r := by
  by_cases hp : ∃ r, Pend s i r
  · obtain ⟨r, hp⟩ := hp
    have hnul : ∀ j, upd s.reqs i (some { r with done := true }) j = none ↔ s.reqs j = none := by
      intro j
      by_cases hj : j = i
      · subst hj; simp [hp.1]
      · rw [upd_ne _ _ hj]
    cases hw : r.isWrite with
    | true =>
      rw [serve_pend_write hp hw]
      refine ⟨⟨rfl, rfl, rfl, rfl, rfl, hnul, fun j r' h => (pend_upd_done.1 h).2⟩, fun r' h => (pend_upd_done.1 h).1 rfl⟩
    | false =>
      rw [serve_pend_read hp hw]
      refine ⟨⟨rfl, rfl, rfl, rfl, rfl, hnul, fun j r' h => (pend_upd_done.1 h).2⟩, fun r' h => (pend_upd_done.1 h).1 rfl⟩
  · have : ∀ r, ¬ Pend s i r := fun r h => hp ⟨r, h⟩
    rw [serve_not_pend s i this]
    exact ⟨SameCtl.refl s, this⟩

theorem NC.serve {s : Gs α} (h : NC s) (i : Nat) : NC (serve s i) :=
  fun a b r r' ha hb hab => h a b r r' ((serve_ctl s i).1.pend _ _ ha) ((serve_ctl s i).1.pend _ _ hb) hab

theorem DiskWill.serve {s : Gs α} (hn : NC s) {b : Nat} {Q : (Nat → α) → Prop} (h : DiskWill s b Q) (i : Nat) :
    DiskWill (serve s i) b Q := by
  by_cases hp : ∃ r, Pend s i r
  · obtain ⟨r, hp⟩ := hp
    cases hw : r.isWrite with
    | true =>
      rw [serve_pend_write hp hw]
      refine ⟨fun j r' hj hjw hb => ?_, fun hno => ?_⟩
      · exact h.1 j r' (pend_upd_done.1 hj).2 hjw hb
      · simp only
        by_cases hb : b = r.bid
        · subst hb; rw [upd_same]; exact h.1 i r hp hw rfl
        · rw [upd_ne _ _ hb]
          refine h.2 (fun j r' hj hjw => ?_)
          by_cases hji : j = i
          · subst hji; rw [pend_uniq hp hj]; exact fun e => hb e.symm
          · exact hno j r' (pend_upd_done.2 ⟨hji, hj⟩) hjw
    | false =>
      rw [serve_pend_read hp hw]
      refine ⟨fun j r' hj hjw hb => ?_, fun hno => ?_⟩
      · obtain ⟨hji, hj'⟩ := pend_upd_done.1 hj
        have := h.1 j r' hj' hjw hb
        simp only
        split
        · rw [upd_ne _ _ hji]; exact this
        · exact this
      · refine h.2 (fun j r' hj hjw => ?_)
        by_cases hji : j = i
        · subst hji; rw [pend_uniq hp hj] at hjw; rw [hw] at hjw; simp at hjw
        · exact hno j r' (pend_upd_done.2 ⟨hji, hj⟩) hjw
  · rw [serve_not_pend s i (fun r h' => hp ⟨r, h'⟩)]; exact h

theorem MemWill.serve {s : Gs α} (hn : NC s) {p : Bool} {j : Nat} {Q : (Nat → α) → Prop} (h : MemWill s p j Q) (i : Nat) :
    MemWill (serve s i) p j Q := by
  by_cases hp : ∃ r, Pend s i r
  · obtain ⟨r, hp⟩ := hp
    cases hw : r.isWrite with
    | true =>
      rw [serve_pend_write hp hw]
      refine ⟨fun r' hj hjw hb => ?_, fun hno => ?_⟩
      · obtain ⟨hji, hj'⟩ := pend_upd_done.1 hj
        simp only
        rw [upd_ne _ _ (hn j i r' r hj' hp hji)]
        exact h.1 r' hj' hjw hb
      · refine h.2 (fun r' hj hjw => ?_)
        by_cases hji : j = i
        · subst hji; rw [pend_uniq hp hj] at hjw; rw [hw] at hjw; simp at hjw
        · exact hno r' (pend_upd_done.2 ⟨hji, hj⟩) hjw
    | false =>
      rw [serve_pend_read hp hw]
      refine ⟨fun r' hj hjw hb => ?_, fun hno => ?_⟩
      · exact h.1 r' (pend_upd_done.1 hj).2 hjw hb
      · simp only
        by_cases hji : j = i
        · subst hji
          by_cases hpp : p = r.page
          · rw [if_pos hpp, upd_same]; exact h.1 r hp hw hpp.symm
          · rw [if_neg hpp]
            exact h.2 (fun r' hj _ => by rw [pend_uniq hp hj]; exact fun e => hpp e.symm)
        · have := h.2 (fun r' hj hjw => hno r' (pend_upd_done.2 ⟨hji, hj⟩) hjw)
          split
          · rw [upd_ne _ _ hji]; exact this
          · exact this
  · rw [serve_not_pend s i (fun r h' => hp ⟨r, h'⟩)]; exact h

/-- A page without outstanding reads does not change. -/
theorem serve_mem {s : Gs α} {p : Bool} (h : ∀ i r, Pend s i r → r.isWrite = false → r.page ≠ p) (i : Nat) :
    (serve s i).mem p = s.mem p := by
  by_cases hp : ∃ r, Pend s i r
  · obtain ⟨r, hp⟩ := hp
    cases hw : r.isWrite with
    | true => rw [serve_pend_write hp hw]
    | false =>
      rw [serve_pend_read hp hw]
      simp only
      rw [if_neg (fun e => h i r hp hw e.symm)]
  · rw [serve_not_pend s i (fun r h' => hp ⟨r, h'⟩)]

/-! ## Issuing a request -/

theorem issue_ok {s : Gs α} {i : Nat} {r : Req} (h : ∀ r', ¬ Pend s i r') :
    issue s i r = some { s with reqs := upd s.reqs i (some r) } := by
  unfold issue
  cases hr : s.reqs i with
  | none => rfl
  | some r' =>
    simp only
    cases hd : r'.done with
    | true => simp
    | false => exact absurd ⟨hr, hd⟩ (h r')

theorem pend_issue {s : Gs α} {i : Nat} {r : Req} (hr : r.done = false) {j : Nat} {r' : Req} :
    Pend { s with reqs := upd s.reqs i (some r) } j r' ↔ (j = i ∧ r' = r) ∨ (j ≠ i ∧ Pend s j r') := by
  unfold Pend
  by_cases hj : j = i
  · subst hj
    simp only [upd_same, Option.some.injEq, true_and, ne_eq, not_true_eq_false, false_and, or_false]
    constructor
    · rintro ⟨h1, _⟩; exact h1.symm
    · rintro rfl; exact ⟨rfl, hr⟩
  · simp only [upd_ne _ _ hj, hj, false_and, ne_eq, not_false_eq_true, true_and, false_or]

/-! ## Invariant -/

structure Inv (B P : Nat) (s : Gs α) (l : List α) (q : Nat) : Prop where
  blen : s.bids.length = q * P
  nod : s.bids.Nodup
  size : s.size = l.length
  len : l.length = q * (P * B) + s.off
  off : s.off ≤ P * B
  ne : 0 < q → 0 < s.off
  cur : 0 < s.off → s.cur = some (s.cb, (s.off - 1) / B, (s.off - 1) % B)
  reqLt : ∀ i, P ≤ i → s.reqs i = none
  nul : (q = 0 ∧ ∀ i, i < P → s.reqs i = none) ∨ (∀ i, i < P → s.reqs i ≠ none)
  pend : ∀ i r, Pend s i r → r.page = !s.cb ∧ 0 < q ∧ s.bids[(q - 1) * P + i]? = some r.bid
  dsk : ∀ k b, s.bids[k]? = some b → DiskWill s b (Holds B l k)
  ovl : 0 < q → ∀ i, i < P → MemWill s (!s.cb) i (Holds B l ((q - 1) * P + i))
  cache : ∀ i, i < P → Holds B l (q * P + i) (s.mem s.cb i)

theorem Inv.nc {s : Gs α} {l q} (h : Inv B P s l q) : NC s := by
  intro i j r r' hi hj hij he
  have h1 := (h.pend i r hi).2.2
  have h2 := (h.pend j r' hj).2.2
  rw [he] at h1
  have := nodup_get_inj h.nod h1 h2
  omega

theorem bool_not_ne (b : Bool) : (!b) ≠ b := by cases b <;> simp

theorem inv_serve {s : Gs α} {l q} (h : Inv B P s l q) (i : Nat) : Inv B P (serve s i) l q := by
  obtain ⟨c, _⟩ := serve_ctl s i
  refine ⟨by rw [c.bids]; exact h.blen, by rw [c.bids]; exact h.nod, by rw [c.size]; exact h.size,
    by rw [c.off]; exact h.len, by rw [c.off]; exact h.off, by rw [c.off]; exact h.ne,
    by rw [c.off, c.cur, c.cb]; exact h.cur, fun i hi => (c.nul i).2 (h.reqLt i hi), ?_, ?_, ?_, ?_, ?_⟩
  · rcases h.nul with ⟨h0, h1⟩ | h1
    · exact .inl ⟨h0, fun i hi => (c.nul i).2 (h1 i hi)⟩
    · exact .inr (fun i hi e => h1 i hi ((c.nul i).1 e))
  · intro j r hj; rw [c.cb, c.bids]; exact h.pend j r (c.pend j r hj)
  · intro k b hb; rw [c.bids] at hb; exact (h.dsk k b hb).serve h.nc i
  · intro hq j hj; rw [c.cb]; exact (h.ovl hq j hj).serve h.nc i
  · intro j hj
    rw [c.cb, serve_mem]
    · exact h.cache j hj
    · intro a r ha _ e
      rw [(h.pend a r ha).1] at e
      exact bool_not_ne _ e

/-- Waiting for all requests. -/
theorem waitAll_inv {l : List α} {q : Nat} (k : Nat) : ∀ (i : Nat) (s : Gs α), i + k = P → Inv B P s l q →
    (∀ j, j < P → s.reqs j ≠ none) → (∀ j r, j < i → ¬ Pend s j r) →
    ∃ s', waitAll s k i = some s' ∧ Inv B P s' l q ∧ SameCtl s s' ∧ ∀ j r, ¬ Pend s' j r := by
  induction k with
  | zero =>
    intro i s hi h hn hd
    refine ⟨s, rfl, h, SameCtl.refl s, fun j r hp => ?_⟩
    by_cases hj : j < P
    · exact hd j r (by omega) hp
    · have := h.reqLt j (by omega); rw [hp.1] at this; simp at this
  | succ k ih =>
    intro i s hi h hn hd
    obtain ⟨c, c2⟩ := serve_ctl s i
    have hw : wait s i = some (serve s i) := by
      unfold wait
      cases hr : s.reqs i with
      | none => exact absurd hr (hn i (by omega))
      | some r => rfl
    simp only [waitAll, hw]
    obtain ⟨s', r1, r2, r3, r4⟩ := ih (i + 1) (serve s i) (by omega) (inv_serve h i)
      (fun j hj e => hn j hj ((c.nul j).1 e)) (fun j r hj hp => by
        by_cases hji : j = i
        · subst hji; exact c2 r hp
        · exact hd j r (by omega) (c.pend j r hp))
    exact ⟨s', r1, r2, c.trans r3, r4⟩

/-! ## Abstract blocks under list changes -/

theorem Holds.prefix {l l' : List α} {k : Nat} {f : Nat → α} (h : Holds B l k f)
    (hs : ∀ (j : Nat) v, l'[j]? = some v → l[j]? = some v) : Holds B l' k f :=
  fun x v hx hv => h x v hx (hs _ v hv)

theorem Holds.grow {l : List α} {k : Nat} {f : Nat → α} (h : Holds B l k f) (hk : (k + 1) * B ≤ l.length) (l2 : List α) :
    Holds B (l ++ l2) k f := by
  intro x v hx hv
  refine h x v hx ?_
  rw [List.getElem?_append_left] at hv
  · exact hv
  · rw [Nat.add_mul] at hk; omega

theorem Holds.empty {l : List α} {k : Nat} {f : Nat → α} (h : l.length ≤ k * B) : Holds B l k f := by
  intro x v _ hv
  rw [List.getElem?_eq_none (by omega)] at hv
  simp at hv

theorem DiskWill.mono {s s' : Gs α} {b : Nat} {Q Q' : (Nat → α) → Prop} (h : DiskWill s b Q) (hq : ∀ f, Q f → Q' f)
    (hp : ∀ i r, Pend s' i r ↔ Pend s i r) (hd : s'.disk b = s.disk b)
    (hm : ∀ i r, Pend s i r → s'.mem r.page i = s.mem r.page i) : DiskWill s' b Q' := by
  refine ⟨fun i r hi hw hb => ?_, fun hno => ?_⟩
  · rw [hm i r ((hp i r).1 hi)]; exact hq _ (h.1 i r ((hp i r).1 hi) hw hb)
  · rw [hd]; exact hq _ (h.2 (fun i r hi => hno i r ((hp i r).2 hi)))

theorem MemWill.mono {s s' : Gs α} {p : Bool} {i : Nat} {Q Q' : (Nat → α) → Prop} (h : MemWill s p i Q) (hq : ∀ f, Q f → Q' f)
    (hp : ∀ i r, Pend s' i r ↔ Pend s i r) (hd : s'.disk = s.disk) (hm : s'.mem p = s.mem p) : MemWill s' p i Q' := by
  refine ⟨fun r hi hw hb => ?_, fun hno => ?_⟩
  · rw [hd]; exact hq _ (h.1 r ((hp i r).1 hi) hw hb)
  · rw [hm]; exact hq _ (h.2 (fun r hi => hno r ((hp i r).2 hi)))

/-! ## push -/

theorem poke_other_page (mem : Bool → Nat → Nat → α) {p c : Bool} (x y : Nat) (v : α) (h : p ≠ c) :
    Normal.poke mem (c, x, y) v p = mem p := by
  funext b o; unfold Normal.poke; rw [if_neg]; rintro ⟨h1, _⟩; exact h h1

/-- State between the iterations of the loop in `push`. -/
structure GrowInv (B P : Nat) (s : Gs α) (l : List α) (q : Nat) (fresh : List Nat) (cb : Bool) (i : Nat) : Prop where
  cbEq : s.cb = cb
  nod : s.bids.Nodup
  blen : s.bids.length = q * P + P
  fr : ∀ j, j < P → s.bids[q * P + j]? = fresh[j]?
  reqLt : ∀ i, P ≤ i → s.reqs i = none
  set : ∀ j, j < i → s.reqs j ≠ none
  pend : ∀ j r, Pend s j r → j < P ∧
    ((j < i ∧ r.page = cb ∧ r.isWrite = true ∧ s.bids[q * P + j]? = some r.bid) ∨
     (i ≤ j ∧ r.page = !cb ∧ 0 < q ∧ s.bids[(q - 1) * P + j]? = some r.bid))
  dsk : ∀ k b, k < q * P + i → s.bids[k]? = some b → DiskWill s b (Holds B l k)
  cache : ∀ j, j < P → Holds B l (q * P + j) (s.mem cb j)

theorem GrowInv.nc {s : Gs α} {l q fresh cb i} (h : GrowInv B P s l q fresh cb i) : NC s := by
  intro a b r r' ha hb hab he
  obtain ⟨la, pa⟩ := h.pend a r ha
  obtain ⟨lb, pb⟩ := h.pend b r' hb
  rw [he] at pa
  have e : ∀ q, 0 < q → (q - 1) * P + P = q * P := by
    intro q hq; obtain ⟨m, rfl⟩ : ∃ m, q = m + 1 := ⟨q - 1, by omega⟩; simp [Nat.add_mul]
  rcases pa with ⟨_, _, _, pa⟩ | ⟨_, _, hq, pa⟩ <;> rcases pb with ⟨_, _, _, pb⟩ | ⟨_, _, hq', pb⟩
  · have := nodup_get_inj h.nod pa pb; omega
  · have := nodup_get_inj h.nod pa pb; have := e q hq'; omega
  · have := nodup_get_inj h.nod pa pb; have := e q hq; omega
  · have := nodup_get_inj h.nod pa pb; omega

theorem growInv_serve {s : Gs α} {l q fresh cb i} (h : GrowInv B P s l q fresh cb i) (a : Nat) :
    GrowInv B P (serve s a) l q fresh cb i := by
  obtain ⟨c, _⟩ := serve_ctl s a
  refine ⟨by rw [c.cb]; exact h.cbEq, by rw [c.bids]; exact h.nod, by rw [c.bids]; exact h.blen,
    by rw [c.bids]; exact h.fr, fun i hi => (c.nul i).2 (h.reqLt i hi), fun j hj e => h.set j hj ((c.nul j).1 e), ?_, ?_, ?_⟩
  · intro j r hj; rw [c.bids]; exact h.pend j r (c.pend j r hj)
  · intro k b hk hb; rw [c.bids] at hb; exact (h.dsk k b hk hb).serve h.nc a
  · intro j hj
    rw [serve_mem]
    · exact h.cache j hj
    · intro a' r ha' hw e
      rcases (h.pend a' r ha').2 with ⟨_, _, hw', _⟩ | ⟨_, hp, _⟩
      · rw [hw] at hw'; simp at hw'
      · rw [hp] at e; exact bool_not_ne _ e

theorem growInv_serveAll {l : List α} {q fresh cb i} (is : List Nat) : ∀ (s : Gs α), GrowInv B P s l q fresh cb i →
    GrowInv B P (serveAll s is) l q fresh cb i ∧ SameCtl s (serveAll s is) := by
  induction is with
  | nil => intro s h; exact ⟨h, SameCtl.refl s⟩
  | cons a is ih =>
    intro s h
    obtain ⟨h1, h2⟩ := ih _ (growInv_serve h a)
    exact ⟨h1, (serve_ctl s a).1.trans h2⟩

theorem growLoop_inv {l : List α} {q fresh cb} (sched : Nat → List Nat) (bs : List Nat) :
    ∀ (i : Nat) (s : Gs α), i + bs.length = P → fresh.drop i = bs → GrowInv B P s l q fresh cb i →
    ∃ s', growLoop sched bs i s = some s' ∧ GrowInv B P s' l q fresh cb P ∧
      s'.size = s.size ∧ s'.bids = s.bids := by
  induction bs with
  | nil =>
    intro i s hi _ h
    simp at hi; subst hi
    exact ⟨s, rfl, h, rfl, rfl⟩
  | cons b bs ih =>
    intro i s hi hdrop h
    have hiP : i < P := by simp at hi; omega
    -- wait for request i
    obtain ⟨s1, e1, h1, c1, n1⟩ : ∃ s1, waitIf s i = some s1 ∧
        GrowInv B P s1 l q fresh cb i ∧ SameCtl s s1 ∧ ∀ r, ¬ Pend s1 i r := by
      cases hr : s.reqs i with
      | none =>
        refine ⟨s, by simp [waitIf, hr], h, SameCtl.refl s, fun r hp => ?_⟩
        rw [hp.1] at hr; simp at hr
      | some r =>
        obtain ⟨c, c2⟩ := serve_ctl s i
        exact ⟨serve s i, by simp [waitIf, wait, hr], growInv_serve h i, c, c2⟩
    simp only [growLoop, e1, issue_ok n1]
    have hb : fresh[i]? = some b := by
      have := congrArg (fun t => t[0]?) hdrop
      simpa using this
    have hbpos : s1.bids[q * P + i]? = some b := by rw [h1.fr i hiP]; exact hb
    -- the state after issuing the write
    have h2 : GrowInv B P { s1 with reqs := upd s1.reqs i (some { isWrite := true, page := s1.cb, bid := b, done := false }) }
        l q fresh cb (i + 1) := by
      refine ⟨h1.cbEq, h1.nod, h1.blen, h1.fr, ?_, ?_, ?_, ?_, h1.cache⟩
      · intro j hj
        simp only
        rw [upd_ne _ _ (by omega)]; exact h1.reqLt j hj
      · intro j hj
        simp only
        by_cases hji : j = i
        · subst hji; simp
        · rw [upd_ne _ _ hji]; exact h1.set j (by omega)
      · intro j r hp
        rcases (pend_issue rfl).1 hp with ⟨rfl, rfl⟩ | ⟨hji, hp'⟩
        · exact ⟨hiP, .inl ⟨by omega, h1.cbEq, rfl, hbpos⟩⟩
        · obtain ⟨lj, pj⟩ := h1.pend j r hp'
          refine ⟨lj, ?_⟩
          rcases pj with ⟨a1, a2⟩ | ⟨a1, a2⟩
          · exact .inl ⟨by omega, a2⟩
          · exact .inr ⟨by omega, a2⟩
      · intro k b' hk hb'
        simp only at hb'
        by_cases hki : k = q * P + i
        · subst hki
          rw [hbpos] at hb'; cases hb'
          refine ⟨fun j r hp hw hbid => ?_, fun hno => ?_⟩
          · rcases (pend_issue rfl).1 hp with ⟨rfl, rfl⟩ | ⟨hji, hp'⟩
            · simp only [h1.cbEq]; exact h1.cache _ hiP
            · exfalso
              obtain ⟨lj, pj⟩ := h1.pend j r hp'
              rw [hbid] at pj
              rcases pj with ⟨_, _, _, a2⟩ | ⟨_, _, hq, a2⟩
              · have := nodup_get_inj h1.nod a2 hbpos; omega
              · have := nodup_get_inj h1.nod a2 hbpos
                have e : (q - 1) * P + P = q * P := by
                  obtain ⟨m, rfl⟩ : ∃ m, q = m + 1 := ⟨q - 1, by omega⟩; simp [Nat.add_mul]
                omega
          · exact absurd rfl (hno i { isWrite := true, page := s1.cb, bid := b, done := false }
              ((pend_issue rfl).2 (.inl ⟨rfl, rfl⟩)) rfl)
        · have hd := h1.dsk k b' (by omega) hb'
          have hne : b' ≠ b := by
            rintro rfl
            have := nodup_get_inj h1.nod hb' hbpos; omega
          refine ⟨fun j r hp hw hbid => ?_, fun hno => ?_⟩
          · rcases (pend_issue rfl).1 hp with ⟨rfl, rfl⟩ | ⟨hji, hp'⟩
            · exact absurd hbid.symm hne
            · exact hd.1 j r hp' hw hbid
          · refine hd.2 (fun j r hp hw => ?_)
            by_cases hji : j = i
            · subst hji; exact absurd hp (n1 r)
            · exact hno j r ((pend_issue rfl).2 (.inr ⟨hji, hp⟩)) hw
    obtain ⟨h3, c3⟩ := growInv_serveAll (sched i) _ h2
    obtain ⟨s', r1, r2, r3, r4⟩ := ih (i + 1) _ (by simp at hi; omega)
      (by rw [← List.drop_drop, hdrop]; rfl) h3
    exact ⟨s', r1, r2, by rw [r3, c3.size]; exact c1.size, by rw [r4, c3.bids]; exact c1.bids⟩

theorem push_inv (hB : 0 < B) (hP : 0 < P) {s : Gs α} {l q} (h : Inv B P s l q) (v : α) {fresh : List Nat}
    (sched : Nat → List Nat)
    (f1 : fresh.length = P) (f2 : fresh.Nodup) (f3 : ∀ b ∈ fresh, b ∉ s.bids) :
    ∃ s' q', push B P s v fresh sched = some s' ∧ Inv B P s' (l ++ [v]) q' := by
  have hN : 0 < P * B := Nat.mul_pos hP hB
  unfold push
  rw [if_neg (by have := h.off; omega)]
  by_cases hfull : s.off = P * B
  · rw [if_pos hfull]
    have hlen : l.length = (q + 1) * (P * B) := by rw [h.len, hfull, Nat.add_mul]; omega
    have hg : GrowInv B P { s with bids := s.bids ++ fresh } l q fresh s.cb 0 := by
      refine ⟨rfl, ?_, ?_, ?_, h.reqLt, by simp, ?_, ?_, h.cache⟩
      · rw [List.nodup_append]
        exact ⟨h.nod, f2, fun a ha b hb hab => f3 b hb (hab ▸ ha)⟩
      · simp [h.blen, f1]
      · intro j hj
        simp only
        rw [List.getElem?_append_right (by rw [h.blen]; omega), h.blen]; simp
      · intro j r hp
        obtain ⟨p1, p2, p3⟩ := h.pend j r hp
        have hj : j < P := by
          apply Classical.byContradiction
          intro hc
          have := h.reqLt j (by omega)
          rw [hp.1] at this; simp at this
        refine ⟨hj, .inr ⟨Nat.zero_le _, p1, p2, ?_⟩⟩
        simp only
        rw [List.getElem?_append_left (List.getElem?_eq_some_iff.1 p3).1]; exact p3
      · intro k b hk hb
        simp only at hb
        rw [List.getElem?_append_left (by rw [h.blen]; omega)] at hb
        exact h.dsk k b hb
    obtain ⟨s1, r1, r2, r3, r4⟩ := growLoop_inv (B := B) (P := P) sched fresh 0 _ (by simp [f1]) (by simp) hg
    rw [r1]
    simp only at r3 r4
    refine ⟨_, q + 1, rfl, ?_⟩
    have hcb := r2.cbEq
    have hnb := bool_not_ne s1.cb
    have hmemcb : Normal.poke s1.mem (!s1.cb, 0, 0) v s1.cb = s1.mem s1.cb := poke_other_page _ _ _ _ (fun e => hnb e.symm)
    have hlast : ∀ k, k < q * P + P → (k + 1) * B ≤ l.length := by
      intro k hk
      rw [hlen]
      have : (k + 1) * B ≤ ((q + 1) * P) * B := Nat.mul_le_mul_right B (by rw [Nat.add_mul]; omega)
      rw [Nat.mul_assoc] at this; exact this
    have hpgall : ∀ j r, Pend s1 j r → j < P ∧ r.page = s1.cb ∧ r.isWrite = true ∧ s1.bids[q * P + j]? = some r.bid := by
      intro j r hp
      obtain ⟨a, b⟩ := r2.pend j r hp
      rcases b with ⟨_, b1, b2, b3⟩ | ⟨b1, _⟩
      · exact ⟨a, by rw [hcb]; exact b1, b2, b3⟩
      · omega
    refine ⟨?_, ?_, ?_, ?_, ?_, ?_, ?_, r2.reqLt, .inr (fun i hi => r2.set i hi), ?_, ?_, ?_, ?_⟩
    · simp only [r2.blen, Nat.add_mul]; omega
    · exact r2.nod
    · simp [r3, h.size]
    · simp only [List.length_append, List.length_cons, List.length_nil]; omega
    · simp only; omega
    · simp
    · intro _; simp
    · intro i r hp
      obtain ⟨_, b1, b2, b3⟩ := hpgall i r hp
      exact ⟨by simp only [Bool.not_not]; exact b1, by omega, b3⟩
    · intro k b hb
      have hk : k < q * P + P := by rw [← r2.blen]; exact (List.getElem?_eq_some_iff.1 hb).1
      refine (r2.dsk k b hk hb).mono (fun f hf => hf.grow (hlast k hk) [v]) (fun _ _ => Iff.rfl) rfl ?_
      intro i r hp
      rw [(hpgall i r hp).2.1]
      exact congrFun hmemcb i
    · intro _ i hi
      refine ⟨fun r hp hw _ => ?_, fun _ => ?_⟩
      · have h2 := (hpgall i r hp).2.2.1
        rw [hw] at h2; simp at h2
      · simp only [Bool.not_not, Nat.add_sub_cancel]
        rw [hmemcb, hcb]
        exact (r2.cache i hi).grow (hlast _ (by omega)) [v]
    · intro i hi
      simp only
      intro x w hx hw
      have e : ((q + 1) * P + i) * B + x = l.length + (i * B + x) := by
        rw [hlen, Nat.add_mul, Nat.mul_assoc]; omega
      rw [e, List.getElem?_append_right (by omega)] at hw
      have hz : i * B + x = 0 := by
        apply Classical.byContradiction
        intro hc
        rw [List.getElem?_eq_none (by simp; omega)] at hw
        simp at hw
      have hi0 : i = 0 := by
        rcases Nat.eq_zero_or_pos i with h0 | h0
        · exact h0
        · have := Nat.mul_pos h0 hB; omega
      have hx0 : x = 0 := by omega
      subst hi0 hx0
      simp at hw
      simp [Normal.poke, hw]
  · rw [if_neg hfull]
    refine ⟨_, q, rfl, ?_⟩
    have hcurp : ∀ i, i < P → Holds B (l ++ [v]) (q * P + i)
        (Normal.poke s.mem (s.cb, s.off / B, s.off % B) v s.cb i) := by
      intro i hi x w hx hw
      have e : (q * P + i) * B + x = q * (P * B) + (i * B + x) := by rw [Nat.add_mul, Nat.mul_assoc]; omega
      have ei : (i * B + x) / B = i ∧ (i * B + x) % B = x := by
        constructor
        · rw [Nat.mul_comm, Nat.mul_add_div hB, Nat.div_eq_of_lt hx, Nat.add_zero]
        · rw [Nat.mul_comm, Nat.mul_add_mod, Nat.mod_eq_of_lt hx]
      by_cases hlast : i * B + x = s.off
      · rw [e, hlast, ← h.len] at hw
        simp at hw
        rw [← hlast, ei.1, ei.2]
        simp [Normal.poke, hw]
      · have hlt : i * B + x < s.off := by
          have := (List.getElem?_eq_some_iff.1 hw).1
          simp at this
          rw [e, h.len] at this; omega
        have hne : ¬ (i = s.off / B ∧ x = s.off % B) := by
          rintro ⟨a, b⟩
          apply hlast
          have := Nat.div_add_mod s.off B
          rw [← a, ← b, Nat.mul_comm] at this; exact this
        have : Normal.poke s.mem (s.cb, s.off / B, s.off % B) v s.cb i x = s.mem s.cb i x := by
          unfold Normal.poke; rw [if_neg]; rintro ⟨_, a, b⟩; exact hne ⟨a, b⟩
        rw [this]
        refine h.cache i hi x w hx ?_
        rw [List.getElem?_append_left (by rw [e, h.len]; omega)] at hw; exact hw
    have hlastb : ∀ k, k < q * P → (k + 1) * B ≤ l.length := by
      intro k hk
      rw [h.len]
      have : (k + 1) * B ≤ (q * P) * B := Nat.mul_le_mul_right B (by omega)
      rw [Nat.mul_assoc] at this; omega
    refine ⟨h.blen, h.nod, by simp [h.size], by simp [h.len]; omega, ?_, by simp, ?_, h.reqLt, h.nul, h.pend, ?_, ?_, hcurp⟩
    · have := h.off; simp only; omega
    · intro _; simp
    · intro k b hb
      have hk : k < q * P := by rw [← h.blen]; exact (List.getElem?_eq_some_iff.1 hb).1
      refine (h.dsk k b hb).mono (fun f hf => hf.grow (hlastb k hk) [v]) (fun _ _ => Iff.rfl) rfl ?_
      intro i r hp
      simp only
      rw [(h.pend i r hp).1]
      exact congrFun (poke_other_page _ _ _ _ (bool_not_ne _)) i
    · intro hq i hi
      refine (h.ovl hq i hi).mono (fun f hf => hf.grow (hlastb _ ?_) [v]) (fun _ _ => Iff.rfl) rfl
        (poke_other_page _ _ _ _ (bool_not_ne _))
      obtain ⟨m, rfl⟩ : ∃ m, q = m + 1 := ⟨q - 1, by omega⟩
      simp [Nat.add_mul]; omega

/-! ## pop -/

/-- State between the iterations of the prefetch loop; page `q` is the one now cached. -/
structure PrefInv (B P : Nat) (s : Gs α) (l : List α) (q : Nat) (cb : Bool) (k : Nat) : Prop where
  cbEq : s.cb = cb
  nod : s.bids.Nodup
  blen : s.bids.length = q * P + P
  reqLt : ∀ i, P ≤ i → s.reqs i = none
  set : ∀ j, j < P → s.reqs j ≠ none
  pend : ∀ j r, Pend s j r → k ≤ j ∧ r.page = (!cb) ∧ r.isWrite = false ∧ 0 < q ∧ s.bids[(q - 1) * P + j]? = some r.bid
  dsk : ∀ k b, s.bids[k]? = some b → DiskWill s b (Holds B l k)
  ovl : ∀ j, k ≤ j → j < P → MemWill s (!cb) j (Holds B l ((q - 1) * P + j))
  cache : ∀ j, j < P → Holds B l (q * P + j) (s.mem cb j)

theorem PrefInv.nc {s : Gs α} {l q cb i} (h : PrefInv B P s l q cb i) : NC s := by
  intro a b r r' ha hb hab he
  have pa := (h.pend a r ha).2.2.2.2
  have pb := (h.pend b r' hb).2.2.2.2
  rw [he] at pa
  have := nodup_get_inj h.nod pa pb; omega

theorem prefInv_serve {s : Gs α} {l q cb i} (h : PrefInv B P s l q cb i) (a : Nat) : PrefInv B P (serve s a) l q cb i := by
  obtain ⟨c, _⟩ := serve_ctl s a
  refine ⟨by rw [c.cb]; exact h.cbEq, by rw [c.bids]; exact h.nod, by rw [c.bids]; exact h.blen,
    fun i hi => (c.nul i).2 (h.reqLt i hi), fun j hj e => h.set j hj ((c.nul j).1 e), ?_, ?_, ?_, ?_⟩
  · intro j r hj; rw [c.bids]; exact h.pend j r (c.pend j r hj)
  · intro k b hb; rw [c.bids] at hb; exact (h.dsk k b hb).serve h.nc a
  · intro j hj hj'; exact (h.ovl j hj hj').serve h.nc a
  · intro j hj
    rw [serve_mem]
    · exact h.cache j hj
    · intro a' r ha' _ e
      rw [(h.pend a' r ha').2.1] at e
      exact bool_not_ne _ e

theorem prefInv_serveAll {l : List α} {q cb i} (is : List Nat) : ∀ (s : Gs α), PrefInv B P s l q cb i →
    PrefInv B P (serveAll s is) l q cb i ∧ SameCtl s (serveAll s is) := by
  induction is with
  | nil => intro s h; exact ⟨h, SameCtl.refl s⟩
  | cons a is ih =>
    intro s h
    obtain ⟨h1, h2⟩ := ih _ (prefInv_serve h a)
    exact ⟨h1, (serve_ctl s a).1.trans h2⟩

theorem prefLoop_inv {l : List α} {q cb} (hq : 0 < q) (sched : Nat → List Nat) (k : Nat) :
    ∀ (s : Gs α), k ≤ P → PrefInv B P s l q cb k →
    ∃ s', prefLoop sched ((q - 1) * P) k s = some s' ∧ PrefInv B P s' l q cb 0 ∧ s'.size = s.size ∧ s'.bids = s.bids := by
  induction k with
  | zero => intro s _ h; exact ⟨s, rfl, h, rfl, rfl⟩
  | succ k ih =>
    intro s hk h
    have e : (q - 1) * P + P = q * P := by
      obtain ⟨m, rfl⟩ : ∃ m, q = m + 1 := ⟨q - 1, by omega⟩; simp [Nat.add_mul]
    have hlt : (q - 1) * P + k < s.bids.length := by rw [h.blen]; omega
    have hb := List.getElem?_eq_getElem hlt
    have hn : ∀ r, ¬ Pend s k r := fun r hp => by have := (h.pend k r hp).1; omega
    simp only [prefLoop, hb, issue_ok hn]
    have h2 : PrefInv B P { s with reqs := upd s.reqs k (some (Req.mk false (!s.cb) s.bids[(q - 1) * P + k] false)) } l q cb k := by
      refine ⟨h.cbEq, h.nod, h.blen, ?_, ?_, ?_, ?_, ?_, h.cache⟩
      · intro j hj; simp only; rw [upd_ne _ _ (by omega)]; exact h.reqLt j hj
      · intro j hj
        simp only
        by_cases hji : j = k
        · subst hji; simp
        · rw [upd_ne _ _ hji]; exact h.set j hj
      · intro j r hp
        rcases (pend_issue rfl).1 hp with ⟨rfl, rfl⟩ | ⟨hji, hp'⟩
        · exact ⟨Nat.le_refl _, by simp only [h.cbEq], rfl, hq, hb⟩
        · obtain ⟨a, b⟩ := h.pend j r hp'
          exact ⟨by omega, b⟩
      · intro k' b' hb'
        have hd := h.dsk k' b' hb'
        refine ⟨fun j r hp hw hbid => ?_, fun hno => ?_⟩
        · rcases (pend_issue rfl).1 hp with ⟨rfl, rfl⟩ | ⟨hji, hp'⟩
          · simp at hw
          · exact hd.1 j r hp' hw hbid
        · refine hd.2 (fun j r hp hw => ?_)
          rw [(h.pend j r hp).2.2.1] at hw; simp at hw
      · intro j hj hjP
        by_cases hji : j = k
        · subst hji
          refine ⟨fun r hp hw hpg => ?_, fun hno => ?_⟩
          · rcases (pend_issue rfl).1 hp with ⟨_, rfl⟩ | ⟨hji, _⟩
            · refine (h.dsk _ _ hb).2 (fun j r hp hw => ?_)
              rw [(h.pend j r hp).2.2.1] at hw; simp at hw
            · exact absurd rfl hji
          · exact absurd (by simp only [h.cbEq]) (hno _ ((pend_issue rfl).2 (.inl ⟨rfl, rfl⟩)) rfl)
        · have ho := h.ovl j (by omega) hjP
          refine ⟨fun r hp hw hpg => ?_, fun hno => ?_⟩
          · rcases (pend_issue rfl).1 hp with ⟨rfl, _⟩ | ⟨_, hp'⟩
            · exact absurd rfl hji
            · exact ho.1 r hp' hw hpg
          · exact ho.2 (fun r hp hw => hno r ((pend_issue rfl).2 (.inr ⟨hji, hp⟩)) hw)
    obtain ⟨h3, c3⟩ := prefInv_serveAll (sched k) _ h2
    obtain ⟨s', r1, r2, r3, r4⟩ := ih _ (by omega) h3
    exact ⟨s', r1, r2, by rw [r3, c3.size], by rw [r4, c3.bids]⟩

theorem dropLast_sub {l : List α} : ∀ (j : Nat) v, l.dropLast[j]? = some v → l[j]? = some v := by
  intro j v hv
  rw [List.getElem?_dropLast] at hv
  split at hv
  · exact hv
  · simp at hv

theorem pop_inv (hB : 0 < B) (hP : 0 < P) {s : Gs α} {l q} (h : Inv B P s l q) (sched : Nat → List Nat) (hl : l ≠ []) :
    ∃ s' q', pop B P s sched = some s' ∧ Inv B P s' l.dropLast q' := by
  have hN : 0 < P * B := Nat.mul_pos hP hB
  have hpos : 0 < l.length := List.length_pos_iff.2 hl
  have hoff : 0 < s.off := by
    rcases Nat.eq_zero_or_pos q with rfl | hq
    · have := h.len; simp at this; omega
    · exact h.ne hq
  unfold pop
  rw [if_neg (by have := h.off; have := h.size; simp; omega)]
  by_cases hs : s.off = 1 ∧ P ≤ s.bids.length
  · rw [if_pos hs]
    obtain ⟨q, rfl⟩ : ∃ r, q = r + 1 := by
      refine ⟨q - 1, ?_⟩
      have := h.blen
      rcases Nat.eq_zero_or_pos q with rfl | hq
      · simp at this; simp [this] at hs; omega
      · omega
    -- wait for everything
    obtain ⟨s1, e1, h1, c1, n1⟩ : ∃ s1, waitAllIf P s = some s1 ∧
        Inv B P s1 l (q + 1) ∧ SameCtl s s1 ∧ ∀ j r, ¬ Pend s1 j r := by
      cases hr : s.reqs 0 with
      | none =>
        refine ⟨s, by simp [waitAllIf, hr], h, SameCtl.refl s, fun j r hp => ?_⟩
        rcases h.nul with ⟨_, h'⟩ | h'
        · by_cases hj : j < P
          · have := h' j hj; rw [hp.1] at this; simp at this
          · have := h.reqLt j (by omega); rw [hp.1] at this; simp at this
        · exact h' 0 hP hr
      | some r =>
        have hall : ∀ j, j < P → s.reqs j ≠ none := by
          rcases h.nul with ⟨_, h'⟩ | h'
          · have := h' 0 hP; rw [hr] at this; simp at this
          · exact h'
        have := waitAll_inv (B := B) P 0 s (by omega) h hall (by simp)
        simpa [waitAllIf, hr] using this
    rw [e1]
    simp only
    have hbl : s1.bids.length = q * P + P := by rw [h1.blen, Nat.add_mul]; omega
    have hlen : l.length = (q + 1) * (P * B) + 1 := by rw [h.len, hs.1]
    have hdsk : ∀ k b, s1.bids[k]? = some b → Holds B l k (s1.disk b) :=
      fun k b hb => (h1.dsk k b hb).2 (fun j r hp => absurd hp (n1 j r))
    have hovl : ∀ i, i < P → Holds B l (q * P + i) (s1.mem (!s1.cb) i) := by
      intro i hi
      have := (h1.ovl (by omega) i hi).2 (fun r hp => absurd hp (n1 i r))
      simpa using this
    have hnul : P < s1.bids.length ∨ ¬ P < s1.bids.length := by omega
    -- common end
    have fin : ∀ s3 : Gs α, s3.bids = s1.bids → s3.size = s1.size → s3.cb = (!s1.cb) →
        (∀ i, P ≤ i → s3.reqs i = none) →
        ((q = 0 ∧ ∀ i, i < P → s3.reqs i = none) ∨ (∀ i, i < P → s3.reqs i ≠ none)) →
        (∀ j r, Pend s3 j r → r.page = s1.cb ∧ 0 < q ∧ s1.bids[(q - 1) * P + j]? = some r.bid) →
        (∀ k b, s1.bids[k]? = some b → DiskWill s3 b (Holds B l k)) →
        (0 < q → ∀ j, j < P → MemWill s3 s1.cb j (Holds B l ((q - 1) * P + j))) →
        (∀ j, j < P → Holds B l (q * P + j) (s3.mem (!s1.cb) j)) →
        Inv B P { s3 with bids := s3.bids.take (s3.bids.length - P), off := P * B, size := s3.size - 1
                          cur := some (s3.cb, P - 1, B - 1) } l.dropLast q := by
      intro s3 g1 g2 g3 g4 g5 g6 g7 g8 g9
      have hb3 : s3.bids.length - P = q * P := by rw [g1, hbl]; omega
      rw [hb3, g1]
      have hpg : ∀ k, 0 < q → k < P → (q - 1) * P + k < q * P := by
        intro k hq hk
        obtain ⟨m, rfl⟩ : ∃ m, q = m + 1 := ⟨q - 1, by omega⟩
        simp [Nat.add_mul]; omega
      refine ⟨?_, h1.nod.sublist (List.take_sublist _ _), ?_, ?_, ?_, ?_, ?_, g4, g5, ?_, ?_, ?_, ?_⟩
      · simp only [List.length_take]; omega
      · simp [g2, h1.size]
      · simp [hlen, Nat.add_mul]
      · exact Nat.le_refl _
      · intro _; exact hN
      · intro _
        have := last_div hB hP
        simp [this.1, this.2]
      · intro j r hp
        obtain ⟨a, b, c⟩ := g6 j r hp
        have hjP : j < P := by
          apply Classical.byContradiction
          intro hc
          have := g4 j (by omega)
          have hp1 : s3.reqs j = some r := hp.1
          rw [this] at hp1; simp at hp1
        refine ⟨by simp only [g3, Bool.not_not]; exact a, b, ?_⟩
        simp only
        rw [List.getElem?_take, if_pos (hpg j b hjP)]; exact c
      · intro k b hb
        simp only [List.getElem?_take] at hb
        split at hb
        · exact (g7 k b hb).mono (fun f hf => hf.prefix dropLast_sub) (fun _ _ => Iff.rfl) rfl (fun _ _ _ => rfl)
        · simp at hb
      · intro hq j hj
        simp only [g3, Bool.not_not]
        exact (g8 hq j hj).mono (fun f hf => hf.prefix dropLast_sub) (fun _ _ => Iff.rfl) rfl rfl
      · intro j hj
        simp only [g3]
        exact (g9 j hj).prefix dropLast_sub
    by_cases hlt : P < s1.bids.length
    · rw [if_pos hlt]
      have hq : 0 < q := by
        rcases Nat.eq_zero_or_pos q with rfl | hq
        · simp at hbl; omega
        · exact hq
      have hset : ∀ j, j < P → s1.reqs j ≠ none := by
        -- a second page was written, so requests exist
        rcases h1.nul with ⟨h', _⟩ | h'
        · omega
        · exact h'
      have hpi : PrefInv B P { s1 with cb := !s1.cb } l q (!s1.cb) P := by
        refine ⟨rfl, h1.nod, hbl, h1.reqLt, hset, ?_, ?_, ?_, hovl⟩
        · intro j r hp; exact absurd hp (n1 j r)
        · intro k b hb; exact h1.dsk k b hb
        · intro j hj hj'; omega
      have hbase : s1.bids.length - 2 * P = (q - 1) * P := by
        obtain ⟨m, rfl⟩ : ∃ m, q = m + 1 := ⟨q - 1, by omega⟩
        rw [hbl]; simp [Nat.add_mul]; omega
      rw [hbase]
      obtain ⟨s3, r1, r2, r3, r4⟩ := prefLoop_inv hq sched P _ (Nat.le_refl P) hpi
      rw [r1]
      refine ⟨_, q, rfl, fin s3 r4 r3 r2.cbEq r2.reqLt (.inr r2.set) ?_ ?_ ?_ ?_⟩
      · intro j r hp
        obtain ⟨_, a2, _, a4, a5⟩ := r2.pend j r hp
        rw [r4] at a5
        exact ⟨by simpa using a2, a4, a5⟩
      · intro k b hb; exact r2.dsk k b (by rw [r4]; exact hb)
      · intro _ j hj; have := r2.ovl j (Nat.zero_le _) hj; simpa using this
      · exact r2.cache
    · rw [if_neg hlt]
      refine ⟨_, q, rfl, fin { s1 with cb := !s1.cb } rfl rfl rfl h1.reqLt (.inr (h1.nul.resolve_left (by omega))) ?_ ?_ ?_ hovl⟩
      · intro j r hp; exact absurd hp (n1 j r)
      · intro k b hb; exact h1.dsk k b hb
      · intro hq
        have : 1 * P ≤ q * P := Nat.mul_le_mul_right P hq
        omega
  · rw [if_neg hs]
    refine ⟨_, q, rfl, ?_⟩
    refine ⟨h.blen, h.nod, by simp [h.size], by simp [h.len]; omega, ?_, ?_, ?_, h.reqLt, h.nul, h.pend, ?_, ?_, ?_⟩
    · have := h.off; simp only; omega
    · intro hq
      simp only
      have hb := h.blen
      have : 1 * P ≤ q * P := Nat.mul_le_mul_right P hq
      have : ¬ s.off = 1 := fun he => hs ⟨he, by omega⟩
      omega
    · intro ho
      simp only at ho ⊢
      rw [if_neg (by omega)]
    · intro k b hb
      exact (h.dsk k b hb).mono (fun f hf => hf.prefix dropLast_sub) (fun _ _ => Iff.rfl) rfl (fun _ _ _ => rfl)
    · intro hq i hi
      exact (h.ovl hq i hi).mono (fun f hf => hf.prefix dropLast_sub) (fun _ _ => Iff.rfl) rfl rfl
    · intro i hi
      exact (h.cache i hi).prefix dropLast_sub


theorem inv_new (mem : Bool → Nat → Nat → α) (disk : Nat → Nat → α) : Inv B P (new mem disk) [] 0 where
  blen := by simp [new]
  nod := List.nodup_nil
  size := rfl
  len := by simp [new]
  off := Nat.zero_le _
  ne := by simp
  cur := by simp [new]
  reqLt := fun _ _ => rfl
  nul := .inl ⟨rfl, fun _ _ => rfl⟩
  pend := fun i r hp => by simp [Pend, new] at hp
  dsk := fun k b hb => by simp [new] at hb
  ovl := by simp
  cache := fun i _ => Holds.empty (by simp)

theorem Inv.off_pos {s : Gs α} {l q} (h : Inv B P s l q) (hl : l ≠ []) : 0 < s.off := by
  have hpos : 0 < l.length := List.length_pos_iff.2 hl
  rcases Nat.eq_zero_or_pos q with rfl | hq
  · have := h.len; simp at this; omega
  · exact h.ne hq

/-- The top element's block and offset. -/
theorem Inv.last_pos (hB : 0 < B) (hP : 0 < P) {s : Gs α} {l q} (h : Inv B P s l q) (hl : l ≠ []) :
    (s.off - 1) / B < P ∧ (s.off - 1) % B < B ∧ (q * P + (s.off - 1) / B) * B + (s.off - 1) % B = l.length - 1 := by
  have ho := h.off_pos hl
  refine ⟨?_, Nat.mod_lt _ hB, ?_⟩
  · rw [Nat.div_lt_iff_lt_mul hB]; have := h.off; omega
  · have h1 := Nat.div_add_mod (s.off - 1) B
    have h2 := h.len
    rw [Nat.add_mul, Nat.mul_assoc, Nat.mul_comm ((s.off - 1) / B) B]
    omega

theorem top_inv (hB : 0 < B) (hP : 0 < P) {s : Gs α} {l q} (h : Inv B P s l q) : top s = l.getLast? := by
  unfold top
  by_cases hz : s.size = 0
  · rw [if_pos hz]
    have : l = [] := List.length_eq_zero_iff.1 (by rw [← h.size]; exact hz)
    simp [this]
  · rw [if_neg hz]
    have hl : l ≠ [] := by rintro rfl; exact hz h.size
    obtain ⟨h1, h2, h3⟩ := h.last_pos hB hP hl
    rw [h.cur (h.off_pos hl), List.getLast?_eq_getElem?]
    have hlt : l.length - 1 < l.length := by have := h.size; omega
    rw [List.getElem?_eq_getElem hlt]
    simp only [Option.map_some, Option.some.injEq]
    refine h.cache _ h1 _ _ h2 ?_
    rw [h3, List.getElem?_eq_getElem hlt]

theorem Holds.setLast {l : List α} {k : Nat} {f : Nat → α} (h : Holds B l k f) (hk : (k + 1) * B < l.length) (v : α) :
    Holds B (l.dropLast ++ [v]) k f := by
  intro x w hx hw
  refine h x w hx ?_
  have e : (k + 1) * B = k * B + B := by rw [Nat.add_mul]; omega
  rw [List.getElem?_append_left (by simp; omega), List.getElem?_dropLast] at hw
  split at hw
  · exact hw
  · simp at hw

theorem setTop_inv (hB : 0 < B) (hP : 0 < P) {s : Gs α} {l q} (h : Inv B P s l q) (v : α) (hl : l ≠ []) :
    ∃ s', setTop s v = some s' ∧ Inv B P s' (l.dropLast ++ [v]) q := by
  have hpos : 0 < l.length := List.length_pos_iff.2 hl
  have hoff := h.off_pos hl
  obtain ⟨h1, h2, h3⟩ := h.last_pos hB hP hl
  unfold setTop
  rw [if_neg (by have := h.size; omega), h.cur hoff]
  refine ⟨_, rfl, ?_⟩
  have hlen : (l.dropLast ++ [v]).length = l.length := by simp; omega
  have hlow : ∀ k, k < q * P → (k + 1) * B < l.length := by
    intro k hk
    have : (k + 1) * B ≤ (q * P) * B := Nat.mul_le_mul_right _ hk
    have := h.len
    rw [← Nat.mul_assoc] at this
    omega
  have hpg : ∀ k, 0 < q → k < P → (q - 1) * P + k < q * P := by
    intro k hq hk
    obtain ⟨m, rfl⟩ : ∃ m, q = m + 1 := ⟨q - 1, by omega⟩
    simp [Nat.add_mul]; omega
  have hmem : Normal.poke s.mem (s.cb, (s.off - 1) / B, (s.off - 1) % B) v (!s.cb) = s.mem (!s.cb) :=
    poke_other_page _ _ _ _ (bool_not_ne _)
  refine ⟨h.blen, h.nod, by rw [hlen]; exact h.size, by rw [hlen]; exact h.len, h.off, h.ne, fun _ => rfl, h.reqLt,
    h.nul, h.pend, ?_, ?_, ?_⟩
  · intro k b hb
    have hk : k < q * P := by
      rw [← h.blen]; exact (List.getElem?_eq_some_iff.1 hb).1
    refine (h.dsk k b hb).mono (fun f hf => hf.setLast (hlow k hk) v) (fun _ _ => Iff.rfl) rfl (fun i r hp => ?_)
    dsimp only
    rw [(h.pend i r hp).1, hmem]
  · intro hq i hi
    dsimp only
    exact (h.ovl hq i hi).mono (fun f hf => hf.setLast (hlow _ (hpg i hq hi)) v) (fun _ _ => Iff.rfl) rfl (by dsimp only; rw [hmem])
  · intro i hi x w hx hw
    dsimp only
    by_cases he : i = (s.off - 1) / B ∧ x = (s.off - 1) % B
    · obtain ⟨rfl, rfl⟩ := he
      rw [h3, List.getElem?_append_right (by simp)] at hw
      simp at hw
      rw [Normal.poke_same]; exact hw
    · have hne : (q * P + i) * B + x ≠ l.length - 1 := by
        intro hc
        apply he
        have : B * (q * P + i) + x = B * (q * P + (s.off - 1) / B) + (s.off - 1) % B := by
          rw [Nat.mul_comm B, Nat.mul_comm B]; omega
        have e1 := congrArg (· / B) this
        have e2 := congrArg (· % B) this
        simp only [Nat.mul_add_div hB, Nat.div_eq_of_lt hx, Nat.div_eq_of_lt h2, Nat.mul_add_mod, Nat.mod_eq_of_lt hx,
          Nat.mod_eq_of_lt h2] at e1 e2
        omega
      have hpk := Normal.poke_ne s.mem v (c := (s.cb, (s.off - 1) / B, (s.off - 1) % B)) (d := (s.cb, i, x)) (by
        intro hc
        simp at hc
        exact he ⟨hc.1, hc.2⟩)
      simp only at hpk
      rw [hpk]
      · refine h.cache i hi x w hx ?_
        by_cases hlt : (q * P + i) * B + x < l.length - 1
        · rw [List.getElem?_append_left (by simp; omega), List.getElem?_dropLast, if_pos hlt] at hw
          exact hw
        · rw [List.getElem?_eq_none (by rw [hlen]; omega)] at hw; simp at hw

theorem step_ok (hB : 0 < B) (hP : 0 < P) {s : Gs α} {l q} (h : Inv B P s l q) {fresh : List Nat} {op : Op α}
    (sched : Nat → List Nat)
    (hl : specLegal l op) (f1 : fresh.length = P) (f2 : fresh.Nodup) (f3 : ∀ b ∈ fresh, b ∉ s.bids) :
    ∃ s' q', step B P s fresh sched op = some s' ∧ Inv B P s' (specStep l op) q' := by
  cases op with
  | push v => exact push_inv hB hP h v sched f1 f2 f3
  | pop => exact pop_inv hB hP h sched hl
  | setTop v => obtain ⟨s', h1, h2⟩ := setTop_inv hB hP h v hl; exact ⟨s', q, h1, h2⟩

theorem reach_inv (hB : 0 < B) (hP : 0 < P) {s : Gs α} {l} (h : Reach B P s l) : ∃ q, Inv B P s l q := by
  induction h with
  | new mem disk => exact ⟨0, inv_new mem disk⟩
  | step fresh sched op _ hl f1 f2 f3 hs ih =>
    obtain ⟨q, hi⟩ := ih
    obtain ⟨s', q', h1, h2⟩ := step_ok hB hP hi sched hl f1 f2 f3
    rw [hs] at h1; cases h1
    exact ⟨q', h2⟩
  | serve i _ ih =>
    obtain ⟨q, hi⟩ := ih
    exact ⟨q, inv_serve hi i⟩
  | @foreign s l b c _ hb ih =>
    obtain ⟨q, hi⟩ := ih
    have hne : ∀ (k : Nat) b', s.bids[k]? = some b' → b' ≠ b := by
      rintro k b' hk rfl; exact hb (List.mem_of_getElem? hk)
    refine ⟨q, { hi with dsk := ?_, ovl := ?_ }⟩
    · intro k b' hb'
      refine ⟨(hi.dsk k b' hb').1, fun hn => ?_⟩
      dsimp only
      rw [upd_ne _ _ (hne k b' hb')]
      exact (hi.dsk k b' hb').2 hn
    · intro hq i hlt
      refine ⟨fun r hp hw hpg => ?_, (hi.ovl hq i hlt).2⟩
      dsimp only
      rw [upd_ne _ _ (hne _ r.bid (hi.pend i r hp).2.2)]
      exact (hi.ovl hq i hlt).1 r hp hw hpg

end Gs

/-- **C12** `grow_shrink_stack`: after every history with any completion schedule of the disk requests, `top()`,
`size()` and `empty()` are those of the in-memory stack that went through the same operations. -/
theorem C12_observers {α : Type} {B P : Nat} (hB : 0 < B) (hP : 0 < P) {s : Gs α} {l : List α}
    (h : Gs.Reach B P s l) :
    s.top = specTop l ∧ s.size = l.length ∧ s.isEmpty = l.isEmpty := by
  obtain ⟨q, hi⟩ := Gs.reach_inv hB hP h
  refine ⟨Gs.top_inv hB hP hi, hi.size, ?_⟩
  simp only [Gs.isEmpty, hi.size]
  cases l <;> simp

/-- **C12** `grow_shrink_stack`: every operation whose precondition holds on the in-memory stack succeeds: no assertion
fails, no index is out of range, no null request is waited for, and no request is forgotten while it is outstanding. -/
theorem C12_no_failure {α : Type} {B P : Nat} (hB : 0 < B) (hP : 0 < P) {s : Gs α} {l : List α}
    (h : Gs.Reach B P s l) (op : Op α) (hl : specLegal l op) (fresh : List Nat) (sched : Nat → List Nat)
    (f1 : fresh.length = P) (f2 : fresh.Nodup) (f3 : ∀ b ∈ fresh, b ∉ s.bids) :
    ∃ s', Gs.step B P s fresh sched op = some s' ∧ Gs.Reach B P s' (specStep l op) := by
  obtain ⟨q, hi⟩ := Gs.reach_inv hB hP h
  obtain ⟨s', q', h1, _⟩ := Gs.step_ok hB hP hi sched hl f1 f2 f3
  exact ⟨s', h1, .step fresh sched op h hl f1 f2 f3 h1⟩

/-- **C12** While a request is outstanding, its buffer is not the one that the element returned by `top()` lives in, so
the user never modifies a buffer in flight; and its block still belongs to the stack (in particular nothing is
outstanding on a block that `pop` has given back to the block manager). -/
theorem C12_no_access_in_flight {α : Type} {B P : Nat} (hB : 0 < B) (hP : 0 < P) {s : Gs α} {l : List α}
    (h : Gs.Reach B P s l) {i : Nat} {r : Req} (hr : s.reqs i = some r) (hd : r.done = false) :
    r.bid ∈ s.bids ∧ ∀ c, s.cur = some c → c.1 ≠ r.page := by
  obtain ⟨q, hi⟩ := Gs.reach_inv hB hP h
  obtain ⟨h1, h2, h3⟩ := hi.pend i r ⟨hr, hd⟩
  refine ⟨List.mem_of_getElem? h3, fun c hc => ?_⟩
  rw [hi.cur (hi.ne h2)] at hc
  cases hc
  rw [h1]
  exact fun e => Gs.bool_not_ne _ e.symm

/-- **C12** The destructor finds every request pointer it waits for set, and when it starts to delete blocks and buffers
no request is outstanding. -/
theorem C12_destructor {α : Type} {B P : Nat} (hB : 0 < B) (hP : 0 < P) {s : Gs α} {l : List α}
    (h : Gs.Reach B P s l) :
    ∃ s', Gs.destroy P s = some s' ∧ s'.bids = s.bids ∧ ∀ i r, s'.reqs i = some r → r.done = true := by
  obtain ⟨q, hi⟩ := Gs.reach_inv hB hP h
  have key : ∀ s' : Gs α, (∀ j r, ¬ Gs.Pend s' j r) → ∀ i r, s'.reqs i = some r → r.done = true := by
    intro s' hn i r hr
    cases hd : r.done with
    | true => rfl
    | false => exact absurd ⟨hr, hd⟩ (hn i r)
  unfold Gs.destroy Gs.waitAllIf
  cases hr : s.reqs 0 with
  | none =>
    refine ⟨s, rfl, rfl, key s ?_⟩
    intro j r hp
    rcases hi.nul with ⟨_, h'⟩ | h'
    · by_cases hj : j < P
      · have := h' j hj; rw [hp.1] at this; simp at this
      · have := hi.reqLt j (by omega); rw [hp.1] at this; simp at this
    · exact h' 0 hP hr
  | some r =>
    have hall : ∀ j, j < P → s.reqs j ≠ none := by
      rcases hi.nul with ⟨_, h'⟩ | h'
      · have := h' 0 hP; rw [hr] at this; simp at this
      · exact h'
    obtain ⟨s', h1, _, h3, h4⟩ := Gs.waitAll_inv (B := B) P 0 s (by omega) hi hall (by simp)
    exact ⟨s', h1, h3.bids, key s' h4⟩

/-- Non-vacuity: block size 1, one block per page; three pushes, the first overflow write still outstanding until the
second overflow waits for it; after a pop the prefetch read is outstanding, and served later. -/
example : ∃ s : Gs Nat, Gs.Reach 1 1 s [10, 11] ∧ s.top = some 11 ∧ s.disk 5 0 = 10 ∧ s.mem (!s.cb) 0 0 = 12 ∧
    (s.reqs 0).map (fun r => (r.isWrite, r.page, r.bid, r.done)) = some (false, !s.cb, 5, false) := by
  let z : Gs Nat := Gs.new (fun _ _ _ => 0) (fun _ _ => 0)
  have h0 : Gs.Reach 1 1 (Gs.new (α := Nat) (fun _ _ _ => 0) (fun _ _ => 0)) [] := .new _ _
  have h1 := Gs.Reach.step [5] (fun _ => []) (.push 10) h0 trivial rfl (by decide) (by decide) (some_getD (d := z) (by decide))
  have h2 := Gs.Reach.step [5] (fun _ => []) (.push 11) h1 trivial rfl (by decide) (by decide) (some_getD (d := z) (by decide))
  have h3 := Gs.Reach.step [6] (fun _ => []) (.push 12) h2 trivial rfl (by decide) (by decide) (some_getD (d := z) (by decide))
  have h4 := Gs.Reach.step [8] (fun _ => []) .pop h3 (by simp [specLegal, specStep]) rfl (by decide) (by decide) (some_getD (d := z) (by decide))
  exact ⟨_, h4, by decide, by decide, by decide, by decide⟩

end Stxxl.Stack
