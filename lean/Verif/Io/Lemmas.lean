import Verif.Io.Model
import Verif.ExtVector.Lemmas

/-!
# Facts about serving, waiting and cancelling
-/

namespace Stxxl.Io
open Stxxl.ExtVector (upd)

namespace Io
variable {β : Type}

/-- Request `i` is outstanding. -/
def Pend (s : Io β) (i : Nat) (r : Rq) : Prop := s.rqs[i]? = some r ∧ r.st = .pending

/-- No write to `bid` is outstanding. -/
def NoPW (s : Io β) (bid : Nat) : Prop := ∀ i r, Pend s i r → r.isWrite = true → r.bid ≠ bid

/-- Outstanding requests have different buffers. -/
def NoAlias (s : Io β) : Prop := ∀ i j r r', Pend s i r → Pend s j r' → r.buf = r'.buf → i = j

/-- Write `i` to `bid` is the newest outstanding one. -/
def Newest (s : Io β) (i bid : Nat) : Prop := ∀ j r, Pend s j r → r.isWrite = true → r.bid = bid → j ≤ i

/-- Once everything outstanding is served, block `bid` contains `c`. -/
def DiskIs (s : Io β) (bid : Nat) (c : β) : Prop :=
  (∀ i r, Pend s i r → r.isWrite = true → r.bid = bid → Newest s i bid → s.mem r.buf = c) ∧ (NoPW s bid → s.disk bid = c)

theorem Pend.uniq {s : Io β} {i r r'} (h : Pend s i r) (h' : Pend s i r') : r' = r := by
  have := h.1.symm.trans h'.1; simpa using this.symm

/-- What serving does. -/
theorem serve_cases (s : Io β) (i : Nat) :
    serve s i = s ∨
    (∃ r, Pend s i r ∧ r.isWrite = true ∧ (∀ j r', j < i → Pend s j r' → r'.isWrite = true → r'.bid ≠ r.bid) ∧
      serve s i = { s with disk := upd s.disk r.bid (s.mem r.buf), rqs := s.rqs.set i { r with st := .done } }) ∨
    (∃ r, Pend s i r ∧ r.isWrite = false ∧
      serve s i = { s with mem := upd s.mem r.buf (s.disk r.bid), rqs := s.rqs.set i { r with st := .done } }) := by
  unfold serve
  cases hr : s.rqs[i]? with
  | none => exact .inl rfl
  | some r =>
    simp only
    by_cases hp : r.st = .pending
    · rw [if_neg (by simp [hp])]
      by_cases hw : r.isWrite = true
      · rw [if_pos hw]
        by_cases hb : blocked s i r.bid = true
        · rw [if_pos hb]; exact .inl rfl
        · rw [if_neg hb]
          refine .inr (.inl ⟨r, ⟨hr, hp⟩, hw, ?_, rfl⟩)
          intro j r' hj hp' hw' he
          apply hb
          unfold blocked
          rw [List.any_eq_true]
          refine ⟨r', ?_, by simp [hp'.2, hw', he]⟩
          have : (s.rqs.take i)[j]? = some r' := by rw [List.getElem?_take, if_pos hj]; exact hp'.1
          exact List.mem_of_getElem? this
      · rw [if_neg hw]
        exact .inr (.inr ⟨r, ⟨hr, hp⟩, by simpa using hw, rfl⟩)
    · rw [if_pos hp]; exact .inl rfl

/-- Changing the state of request `i` from pending to something else. -/
theorem pend_set {s : Io β} {i : Nat} {r : Rq} (h : Pend s i r) {st : St} (hst : st ≠ .pending) (m d : Nat → β) (j : Nat) (r' : Rq) :
    Pend { s with mem := m, disk := d, rqs := s.rqs.set i { r with st := st } } j r' ↔ j ≠ i ∧ Pend s j r' := by
  unfold Pend
  dsimp only
  rw [List.getElem?_set]
  have hlt : i < s.rqs.length := (List.getElem?_eq_some_iff.1 h.1).1
  by_cases hj : i = j
  · subst hj
    rw [if_pos rfl, if_pos hlt]
    simp
    rintro rfl; exact hst
  · rw [if_neg hj]
    exact ⟨fun h => ⟨fun e => hj e.symm, h⟩, fun h => h.2⟩

/-- All requests, after some of them have been served or cancelled: nothing but the state changes. -/
structure Later (s s' : Io β) : Prop where
  len : s'.rqs.length = s.rqs.length
  keep : ∀ (i : Nat) (r : Rq), s.rqs[i]? = some r → ∃ r' : Rq, s'.rqs[i]? = some r' ∧ r'.isWrite = r.isWrite ∧ r'.buf = r.buf ∧ r'.bid = r.bid ∧
    (r.st ≠ .pending → r' = r) ∧ (r'.st = .pending → r' = r)

theorem Later.refl (s : Io β) : Later s s := ⟨rfl, fun _ r h => ⟨r, h, rfl, rfl, rfl, fun _ => rfl, fun _ => rfl⟩⟩

theorem Later.trans {a b c : Io β} (h : Later a b) (h' : Later b c) : Later a c := by
  refine ⟨h'.len.trans h.len, fun i r hi => ?_⟩
  obtain ⟨r1, e1, a1, b1, c1, d1, f1⟩ := h.keep i r hi
  obtain ⟨r2, e2, a2, b2, c2, d2, f2⟩ := h'.keep i r1 e1
  refine ⟨r2, e2, a2.trans a1, b2.trans b1, c2.trans c1, fun hn => ?_, fun hp => ?_⟩
  · have := d1 hn; subst this; exact d2 hn
  · have := f2 hp; subst this; exact f1 hp

theorem Later.back {s s' : Io β} (h : Later s s') {i : Nat} {r' : Rq} (hi : s'.rqs[i]? = some r') :
    ∃ r : Rq, s.rqs[i]? = some r ∧ r'.isWrite = r.isWrite ∧ r'.buf = r.buf ∧ r'.bid = r.bid ∧
      (r.st ≠ .pending → r' = r) ∧ (r'.st = .pending → r' = r) := by
  have hlt : i < s.rqs.length := by rw [← h.len]; exact (List.getElem?_eq_some_iff.1 hi).1
  obtain ⟨r1, e1, rest⟩ := h.keep i _ (List.getElem?_eq_getElem hlt)
  rw [hi] at e1; cases e1
  exact ⟨_, List.getElem?_eq_getElem hlt, rest⟩

theorem Later.pend {s s' : Io β} (h : Later s s') {i : Nat} {r : Rq} (hp : Pend s' i r) : Pend s i r := by
  obtain ⟨r0, e0, _, _, _, _, h2⟩ := h.back hp.1
  have := h2 hp.2; subst this
  exact ⟨e0, hp.2⟩

theorem later_set {s : Io β} {i : Nat} {r : Rq} (h : Pend s i r) (st : St) (hst : st ≠ .pending) (m d : Nat → β) :
    Later s { s with mem := m, disk := d, rqs := s.rqs.set i { r with st := st } } := by
  have hlt : i < s.rqs.length := (List.getElem?_eq_some_iff.1 h.1).1
  refine ⟨by simp, fun j r' hj => ?_⟩
  dsimp only
  rw [List.getElem?_set]
  by_cases hij : i = j
  · subst hij
    have e : r' = r := by rw [h.1] at hj; simpa using hj.symm
    subst e
    rw [if_pos rfl, if_pos hlt]
    exact ⟨_, rfl, rfl, rfl, rfl, fun hn => absurd h.2 hn, fun hp => absurd hp hst⟩
  · rw [if_neg hij]
    exact ⟨r', hj, rfl, rfl, rfl, fun _ => rfl, fun _ => rfl⟩

theorem serve_later (s : Io β) (i : Nat) : Later s (serve s i) := by
  rcases serve_cases s i with h | ⟨r, h1, _, _, h⟩ | ⟨r, h1, _, h⟩
  · rw [h]; exact Later.refl s
  · rw [h]; exact later_set h1 .done (by simp) _ _
  · rw [h]; exact later_set h1 .done (by simp) _ _

theorem serveAll_later (s : Io β) (l : List Nat) : Later s (serveAll s l) := by
  induction l generalizing s with
  | nil => exact Later.refl s
  | cons i l ih => exact (serve_later s i).trans (ih _)

theorem serveWrites_later (s : Io β) (bid k : Nat) : Later s (serveWrites s bid k) := by
  induction k with
  | zero => exact Later.refl s
  | succ k ih =>
    unfold serveWrites
    dsimp only
    split
    · exact ih.trans (serve_later _ _)
    · exact ih

theorem NoAlias.later {s s' : Io β} (h : NoAlias s) (hl : Later s s') : NoAlias s' :=
  fun i j r r' hi hj he => h i j r r' (hl.pend hi) (hl.pend hj) he

/-- Anything preserved by `serve` is preserved by `serveAll`, `serveWrites` and `wait`. -/
theorem serveAll_ind {P : Io β → Prop} (hP : ∀ s i, P s → P (serve s i)) (l : List Nat) : ∀ s, P s → P (serveAll s l) := by
  induction l with
  | nil => intro s h; exact h
  | cons i l ih => intro s h; exact ih _ (hP s i h)

theorem serveWrites_ind {P : Io β → Prop} (hP : ∀ s i, P s → P (serve s i)) (s : Io β) (bid k : Nat) (h : P s) : P (serveWrites s bid k) := by
  induction k with
  | zero => exact h
  | succ k ih =>
    unfold serveWrites
    dsimp only
    split
    · exact hP _ _ ih
    · exact ih

theorem wait_ind {P : Io β → Prop} (hP : ∀ s i, P s → P (serve s i)) {s s' : Io β} {i : Nat} (hw : wait s i = some s') (h : P s) : P s' := by
  unfold wait at hw
  cases hr : s.rqs[i]? with
  | none => rw [hr] at hw; simp at hw
  | some r =>
    rw [hr] at hw
    simp only at hw
    split at hw <;> cases hw
    · exact serveWrites_ind hP _ _ _ h
    · exact hP _ _ h

theorem wait_later {s s' : Io β} {i : Nat} (hw : wait s i = some s') : Later s s' :=
  wait_ind (P := fun x => Later s x) (fun x j h => h.trans (serve_later x j)) hw (Later.refl s)

theorem wait_some {s : Io β} {i : Nat} {r : Rq} (h : s.rqs[i]? = some r) : ∃ s', wait s i = some s' := by
  unfold wait; rw [h]; simp only
  split
  · exact ⟨_, rfl⟩
  · exact ⟨_, rfl⟩

theorem serveWrites_clear (s : Io β) (bid k : Nat) :
    ∀ j r, j < k → Pend (serveWrites s bid k) j r → r.isWrite = true → r.bid ≠ bid := by
  induction k with
  | zero => intro j r hj; omega
  | succ k ih =>
    intro j r hj hp hw he
    unfold serveWrites at hp
    dsimp only at hp
    by_cases hc : ((serveWrites s bid k).rqs[k]?.any fun r => r.isWrite && decide (r.bid = bid)) = true
    · rw [if_pos hc] at hp
      have hp0 := (serve_later _ k).pend hp
      by_cases hjk : j < k
      · exact ih j r hjk hp0 hw he
      · have : j = k := by omega
        subst this
        rcases serve_cases (serveWrites s bid j) j with h | ⟨r1, h1, _, _, h⟩ | ⟨r1, h1, hf, h⟩
        · -- serving had no effect, although request j was not blocked
          have hnb : blocked (serveWrites s bid j) j r.bid = false := by
            unfold blocked
            rw [List.any_eq_false]
            intro r2 hr2 hcon
            simp at hcon
            obtain ⟨n, hn⟩ := List.getElem?_of_mem hr2
            rw [List.getElem?_take] at hn
            split at hn
            · rename_i hnj
              exact ih n r2 hnj ⟨hn, hcon.1.1⟩ hcon.1.2 (by rw [hcon.2, he])
            · simp at hn
          have : serve (serveWrites s bid j) j = { (serveWrites s bid j) with
              disk := upd (serveWrites s bid j).disk r.bid ((serveWrites s bid j).mem r.buf)
              rqs := (serveWrites s bid j).rqs.set j { r with st := .done } } := by
            unfold serve
            rw [hp0.1]
            simp only
            rw [if_neg (by simp [hp0.2]), if_pos hw, if_neg (by simp [hnb])]
          rw [this] at hp
          exact ((pend_set hp0 (by simp) _ _ _ _).1 hp).1 rfl
        · rw [h] at hp
          exact ((pend_set h1 (by simp) _ _ _ _).1 hp).1 rfl
        · rw [h] at hp
          exact ((pend_set h1 (by simp) _ _ _ _).1 hp).1 rfl
    · rw [if_neg hc] at hp
      by_cases hjk : j < k
      · exact ih j r hjk hp hw he
      · have : j = k := by omega
        subst this
        apply hc
        rw [hp.1]
        simp [hw, he]

/-- After `wait` the request is not outstanding. -/
theorem wait_done {s s' : Io β} {i : Nat} (hw : wait s i = some s') (r : Rq) : ¬ Pend s' i r := by
  intro hp
  have hl := wait_later hw
  have hp0 := hl.pend hp
  unfold wait at hw
  rw [hp0.1] at hw
  simp only at hw
  by_cases hwr : r.isWrite = true
  · rw [if_pos hwr] at hw
    cases hw
    exact serveWrites_clear s r.bid (i + 1) i r (by omega) hp hwr rfl
  · rw [if_neg hwr] at hw
    cases hw
    unfold serve at hp
    rw [hp0.1] at hp
    simp only at hp
    rw [if_neg (by simp [hp0.2]), if_neg hwr] at hp
    exact ((pend_set hp0 (by simp) _ _ _ _).1 hp).1 rfl

/-- Serving keeps what the disk will contain. -/
theorem DiskIs.serve {s : Io β} (hn : NoAlias s) {bid : Nat} {c : β} (h : DiskIs s bid c) (i : Nat) : DiskIs (serve s i) bid c := by
  rcases serve_cases s i with e | ⟨r, hp, hw, hold, e⟩ | ⟨r, hp, hw, e⟩
  · rw [e]; exact h
  · rw [e]
    have hpe := pend_set hp (st := .done) (by simp) s.mem (upd s.disk r.bid (s.mem r.buf))
    refine ⟨fun j r' hj hw' hb hnew => ?_, fun hno => ?_⟩
    · obtain ⟨hji, hj'⟩ := (hpe j r').1 hj
      refine h.1 j r' hj' hw' hb (fun k r'' hk hwk hbk => ?_)
      by_cases hki : k = i
      · subst hki
        have := hk.uniq hp; subst this
        -- i is not blocked, so j is newer
        rcases Nat.lt_or_ge j k with hlt | hge
        · exact absurd (by rw [hb, hbk]) (hold j r' hlt hj' hw')
        · omega
      · exact hnew k r'' ((hpe k r'').2 ⟨hki, hk⟩) hwk hbk
    · dsimp only
      by_cases hb : r.bid = bid
      · subst hb
        rw [ExtVector.upd_same]
        refine h.1 i r hp hw rfl (fun k r' hk hwk hbk => ?_)
        by_cases hki : k = i
        · omega
        · exact absurd hbk (hno k r' ((hpe k r').2 ⟨hki, hk⟩) hwk)
      · rw [ExtVector.upd_ne _ _ (fun e => hb e.symm)]
        refine h.2 (fun k r' hk hwk => ?_)
        by_cases hki : k = i
        · subst hki; have := hk.uniq hp; subst this; exact hb
        · exact hno k r' ((hpe k r').2 ⟨hki, hk⟩) hwk
  · rw [e]
    have hpe := pend_set hp (st := .done) (by simp) (upd s.mem r.buf (s.disk r.bid)) s.disk
    have hback : ∀ k r', Pend s k r' → r'.isWrite = true → k ≠ i := by
      intro k r' hk hwk hki
      subst hki; have := hk.uniq hp; subst this; rw [hw] at hwk; simp at hwk
    refine ⟨fun j r' hj hw' hb hnew => ?_, fun hno => ?_⟩
    · obtain ⟨hji, hj'⟩ := (hpe j r').1 hj
      dsimp only
      rw [ExtVector.upd_ne]
      · exact h.1 j r' hj' hw' hb (fun k r'' hk hwk hbk => hnew k r'' ((hpe k r'').2 ⟨hback k r'' hk hwk, hk⟩) hwk hbk)
      · intro hbuf
        exact hji (hn j i r' r hj' hp hbuf)
    · exact h.2 (fun k r' hk hwk => hno k r' ((hpe k r').2 ⟨hback k r' hk hwk, hk⟩) hwk)

/-- A buffer that belongs to no outstanding read is not changed by serving. -/
theorem serve_mem {s : Io β} {b : Nat} (h : ∀ i r, Pend s i r → r.isWrite = false → r.buf ≠ b) (i : Nat) : (serve s i).mem b = s.mem b := by
  rcases serve_cases s i with e | ⟨r, hp, hw, hold, e⟩ | ⟨r, hp, hw, e⟩
  · rw [e]
  · rw [e]
  · rw [e]
    dsimp only
    rw [ExtVector.upd_ne _ _ (fun he => h i r hp hw he.symm)]

theorem NoPW.later {s s' : Io β} {bid : Nat} (h : NoPW s bid) (hl : Later s s') : NoPW s' bid :=
  fun i r hp => h i r (hl.pend hp)

/-- Issuing a request. -/
theorem pend_issue {s : Io β} {w : Bool} {buf bid : Nat} {j : Nat} {r : Rq} :
    Pend (issue s w buf bid) j r ↔ (j = s.rqs.length ∧ r = ⟨w, buf, bid, .pending⟩) ∨ Pend s j r := by
  unfold Pend issue
  dsimp only
  by_cases h : j < s.rqs.length
  · rw [List.getElem?_append_left h]
    exact ⟨fun hh => .inr hh, fun hh => hh.resolve_left (fun x => by omega)⟩
  · rw [List.getElem?_append_right (by omega), List.getElem?_eq_none (l := s.rqs) (by omega)]
    by_cases h2 : j = s.rqs.length
    · subst h2
      simp
      constructor
      · rintro ⟨rfl, _⟩; rfl
      · rintro rfl; exact ⟨rfl, rfl⟩
    · have : j - s.rqs.length ≠ 0 := by omega
      rw [List.getElem?_eq_none (by simp; omega)]
      simp [h2]

theorem issue_get {s : Io β} {w : Bool} {buf bid : Nat} {j : Nat} {r : Rq} (h : s.rqs[j]? = some r) :
    (issue s w buf bid).rqs[j]? = some r := by
  unfold issue
  dsimp only
  rw [List.getElem?_append_left (List.getElem?_eq_some_iff.1 h).1]; exact h

theorem issue_get_new (s : Io β) (w : Bool) (buf bid : Nat) :
    (issue s w buf bid).rqs[s.rqs.length]? = some ⟨w, buf, bid, .pending⟩ := by
  simp [issue]

theorem cancel_cases (s : Io β) (ok : Bool) (i : Nat) :
    cancel s ok i = s ∨ ∃ r, Pend s i r ∧ cancel s ok i = { s with rqs := s.rqs.set i { r with st := .cancelled } } := by
  unfold cancel
  cases hr : s.rqs[i]? with
  | none => exact .inl rfl
  | some r =>
    simp only
    split
    · rename_i h; exact .inr ⟨r, ⟨hr, h.1⟩, rfl⟩
    · exact .inl rfl

theorem cancel_later (s : Io β) (ok : Bool) (i : Nat) : Later s (cancel s ok i) := by
  rcases cancel_cases s ok i with h | ⟨r, hp, h⟩
  · rw [h]; exact Later.refl s
  · rw [h]; exact later_set hp .cancelled (by simp) _ _

theorem cancel_mem (s : Io β) (ok : Bool) (i : Nat) : (cancel s ok i).mem = s.mem ∧ (cancel s ok i).disk = s.disk := by
  rcases cancel_cases s ok i with h | ⟨r, hp, h⟩ <;> rw [h] <;> exact ⟨rfl, rfl⟩

theorem cancel_pend (s : Io β) (ok : Bool) (i : Nat) {j : Nat} {r : Rq} (hj : j ≠ i) (h : Pend s j r) : Pend (cancel s ok i) j r := by
  rcases cancel_cases s ok i with e | ⟨r', hp, e⟩
  · rw [e]; exact h
  · rw [e]; exact (pend_set hp (by simp) _ _ _ _).2 ⟨hj, h⟩

theorem cancel_get (s : Io β) (ok : Bool) (i : Nat) {j : Nat} {r : Rq} (hj : j ≠ i) (h : s.rqs[j]? = some r) :
    (cancel s ok i).rqs[j]? = some r := by
  rcases cancel_cases s ok i with e | ⟨r', hp, e⟩
  · rw [e]; exact h
  · rw [e]; dsimp only; rw [List.getElem?_set, if_neg (fun e => hj e.symm)]; exact h

end Io
end Stxxl.Io
