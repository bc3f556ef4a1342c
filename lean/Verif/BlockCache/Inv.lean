import Verif.BlockCache.Model
import Verif.NodeCache.Inv
import Mathlib.Data.List.Nodup

/-! Invariant of the block cache: auxiliary definitions and the write buffer. -/

namespace BlockCache
open Stxxl.Pager (Lru)
open Spec (Op Out M Sure Pre Post AllHeld tidy bring next)

variable {V : Type}

@[simp] theorem upd_self {α : Type} (f : Nat → α) (k : Nat) (v : α) : upd f k v k = v := by simp [upd]
theorem upd_ne {α : Type} (f : Nat → α) {k i : Nat} (v : α) (h : i ≠ k) : upd f k v i = f i := by simp [upd, h]

/-- No write of block `b` is outstanding. -/
def NoReq (s : St V) (b : Nat) : Prop := ∀ j, s.wreq j ≠ some b

/-- External memory holds `x` as block `b`, once the outstanding writes are done. -/
def Stored (s : St V) (b : Nat) (x : Nat → V) : Prop :=
  (∀ j, s.wreq j = some b → s.wbuf j = x) ∧ (NoReq s b → s.disk b = x)

/-- The write buffer is in order. -/
structure WB (c : Cfg) (s : St V) : Prop where
  perm : (s.wfree ++ s.wbusy).Perm (List.range c.m)
  busy : ∀ j b, s.wreq j = some b → j ∈ s.wbusy
  uniq : ∀ j j' b, s.wreq j = some b → s.wreq j' = some b → j = j'

theorem complete_none {s : St V} {j : Nat} (h : s.wreq j = none) : complete s j = s := by
  simp [complete, h]

theorem complete_wreq (s : St V) (j j' : Nat) :
    (complete s j).wreq j' = if j' = j then none else s.wreq j' := by
  unfold complete
  rcases h : s.wreq j with _ | b
  · by_cases hj : j' = j
    · subst hj; simp [h]
    · simp [hj]
  · simp [upd]

theorem complete_same (s : St V) (j : Nat) :
    complete s j = { s with disk := (complete s j).disk, wreq := (complete s j).wreq } := by
  unfold complete
  rcases s.wreq j with _ | b <;> rfl

theorem noReq_complete {s : St V} {b : Nat} (h : NoReq s b) (j : Nat) : NoReq (complete s j) b := by
  intro j'
  rw [complete_wreq]
  split
  · simp
  · exact h j'

theorem disk_complete_ne {s : St V} {b : Nat} (h : NoReq s b) (j : Nat) : (complete s j).disk b = s.disk b := by
  unfold complete
  rcases hj : s.wreq j with _ | b'
  · rfl
  · dsimp only
    rw [upd_ne]
    intro he; subst he; exact h j hj

theorem stored_complete {c : Cfg} {s : St V} (hw : WB c s) {b : Nat} {x : Nat → V} (h : Stored s b x) (j : Nat) :
    Stored (complete s j) b x := by
  obtain ⟨h1, h2⟩ := h
  refine ⟨?_, ?_⟩
  · intro j' hj'
    rw [complete_wreq] at hj'
    split at hj'
    · cases hj'
    · rw [complete_same]; exact h1 j' hj'
  · intro hn
    by_cases hj : s.wreq j = some b
    · have : (complete s j).disk b = s.wbuf j := by simp [complete, hj]
      rw [this]; exact h1 j hj
    · have hno : NoReq s b := by
        intro j' hj'
        have := hn j'
        rw [complete_wreq] at this
        by_cases he : j' = j
        · subst he; exact hj hj'
        · rw [if_neg he] at this; exact this hj'
      rw [disk_complete_ne hno]; exact h2 hno

theorem wb_complete {c : Cfg} {s : St V} (hw : WB c s) (j : Nat) : WB c (complete s j) := by
  refine ⟨?_, ?_, ?_⟩
  · rw [complete_same]; exact hw.perm
  · intro j' b h
    rw [complete_wreq] at h
    rw [complete_same]
    split at h
    · cases h
    · exact hw.busy j' b h
  · intro j1 j2 b h1 h2
    rw [complete_wreq] at h1 h2
    split at h1
    · cases h1
    · split at h2
      · cases h2
      · exact hw.uniq j1 j2 b h1 h2

/-- Getting a write buffer. -/
theorem freeBuf_ok {c : Cfg} {s : St V} (hw : WB c s) (hm : 0 < c.m) :
    ∃ j s0 f q, freeBuf s = some (j, { s0 with wfree := f, wbusy := q }) ∧ (s0 = s ∨ s0 = complete s j) ∧
      s0.wreq j = none ∧ (f ++ (q ++ [j])).Perm (List.range c.m) ∧ (∀ j' b, s0.wreq j' = some b → j' ∈ q) := by
  unfold freeBuf
  have hp := hw.perm
  rcases hf : s.wfree with _ | ⟨j, fr⟩
  · rcases hb : s.wbusy with _ | ⟨j, bs⟩
    · rw [hf, hb] at hp
      have := hp.length_eq
      simp at this; omega
    · refine ⟨j, complete s j, (complete s j).wfree, bs, rfl, .inr rfl, ?_, ?_, ?_⟩
      · rw [complete_wreq, if_pos rfl]
      · have : (complete s j).wfree = s.wfree := by rw [complete_same]
        rw [this, hf]
        rw [hf, hb] at hp
        exact (List.perm_append_comm (l₁ := bs) (l₂ := [j])).trans hp
      · intro j' b h
        rw [complete_wreq] at h
        split at h
        · cases h
        · rename_i hne
          have := hw.busy j' b h
          rw [hb] at this
          rcases List.mem_cons.1 this with h' | h'
          · exact absurd h' hne
          · exact h'
  · refine ⟨j, s, fr, s.wbusy, rfl, .inl rfl, ?_, ?_, ?_⟩
    · rcases h : s.wreq j with _ | b
      · rfl
      · have := hw.busy j b h
        rw [hf] at hp
        have hnd : (j :: fr ++ s.wbusy).Nodup := hp.nodup_iff.2 List.nodup_range
        simp only [List.cons_append, List.nodup_cons, List.mem_append] at hnd
        exact absurd (.inr this) hnd.1
    · rw [hf] at hp
      refine List.Perm.trans ?_ hp
      rw [← List.append_assoc]
      exact List.perm_append_comm (l₁ := fr ++ s.wbusy) (l₂ := [j])
    · exact hw.busy

/-! ### Draining -/

/-- Some outstanding writes get done: only `disk` and `wreq` change. -/
inductive Done (s : St V) : St V → Prop where
  | refl : Done s s
  | step {t} (j : Nat) : Done s t → Done s (complete t j)

theorem done_foldl (b : Nat) (l : List Nat) (s t : St V) (h : Done s t) :
    Done s (l.foldl (fun s j => if s.wreq j = some b then complete s j else s) t) := by
  induction l generalizing t with
  | nil => exact h
  | cons j l ih =>
    rw [List.foldl_cons]
    apply ih
    split
    · exact .step j h
    · exact h

theorem drain_done (c : Cfg) (s : St V) (b : Nat) : Done s (drain c s b) := by
  unfold drain
  split
  · exact done_foldl b _ s s .refl
  · exact .refl

theorem done_same {s t : St V} (h : Done s t) : t = { s with disk := t.disk, wreq := t.wreq } := by
  induction h with
  | refl => rfl
  | step j h ih =>
    rename_i t
    rw [complete_same, ih]

theorem done_wb {c : Cfg} {s t : St V} (hw : WB c s) (h : Done s t) : WB c t := by
  induction h with
  | refl => exact hw
  | step j h ih => exact wb_complete ih j

theorem done_noReq {s t : St V} {b : Nat} (hn : NoReq s b) (h : Done s t) : NoReq t b := by
  induction h with
  | refl => exact hn
  | step j h ih => exact noReq_complete ih j

theorem done_disk {s t : St V} {b : Nat} (hn : NoReq s b) (h : Done s t) : t.disk b = s.disk b := by
  induction h with
  | refl => rfl
  | step j h ih => rw [disk_complete_ne (done_noReq hn h), ih]

theorem done_stored {c : Cfg} {s t : St V} (hw : WB c s) {b : Nat} {x : Nat → V} (hs : Stored s b x) (h : Done s t) :
    Stored t b x := by
  induction h with
  | refl => exact hs
  | step j h ih => exact stored_complete (done_wb hw h) ih j

theorem foldl_noReq (b : Nat) (l : List Nat) (t : St V) :
    ∀ j, ((l.foldl (fun s j => if s.wreq j = some b then complete s j else s) t).wreq j = some b) →
      t.wreq j = some b ∧ j ∉ l := by
  induction l generalizing t with
  | nil => intro j h; exact ⟨h, by simp⟩
  | cons k l ih =>
    intro j h
    rw [List.foldl_cons] at h
    obtain ⟨h1, h2⟩ := ih _ j h
    by_cases hk : t.wreq k = some b
    · rw [if_pos hk, complete_wreq] at h1
      split at h1
      · cases h1
      · rename_i hne; exact ⟨h1, by simp [hne, h2]⟩
    · rw [if_neg hk] at h1
      refine ⟨h1, ?_⟩
      simp only [List.mem_cons, not_or]
      exact ⟨fun he => hk (he ▸ h1), h2⟩

theorem drain_noReq {c : Cfg} {s : St V} (hf : c.fifo = true) (hw : WB c s) (b : Nat) : NoReq (drain c s b) b := by
  intro j h
  unfold drain at h
  rw [if_pos hf] at h
  obtain ⟨h1, h2⟩ := foldl_noReq b _ s j h
  have := hw.busy j b h1
  apply h2
  exact hw.perm.mem_iff.1 (by simp [this])

theorem drain_wreq {s t : St V} {j b : Nat} (h : Done s t) (hj : t.wreq j = some b) : s.wreq j = some b := by
  induction h with
  | refl => exact hj
  | step k h ih =>
    rw [complete_wreq] at hj
    split at hj
    · cases hj
    · exact ih hj

/-! ### The pager -/

theorem kickLoop_eq (r : Nat → Bool) : ∀ (k : Nat) (p : Lru), kickLoop r k p =
    match NodeCache.kickLoop r k p with
    | none => none
    | some (none, p') => (match p'.kick with | none => none | some _ => some (none, p'))
    | some (some v, p') => some (some v, p') := by
  intro k
  induction k with
  | zero => intro p; rfl
  | succ k ih =>
    intro p
    simp only [kickLoop, NodeCache.kickLoop]
    rcases p.kick with _ | v
    · rfl
    · dsimp only
      rcases p.hit v with _ | p'
      · rfl
      · dsimp only
        by_cases hr : r v = true
        · rw [if_pos hr, if_pos hr]; exact ih p'
        · rw [if_neg hr, if_neg hr]

/-- The history is a list of all slots. -/
def LruOk (n : Nat) (p : Lru) : Prop := p.size = n ∧ p.history.Perm (List.range n)

theorem hit_ok {n i : Nat} {p : Lru} (h : LruOk n p) (hi : i < n) : ∃ p', p.hit i = some p' ∧ LruOk n p' := by
  obtain ⟨h1, h2⟩ := h
  refine ⟨⟨i :: p.history.erase i, p.size⟩, ?_, h1, ?_⟩
  · simp [Lru.hit, h1, hi]
  · exact (List.perm_cons_erase (h2.mem_iff.2 (by simpa using hi))).symm.trans h2

theorem exists_last_unheld (r : Nat → Bool) (l : List Nat) :
    (∀ i ∈ l, r i = true) ∨ ∃ A v B, l = A ++ v :: B ∧ (∀ i ∈ B, r i = true) ∧ r v = false := by
  induction l with
  | nil => left; simp
  | cons a l ih =>
    rcases ih with h | ⟨A, v, B, h1, h2, h3⟩
    · rcases hr : r a with _ | _
      · exact .inr ⟨[], a, l, rfl, h, hr⟩
      · left
        intro i hi
        rcases List.mem_cons.1 hi with rfl | hi
        · exact hr
        · exact h i hi
    · exact .inr ⟨a :: A, v, B, by simp [h1], h2, h3⟩

theorem kickLoop_ok {n : Nat} (hn : 0 < n) (r : Nat → Bool) {p : Lru} (h : LruOk n p) :
    (∃ p', kickLoop r n p = some (none, p') ∧ LruOk n p' ∧ ∀ i < n, r i = true) ∨
    (∃ v p', kickLoop r n p = some (some v, p') ∧ LruOk n p' ∧ v < n ∧ r v = false) := by
  obtain ⟨h1, h2⟩ := h
  have hnd : p.history.Nodup := h2.nodup_iff.2 List.nodup_range
  have hlt : ∀ i ∈ p.history, i < p.size := by
    intro i hi; rw [h1]; simpa using h2.mem_iff.1 hi
  have hlen : p.history.length = n := by rw [h2.length_eq]; simp
  rw [kickLoop_eq]
  rcases exists_last_unheld r p.history with hall | ⟨A, v, B, hh, hB, hv⟩
  · left
    have := NodeCache.kickLoop_full r n p.history [] p hlen rfl hnd hlt hall
    rw [this]
    have hp : ({ p with history := p.history ++ [] } : Lru) = p := by cases p; simp
    rw [hp]
    have hk : ∃ x, p.kick = some x := by
      unfold Lru.kick
      rcases hx : p.history.getLast? with _ | x
      · rw [List.getLast?_eq_none_iff] at hx; rw [hx] at hlen; simp at hlen; omega
      · exact ⟨x, rfl⟩
    obtain ⟨x, hx⟩ := hk
    refine ⟨p, ?_, ⟨h1, h2⟩, fun i hi => hall i (h2.mem_iff.2 (by simpa using hi))⟩
    dsimp only
    rw [hx]
  · right
    have hBn : B.length < n := by
      have : p.history.length = A.length + (B.length + 1) := by rw [hh]; simp
      omega
    have := NodeCache.kickLoop_found r n B A v p hBn hh hnd hlt hB hv
    rw [this]
    refine ⟨v, _, rfl, ⟨h1, ?_⟩, ?_, hv⟩
    · refine List.Perm.trans ?_ h2
      rw [hh]
      exact (List.Perm.cons v List.perm_append_comm).trans List.perm_middle.symm
    · have := hlt v (by rw [hh]; simp)
      omega

/-! ### The invariant -/

/-- The simulation relation between specification and cache, while the cache has not been flushed. -/
structure Sim (c : Cfg) (m : M V) (s : St V) : Prop where
  lru : LruOk c.n s.lru
  wb : WB c s
  slot : ∀ b i, s.map b = some i → i < c.n ∧ s.bids i = b ∧ i ∉ s.free
  fnd : s.free.Nodup
  flt : ∀ i ∈ s.free, i < c.n
  part : ∀ i < c.n, i ∈ s.free ∨ s.map (s.bids i) = some i
  ret : ∀ b i, s.map b = some i → s.retain i = m.held b
  ret0 : ∀ b, s.map b = none → m.held b = 0
  hot : ∀ b ∈ m.hot, s.map b ≠ none
  seen : ∀ b, s.map b ≠ none → m.seen b = true
  def_ : ∀ b, s.map b ≠ none → m.lost b = false
  pnd : ∀ b i b', s.map b = some i → s.pend i = some b' → b' = b ∧ s.valid i = none ∧ s.dirty i = false
  fpnd : ∀ i ∈ s.free, s.pend i = none
  mark : ∀ b, m.marked b = true → Sure m b ∧ ∃ i, s.map b = some i ∧ s.dirty i = true
  dty : ∀ b i, s.map b = some i → s.dirty i = true → s.valid i = none ∧ m.changed b = true ∧ s.blk i = m.val b
  noreq : ∀ b, s.map b ≠ none → NoReq s b
  cln : ∀ b i, s.map b = some i → s.dirty i = false → s.disk b = m.val b
  all : ∀ b i, s.map b = some i → s.dirty i = false → s.valid i = none → s.pend i = none → s.blk i = m.val b
  sub : ∀ b i k, s.map b = some i → s.valid i = some k → s.blk i k = m.val b k
  out : ∀ b, s.map b = none → m.lost b = false → Stored s b (m.val b)
  ptr : ∀ h b k, m.ptr h = some (b, k) →
    Sure m b ∧ ∃ i, s.map b = some i ∧ s.ptr h = some (i, k) ∧ s.blk i k = m.val b k

theorem Sim.sure {c : Cfg} {m : M V} {s : St V} (S : Sim c m s) {b : Nat} (h : Sure m b) : ∃ i, s.map b = some i := by
  rcases hm : s.map b with _ | i
  · rcases h with h | h
    · rw [S.ret0 b hm] at h; omega
    · exact absurd hm (S.hot b h)
  · exact ⟨i, rfl⟩

theorem Sim.inj {c : Cfg} {m : M V} {s : St V} (S : Sim c m s) {b b' i : Nat} (h : s.map b = some i)
    (h' : s.map b' = some i) : b = b' := by
  have := (S.slot b i h).2.1; have := (S.slot b' i h').2.1; omega

/-- Outstanding writes getting done keeps the relation. -/
theorem Sim.done {c : Cfg} {m : M V} {s t : St V} (S : Sim c m s) (h : Done s t) : Sim c m t := by
  have hst : ∀ b x, Stored s b x → Stored t b x := fun b x hs => done_stored S.wb hs h
  have hdk : ∀ b, s.map b ≠ none → t.disk b = s.disk b := fun b hb => done_disk (S.noreq b hb) h
  have hnr : ∀ b, s.map b ≠ none → NoReq t b := fun b hb => done_noReq (S.noreq b hb) h
  have hwb := done_wb S.wb h
  have hs := done_same h
  obtain ⟨dk, hdk'⟩ : ∃ dk, dk = t.disk := ⟨_, rfl⟩
  obtain ⟨wr, hwr'⟩ : ∃ wr, wr = t.wreq := ⟨_, rfl⟩
  rw [← hdk', ← hwr'] at hs
  subst hs
  exact { S with
    wb := hwb
    noreq := hnr
    cln := fun b i h1 h2 => by
      have := hdk b (by dsimp only at h1 ⊢; rw [h1]; simp)
      rw [this]; exact S.cln b i h1 h2
    out := fun b h1 h2 => hst b _ (S.out b h1 h2) }

theorem init_sim (c : Cfg) (blk wbuf disk : Nat → Nat → V) :
    Sim c (Spec.start disk) (ctor c blk wbuf disk) := by
  refine ⟨⟨rfl, ?_⟩, ⟨?_, ?_, ?_⟩, ?_, ?_, ?_, ?_, ?_, ?_, ?_, ?_, ?_, ?_, ?_, ?_, ?_, ?_, ?_, ?_, ?_, ?_, ?_⟩ <;>
    simp [ctor, Lru.new, Spec.start, Stored, List.nodup_range, List.nodup_reverse]

end BlockCache
