import Verif.FileIo.Lemmas
import Mathlib.Tactic.ByContra

/-!
# Histories under the block discipline
-/

namespace Stxxl.FileIo

/-- A write at `[off, off+len)`: nothing else changes, and if it succeeds the bytes are there. -/
structure WriteOk (f f' : List Byte) (off : Nat) (buf : List Byte) (out : Out) : Prop where
  other : ∀ i, ¬ (off ≤ i ∧ i < off + buf.length) → byteAt f' i = byteAt f i
  grow : f.length ≤ f'.length
  stored : out = .ok → ∀ i, i < buf.length → byteAt f' (off + i) = byteAt buf i
  calm : out = .ok ∨ out = .throws

/-- A read at `[off, off+len)`. -/
structure ReadOk (f f' : List Byte) (off : Nat) (buf buf' : List Byte) (out : Out) : Prop where
  same : f' = f
  got : out = .ok → buf' = bytesAt f off buf.length
  calm : out = .ok ∨ out = .throws

/-- The one-file types need the request inside the file only if they map or keep memory. -/
def NeedsSize : Kind → Prop
  | .mmap | .mem => True
  | .syscall | .boostfd => False

theorem mapOk_inside {page size off n : Nat} (hp : 0 < page) (h : off + n ≤ size) : mapOk page size off n = true := by
  unfold mapOk
  have h1 := Nat.div_add_mod (size + page - 1) page
  have h2 := Nat.mod_lt (size + page - 1) hp
  rw [Nat.mul_comm] at h1
  simp only [decide_eq_true_eq]
  omega

theorem read_ok (k : Kind) (page : Nat) (e : Env) (f : List Byte) (off : Nat) (buf : List Byte) (hp : 0 < page)
    (h : NeedsSize k → off + buf.length ≤ f.length) :
    ReadOk f (baseServe k page e f .read off buf).2.1 off buf (baseServe k page e f .read off buf).2.2
      (baseServe k page e f .read off buf).1 := by
  cases k with
  | syscall =>
    simp only [baseServe, syscallServe]
    obtain ⟨m, hm, hl, hb, ho⟩ := readLoop_spec f buf.length e.sys buf 0 off buf.length (Nat.le_refl _) (by omega)
    refine ⟨rfl, ?_, ?_⟩
    · intro hok
      rcases ho with ⟨_, rfl⟩ | ⟨h1, _⟩
      · apply ext_byteAt (by rw [hl, length_bytesAt])
        intro i hi
        rw [hb i, if_pos (by omega), byteAt_bytesAt, if_pos (by omega)]; congr 1
      · rw [h1] at hok; exact absurd hok (by decide)
    · rcases ho with ⟨h1, _⟩ | ⟨h1, _⟩
      · exact .inl h1
      · exact .inr h1
  | mmap =>
    have h := h trivial
    simp only [baseServe, mmapServe]
    rw [mapOk_inside hp h]
    split
    · exact ⟨rfl, by simp, .inr rfl⟩
    · simp only [Bool.true_eq_false, if_false]
      refine ⟨rfl, ?_, by split <;> simp⟩
      intro _
      have hav : (avail f off buf.length).length = buf.length := by rw [length_avail]; omega
      rw [hav, Nat.sub_self, List.replicate_zero, List.append_nil]
      apply ext_byteAt (by rw [hav, length_bytesAt])
      intro i hi
      rw [byteAt_avail, byteAt_bytesAt]
  | boostfd =>
    simp only [baseServe, boostfdServe]
    split
    · exact ⟨rfl, by simp, .inr rfl⟩
    · cases (e.sys 0).rc with
      | none => exact ⟨rfl, by simp, .inr rfl⟩
      | some k =>
        dsimp only
        refine ⟨rfl, ?_, by split <;> simp⟩
        intro hok
        have hd : (avail f off (min k buf.length)).length = buf.length := by
          by_contra hne
          rw [if_neg hne] at hok; exact absurd hok (by decide)
        apply ext_byteAt (by rw [length_splice _ _ _ (by omega), hd, length_bytesAt]; omega)
        intro i hi
        rw [length_splice _ _ _ (by omega), hd, Nat.zero_add, Nat.max_self] at hi
        have hk : buf.length ≤ k := by rw [length_avail] at hd; omega
        rw [byteAt_splice _ _ _ _ (by omega), hd, if_pos (by omega), byteAt_avail, byteAt_bytesAt, if_pos (by omega), if_pos (by omega)]
        congr 1
  | mem =>
    have h := h trivial
    simp only [baseServe, memServe]
    rw [if_pos h]
    refine ⟨rfl, ?_, .inl rfl⟩
    intro _
    have hav : (avail f off buf.length).length = buf.length := by rw [length_avail]; omega
    apply ext_byteAt (by rw [hav, length_bytesAt])
    intro i hi
    rw [byteAt_avail, byteAt_bytesAt]

theorem write_ok (k : Kind) (page : Nat) (e : Env) (f : List Byte) (off : Nat) (buf : List Byte) (hp : 0 < page)
    (h : NeedsSize k → off + buf.length ≤ f.length) :
    WriteOk f (baseServe k page e f .write off buf).2.1 off buf (baseServe k page e f .write off buf).1 := by
  have id0 : ∀ o, o = Out.throws → WriteOk f f off buf o := fun o ho =>
    ⟨fun _ _ => rfl, Nat.le_refl _, by intro h; rw [ho] at h; exact absurd h (by decide), .inr ho⟩
  cases k with
  | syscall =>
    simp only [baseServe, syscallServe]
    obtain ⟨m, hm, hl, hb, ho⟩ := writeLoop_spec buf buf.length e.sys f 0 off buf.length (Nat.le_refl _) (by omega)
    refine ⟨?_, by rw [hl]; split <;> omega, ?_, ?_⟩
    · intro i hi; rw [hb i, if_neg (by omega)]
    · intro hok i hi
      rcases ho with ⟨_, rfl⟩ | ⟨h1, _⟩
      · rw [hb, if_pos (by omega)]; congr 1; omega
      · rw [h1] at hok; exact absurd hok (by decide)
    · rcases ho with ⟨h1, _⟩ | ⟨h1, _⟩
      · exact .inl h1
      · exact .inr h1
  | mmap =>
    have h := h trivial
    simp only [baseServe, mmapServe]
    rw [mapOk_inside hp h]
    split
    · exact id0 _ rfl
    · simp only [Bool.true_eq_false, if_false]
      have hlen : (pwrite f off buf).length = f.length := by rw [length_pwrite]; omega
      have ht : (pwrite f off buf).take f.length = pwrite f off buf := by rw [← hlen, List.take_length]
      rw [ht]
      refine ⟨fun i hi => by rw [byteAt_pwrite, if_neg hi], by omega, ?_, by split <;> simp⟩
      intro _ i hi
      rw [byteAt_pwrite, if_pos (by omega)]; congr 1; omega
  | boostfd =>
    simp only [baseServe, boostfdServe]
    split
    · exact id0 _ rfl
    · cases (e.sys 0).rc with
      | none => exact id0 _ rfl
      | some k =>
        dsimp only
        refine ⟨?_, ?_, ?_, by split <;> simp⟩
        · intro i hi
          split
          · rfl
          · rw [byteAt_pwrite, length_avail, if_neg (by omega)]
        · split
          · exact Nat.le_refl _
          · rw [length_pwrite]; omega
        · intro hok i hi
          have hd : (avail buf 0 k).length = buf.length := by
            by_contra hne
            rw [if_neg hne] at hok; exact absurd hok (by decide)
          have : ¬ avail buf 0 k = [] := by intro he; rw [he] at hd; simp at hd; omega
          rw [if_neg this, byteAt_pwrite, hd, if_pos (by omega), byteAt_avail]
          rw [length_avail] at hd
          rw [if_pos (by omega)]; congr 1; omega
  | mem =>
    have h := h trivial
    simp only [baseServe, memServe]
    rw [if_pos h]
    refine ⟨fun i hi => by rw [byteAt_splice _ _ _ _ (by omega), if_neg hi], by rw [length_splice _ _ _ (by omega)]; omega, ?_, .inl rfl⟩
    intro _ i hi
    rw [byteAt_splice _ _ _ _ (by omega), if_pos (by omega)]; congr 1; omega

/-- The block starting at `off` holds `b`. -/
def Holds (c : Cfg) (s : St) (off : Nat) (b : List Byte) : Prop :=
  if c.perBlock then ∃ g, s.blocks off = some g ∧ ∀ i, i < b.length → byteAt g i = byteAt b i
  else (∀ i, i < b.length → byteAt s.main (off + i) = byteAt b i) ∧ (c.kind = .mem → off + b.length ≤ s.main.length)

/-- Invariant of a history `h` (newest event first). -/
structure Inv (c : Cfg) (n0 : Nat) (h : List Ev) (s : St) : Prop where
  size : c.perBlock = false → NeedsSize c.kind → sizeAfter n0 h ≤ s.main.length
  hold : ∀ off len b, contentAfter off len h = some b → (∀ ev ∈ h, ∀ x, ev.op.range = some x → SameOrDisjoint x (off, len)) →
    b.length = len ∧ Holds c s off b

/-- The hypotheses on the file object. -/
structure Fair (c : Cfg) : Prop where
  page : 0 < c.page
  fpb : c.perBlock = true → c.kind ≠ .mem ∧ c.trunc = false

theorem setSize_fpb {c : Cfg} (hk : c.kind ≠ .mem) (e : Env) (f : List Byte) (n : Nat) :
    ((baseSetSize c.kind e f n).1 = .ok ∨ (baseSetSize c.kind e f n).1 = .throws) ∧
    ((baseSetSize c.kind e f n).1 = .ok → (∀ i, i < n → byteAt (baseSetSize c.kind e f n).2 i = byteAt f i) ∧
      (NeedsSize c.kind → n ≤ (baseSetSize c.kind e f n).2.length)) := by
  cases hc : c.kind with
  | mem => exact absurd hc hk
  | boostfd => simp only [baseSetSize]; split <;> simp [NeedsSize]
  | syscall =>
    simp only [baseSetSize]; split
    · simp
    · refine ⟨.inl rfl, fun _ => ⟨fun i hi => by rw [byteAt_truncate, if_pos hi], fun _ => by rw [length_truncate]; exact Nat.le_refl _⟩⟩
  | mmap =>
    simp only [baseSetSize]; split
    · simp
    · refine ⟨.inl rfl, fun _ => ⟨fun i hi => by rw [byteAt_truncate, if_pos hi], fun _ => by rw [length_truncate]; exact Nat.le_refl _⟩⟩

theorem setBlock_ne (s : St) {o o' : Nat} (f) (h : o' ≠ o) : (s.setBlock o f).blocks o' = s.blocks o' := by
  simp [St.setBlock, h]

theorem setBlock_eq (s : St) (o : Nat) (f) : (s.setBlock o f).blocks o = f := by simp [St.setBlock]

theorem setBlock_main (s : St) (o : Nat) (f) : (s.setBlock o f).main = s.main := rfl

/-- Serving on a `fileperblock_file`: only the file of `off` changes; reads do not change the bytes below `len`. -/
theorem fpb_read {c : Cfg} (hc : Fair c) (hpb : c.perBlock = true) (e : Env) (s : St) (off : Nat) (buf : List Byte) :
    (fpbServe c e s .read off buf).2.1.main = s.main ∧
    (∀ o, o ≠ off → (fpbServe c e s .read off buf).2.1.blocks o = s.blocks o) ∧
    (∀ g, s.blocks off = some g → ∃ g', (fpbServe c e s .read off buf).2.1.blocks off = some g' ∧
      ∀ i, i < buf.length → byteAt g' i = byteAt g i) ∧
    ((fpbServe c e s .read off buf).1 = .ok ∨ (fpbServe c e s .read off buf).1 = .throws) ∧
    ((fpbServe c e s .read off buf).1 = .ok → ∀ g, s.blocks off = some g →
      (fpbServe c e s .read off buf).2.2 = bytesAt g 0 buf.length) := by
  obtain ⟨hk, ht⟩ := hc.fpb hpb
  unfold fpbServe
  split
  · exact ⟨rfl, fun _ _ => rfl, fun g hg => ⟨g, hg, fun _ _ => rfl⟩, .inr rfl, by simp⟩
  · dsimp only
    obtain ⟨h1, h2⟩ := setSize_fpb hk e (opened c s off) buf.length
    split
    · rename_i hok
      obtain ⟨h3, h4⟩ := h2 hok
      have hr := read_ok c.kind c.page e (baseSetSize c.kind e (opened c s off) buf.length).2 0 buf hc.page
        (by intro hn; have := h4 hn; omega)
      dsimp only
      refine ⟨rfl, fun o ho => setBlock_ne _ _ ho, ?_, hr.calm, ?_⟩
      · intro g hg
        refine ⟨_, setBlock_eq _ _ _, ?_⟩
        intro i hi
        rw [hr.same, h3 i hi]; simp [opened, ht, hg]
      · intro hok2 g hg
        rw [hr.got hok2]
        apply ext_byteAt (by rw [length_bytesAt, length_bytesAt])
        intro i hi
        rw [length_bytesAt] at hi
        rw [byteAt_bytesAt, byteAt_bytesAt, if_pos hi, if_pos hi, Nat.zero_add, h3 i hi]; simp [opened, ht, hg]
    · rename_i hno
      dsimp only
      refine ⟨rfl, fun o ho => setBlock_ne _ _ ho, ?_, ?_, fun h => absurd h hno⟩
      · intro g hg
        exact ⟨_, setBlock_eq _ _ _, by intro i _; simp [opened, ht, hg]⟩
      · rcases h1 with h | h
        · exact absurd h hno
        · exact .inr h

theorem fpb_write {c : Cfg} (hc : Fair c) (hpb : c.perBlock = true) (e : Env) (s : St) (off : Nat) (buf : List Byte) :
    (fpbServe c e s .write off buf).2.1.main = s.main ∧
    (∀ o, o ≠ off → (fpbServe c e s .write off buf).2.1.blocks o = s.blocks o) ∧
    ((fpbServe c e s .write off buf).1 = .ok ∨ (fpbServe c e s .write off buf).1 = .throws) ∧
    ((fpbServe c e s .write off buf).1 = .ok → ∃ g, (fpbServe c e s .write off buf).2.1.blocks off = some g ∧
      ∀ i, i < buf.length → byteAt g i = byteAt buf i) := by
  obtain ⟨hk, ht⟩ := hc.fpb hpb
  unfold fpbServe
  split
  · exact ⟨rfl, fun _ _ => rfl, .inr rfl, by simp⟩
  · dsimp only
    obtain ⟨h1, h2⟩ := setSize_fpb hk e (opened c s off) buf.length
    split
    · rename_i hok
      obtain ⟨h3, h4⟩ := h2 hok
      have hr := write_ok c.kind c.page e (baseSetSize c.kind e (opened c s off) buf.length).2 0 buf hc.page
        (by intro hn; have := h4 hn; omega)
      dsimp only
      refine ⟨rfl, fun o ho => setBlock_ne _ _ ho, hr.calm, ?_⟩
      intro hok2
      exact ⟨_, setBlock_eq _ _ _, fun i hi => by have := hr.stored hok2 i hi; rwa [Nat.zero_add] at this⟩
    · rename_i hno
      dsimp only
      refine ⟨rfl, fun o ho => setBlock_ne _ _ ho, ?_, fun h => absurd h hno⟩
      rcases h1 with h | h
      · exact absurd h hno
      · exact .inr h

theorem byteAt_realloc (f : List Byte) (n i : Nat) (r : List Byte) (hi : i < n) (h : i < f.length) :
    byteAt (f.take n ++ r) i = byteAt f i := by
  simp only [byteAt, List.getD_eq_getElem?_getD, List.getElem?_append, List.length_take, List.getElem?_take]
  rw [if_pos (by omega), if_pos hi]

/-- One call: no undefined behaviour, the invariant goes on, a successful read gives what the block must contain. -/
theorem step_inv {c : Cfg} (hc : Fair c) {n0 : Nat} {h : List Ev} {s : St} (I : Inv c n0 h s) (q : Call)
    (hin : ∀ x, q.op.range = some x → x.1 + x.2 ≤ sizeAfter n0 h)
    (hd : ∀ ev ∈ h, ∀ x y, ev.op.range = some x → q.op.range = some y → SameOrDisjoint x y) :
    ((step c q.env q.old s q.op).1 = .ok ∨ (step c q.env q.old s q.op).1 = .throws) ∧
    Inv c n0 (⟨q.op, (step c q.env q.old s q.op).1, (step c q.env q.old s q.op).2.2⟩ :: h) (step c q.env q.old s q.op).2.1 ∧
    (∀ off len b, q.op = .read off len → (step c q.env q.old s q.op).1 = .ok → contentAfter off len h = some b →
      (step c q.env q.old s q.op).2.2 = b) := by
  obtain ⟨op, e, old⟩ := q
  dsimp only at *
  cases op with
  | read off len =>
    have hin := hin (off, len) rfl
    dsimp only at hin
    have hd' : ∀ ev ∈ h, ∀ x, ev.op.range = some x → SameOrDisjoint x (off, len) := fun ev hev x hx => hd ev hev x _ hx rfl
    simp only [step]
    have hbl : (truncate old len).length = len := length_truncate _ _
    by_cases hpb : c.perBlock = true
    · simp only [hpb, if_true]
      obtain ⟨h1, h2, h3, h4, h5⟩ := fpb_read hc hpb e s off (truncate old len)
      refine ⟨h4, ⟨fun h => by simp [hpb] at h, ?_⟩, ?_⟩
      · intro o l b hcb hdd
        have hcb : contentAfter o l h = some b := hcb
        obtain ⟨hl, hh⟩ := I.hold o l b hcb (fun ev hev => hdd ev (List.mem_cons_of_mem _ hev))
        refine ⟨hl, ?_⟩
        simp only [Holds, hpb, if_true] at hh ⊢
        obtain ⟨g, hg, hgb⟩ := hh
        by_cases ho : o = off
        · subst ho
          have := hdd _ List.mem_cons_self (o, len) rfl
          have hll : len = l := by
            rcases this with h | ⟨h, _⟩
            · exact (Prod.mk.inj h).2
            · exact absurd rfl h
          obtain ⟨g', hg', hgg⟩ := h3 g hg
          exact ⟨g', hg', fun i hi => by rw [hgg i (by omega), hgb i hi]⟩
        · exact ⟨g, by rw [h2 o ho]; exact hg, hgb⟩
      · intro o l b heq hok hcb
        cases heq
        obtain ⟨hl, hh⟩ := I.hold off len b hcb hd'
        simp only [Holds, hpb, if_true] at hh
        obtain ⟨g, hg, hgb⟩ := hh
        rw [h5 hok g hg]
        apply ext_byteAt (by rw [length_bytesAt]; omega)
        intro i hi
        rw [length_bytesAt] at hi
        rw [byteAt_bytesAt, if_pos hi, Nat.zero_add]; exact hgb i (by omega)
    · have hpb : c.perBlock = false := by simpa using hpb
      simp only [hpb, Bool.false_eq_true, if_false]
      have hr := read_ok c.kind c.page e s.main off (truncate old len) hc.page
        (by intro hn; have := I.size hpb hn; rw [hbl]; omega)
      refine ⟨hr.calm, ⟨fun _ hn => by dsimp only; rw [hr.same]; exact I.size hpb hn, ?_⟩, ?_⟩
      · intro o l b hcb hdd
        have hcb : contentAfter o l h = some b := hcb
        obtain ⟨hl, hh⟩ := I.hold o l b hcb (fun ev hev => hdd ev (List.mem_cons_of_mem _ hev))
        refine ⟨hl, ?_⟩
        simp only [Holds, hpb, Bool.false_eq_true, if_false] at hh ⊢
        rw [hr.same]; exact hh
      · intro o l b heq hok hcb
        cases heq
        obtain ⟨hl, hh⟩ := I.hold off len b hcb hd'
        simp only [Holds, hpb, Bool.false_eq_true, if_false] at hh
        rw [hr.got hok, hbl]
        apply ext_byteAt (by rw [length_bytesAt]; omega)
        intro i hi
        rw [length_bytesAt] at hi
        rw [byteAt_bytesAt, if_pos hi]; exact hh.1 i (by omega)
  | write off buf =>
    have hin := hin (off, buf.length) rfl
    dsimp only at hin
    simp only [step]
    by_cases hpb : c.perBlock = true
    · simp only [hpb, if_true]
      obtain ⟨h1, h2, h4, h5⟩ := fpb_write hc hpb e s off buf
      refine ⟨h4, ⟨fun h => by simp [hpb] at h, ?_⟩, by intro _ _ _ h; exact absurd h (by simp)⟩
      intro o l b hcb hdd
      have hds := hdd _ List.mem_cons_self (off, buf.length) rfl
      simp only [contentAfter] at hcb
      by_cases ho : off = o
      · subst ho
        rw [if_pos rfl] at hcb
        by_cases hok : (fpbServe c e s .write off buf).1 = .ok
        · rw [if_pos hok] at hcb
          cases hcb
          refine ⟨?_, ?_⟩
          · rcases hds with h | ⟨h, _⟩
            · exact (Prod.mk.inj h).2
            · exact absurd rfl h
          · simp only [Holds, hpb, if_true]; exact h5 hok
        · rw [if_neg hok] at hcb; exact absurd hcb (by simp)
      · rw [if_neg ho] at hcb
        obtain ⟨hl, hh⟩ := I.hold o l b hcb (fun ev hev => hdd ev (List.mem_cons_of_mem _ hev))
        refine ⟨hl, ?_⟩
        simp only [Holds, hpb, if_true] at hh ⊢
        rw [h2 o (Ne.symm ho)]; exact hh
    · have hpb : c.perBlock = false := by simpa using hpb
      simp only [hpb, Bool.false_eq_true, if_false]
      have hr := write_ok c.kind c.page e s.main off buf hc.page (by intro hn; have := I.size hpb hn; omega)
      refine ⟨hr.calm, ⟨fun _ hn => ?_, ?_⟩, by intro _ _ _ h; exact absurd h (by simp)⟩
      · have := I.size hpb hn; have := hr.grow; simp only [sizeAfter]; omega
      · intro o l b hcb hdd
        have hds := hdd _ List.mem_cons_self (off, buf.length) rfl
        simp only [contentAfter] at hcb
        by_cases ho : off = o
        · subst ho
          rw [if_pos rfl] at hcb
          by_cases hok : (baseServe c.kind c.page e s.main .write off buf).1 = .ok
          · rw [if_pos hok] at hcb
            cases hcb
            refine ⟨?_, ?_⟩
            · rcases hds with h | ⟨h, _⟩
              · exact (Prod.mk.inj h).2
              · exact absurd rfl h
            · simp only [Holds, hpb, Bool.false_eq_true, if_false]
              refine ⟨hr.stored hok, fun hm => ?_⟩
              have := I.size hpb (by rw [hm]; trivial)
              have := hr.grow
              omega
          · rw [if_neg hok] at hcb; exact absurd hcb (by simp)
        · rw [if_neg ho] at hcb
          obtain ⟨hl, hh⟩ := I.hold o l b hcb (fun ev hev => hdd ev (List.mem_cons_of_mem _ hev))
          refine ⟨hl, ?_⟩
          have hdis : off + buf.length ≤ o ∨ o + l ≤ off := by
            rcases hds with h | ⟨_, h⟩
            · exact absurd (Prod.mk.inj h).1 ho
            · exact h
          simp only [Holds, hpb, Bool.false_eq_true, if_false] at hh ⊢
          refine ⟨fun i hi => ?_, fun hm => ?_⟩
          · rw [hr.other (o + i) (by omega)]; exact hh.1 i hi
          · have := hh.2 hm; have := hr.grow; omega
  | setSize n =>
    simp only [step]
    by_cases hpb : c.perBlock = true
    · simp only [hpb, if_true]
      refine ⟨by simp, ⟨fun h => by simp [hpb] at h, ?_⟩, by intro _ _ _ h; exact absurd h (by simp)⟩
      intro o l b hcb hdd
      simp only [contentAfter] at hcb
      split at hcb
      · obtain ⟨hl, hh⟩ := I.hold o l b hcb (fun ev hev => hdd ev (List.mem_cons_of_mem _ hev))
        exact ⟨hl, hh⟩
      · exact absurd hcb (by simp)
    · have hpb : c.perBlock = false := by simpa using hpb
      simp only [hpb, Bool.false_eq_true, if_false]
      have key : ∀ (f' : List Byte) (out : Out), (out = .ok ∨ out = .throws) → 
          (∀ i, i < n → (c.kind = .mem → i < s.main.length) → byteAt f' i = byteAt s.main i) →
          (out = .ok → NeedsSize c.kind → n ≤ f'.length) → (out = .throws → f' = s.main) →
          (c.kind = .mem → f'.length = n) →
          ((out = .ok ∨ out = .throws) ∧ Inv c n0 (⟨.setSize n, out, []⟩ :: h) { s with main := f' } ∧
          (∀ off len b, Op.setSize n = .read off len → out = .ok → contentAfter off len h = some b → [] = b)) := by
        intro f' out ho hb hlen hthr hmem
        refine ⟨ho, ⟨?_, ?_⟩, by intro _ _ _ h; exact absurd h (by simp)⟩
        · intro _ hn
          rcases ho with rfl | rfl
          · simpa only [sizeAfter] using hlen rfl hn
          · rw [hthr rfl]; simpa only [sizeAfter] using I.size hpb hn
        · intro o l b hcb hdd
          simp only [contentAfter] at hcb
          split at hcb
          · rename_i hol
            obtain ⟨hl, hh⟩ := I.hold o l b hcb (fun ev hev => hdd ev (List.mem_cons_of_mem _ hev))
            refine ⟨hl, ?_⟩
            simp only [Holds, hpb, Bool.false_eq_true, if_false] at hh ⊢
            refine ⟨fun i hi => ?_, fun hm => ?_⟩
            · rw [hb (o + i) (by omega) (by intro hm; have := hh.2 hm; omega)]; exact hh.1 i hi
            · rw [hmem hm]; omega
          · exact absurd hcb (by simp)
      cases hk : c.kind with
      | mem =>
        dsimp only [baseSetSize]
        have hl : (s.main.take n ++ (List.range (n - s.main.length)).map e.junk).length = n := by simp; omega
        refine key _ _ (.inl rfl) ?_ (fun _ _ => by omega) (by simp) (fun _ => hl)
        intro i hi hm
        exact byteAt_realloc _ _ _ _ hi (hm hk)
      | boostfd =>
        dsimp only [baseSetSize]
        split
        · exact key _ _ (.inr rfl) (fun _ _ _ => rfl) (by simp) (fun _ => rfl) (by simp [hk])
        · exact key _ _ (.inl rfl) (fun _ _ _ => rfl) (by intro _ h; rw [hk] at h; exact h.elim) (fun _ => rfl) (by simp [hk])
      | syscall =>
        dsimp only [baseSetSize]
        split
        · exact key _ _ (.inr rfl) (fun _ _ _ => rfl) (by simp) (fun _ => rfl) (by simp [hk])
        · exact key _ _ (.inl rfl) (fun i hi _ => by rw [byteAt_truncate, if_pos hi]) (fun _ _ => by rw [length_truncate]; exact Nat.le_refl _)
            (by simp) (by simp [hk])
      | mmap =>
        dsimp only [baseSetSize]
        split
        · exact key _ _ (.inr rfl) (fun _ _ _ => rfl) (by simp) (fun _ => rfl) (by simp [hk])
        · exact key _ _ (.inl rfl) (fun i hi _ => by rw [byteAt_truncate, if_pos hi]) (fun _ _ => by rw [length_truncate]; exact Nat.le_refl _)
            (by simp) (by simp [hk])
  | discard off len =>
    have hin := hin (off, len) rfl
    dsimp only at hin
    simp only [step]
    by_cases hpb : c.perBlock = true
    · simp only [hpb, if_true]
      refine ⟨by simp, ⟨fun h => by simp [hpb] at h, ?_⟩, by intro _ _ _ h; exact absurd h (by simp)⟩
      intro o l b hcb hdd
      simp only [contentAfter] at hcb
      split at hcb
      · exact absurd hcb (by simp)
      · rename_i hne
        obtain ⟨hl, hh⟩ := I.hold o l b hcb (fun ev hev => hdd ev (List.mem_cons_of_mem _ hev))
        refine ⟨hl, ?_⟩
        simp only [Holds, hpb, if_true] at hh ⊢
        split
        · exact hh
        · rw [setBlock_ne _ _ (Ne.symm hne)]; exact hh
    · have hpb : c.perBlock = false := by simpa using hpb
      simp only [hpb, Bool.false_eq_true, if_false]
      have key : ∀ (f' : List Byte), (∀ i, ¬ (off ≤ i ∧ i < off + len) → byteAt f' i = byteAt s.main i) →
          f'.length = s.main.length →
          ((Out.ok = .ok ∨ Out.ok = .throws) ∧ Inv c n0 (⟨.discard off len, .ok, []⟩ :: h) { s with main := f' } ∧
          (∀ o l b, Op.discard off len = .read o l → Out.ok = .ok → contentAfter o l h = some b → [] = b)) := by
        intro f' hb hlen
        refine ⟨.inl rfl, ⟨fun _ hn => by simpa only [sizeAfter, hlen] using I.size hpb hn, ?_⟩, by intro _ _ _ h; exact absurd h (by simp)⟩
        intro o l b hcb hdd
        have hds := hdd _ List.mem_cons_self (off, len) rfl
        simp only [contentAfter] at hcb
        split at hcb
        · exact absurd hcb (by simp)
        · rename_i hne
          obtain ⟨hl, hh⟩ := I.hold o l b hcb (fun ev hev => hdd ev (List.mem_cons_of_mem _ hev))
          refine ⟨hl, ?_⟩
          have hdis : off + len ≤ o ∨ o + l ≤ off := by
            rcases hds with h | ⟨_, h⟩
            · exact absurd (Prod.mk.inj h).1 hne
            · exact h
          simp only [Holds, hpb, Bool.false_eq_true, if_false] at hh ⊢
          exact ⟨fun i hi => by rw [hb (o + i) (by omega)]; exact hh.1 i hi, fun hm => by rw [hlen]; exact hh.2 hm⟩
      cases hk : c.kind with
      | mem =>
        have hsz := I.size hpb (by rw [hk]; trivial)
        dsimp only [baseDiscard]
        rw [if_pos (by omega)]
        refine key _ ?_ ?_
        · intro i hi
          rw [byteAt_splice _ _ _ _ (by omega)]
          simp only [List.length_map, List.length_range]
          rw [if_neg hi]
        · rw [length_splice _ _ _ (by omega)]; simp; omega
      | boostfd => exact key _ (fun _ _ => rfl) rfl
      | syscall => exact key _ (fun _ _ => rfl) rfl
      | mmap => exact key _ (fun _ _ => rfl) rfl

end Stxxl.FileIo
