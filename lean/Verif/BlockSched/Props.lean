import Verif.BlockSched.Main
import Mathlib.Data.List.Perm.Subperm

/-!
# Theorems about the block scheduler (C54, C55, C56)
-/

namespace Stxxl.BlockSched

variable {α : Type} {c : Cfg α}

theorem new_R (c : Cfg α) (junk : α) : R c Sp.empty (St.new c junk) [] where
  live i e h := absurd h (by simp [Sp.empty])
  dead i h := absurd h (by simp [St.new])
  fsb i := by simp [St.new]
  fsbnd := by simp [St.new]
  ev i := by simp [St.new]
  evnd := by simp [St.new]
  intp := by simp [St.new, ints]
  cap := by simp [St.new]
  extp := by simp [St.new, exts, Sp.empty]
  und := by simp [St.new]
  cdisk x v h := by simp [Sp.empty] at h
  cinit x v h := by simp [Sp.empty] at h
  sim := rfl
  pred q h := by simp [St.new, predOf] at h
  size := rfl

theorem run_refines {s s' : St α} {tr : List (Op α × Res α)} (h : Run c s tr s') : ∀ {sp : Sp α}, R c sp s [] → Legal c.fill sp tr →
    ∃ sp', Accepts c.fill sp tr sp' ∧ R c sp' s' [] := by
  induction h with
  | nil s => intro sp hR _; exact ⟨sp, .nil sp, hR⟩
  | cons hs _ ih =>
    intro sp hR hl
    cases hl with
    | cons hp hn =>
      rcases step_refines hR _ hp with ⟨s1, r, sp1, h1, h2, h3⟩ | ⟨h1, -⟩
      · rw [h1] at hs
        cases hs
        obtain ⟨sp', h4, h5⟩ := ih h3 (hn sp1 h2)
        exact ⟨sp', .cons hp h2 h4, h5⟩
      · rw [h1] at hs
        cases hs

theorem post_det {fill : Option α} {sp sp1 sp2 : Sp α} {o : Op α} {r : Res α} (h1 : Sp.Post fill sp o r sp1)
    (h2 : Sp.Post fill sp o r sp2) : sp1 = sp2 := by
  cases h1 <;> cases h2 <;> simp_all

theorem accepts_run {s s' : St α} {tr : List (Op α × Res α)} (h : Run c s tr s') : ∀ {sp sp' : Sp α}, R c sp s [] →
    Accepts c.fill sp tr sp' → R c sp' s' [] := by
  induction h with
  | nil s => intro sp sp' hR ha; cases ha; exact hR
  | cons hs _ ih =>
    intro sp sp' hR ha
    cases ha with
    | cons hp hpo ha =>
      rcases step_refines hR _ hp with ⟨s1, r, sp1, h1, h2, h3⟩ | ⟨h1, -⟩
      · rw [h1] at hs
        cases hs
        rw [post_det h2 hpo] at h3
        exact ih h3 ha
      · rw [h1] at hs
        cases hs

/-- **C54.** Whatever calls a client makes — allocating, acquiring, writing, releasing, handing over
and extracting external blocks, flushing, switching between the LRU, the LFD algorithm (with any
prediction sequence, right or wrong) and simulation — as long as it respects its obligations every
result is the one of a table of blocks without any memory limit. -/
theorem C54_contents (junk : α) {tr : List (Op α × Res α)} {s : St α} (h : Run c (St.new c junk) tr s)
    (hl : Legal c.fill Sp.empty tr) : ∃ sp, Accepts c.fill Sp.empty tr sp := by
  obtain ⟨sp, h1, -⟩ := run_refines h (new_R c junk) hl
  exact ⟨sp, h1⟩

theorem post_untouched {fill : Option α} {sp sp' : Sp α} {o : Op α} {r : Res α} (h : Sp.Post fill sp o r sp') {i : Nat}
    (hi : o.touches i = false) {e : Ent α} (he : sp.ents i = some e) : sp'.ents i = some e := by
  have key : ∀ {j : Nat} {x : Option (Ent α)}, j ≠ i → (sp.put j x).ents i = some e := fun {j x} hj => by
    simp only [Sp.put]
    rw [if_neg (Ne.symm hj)]
    exact he
  cases h with
  | alloc h1 =>
    rename_i j
    exact key (j := j) fun hj => by rw [hj, he] at h1; cases h1
  | free => exact key (by simpa [Op.touches] using hi)
  | acquire => exact key (by simpa [Op.touches] using hi)
  | write => exact key (by simpa [Op.touches] using hi)
  | release => exact key (by simpa [Op.touches] using hi)
  | deinit => exact key (by simpa [Op.touches] using hi)
  | init => exact key (by simpa [Op.touches] using hi)
  | extractSome => exact key (by simpa [Op.touches] using hi)
  | _ => exact he

theorem post_sim {fill : Option α} {sp sp' : Sp α} {o : Op α} {r : Res α} (h : Sp.Post fill sp o r sp') (ho : o ≠ .toSim)
    (hs : sp.sim = false) : sp'.sim = false := by
  cases h <;> first | exact hs | rfl | exact absurd rfl ho

theorem accepts_untouched {fill : Option α} {sp sp' : Sp α} {tr : List (Op α × Res α)} (h : Accepts fill sp tr sp') {i : Nat}
    (hi : ∀ x ∈ tr, x.1.touches i = false) {e : Ent α} (he : sp.ents i = some e) : sp'.ents i = some e := by
  induction h with
  | nil => exact he
  | @cons _ _ _ o r tr hp hpo _ ih =>
    exact ih (fun x hx => hi x (List.mem_cons_of_mem _ hx)) (post_untouched hpo (hi (o, r) (by simp)) he)

theorem accepts_sim {fill : Option α} {sp sp' : Sp α} {tr : List (Op α × Res α)} (h : Accepts fill sp tr sp')
    (hi : ∀ x ∈ tr, x.1 ≠ .toSim) (hs : sp.sim = false) : sp'.sim = false := by
  induction h with
  | nil => exact hs
  | @cons _ _ _ o r tr hp hpo _ ih =>
    exact ih (fun x hx => hi x (List.mem_cons_of_mem _ hx)) (post_sim hpo (hi (o, r) (by simp)) hs)

theorem accepts_append {fill : Option α} {tr1 tr2 : List (Op α × Res α)} : ∀ {sp sp' : Sp α}, Accepts fill sp (tr1 ++ tr2) sp' →
    ∃ sp1, Accepts fill sp tr1 sp1 ∧ Accepts fill sp1 tr2 sp' := by
  induction tr1 with
  | nil => intro sp sp' h; exact ⟨sp, .nil sp, h⟩
  | cons x r ih =>
    intro sp sp' h
    cases h with
    | cons hp hpo ha =>
      obtain ⟨sp1, h1, h2⟩ := ih ha
      exact ⟨sp1, .cons hp hpo h1, h2⟩

theorem post_acquire {fill : Option α} {sp sp' : Sp α} {i : Nat} {u : Bool} {r : Res α} (h : Sp.Post fill sp (.acquire i u) r sp')
    (hs : sp.sim = false) : ∃ e, sp.ents i = some e ∧ sp' = sp.put i (some (e.acquire fill u)) := by
  cases h with
  | acquire _ he => exact ⟨_, he, rfl⟩
  | simulated h1 => rw [hs] at h1; cases h1

theorem post_write {fill : Option α} {sp sp' : Sp α} {i : Nat} {v : α} {r : Res α} (h : Sp.Post fill sp (.write i v) r sp')
    (hs : sp.sim = false) : ∃ e, sp.ents i = some e ∧ sp' = sp.put i (some { e with cur := .known v, changed := true }) := by
  cases h with
  | write _ he => exact ⟨_, he, rfl⟩
  | simulated h1 => rw [hs] at h1; cases h1

theorem post_release {fill : Option α} {sp sp' : Sp α} {i : Nat} {d : Bool} {r : Res α} (h : Sp.Post fill sp (.release i d) r sp')
    (hs : sp.sim = false) : ∃ e, sp.ents i = some e ∧ sp' = sp.put i (some (e.release d)) := by
  cases h with
  | release _ he => exact ⟨_, he, rfl⟩
  | simulated h1 => rw [hs] at h1; cases h1

theorem post_read {fill : Option α} {sp sp' : Sp α} {i : Nat} {w : α} (h : Sp.Post fill sp (.read i) (.val w) sp')
    (hs : sp.sim = false) : ∃ e, sp.ents i = some e ∧ ∀ v, e.cur = .known v → w = v := by
  cases h with
  | read _ he hv => exact ⟨_, he, hv⟩
  | simulated h1 => rw [hs] at h1; cases h1

/-- **C54, in one sentence**: after a client has written `v` into a block and released it for good as
dirty, it reads `v` when it acquires the block again, whatever it did with other blocks in between
and however small the memory is. -/
theorem C54_last_write (junk : α) {tr1 tr2 : List (Op α × Res α)} {s : St α} {i : Nat} {v w : α} {r1 r2 r3 r4 : Res α}
    (h : Run c (St.new c junk)
      (tr1 ++ [(.acquire i false, r1), (.write i v, r2), (.release i true, r3)] ++ tr2 ++ [(.acquire i false, r4), (.read i, .val w)]) s)
    (hl : Legal c.fill Sp.empty
      (tr1 ++ [(.acquire i false, r1), (.write i v, r2), (.release i true, r3)] ++ tr2 ++ [(.acquire i false, r4), (.read i, .val w)]))
    (hfree : ∀ sp, Accepts c.fill Sp.empty tr1 sp → sp.sim = false ∧ sp.isHeld i = false)
    (htr : ∀ x ∈ tr2, x.1.touches i = false) (hsim : ∀ x ∈ tr2, x.1 ≠ .toSim) : w = v := by
  obtain ⟨sp, h1, -⟩ := run_refines h (new_R c junk) hl
  obtain ⟨sp3, h2, h3⟩ := accepts_append h1
  obtain ⟨sp2, h4, h5⟩ := accepts_append h2
  obtain ⟨sp1, h6, h7⟩ := accepts_append h4
  obtain ⟨hs1, hh1⟩ := hfree sp1 h6
  -- acquire, write, release
  have a1 : ∃ e, sp2.ents i = some e ∧ e.held = 0 ∧ e.cur = .known v ∧ sp2.sim = false := by
    cases h7 with
    | cons _ p1 h7 =>
    cases h7 with
    | cons _ p2 h7 =>
    cases h7 with
    | cons _ p3 h7 =>
    cases h7
    obtain ⟨e0, he0, q1⟩ := post_acquire p1 hs1
    subst q1
    obtain ⟨e1, he1, q2⟩ := post_write p2 hs1
    subst q2
    obtain ⟨e2, he2, q3⟩ := post_release p3 hs1
    subst q3
    simp only [Sp.put, if_true] at he1 he2
    cases he1
    cases he2
    have hheld : e0.held = 0 := by
      simp only [Sp.isHeld, he0] at hh1
      simpa using hh1
    have hacq : (e0.acquire c.fill false).held = 1 := by
      unfold Ent.acquire
      rw [if_neg (by omega)]
      cases e0.cur <;> rfl
    refine ⟨_, by simp only [Sp.put, if_true]; rfl, ?_, ?_, hs1⟩
    · simp [Ent.release, hacq]
    · simp [Ent.release, hacq]
  obtain ⟨e, he, hheld, hcur, hs2⟩ := a1
  have he3 := accepts_untouched h5 htr he
  have hs3 := accepts_sim h5 hsim hs2
  cases h3 with
  | cons _ p1 h3 =>
  cases h3 with
  | cons _ p2 h3 =>
  obtain ⟨e0, he0, q1⟩ := post_acquire p1 hs3
  subst q1
  obtain ⟨e1, he1, hv⟩ := post_read p2 hs3
  rw [he3] at he0
  cases he0
  simp only [Sp.put, if_true] at he1
  cases he1
  refine hv v ?_
  unfold Ent.acquire
  rw [if_neg (by omega), hcur]
  rfl

/-- **C55.** No call of a client that respects its obligations fails, except an `acquire` while as
many different blocks as fit into memory are acquired already. -/
theorem C55_enough_memory (junk : α) {tr : List (Op α × Res α)} {s : St α} {sp : Sp α} (h : Run c (St.new c junk) tr s)
    (ha : Accepts c.fill Sp.empty tr sp) {o : Op α} (hp : sp.pre o) (hmem : sp.heldBlocks < c.maxBlocks) :
    ∃ s' r, step c s o = .ok (s', r) := by
  rcases step_refines (accepts_run h (new_R c junk) ha) o hp with ⟨s', r, sp', h1, -⟩ | ⟨-, i, u, -, h1⟩
  · exact ⟨s', r, h1⟩
  · omega

/-- **C55**: whatever happens, the only failure is to run out of memory, and only in `acquire`. -/
theorem C55_only_oom (junk : α) {tr : List (Op α × Res α)} {s : St α} {sp : Sp α} (h : Run c (St.new c junk) tr s)
    (ha : Accepts c.fill Sp.empty tr sp) {o : Op α} (hp : sp.pre o) :
    (∃ s' r, step c s o = .ok (s', r)) ∨ (step c s o = .oom ∧ (∃ i u, o = .acquire i u) ∧ sp.heldBlocks = c.maxBlocks) := by
  rcases step_refines (accepts_run h (new_R c junk) ha) o hp with ⟨s', r, sp', h1, -⟩ | ⟨h0, i, u, h1, h2⟩
  · exact Or.inl ⟨s', r, h1⟩
  · exact Or.inr ⟨h0, ⟨i, u, h1⟩, h2⟩

/-- **C55**: the scheduler never allocates more than its share of memory, an internal block is used
for one swappable block only, and those in use are not on the free list. -/
theorem C55_memory_limit (junk : α) {tr : List (Op α × Res α)} {s : St α} {sp : Sp α} (h : Run c (St.new c junk) tr s)
    (ha : Accepts c.fill Sp.empty tr sp) :
    s.nalloc ≤ c.maxBlocks ∧
    (∀ (i m : Nat), i < s.nsb → (s.sbs i).int = some m → m < s.nalloc ∧ m ∉ s.free) ∧
    (∀ (i j m : Nat), i < s.nsb → j < s.nsb → (s.sbs i).int = some m → (s.sbs j).int = some m → i = j) := by
  have hR := accepts_run h (new_R c junk) ha
  refine ⟨by have := hR.cap; omega, fun i m hi hm => ⟨?_, fun hf => ?_⟩, fun i j m hi hj h1 h2 => hR.int_inj hi hj h1 h2⟩
  · have : m ∈ [] ++ s.free ++ ints s.sbs s.nsb := List.mem_append_right _ (mem_ints.2 ⟨i, hi, hm⟩)
    exact List.mem_range.1 (hR.intp.mem_iff.1 this)
  · exact (List.nodup_append'.1 hR.intNodup).2.2 (List.mem_append_right _ hf) (mem_ints.2 ⟨i, hi, hm⟩)

/-! ## External blocks -/

/-- `used` consists of the blocks of the scheduler and of `K` -/
def Own (s : St α) (K : List Nat) : Prop := s.used.Nodup ∧ s.used.Perm (exts s.sbs s.nsb ++ K)

theorem own_deinit {s : St α} {K : List Nat} (h : Own s K) {i : Nat} (hlt : i < s.nsb) : Own (deinitSB s i).2 K := by
  obtain ⟨hnd, hp⟩ := h
  unfold deinitSB
  constructor
  · dsimp only
    cases (s.sbs i).ext with
    | none => exact hnd
    | some x => exact hnd.erase x
  · dsimp only
    refine List.perm_iff_count.2 fun y => ?_
    have h2 := List.perm_iff_count.1 hp y
    have h3 := exts_upd s.sbs i s.nsb { s.sbs i with dirty := false, ext := none, int := none } hlt y
    cases hx : (s.sbs i).ext with
    | none =>
      rw [hx] at h3
      simp only [List.count_append] at h2 h3 ⊢
      omega
    | some x =>
      rw [hx] at h3
      have hxu : 0 < List.count x s.used := List.count_pos_iff.2 (hp.mem_iff.2 (List.mem_append_left _ (mem_exts.2 ⟨i, hlt, hx⟩)))
      simp only [List.count_append, Option.toList, List.count_cons, List.count_nil, List.count_erase] at h2 h3 ⊢
      by_cases hxy : x = y
      · subst hxy
        simp only [beq_self_eq_true, if_true] at h3 ⊢
        omega
      · simp only [beq_eq_false_iff_ne.2 hxy, Bool.false_eq_true, if_false] at h3 ⊢
        omega

/-- what deinitializing does to the table: `D` the blocks deinitialized -/
def Dropped (s s' : St α) (D : Nat → Prop) : Prop :=
  s'.nsb = s.nsb ∧ s'.freeSb = s.freeSb ∧ (∀ i, (s'.sbs i).rc = (s.sbs i).rc) ∧
  (∀ i, D i → (s'.sbs i).ext = none) ∧ (∀ i, (s'.sbs i).ext = (s.sbs i).ext ∨ ((s'.sbs i).ext = none ∧ (s.sbs i).rc = 0))

theorem dropped_deinit (s : St α) (i : Nat) (hr : (s.sbs i).rc = 0) : Dropped s (deinitSB s i).2 (fun j => j = i) := by
  refine ⟨rfl, rfl, fun j => ?_, fun j hj => ?_, fun j => ?_⟩
  · by_cases hj : j = i
    · rw [hj]; simp [deinitSB, upd]
    · simp [deinitSB, upd, hj]
  · rw [hj]; simp [deinitSB, upd]
  · by_cases hj : j = i
    · rw [hj]; right; exact ⟨by simp [deinitSB, upd], hr⟩
    · left; simp [deinitSB, upd, hj]

theorem Dropped.trans {s s1 s2 : St α} {D1 D2 : Nat → Prop} (h1 : Dropped s s1 D1) (h2 : Dropped s1 s2 D2) :
    Dropped s s2 (fun i => D1 i ∨ D2 i) := by
  refine ⟨h2.1.trans h1.1, h2.2.1.trans h1.2.1, fun i => (h2.2.2.1 i).trans (h1.2.2.1 i), fun i hi => ?_, fun i => ?_⟩
  · rcases hi with hi | hi
    · rcases h2.2.2.2.2 i with h | h
      · rw [h]; exact h1.2.2.2.1 i hi
      · exact h.1
    · exact h2.2.2.2.1 i hi
  · rcases h2.2.2.2.2 i with h | h
    · rw [h]; exact h1.2.2.2.2 i
    · exact Or.inr ⟨h.1, by rw [← h1.2.2.1 i]; exact h.2⟩

theorem dropEvict_own : ∀ (l : List Nat) {s : St α} {K : List Nat}, Own s K → (∀ i ∈ l, i < s.nsb ∧ (s.sbs i).rc = 0) →
    Own (dropEvict l s) K ∧ Dropped s (dropEvict l s) (fun _ => False)
  | [], s, K, h, _ => ⟨h, rfl, rfl, fun _ => rfl, fun _ hf => hf.elim, fun _ => Or.inl rfl⟩
  | j :: r, s, K, h, hl => by
    obtain ⟨hj, hr⟩ := hl j (by simp)
    have h1 := own_deinit h hj
    have h2 := dropped_deinit s j hr
    have h3 : Own (returnOpt (deinitSB s j)) K ∧ Dropped s (returnOpt (deinitSB s j)) (fun i => i = j) := by
      unfold returnOpt
      cases (deinitSB s j).1 with
      | none => exact ⟨h1, h2⟩
      | some m => exact ⟨h1, h2⟩
    obtain ⟨h4, h5⟩ := dropEvict_own r h3.1 (fun i hi => by
      obtain ⟨a, b⟩ := hl i (by simp [hi])
      exact ⟨by rw [h3.2.1]; exact a, by rw [h3.2.2.2.1 i]; exact b⟩)
    refine ⟨h4, ?_⟩
    have := h3.2.trans h5
    exact ⟨this.1, this.2.1, this.2.2.1, fun _ hf => hf.elim, this.2.2.2.2⟩

theorem dropAll_own : ∀ (n : Nat) {s : St α} {K : List Nat}, Own s K → n ≤ s.nsb →
    Own (dropAll n s) K ∧ Dropped s (dropAll n s) (fun i => i < n ∧ (s.sbs i).rc = 0)
  | 0, s, K, h, _ => ⟨h, rfl, rfl, fun _ => rfl, fun _ hf => absurd hf.1 (by omega), fun _ => Or.inl rfl⟩
  | n + 1, s, K, h, hn => by
    obtain ⟨h1, h2⟩ := dropAll_own n h (by omega)
    rw [dropAll]
    split
    · rename_i hr
      refine ⟨own_deinit h1 (by rw [h2.1]; omega), ?_⟩
      have := h2.trans (dropped_deinit _ n hr)
      refine ⟨this.1, this.2.1, this.2.2.1, fun i hi => this.2.2.2.1 i ?_, this.2.2.2.2⟩
      by_cases hin : i = n
      · exact Or.inr hin
      · exact Or.inl ⟨by omega, hi.2⟩
    · rename_i hr
      refine ⟨h1, h2.1, h2.2.1, h2.2.2.1, fun i hi => h2.2.2.2.1 i ⟨?_, hi.2⟩, h2.2.2.2.2⟩
      have : i ≠ n := fun hin => hr (by rw [h2.2.2.1 n, ← hin]; exact hi.2)
      omega

theorem exts_nil {f : Nat → SB} {n : Nat} (h : ∀ i, i < n → (f i).ext = none) : exts f n = [] := by
  refine List.filterMap_eq_nil_iff.2 fun i hi => h i (List.mem_range.1 hi)

/-- **C56.** While the scheduler lives, every external block in use belongs to exactly one swappable
block or to the client; so when no block has contents, all space is the client's. -/
theorem C56_no_leak (junk : α) {tr : List (Op α × Res α)} {s : St α} {sp : Sp α} (h : Run c (St.new c junk) tr s)
    (ha : Accepts c.fill Sp.empty tr sp) (hun : ∀ (i : Nat) (e : Ent α), sp.ents i = some e → e.held = 0 ∧ e.cur = .uninit) :
    s.used.Perm (sp.client.map (·.1)) := by
  have hR := accepts_run h (new_R c junk) ha
  have : exts s.sbs s.nsb = [] := exts_nil fun i hi => by
    cases he : sp.ents i with
    | none => rw [hR.dead i hi he]; rfl
    | some e =>
      obtain ⟨h1, h2⟩ := hun i e he
      exact ((hR.live i e he).2.uninit0 h1 h2).2
  have hp := hR.extp
  rw [this] at hp
  exact hp

/-- **C56**: a swappable block never shares its external block with another one or with the client. -/
theorem C56_not_shared (junk : α) {tr : List (Op α × Res α)} {s : St α} {sp : Sp α} (h : Run c (St.new c junk) tr s)
    (ha : Accepts c.fill Sp.empty tr sp) {i x : Nat} (hi : i < s.nsb) (hx : (s.sbs i).ext = some x) :
    x ∈ s.used ∧ x ∉ sp.client.map (·.1) ∧ ∀ j, j < s.nsb → (s.sbs j).ext = some x → j = i := by
  have hR := accepts_run h (new_R c junk) ha
  exact ⟨hR.ext_used hi hx, hR.ext_client hi hx, fun j hj h1 => hR.ext_inj hj hi h1 hx⟩

/-- **C56**: after the destructor of the scheduler, if no block is still acquired, exactly the
client's external blocks are in use, whatever the blocks held. -/
theorem C56_destructor (junk : α) {tr : List (Op α × Res α)} {s : St α} {sp : Sp α} (h : Run c (St.new c junk) tr s)
    (ha : Accepts c.fill Sp.empty tr sp) (hno : ∀ (i : Nat) (e : Ent α), sp.ents i = some e → e.held = 0) :
    (destroy s).used.Perm (sp.client.map (·.1)) := by
  have hR := accepts_run h (new_R c junk) ha
  have hown : Own { s with evict := [] } (sp.client.map (·.1)) := ⟨hR.und, hR.extp⟩
  have hrc : ∀ i, i < s.nsb → (s.sbs i).rc = 0 := fun i hi => by
    cases he : sp.ents i with
    | none => rw [hR.dead i hi he]; rfl
    | some e => rw [(hR.live i e he).2.rc]; exact hno i e he
  obtain ⟨h1, h2⟩ := dropEvict_own (popAll s.evict.length s) hown (fun i hi => by
    have := (hR.ev i).1 (((popAll_spec _ s hR.evnd rfl).1 i).1 hi)
    exact ⟨this.1, this.2.2⟩)
  unfold destroy
  dsimp only
  have hn : (dropEvict (popAll s.evict.length s) { s with evict := [] }).nsb = s.nsb := h2.1
  split
  · obtain ⟨h3, h4⟩ := dropAll_own _ h1 (Nat.le_refl _)
    have := exts_nil (n := (dropAll _ (dropEvict (popAll s.evict.length s) { s with evict := [] })).nsb)
      (fun i hi => h4.2.2.2.1 i ⟨by rw [← h4.1]; exact hi, by rw [h2.2.2.1 i]; exact hrc i (by rw [h4.1, hn] at hi; exact hi)⟩)
    have hp := h3.2
    rw [this] at hp
    exact hp
  · rename_i hlen
    have hlen : s.freeSb.length = s.nsb := by
      have := Classical.not_not.1 hlen
      rw [h2.2.1, hn] at this
      exact this
    have hsub : s.freeSb ⊆ List.range s.nsb := fun i hi => List.mem_range.2 ((hR.fsb i).1 hi).1
    have hperm : s.freeSb.Perm (List.range s.nsb) :=
      (List.subperm_of_subset hR.fsbnd hsub).perm_of_length_le (by rw [List.length_range, hlen])
    have := exts_nil (n := s.nsb) (f := (dropEvict (popAll s.evict.length s) { s with evict := [] }).sbs) (fun i hi => by
      have hdead := hR.dead i hi ((hR.fsb i).1 (hperm.mem_iff.2 (List.mem_range.2 hi))).2
      rcases h2.2.2.2.2 i with h3 | h3
      · rw [h3]
        show (s.sbs i).ext = none
        rw [hdead]
        rfl
      · exact h3.1)
    have hp := h1.2
    rw [hn, this] at hp
    exact hp

/-! ## Concrete cases -/

theorem accepts_legal {fill : Option α} {sp sp' : Sp α} {tr : List (Op α × Res α)} (h : Accepts fill sp tr sp') : Legal fill sp tr := by
  induction h with
  | nil sp => exact .nil sp
  | cons hp hpo _ ih => exact .cons hp fun sp1 h1 => by rw [post_det h1 hpo]; exact ih

/-- run a list of calls -/
def runOps (c : Cfg α) : St α → List (Op α) → Out (List (Res α) × St α)
  | s, [] => .ok ([], s)
  | s, o :: os => (step c s o).bind fun r => (runOps c r.1 os).bind fun q => .ok (r.2 :: q.1, q.2)

theorem run_of_runOps {c : Cfg α} : ∀ {os : List (Op α)} {s s' : St α} {rs : List (Res α)}, runOps c s os = .ok (rs, s') →
    Run c s (os.zip rs) s'
  | [], s, s', rs, h => by cases h; exact .nil s
  | o :: os, s, s', rs, h => by
    rw [runOps] at h
    cases h1 : step c s o with
    | oom => rw [h1] at h; cases h
    | ub => rw [h1] at h; cases h
    | ok r =>
      rw [h1] at h
      simp only [Out.bind] at h
      cases h2 : runOps c r.1 os with
      | oom => rw [h2] at h; cases h
      | ub => rw [h2] at h; cases h
      | ok q =>
        rw [h2] at h
        cases h
        exact .cons h1 (run_of_runOps h2)

namespace Ex

/-- a block address above all in use -/
def fresh (l : List Nat) : Nat := l.foldr max 0 + 1

theorem fresh_notin (l : List Nat) : fresh l ∉ l := by
  have : ∀ (l : List Nat) (x : Nat), x ∈ l → x ≤ l.foldr max 0 := by
    intro l
    induction l with
    | nil => intro x h; cases h
    | cons y r ih =>
      intro x h
      simp only [List.foldr_cons]
      rcases List.mem_cons.1 h with h | h
      · omega
      · have := ih x h; omega
  intro h
  have := this l _ h
  unfold fresh at this
  omega

/-- memory for `n` blocks of numbers, default contents 0 -/
def cfg (n : Nat) : Cfg Nat := { maxBlocks := n, fill := some 0, pick := fresh, pick_fresh := fresh_notin }

/-- results only -/
def results (n : Nat) (os : List (Op Nat)) : Out (List (Res Nat)) :=
  (runOps (cfg n) (St.new (cfg n) 999) os).bind fun r => .ok r.1

/-- room for one block: block 0 is written to disk to make room for block 1, and read again -/
example : results 1 [.alloc, .alloc, .acquire 0 false, .write 0 7, .release 0 true, .acquire 1 false, .read 1, .release 1 false,
      .acquire 0 false, .read 0] =
    .ok [.idx 0, .idx 1, .unit, .unit, .unit, .unit, .val 0, .unit, .unit, .val 7] := by decide +kernel

/-- the hypotheses of `C54_last_write` are met by this history -/
example : ∃ s, Run (cfg 1) (St.new (cfg 1) 999)
      ([(.alloc, .idx 0), (.alloc, .idx 1)] ++ [(.acquire 0 false, .unit), (.write 0 7, .unit), (.release 0 true, .unit)] ++
        [(.acquire 1 false, .unit), (.read 1, .val 0), (.release 1 false, .unit)] ++ [(.acquire 0 false, .unit), (.read 0, .val 7)]) s ∧
    Legal (cfg 1).fill Sp.empty
      ([(.alloc, .idx 0), (.alloc, .idx 1)] ++ [(.acquire 0 false, .unit), (.write 0 7, .unit), (.release 0 true, .unit)] ++
        [(.acquire 1 false, .unit), (.read 1, .val 0), (.release 1 false, .unit)] ++ [(.acquire 0 false, .unit), (.read 0, .val 7)]) := by
  have h : ∃ s, runOps (cfg 1) (St.new (cfg 1) 999) [.alloc, .alloc, .acquire 0 false, .write 0 7, .release 0 true, .acquire 1 false,
      .read 1, .release 1 false, .acquire 0 false, .read 0] =
      .ok ([.idx 0, .idx 1, .unit, .unit, .unit, .unit, .val 0, .unit, .unit, .val 7], s) := ⟨_, rfl⟩
  obtain ⟨s, h⟩ := h
  refine ⟨s, run_of_runOps h, accepts_legal (sp' := ?_) ?_⟩
  rotate_left
  · refine .cons trivial (.alloc rfl) <| .cons trivial (.alloc rfl) ?_
    refine .cons ⟨_, rfl⟩ (.acquire rfl rfl) <| .cons ⟨_, rfl, Or.inr (by decide)⟩ (.write rfl rfl) <|
      .cons ⟨_, rfl, Or.inr (by decide)⟩ (.release rfl rfl) ?_
    refine .cons ⟨_, rfl⟩ (.acquire rfl rfl) <| .cons ⟨_, rfl, Or.inr (by decide)⟩ (.read rfl rfl (fun w hw => by cases hw; rfl)) <|
      .cons ⟨_, rfl, Or.inr (by decide)⟩ (.release rfl rfl) ?_
    refine .cons ⟨_, rfl⟩ (.acquire rfl rfl) <| .cons ⟨_, rfl, Or.inr (by decide)⟩ (.read rfl rfl (fun w hw => by cases hw; rfl)) ?_
    exact .nil _

/-- two blocks acquired with room for one: the only failure -/
example : results 1 [.alloc, .alloc, .acquire 0 false, .acquire 1 false] = .oom := by decide +kernel

/-- simulate, then execute with the recorded prediction, room for two of three blocks -/
example : results 2 [.alloc, .alloc, .alloc, .acquire 0 false, .write 0 5, .release 0 true, .toSim, .acquire 1 false, .release 1 true,
      .acquire 2 false, .release 2 true, .acquire 0 false, .release 0 false, .isInit 1, .toLfd none, .isInit 1,
      .acquire 1 false, .write 1 6, .release 1 true, .acquire 2 false, .write 2 7, .release 2 true, .acquire 0 false, .read 0, .release 0 false,
      .acquire 1 false, .read 1] =
    .ok [.idx 0, .idx 1, .idx 2, .unit, .unit, .unit, .unit, .unit, .unit, .unit, .unit, .unit, .unit, .bool true, .unit, .bool false,
      .unit, .unit, .unit, .unit, .unit, .unit, .unit, .val 5, .unit, .unit, .val 6] := by decide +kernel

/-- a handed-over external block is extracted again with its new contents -/
example : results 1 [.newExt 3, .alloc, .init 0 1, .acquire 0 false, .read 0, .write 0 4, .release 0 true, .extract 0, .readExt 1, .isInit 0] =
    .ok [.ext (some 1), .idx 0, .unit, .unit, .val 3, .unit, .unit, .ext (some 1), .val 4, .bool false] := by decide +kernel

end Ex

end Stxxl.BlockSched
