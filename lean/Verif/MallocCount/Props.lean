import Verif.MallocCount.Model

/-!
# C91: the malloc counter

The statements mention `run`, `step`, the counters, `State.find` (the block at a pointer) and the specification below.
-/
namespace Stxxl.MallocCount

/-! ## Specification -/

/-- Requests stay away from the end of `size_t`. -/
def Fits : Event → Prop
  | .malloc n _ _ => n + 2 ^ 21 < W
  | .calloc a b _ _ => b * a + 2 ^ 21 < W
  | .realloc _ n _ _ => n + 2 ^ 21 < W
  | _ => True

/-- The C library is not out of memory. -/
def Answered : Event → Prop
  | .malloc _ ans _ | .calloc _ _ ans _ | .realloc _ _ ans _ => ans ≠ none
  | _ => True

/-- A request for `n` bytes: null if `n = 0`, else a block of size `n` where none was; nothing else changes. -/
def NewBlock (s : State) (n : Nat) (s' : State) (p : Ptr) : Prop :=
  (n = 0 ∧ p = .null ∧ ∀ q : Ptr, s'.find q = s.find q) ∨
  (0 < n ∧ p ≠ .null ∧ s.find p = none ∧ (∃ b : Block, s'.find p = some b ∧ b.size = n) ∧ ∀ q : Ptr, q ≠ p → s'.find q = s.find q)

/-- What each event does to the blocks. -/
def Meets (s : State) : Event → State → Ptr → Prop
  | .load, s', _ | .resetPeak, s', _ => ∀ q : Ptr, s'.find q = s.find q
  | .malloc n _ _, s', p => NewBlock s n s' p
  | .calloc a b _ _, s', p => NewBlock s (b * a) s' p ∧ ∀ c : Block, s'.find p = some c → ∀ i : Nat, i < b * a → c.data i = 0
  | .free p, s', _ => (p = .null ∨ (s.find p).isSome) ∧ s'.find p = none ∧ ∀ q : Ptr, q ≠ p → s'.find q = s.find q
  | .write p i v, s', _ => (∃ b : Block, s.find p = some b ∧ i < b.size ∧
      s'.find p = some { b with data := fun j => if j = i then v else b.data j }) ∧ ∀ q : Ptr, q ≠ p → s'.find q = s.find q
  | .realloc p n _ _, s', p' =>
    if p = .null then NewBlock s n s' p'
    else ∃ old : Block, s.find p = some old ∧ (∀ q : Ptr, q ≠ p → q ≠ p' → s'.find q = s.find q) ∧
      ((n = 0 ∧ p.isReal ∧ p' = .null ∧ s'.find p = none) ∨
       ((p' = p ∨ (s.find p' = none ∧ s'.find p = none)) ∧
        ∃ b : Block, s'.find p' = some b ∧ b.size = n ∧ ∀ i : Nat, i < old.size → i < n → b.data i = old.data i))

/-- The bytes in blocks of the C library. -/
def liveBytes (s : State) : Int := (s.blocks.map fun b => if b.ptr.isReal then (b.size : Int) else 0).sum

/-- What an event that returns `p` adds to `total`. -/
def counted : Event → Ptr → Int
  | .malloc n _ _, p | .realloc _ n _ _, p => if p.isReal then n else 0
  | .calloc a b _ _, p => if p.isReal then (b * a : Nat) else 0
  | _, _ => 0

/-! ## Invariant -/

structure Inv (s : State) : Prop where
  nodup : (s.blocks.map (·.ptr)).Nodup
  nonnull : ∀ b ∈ s.blocks, b.ptr ≠ .null
  curr : s.curr = liveBytes s
  le1 : s.curr ≤ s.peak
  le2 : s.peak ≤ s.total
  use : s.initUse ≤ initSize
  initOk : ∀ b ∈ s.blocks, ∀ o : Nat, b.ptr = .init o → 16 ≤ o ∧ o + b.size ≤ s.initUse
  initDisj : ∀ b ∈ s.blocks, ∀ c ∈ s.blocks, ∀ o p : Nat, b.ptr = .init o → c.ptr = .init p → o ≠ p →
    o + b.size + 16 ≤ p ∨ p + c.size + 16 ≤ o
  realOnly : s.real = false → ∀ b ∈ s.blocks, b.ptr.isReal = false

@[simp] theorem isReal_real (a : Nat) : (Ptr.real a).isReal = true := rfl
@[simp] theorem isReal_init (a : Nat) : (Ptr.init a).isReal = false := rfl

theorem find_some {s : State} {p : Ptr} {b : Block} (h : s.find p = some b) : b ∈ s.blocks ∧ b.ptr = p :=
  ⟨List.mem_of_find?_eq_some h, by simpa using List.find?_some h⟩

theorem find_none {s : State} {p : Ptr} (h : s.find p = none) : ∀ b ∈ s.blocks, b.ptr ≠ p := by
  intro b hb
  simpa using List.find?_eq_none.1 h b hb

theorem find_add (s : State) (b : Block) (q : Ptr) : (s.add b).find q = if q = b.ptr then some b else s.find q := by
  simp only [State.find, State.add, List.find?_cons]
  by_cases h : q = b.ptr
  · simp [h]
  · simp [h, Ne.symm h]

theorem find_filter (p q : Ptr) : ∀ l : List Block,
    (l.filter fun b => decide (b.ptr ≠ p)).find? (fun b => decide (b.ptr = q)) = if q = p then none else l.find? (fun b => decide (b.ptr = q))
  | [] => by simp
  | b :: l => by
    have ih := find_filter p q l
    simp only [List.filter_cons, List.find?_cons]
    by_cases h : b.ptr = p
    · simp only [h, ne_eq, not_true_eq_false, decide_false, Bool.false_eq_true, if_false]
      rw [ih]
      by_cases hq : q = p
      · simp [hq]
      · simp [hq, Ne.symm hq]
    · simp only [h, ne_eq, not_false_eq_true, decide_true, if_true, List.find?_cons]
      rw [ih]
      by_cases hq : b.ptr = q
      · subst hq; simp [h]
      · simp [hq]

theorem find_remove (s : State) (p q : Ptr) : (s.remove p).find q = if q = p then none else s.find q := find_filter p q s.blocks

theorem find_setData (s : State) (p q : Ptr) (f : (Nat → Nat) → Nat → Nat) :
    (s.setData p f).find q = (s.find q).map fun b => if q = p then { b with data := f b.data } else b := by
  simp only [State.find, State.setData]
  induction s.blocks with
  | nil => rfl
  | cons b l ih =>
    simp only [List.map_cons, List.find?_cons]
    by_cases hb : b.ptr = q
    · subst hb
      by_cases hp : b.ptr = p <;> simp [hp]
    · have h2 : (if b.ptr = p then ({ b with data := f b.data } : Block) else b).ptr ≠ q := by split <;> exact hb
      simp only [hb, h2, decide_false]
      exact ih

theorem find_inc (s : State) (n : Nat) (q : Ptr) : (s.inc n).find q = s.find q := rfl
theorem find_dec (s : State) (n : Nat) (q : Ptr) : (s.dec n).find q = s.find q := rfl

theorem Inv.find_null {s : State} (i : Inv s) : s.find .null = none := by
  rcases h : s.find .null with _ | b
  · rfl
  · exact absurd (find_some h).2 (i.nonnull b (find_some h).1)

theorem liveBytes_remove {s : State} (i : Inv s) {p : Ptr} {b : Block} (h : s.find p = some b) :
    liveBytes (s.remove p) = liveBytes s - (if p.isReal then (b.size : Int) else 0) := by
  have hn := i.nodup
  obtain ⟨h1, h2⟩ := find_some h
  simp only [liveBytes, State.remove]
  clear i h
  revert hn h1
  induction s.blocks with
  | nil => intro _ h; simp at h
  | cons c l ih =>
    intro hn hm
    rw [List.map_cons, List.nodup_cons] at hn
    simp only [List.filter_cons, List.map_cons, List.sum_cons]
    rcases List.mem_cons.1 hm with h | h
    · subst h
      have : ∀ c ∈ l, c.ptr ≠ p := by
        intro c hc he
        exact hn.1 (by rw [h2, ← he]; exact List.mem_map_of_mem hc)
      simp only [h2, ne_eq, not_true_eq_false, decide_false, Bool.false_eq_true, if_false]
      rw [List.filter_eq_self.2 (by simpa using this)]
      omega
    · have hcp : c.ptr ≠ p := by
        intro he
        exact hn.1 (by rw [he, ← h2]; exact List.mem_map_of_mem h)
      simp only [hcp, ne_eq, not_false_eq_true, decide_true, if_true, List.map_cons, List.sum_cons]
      rw [ih hn.2 h]
      omega

theorem liveBytes_nonneg (s : State) : 0 ≤ liveBytes s := by
  simp only [liveBytes]
  induction s.blocks with
  | nil => simp
  | cons b l ih =>
    simp only [List.map_cons, List.sum_cons]
    split
    · exact Int.add_nonneg (Int.natCast_nonneg _) ih
    · rw [Int.zero_add]; exact ih

/-- Taking out a block. -/
theorem Inv.remove {s : State} (i : Inv s) {p : Ptr} {b : Block} (h : s.find p = some b) :
    Inv ((if p.isReal then s.dec b.size else s).remove p) := by
  have hc : (if p.isReal then s.dec b.size else s).blocks = s.blocks := by split <;> rfl
  have hl : liveBytes ((if p.isReal then s.dec b.size else s).remove p) = liveBytes (s.remove p) := by
    simp only [liveBytes, State.remove, hc]
  have hmem : ∀ c ∈ ((if p.isReal then s.dec b.size else s).remove p).blocks, c ∈ s.blocks := by
    intro c hc'
    simp only [State.remove, hc] at hc'
    exact (List.mem_filter.1 hc').1
  have hu : ((if p.isReal then s.dec b.size else s).remove p).initUse = s.initUse := by
    simp only [State.remove]; split <;> rfl
  have hcur : ((if p.isReal then s.dec b.size else s).remove p).curr = s.curr - (if p.isReal then (b.size : Int) else 0) := by
    simp only [State.remove]; split <;> simp [State.dec]
  have hpk : ((if p.isReal then s.dec b.size else s).remove p).peak = s.peak := by
    simp only [State.remove]; split <;> rfl
  have htot : ((if p.isReal then s.dec b.size else s).remove p).total = s.total := by
    simp only [State.remove]; split <;> rfl
  have hre : ((if p.isReal then s.dec b.size else s).remove p).real = s.real := by
    simp only [State.remove]; split <;> rfl
  have h1 := i.le1
  refine ⟨?_, fun c hc' => i.nonnull c (hmem c hc'), ?_, ?_, ?_, ?_, ?_, ?_, ?_⟩
  · refine i.nodup.sublist ?_
    simp only [State.remove, hc]
    exact List.filter_sublist.map _
  · rw [hcur, hl, liveBytes_remove i h, i.curr]
  · rw [hcur, hpk]; split <;> omega
  · rw [hpk, htot]; exact i.le2
  · rw [hu]; exact i.use
  · rw [hu]; exact fun c hc' => i.initOk c (hmem c hc')
  · exact fun c hc' d hd => i.initDisj c (hmem c hc') d (hmem d hd)
  · rw [hre]; exact fun hr c hc' => i.realOnly hr c (hmem c hc')

/-- A new block of the C library. -/
theorem Inv.add_real {s : State} (i : Inv s) {a n : Nat} {d : Nat → Nat} (h : s.find (.real a) = none) (hr : s.real = true) :
    Inv ((s.inc n).add ⟨.real a, n, d⟩) := by
  have h1 := i.le1
  have h2 := i.le2
  refine ⟨?_, ?_, ?_, ?_, ?_, i.use, ?_, ?_, ?_⟩
  · simp only [State.add, State.inc, List.map_cons]
    refine List.nodup_cons.2 ⟨?_, i.nodup⟩
    intro hm
    obtain ⟨b, hb, he⟩ := List.mem_map.1 hm
    exact find_none h b hb he
  · intro b hb
    rcases List.mem_cons.1 hb with rfl | hb
    · simp
    · exact i.nonnull b hb
  · have := i.curr
    simp only [liveBytes] at this
    simp only [State.add, State.inc, liveBytes, List.map_cons, List.sum_cons, isReal_real, if_true]
    omega
  · simp only [State.add, State.inc]; split <;> omega
  · simp only [State.add, State.inc]; split <;> omega
  · intro b hb o ho
    rcases List.mem_cons.1 hb with rfl | hb
    · simp at ho
    · exact i.initOk b hb o ho
  · intro b hb c hc o p ho hp hne
    rcases List.mem_cons.1 hb with rfl | hb
    · simp at ho
    · rcases List.mem_cons.1 hc with rfl | hc
      · simp at hp
      · exact i.initDisj b hb c hc o p ho hp hne
  · intro hf
    simp [State.add, State.inc, hr] at hf

/-- A new block of the start-up heap. -/
theorem Inv.add_init {s : State} (i : Inv s) {n : Nat} {d : Nat → Nat} (hn : s.initUse + 16 + n ≤ initSize) :
    Inv ({ s with initUse := s.initUse + 16 + n }.add ⟨.init (s.initUse + 16), n, d⟩) ∧ s.find (.init (s.initUse + 16)) = none := by
  have hnew : s.find (.init (s.initUse + 16)) = none := by
    rcases h : s.find (.init (s.initUse + 16)) with _ | b
    · rfl
    · obtain ⟨h1, h2⟩ := find_some h
      have := i.initOk b h1 _ h2
      omega
  refine ⟨⟨?_, ?_, ?_, i.le1, i.le2, hn, ?_, ?_, ?_⟩, hnew⟩
  · simp only [State.add, List.map_cons]
    refine List.nodup_cons.2 ⟨?_, i.nodup⟩
    intro hm
    obtain ⟨b, hb, he⟩ := List.mem_map.1 hm
    exact find_none hnew b hb he
  · intro b hb
    rcases List.mem_cons.1 hb with rfl | hb
    · simp
    · exact i.nonnull b hb
  · have := i.curr
    simp only [liveBytes] at this
    simp only [State.add, liveBytes, List.map_cons, List.sum_cons, isReal_init]
    simpa using this
  · intro b hb o ho
    simp only [State.add]
    rcases List.mem_cons.1 hb with rfl | hb
    · simp only [Ptr.init.injEq] at ho
      simp only; omega
    · have := i.initOk b hb o ho
      omega
  · intro b hb c hc o p ho hp hne
    rcases List.mem_cons.1 hb with rfl | hb
    · rcases List.mem_cons.1 hc with rfl | hc
      · exact absurd (by simp only [Ptr.init.injEq] at ho hp; omega) hne
      · have := i.initOk c hc p hp
        simp only [Ptr.init.injEq] at ho
        right; omega
    · rcases List.mem_cons.1 hc with rfl | hc
      · have := i.initOk b hb o ho
        simp only [Ptr.init.injEq] at hp
        left; omega
      · exact i.initDisj b hb c hc o p ho hp hne
  · intro hf b hb
    rcases List.mem_cons.1 hb with rfl | hb
    · rfl
    · exact i.realOnly hf b hb

theorem setData_ptrs (s : State) (p : Ptr) (f : (Nat → Nat) → Nat → Nat) :
    (s.setData p f).blocks.map (fun b => (b.ptr, b.size)) = s.blocks.map (fun b => (b.ptr, b.size)) := by
  simp only [State.setData, List.map_map]
  refine List.map_congr_left fun b _ => ?_
  simp only [Function.comp]
  split <;> rfl

/-- The invariant does not speak of the bytes. -/
theorem Inv.of_ptrs {s s' : State} (i : Inv s) (h : s'.blocks.map (fun b => (b.ptr, b.size)) = s.blocks.map (fun b => (b.ptr, b.size)))
    (h1 : s'.real = s.real) (h2 : s'.initUse = s.initUse) (h3 : s'.curr = s.curr) (h4 : s'.curr ≤ s'.peak) (h5 : s'.peak ≤ s'.total) : Inv s' := by
  have hmem : ∀ b ∈ s'.blocks, ∃ c ∈ s.blocks, c.ptr = b.ptr ∧ c.size = b.size := by
    intro b hb
    have : (b.ptr, b.size) ∈ s.blocks.map (fun b => (b.ptr, b.size)) := h ▸ List.mem_map_of_mem (f := fun b : Block => (b.ptr, b.size)) hb
    obtain ⟨c, hc, he⟩ := List.mem_map.1 this
    simp only [Prod.mk.injEq] at he
    exact ⟨c, hc, he⟩
  refine ⟨?_, ?_, ?_, h4, h5, h2 ▸ i.use, ?_, ?_, ?_⟩
  · have e : s'.blocks.map (·.ptr) = s.blocks.map (·.ptr) := by
      have := congrArg (List.map Prod.fst) h
      simpa [List.map_map, Function.comp_def] using this
    rw [e]; exact i.nodup
  · intro b hb
    obtain ⟨c, hc, e1, _⟩ := hmem b hb
    exact e1 ▸ i.nonnull c hc
  · rw [h3, i.curr]
    have := congrArg (fun l => (l.map fun x : Ptr × Nat => if x.1.isReal then (x.2 : Int) else 0).sum) h
    simp only [List.map_map, Function.comp_def] at this
    exact this.symm
  · intro b hb o ho
    obtain ⟨c, hc, e1, e2⟩ := hmem b hb
    rw [h2, ← e2]
    exact i.initOk c hc o (e1 ▸ ho)
  · intro b hb c hc o p ho hp hne
    obtain ⟨b', hb', e1, e2⟩ := hmem b hb
    obtain ⟨c', hc', e3, e4⟩ := hmem c hc
    rw [← e2, ← e4]
    exact i.initDisj b' hb' c' hc' o p (e1 ▸ ho) (e3 ▸ hp) hne
  · intro hf b hb
    obtain ⟨c, hc, e1, _⟩ := hmem b hb
    exact e1 ▸ i.realOnly (h1 ▸ hf) c hc

theorem Inv.setData {s : State} (i : Inv s) (p : Ptr) (f : (Nat → Nat) → Nat → Nat) : Inv (s.setData p f) :=
  i.of_ptrs (setData_ptrs s p f) rfl rfl rfl i.le1 i.le2

/-! ## The functions -/

/-- What `malloc` gives in order. -/
def MallocOk (s : State) (n : Nat) : Res → Prop
  | .ok s' p => Inv s' ∧ NewBlock s n s' p ∧ s'.real = s.real ∧ s'.total = s.total + (if p.isReal then (n : Int) else 0) ∧
      s'.peak = (if s'.curr > s.peak then s'.curr else s.peak) ∧ (∀ q : Ptr, q ≠ p → s'.find q = s.find q)
  | .exit => True
  | .undef => False
  | .stuck => True

theorem malloc_ok {s : State} (i : Inv s) {n : Nat} (hn : n + 2 ^ 21 < W) {ans : Option Nat} {junk : Nat → Nat} (ha : ans ≠ none) :
    MallocOk s n (malloc n ans junk s) := by
  simp only [malloc]
  have hu := i.use
  have hle := i.le1
  simp only [initSize] at hu
  split
  · rename_i h0
    refine ⟨i, Or.inl ⟨h0, rfl, fun _ => rfl⟩, rfl, by simp [Ptr.isReal], ?_, fun _ _ => rfl⟩
    rw [if_neg (by omega)]
  · rename_i h0
    split
    · rename_i hr
      rcases ans with _ | a
      · exact absurd rfl ha
      · dsimp only
        split
        · trivial
        · rename_i hf
          rw [if_neg (by omega)]
          have hf' : s.find (.real a) = none := by simpa using hf
          refine ⟨i.add_real hf' hr, Or.inr ⟨by omega, by simp, hf', ⟨⟨.real a, n, junk⟩, ?_, rfl⟩, ?_⟩, rfl, rfl, rfl, ?_⟩
          · rw [find_add, if_pos rfl]
          · intro q hq; rw [find_add, if_neg hq]; rfl
          · intro q hq; rw [find_add, if_neg hq]; rfl
    · have hm : (s.initUse + 16 + n) % W = s.initUse + 16 + n := Nat.mod_eq_of_lt (by omega)
      rw [hm]
      split
      · trivial
      · rename_i hlt
        rw [if_neg (by omega)]
        obtain ⟨j, hf⟩ := i.add_init (n := n) (d := junk) (by omega)
        refine ⟨j, Or.inr ⟨by omega, by simp, hf, ⟨⟨.init (s.initUse + 16), n, junk⟩, ?_, rfl⟩, ?_⟩, rfl, by simp [State.add], ?_, ?_⟩
        · rw [find_add, if_pos rfl]
        · intro q hq; rw [find_add, if_neg hq]; rfl
        · exact (if_neg (show ¬ (s.curr > s.peak) by omega)).symm
        · intro q hq; rw [find_add, if_neg hq]; rfl

/-- What `free` gives in order. -/
def FreeOk (s : State) (p : Ptr) : Res → Prop
  | .ok s' _ => Inv s' ∧ (p = .null ∨ (s.find p).isSome) ∧ s'.find p = none ∧ (∀ q : Ptr, q ≠ p → s'.find q = s.find q) ∧
      s'.real = s.real ∧ s'.total = s.total ∧ s'.peak = s.peak
  | .stuck => True
  | _ => False

theorem free_ok {s : State} (i : Inv s) (p : Ptr) : FreeOk s p (free p s) := by
  cases p with
  | null => exact ⟨i, Or.inl rfl, i.find_null, fun _ _ => rfl, rfl, rfl, rfl⟩
  | init o =>
    simp only [free]
    split
    · rename_i hs
      obtain ⟨b, hb⟩ := Option.isSome_iff_exists.1 hs
      have j := i.remove hb
      simp only [isReal_init, Bool.false_eq_true, if_false] at j
      refine ⟨j, Or.inr hs, by rw [find_remove, if_pos rfl], fun q hq => by rw [find_remove, if_neg hq], rfl, rfl, rfl⟩
    · trivial
  | real a =>
    simp only [free]
    rcases hb : s.find (.real a) with _ | b
    · trivial
    · have j := i.remove hb
      simp only [isReal_real, if_true] at j
      have hr : s.real = true := by
        rcases h : s.real with _ | _
        · have := i.realOnly h b (find_some hb).1
          rw [(find_some hb).2] at this
          simp at this
        · rfl
      simp only [hr, if_true]
      refine ⟨j, Or.inr (by simp [hb]), by rw [find_remove, if_pos rfl], fun q hq => by rw [find_remove, if_neg hq]; rfl, rfl, rfl, rfl⟩

/-- What an event gives in order. -/
def StepOk (s : State) (e : Event) : Res → Prop
  | .ok s' p => Inv s' ∧ Meets s e s' p ∧ s'.total = s.total + counted e p ∧
      s'.peak = match e with
        | .resetPeak => s'.curr
        | _ => if s'.curr > s.peak then s'.curr else s.peak
  | .exit => True
  | .undef => False
  | .stuck => True

theorem free_curr {s s' : State} {p q : Ptr} (h : free p s = .ok s' q) (i : Inv s) : s'.curr ≤ s.curr := by
  have := free_ok i p
  cases p with
  | null => simp only [free, Res.ok.injEq] at h; rw [h.1]; exact Int.le_refl _
  | init o =>
    simp only [free] at h
    split at h
    · simp only [Res.ok.injEq] at h; rw [← h.1]; exact Int.le_refl _
    · simp at h
  | real a =>
    simp only [free] at h
    split at h
    · simp at h
    · split at h <;> simp only [Res.ok.injEq] at h <;> rw [← h.1] <;> simp only [State.remove, State.dec] <;> omega

theorem step_ok {s : State} (i : Inv s) (e : Event) (hf : Fits e) (ha : Answered e) : StepOk s e (step s e) := by
  have hle := i.le1
  cases e with
  | load =>
    refine ⟨⟨i.nodup, i.nonnull, i.curr, i.le1, i.le2, i.use, i.initOk, i.initDisj, fun h => by simp at h⟩, fun _ => rfl,
      by simp [counted], ?_⟩
    simp only
    rw [if_neg (by omega)]
  | resetPeak =>
    refine ⟨⟨i.nodup, i.nonnull, i.curr, Int.le_refl _, by have := i.le2; simp only; omega, i.use, i.initOk, i.initDisj, i.realOnly⟩,
      fun _ => rfl, by simp [counted], rfl⟩
  | malloc n ans junk =>
    have h := malloc_ok i hf (ans := ans) (junk := junk) ha
    simp only [step]
    cases hr : malloc n ans junk s <;> rw [hr] at h
    · exact ⟨h.1, h.2.1, h.2.2.2.1, h.2.2.2.2.1⟩
    · trivial
    · exact h.elim
    · trivial
  | calloc a b ans junk =>
    have hn : (b * a) % W = b * a := Nat.mod_eq_of_lt (by simp only [Fits] at hf; omega)
    have h := malloc_ok i hf (ans := ans) (junk := junk) ha
    simp only [step, calloc, hn]
    split
    · rename_i h0
      refine ⟨i, ⟨Or.inl ⟨h0, rfl, fun _ => rfl⟩, fun c _ j hj => by omega⟩, by simp [counted, Ptr.isReal], ?_⟩
      simp only
      rw [if_neg (by omega)]
    · rename_i h0
      cases hr : malloc (b * a) ans junk s <;> rw [hr] at h
      · rename_i s' p
        obtain ⟨h1, h2, h3, h4, h5, h6⟩ := h
        have hfind : ∀ q : Ptr, q ≠ p → (s'.setData p fun d i => if i < b * a then 0 else d i).find q = s'.find q := by
          intro q hq
          rw [find_setData]
          simp [hq]
        rcases h2 with h2 | ⟨g1, g2, g3, ⟨c, g4, g5⟩, g6⟩
        · exact absurd h2.1 h0
        · have hp : (s'.setData p fun d i => if i < b * a then 0 else d i).find p =
              some { c with data := fun i => if i < b * a then 0 else c.data i } := by
            rw [find_setData, g4]; simp
          refine ⟨h1.setData _ _, ⟨Or.inr ⟨g1, g2, g3, ⟨_, hp, g5⟩, fun q hq => by rw [hfind q hq, g6 q hq]⟩, ?_⟩, h4, h5⟩
          intro c' hc' j hj
          rw [hp] at hc'
          simp only [Option.some.injEq] at hc'
          rw [← hc']
          simp [hj]
      · trivial
      · exact h.elim
      · trivial
  | free p =>
    have h := free_ok i p
    simp only [step]
    cases hr : free p s <;> rw [hr] at h
    · rename_i s' q
      refine ⟨h.1, ⟨h.2.1, h.2.2.1, h.2.2.2.1⟩, by simp only [counted]; rw [h.2.2.2.2.2.1]; omega, ?_⟩
      have := free_curr hr i
      rw [h.2.2.2.2.2.2]
      simp only
      rw [if_neg (by omega)]
    · trivial
    · exact h.elim
    · trivial
  | write p j v =>
    simp only [step]
    rcases hb : s.find p with _ | b
    · trivial
    · dsimp only
      split
      · rename_i hj
        refine ⟨i.setData _ _, ⟨⟨b, hb, hj, ?_⟩, ?_⟩, by simp [counted, State.setData], ?_⟩
        · rw [find_setData, hb]; simp
        · intro q hq
          rw [find_setData]; simp [hq]
        · simp only [State.setData]
          rw [if_neg (by omega)]
      · trivial
  | realloc p n ans junk =>
    cases p with
    | null =>
      simp only [step, realloc]
      split
      · rename_i h0
        simp only [free]
        refine ⟨i, ?_, by simp [counted, Ptr.isReal], ?_⟩
        · simp only [Meets, if_true]
          exact Or.inl ⟨h0, rfl, fun _ => rfl⟩
        · simp only
          rw [if_neg (by omega)]
      · have h := malloc_ok i hf (ans := ans) (junk := junk) ha
        cases hr : malloc n ans junk s <;> rw [hr] at h
        · refine ⟨h.1, ?_, h.2.2.2.1, h.2.2.2.2.1⟩
          simp only [Meets, if_true]
          exact h.2.1
        · trivial
        · exact h.elim
        · trivial
    | init o =>
      simp only [step, realloc]
      rcases hb : s.find (.init o) with _ | b
      · trivial
      · dsimp only
        split
        · rename_i hge
          have j := i.remove hb
          simp only [isReal_init, Bool.false_eq_true, if_false] at j
          obtain ⟨hbm, hbp⟩ := find_some hb
          refine ⟨?_, ?_, by simp [counted, State.add, State.remove], ?_⟩
          · have hrm : ∀ c ∈ (s.remove (.init o)).blocks, c ∈ s.blocks ∧ c.ptr ≠ .init o := by
              intro c hc
              simpa [State.remove] using hc
            refine ⟨?_, ?_, ?_, j.le1, j.le2, j.use, ?_, ?_, ?_⟩
            · simp only [State.add, List.map_cons]
              refine List.nodup_cons.2 ⟨?_, j.nodup⟩
              intro hm
              obtain ⟨c, hc, he⟩ := List.mem_map.1 hm
              exact (hrm c hc).2 (he.trans hbp)
            · intro c hc
              rcases List.mem_cons.1 hc with rfl | hc
              · exact i.nonnull b hbm
              · exact j.nonnull c hc
            · have := j.curr
              simp only [liveBytes] at this
              simp only [State.add, liveBytes, List.map_cons, List.sum_cons, hbp, isReal_init]
              simpa using this
            · intro c hc q hq
              rcases List.mem_cons.1 hc with rfl | hc
              · have := i.initOk b hbm q hq
                simp only [State.add, State.remove]
                omega
              · exact j.initOk c hc q hq
            · intro c hc d hd q r hq hr hne
              rcases List.mem_cons.1 hc with rfl | hc
              · rcases List.mem_cons.1 hd with rfl | hd
                · exact absurd (by simp only at hq hr; rw [hq] at hr; simpa using hr) hne
                · have := i.initDisj b hbm d (hrm d hd).1 q r hq hr hne
                  simp only; omega
              · rcases List.mem_cons.1 hd with rfl | hd
                · have := i.initDisj c (hrm c hc).1 b hbm q r hq hr hne
                  simp only; omega
                · exact j.initDisj c hc d hd q r hq hr hne
            · intro hf c hc
              rcases List.mem_cons.1 hc with rfl | hc
              · simp [hbp]
              · exact j.realOnly hf c hc
          · simp only [Meets]
            rw [if_neg (by simp)]
            refine ⟨b, hb, ?_, Or.inr ⟨Or.inl trivial, { b with size := n }, ?_, rfl, fun _ _ _ => rfl⟩⟩
            · intro q hq _
              rw [find_add, if_neg (by simpa [hbp] using hq), find_remove, if_neg hq]
            · rw [find_add, if_pos hbp.symm]
          · exact (if_neg (show ¬ (s.curr > s.peak) by omega)).symm
        · rename_i hlt
          have h := malloc_ok i hf (ans := ans) (junk := junk) ha
          cases hr : malloc n ans junk s <;> rw [hr] at h
          · rename_i s' q
            obtain ⟨h1, h2, h3, h4, h5, h6⟩ := h
            rcases h2 with h2 | ⟨g1, g2, g3, ⟨c, g4, g5⟩, g6⟩
            · omega
            · have hq : q ≠ .init o := fun he => by rw [he, hb] at g3; simp at g3
              have j := h1.setData q fun d i => if i < b.size then b.data i else d i
              have hk := free_ok j (.init o)
              dsimp only
              cases hfr : free (.init o) (s'.setData q fun d i => if i < b.size then b.data i else d i) <;> rw [hfr] at hk
              · rename_i s'' x
                obtain ⟨k1, k2, k3, k4, k5, k6, k7⟩ := hk
                have hcur := free_curr hfr j
                refine ⟨k1, ?_, ?_, ?_⟩
                · simp only [Meets]
                  rw [if_neg (by simp)]
                  refine ⟨b, hb, ?_, Or.inr ⟨Or.inr ⟨g3, k3⟩, { c with data := fun i => if i < b.size then b.data i else c.data i }, ?_, g5, ?_⟩⟩
                  · intro r hr1 hr2
                    rw [k4 r hr1, find_setData, g6 r hr2]
                    simp [hr2]
                  · rw [k4 q hq, find_setData, g4]; simp
                  · intro m hm _
                    simp [hm]
                · rw [k6]; exact h4
                · rw [k7]
                  simp only
                  have e : s''.curr = s'.curr := by
                    simp only [free] at hfr
                    split at hfr
                    · simp only [Res.ok.injEq] at hfr
                      rw [← hfr.1]; rfl
                    · simp at hfr
                  rw [e]; exact h5
              · exact hk.elim
              · exact hk.elim
              · trivial
          · trivial
          · exact h.elim
          · trivial
    | real a =>
      simp only [step, realloc]
      split
      · rename_i h0
        have h := free_ok i (.real a)
        cases hr : free (.real a) s <;> rw [hr] at h
        · rename_i s' q
          obtain ⟨k1, k2, k3, k4, k5, k6, k7⟩ := h
          have hq : q = .null := by
            simp only [free] at hr
            split at hr
            · simp at hr
            · split at hr <;> simp only [Res.ok.injEq] at hr <;> exact hr.2.symm
          subst hq
          rcases hb : s.find (.real a) with _ | b
          · rw [hb] at k2; simp at k2
          · refine ⟨k1, ?_, by rw [k6]; simp [counted, Ptr.isReal], ?_⟩
            · simp only [Meets]
              rw [if_neg (by simp)]
              exact ⟨b, hb, fun q hq _ => k4 q hq, Or.inl ⟨h0, rfl, trivial, k3⟩⟩
            · have := free_curr hr i
              rw [k7]
              simp only
              rw [if_neg (by omega)]
        · trivial
        · exact h.elim
        · trivial
      · rename_i h0
        rcases hb : s.find (.real a) with _ | b
        · trivial
        · dsimp only
          rcases ans with _ | a'
          · exact absurd rfl ha
          · dsimp only
            split
            · trivial
            · rename_i hst
              have hW : ¬ W ≤ 16 + n := by simp only [Fits] at hf; omega
              rw [if_neg hW]
              have j := i.remove hb
              simp only [isReal_real, if_true] at j
              have hr : s.real = true := by
                rcases h : s.real with _ | _
                · have := i.realOnly h b (find_some hb).1
                  rw [(find_some hb).2] at this
                  simp at this
                · rfl
              have hfa : ((s.dec b.size).remove (.real a)).find (.real a') = none := by
                rw [find_remove]
                split
                · rfl
                · rename_i hne
                  rw [find_dec]
                  have : a' ≠ a := fun h => hne (by rw [h])
                  simpa [this] using hst
              have k := j.add_real (n := n) (d := fun i => if i < b.size then b.data i else junk i) hfa hr
              refine ⟨k, ?_, rfl, rfl⟩
              simp only [Meets]
              rw [if_neg (by simp)]
              refine ⟨b, hb, ?_, Or.inr ⟨?_, ⟨.real a', n, fun i => if i < b.size then b.data i else junk i⟩, ?_, rfl, ?_⟩⟩
              · intro q h1 h2
                rw [find_add, if_neg h2, find_remove, if_neg h1]; rfl
              · by_cases haa : a' = a
                · left; rw [haa]
                · right
                  refine ⟨by simpa [haa] using hst, ?_⟩
                  rw [find_add, if_neg (by simp [Ne.symm haa]), find_remove, if_pos rfl]
              · rw [find_add, if_pos rfl]
              · intro m hm _
                simp [hm]

theorem start_inv : Inv start :=
  ⟨by simp [start], by simp [start], rfl, Int.le_refl _, Int.le_refl _, by simp [start], by simp [start], by simp [start], by simp [start]⟩

def RunOk : Res → Prop
  | .ok s _ => Inv s
  | .undef => False
  | _ => True

theorem run_ok : ∀ (es : List Event) (s : State), Inv s → (∀ e ∈ es, Fits e ∧ Answered e) → RunOk (run s es)
  | [], _, i, _ => i
  | e :: es, s, i, h => by
    have h1 := step_ok i e (h e (by simp)).1 (h e (by simp)).2
    simp only [run]
    cases hr : step s e <;> rw [hr] at h1
    · exact run_ok es _ h1.1 fun x hx => h x (List.mem_cons_of_mem _ hx)
    · trivial
    · exact h1.elim
    · trivial

theorem reached {es : List Event} (h : ∀ e ∈ es, Fits e ∧ Answered e) {s : State} {p : Ptr} (hs : run start es = .ok s p) : Inv s := by
  have := run_ok es start start_inv h
  rw [hs] at this
  exact this

/-! ## Theorems -/

/-- The program with the counter is as good as one without: nothing undefined happens, each call does to the blocks what `malloc`, `calloc`,
`realloc` and `free` promise, keeps the contents, and touches no other block. -/
theorem C91_blocks (es : List Event) (h : ∀ e ∈ es, Fits e ∧ Answered e) :
    run start es ≠ .undef ∧
    ∀ (s : State) (p : Ptr), run start es = .ok s p →
      ∀ (e : Event), Fits e → Answered e → step s e ≠ .undef ∧ ∀ (s' : State) (q : Ptr), step s e = .ok s' q → Meets s e s' q := by
  refine ⟨fun hu => ?_, fun s p hs e hf ha => ?_⟩
  · have := run_ok es start start_inv h
    rw [hu] at this
    exact this
  · have h1 := step_ok (reached h hs) e hf ha
    refine ⟨fun hu => by rw [hu] at h1; exact h1, fun s' q hq => ?_⟩
    rw [hq] at h1
    exact h1.2.1

/-- `malloc_count_current` is the number of bytes in blocks of the C library, never negative, and at most the peak, which is at most the total. -/
theorem C91_current (es : List Event) (h : ∀ e ∈ es, Fits e ∧ Answered e) (s : State) (p : Ptr) (hs : run start es = .ok s p) :
    s.curr = liveBytes s ∧ 0 ≤ s.curr ∧ s.curr ≤ s.peak ∧ s.peak ≤ s.total := by
  have i := reached h hs
  exact ⟨i.curr, i.curr ▸ liveBytes_nonneg s, i.le1, i.le2⟩

/-- After each event `malloc_count_peak` is the larger of the old peak and the current count, after a reset the current count; the total grows
by what was asked for. -/
theorem C91_peak_and_total (es : List Event) (h : ∀ e ∈ es, Fits e ∧ Answered e) (s : State) (p : Ptr) (hs : run start es = .ok s p)
    (e : Event) (hf : Fits e) (ha : Answered e) (s' : State) (q : Ptr) (he : step s e = .ok s' q) :
    s'.total = s.total + counted e q ∧ ((∃ (_ : e = .resetPeak), s'.peak = s'.curr) ∨ (e ≠ .resetPeak ∧ s'.peak = max s.peak s'.curr)) := by
  have h1 := step_ok (reached h hs) e hf ha
  rw [he] at h1
  refine ⟨h1.2.2.1, ?_⟩
  have h2 := h1.2.2.2
  by_cases hr : e = .resetPeak
  · subst hr; exact Or.inl ⟨rfl, h2⟩
  · refine Or.inr ⟨hr, ?_⟩
    have h3 : s'.peak = if s'.curr > s.peak then s'.curr else s.peak := by
      cases e <;> first | exact absurd rfl hr | exact h2
    rw [h3]
    split <;> omega

/-- Blocks on the start-up heap with their 16 bytes of bookkeeping lie inside it and do not overlap. -/
theorem C91_startup_heap (es : List Event) (h : ∀ e ∈ es, Fits e ∧ Answered e) (s : State) (p : Ptr) (hs : run start es = .ok s p) :
    (∀ (o : Nat) (b : Block), s.find (.init o) = some b → 16 ≤ o ∧ o + b.size ≤ initSize) ∧
    ∀ (o q : Nat) (b c : Block), s.find (.init o) = some b → s.find (.init q) = some c → o ≠ q →
      o + b.size ≤ q - 16 ∨ q + c.size ≤ o - 16 := by
  have i := reached h hs
  constructor
  · intro o b hb
    have := i.initOk b (find_some hb).1 o (find_some hb).2
    have := i.use
    omega
  · intro o q b c hb hc hne
    have := i.initDisj b (find_some hb).1 c (find_some hc).1 o q (find_some hb).2 (find_some hc).2 hne
    omega

/-- The current count is exact under every interleaving of threads: the sum of the increments minus the sum of the decrements. -/
theorem C91_concurrent_current (es : List CEvent) (s : CState) (h : crun cstart es = some s) :
    s.curr = (es.map fun e => match e with | .inc _ n => (n : Int) | .dec _ n => -(n : Int) | .go _ => 0).sum := by
  suffices H : ∀ (es : List CEvent) (r s : CState), crun r es = some s →
      s.curr = r.curr + (es.map fun e => match e with | .inc _ n => (n : Int) | .dec _ n => -(n : Int) | .go _ => 0).sum by
    have := H es cstart s h
    simpa [cstart] using this
  intro es
  induction es with
  | nil =>
    intro r s h
    simp only [crun, Option.some.injEq] at h
    simp [h]
  | cons e es ih =>
    intro r s h
    simp only [crun] at h
    rcases he : cstep r e with _ | r'
    · rw [he] at h; simp at h
    · rw [he] at h
      have h1 := ih r' s h
      rw [h1, List.map_cons, List.sum_cons]
      cases e with
      | inc t n =>
        simp only [cstep] at he
        split at he
        · simp only [Option.some.injEq] at he
          rw [← he]; simp only [CState.at]; omega
        · simp at he
      | dec t n =>
        simp only [cstep] at he
        split at he
        · simp only [Option.some.injEq] at he
          rw [← he]; simp only; omega
        · simp at he
      | go t =>
        simp only [cstep] at he
        repeat' split at he
        all_goals first | (simp at he; done) | skip
        all_goals
          simp only [Option.some.injEq] at he
          rw [← he]; simp only [CState.at]; omega

/-! ## Non-vacuity and refuted guarantees -/

def zeros : Nat → Nat := fun _ => 0

/-- On the start-up heap, then moved to the C library, grown, shrunk, freed. -/
def demo : List Event :=
  [.malloc 3 (some 0) zeros, .write (.init 16) 1 7, .load, .realloc (.init 16) 10 (some 5) zeros, .calloc 4 5 (some 6) zeros,
    .realloc (.real 6) 8 (some 9) zeros, .resetPeak, .malloc 100 (some 11) zeros, .free (.real 11)]

def summary : Res → Option (List (Ptr × Nat × List Nat) × Int × Int × Int)
  | .ok s _ => some (s.blocks.map fun b => (b.ptr, b.size, (List.range 3).map b.data), s.curr, s.peak, s.total)
  | _ => none

example : summary (run start demo) = some ([(.real 9, 8, [0, 0, 0]), (.real 5, 10, [0, 7, 0])], 18, 118, 138) := by decide +kernel

example : ∀ e ∈ demo, Fits e ∧ Answered e := by
  intro e he
  simp only [demo, List.mem_cons, List.not_mem_nil, or_false] at he
  rcases he with rfl | rfl | rfl | rfl | rfl | rfl | rfl | rfl | rfl <;> simp [Fits, Answered, W]

/-- The pointer returned last, and the sizes at some pointers. -/
def sizes (ps : List Ptr) : Res → Option (Ptr × List (Option Nat))
  | .ok s p => some (p, ps.map fun q => (s.find q).map (·.size))
  | _ => none

theorem of_sizes {ps : List Ptr} {p : Ptr} {l : List (Option Nat)} : ∀ {r : Res}, sizes ps r = some (p, l) →
    ∃ s : State, r = .ok s p ∧ ps.map (fun q => (s.find q).map (·.size)) = l
  | .ok s q, h => by
    simp only [sizes, Option.some.injEq, Prod.mk.injEq] at h
    exact ⟨s, by rw [h.1], h.2⟩
  | .exit, h => by simp [sizes] at h
  | .undef, h => by simp [sizes] at h
  | .stuck, h => by simp [sizes] at h

/-- When the C library is out of memory, `malloc` does not return null: it writes to the null pointer. -/
theorem C91_out_of_memory_undefined (n : Nat) (hn : 0 < n) (junk : Nat → Nat) (s : State) (hr : s.real = true) :
    step s (.malloc n none junk) = .undef := by
  have h0 : n ≠ 0 := by omega
  simp [step, malloc, h0, hr]

/-- `calloc` does not check its product: 2^32 times 2^32+1 gives a block of 2^32 bytes. -/
theorem C91_calloc_wraps :
    ∃ (s : State) (b : Block), run start [.load, .calloc (2 ^ 32) (2 ^ 32 + 1) (some 1) zeros] = .ok s .null ∧
      s.find (.real 1) = some b ∧ b.size = 2 ^ 32 := by
  obtain ⟨s, h1, h2⟩ := of_sizes (ps := [.real 1]) (p := .null) (l := [some (2 ^ 32)])
    (r := run start [.load, .calloc (2 ^ 32) (2 ^ 32 + 1) (some 1) zeros]) (by decide +kernel)
  simp only [List.map_cons, List.map_nil, List.cons.injEq, and_true, Option.map_eq_some_iff] at h2
  obtain ⟨b, hb, h3⟩ := h2
  exact ⟨s, b, h1, hb, h3⟩

/-- The check of the start-up heap wraps: a request for 2^64-50 bytes succeeds there, and the next block (at 98, with its bookkeeping from 82) overlaps an older one (at 16, 100 bytes). -/
theorem C91_startup_heap_wraps :
    ∃ (s : State) (b c : Block),
      run start [.malloc 100 none zeros, .malloc (W - 50) none zeros, .malloc 100 none zeros] = .ok s .null ∧
      s.find (.init 16) = some b ∧ b.size = 100 ∧ s.find (.init 98) = some c ∧ c.size = 100 := by
  obtain ⟨s, h1, h2⟩ := of_sizes (ps := [.init 16, .init 98]) (p := .null) (l := [some 100, some 100])
    (r := run start [.malloc 100 none zeros, .malloc (W - 50) none zeros, .malloc 100 none zeros]) (by decide +kernel)
  simp only [List.map_cons, List.map_nil, List.cons.injEq, and_true, Option.map_eq_some_iff] at h2
  obtain ⟨⟨b, hb, h3⟩, c, hc, h4⟩ := h2
  exact ⟨s, b, c, h1, hb, h3, hc, h4⟩

/-- The start-up heap does not keep the alignment: after a block of one byte the next is at the odd offset 33. -/
theorem C91_startup_heap_misaligned :
    ∃ (s : State) (b : Block), run start [.malloc 1 none zeros, .malloc 8 none zeros] = .ok s .null ∧
      s.find (.init 33) = some b ∧ b.size = 8 := by
  obtain ⟨s, h1, h2⟩ := of_sizes (ps := [.init 33]) (p := .null) (l := [some 8])
    (r := run start [.malloc 1 none zeros, .malloc 8 none zeros]) (by decide +kernel)
  simp only [List.map_cons, List.map_nil, List.cons.injEq, and_true, Option.map_eq_some_iff] at h2
  obtain ⟨b, hb, h3⟩ := h2
  exact ⟨s, b, h1, hb, h3⟩

/-- The peak and the total are not exact with two threads: when both calls have ended, 30 bytes are allocated, the peak says 10 and the total
20. -/
theorem C91_concurrent_peak_lost :
    ∃ (es : List CEvent) (s : CState), crun cstart es = some s ∧ s.pcs 0 = .idle ∧ s.pcs 1 = .idle ∧ s.curr = 30 ∧ s.peak = 10 ∧
      s.total = 20 :=
  ⟨[.inc 0 10, .go 0, .inc 1 20, .go 1, .go 1, .go 0, .go 0, .go 1, .go 0, .go 1], _, rfl, rfl, rfl, rfl, rfl, rfl⟩

end Stxxl.MallocCount
