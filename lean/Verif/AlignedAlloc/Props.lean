import Mathlib.Data.List.Pairwise
import Verif.AlignedAlloc.Model

/-!
# C89: aligned allocation

The statements mention `run`, the heap and the areas the program holds, and the small specification below.
-/
namespace Stxxl.AlignedAlloc

/-! ## Specification -/

/-- The size a call needs, with alignment and bookkeeping, fits in a `size_t`. -/
def Fits (A : Nat) : Event → Prop
  | .alloc size m _ => A + 8 + m + size < W
  | _ => True

/-- The C library never fails to shrink a block. -/
def NoReallocFailure : Event → Prop
  | .alloc _ _ as => ∀ a ∈ as, match a.realloc with | .fails => False | _ => True
  | _ => True

/-- The state at the start of a program. -/
def start (mem : Nat → Nat × Nat) (flag : Bool) : State := ⟨⟨[], mem, flag, []⟩, []⟩

/-- The bytes the program may use. -/
def Area.bytes (r : Area) : Block := (r.ptr, r.metaSize + r.size)

/-! ## Invariant -/

structure Good (A : Nat) (mem : Nat → Nat × Nat) (r : Area) : Prop where
  lo : r.block.1 + 8 ≤ r.ptr
  hi : r.ptr + (r.metaSize + r.size) ≤ r.block.1 + r.block.2
  al : (r.ptr + r.metaSize) % A = 0
  slot : ∀ k : Nat, k < 8 → mem (r.ptr - 8 + k) = (r.block.1, k)

structure Inv (A : Nat) (h : Heap) (areas : List Area) : Prop where
  pos : ∀ b ∈ h.live, b.1 ≠ 0 ∧ 0 < b.2
  pw : h.live.Pairwise disj
  perm : h.live.Perm (areas.map (·.block) ++ h.leaked)
  good : ∀ r ∈ areas, Good A h.mem r

theorem resultOf_spec (A m p : Nat) (hA : 0 < A) :
    p + 9 ≤ resultOf A m p ∧ resultOf A m p ≤ p + 8 + A ∧ (resultOf A m p + m) % A = 0 := by
  have h1 := Nat.mod_lt (p + 8 + m) hA
  have h2 := Nat.mod_le (p + 8 + m) A
  refine ⟨by simp only [resultOf]; omega, by simp only [resultOf]; omega, ?_⟩
  have h3 : resultOf A m p + m = A * ((p + 8 + m) / A + 1) := by
    have := Nat.div_add_mod (p + 8 + m) A
    simp only [resultOf, Nat.mul_add]; omega
  rw [h3, Nat.mul_mod_right]

theorem cons_eraseIdx_perm {α : Type} : ∀ {l : List α} {k : Nat} (h : k < l.length), (l[k] :: l.eraseIdx k).Perm l
  | _ :: _, 0, _ => List.Perm.refl _
  | a :: l, k + 1, h => (List.Perm.swap _ _ _).trans ((cons_eraseIdx_perm (l := l) (k := k) (Nat.lt_of_succ_lt_succ h)).cons a)

theorem disj_symm {a b : Block} (h : disj a b) : disj b a := h.symm.imp (fun x => x) (fun x => x)

theorem Inv.mem_live {A h areas} (i : Inv A h areas) {r : Area} (hr : r ∈ areas) : r.block ∈ h.live :=
  i.perm.symm.subset (List.mem_append_left _ (List.mem_map_of_mem hr))

theorem Inv.areas_disj {A h areas} (i : Inv A h areas) {q r : Area} (hq : q ∈ areas) (hr : r ∈ areas) (hne : q ≠ r) :
    disj q.block r.block := by
  have h1 := (i.perm.pairwise_iff (fun {a b} => disj_symm)).1 i.pw
  have h2 := List.pairwise_map.1 (List.pairwise_append.1 h1).1
  haveI : Std.Symm (fun a b : Area => disj a.block b.block) := ⟨fun _ _ => disj_symm⟩
  exact h2.forall hq hr hne

theorem finish_inv {A size m : Nat} {h : Heap} {areas : List Area} {b : Block} (hA : 0 < A) (i : Inv A h areas)
    (hf : fresh h.live b.1 b.2) (hb : resultOf A m b.1 - b.1 + m + size ≤ b.2) :
    ∃ h' r, finish A size m { h with live := b :: h.live } b = .ok h' r ∧ Inv A h' (r :: areas) ∧ r.metaSize = m ∧ r.size = size ∧
      h'.leaked = h.leaked ∧ (∀ q ∈ areas, ∀ x : Nat, q.ptr ≤ x → x < q.ptr + (q.metaSize + q.size) → h'.mem x = h.mem x) := by
  obtain ⟨h1, h2, h3⟩ := resultOf_spec A m b.1 hA
  generalize hr : resultOf A m b.1 = r at *
  refine ⟨{ h with live := b :: h.live, mem := storePtr h.mem (r - 8) b.1 }, ⟨r, m, size, b⟩, ?_, ?_, rfl, rfl, rfl, ?_⟩
  · simp only [finish, hr]
    rw [if_pos]
    exact ⟨b, by simp, by omega, by omega⟩
  · refine ⟨?_, ?_, ?_, ?_⟩
    · intro c hc
      rcases List.mem_cons.1 hc with rfl | hc
      · exact ⟨hf.1, by omega⟩
      · exact i.pos c hc
    · exact List.pairwise_cons.2 ⟨hf.2.2, i.pw⟩
    · simpa using i.perm
    · intro q hq
      rcases List.mem_cons.1 hq with rfl | hq
      · refine ⟨by simp only; omega, by simp only; omega, h3, ?_⟩
        intro k hk
        simp only [storePtr]
        rw [if_pos (by omega)]
        congr 1; omega
      · have g := i.good q hq
        refine ⟨g.lo, g.hi, g.al, ?_⟩
        intro k hk
        have hd := hf.2.2 _ (i.mem_live hq)
        have := g.lo
        have := g.hi
        simp only [disj] at hd
        simp only [storePtr]
        rw [if_neg (by omega)]
        exact g.slot k hk
  · intro q hq x hx1 hx2
    have g := i.good q hq
    have hd := hf.2.2 _ (i.mem_live hq)
    have := g.lo
    have := g.hi
    simp only [disj] at hd
    simp only [storePtr]
    rw [if_neg (by omega)]

/-- What `alloc` may do to a heap in order. -/
def AllocOk (A size m : Nat) (h : Heap) (areas : List Area) : Res → Prop
  | .ok h' r => Inv A h' (r :: areas) ∧ r.metaSize = m ∧ r.size = size ∧
      (∀ q ∈ areas, ∀ x : Nat, q.ptr ≤ x → x < q.ptr + (q.metaSize + q.size) → h'.mem x = h.mem x)
  | .badAlloc h' => Inv A h' areas ∧ h'.mem = h.mem
  | .undef => False
  | .stuck => True

theorem alloc_ok {A size m : Nat} (hA : 0 < A) (hn : A + 8 + m + size < W) (areas : List Area) :
    ∀ (as : List Answer) (h : Heap), Inv A h areas → AllocOk A size m h areas (alloc A size m as h)
  | [], _, _ => trivial
  | a :: as, h, i => by
    have hn' : (A + 8 + m + size) % W = A + 8 + m + size := Nat.mod_eq_of_lt hn
    simp only [alloc, hn']
    rcases a with ⟨_ | p, ra⟩
    · exact ⟨i, rfl⟩
    · dsimp only
      by_cases hf : fresh h.live p (A + 8 + m + size)
      · rw [if_neg (by simpa using hf)]
        obtain ⟨h1, h2, h3⟩ := resultOf_spec A m p hA
        have hrs : (resultOf A m p - p + m + size) % W = resultOf A m p - p + m + size := Nat.mod_eq_of_lt (by omega)
        rw [hrs]
        split
        · rename_i hlt
          cases ra with
          | same =>
            dsimp only
            obtain ⟨h', r, he, j1, j2, j3, -, j4⟩ := finish_inv (b := (p, resultOf A m p - p + m + size)) (size := size) (m := m) hA i
              ⟨hf.1, by have := hf.2.1; omega, fun b hb => by
                have := hf.2.2 b hb
                simp only [disj] at this ⊢; omega⟩ (Nat.le_refl _)
            rw [he]
            exact ⟨j1, j2, j3, j4⟩
          | moved q =>
            dsimp only
            by_cases hq : q = p ∨ ¬ fresh h.live q (resultOf A m p - p + m + size)
            · rw [if_pos hq]; trivial
            · rw [if_neg hq]
              have hq0 : q ≠ 0 := by
                intro h0
                exact hq (Or.inr fun hh => hh.1 h0)
              simp only [free, if_neg hq0, List.find?_cons, beq_self_eq_true, List.erase_cons_head]
              exact alloc_ok hA hn areas as _ ⟨i.pos, i.pw, i.perm, i.good⟩
          | fails =>
            dsimp only
            have := alloc_ok hA hn areas as { h with live := (p, A + 8 + m + size) :: h.live, leaked := (p, A + 8 + m + size) :: h.leaked, mayRealloc := false }
              ⟨?_, ?_, ?_, i.good⟩
            · exact this
            · intro c hc
              rcases List.mem_cons.1 hc with rfl | hc
              · exact ⟨hf.1, by simp only; omega⟩
              · exact i.pos c hc
            · exact List.pairwise_cons.2 ⟨hf.2.2, i.pw⟩
            · exact (i.perm.cons _).trans List.perm_middle.symm
        · obtain ⟨h', r, he, j1, j2, j3, -, j4⟩ := finish_inv (b := (p, A + 8 + m + size)) (size := size) (m := m) hA i hf (by simp only; omega)
          rw [he]
          exact ⟨j1, j2, j3, j4⟩
      · rw [if_pos hf]; trivial

theorem dealloc_ok {A : Nat} {h : Heap} {areas : List Area} (i : Inv A h areas) {k : Nat} {r : Area} (hk : areas[k]? = some r) :
    dealloc h r.ptr = some { h with live := h.live.erase r.block } ∧ Inv A { h with live := h.live.erase r.block } (areas.eraseIdx k) := by
  obtain ⟨hlt, he⟩ := List.getElem?_eq_some_iff.1 hk
  have hr : r ∈ areas := he ▸ List.getElem_mem hlt
  have g := i.good r hr
  have hl := i.mem_live hr
  have hb0 := (i.pos _ hl).1
  have hlo := g.lo
  have hhi := g.hi
  constructor
  · simp only [dealloc]
    rw [if_neg (by omega), if_neg]
    · have h0 : h.mem (r.ptr - 8) = (r.block.1, 0) := by simpa using g.slot 0 (by omega)
      have hld : loadPtr h.mem (r.ptr - 8) = some r.block.1 := by
        simp only [loadPtr, h0]
        rw [if_pos]
        rw [List.all_eq_true]
        intro k hk
        exact decide_eq_true (g.slot k (List.mem_range.1 hk))
      rw [hld]
      simp only [free, if_neg hb0]
      have hfind : h.live.find? (fun b => b.1 == r.block.1) = some r.block := by
        rcases hfd : h.live.find? (fun b => b.1 == r.block.1) with _ | c
        · rw [List.find?_eq_none] at hfd
          exact absurd (hfd _ hl) (by simp)
        · have hc := List.mem_of_find?_eq_some hfd
          have hc1 : c.1 = r.block.1 := by simpa using List.find?_some hfd
          suffices c = r.block by rw [hfd, this]
          apply Classical.byContradiction
          intro hne
          haveI : Std.Symm disj := ⟨fun _ _ => disj_symm⟩
          have hpw := i.pw.forall hc hl hne
          have := (i.pos _ hc).2
          have := (i.pos _ hl).2
          simp only [disj] at hpw
          omega
      rw [hfind]
    · rintro (h1 | h1)
      · omega
      · exact h1 ⟨r.block, hl, by omega, by omega⟩
  · refine ⟨fun c hc => i.pos c (List.mem_of_mem_erase hc), i.pw.sublist List.erase_sublist, ?_, fun q hq => i.good q (List.mem_of_mem_eraseIdx hq)⟩
    have hp : (areas.map (·.block) ++ h.leaked).Perm (r.block :: ((areas.eraseIdx k).map (·.block) ++ h.leaked)) := by
      have := (cons_eraseIdx_perm hlt).map (·.block)
      rw [he] at this
      exact (this.symm.append_right _).trans (by simp)
    exact List.Perm.cons_inv ((List.perm_cons_erase hl).symm.trans (i.perm.trans hp))

def OutOk (A : Nat) : Out → Prop
  | .ok s' => Inv A s'.heap s'.areas
  | .undef => False
  | .stuck => True

theorem step_ok {A : Nat} (hA : 0 < A) {s : State} (i : Inv A s.heap s.areas) (e : Event) (hfit : Fits A e) :
    OutOk A (step A s e) := by
  cases e with
  | alloc size m as =>
    have := alloc_ok hA hfit s.areas as s.heap i
    simp only [step]
    cases hr : alloc A size m as s.heap <;> rw [hr] at this
    · exact this.1
    · exact this.1
    · exact this.elim
    · trivial
  | dealloc k =>
    simp only [step]
    rcases hk : s.areas[k]? with _ | r
    · trivial
    · obtain ⟨h1, h2⟩ := dealloc_ok i hk
      dsimp only
      rw [h1]
      exact h2
  | deallocNull => exact i
  | write k off c =>
    simp only [step]
    rcases hk : s.areas[k]? with _ | r
    · trivial
    · dsimp only
      obtain ⟨hlt, he⟩ := List.getElem?_eq_some_iff.1 hk
      have hr : r ∈ s.areas := he ▸ List.getElem_mem hlt
      have g := i.good r hr
      have hl := i.mem_live hr
      have hlo := g.lo
      have hhi := g.hi
      split
      · rename_i ho
        rw [if_pos ⟨r.block, hl, by omega, by omega⟩]
        refine ⟨i.pos, i.pw, i.perm, fun q hq => ?_⟩
        have gq := i.good q hq
        refine ⟨gq.lo, gq.hi, gq.al, fun k hk => ?_⟩
        have hq1 := gq.lo
        have hq2 := gq.hi
        have hlq := i.mem_live hq
        dsimp only
        rw [if_neg]
        · exact gq.slot k hk
        · intro hx
          by_cases hqr : q = r
          · subst hqr; omega
          · have := i.areas_disj hq hr hqr
            simp only [disj] at this
            omega
      · trivial

theorem run_ok {A : Nat} (hA : 0 < A) : ∀ (es : List Event) (s : State), Inv A s.heap s.areas → (∀ e ∈ es, Fits A e) →
    OutOk A (run A s es)
  | [], s, i, _ => i
  | e :: es, s, i, hf => by
    have h1 := step_ok hA i e (hf e (by simp))
    simp only [run]
    rcases he : step A s e with s' | _ | _ <;> rw [he] at h1
    · exact run_ok hA es s' h1 (fun x hx => hf x (List.mem_cons_of_mem _ hx))
    · exact h1.elim
    · trivial

theorem start_inv (A : Nat) (mem : Nat → Nat × Nat) (flag : Bool) : Inv A (start mem flag).heap (start mem flag).areas :=
  ⟨by simp [start], by simp [start], by simp [start], by simp [start]⟩

def LeakEq (h : Heap) : Res → Prop
  | .ok h' _ => h'.leaked = h.leaked
  | .badAlloc h' => h'.leaked = h.leaked
  | _ => True

theorem LeakEq.of_eq {h h' : Heap} {m : Bool} (e : h'.leaked = h.leaked) : ∀ {r : Res}, LeakEq { h' with mayRealloc := m } r → LeakEq h r
  | .ok _ _, x => Eq.trans x e
  | .badAlloc _, x => Eq.trans x e
  | .undef, _ => trivial
  | .stuck, _ => trivial

theorem alloc_leaked {A size m : Nat} : ∀ (as : List Answer) (h : Heap),
    (∀ a ∈ as, match a.realloc with | .fails => False | _ => True) →
    LeakEq h (alloc A size m as h)
  | [], _, _ => trivial
  | a :: as, h, hn => by
    rcases a with ⟨_ | p, ra⟩
    · exact rfl
    · have fin : ∀ (h : Heap) (b : Block), LeakEq h (finish A size m h b) := by
        intro h b
        simp only [finish]
        split
        · exact rfl
        · trivial
      simp only [alloc]
      split
      · trivial
      · split
        · cases ra with
          | same => exact fin _ _
          | moved q =>
            dsimp only
            split
            · trivial
            · split
              · trivial
              · rename_i h' hfr
                have hl : h'.leaked = h.leaked := by
                  simp only [free] at hfr
                  split at hfr
                  · simp only [Option.some.injEq] at hfr
                    rw [← hfr]
                  · simp only [List.find?_cons, beq_self_eq_true, Option.some.injEq] at hfr
                    rw [← hfr]
                have := alloc_leaked (A := A) (size := size) (m := m) as { h' with mayRealloc := false }
                  (fun x hx => hn x (List.mem_cons_of_mem _ hx))
                exact LeakEq.of_eq hl this
          | fails => exact (hn _ (List.mem_cons_self ..)).elim
        · exact fin _ _

theorem run_leaked {A : Nat} : ∀ (es : List Event) (s s' : State), (∀ e ∈ es, NoReallocFailure e) → run A s es = .ok s' →
    s'.heap.leaked = s.heap.leaked
  | [], s, s', _, h => by
    simp only [run, Out.ok.injEq] at h
    rw [h]
  | e :: es, s, s', hn, h => by
    simp only [run] at h
    rcases he : step A s e with s1 | _ | _ <;> rw [he] at h
    · rw [run_leaked es s1 s' (fun x hx => hn x (List.mem_cons_of_mem _ hx)) h]
      have hne := hn e (by simp)
      cases e with
      | alloc size m as =>
        have := alloc_leaked (A := A) (size := size) (m := m) as s.heap hne
        simp only [step] at he
        rcases ha : alloc A size m as s.heap with ⟨h', r⟩ | h' | _ | _ <;> rw [ha] at he this <;>
          simp only [Out.ok.injEq, reduceCtorEq] at he
        · rw [← he]; exact this
        · rw [← he]; exact this
      | dealloc k =>
        simp only [step, dealloc, free] at he
        repeat' split at he
        all_goals first | (simp at he; done) | skip
        all_goals
          simp only [Out.ok.injEq] at he
          rw [← he]
          simp_all
          try grind
      | deallocNull =>
        simp only [step, dealloc, if_true, Out.ok.injEq] at he
        rw [← he]
      | write k off c =>
        simp only [step] at he
        repeat' split at he
        all_goals first | (simp at he; done) | skip
        simp only [Out.ok.injEq] at he
        rw [← he]
    · exact absurd h (by simp)
    · exact absurd h (by simp)

/-! ## Theorems -/

/-- Whatever the program does with the areas it holds, and whatever the C library answers, nothing undefined happens. In every state that is
reached, the data of each held area is aligned, its bytes lie in memory that is allocated, no two held areas share a byte, and what is
allocated is one block for each held area and the leaked blocks. -/
theorem C89_areas_aligned_and_disjoint (A : Nat) (hA : 0 < A) (mem : Nat → Nat × Nat) (flag : Bool) (es : List Event)
    (hf : ∀ e ∈ es, Fits A e) :
    run A (start mem flag) es ≠ .undef ∧
    ∀ s : State, run A (start mem flag) es = .ok s →
      (∀ r ∈ s.areas, (r.ptr + r.metaSize) % A = 0 ∧ r.ptr ≠ 0 ∧ inside s.heap.live r.ptr (r.metaSize + r.size)) ∧
      s.areas.Pairwise (fun a b => disj a.bytes b.bytes) ∧
      s.heap.live.Pairwise disj ∧
      s.heap.live.length = s.areas.length + s.heap.leaked.length ∧
      s.heap.live.Perm (s.areas.map (·.block) ++ s.heap.leaked) := by
  have h := run_ok hA es (start mem flag) (start_inv A mem flag) hf
  refine ⟨fun hu => by rw [hu] at h; exact h, fun s hs => ?_⟩
  rw [hs] at h
  have i : Inv A s.heap s.areas := h
  refine ⟨fun r hr => ?_, ?_, i.pw, by simpa using i.perm.length_eq, i.perm⟩
  · have g := i.good r hr
    have := g.lo
    exact ⟨g.al, by omega, r.block, i.mem_live hr, by omega, g.hi⟩
  · have h1 := (i.perm.pairwise_iff (fun {a b} => disj_symm)).1 i.pw
    have h2 := List.pairwise_map.1 (List.pairwise_append.1 h1).1
    refine h2.imp_of_mem ?_
    intro a b ha hb hd
    have ga := i.good a ha
    have gb := i.good b hb
    have := ga.lo
    have := gb.lo
    have := ga.hi
    have := gb.hi
    simp only [disj, Area.bytes] at hd ⊢
    omega

/-- An allocation gives an area of the requested sizes and changes no byte of an area already held; one that throws leaves the areas as they
are. -/
theorem C89_alloc_keeps_contents (A : Nat) (hA : 0 < A) (mem : Nat → Nat × Nat) (flag : Bool) (es : List Event) (hf : ∀ e ∈ es, Fits A e)
    (s s' : State) (hs : run A (start mem flag) es = .ok s) (size m : Nat) (as : List Answer) (hn : A + 8 + m + size < W)
    (hstep : step A s (.alloc size m as) = .ok s') :
    (s'.areas = s.areas ∨ ∃ r : Area, s'.areas = r :: s.areas ∧ r.metaSize = m ∧ r.size = size) ∧
    ∀ q ∈ s.areas, ∀ x : Nat, q.ptr ≤ x → x < q.ptr + (q.metaSize + q.size) → s'.heap.mem x = s.heap.mem x := by
  have h := run_ok hA es (start mem flag) (start_inv A mem flag) hf
  rw [hs] at h
  have i : Inv A s.heap s.areas := h
  have ha := alloc_ok hA hn s.areas as s.heap i
  simp only [step] at hstep
  rcases hr : alloc A size m as s.heap with ⟨h', r⟩ | h' | _ | _ <;> rw [hr] at ha hstep <;>
    simp only [Out.ok.injEq, reduceCtorEq] at hstep
  · subst hstep
    exact ⟨Or.inr ⟨r, rfl, ha.2.1, ha.2.2.1⟩, ha.2.2.2⟩
  · subst hstep
    refine ⟨Or.inl rfl, fun q _ x _ _ => ?_⟩
    rw [ha.2]

/-- Deallocating a held area always succeeds, frees exactly its block and changes no memory; a null pointer is ignored. -/
theorem C89_dealloc_frees_the_block (A : Nat) (hA : 0 < A) (mem : Nat → Nat × Nat) (flag : Bool) (es : List Event) (hf : ∀ e ∈ es, Fits A e)
    (s : State) (hs : run A (start mem flag) es = .ok s) :
    (∀ (k : Nat) (r : Area), s.areas[k]? = some r →
      step A s (.dealloc k) = .ok ⟨{ s.heap with live := s.heap.live.erase r.block }, s.areas.eraseIdx k⟩ ∧ r.block ∈ s.heap.live) ∧
    step A s .deallocNull = .ok s := by
  have h := run_ok hA es (start mem flag) (start_inv A mem flag) hf
  rw [hs] at h
  have i : Inv A s.heap s.areas := h
  refine ⟨fun k r hk => ?_, rfl⟩
  obtain ⟨hlt, he⟩ := List.getElem?_eq_some_iff.1 hk
  refine ⟨?_, i.mem_live (he ▸ List.getElem_mem hlt)⟩
  simp only [step, hk]
  rw [(dealloc_ok i hk).1]

/-- If `realloc` never fails, nothing leaks: when all areas are deallocated, nothing is allocated. -/
theorem C89_no_leak (A : Nat) (hA : 0 < A) (mem : Nat → Nat × Nat) (flag : Bool) (es : List Event) (hf : ∀ e ∈ es, Fits A e)
    (hr : ∀ e ∈ es, NoReallocFailure e) (s : State) (hs : run A (start mem flag) es = .ok s) :
    s.heap.live.Perm (s.areas.map (·.block)) ∧ (s.areas = [] → s.heap.live = []) := by
  have hl : s.heap.leaked = [] := run_leaked es _ s hr hs
  have h := ((C89_areas_aligned_and_disjoint A hA mem flag es hf).2 s hs).2.2.2.2
  rw [hl, List.append_nil] at h
  refine ⟨h, fun he => ?_⟩
  rw [he] at h
  exact List.perm_nil.1 h

theorem alloc_no_retry (A size m : Nat) (a : Answer) (as : List Answer) (h : Heap) (hm : h.mayRealloc = false) :
    alloc A size m (a :: as) h = alloc A size m [a] h := by
  simp [alloc, hm]

/-- `aligned_alloc` calls itself at most once: it never needs more than two answers of the C library. -/
theorem C89_at_most_one_retry (A size m : Nat) (a b : Answer) (as : List Answer) (h : Heap) :
    alloc A size m (a :: b :: as) h = alloc A size m [a, b] h := by
  have hk : ∀ (live : List Block) (mem : Nat → Nat × Nat) (leaked : List Block),
      alloc A size m (b :: as) ⟨live, mem, false, leaked⟩ = alloc A size m [b] ⟨live, mem, false, leaked⟩ :=
    fun live mem leaked => alloc_no_retry A size m b as _ rfl
  rw [alloc, alloc]
  simp only [hk]

/-- As long as `realloc` behaves, an allocation succeeds whenever `malloc` does, and the block ends exactly where the area ends. -/
theorem C89_unused_memory_freed (A : Nat) (hA : 0 < A) (mem : Nat → Nat × Nat) (flag : Bool) (es : List Event) (hf : ∀ e ∈ es, Fits A e)
    (s : State) (hs : run A (start mem flag) es = .ok s) (size m : Nat) (hn : A + 8 + m + size < W) (p : Nat)
    (hp : fresh s.heap.live p (A + 8 + m + size)) (hm : s.heap.mayRealloc = true) :
    ∃ (s' : State) (r : Area), step A s (.alloc size m [⟨some p, .same⟩]) = .ok s' ∧ s'.areas = r :: s.areas ∧
      r.block.1 = p ∧ r.block.1 + r.block.2 = r.ptr + r.metaSize + r.size ∧ s'.heap.mayRealloc = true := by
  have h := run_ok hA es (start mem flag) (start_inv A mem flag) hf
  rw [hs] at h
  have i : Inv A s.heap s.areas := h
  obtain ⟨h1, h2, h3⟩ := resultOf_spec A m p hA
  have hn' : (A + 8 + m + size) % W = A + 8 + m + size := Nat.mod_eq_of_lt hn
  have hrs : (resultOf A m p - p + m + size) % W = resultOf A m p - p + m + size := Nat.mod_eq_of_lt (by omega)
  have key : alloc A size m [⟨some p, .same⟩] s.heap =
      finish A size m { s.heap with live := (p, resultOf A m p - p + m + size) :: s.heap.live } (p, resultOf A m p - p + m + size) := by
    simp only [alloc, hn', hrs]
    rw [if_neg (by simpa using hp)]
    split
    · rfl
    · rename_i hlt
      have : resultOf A m p - p + m + size = A + 8 + m + size := by
        simp only [hm, and_true] at hlt
        omega
      rw [this]
  have hin : inside ((p, resultOf A m p - p + m + size) :: s.heap.live) (resultOf A m p - 8) 8 :=
    ⟨(p, resultOf A m p - p + m + size), List.mem_cons_self .., by simp only; omega, by simp only; omega⟩
  simp only [finish] at key
  rw [if_pos hin] at key
  simp only [step, key]
  exact ⟨_, _, rfl, rfl, rfl, by simp only; omega, hm⟩

/-! ## Non-vacuity and the limits of the contract -/

/-- Three areas, a `realloc` that moves, a write, a deallocation. -/
def demo : List Event :=
  [.alloc 100 0 [⟨some 1000, .same⟩], .alloc 50 8 [⟨some 20000, .moved 30000⟩, ⟨some 40000, .same⟩], .write 1 3 (7, 7), .dealloc 1, .deallocNull,
    .alloc 10 0 [⟨none, .same⟩]]

def summary : Out → Option (List (Nat × Nat × Nat) × List Block × Bool)
  | .ok s => some (s.areas.map fun r => (r.ptr, r.metaSize, r.size), s.heap.live, s.heap.mayRealloc)
  | _ => none

example : (∀ e ∈ demo, Fits 4096 e) ∧ (∀ e ∈ demo, NoReallocFailure e) ∧
    summary (run 4096 (start (fun _ => (0, 0)) true) demo) = some ([(40952, 8, 50)], [(40000, 4162)], false) := by
  refine ⟨?_, ?_, by decide +kernel⟩
  · intro e he
    simp only [demo, List.mem_cons, List.not_mem_nil, or_false] at he
    rcases he with rfl | rfl | rfl | rfl | rfl | rfl <;> simp [Fits, W]
  · intro e he
    simp only [demo, List.mem_cons, List.not_mem_nil, or_false] at he
    rcases he with rfl | rfl | rfl | rfl | rfl | rfl <;> simp [NoReallocFailure]

/-- The size is not checked: a request near the end of `size_t` wraps, `malloc` is asked for 4103 bytes, and the caller gets an area that
does not lie in allocated memory. -/
theorem C89_size_wraps :
    ∃ (es : List Event) (s : State), run 4096 (start (fun _ => (0, 0)) false) es = .ok s ∧
      ∃ r ∈ s.areas, r.size = W - 1 ∧ ¬ inside s.heap.live r.ptr r.size := by
  refine ⟨[.alloc (W - 1) 0 [⟨some 1000, .same⟩]], _, rfl, _, List.mem_cons_self .., rfl, ?_⟩
  decide +kernel

/-- A `realloc` that fails leaks the block: after the only area is deallocated something is still allocated. -/
theorem C89_realloc_failure_leaks :
    ∃ (es : List Event) (s : State), (∀ e ∈ es, Fits 4096 e) ∧ run 4096 (start (fun _ => (0, 0)) true) es = .ok s ∧
      s.areas = [] ∧ s.heap.live = [(1000, 4204)] := by
  refine ⟨[.alloc 100 0 [⟨some 1000, .fails⟩, ⟨some 20000, .same⟩], .dealloc 0], _, ?_, rfl, ?_, ?_⟩
  · intro e he
    simp only [List.mem_cons, List.not_mem_nil, or_false] at he
    rcases he with rfl | rfl <;> simp [Fits, W]
  · decide +kernel
  · decide +kernel

end Stxxl.AlignedAlloc
