import Verif.CountingPtr.Steps

/-!
# C35: reference counted objects die exactly once

Every statement is about all executions of any number of threads, interleaved arbitrarily (`Reach`).
-/

namespace Stxxl.CountingPtr

theorem exec_inv {s : S} {own : Nat → Finset Tok} (h : Inv s own) {a : Act} (hl : Legal s a) :
    ∃ s', exec s a = some s' ∧ ∃ own', Inv s' own' := by
  cases a with
  | start t op =>
    obtain ⟨ht, ho⟩ := hl
    cases op with
    | ctorNull d => exact ⟨_, rfl, own, h.ctorNull ho.1 ho.2⟩
    | ctorNew d => exact ⟨_, rfl, own, h.new ht (Or.inl ⟨rfl, ho.1⟩) ho.2⟩
    | copy d r =>
      obtain ⟨h1, h2, h3, h4⟩ := ho
      obtain ⟨p, hp⟩ := Option.ne_none_iff_exists'.1 h3
      refine ⟨{ s with ph := upd s.ph t (.cInc d r p) }, by simp [exec, start, hp], own, ?_⟩
      refine h.begin ht rfl rfl rfl ?_ ?_ ?_ ?_ ?_
      · intro x hx; cases hx; exact h2
      · intro x hx; cases hx; exact h4
      · intro x y hx; cases hx; exact hp
      · intro x hx; cases hx; exact h1
      · intro x hx hc; cases hc
    | assign d r =>
      obtain ⟨h1, h2, h3, h4⟩ := ho
      obtain ⟨p, hp⟩ := Option.ne_none_iff_exists'.1 h3
      refine ⟨{ s with ph := upd s.ph t (.aInc d r p) }, by simp [exec, start, hp], own, ?_⟩
      refine h.begin ht rfl rfl rfl ?_ ?_ ?_ ?_ ?_
      · intro x hx; cases hx; exact h2
      · intro x hx; cases hx; exact h4
      · intro x y hx; cases hx; exact hp
      · intro x hx; cases hx
      · intro x hx hc; cases hx; exact h1
    | assignNull d =>
      refine ⟨_, rfl, own, ?_⟩
      refine h.begin ht rfl rfl rfl ?_ ?_ ?_ ?_ ?_
      · intro x hx; cases hx; exact ho.2
      · intro x hx; cases hx
      · intro x y hx; cases hx
      · intro x hx; cases hx
      · intro x hx hc; cases hx; exact ho.1
    | assignNew d => exact ⟨_, rfl, own, h.new ht (Or.inr ⟨rfl, ho.1⟩) ho.2⟩
    | destroy d =>
      refine ⟨_, rfl, own, ?_⟩
      refine h.begin ht rfl rfl rfl ?_ ?_ ?_ ?_ ?_
      · intro x hx; cases hx; exact ho.2
      · intro x hx; cases hx
      · intro x y hx; cases hx
      · intro x hx; cases hx
      · intro x hx hc; cases hx; exact ho.1
    | swap a b =>
      obtain ⟨h1, h2, h3, h4⟩ := ho
      obtain ⟨p, hp⟩ := Option.ne_none_iff_exists'.1 h1
      obtain ⟨q, hq⟩ := Option.ne_none_iff_exists'.1 h3
      exact ⟨_, by simp [exec, start, hp, hq], h.swap hp hq h2 h4⟩
    | unify d =>
      obtain ⟨h1, h2⟩ := ho
      obtain ⟨p, hp⟩ := Option.ne_none_iff_exists'.1 h1
      cases p with
      | none => exact ⟨s, by simp [exec, start, hp], own, h⟩
      | some o =>
        have hin := (h.tokH d o).2 ⟨hp, fun t' hc => (h2 t').1 (post_dst hc)⟩
        obtain ⟨n, hn⟩ := h.pos hin
        by_cases hu : n = 0
        · exact ⟨s, by simp [exec, start, hp, hn, hu], own, h⟩
        · exact ⟨_, by simp [exec, start, hp, hn, hu], own, h.new ht (Or.inr ⟨rfl, h1⟩) h2⟩
  | go t =>
    have hl : s.ph t ≠ .idle := hl
    show ∃ s', go s t = some s' ∧ ∃ own', Inv s' own'
    unfold go
    cases hp : s.ph t with
    | idle => exact absurd hp hl
    | cInc d r p => obtain ⟨s', h1, h2⟩ := h.cInc hp; exact ⟨_, by simp [h1], _, h2⟩
    | rInc d o => obtain ⟨s', h1, h2⟩ := h.rInc hp; exact ⟨_, by simp [h1], _, h2⟩
    | aInc d r p => obtain ⟨s', h1, h2⟩ := h.aInc hp; exact ⟨_, by simp [h1], _, h2⟩
    | nInc d o => obtain ⟨s', h1, h2⟩ := h.nInc hp; exact ⟨_, by simp [h1], _, h2⟩
    | aDec d p =>
      obtain ⟨h1, h2, h3⟩ := h.aDec hp
      obtain ⟨q, hq⟩ := Option.ne_none_iff_exists'.1 h1
      cases q with
      | none => exact ⟨_, by simp [hq], _, h2 hq⟩
      | some o => obtain ⟨z, s', g1, g2⟩ := h3 o hq; exact ⟨_, by simp [hq, g1], _, g2⟩
    | aDel d p o => obtain ⟨s', h1, h2⟩ := h.aDel hp; exact ⟨_, by simp [h1], _, h2⟩
    | aStore d p => exact ⟨_, rfl, _, h.store hp⟩
    | dDec d =>
      obtain ⟨h1, h2, h3⟩ := h.dDec hp
      obtain ⟨q, hq⟩ := Option.ne_none_iff_exists'.1 h1
      cases q with
      | none => exact ⟨_, by simp [hq], _, h2 hq⟩
      | some o =>
        obtain ⟨z, s', g1, g2⟩ := h3 o hq
        cases z with
        | true => exact ⟨_, by simp [hq, g1], _, g2⟩
        | false => exact ⟨_, by simp [hq, g1], _, g2⟩
    | dDel d o => obtain ⟨s', h1, h2⟩ := h.dDel hp; exact ⟨_, by simp [h1], _, h2⟩

theorem init_inv : Inv init (fun _ => ∅) := by
  constructor <;> simp [init, Ph.post, Ph.tok, Ph.zer, Ph.dst, Ph.src, Ph.rd, Ph.ctor]

theorem reach_inv {s : S} (h : Reach s) : ∃ own, Inv s own := by
  induction h with
  | init => exact ⟨_, init_inv⟩
  | step _ hl he ih =>
    obtain ⟨own, hi⟩ := ih
    obtain ⟨s', h1, h2⟩ := exec_inv hi hl
    rw [he] at h1
    cases h1
    exact h2

/-- **C35, safety.** No part of any operation touches the count of a deleted object, deletes an object twice, or deletes it while its
count is not zero. -/
theorem C35_no_failure {s : S} (h : Reach s) {a : Act} (hl : Legal s a) : exec s a ≠ none := by
  obtain ⟨own, hi⟩ := reach_inv h
  obtain ⟨s', h1, _⟩ := exec_inv hi hl
  rw [h1]; simp

/-- **C35, never earlier.** A handle that is not being modified points to a living object (or to nothing). -/
theorem C35_pointee_alive {s : S} (h : Reach s) {d o : Nat} (hd : s.hd d = some (some o)) (hm : Readable s d) :
    ∃ n, s.rc o = some n ∧ 0 < n := by
  obtain ⟨own, hi⟩ := reach_inv h
  obtain ⟨n, hn⟩ := hi.pos ((hi.tokH d o).2 ⟨hd, fun t hc => hm t (post_dst hc)⟩)
  exact ⟨n + 1, hn, Nat.succ_pos _⟩

/-- All threads are between operations. -/
def Quiet (s : S) : Prop := ∀ t, s.ph t = .idle

/-- **C35, exactly then.** Whenever no operation is in progress, the count of a living object is the number of handles that point to
it, and this number is not zero; no handle points to an object that does not live. -/
theorem C35_count_is_number_of_pointers {s : S} (h : Reach s) (hq : Quiet s) (o : Nat) :
    (∀ n, s.rc o = some n → 0 < n ∧ ∃ hs : Finset Nat, hs.card = n ∧ ∀ d, d ∈ hs ↔ s.hd d = some (some o)) ∧
    (s.rc o = none → ∀ d, s.hd d ≠ some (some o)) := by
  obtain ⟨own, hi⟩ := reach_inv h
  have hpost : ∀ d t, (s.ph t).post ≠ some d := by intro d t; rw [hq t]; simp [Ph.post]
  have hmem : ∀ d, Sum.inl d ∈ own o ↔ s.hd d = some (some o) := by
    intro d; rw [hi.tokH]; exact ⟨fun x => x.1, fun x => ⟨x, hpost d⟩⟩
  have hnt : ∀ t, Sum.inr t ∉ own o := by
    intro t hc; rw [hi.tokT, hq t] at hc; cases hc
  constructor
  · intro n hn
    constructor
    · rcases Nat.eq_zero_or_pos n with rfl | hp
      · obtain ⟨t, ht⟩ := hi.zex o hn; rw [hq t] at ht; cases ht
      · exact hp
    · refine ⟨(own o).image (fun x => x.elim id id), ?_, ?_⟩
      · rw [Finset.card_image_of_injOn, hi.cnt o n hn]
        intro x hx y hy hxy
        rcases x with x | x
        · rcases y with y | y
          · simpa using hxy
          · exact absurd hy (hnt y)
        · exact absurd hx (hnt x)
      · intro d
        rw [← hmem, Finset.mem_image]
        constructor
        · rintro ⟨x, hx, rfl⟩
          rcases x with x | x
          · exact hx
          · exact absurd hx (hnt x)
        · intro hx; exact ⟨_, hx, rfl⟩
  · intro hn d hd
    have := (hmem d).2 hd
    rw [hi.dead o hn] at this
    simp at this

/-- **C35, no leak.** Also in the middle of operations: a living object is referenced by a handle or by an operation in progress, or
an operation in progress is about to make the first reference to it or to delete it. -/
theorem C35_no_leak {s : S} (h : Reach s) {o n : Nat} (hn : s.rc o = some n) :
    (∃ d, s.hd d = some (some o)) ∨ (∃ t, (s.ph t).tok = some o ∨ (s.ph t).zer = some o) := by
  obtain ⟨own, hi⟩ := reach_inv h
  cases n with
  | zero => obtain ⟨t, ht⟩ := hi.zex o hn; exact Or.inr ⟨t, Or.inr ht⟩
  | succ n =>
    have hc := hi.cnt o _ hn
    obtain ⟨x, hx⟩ := Finset.card_pos.1 (by rw [hc]; exact Nat.succ_pos _)
    rcases x with d | t
    · exact Or.inl ⟨d, ((hi.tokH d o).1 hx).1⟩
    · exact Or.inr ⟨t, Or.inl ((hi.tokT t o).1 hx)⟩

/-- Object numbers are not reused: a deleted object stays deleted. -/
theorem C35_dead_stays_dead {s s' : S} (h : Reach s) {a : Act} (hl : Legal s a) (he : exec s a = some s') {o : Nat}
    (ho : o < s.next) (hd : s.rc o = none) : s'.rc o = none ∧ o < s'.next := by
  have hinc : ∀ (s s' : S) p, inc s p = some s' → s.rc o = none → s'.rc o = none ∧ s'.next = s.next := by
    intro s s' p hi hd
    cases p with
    | none => simp [inc] at hi; subst hi; exact ⟨hd, rfl⟩
    | some x =>
      simp only [inc] at hi
      cases hx : s.rc x with
      | none => rw [hx] at hi; cases hi
      | some n =>
        rw [hx] at hi; cases hi
        refine ⟨?_, rfl⟩
        show upd s.rc x _ o = none
        rw [upd_ne]; exact hd
        rintro rfl; rw [hd] at hx; cases hx
  have hdec : ∀ (s s' : S) x z, dec s x = some (z, s') → s.rc o = none → s'.rc o = none ∧ s'.next = s.next := by
    intro s s' x z hi hd
    simp only [dec] at hi
    split at hi
    · cases hi
    · cases hi
    · rename_i n hx
      cases hi
      refine ⟨?_, rfl⟩
      show upd s.rc x _ o = none
      rw [upd_ne]; exact hd
      rintro rfl; rw [hd] at hx; cases hx
  have hdel : ∀ (s s' : S) x, del s x = some s' → s.rc o = none → s'.rc o = none ∧ s'.next = s.next := by
    intro s s' x hi hd
    simp only [del] at hi
    split at hi
    · cases hi
      refine ⟨?_, rfl⟩
      show upd s.rc x none o = none
      simp only [upd]; split_ifs
      · rfl
      · exact hd
    · cases hi
  have hall : (alloc s).rc o = none ∧ o < (alloc s).next := by
    refine ⟨?_, ?_⟩
    · show upd s.rc s.next _ o = none
      rw [upd_ne _ _ (by omega)]; exact hd
    · show o < s.next + 1; omega
  cases a with
  | start t op =>
    simp only [exec] at he
    cases op <;> simp only [start] at he
    case ctorNull => cases he; exact ⟨hd, ho⟩
    case ctorNew => cases he; exact hall
    case copy => split at he <;> cases he; exact ⟨hd, ho⟩
    case assign => split at he <;> cases he; exact ⟨hd, ho⟩
    case assignNull => cases he; exact ⟨hd, ho⟩
    case assignNew => cases he; exact hall
    case destroy => cases he; exact ⟨hd, ho⟩
    case swap => split at he <;> cases he; exact ⟨hd, ho⟩
    case unify =>
      split at he
      · cases he; exact ⟨hd, ho⟩
      · split at he
        · cases he
        · split_ifs at he
          · cases he; exact ⟨hd, ho⟩
          · cases he; exact hall
      · cases he
  | go t =>
    simp only [exec, go] at he
    split at he
    · cases he
    · obtain ⟨x, hx, rfl⟩ := Option.map_eq_some_iff.1 he
      have := hinc _ _ _ hx hd; exact ⟨this.1, this.2 ▸ ho⟩
    · obtain ⟨x, hx, rfl⟩ := Option.map_eq_some_iff.1 he
      have := hinc _ _ _ hx hd; exact ⟨this.1, this.2 ▸ ho⟩
    · obtain ⟨x, hx, rfl⟩ := Option.map_eq_some_iff.1 he
      have := hinc _ _ _ hx hd; exact ⟨this.1, this.2 ▸ ho⟩
    · obtain ⟨x, hx, rfl⟩ := Option.map_eq_some_iff.1 he
      have := hinc _ _ _ hx hd; exact ⟨this.1, this.2 ▸ ho⟩
    · split at he
      · cases he
      · cases he; exact ⟨hd, ho⟩
      · split at he
        · cases he
        · rename_i hx; cases he; have := hdec _ _ _ _ hx hd; exact ⟨this.1, this.2 ▸ ho⟩
    · obtain ⟨x, hx, rfl⟩ := Option.map_eq_some_iff.1 he
      have := hdel _ _ _ hx hd; exact ⟨this.1, this.2 ▸ ho⟩
    · cases he; exact ⟨hd, ho⟩
    · split at he
      · cases he
      · cases he; exact ⟨hd, ho⟩
      · split at he
        · cases he
        · rename_i hx
          have := hdec _ _ _ _ hx hd
          split_ifs at he <;> cases he <;> exact ⟨this.1, this.2 ▸ ho⟩
    · obtain ⟨x, hx, rfl⟩ := Option.map_eq_some_iff.1 he
      have := hdel _ _ _ hx hd; exact ⟨this.1, this.2 ▸ ho⟩

/-- Run a list of actions; `none` if one of them fails. -/
def run : S → List Act → Option S
  | s, [] => some s
  | s, a :: as => match exec s a with | none => none | some s => run s as

/-- A concrete execution: two threads copy the same handle at the same time, then the original is assigned a new object; the first
object keeps two references. -/
example : (run init [.start 0 (.ctorNew 0), .go 0, .start 0 (.copy 1 0), .start 1 (.copy 2 0), .go 1, .go 0,
    .start 0 (.assignNew 0), .go 0, .go 0, .go 0]).map (fun s => (s.rc 0, s.rc 1, s.hd 0, s.hd 1, s.hd 2))
    = some (some 2, some 1, some (some 1), some (some 0), some (some 0)) := by decide

/-- Self assignment of the only handle does not delete the object; destroying it does. -/
example : (run init [.start 0 (.ctorNew 0), .go 0, .start 0 (.assign 0 0), .go 0, .go 0, .go 0]).map (fun s => s.rc 0) = some (some 1) ∧
    (run init [.start 0 (.ctorNew 0), .go 0, .start 0 (.destroy 0), .go 0, .go 0]).map (fun s => s.rc 0) = some none := by decide

/-- The hypotheses of the theorems are met by a reachable state with a shared object. -/
example : ∃ s, Reach s ∧ Quiet s ∧ s.rc 0 = some 2 := by
  refine ⟨_, .step (.step (.step (.step .init (a := .start 0 (.ctorNew 0)) ⟨rfl, rfl, ?_⟩ rfl) (a := .go 0) ?_ rfl)
    (a := .start 0 (.copy 1 0)) ⟨rfl, rfl, ?_, ?_, ?_⟩ rfl) (a := .go 0) ?_ rfl, ?_, rfl⟩
  · intro t; exact ⟨by simp [init, Ph.dst], by simp [init, Ph.src]⟩
  · intro h; cases h
  · intro t; by_cases ht : t = 0 <;> simp [upd, init, alloc, Ph.dst, Ph.src, ht]
  · intro h; cases h
  · intro t; by_cases ht : t = 0 <;> simp [upd, init, alloc, Ph.dst, ht]
  · intro h; cases h
  · intro t; by_cases ht : t = 0 <;> simp [upd, init, alloc, ht]

end Stxxl.CountingPtr
