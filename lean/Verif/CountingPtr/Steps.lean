import Verif.CountingPtr.Inv

/-! # Every atomic part keeps the invariant -/

namespace Stxxl.CountingPtr

def moveTok (own : Nat → Finset Tok) (p : Option Nat) (a b : Tok) : Nat → Finset Tok :=
  fun o => if p = some o then insert b ((own o).erase a) else own o

def addTok (own : Nat → Finset Tok) (p : Option Nat) (b : Tok) : Nat → Finset Tok :=
  fun o => if p = some o then insert b (own o) else own o

def remTok (own : Nat → Finset Tok) (p : Nat) (b : Tok) : Nat → Finset Tok :=
  fun o => if p = o then (own o).erase b else own o

attribute [local grind] Ph.tok Ph.post Ph.dst Ph.src Ph.rd Ph.ctor Ph.zer
attribute [local grind →] post_dst ctor_dst rd_src

theorem Inv.store {s : S} {own : Nat → Finset Tok} (h : Inv s own) {t d : Nat} {p : Option Nat} (ht : s.ph t = .aStore d p) :
    Inv { s with hd := upd s.hd d (some p), ph := upd s.ph t .idle } (moveTok own p (.inr t) (.inl d)) := by
  obtain ⟨c1, c2, c3, c4, c5, c6, c7, c8, c9, c10, c11, c12, c13⟩ := h
  constructor
  · intro o n ho
    have := c3 d o
    have := c4 t o
    simp only [moveTok] at *
    split_ifs
    · have hm : Sum.inr t ∈ own o := by grind
      have hm' : Sum.inl d ∉ (own o).erase (Sum.inr t) := by grind
      rw [Finset.card_insert_of_notMem hm', Finset.card_erase_of_mem hm]
      have := Finset.card_pos.2 ⟨_, hm⟩
      grind
    · grind
  · intro o ho; have := c4 t o; grind [moveTok]
  · intro h o
    simp only [moveTok, upd]
    grind (splits := 20)
  · intro t' o
    simp only [moveTok, upd]
    grind
  · grind [upd]
  · grind [upd]
  · intro o ho
    obtain ⟨w, hw⟩ := c7 o (by grind [upd])
    refine ⟨w, ?_⟩
    grind [upd]
  · grind [upd]
  · grind [upd]
  · intro t' r x hr
    have := rd_src hr
    grind [upd]
  · grind [upd]
  · grind [upd]
  · grind [upd]

theorem Inv.ctorNull {s : S} {own : Nat → Finset Tok} (h : Inv s own) {d : Nat} (h1 : s.hd d = none) (hf : Free s d) :
    Inv { s with hd := upd s.hd d (some none) } own := by
  obtain ⟨c1, c2, c3, c4, c5, c6, c7, c8, c9, c10, c11, c12, c13⟩ := h
  unfold Free at hf
  constructor <;> try grind [upd]

theorem Inv.swap {s : S} {own : Nat → Finset Tok} (h : Inv s own) {a b : Nat} {p q : Option Nat} (h1 : s.hd a = some p)
    (h2 : s.hd b = some q) (hf : Free s a) (hg : Free s b) :
    ∃ own', Inv { s with hd := upd (upd s.hd a (some q)) b (some p) } own' := by
  by_cases hab : a = b
  · subst hab
    refine ⟨own, ?_⟩
    have : upd (upd s.hd a (some q)) a (some p) = s.hd := by funext x; simp only [upd]; grind
    rw [this]; exact h
  by_cases hpq : p = q
  · subst hpq
    refine ⟨own, ?_⟩
    have : upd (upd s.hd a (some p)) b (some p) = s.hd := by funext x; simp only [upd]; grind
    rw [this]; exact h
  refine ⟨moveTok (moveTok own p (.inl a) (.inl b)) q (.inl b) (.inl a), ?_⟩
  obtain ⟨c1, c2, c3, c4, c5, c6, c7, c8, c9, c10, c11, c12, c13⟩ := h
  unfold Free at hf hg
  have hpa : ∀ t, (s.ph t).post ≠ some a := by grind
  have hpb : ∀ t, (s.ph t).post ≠ some b := by grind
  have ha : ∀ o, p = some o → Sum.inl a ∈ own o ∧ Sum.inl b ∉ own o := by grind
  have hb : ∀ o, q = some o → Sum.inl b ∈ own o ∧ Sum.inl a ∉ own o := by grind
  have hq : ∀ o, moveTok (moveTok own p (.inl a) (.inl b)) q (.inl b) (.inl a) o =
    if p = some o then insert (.inl b) ((own o).erase (.inl a)) else if q = some o then insert (.inl a) ((own o).erase (.inl b)) else own o := by
    intro o; simp only [moveTok]; grind
  constructor
  · intro o n ho
    rw [hq]
    have h1 := ha o
    have h2 := hb o
    split_ifs with e1 e2
    · have hm := (h1 e1).1
      have hm' : Sum.inl b ∉ (own o).erase (Sum.inl a) := by grind
      rw [Finset.card_insert_of_notMem hm', Finset.card_erase_of_mem hm]
      have := Finset.card_pos.2 ⟨_, hm⟩
      grind
    · have hm := (h2 e2).1
      have hm' : Sum.inl a ∉ (own o).erase (Sum.inl b) := by grind
      rw [Finset.card_insert_of_notMem hm', Finset.card_erase_of_mem hm]
      have := Finset.card_pos.2 ⟨_, hm⟩
      grind
    · grind
  · intro o ho
    rw [hq]
    have h1 := ha o
    have h2 := hb o
    grind
  · intro h o
    rw [hq]
    have := ha o
    have := hb o
    simp only [upd]
    grind (splits := 20)
  · intro t' o
    rw [hq]
    grind
  · grind [upd]
  · grind [upd]
  · intro o ho
    obtain ⟨w, hw⟩ := c7 o (by grind [upd])
    refine ⟨w, ?_⟩
    grind [upd]
  · grind [upd]
  · grind [upd]
  · intro t' r x hr
    have := rd_src hr
    grind [upd]
  · grind [upd]
  · intro t' d' a1 a2
    have := hf t'
    have := hg t'
    have := c12 t' d' a1 a2
    simp only [upd]
    grind
  · grind [upd]


/-- A new object with count zero, for which thread `t` is responsible. -/
theorem Inv.new {s : S} {own : Nat → Finset Tok} (h : Inv s own) {t : Nat} (ht : s.ph t = .idle) {p : Ph} {d : Nat}
    (hp : (p = .rInc d s.next ∧ s.hd d = none) ∨ (p = .nInc d s.next ∧ s.hd d ≠ none)) (hf : Free s d) :
    Inv { alloc s with ph := upd s.ph t p } own := by
  obtain ⟨c1, c2, c3, c4, c5, c6, c7, c8, c9, c10, c11, c12, c13⟩ := h
  unfold Free at hf
  have hn : s.rc s.next = none := by
    by_contra hc
    have := c13 _ hc; omega
  have hno := c2 _ hn
  have hz : ∀ t', (s.ph t').zer ≠ some s.next := by grind
  have ep : p.tok = none ∧ p.zer = some s.next ∧ p.post = none ∧ p.dst = some d ∧ p.src = none ∧ p.rd = none := by
    rcases hp with ⟨rfl, _⟩ | ⟨rfl, _⟩ <;> exact ⟨rfl, rfl, rfl, rfl, rfl, rfl⟩
  have ei : (s.ph t).tok = none ∧ (s.ph t).zer = none ∧ (s.ph t).post = none ∧ (s.ph t).dst = none := by
    rw [ht]; exact ⟨rfl, rfl, rfl, rfl⟩
  constructor
  · simp only [alloc]; grind [upd]
  · simp only [alloc]; grind [upd]
  · intro h' o
    simp only [alloc, upd]
    grind
  · intro t' o
    simp only [alloc, upd]
    grind
  · simp only [alloc]; grind [upd]
  · simp only [alloc]; grind [upd]
  · intro o ho
    simp only [alloc, upd] at ho ⊢
    by_cases e : o = s.next
    · exact ⟨t, by grind⟩
    · obtain ⟨w, hw⟩ := c7 o (by grind)
      exact ⟨w, by grind⟩
  · simp only [alloc]; grind [upd]
  · simp only [alloc]; grind [upd]
  · intro t' r x hr
    have := rd_src hr
    simp only [alloc, upd] at *; grind
  · simp only [alloc]; grind [upd]
  · simp only [alloc]; grind [upd]
  · simp only [alloc]; grind [upd]

/-- Thread `t` increments the count of `p` (a live object, or nothing) and takes the reference as token `x`, which becomes visible by the
change of its phase and of handle `d`. -/
theorem Inv.cInc {s : S} {own : Nat → Finset Tok} (h : Inv s own) {t d r : Nat} {p : Option Nat} (ht : s.ph t = .cInc d r p) :
    ∃ s', inc s p = some s' ∧ Inv { s' with hd := upd s'.hd d (some p), ph := upd s'.ph t .idle } (addTok own p (.inl d)) := by
  have hsrc : s.hd r = some p := h.rdv t r p (by rw [ht]; rfl)
  have hpr : ∀ t, (s.ph t).post ≠ some r := by
    intro t' hc
    have := h.ds t' t r (post_dst hc) (by rw [ht]; rfl)
    subst this; rw [ht] at hc; cases hc
  cases p with
  | none =>
    refine ⟨s, rfl, ?_⟩
    obtain ⟨c1, c2, c3, c4, c5, c6, c7, c8, c9, c10, c11, c12, c13⟩ := h
    constructor
    · simp only [addTok]; grind
    · simp only [addTok]; grind
    · intro h' o
      simp only [addTok, upd]
      grind
    · intro t' o
      simp only [addTok, upd]
      grind
    · grind [upd]
    · grind [upd]
    · intro o ho
      obtain ⟨w, hw⟩ := c7 o (by grind [upd])
      refine ⟨w, ?_⟩
      grind [upd]
    · grind [upd]
    · grind [upd]
    · intro t' r x hr
      have := rd_src hr
      grind [upd]
    · grind [upd]
    · grind [upd]
    · grind [upd]
  | some o =>
    obtain ⟨n, hn⟩ := h.pos ((h.tokH r o).2 ⟨hsrc, hpr⟩)
    refine ⟨{ s with rc := upd s.rc o (some (n + 1 + 1)) }, by simp [inc, hn], ?_⟩
    obtain ⟨c1, c2, c3, c4, c5, c6, c7, c8, c9, c10, c11, c12, c13⟩ := h
    have hdn : s.hd d = none := c11 t d (by rw [ht]; rfl)
    have hdo : Sum.inl d ∉ own o := by grind
    constructor
    · intro o' m ho
      simp only [addTok, upd] at ho ⊢
      by_cases e : o' = o
      · subst e
        rw [if_pos rfl, Finset.card_insert_of_notMem hdo]; grind
      · grind
    · intro o' ho; simp only [addTok, upd] at *; grind
    · intro h' o
      simp only [addTok, upd]
      grind (splits := 20)
    · intro t' o
      simp only [addTok, upd]
      grind
    · grind [upd]
    · grind [upd]
    · intro o ho
      obtain ⟨w, hw⟩ := c7 o (by grind [upd])
      refine ⟨w, ?_⟩
      grind [upd]
    · grind [upd]
    · grind [upd]
    · intro t' r x hr
      have := rd_src hr
      grind [upd]
    · grind [upd]
    · grind [upd]
    · grind [upd]

theorem Inv.rInc {s : S} {own : Nat → Finset Tok} (h : Inv s own) {t d o : Nat} (ht : s.ph t = .rInc d o) :
    ∃ s', inc s (some o) = some s' ∧
      Inv { s' with hd := upd s'.hd d (some (some o)), ph := upd s'.ph t .idle } (addTok own (some o) (.inl d)) := by
  have hn : s.rc o = some 0 := h.z0 t o (by rw [ht]; rfl)
  refine ⟨{ s with rc := upd s.rc o (some (0 + 1)) }, by simp [inc, hn], ?_⟩
  obtain ⟨c1, c2, c3, c4, c5, c6, c7, c8, c9, c10, c11, c12, c13⟩ := h
  have hdn : s.hd d = none := c11 t d (by rw [ht]; rfl)
  have hdo : Sum.inl d ∉ own o := by grind
  constructor
  · intro o' m ho
    simp only [addTok, upd] at ho ⊢
    by_cases e : o' = o
    · subst e
      rw [if_pos rfl, Finset.card_insert_of_notMem hdo]; grind
    · grind
  · intro o' ho; simp only [addTok, upd] at *; grind
  · intro h' o
    simp only [addTok, upd]
    grind (splits := 20)
  · intro t' o
    simp only [addTok, upd]
    grind
  · grind [upd]
  · grind [upd]
  · intro o ho
    obtain ⟨w, hw⟩ := c7 o (by grind [upd])
    refine ⟨w, ?_⟩
    grind [upd]
  · grind [upd]
  · grind [upd]
  · intro t' r x hr
    have := rd_src hr
    grind [upd]
  · grind [upd]
  · grind [upd]
  · grind [upd]

theorem Inv.aInc {s : S} {own : Nat → Finset Tok} (h : Inv s own) {t d r : Nat} {p : Option Nat} (ht : s.ph t = .aInc d r p) :
    ∃ s', inc s p = some s' ∧ Inv { s' with ph := upd s'.ph t (.aDec d p) } (addTok own p (.inr t)) := by
  have hsrc : s.hd r = some p := h.rdv t r p (by rw [ht]; rfl)
  have hpr : ∀ t, (s.ph t).post ≠ some r := by
    intro t' hc
    have := h.ds t' t r (post_dst hc) (by rw [ht]; rfl)
    subst this; rw [ht] at hc; cases hc
  cases p with
  | none =>
    refine ⟨s, rfl, ?_⟩
    obtain ⟨c1, c2, c3, c4, c5, c6, c7, c8, c9, c10, c11, c12, c13⟩ := h
    constructor
    · simp only [addTok]; grind
    · simp only [addTok]; grind
    · intro h' o
      simp only [addTok, upd]
      grind
    · intro t' o
      simp only [addTok, upd]
      grind
    · grind [upd]
    · grind [upd]
    · intro o ho
      obtain ⟨w, hw⟩ := c7 o (by grind [upd])
      refine ⟨w, ?_⟩
      grind [upd]
    · grind [upd]
    · grind [upd]
    · intro t' r x hr
      have := rd_src hr
      grind [upd]
    · grind [upd]
    · grind [upd]
    · grind [upd]
  | some o =>
    obtain ⟨n, hn⟩ := h.pos ((h.tokH r o).2 ⟨hsrc, hpr⟩)
    refine ⟨{ s with rc := upd s.rc o (some (n + 1 + 1)) }, by simp [inc, hn], ?_⟩
    obtain ⟨c1, c2, c3, c4, c5, c6, c7, c8, c9, c10, c11, c12, c13⟩ := h
    have hdo : Sum.inr t ∉ own o := by grind
    constructor
    · intro o' m ho
      simp only [addTok, upd] at ho ⊢
      by_cases e : o' = o
      · subst e
        rw [if_pos rfl, Finset.card_insert_of_notMem hdo]; grind
      · grind
    · intro o' ho; simp only [addTok, upd] at *; grind
    · intro h' o
      simp only [addTok, upd]
      grind (splits := 20)
    · intro t' o
      simp only [addTok, upd]
      grind
    · grind [upd]
    · grind [upd]
    · intro o ho
      obtain ⟨w, hw⟩ := c7 o (by grind [upd])
      refine ⟨w, ?_⟩
      grind [upd]
    · grind [upd]
    · grind [upd]
    · intro t' r x hr
      have := rd_src hr
      grind [upd]
    · grind [upd]
    · grind [upd]
    · grind [upd]

theorem Inv.nInc {s : S} {own : Nat → Finset Tok} (h : Inv s own) {t d o : Nat} (ht : s.ph t = .nInc d o) :
    ∃ s', inc s (some o) = some s' ∧ Inv { s' with ph := upd s'.ph t (.aDec d (some o)) } (addTok own (some o) (.inr t)) := by
  have hn : s.rc o = some 0 := h.z0 t o (by rw [ht]; rfl)
  refine ⟨{ s with rc := upd s.rc o (some (0 + 1)) }, by simp [inc, hn], ?_⟩
  obtain ⟨c1, c2, c3, c4, c5, c6, c7, c8, c9, c10, c11, c12, c13⟩ := h
  have hdo : Sum.inr t ∉ own o := by grind
  constructor
  · intro o' m ho
    simp only [addTok, upd] at ho ⊢
    by_cases e : o' = o
    · subst e
      rw [if_pos rfl, Finset.card_insert_of_notMem hdo]; grind
    · grind
  · intro o' ho; simp only [addTok, upd] at *; grind
  · intro h' o
    simp only [addTok, upd]
    grind (splits := 20)
  · intro t' o
    simp only [addTok, upd]
    grind
  · grind [upd]
  · grind [upd]
  · intro o ho
    obtain ⟨w, hw⟩ := c7 o (by grind [upd])
    refine ⟨w, ?_⟩
    grind [upd]
  · grind [upd]
  · grind [upd]
  · intro t' r x hr
    have := rd_src hr
    grind [upd]
  · grind [upd]
  · grind [upd]
  · grind [upd]

/-- The old object loses the reference of handle `d`. -/
theorem Inv.aDec {s : S} {own : Nat → Finset Tok} (h : Inv s own) {t d : Nat} {p : Option Nat} (ht : s.ph t = .aDec d p) :
    s.hd d ≠ none ∧ (s.hd d = some none → Inv { s with ph := upd s.ph t (.aStore d p) } own) ∧
    ∀ o, s.hd d = some (some o) → ∃ z s', dec s o = some (z, s') ∧
      Inv { s' with ph := upd s'.ph t (if z then .aDel d p o else .aStore d p) } (remTok own o (.inl d)) := by
  refine ⟨h.live t d (by rw [ht]; rfl) (by rw [ht]; rfl), ?_, ?_⟩
  · intro hd0
    obtain ⟨c1, c2, c3, c4, c5, c6, c7, c8, c9, c10, c11, c12, c13⟩ := h
    constructor
    · grind
    · grind
    · intro h' o
      simp only [upd]
      grind
    · intro t' o
      simp only [upd]
      grind
    · grind [upd]
    · grind [upd]
    · intro o ho
      obtain ⟨w, hw⟩ := c7 o (by grind [upd])
      refine ⟨w, ?_⟩
      grind [upd]
    · grind [upd]
    · grind [upd]
    · intro t' r x hr
      have := rd_src hr
      grind [upd]
    · grind [upd]
    · grind [upd]
    · grind [upd]
  · intro o hd0
    have hpr : ∀ t, (s.ph t).post ≠ some d := by
      intro t' hc
      have := h.du t' t d (post_dst hc) (by rw [ht]; rfl)
      subst this; rw [ht] at hc; cases hc
    have hin := (h.tokH d o).2 ⟨hd0, hpr⟩
    obtain ⟨n, hn⟩ := h.pos hin
    refine ⟨decide (n = 0), { s with rc := upd s.rc o (some n) }, by simp [dec, hn], ?_⟩
    obtain ⟨c1, c2, c3, c4, c5, c6, c7, c8, c9, c10, c11, c12, c13⟩ := h
    generalize hP : (if decide (n = 0) = true then Ph.aDel d p o else Ph.aStore d p) = P
    have e1 : P.tok = p ∧ P.post = some d ∧ P.dst = some d ∧ P.src = none ∧ P.rd = none ∧ P.ctor = none := by
      rw [← hP]; split_ifs <;> exact ⟨rfl, rfl, rfl, rfl, rfl, rfl⟩
    have e2 : P.zer = if n = 0 then some o else none := by
      rw [← hP]; by_cases e : n = 0 <;> simp [e, Ph.zer]
    have hzo : ∀ t', (s.ph t').zer ≠ some o := by grind
    clear hP
    constructor
    · intro o' m ho
      simp only [remTok, upd] at ho ⊢
      by_cases e : o' = o
      · subst e
        rw [if_pos rfl, Finset.card_erase_of_mem hin]; grind
      · grind
    · intro o' ho; simp only [remTok, upd] at *; grind
    · intro h' o
      simp only [remTok, upd]
      grind (splits := 20)
    · intro t' o
      simp only [remTok, upd]
      grind
    · intro t' o' hz
      simp only [upd] at *
      grind
    · intro t1 t2 o' hz hz'
      simp only [upd] at *
      grind
    · intro o' ho
      simp only [upd] at ho ⊢
      by_cases e : o' = o
      · exact ⟨t, by grind⟩
      · obtain ⟨w, hw⟩ := c7 o' (by grind)
        exact ⟨w, by grind⟩
    · grind [upd]
    · grind [upd]
    · intro t' r x hr
      have := rd_src hr
      grind [upd]
    · grind [upd]
    · grind [upd]
    · grind [upd]

theorem Inv.aDel {s : S} {own : Nat → Finset Tok} (h : Inv s own) {t d o : Nat} {p : Option Nat} (ht : s.ph t = .aDel d p o) :
    ∃ s', del s o = some s' ∧ Inv { s' with ph := upd s'.ph t (.aStore d p) } own := by
  have hn : s.rc o = some 0 := h.z0 t o (by rw [ht]; rfl)
  refine ⟨{ s with rc := upd s.rc o none }, by simp [del, hn], ?_⟩
  obtain ⟨c1, c2, c3, c4, c5, c6, c7, c8, c9, c10, c11, c12, c13⟩ := h
  have hc0 := c1 o 0 hn
  rw [Finset.card_eq_zero] at hc0
  constructor
  · intro o' m ho; simp only [upd] at ho; grind
  · intro o' ho; simp only [upd] at ho; grind
  · intro h' o
    simp only [upd]
    grind
  · intro t' o
    simp only [upd]
    grind
  · intro t' o' hz
    simp only [upd] at *
    grind
  · grind [upd]
  · intro o ho
    obtain ⟨w, hw⟩ := c7 o (by grind [upd])
    refine ⟨w, ?_⟩
    grind [upd]
  · grind [upd]
  · grind [upd]
  · intro t' r x hr
    have := rd_src hr
    grind [upd]
  · grind [upd]
  · grind [upd]
  · grind [upd]

theorem Inv.dDec {s : S} {own : Nat → Finset Tok} (h : Inv s own) {t d : Nat} (ht : s.ph t = .dDec d) :
    s.hd d ≠ none ∧ (s.hd d = some none → Inv { s with hd := upd s.hd d none, ph := upd s.ph t .idle } own) ∧
    ∀ o, s.hd d = some (some o) → ∃ z s', dec s o = some (z, s') ∧
      Inv (if z then { s' with ph := upd s'.ph t (.dDel d o) } else { s' with hd := upd s'.hd d none, ph := upd s'.ph t .idle })
        (remTok own o (.inl d)) := by
  refine ⟨h.live t d (by rw [ht]; rfl) (by rw [ht]; rfl), ?_, ?_⟩
  · intro hd0
    obtain ⟨c1, c2, c3, c4, c5, c6, c7, c8, c9, c10, c11, c12, c13⟩ := h
    constructor
    · grind
    · grind
    · intro h' o
      simp only [upd]
      grind
    · intro t' o
      simp only [upd]
      grind
    · grind [upd]
    · grind [upd]
    · intro o ho
      obtain ⟨w, hw⟩ := c7 o (by grind [upd])
      refine ⟨w, ?_⟩
      grind [upd]
    · grind [upd]
    · grind [upd]
    · intro t' r x hr
      have := rd_src hr
      grind [upd]
    · grind [upd]
    · grind [upd]
    · grind [upd]
  · intro o hd0
    have hpr : ∀ t, (s.ph t).post ≠ some d := by
      intro t' hc
      have := h.du t' t d (post_dst hc) (by rw [ht]; rfl)
      subst this; rw [ht] at hc; cases hc
    have hin := (h.tokH d o).2 ⟨hd0, hpr⟩
    obtain ⟨n, hn⟩ := h.pos hin
    refine ⟨decide (n = 0), { s with rc := upd s.rc o (some n) }, by simp [dec, hn], ?_⟩
    obtain ⟨c1, c2, c3, c4, c5, c6, c7, c8, c9, c10, c11, c12, c13⟩ := h
    have hzo : ∀ t', (s.ph t').zer ≠ some o := by grind
    by_cases hn0 : n = 0
    · simp only [hn0, decide_true, if_true]
      constructor
      · intro o' m ho
        simp only [remTok, upd] at ho ⊢
        by_cases e : o' = o
        · subst e
          rw [if_pos rfl, Finset.card_erase_of_mem hin]; grind
        · grind
      · intro o' ho; simp only [remTok, upd] at *; grind
      · intro h' o
        simp only [remTok, upd]
        grind (splits := 20)
      · intro t' o
        simp only [remTok, upd]
        grind
      · intro t' o' hz
        simp only [upd] at *
        grind
      · intro t1 t2 o' hz hz'
        simp only [upd] at *
        grind
      · intro o' ho
        simp only [upd] at ho ⊢
        by_cases e : o' = o
        · exact ⟨t, by grind⟩
        · obtain ⟨w, hw⟩ := c7 o' (by grind)
          exact ⟨w, by grind⟩
      · grind [upd]
      · grind [upd]
      · intro t' r x hr
        have := rd_src hr
        grind [upd]
      · grind [upd]
      · grind [upd]
      · grind [upd]
    · simp only [hn0, decide_false, Bool.false_eq_true, if_false]
      constructor
      · intro o' m ho
        simp only [remTok, upd] at ho ⊢
        by_cases e : o' = o
        · subst e
          rw [if_pos rfl, Finset.card_erase_of_mem hin]; grind
        · grind
      · intro o' ho; simp only [remTok, upd] at *; grind
      · intro h' o
        simp only [remTok, upd]
        grind (splits := 20)
      · intro t' o
        simp only [remTok, upd]
        grind
      · intro t' o' hz
        simp only [upd] at *
        grind
      · intro t1 t2 o' hz hz'
        simp only [upd] at *
        grind
      · intro o' ho
        simp only [upd] at ho ⊢
        obtain ⟨w, hw⟩ := c7 o' (by grind)
        exact ⟨w, by grind⟩
      · grind [upd]
      · grind [upd]
      · intro t' r x hr
        have := rd_src hr
        grind [upd]
      · grind [upd]
      · grind [upd]
      · grind [upd]

theorem Inv.dDel {s : S} {own : Nat → Finset Tok} (h : Inv s own) {t d o : Nat} (ht : s.ph t = .dDel d o) :
    ∃ s', del s o = some s' ∧ Inv { s' with hd := upd s'.hd d none, ph := upd s'.ph t .idle } own := by
  have hn : s.rc o = some 0 := h.z0 t o (by rw [ht]; rfl)
  refine ⟨{ s with rc := upd s.rc o none }, by simp [del, hn], ?_⟩
  obtain ⟨c1, c2, c3, c4, c5, c6, c7, c8, c9, c10, c11, c12, c13⟩ := h
  have hc0 := c1 o 0 hn
  rw [Finset.card_eq_zero] at hc0
  constructor
  · intro o' m ho; simp only [upd] at ho; grind
  · intro o' ho; simp only [upd] at ho; grind
  · intro h' o
    simp only [upd]
    grind
  · intro t' o
    simp only [upd]
    grind
  · intro t' o' hz
    simp only [upd] at *
    grind
  · grind [upd]
  · intro o ho
    obtain ⟨w, hw⟩ := c7 o (by grind [upd])
    refine ⟨w, ?_⟩
    grind [upd]
  · grind [upd]
  · grind [upd]
  · intro t' r x hr
    have := rd_src hr
    grind [upd]
  · grind [upd]
  · grind [upd]
  · grind [upd]


end Stxxl.CountingPtr
