import Verif.VecBuf.WriterProof
/-! The buffered writer while its stream is open. -/
namespace Stxxl.VecBuf
open Stxxl.ExtVector
open Spec
variable {α : Type} {B P : Nat}

theorem step_wrap {B i : Nat} (h : 0 < B) (hw : i % B + 1 ≥ B) : (i + 1) % B = 0 ∧ (i + 1) / B = i / B + 1 := by
  have h1 := Nat.div_add_mod i B
  have h2 := Nat.mod_lt i h
  have e : i + 1 = B * (i / B + 1) := by rw [Nat.mul_add]; omega
  rw [e]
  exact ⟨Nat.mul_mod_right _ _, Nat.mul_div_cancel_left _ h⟩

theorem step_in {B i : Nat} (hw : i % B + 1 < B) : (i + 1) % B = i % B + 1 ∧ (i + 1) / B = i / B := by
  have h1 := Nat.div_add_mod i B
  have e : i + 1 = B * (i / B) + (i % B + 1) := by omega
  have h : 0 < B := by omega
  constructor
  · conv => lhs; rw [e]
    rw [Nat.mul_add_mod, Nat.mod_eq_of_lt hw]
  · conv => lhs; rw [e]
    rw [Nat.mul_add_div h, Nat.div_eq_of_lt hw, Nat.add_zero]

theorem same_block {B p i : Nat} (hp : p % B = 0) (h1 : p ≤ i) (h2 : i < p + B) : i / B = p / B := by
  have h := Nat.div_add_mod p B
  have hB : 0 < B := by omega
  have e : i = B * (p / B) + (i - p) := by omega
  have hlt : i - p < B := by omega
  conv => lhs; rw [e]
  rw [Nat.mul_add_div hB, Nat.div_eq_of_lt hlt, Nat.add_zero]

theorem next_block {B p i : Nat} (hB : 0 < B) (hp : p % B = 0) (hi : i % B = 0) (h1 : p < i) (h2 : i ≤ p + B) : i = p + B := by
  rcases Nat.lt_or_ge i (p + B) with h | h
  · have e := same_block hp (Nat.le_of_lt h1) h
    have h3 := Nat.div_add_mod p B
    have h4 := Nat.div_add_mod i B
    rw [e] at h4
    omega
  · omega

theorem next_page {P k : Nat} (hP : 0 < P) (h : k % P ≠ P - 1) : (k + 1) / P = k / P :=
  (step_in (B := P) (i := k) (by have := Nat.mod_lt k hP; omega)).2

theorem prev_page {P k : Nat} (hP : 2 ≤ P) (h : (k + 1) % P = P - 1) : (k + 1) / P = k / P := by
  apply next_page (by omega)
  intro h2
  have := (step_wrap (B := P) (i := k) (by omega) (by omega)).1
  omega

theorem add_block {B p : Nat} (hB : 0 < B) : (p + B) / B = p / B + 1 := Nat.add_div_right p hB

/-- The vector `s` and the stream `o` at position `iter`, with `prev` the start of the block written last. `A` is what the vector
contains. `G` says that the vector may have to grow. -/
structure Str (B P np b : Nat) (G : Prop) (s : Sys α) (iter last prev : Nat) (o : Bo α) (A : List (Option α)) : Prop where
  base : Base B P s
  calm : Calm s
  npg : s.vec.npages = np
  len : A.length = s.vec.size
  lst : last = s.vec.size
  le : iter ≤ last
  elem : o.elem = iter % B
  bid : o.bid = iter / B
  pm : prev % B = 0
  p1 : prev ≤ iter
  p2 : iter ≤ prev + B
  pl : prev < last
  bp : b ≤ prev
  nd : (o.pend.map Prod.fst).Nodup
  pmem : ∀ q ∈ o.pend, ∃ k, k < iter / B ∧ s.vec.bids[k]? = some q.1
  cur : ∀ (i : Nat) (v : α), A[i]? = some (some v) → i < iter → i / B = iter / B → o.cur (i % B) = v
  val : ∀ (i : Nat) (v : α), A[i]? = some (some v) → ¬ (i < iter ∧ i / B = iter / B) →
    ∀ c, s.vec.bids[i / B]? = some c → settle s.disk o.pend c (i % B) = v
  stat : ∀ (i : Nat) (v : α), A[i]? = some (some v) →
    s.vec.status[i / B / P]? = some .valid ∨ (i < iter ∧ i / B / P = prev / B / P)
  lastp : G → prev / B % P = P - 1 → last = prev + B → s.vec.status[prev / B / P]? = some .valid
  gB : G → 2 ≤ P ∧ ¬ (P = 2 ∧ last = B)

theorem Str.hB {np b G} {s : Sys α} {iter last prev o A} (h : Str B P np b G s iter last prev o A) : 0 < B := h.base.inv.hB
theorem Str.hP {np b G} {s : Sys α} {iter last prev o A} (h : Str B P np b G s iter last prev o A) : 0 < P := h.base.inv.hP

/-- Writing one element. -/
theorem put_core {np b G} {s : Sys α} {iter last prev o A} (h : Str B P np b G s iter last prev o A) (v : α) (junk : Nat → α)
    (hp : iter < prev + B) (hl : iter < last) :
    ∃ o', Bo.advance B s.vec.bids junk { o with cur := upd o.cur o.elem v } = some o' ∧
      Str B P np b G s (iter + 1) last prev o' (A.set iter (some v)) := by
  have hB := h.hB
  have hlen : iter < A.length := by rw [h.len, ← h.lst]; exact hl
  have hset : ∀ (i : Nat) (x : α), (A.set iter (some v))[i]? = some (some x) → (i = iter ∧ x = v) ∨ (i ≠ iter ∧ A[i]? = some (some x)) := by
    intro i x hx
    rw [List.getElem?_set] at hx
    by_cases hi : iter = i
    · subst hi
      rw [if_pos rfl, if_pos hlen] at hx
      exact .inl ⟨rfl, by simpa using hx.symm⟩
    · rw [if_neg hi] at hx
      exact .inr ⟨fun e => hi e.symm, hx⟩
  have hblk := h.base.inv.lt_cap (i := iter) (by rw [← h.lst]; exact hl)
  have hpg : iter / B = prev / B := same_block h.pm h.p1 hp
  have hstat : ∀ (i : Nat) (x : α), (A.set iter (some v))[i]? = some (some x) →
      s.vec.status[i / B / P]? = some .valid ∨ (i < iter + 1 ∧ i / B / P = prev / B / P) := by
    intro i x hx
    rcases hset i x hx with ⟨rfl, _⟩ | ⟨_, hx⟩
    · exact .inr ⟨by omega, by rw [hpg]⟩
    · exact (h.stat i x hx).imp_right fun ⟨q1, q2⟩ => ⟨by omega, q2⟩
  have helem := h.elem
  by_cases hw : iter % B + 1 ≥ B
  · obtain ⟨m1, m2⟩ := step_wrap hB hw
    have hc := List.getElem?_eq_getElem hblk
    have hadv : Bo.advance B s.vec.bids junk { o with cur := upd o.cur o.elem v } =
        some ⟨junk, 0, iter / B + 1, o.pend ++ [(s.vec.bids[iter / B], upd o.cur (iter % B) v)]⟩ := by
      unfold Bo.advance
      rw [if_pos (by show o.elem + 1 ≥ B; omega)]
      unfold Bo.handOver
      dsimp only
      rw [h.bid, hc, helem]
    refine ⟨_, hadv, { h with len := (by simpa using h.len), le := hl, elem := m1.symm, bid := m2.symm, p1 := (by have := h.p1; omega), p2 := hp, nd := ?_, pmem := ?_, cur := ?_, val := ?_, stat := hstat }⟩
    · rw [List.map_append, List.nodup_append]
      refine ⟨h.nd, by simp, ?_⟩
      rintro a ha c hcc rfl
      simp only [List.map_cons, List.map_nil, List.mem_singleton] at hcc
      obtain ⟨q, hq, rfl⟩ := List.mem_map.1 ha
      obtain ⟨k, hk, hk2⟩ := h.pmem q hq
      rw [hcc] at hk2
      have := nodup_get_inj h.base.inv.nod hk2 hc
      omega
    · intro q hq
      rw [m2]
      rcases List.mem_append.1 hq with hq | hq
      · obtain ⟨k, hk, hk2⟩ := h.pmem q hq
        exact ⟨k, by omega, hk2⟩
      · simp only [List.mem_singleton] at hq
        subst hq
        exact ⟨iter / B, by omega, hc⟩
    · intro i x _ hi hi2
      have := Nat.div_le_div_right (c := B) (show i ≤ iter by omega)
      omega
    · intro i x hx hn c hbc
      dsimp only
      rw [settle_append]
      by_cases hib : i / B = iter / B
      · rw [hib, hc] at hbc
        cases hbc
        rw [upd_same]
        rcases hset i x hx with ⟨rfl, rfl⟩ | ⟨hne, hx⟩
        · exact upd_same _ _ _
        · have hlt : i < iter := by
            have h1 := Nat.div_add_mod i B
            have h2 := Nat.div_add_mod iter B
            have h3 := Nat.mod_lt i hB
            rw [hib] at h1
            omega
          have hmm : i % B ≠ iter % B := by
            have h1 := Nat.div_add_mod i B
            have h2 := Nat.div_add_mod iter B
            rw [hib] at h1
            omega
          rw [upd_ne _ _ hmm]
          exact h.cur i x hx hlt hib
      · rcases hset i x hx with ⟨rfl, rfl⟩ | ⟨hne, hx⟩
        · exact absurd rfl hib
        · rw [upd_ne]
          · exact h.val i x hx (fun q => hib q.2) c hbc
          · rintro rfl
            exact hib (nodup_get_inj h.base.inv.nod hbc hc)
  · obtain ⟨m1, m2⟩ := step_in (B := B) (i := iter) (by omega)
    have hadv : Bo.advance B s.vec.bids junk { o with cur := upd o.cur o.elem v } =
        some { o with cur := upd o.cur o.elem v, elem := o.elem + 1 } := by
      unfold Bo.advance
      rw [if_neg (by show ¬ o.elem + 1 ≥ B; omega)]
    refine ⟨_, hadv, { h with len := (by simpa using h.len), le := hl, elem := (by rw [m1]; exact congrArg (· + 1) helem), bid := (by rw [m2]; exact h.bid), p1 := (by have := h.p1; omega), p2 := hp, pmem := (by rw [m2]; exact h.pmem), cur := ?_, val := ?_, stat := hstat }⟩
    · intro i x hx hi hi2
      rw [m2] at hi2
      dsimp only
      rw [helem]
      rcases hset i x hx with ⟨rfl, rfl⟩ | ⟨hne, hx⟩
      · exact upd_same _ _ _
      · have hmm : i % B ≠ iter % B := by
          have h1 := Nat.div_add_mod i B
          have h2 := Nat.div_add_mod iter B
          rw [hi2] at h1
          omega
        rw [upd_ne _ _ hmm]
        exact h.cur i x hx (by omega) hi2
    · intro i x hx hn c hbc
      rw [m2] at hn
      rcases hset i x hx with ⟨rfl, rfl⟩ | ⟨hne, hx⟩
      · exact absurd ⟨Nat.lt_succ_self _, rfl⟩ hn
      · exact h.val i x hx (fun q => hn ⟨by omega, q.2⟩) c hbc

/-- Progress of the disk threads. -/
theorem progress_str {np b G} {s : Sys α} {iter last prev o A} (h : Str B P np b G s iter last prev o A) (srv : List Nat) :
    Str B P np b G { s with disk := (doneSome (s.disk, o.pend) srv).1 } iter last prev { o with pend := (doneSome (s.disk, o.pend) srv).2 } A := by
  obtain ⟨d1, d2, d3⟩ := doneSome_ok (d := s.disk) srv h.nd
  have hb := base_of (s := { s with disk := (doneSome (s.disk, o.pend) srv).1 }) h.base h.calm rfl rfl rfl rfl rfl rfl rfl
    (fun p => Calm.not_dirty h.base.inv h.calm p) (List.Perm.refl _)
  exact { h with base := hb.1, calm := hb.2, nd := h.nd.sublist (d2.map _), pmem := (fun q hq => h.pmem q (d2.subset hq)), val := (fun i v hv hn c hc => by dsimp only; rw [d1]; exact h.val i v hv hn c hc) }

/-- The mark at the start of a block. -/
theorem mark_str {np b G} {s : Sys α} {iter last prev o A} (h : Str B P np b G s iter last prev o A) (hi : iter % B = 0) (hne : prev ≠ iter)
    (hl : iter < last) :
    ∃ s', pageExternallyUpdated s (pageOf B P prev) = some s' ∧ Str B P np b G s' iter last iter o A := by
  have hnext := next_block h.hB h.pm hi (Nat.lt_of_le_of_ne h.p1 hne) h.p2
  have hpl : prev / B / P < s.vec.status.length := h.base.inv.page_lt (h.base.inv.lt_cap (i := prev) (by rw [← h.lst]; exact h.pl))
  rw [pageOf_eq]
  refine ⟨_, mark_calm h.base h.calm hpl, ?_⟩
  have hnd : ∀ p : Nat, (s.vec.status.set (prev / B / P) .valid)[p]? ≠ some .dirty := by
    intro p
    rw [List.getElem?_set]
    have := h.calm.not_dirty h.base.inv p
    split
    · simp
    · exact this
  have hv : ∀ p : Nat, s.vec.status[p]? = some .valid → (s.vec.status.set (prev / B / P) .valid)[p]? = some .valid := by
    intro p hp
    rw [List.getElem?_set]
    split
    · rfl
    · exact hp
  have hb := base_of (s := { s with vec := { s.vec with status := s.vec.status.set (prev / B / P) .valid } }) h.base h.calm rfl rfl rfl rfl rfl rfl
    (by simp) hnd (List.Perm.refl _)
  refine { h with base := hb.1, calm := hb.2, pm := hi, p1 := Nat.le_refl _, p2 := (by omega), pl := hl, bp := Nat.le_trans h.bp h.p1, stat := ?_, lastp := ?_ }
  · intro i v hx
    left
    dsimp only
    rcases h.stat i v hx with q | q
    · exact hv _ q
    · rw [q.2, List.getElem?_set, if_pos rfl, if_pos hpl]
  · intro g hk _
    dsimp only
    have hblk : iter / B = prev / B + 1 := by rw [hnext, add_block h.hB]
    rw [hblk] at hk ⊢
    rw [prev_page (h.gB g).1 hk, List.getElem?_set, if_pos rfl, if_pos hpl]

/-- An open stream at a page-marking position: values in the vector are in place once the pending writes are done. -/
theorem open_str {np b : Nat} {G : Prop} {s : Sys α} {iter last : Nat} {A : List (Option α)} (junk : Nat → α)
    (base : Base B P s) (calm : Calm s) (npg : s.vec.npages = np) (len : A.length = s.vec.size) (hlast : last = s.vec.size)
    (hl : iter < last) (hi : iter % B = 0) (hb : b ≤ iter)
    (hval : ∀ (i : Nat) (v : α), A[i]? = some (some v) → ∀ c, s.vec.bids[i / B]? = some c → s.disk c (i % B) = v)
    (hstat : ∀ (i : Nat) (v : α), A[i]? = some (some v) →
      s.vec.status[i / B / P]? = some .valid ∨ (i < iter ∧ i / B / P = iter / B / P))
    (hlastp : G → iter / B % P = P - 1 → last = iter + B → s.vec.status[iter / B / P]? = some .valid)
    (gB : G → 2 ≤ P ∧ ¬ (P = 2 ∧ last = B)) :
    Str B P np b G s iter last iter ⟨junk, 0, iter / B, []⟩ A where
  base := base
  calm := calm
  npg := npg
  len := len
  lst := hlast
  le := Nat.le_of_lt hl
  elem := hi.symm
  bid := rfl
  pm := hi
  p1 := Nat.le_refl _
  p2 := Nat.le_add_right _ _
  pl := hl
  bp := hb
  nd := by simp
  pmem := by simp
  cur := by
    intro i v _ h1 h2
    have h3 := Nat.div_add_mod i B
    have h4 := Nat.div_add_mod iter B
    rw [h2] at h3
    omega
  val := fun i v hv _ => hval i v hv
  stat := hstat
  lastp := hlastp
  gB := gB

end Stxxl.VecBuf
