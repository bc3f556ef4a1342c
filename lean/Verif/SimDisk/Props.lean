import Verif.SimDisk.Model

/-!
# C96: the disk emulation; C97: seeds and metaprograms
-/
namespace Stxxl.SimDisk

/-! ## Specification -/

/-- The size of the file after a history, the latest call first: files never shrink. -/
def sizeAfter : List Op → Nat
  | [] => 0
  | .write _ _ :: e => sizeAfter e
  | .setSize n :: e => max n (sizeAfter e)

/-- The byte at `i` after a history: what was written there last, else 0. -/
def content : List Op → Nat → Nat
  | [], _ => 0
  | .write offset buf :: e, i => if h : offset ≤ i ∧ i < offset + buf.length then buf[i - offset]'(by omega) else content e i
  | .setSize _ :: e, i => content e i

/-- The range may be accessed: not empty, page-aligned, within the file. -/
def Inside (page size offset bytes : Nat) : Prop := bytes ≠ 0 ∧ offset % page = 0 ∧ offset + bytes ≤ size

def Permitted (page : Nat) : List Op → Prop
  | [] => True
  | .write offset buf :: e => Inside page (sizeAfter e) offset buf.length ∧ Permitted page e
  | .setSize _ :: e => Permitted page e

/-! ## Proofs -/

theorem le_pageEnd {page : Nat} (hp : 0 < page) (len : Nat) : len ≤ pageEnd page len := by
  simp only [pageEnd]
  have h1 := Nat.div_add_mod (len + page - 1) page
  have h2 := Nat.mod_lt (len + page - 1) hp
  rw [Nat.mul_comm] at h1
  omega

theorem inside_ok {page size offset bytes : Nat} (hp : 0 < page) (h : Inside page size offset bytes) :
    mapFails page offset bytes = false ∧ offset + bytes ≤ pageEnd page size := by
  obtain ⟨h1, h2, h3⟩ := h
  have := le_pageEnd hp size
  exact ⟨by simp [mapFails, h1, h2], by omega⟩

theorem setSize_length (data : List Nat) (n : Nat) : (setSize data n).length = max n data.length := by
  simp only [setSize]
  split
  · simp; omega
  · omega

theorem setSize_get (data : List Nat) (n i : Nat) : ((setSize data n)[i]?).getD 0 = (data[i]?).getD 0 := by
  simp only [setSize]
  split
  · by_cases h : i < data.length
    · rw [List.append_assoc, List.getElem?_append_left h]
    · rw [List.append_assoc, List.getElem?_append_right (by omega), List.getElem?_eq_none (l := data) (by omega)]
      by_cases h2 : i - data.length < n - 1 - data.length
      · rw [List.getElem?_append_left (by simpa using h2), List.getElem?_replicate, if_pos h2]
        rfl
      · rw [List.getElem?_append_right (by simp; omega)]
        generalize i - data.length - (List.replicate (n - 1 - data.length) 0).length = k
        cases k <;> rfl
  · rfl

theorem after_spec {page : Nat} (hp : 0 < page) : ∀ h : List Op, Permitted page h →
    ∃ data : List Nat, after page h = .ok data ∧ data.length = sizeAfter h ∧ ∀ i : Nat, (data[i]?).getD 0 = content h i
  | [], _ => ⟨[], rfl, rfl, fun _ => rfl⟩
  | .setSize n :: e, hh => by
    obtain ⟨data, h1, h2, h3⟩ := after_spec hp e hh
    exact ⟨setSize data n, by simp only [after, h1], by rw [setSize_length, h2]; rfl, fun i => by rw [setSize_get, h3]; rfl⟩
  | .write offset buf :: e, hh => by
    obtain ⟨hi, hh⟩ := hh
    obtain ⟨data, h1, h2, h3⟩ := after_spec hp e hh
    obtain ⟨f1, f2⟩ := inside_ok hp hi
    rw [← h2] at f2
    refine ⟨_, by simp only [after, h1, write, f1, if_pos f2]; rfl, by simpa [sizeAfter] using h2, fun i => ?_⟩
    have hr := hi.2.2
    by_cases hlt : i < data.length
    · rw [List.getElem?_map, List.getElem?_range hlt]
      simp only [Option.map_some, Option.getD_some, content]
      by_cases ho : offset ≤ i
      · rw [if_pos ho]
        by_cases hb : i < offset + buf.length
        · rw [dif_pos ⟨ho, hb⟩, List.getElem?_eq_getElem (show i - offset < buf.length by omega)]
          rfl
        · rw [dif_neg (by omega), List.getElem?_eq_none (by omega)]
          exact h3 i
      · rw [if_neg ho, dif_neg (by omega)]
        exact h3 i
    · rw [List.getElem?_eq_none (by simp; omega)]
      simp only [Option.getD_none, content]
      rw [dif_neg (by omega), ← h3 i, List.getElem?_eq_none (by omega)]
      rfl

theorem log2FloorAux_eq : ∀ (k n : Nat), n ≤ k → n ≠ 0 → 2 ^ log2FloorAux k n ≤ n ∧ n < 2 ^ (log2FloorAux k n + 1)
  | 0, n, h, h0 => by omega
  | k + 1, n, h, h0 => by
    simp only [log2FloorAux, if_neg h0]
    by_cases h1 : n = 1
    · rw [if_pos h1, h1]; decide
    · rw [if_neg h1]
      obtain ⟨a, b⟩ := log2FloorAux_eq k (n / 2) (by omega) (by omega)
      constructor
      · rw [Nat.pow_succ]; omega
      · rw [Nat.pow_succ]; omega

/-! ## Theorems -/

/-- Storage: for every history of page-aligned writes within the file and changes of size, no call fails, and a page-aligned read within the file
gives at every place what was written there last, or 0; the file has the largest size that was set. -/
theorem C96_simdisk_storage (page : Nat) (hp : 0 < page) (h : List Op) (hh : Permitted page h) :
    ∃ data : List Nat, after page h = .ok data ∧ data.length = sizeAfter h ∧
      ∀ offset bytes : Nat, Inside page (sizeAfter h) offset bytes →
        read page data offset bytes = .ok ((List.range bytes).map fun i => content h (offset + i)) := by
  obtain ⟨data, h1, h2, h3⟩ := after_spec hp h hh
  refine ⟨data, h1, h2, fun offset bytes hi => ?_⟩
  obtain ⟨f1, f2⟩ := inside_ok hp hi
  rw [← h2] at f2
  simp only [read, f1, if_pos f2]
  simp [h3]

/-- Requests that are not aligned fail with an error; those that reach a page beyond the file end the program; those that reach beyond the file
within its last page are cut off silently. `set_size` does not shrink. -/
theorem C96_simdisk_limits (page : Nat) (data : List Nat) (offset bytes : Nat) (buf : List Nat) :
    (offset % page ≠ 0 → read page data offset bytes = .ioError ∧ write page data offset buf = .ioError) ∧
    (offset % page = 0 → bytes ≠ 0 → pageEnd page data.length < offset + bytes → read page data offset bytes = .bus) ∧
    (offset % page = 0 → buf ≠ [] → pageEnd page data.length < offset + buf.length → write page data offset buf = .bus) ∧
    (∀ d : List Nat, write page data offset buf = .ok d → d.length = data.length) ∧
    (∀ n : Nat, n ≤ data.length → setSize data n = data) := by
  refine ⟨fun h => ?_, fun h h0 hb => ?_, fun h h0 hb => ?_, fun d h => ?_, fun n hn => ?_⟩
  · simp [read, write, mapFails, h]
  · have e : mapFails page offset bytes = false := by simp [mapFails, h, h0]
    simp only [read, e]
    rw [if_neg (by simp), if_neg (by omega)]
  · have e : mapFails page offset buf.length = false := by simp [mapFails, h, h0]
    simp only [write, e]
    rw [if_neg (by simp), if_neg (by omega)]
  · simp only [write] at h
    split at h
    · simp at h
    · split at h
      · injection h with h; subst h; simp
      · simp at h
  · exact if_neg (by omega)

/-- Time: a request that took no longer than the emulated disk needs takes exactly as long as the emulated disk. -/
theorem C96_simdisk_time (delay elapsed : Int) (h : elapsed ≤ delay) (hb : delay - elapsed < 2 ^ 31 * 1000000) :
    elapsed + sleeps delay elapsed = delay := by
  simp only [sleeps]
  split <;> omega

/-- Refuted for slower requests: one that took longer than the emulated disk needs, by any time up to 2^31 seconds, fails the assertion, and
without assertions sleeps for at least 2^31 seconds (68 years). -/
theorem C96_simdisk_slow_request_hangs (delay elapsed : Int) (h : delay < elapsed) (hb : elapsed - delay ≤ 2 ^ 31 * 1000000) :
    assertion delay elapsed = false ∧ sleeps delay elapsed ≥ 2 ^ 31 * 1000000 := by
  constructor
  · simp only [assertion]; simp; omega
  · simp only [sleeps]
    rw [if_pos (by omega)]
    omega

/-- Seeds: however the calls of any threads are ordered, up to 2^32 calls of `get_next_seed` in a row give different seeds; after `set_seed` the
next seed is the one that was set. -/
theorem C97_seeds (s n : Nat) (hs : s < 2 ^ 32) (hn : n ≤ 2 ^ 32) :
    (seeds s (List.replicate n .next)).Nodup ∧ (seeds s (List.replicate n .next)).length = n ∧
    ∀ (x : Nat) (pre : List SOp), x < 2 ^ 32 → seeds s (pre ++ [.set x, .next]) = seeds s pre ++ [x] := by
  have key : ∀ (n s : Nat), s < 2 ^ 32 → seeds s (List.replicate n .next) = (List.range n).map fun i => (s + i) % 2 ^ 32 := by
    intro n
    induction n with
    | zero => intro s _; rfl
    | succ n ih =>
      intro s hs
      rw [List.replicate_succ, List.range_succ_eq_map, List.map_cons, List.map_map]
      simp only [seeds]
      rw [ih _ (Nat.mod_lt _ (by decide))]
      congr 1
      · omega
      · apply List.map_congr_left
        intro i _
        simp only [Function.comp]
        omega
  refine ⟨?_, ?_, fun x pre hx => ?_⟩
  · rw [key n s hs]
    refine List.pairwise_map.2 (List.Pairwise.imp_of_mem ?_ (List.pairwise_lt_range (n := n)))
    intro i j hi hj hij
    have := List.mem_range.1 hj
    omega
  · rw [key n s hs]; simp
  · clear hs
    induction pre generalizing s with
    | nil => simp [seeds, Nat.mod_eq_of_lt hx]
    | cons op pre ih =>
      cases op with
      | set y => exact ih _
      | next => simp only [List.cons_append, seeds]; rw [ih]

/-- `LOG2<n>::floor` and `LOG2<n>::ceil` are the logarithm rounded down and up. -/
theorem C97_LOG2 (n : Nat) (h0 : n ≠ 0) :
    (2 ^ LOG2floor n ≤ n ∧ n < 2 ^ (LOG2floor n + 1)) ∧ n ≤ 2 ^ LOG2ceil n ∧ ∀ k : Nat, n ≤ 2 ^ k → LOG2ceil n ≤ k := by
  by_cases h1 : n = 1
  · subst h1
    exact ⟨by decide, by decide, fun k _ => Nat.zero_le _⟩
  · have hf := log2FloorAux_eq n n (Nat.le_refl _) h0
    have hc := log2FloorAux_eq (n - 1) (n - 1) (Nat.le_refl _) (by omega)
    simp only [LOG2floor, LOG2ceil, if_neg h0, if_neg h1, log2Floor]
    refine ⟨hf, by omega, fun k hk => ?_⟩
    apply Classical.byContradiction
    intro hlt
    have : 2 ^ k ≤ 2 ^ log2FloorAux (n - 1) (n - 1) := Nat.pow_le_pow_right (by omega) (by omega)
    omega

/-- `SWITCH` selects the first case that has the tag or is the default, and nothing exactly if there is none. -/
theorem C97_SWITCH {β : Type} (tag : Int) (cases : List (Int × β)) :
    (switch tag cases = none ↔ ∀ c ∈ cases, c.1 ≠ tag ∧ c.1 ≠ DEFAULT) ∧
    ∀ t : β, switch tag cases = some t ↔
      ∃ (pre : List (Int × β)) (c : Int) (post : List (Int × β)), cases = pre ++ (c, t) :: post ∧ (c = tag ∨ c = DEFAULT) ∧
        ∀ d ∈ pre, d.1 ≠ tag ∧ d.1 ≠ DEFAULT := by
  induction cases with
  | nil => exact ⟨by simp [switch], fun t => by simp [switch]⟩
  | cons d cases ih =>
    obtain ⟨c, u⟩ := d
    obtain ⟨ih1, ih2⟩ := ih
    simp only [switch]
    by_cases h : c = tag ∨ c = DEFAULT
    · rw [if_pos h]
      refine ⟨?_, fun t => ⟨fun ht => ?_, ?_⟩⟩
      · simp only [reduceCtorEq, false_iff]
        intro hall
        have := hall (c, u) (by simp)
        rcases h with h | h
        · exact this.1 h
        · exact this.2 h
      · injection ht with ht; subst ht
        exact ⟨[], c, cases, rfl, h, by simp⟩
      · rintro ⟨pre, c', post, he, hc, hpre⟩
        cases pre with
        | nil =>
          simp only [List.nil_append, List.cons.injEq, Prod.mk.injEq] at he
          rw [he.1.2]
        | cons d pre =>
          simp only [List.cons_append, List.cons.injEq] at he
          have := hpre d (by simp)
          rw [← he.1] at this
          rcases h with h | h
          · exact absurd h this.1
          · exact absurd h this.2
    · rw [if_neg h]
      have h' : c ≠ tag ∧ c ≠ DEFAULT := ⟨fun e => h (Or.inl e), fun e => h (Or.inr e)⟩
      refine ⟨?_, fun t => (ih2 t).trans ⟨?_, ?_⟩⟩
      · rw [ih1]
        simp [h']
      · rintro ⟨pre, c', post, he, hc, hpre⟩
        refine ⟨(c, u) :: pre, c', post, by rw [he]; rfl, hc, fun d hd => ?_⟩
        rcases List.mem_cons.1 hd with rfl | hd
        · exact h'
        · exact hpre d hd
      · rintro ⟨pre, c', post, he, hc, hpre⟩
        cases pre with
        | nil =>
          simp only [List.nil_append, List.cons.injEq, Prod.mk.injEq] at he
          rw [← he.1.1] at hc
          exact absurd hc h
        | cons d pre =>
          simp only [List.cons_append, List.cons.injEq] at he
          exact ⟨pre, c', post, he.2, hc, fun d hd => hpre d (by simp [hd])⟩

/-! ## Non-vacuity -/

example : Permitted 4 [.write 4 [7, 8], .setSize 3, .write 0 [1, 2, 3, 4, 5], .setSize 6] ∧
    after 4 [.write 4 [7, 8], .setSize 3, .write 0 [1, 2, 3, 4, 5], .setSize 6] = .ok [1, 2, 3, 4, 7, 8] := by
  refine ⟨?_, by decide⟩
  simp [Permitted, Inside, sizeAfter]

example : seeds 5 [.next, .next, .set 9, .next] = [5, 6, 9] ∧ LOG2floor 100 = 6 ∧ LOG2ceil 100 = 7 ∧ LOG2ceil 64 = 6 ∧
    switch 3 [(1, 10), (3, 30), (DEFAULT, 0)] = some 30 ∧ switch 3 [(1, 10), (DEFAULT, 0), (3, 30)] = some 0 := by decide +kernel

end Stxxl.SimDisk
