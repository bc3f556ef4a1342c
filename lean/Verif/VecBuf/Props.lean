import Verif.VecBuf.Session
import Verif.VecBuf.ReaderProof
import Verif.ExtVector.Props
/-!
# C73–C75: buffered readers and the buffered writer of a vector

The specification is in `Spec.lean`. `Hist` are the histories of a vector with its own operations (`ExtVector.Reach`) and sessions of
buffered writers.
-/
namespace Stxxl.VecBuf
open Stxxl.ExtVector
open Stxxl.Io
open Spec
variable {α : Type} {B P : Nat}

/-- Block ids from the block manager (C06): whenever the vector asks, enough ids, different from each other and from the vector's own. -/
def Allocator (B : Nat) (alloc : Sys α → Nat → List Nat) : Prop := ∀ s n, FreshIds B s n (alloc s n)

/-- States of a vector and its abstract array, with sessions of buffered writers as further steps. -/
inductive Hist (B P : Nat) (alloc : Sys α → Nat → List Nat) : Sys α → List (Option α) → Prop
  | vec (s : Sys α) (A : List (Option α)) : Reach B P false s A → Hist B P alloc s A
  | step (s s' : Sys α) (A : List (Option α)) (op : Op α) (r : Option α) :
      Hist B P alloc s A → Legal B P false s op → step B P s op = some (s', r) → Hist B P alloc s' (absStep B A op)
  | session (s s' : Sys α) (A : List (Option α)) (junk : Nat) (ch fch : Nat → WCh α) (b : Nat) (xs : List α) :
      Hist B P alloc s A → (∀ i, (ch i).victim < s.vec.npages) → WLegal B P s A b xs.length →
      bufWrite B P alloc junk ch fch s b xs = some s' → Hist B P alloc s' (writeAt A b xs)

theorem hist_inv (hB : 0 < B) (hP : 0 < P) {alloc : Sys α → Nat → List Nat} (hal : Allocator B alloc) {s : Sys α} {A} (h : Hist B P alloc s A) :
    WInv B P false s A := by
  induction h with
  | vec s A h => exact reach_inv hB hP h
  | step s s' A op r _ hl hs ih =>
    obtain ⟨s'', r', h4, h5⟩ := step_ok ih op hl
    rw [hs] at h4
    cases h4; exact h5
  | session s s' A junk ch fch b xs _ hv hl hs ih =>
    obtain ⟨s'', h4, h5, _⟩ := bufWrite_ok ih hal junk ch fch hv b xs hl
    rw [hs] at h4
    cases h4; exact h5

/-! ## C74: the buffered writer -/

/-- **C74** A session of a buffered writer — create it at position `b`, write any number of values with `<<`, finish and destroy it —
completes without a failed assertion or invalid access, and leaves the vector with exactly these values from position `b` on, the rest
unchanged, the size enlarged if necessary: whatever the cache contained, whenever the disk threads finish the blocks, whatever pages
are evicted, whatever the fresh buffers contain, however often the vector had to grow. -/
theorem C74_writer (hB : 0 < B) (hP : 0 < P) {alloc : Sys α → Nat → List Nat} (hal : Allocator B alloc) {s : Sys α} {A}
    (h : Hist B P alloc s A) (junk : Nat) (ch fch : Nat → WCh α) (hv : ∀ i, (ch i).victim < s.vec.npages) (b : Nat) (xs : List α)
    (hl : WLegal B P s A b xs.length) :
    ∃ s', bufWrite B P alloc junk ch fch s b xs = some s' ∧ Hist B P alloc s' (writeAt A b xs) ∧
      s'.vec.size = max A.length (b + xs.length) := by
  have hi := hist_inv hB hP hal h
  obtain ⟨s', h1, h2, _⟩ := bufWrite_ok hi hal junk ch fch hv b xs hl
  refine ⟨s', h1, .session s s' A junk ch fch b xs h hv hl h1, ?_⟩
  rw [← h2.inv.len, writeAt_len A xs (by rw [hi.inv.len]; exact hl.inside)]
  omega

/-- **C74** Afterwards element `i` reads as the value written to it, by random access, after any legal history. -/
theorem C74_read (hB : 0 < B) (hP : 0 < P) {alloc : Sys α → Nat → List Nat} (hal : Allocator B alloc) {s : Sys α} {A}
    (h : Hist B P alloc s A) {i victim : Nat} {v : α} (hv : A[i]? = some (some v)) (hvic : victim < s.vec.npages) :
    (∃ s', step B P s (.readConst i victim) = some (s', some v)) ∧ (∃ s', step B P s (.readMut i victim) = some (s', some v)) := by
  have hi := (hist_inv hB hP hal h).inv
  obtain ⟨s1, r1, a1, _, _, a4⟩ := constElement_inv hi (hi.idx hv) hvic
  obtain ⟨s2, r2, b1, _, _, b4⟩ := elementRead_inv hi (hi.idx hv) hvic
  refine ⟨⟨s1, ?_⟩, ⟨s2, ?_⟩⟩
  · simp [step, a1, a4 v hv]
  · simp [step, b1, b4 v hv]

/-- **C74** The vector's own operations go on working after sessions. -/
theorem C74_no_failure (hB : 0 < B) (hP : 0 < P) {alloc : Sys α → Nat → List Nat} (hal : Allocator B alloc) {s : Sys α} {A}
    (h : Hist B P alloc s A) (op : Op α) (hl : Legal B P false s op) :
    ∃ s' r, step B P s op = some (s', r) ∧ Hist B P alloc s' (absStep B A op) ∧ s.vec.size = A.length := by
  have hi := hist_inv hB hP hal h
  obtain ⟨s', r, h1, _⟩ := step_ok hi op hl
  exact ⟨s', r, h1, .step s s' A op r h hl h1, hi.inv.len.symm⟩

/-! ## C73: the buffered readers -/

/-- Element `i` on the disk after the flush. -/
theorem flushed_elem {s s' : Sys α} {A} (h : WInv B P false s A) (hf : flush P s = some s') {i : Nat} {v : α} (hv : A[i]? = some (some v)) :
    s'.disk (s'.vec.bids.getD (i / B) 0) (i % B) = v := by
  obtain ⟨s2, f1, f2, f3, f4⟩ := flush_inv h.inv
  rw [hf] at f1
  cases f1
  have hk := List.getElem?_eq_getElem (f2.lt_cap (f2.idx hv))
  have := (calm_facts (h.ofSame f2 f3) f4 hv).2 _ hk
  rw [List.getD_eq_getElem?_getD, hk]
  exact this

/-- **C73** A buffered reader of the range `[first, last)` of a vector: construction succeeds, and in every history of reads and `rewind`s
that does not read beyond the end it delivers the elements of the range in order, `size()` is the number of elements left and `empty()` says
whether there are none; for every number of buffers and disks, every placement of the blocks, and whatever the disks do. Elements never
assigned have some fixed value. The vector keeps its contents. -/
theorem C73_forward (hB : 0 < B) (hP : 0 < P) {alloc : Sys α → Nat → List Nat} (hal : Allocator B alloc) {s : Sys α} {A}
    (h : Hist B P alloc s A) (first last nbuffers ndisks mdev : Nat) (rqs : List Rq) (mem : Nat → Nat → α) (e : Env)
    (hr : first ≤ last) (_hin : last ≤ s.vec.size) (hnd : 1 ≤ ndisks) (hq : ∀ r ∈ rqs, r.st ≠ .pending) (he : e.Ok mdev) :
    ∃ f : Nat → α, (∀ (i : Nat) (v : α), A[i]? = some (some v) → f i = v) ∧
      ∀ (ops : List ROp) (j : Nat) (xs : List α), (∀ o ∈ ops, o.Ok mdev) → readUp f first last (ops.map ROp.act) first = some (j, xs) →
      ∃ s' r, reader B P s first last nbuffers ndisks mdev rqs mem e ops = some (s', r, xs) ∧ Hist B P alloc s' A ∧
        Rd.size (⟨s'.vec.bids, ⟨mem, s'.disk, rqs⟩, first, last, nbuffers, ndisks, mdev⟩ : Cfg α) r = last - j ∧
        Rd.empty (⟨s'.vec.bids, ⟨mem, s'.disk, rqs⟩, first, last, nbuffers, ndisks, mdev⟩ : Cfg α) r = decide (j = last) := by
  have hi := hist_inv hB hP hal h
  obtain ⟨s', f1, f2, f3, f4⟩ := flush_inv hi.inv
  refine ⟨fun i => s'.disk (s'.vec.bids.getD (i / B) 0) (i % B), fun i v hv => flushed_elem hi f1 hv, ?_⟩
  intro ops j xs ho hs
  have hok : Ok B (⟨s'.vec.bids, ⟨mem, s'.disk, rqs⟩, first, last, nbuffers, ndisks, mdev⟩ : Cfg α) := ⟨hB, hr, hnd, fun i r hp => hq r (List.mem_of_getElem? hp.1) hp.2⟩
  obtain ⟨r1, g1, g2⟩ := rewind_ok hok (e := e) he ⟨0, none⟩
  obtain ⟨r2, g3, g4⟩ := runF_ok hok ops r1 first j xs g2 ho hs
  refine ⟨s', r2, ?_, .step s s' A .flush none h trivial (by simp [step, f1]), ?_, ?_⟩
  · unfold reader
    rw [f1]
    dsimp only
    rw [g1]
    dsimp only
    rw [g3]
    rfl
  · simp only [Rd.size]; rw [g4.1]
  · simp only [Rd.empty]; rw [g4.1]

/-- **C73** The reverse reader, in the same generality: it delivers the elements of the range from the last to the first. -/
theorem C73_reverse (hB : 0 < B) (hP : 0 < P) {alloc : Sys α → Nat → List Nat} (hal : Allocator B alloc) {s : Sys α} {A}
    (h : Hist B P alloc s A) (first last nbuffers ndisks mdev : Nat) (rqs : List Rq) (mem : Nat → Nat → α) (e : Env)
    (hr : first ≤ last) (_hin : last ≤ s.vec.size) (hnd : 1 ≤ ndisks) (hq : ∀ r ∈ rqs, r.st ≠ .pending) (he : e.Ok mdev) :
    ∃ f : Nat → α, (∀ (i : Nat) (v : α), A[i]? = some (some v) → f i = v) ∧
      ∀ (ops : List ROp) (j : Nat) (xs : List α), (∀ o ∈ ops, o.Ok mdev) → readDown f first last (ops.map ROp.act) last = some (j, xs) →
      ∃ s' r, readerR B P s first last nbuffers ndisks mdev rqs mem e ops = some (s', r, xs) ∧ Hist B P alloc s' A ∧
        Rd.sizeR (⟨s'.vec.bids, ⟨mem, s'.disk, rqs⟩, first, last, nbuffers, ndisks, mdev⟩ : Cfg α) r = j - first ∧
        Rd.emptyR (⟨s'.vec.bids, ⟨mem, s'.disk, rqs⟩, first, last, nbuffers, ndisks, mdev⟩ : Cfg α) r = decide (j = first) := by
  have hi := hist_inv hB hP hal h
  obtain ⟨s', f1, f2, f3, f4⟩ := flush_inv hi.inv
  refine ⟨fun i => s'.disk (s'.vec.bids.getD (i / B) 0) (i % B), fun i v hv => flushed_elem hi f1 hv, ?_⟩
  intro ops j xs ho hs
  have hok : Ok B (⟨s'.vec.bids, ⟨mem, s'.disk, rqs⟩, first, last, nbuffers, ndisks, mdev⟩ : Cfg α) := ⟨hB, hr, hnd, fun i r hp => hq r (List.mem_of_getElem? hp.1) hp.2⟩
  obtain ⟨r1, g1, g2⟩ := rewindR_ok hok (e := e) he ⟨0, none⟩
  obtain ⟨r2, g3, g4⟩ := runR_ok hok ops r1 last j xs g2 ho hs
  refine ⟨s', r2, ?_, .step s s' A .flush none h trivial (by simp [step, f1]), ?_, ?_⟩
  · unfold readerR
    rw [f1]
    dsimp only
    rw [g1]
    dsimp only
    rw [g3]
    rfl
  · simp only [Rd.sizeR]; rw [g4.1]
  · simp only [Rd.emptyR]; rw [g4.1]

theorem readUp_all (f : Nat → α) (first last : Nat) : ∀ (n i : Nat), i + n ≤ last →
    readUp f first last (List.replicate n .get) i = some (i + n, (List.range' i n).map f) := by
  intro n
  induction n with
  | zero => intros; rfl
  | succ n ih =>
    intro i hi
    rw [List.replicate_succ, readUp, if_pos (by omega), ih (i + 1) (by omega)]
    simp [List.range'_succ, Nat.add_assoc, Nat.add_comm 1]

theorem readDown_all (f : Nat → α) (first last : Nat) : ∀ (n i : Nat), first + n ≤ i →
    readDown f first last (List.replicate n .get) i = some (i - n, ((List.range' (i - n) n).map f).reverse) := by
  intro n
  induction n with
  | zero => intros; rfl
  | succ n ih =>
    intro i hi
    rw [List.replicate_succ, readDown, if_pos (by omega), ih (i - 1) (by omega)]
    have e : i - (n + 1) = i - 1 - n := by omega
    rw [e, List.range'_concat]
    simp only [Option.map_some, List.map_append, List.map_cons, List.map_nil, List.reverse_append, List.reverse_cons, List.reverse_nil,
      List.nil_append, List.cons_append, Nat.one_mul]
    rw [show i - 1 - n + n = i - 1 by omega]

theorem range_vals {A : List (Option α)} {xs : List α} (f : Nat → α) (first : Nat) (hf : ∀ (i : Nat) (v : α), A[i]? = some (some v) → f i = v)
    (hA : ∀ k x, xs[k]? = some x → A[first + k]? = some (some x)) : (List.range' first xs.length).map f = xs := by
  apply List.ext_getElem?
  intro k
  rw [List.getElem?_map]
  by_cases hk : k < xs.length
  · rw [List.getElem?_range' hk, List.getElem?_eq_getElem hk]
    simp only [Option.map_some, Nat.one_mul, Option.some.injEq]
    exact hf _ _ (hA k _ (List.getElem?_eq_getElem hk))
  · rw [List.getElem?_eq_none (by simpa using hk), List.getElem?_eq_none (by omega)]; rfl

/-- **C73, C74, round trip** What a buffered writer wrote, a buffered reader of that range reads, and a reverse reader reads reversed. -/
theorem C74_round_trip (hB : 0 < B) (hP : 0 < P) {alloc : Sys α → Nat → List Nat} (hal : Allocator B alloc) {s : Sys α} {A}
    (h : Hist B P alloc s A) (junk : Nat) (ch fch : Nat → WCh α) (hv : ∀ i, (ch i).victim < s.vec.npages) (b : Nat) (xs : List α)
    (hl : WLegal B P s A b xs.length) (nbuffers ndisks mdev : Nat) (rqs : List Rq) (mem : Nat → Nat → α) (e : Env) (hnd : 1 ≤ ndisks)
    (hq : ∀ r ∈ rqs, r.st ≠ .pending) (he : e.Ok mdev) (srv : Nat → List Nat × List Nat) :
    ∃ s', bufWrite B P alloc junk ch fch s b xs = some s' ∧
      (∃ t r, reader B P s' b (b + xs.length) nbuffers ndisks mdev rqs mem e ((List.range xs.length).map fun k => .get (srv k).1 (srv k).2) =
        some (t, r, xs)) ∧
      (∃ t r, readerR B P s' b (b + xs.length) nbuffers ndisks mdev rqs mem e ((List.range xs.length).map fun k => .get (srv k).1 (srv k).2) =
        some (t, r, xs.reverse)) := by
  obtain ⟨s', h1, h2, hsz⟩ := C74_writer hB hP hal h junk ch fch hv b xs hl
  have hbl : b ≤ A.length := by rw [(hist_inv hB hP hal h).inv.len]; exact hl.inside
  have hA : ∀ (k : Nat) x, xs[k]? = some x → (writeAt A b xs)[b + k]? = some (some x) := by
    intro k x hx
    have hk := (List.getElem?_eq_some_iff.1 hx).1
    unfold writeAt
    rw [List.append_assoc, List.getElem?_append_right (by simp), List.getElem?_append_left (by simp; omega)]
    rw [List.getElem?_map, show b + k - (A.take b).length = k by simp; omega, hx]; rfl
  have hm : ((List.range xs.length).map fun k => ROp.get (srv k).1 (srv k).2).map ROp.act = List.replicate xs.length .get := by
    rw [List.map_map]
    apply List.ext_getElem?
    intro k
    rw [List.getElem?_map, List.getElem?_replicate]
    by_cases hk : k < xs.length
    · rw [List.getElem?_range hk, if_pos hk]; rfl
    · rw [List.getElem?_eq_none (by simpa using hk), if_neg hk]; rfl
  have hok : ∀ o ∈ (List.range xs.length).map (fun k => ROp.get (srv k).1 (srv k).2), o.Ok mdev := by
    intro o ho
    obtain ⟨k, _, rfl⟩ := List.mem_map.1 ho
    trivial
  refine ⟨s', h1, ?_, ?_⟩
  · obtain ⟨f, f1, f2⟩ := C73_forward hB hP hal h2 b (b + xs.length) nbuffers ndisks mdev rqs mem e (by omega) (by rw [hsz]; omega) hnd hq he
    have := readUp_all f b (b + xs.length) xs.length b (Nat.le_refl _)
    rw [range_vals f b f1 hA, ← hm] at this
    obtain ⟨t, r, g, _⟩ := f2 _ _ _ hok this
    exact ⟨t, r, g⟩
  · obtain ⟨f, f1, f2⟩ := C73_reverse hB hP hal h2 b (b + xs.length) nbuffers ndisks mdev rqs mem e (by omega) (by rw [hsz]; omega) hnd hq he
    have := readDown_all f b (b + xs.length) xs.length (b + xs.length) (Nat.le_refl _)
    rw [Nat.add_sub_cancel, range_vals f b f1 hA, ← hm] at this
    obtain ⟨t, r, g, _⟩ := f2 _ _ _ hok this
    exact ⟨t, r, g⟩

/-! ## C75: where growing loses data -/

namespace Ex

/-- Ids after the largest one in use. -/
def al (B : Nat) (s : Sys Nat) (n : Nat) : List Nat := List.range' (s.vec.bids.foldl max 0 + 1) (divCeil n B - s.vec.bids.length)

def ch : Nat → WCh Nat := fun _ => ⟨[], 0, fun _ => 777⟩

/-- A new vector of `n` elements with a cache of two pages. -/
def mk (B P n : Nat) : Sys Nat := newVec B P n 2 (List.range' 1 (divCeil n B)) (fun _ => 0) (fun _ _ => 999) (fun _ _ => 888)

/-- Write `xs` from position `b` on, then read everything back by random access. -/
def trip (B P n b : Nat) (xs : List Nat) : Option (List (Option Nat)) :=
  (bufWrite B P (al B) 0 ch ch (mk B P n) b xs).map fun s => (List.range s.vec.size).map fun i => (constElement B P s i 0).map (·.2)

theorem foldl_max (l : List Nat) : ∀ m : Nat, m ≤ l.foldl max m ∧ ∀ x ∈ l, x ≤ l.foldl max m := by
  induction l with
  | nil => intro m; simp
  | cons a l ih =>
    intro m
    obtain ⟨h1, h2⟩ := ih (max m a)
    refine ⟨by simp only [List.foldl_cons]; omega, fun x hx => ?_⟩
    simp only [List.foldl_cons]
    rcases List.mem_cons.1 hx with rfl | hx
    · omega
    · exact h2 x hx

theorem al_ok (B : Nat) : Allocator B (al B) := by
  intro s n _ _
  refine ⟨by simp [al], List.nodup_range', ?_⟩
  intro b hb hm
  have := (foldl_max s.vec.bids 0).2 b hm
  simp only [al, List.mem_range'] at hb
  obtain ⟨i, _, hi⟩ := hb
  omega

theorem mk_hist (B P n : Nat) : Hist B P (al B) (mk B P n) (List.replicate n none) :=
  .vec _ _ (.new n 2 _ _ _ _ (by omega) (by simp) List.nodup_range')

/-- Non-vacuity of C74: eleven values written into an empty vector with blocks of two elements and pages of four blocks make it grow from 0 to
4, 8 and 16 elements, and it ends with 11. -/
example : WLegal 2 4 (mk 2 4 0) (List.replicate 0 none) 0 (List.range 11).length :=
  ⟨by decide, fun _ => ⟨by decide, by decide, fun h => absurd h (by decide)⟩⟩
example : trip 2 4 0 0 (List.range 11) = some ((List.range 11).map some) := by decide +kernel
/-- Overwriting from the middle of a block to the middle of a block. -/
example : WLegal 3 2 (mk 3 2 7) (List.replicate 7 none) 2 3 := ⟨by decide, fun h => absurd h (by decide)⟩
example : (trip 3 2 7 2 [1, 2, 3]).map (fun l => (l.drop 2).take 3) = some [some 1, some 2, some 3] := by decide +kernel

/-- Non-vacuity of C73: a vector of seven elements on a file, and a history of reads and one `rewind` of the range from 1 to 6; both readers
run. -/
def fileVec : Sys Nat := newFromFile 2 2 7 2 (fun _ => 0) (fun _ _ => 999) (fun b k => 100 + 2 * b + k)
def env : Env := ⟨fun b => some (b % 2), fun _ => true, fun _ => 0, [], fun _ => ([], [])⟩
def hist : List ROp := [.get [] [], .get [0] [], .rewind env, .get [] [1], .get [] [], .get [] [], .get [] [], .get [] []]
theorem fileHist : Hist 2 2 (al 2) fileVec ((List.range 7).map fun i => some (100 + 2 * (i / 2) + i % 2)) := .vec _ _ (.file 7 2 _ _ _ (by decide))
theorem env_ok : env.Ok 1 := by
  intro b d h
  simp only [env, Option.some.injEq] at h
  omega
theorem hist_ok : ∀ o ∈ hist, o.Ok 1 := by
  intro o ho
  simp only [hist, List.mem_cons, List.not_mem_nil, or_false] at ho
  rcases ho with rfl | rfl | rfl | rfl | rfl | rfl | rfl | rfl <;> first | trivial | exact env_ok
example : ∃ s' r, reader 2 2 fileVec 1 6 4 2 1 [] (fun _ _ => 0) env hist = some (s', r, [101, 102, 101, 102, 103, 104, 105]) := by
  obtain ⟨f, f1, f2⟩ := C73_forward (by decide) (by decide) (al_ok 2) fileHist 1 6 4 2 1 [] (fun _ _ => 0) env (by decide) (by decide) (by decide)
    (by simp) env_ok
  have e : ∀ i, i < 7 → f i = 100 + 2 * (i / 2) + i % 2 := fun i hi => f1 i _ (by simp [hi])
  obtain ⟨s', r, h, _⟩ := f2 hist 6 [101, 102, 101, 102, 103, 104, 105] hist_ok (by simp [hist, ROp.act, readUp, e])
  exact ⟨s', r, h⟩
example : ∃ s' r, readerR 2 2 fileVec 1 6 4 2 1 [] (fun _ _ => 0) env hist = some (s', r, [105, 104, 105, 104, 103, 102, 101]) := by
  obtain ⟨f, f1, f2⟩ := C73_reverse (by decide) (by decide) (al_ok 2) fileHist 1 6 4 2 1 [] (fun _ _ => 0) env (by decide) (by decide) (by decide)
    (by simp) env_ok
  have e : ∀ i, i < 7 → f i = 100 + 2 * (i / 2) + i % 2 := fun i hi => f1 i _ (by simp [hi])
  obtain ⟨s', r, h, _⟩ := f2 hist 1 [105, 104, 105, 104, 103, 102, 101] hist_ok (by simp [hist, ROp.act, readDown, e])
  exact ⟨s', r, h⟩

end Ex

/-- **C75** With pages of one block a growing writer loses data: five values written into an empty vector with blocks of two elements; the session
completes, the size is right, but elements 2 and 3 are not what was written. -/
theorem C75_growth_loses_data_one_block_pages :
    ∃ s', bufWrite 2 1 (Ex.al 2) 0 Ex.ch Ex.ch (Ex.mk 2 1 0) 0 [10, 11, 12, 13, 14] = some s' ∧ s'.vec.size = 5 ∧
      (constElement 2 1 s' 1 0).map (·.2) = some 11 ∧ (constElement 2 1 s' 2 0).map (·.2) ≠ some 12 ∧
      (constElement 2 1 s' 3 0).map (·.2) ≠ some 13 := by
  have h : (bufWrite 2 1 (Ex.al 2) 0 Ex.ch Ex.ch (Ex.mk 2 1 0) 0 [10, 11, 12, 13, 14]).any (fun s' => decide (s'.vec.size = 5 ∧
      (constElement 2 1 s' 1 0).map (·.2) = some 11 ∧ (constElement 2 1 s' 2 0).map (·.2) ≠ some 12 ∧
      (constElement 2 1 s' 3 0).map (·.2) ≠ some 13)) = true := by decide +kernel
  obtain ⟨s', h1, h2⟩ := (Option.any_eq_true _ _).1 h
  exact ⟨s', h1, of_decide_eq_true h2⟩

/-- **C75** With pages of two blocks it happens if the vector has exactly one block: the whole first page is lost. -/
theorem C75_growth_loses_data_two_block_pages :
    ∃ s', bufWrite 2 2 (Ex.al 2) 0 Ex.ch Ex.ch (Ex.mk 2 2 2) 0 [10, 11, 12, 13, 14] = some s' ∧ s'.vec.size = 5 ∧
      ∀ i < 4, (constElement 2 2 s' i 0).map (·.2) ≠ some (10 + i) := by
  have h : (bufWrite 2 2 (Ex.al 2) 0 Ex.ch Ex.ch (Ex.mk 2 2 2) 0 [10, 11, 12, 13, 14]).any (fun s' => decide (s'.vec.size = 5 ∧
      ∀ i < 4, (constElement 2 2 s' i 0).map (·.2) ≠ some (10 + i))) = true := by decide +kernel
  obtain ⟨s', h1, h2⟩ := (Option.any_eq_true _ _).1 h
  exact ⟨s', h1, of_decide_eq_true h2⟩

/-- **C75** With any page size it happens if the writer starts at the last block of the vector, that block is the last one of its page, and nothing
was assigned to the page before; here pages of three blocks. -/
theorem C75_growth_loses_data_last_block :
    ∃ s', bufWrite 2 3 (Ex.al 2) 0 Ex.ch Ex.ch (Ex.mk 2 3 6) 4 [10, 11, 12] = some s' ∧ s'.vec.size = 7 ∧
      (constElement 2 3 s' 4 0).map (·.2) ≠ some 10 ∧ (constElement 2 3 s' 5 0).map (·.2) ≠ some 11 := by
  have h : (bufWrite 2 3 (Ex.al 2) 0 Ex.ch Ex.ch (Ex.mk 2 3 6) 4 [10, 11, 12]).any (fun s' => decide (s'.vec.size = 7 ∧
      (constElement 2 3 s' 4 0).map (·.2) ≠ some 10 ∧ (constElement 2 3 s' 5 0).map (·.2) ≠ some 11)) = true := by decide +kernel
  obtain ⟨s', h1, h2⟩ := (Option.any_eq_true _ _).1 h
  exact ⟨s', h1, of_decide_eq_true h2⟩

end Stxxl.VecBuf
