import Verif.BufStream.Streams

/-!
# C28: buffered block streams

`Pend io i r` says that request `i` is outstanding. All the choices the disk threads, the polling loops, `wait_any` and the priority queue
make are arguments (`ch`, `srv`, `tie`, `junk`) and arbitrary.
-/

namespace Stxxl.BufStream
open Stxxl.Io Stxxl.Io.Io
open Stxxl.ExtVector (upd upd_same upd_ne)

variable {α : Type}

/-- Writing records through `buf_ostream`: open, `<<` each record, `fill`, destroy. -/
def writeStream (offs bl : Nat → Nat) (B : Nat) (c0 : Ch) (c1 c2 : Nat → Ch) (c3 : Ch) (io : Io (Nat → α)) (nb : Nat) (xs : List α) (pad : α) :
    Option (Io (Nat → α)) :=
  match Os.new c0 io nb with
  | none => none
  | some s =>
    match Os.putAll offs bl B c1 xs s with
    | none => none
    | some s =>
      match Os.fill offs bl B c2 pad B s with
      | none => none
      | some s => Os.close c3 s

/-- Reading `n` records through `buf_istream`: open, `>>` `n` times. -/
def readStream (bl : Nat → Nat) (B : Nat) (dev : Schedule.Disks) (junk : Nat → Bool) (tie : Nat → Nat) (srv : List Nat)
    (srvs : Nat → List Nat × List Nat) (io : Io (Nat → α)) (len ndisks mdev nb n : Nat) : Option (List α) :=
  match Is.new bl dev junk tie srv io len ndisks mdev nb with
  | none => none
  | some (s, seq) => (Is.getAll bl seq B srvs n s).map (·.2)

/-- **C28, writing.** Whatever the number of buffers (`nb`, possibly 0) and the completion schedule, the stream never blocks forever, and
after it is destroyed record `k * B + i` is record `i` of the `k`-th block; blocks that are not in the list of bids have not changed. The last block
is padded with `pad`. -/
theorem C28_write (offs bl : Nat → Nat) (B : Nat) (c0 : Ch) (c1 c2 : Nat → Ch) (c3 : Ch) (io : Io (Nat → α)) (nb N : Nat) (xs : List α) (pad : α)
    (hB : 1 ≤ B) (hio : ∀ i r, ¬ Pend io i r) (hbl : Distinct bl N) (hN : xs.length ≤ N * B) :
    ∃ io' k, writeStream offs bl B c0 c1 c2 c3 io nb xs pad = some io' ∧ k < B ∧ B ∣ xs.length + k ∧
      (∀ j < xs.length + k, (xs ++ List.replicate k pad)[j]? = some (io'.disk (bl (j / B)) (j % B))) ∧
      (∀ bid, (∀ j, j * B < xs.length → bid ≠ bl j) → io'.disk bid = io.disk bid) ∧ (∀ i r, ¬ Pend io' i r) := by
  unfold writeStream
  obtain ⟨s0, a1, a2⟩ := onew_ok (bl := bl) io hio hB c0 nb
  rw [a1]; dsimp only
  obtain ⟨s1, log1, b1, b2⟩ := putAll_ok (offs := offs) c1 hbl xs [] s0 [] a2 (by simpa using hN)
  rw [b1]; dsimp only
  rw [List.nil_append] at b2
  obtain ⟨s2, log2, k, d1, d2, d3, d4⟩ := fill_ok (offs := offs) c2 hbl pad B xs s1 log1 b2 hN (by omega)
  rw [d1]; dsimp only
  obtain ⟨io', e1, e2, e3, e4⟩ := close_ok c3 d2 d3
  have hlen := d2.len
  rw [d3, List.length_append, List.length_replicate, Nat.add_zero] at hlen
  refine ⟨io', k, e1, d4, ⟨s2.pos, by rw [hlen, Nat.mul_comm]⟩, ?_, ?_, e4⟩
  · intro j hj
    have hq : j / B < s2.pos := by
      apply Nat.div_lt_of_lt_mul; rw [Nat.mul_comm]; omega
    have := e2 (j / B) hq (j % B) (Nat.mod_lt _ hB)
    rw [show j / B * B + j % B = j by rw [Nat.mul_comm]; exact Nat.div_add_mod j B] at this
    exact this
  · intro bid hb
    refine e3 bid (fun j hj => hb j ?_)
    have h1 : (j + 1) * B ≤ s2.pos * B := Nat.mul_le_mul_right _ hj
    rw [Nat.succ_mul] at h1
    omega

/-- **C28, reading.** Reading the blocks of a quiescent disk yields their records in order, for every number of buffers, every assignment of blocks
to devices, and every completion schedule; in particular it never blocks forever and never fails an assertion. -/
theorem C28_read (bl : Nat → Nat) (B : Nat) (dev : Schedule.Disks) (junk : Nat → Bool) (tie : Nat → Nat) (srv : List Nat)
    (srvs : Nat → List Nat × List Nat) (io : Io (Nat → α)) (len ndisks mdev nb n : Nat) (hB : 1 ≤ B) (hlen : 0 < len) (hnd : 1 ≤ ndisks)
    (hio : ∀ i r, ¬ Pend io i r) (hdev : ∀ b < len, ∀ d, dev b = some d → d ≤ mdev) (hn : n ≤ len * B) :
    readStream bl B dev junk tie srv srvs io len ndisks mdev nb n = some ((List.range n).map fun t => io.disk (bl (t / B)) (t % B)) := by
  unfold readStream
  obtain ⟨s, seq, h1, h2, h3, h4⟩ := inew_ok (bl := bl) (B := B) dev junk tie srv io hio len ndisks mdev nb hlen hB hnd hdev
  rw [h1]; dsimp only
  obtain ⟨s', h5⟩ := getAll_ok h2 h3 hB srvs n s 0 0 h4 (by omega)
  rw [h5]
  simp

/-- **C28, round trip.** What is written with `buf_ostream` is read back with `buf_istream`. -/
theorem C28_round_trip (offs bl : Nat → Nat) (B : Nat) (c0 : Ch) (c1 c2 : Nat → Ch) (c3 : Ch) (io : Io (Nat → α)) (wb : Nat) (xs : List α) (pad : α)
    (dev : Schedule.Disks) (junk : Nat → Bool) (tie : Nat → Nat) (srv : List Nat) (srvs : Nat → List Nat × List Nat) (len ndisks mdev rb : Nat)
    (hB : 1 ≤ B) (hlen : 0 < len) (hnd : 1 ≤ ndisks) (hio : ∀ i r, ¬ Pend io i r) (hbl : Distinct bl len)
    (hdev : ∀ b < len, ∀ d, dev b = some d → d ≤ mdev) (hxs : xs.length ≤ len * B) :
    ∃ io', writeStream offs bl B c0 c1 c2 c3 io wb xs pad = some io' ∧
      readStream bl B dev junk tie srv srvs io' len ndisks mdev rb xs.length = some xs := by
  obtain ⟨io', k, h1, -, -, h2, -, h3⟩ := C28_write offs bl B c0 c1 c2 c3 io wb len xs pad hB hio hbl hxs
  refine ⟨io', h1, ?_⟩
  rw [C28_read bl B dev junk tie srv srvs io' len ndisks mdev rb xs.length hB hlen hnd h3 hdev hxs]
  congr 1
  apply List.ext_getElem?
  intro j
  by_cases hj : j < xs.length
  · have := h2 j (by omega)
    rw [List.getElem?_append_left hj] at this
    rw [this]
    simp [hj]
  · rw [List.getElem?_eq_none (by simpa using hj), List.getElem?_eq_none (by omega)]

/-- Histories of a client of `block_prefetcher` that may hold several blocks at a time (external sort holds one block per run). `held` lists the blocks
it holds, with their buffers. It asks for the next block only while it holds at most `bufs - m` other blocks. -/
inductive PRun (bl seq : Nat → Nat) (bufs m len : Nat) (io : Io (Nat → α)) : Pf (Nat → α) → List (Nat × Nat) → Prop
  | new {p} : Pf.new bl seq io len bufs = some p → PRun bl seq bufs m len io p []
  | serve {p held} (i : Nat) : PRun bl seq bufs m len io p held → PRun bl seq bufs m len io { p with io := p.io.serve i } held
  | pull {p held p' b} (srv : List Nat) : PRun bl seq bufs m len io p held → held.length + m ≤ bufs → p.nextconsume < len →
      Pf.pull srv p = some (p', b) → PRun bl seq bufs m len io p' ((p.nextconsume, b) :: held)
  | next {p held p' b x} (srv srv' : List Nat) : PRun bl seq bufs m len io p held → x ∈ held → held.length + m ≤ bufs + 1 →
      Pf.consumed bl seq srv srv' p x.2 = some (p', some b) → PRun bl seq bufs m len io p' ((p.nextconsume, b) :: held.erase x)
  | last {p held p' x} (srv srv' : List Nat) : PRun bl seq bufs m len io p held → x ∈ held → held.length + m ≤ bufs + 1 →
      Pf.consumed bl seq srv srv' p x.2 = some (p', none) → PRun bl seq bufs m len io p' (held.erase x)

theorem prun_inv {bl seq : Nat → Nat} {bufs m len : Nat} {io : Io (Nat → α)} (hio : ∀ i r, ¬ Pend io i r) (hs : SeqOk seq len)
    (hsq : ∀ k < len, ∃ j < min (k + m) len, seq j = k) (hl : 0 < len) (hb : 0 < bufs) {p : Pf (Nat → α)} {held : List (Nat × Nat)}
    (h : PRun bl seq bufs m len io p held) : ∃ ready, PInv bl seq bufs io.disk p held ready ∧ PCnt p held ∧ p.len = len := by
  induction h with
  | new h =>
    obtain ⟨p, ready, h1, h2, h3, -, h5⟩ := PInv.new (bl := bl) io hio len hs hl hb
    rw [h] at h1; cases h1
    exact ⟨ready, h2, h3, h5⟩
  | serve i h ih =>
    obtain ⟨ready, h1, h2, h3⟩ := ih
    exact ⟨ready, h1.serve i, ⟨h2.hl, h2.cnt⟩, h3⟩
  | pull srv h hh hk hp ih =>
    obtain ⟨ready, h1, h2, h3⟩ := ih
    obtain ⟨p', b, ready', f1, f2, f3, f4, f5⟩ := h1.pull h2 (m := m) (by rw [h3]; exact hsq) hh (by omega) srv
    unfold Pf.pull at hp
    rw [hp] at f1; cases f1
    exact ⟨ready', f2, f3, f5.trans h3⟩
  | next srv srv' h hx hh hp ih =>
    obtain ⟨ready, h1, h2, h3⟩ := ih
    rcases h1.consumed (by rw [h3]; exact hs) h2 (m := m) (by rw [h3]; exact hsq) _ hx hh srv srv' with
      ⟨-, p', b, ready', f1, f2, f3, -, f5⟩ | ⟨-, p', ready', f1, f2, f3, -, f5⟩
    · rw [hp] at f1; cases f1; exact ⟨ready', f2, f3, f5.trans h3⟩
    · rw [hp] at f1; cases f1
  | last srv srv' h hx hh hp ih =>
    obtain ⟨ready, h1, h2, h3⟩ := ih
    rcases h1.consumed (by rw [h3]; exact hs) h2 (m := m) (by rw [h3]; exact hsq) _ hx hh srv srv' with
      ⟨-, p', b, ready', f1, f2, f3, -, f5⟩ | ⟨-, p', ready', f1, f2, f3, -, f5⟩
    · rw [hp] at f1; cases f1
    · rw [hp] at f1; cases f1; exact ⟨ready', f2, f3, f5.trans h3⟩

/-- **C28 / C27, several blocks in use.** Let the schedule have been computed for `m` buffers (any list of blocks as in C26 and C27). In every
history, the blocks the client holds keep their contents and are in different buffers, and giving one of them back while holding at most
`bufs - m + 1` never blocks forever: the client gets the next block of the sequence, unless there is none left. -/
theorem C28_prefetcher_never_blocks {bl seq : Nat → Nat} {bufs m len : Nat} {io : Io (Nat → α)} (hio : ∀ i r, ¬ Pend io i r)
    (hs : ∀ j < len, seq j < len) (hinj : ∀ i < len, ∀ j < len, seq i = seq j → i = j)
    (hsq : ∀ k < len, ∃ j < min (k + m) len, seq j = k) (hl : 0 < len) (hb : 0 < bufs) {p : Pf (Nat → α)} {held : List (Nat × Nat)}
    (h : PRun bl seq bufs m len io p held) :
    (∀ x ∈ held, p.io.mem x.2 = io.disk (bl x.1)) ∧ (held.map Prod.snd).Nodup ∧
    (∀ x ∈ held, held.length + m ≤ bufs + 1 → ∀ srv srv', ∃ p',
      if p.nextconsume < len then ∃ b, Pf.consumed bl seq srv srv' p x.2 = some (p', some b) ∧ p'.io.mem b = io.disk (bl p.nextconsume)
      else Pf.consumed bl seq srv srv' p x.2 = some (p', none)) := by
  obtain ⟨ready, h1, h2, h3⟩ := prun_inv hio ⟨hs, hinj⟩ hsq hl hb h
  refine ⟨h1.hld, ?_, ?_⟩
  · have := h1.nd
    rw [List.map_append] at this
    exact (List.nodup_append.mp this).1
  · intro x hx hh srv srv'
    rcases h1.consumed (by rw [h3]; exact ⟨hs, hinj⟩) h2 (m := m) (by rw [h3]; exact hsq) x hx hh srv srv' with
      ⟨hlt, p', b, ready', f1, f2, f3, -, f5⟩ | ⟨hlt, p', ready', f1, f2, f3, -, f5⟩
    · exact ⟨p', by rw [if_pos (by omega)]; exact ⟨b, f1, f2.hld (p.nextconsume, b) (by simp)⟩⟩
    · exact ⟨p', by rw [if_neg (by omega)]; exact f1⟩

/-- A client that holds two blocks: five blocks, three buffers, schedule for one buffer. -/
example : ∃ p held, PRun (α := Nat) (fun k => k + 7) (fun k => k) 3 1 5 ⟨fun _ _ => 0, fun b i => b + i, []⟩ p held ∧ held.length = 2 :=
  ⟨_, _, PRun.pull [1] (PRun.pull [] (PRun.new rfl) (by decide) (by decide) rfl) (by decide) (by decide) rfl, rfl⟩

/-! ## What goes wrong outside the hypotheses -/

/-- A `buffered_writer` whose batch is as large as its buffer pool deadlocks: after as many `write`s as there are buffers all of them wait in the
batch, none is being written, and `get_free_block` waits for nothing. Here two buffers and a batch of two. -/
theorem C28_batch_as_large_as_pool_deadlocks (io : Io (Nat → α)) (offs : Nat → Nat) (c0 c1 c2 : Ch) (hio : io.rqs = []) :
    ∃ w w' b b', getFree c0.srv c0.pick c0.c (W.new io 2 2) = some (w, b) ∧ write offs c1 w b 0 = some (w', b') ∧
      write offs c2 w' b' 1 = none := by
  have hsv : ∀ l, io.serveAll l = io := by
    intro l
    induction l with
    | nil => rfl
    | cons i l ih =>
      have : io.serve i = io := by unfold Io.serve; rw [hio]; rfl
      show (io.serve i).serveAll l = io
      rw [this]; exact ih
  have hp : ∀ pick (w : W (Nat → α)), w.busy = [] → pollLoop pick w = some w := by
    intro pick w hw
    unfold pollLoop
    cases pick with
    | none => rfl
    | some k => dsimp only; rw [hw]; rfl
  refine ⟨{ W.new io 2 2 with free := [0] }, { W.new io 2 2 with free := [], bids := upd (fun _ => 0) 1 0, batch := [(offs 0, 1)] }, 1, 0, ?_, ?_, ?_⟩
  · unfold getFree
    rw [hp _ _ rfl]
    simp [W.new, hsv, List.range_succ]
  · unfold write
    rw [if_neg (by simp [W.new])]
    dsimp only
    unfold getFree
    rw [hp _ _ rfl]
    simp [W.new, hsv]
  · unfold write
    rw [if_neg (by simp [W.new])]
    dsimp only
    unfold getFree
    rw [hp _ _ rfl]
    simp [W.new]

/-- `buffered_writer::flush` declares all buffers free, also the one its client holds: the next `get_free_block` may return that same buffer. -/
theorem C28_flush_forgets_held_block (io : Io (Nat → α)) (c0 c1 c2 : Ch) (hio : io.rqs = []) :
    ∃ w w' w'' b, getFree c0.srv c0.pick c0.c (W.new io 2 1) = some (w, b) ∧ flush c1 w = some w' ∧ getFree c2.srv c2.pick c2.c w' = some (w'', b) := by
  have hsv : ∀ l, io.serveAll l = io := by
    intro l
    induction l with
    | nil => rfl
    | cons i l ih =>
      have : io.serve i = io := by unfold Io.serve; rw [hio]; rfl
      show (io.serve i).serveAll l = io
      rw [this]; exact ih
  have hp : ∀ pick (w : W (Nat → α)), w.busy = [] → pollLoop pick w = some w := by
    intro pick w hw
    unfold pollLoop
    cases pick with
    | none => rfl
    | some k => dsimp only; rw [hw]; rfl
  refine ⟨{ W.new io 2 1 with free := [0] }, W.new io 2 1, { W.new io 2 1 with free := [0] }, 1, ?_, ?_, ?_⟩
  · unfold getFree
    rw [hp _ _ rfl]
    simp [W.new, hsv, List.range_succ]
  · unfold flush
    simp [W.new, flushBatch, waitBusy, hsv]
  · unfold getFree
    rw [hp _ _ rfl]
    simp [W.new, hsv, List.range_succ]

/-- Ten records in blocks of three, two devices, two write buffers: the hypotheses hold. -/
example : ∃ io', writeStream (fun b => b / 2) (fun k => k + 5) 3 ⟨fun _ => ([], 0), [], none, 0⟩ (fun k => ⟨fun _ => ([k], 1), [0], some 0, k⟩)
      (fun _ => ⟨fun _ => ([], 0), [], none, 0⟩) ⟨fun _ => ([3, 1], 0), [2], none, 0⟩ ⟨fun _ _ => 0, fun _ _ => 0, []⟩ 2
      [10, 11, 12, 13, 14, 15, 16, 17, 18, 19] 99 = some io' ∧
    readStream (fun k => k + 5) 3 (fun k => some (k % 2)) (fun _ => true) id [1] (fun k => ([k], [])) io' 4 2 1 4 10 =
      some [10, 11, 12, 13, 14, 15, 16, 17, 18, 19] :=
  C28_round_trip _ _ 3 _ _ _ _ _ 2 [10, 11, 12, 13, 14, 15, 16, 17, 18, 19] 99 _ _ _ _ _ 4 2 1 4 (by decide) (by decide) (by decide)
    (by intro i r h; simp [Pend] at h) (by intro i _ j _ h; dsimp only at h; omega) (by intro b _ d h; simp at h; omega) (by decide)

end Stxxl.BufStream
