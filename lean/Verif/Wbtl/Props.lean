import Verif.Wbtl.Step

/-!
# C36: the write-buffered translation layer is a transparent file

`Spec.lean` holds the specification: `Spec.step` (what each call should do), `Legal` (how the file is used),
`OutOk`/`Conforms` (what the caller may see).
-/

namespace Stxxl.Wbtl

open Stxxl.DiskAlloc (Covers)

variable {β : Type}

/-- C36. In every history of legal writes, reads, discards and size changes, whatever the initial contents of
the buffers and the backend, however the asynchronous backend writes advance in between and whatever
discarding does to the backend's contents, every read returns what was last written there, no call fails an
assertion or reports a double deallocation, and a write fails at most for lack of space (up to the first such
failure). -/
theorem C36_history (c : Cfg) (hW : 0 < c.W) (hE : 2 ∣ c.W) (mem : Bool → Int → β) (disk : Int → β)
    (ops : List (Op β)) (hl : LegalHist c.W Spec.init ops) :
    Conforms Spec.init ops (run c (init c mem disk) ops).2 :=
  run_conforms hW hE ops (init_inv c hW hE mem disk) hl

/-- C36. In every reachable state each written block has a physical place of its own inside the file, no two
blocks share a byte, and no byte of a block is on the free list. -/
theorem C36_places_disjoint (c : Cfg) (hW : 0 < c.W) (hE : 2 ∣ c.W) {sp : Spec β} {s : State β}
    (hr : Reach c sp s) {o1 : Int} {d1 : List β} (h1 : sp.cont o1 = some d1) :
    ∃ p1, s.amap o1 = some p1 ∧ 0 ≤ p1 ∧ p1 + d1.length ≤ sp.sz ∧
      (∀ x, p1 ≤ x → x < p1 + d1.length → ¬ Covers s.free x) ∧
      ∀ o2 d2, o2 ≠ o1 → sp.cont o2 = some d2 → ∃ p2, s.amap o2 = some p2 ∧
        (p1 + d1.length ≤ p2 ∨ p2 + d2.length ≤ p1) := by
  have I := reach_inv hW hE hr
  have hsome : ∀ {o d}, sp.cont o = some d → ∃ p, s.amap o = some p := by
    intro o d h
    rcases ha : s.amap o with _ | p
    · rw [(I.dom o).1 ha] at h; cases h
    · exact ⟨p, rfl⟩
  obtain ⟨p1, hp1⟩ := hsome h1
  have hb := I.pos o1 p1 d1 ⟨h1, hp1⟩
  have hz := I.szEq
  refine ⟨p1, hp1, by omega, by omega, I.nofree o1 p1 d1 ⟨h1, hp1⟩, ?_⟩
  intro o2 d2 hne h2
  obtain ⟨p2, hp2⟩ := hsome h2
  exact ⟨p2, hp2, I.disj o1 o2 p1 p2 d1 d2 ⟨h1, hp1⟩ ⟨h2, hp2⟩ (Ne.symm hne)⟩

/-- C36. No space is lost: in every reachable state each byte of the file is free, or belongs to a written
block, or to the unused rest of the current write buffer. -/
theorem C36_no_leak (c : Cfg) (hW : 0 < c.W) (hE : 2 ∣ c.W) {sp : Spec β} {s : State β} (hr : Reach c sp s)
    {x : Int} (h0 : 0 ≤ x) (hx : x < sp.sz) :
    Covers s.free x ∨
    (∃ off p d, sp.cont off = some d ∧ s.amap off = some p ∧ p ≤ x ∧ x < p + d.length) ∨
    (∃ a, s.addr s.cur = some a ∧ a + s.curpos ≤ x ∧ x < a + c.W) := by
  have I := reach_inv hW hE hr
  rcases I.cover x h0 (by rw [I.szEq]; exact hx) with h | ⟨o, p, d, hb, h1, h2⟩ | h
  · exact .inl h
  · exact .inr (.inl ⟨o, p, d, hb.1, hb.2, h1, h2⟩)
  · exact .inr (.inr h)

/-- C36. A write succeeds whenever the file has a stretch as long as a write buffer in which no other block
lies: a failure always means that the space is taken or fragmented by other blocks. -/
theorem C36_write_succeeds (c : Cfg) (hW : 0 < c.W) (hE : 2 ∣ c.W) {sp : Spec β} {s : State β}
    (hr : Reach c sp s) {off : Int} {d : List β} (g : Int → β) (hl : Legal c.W sp (.write off d g))
    {q : Int} (hq : 0 ≤ q) (hqz : q + c.W ≤ sp.sz)
    (hroom : ∀ o p e, o ≠ off → sp.cont o = some e → s.amap o = some p →
      p + e.length ≤ q ∨ q + c.W ≤ p) :
    (step c s (.write off d g)).2 = .done := by
  have I := reach_inv hW hE hr
  obtain ⟨l1, l2, l3, l4⟩ := hl
  rcases write_inv I hW hE l1 l2 l3 l4 g with ⟨h1, -⟩ | ⟨-, h2⟩
  · simp only [step]; rw [h1]; rfl
  · obtain ⟨o, p, e, h3, h4, h5, h6⟩ := h2 q hq (by rw [I.szEq]; exact hqz)
    have := hroom o p e h3 h4.1 h4.2
    omega

/-! ## Non-vacuity -/

/-- Blocks of 2 and 4 bytes, buffer of 4, file of 8: fills buffers, discards, overwrites, lets a buffer land
on the range of the buffer still being written. -/
def exOps : List (Op Nat) :=
  [.setSize 8, .write 0 [1, 2] (fun _ => 0), .write 10 [3, 4] (fun _ => 0), .read 0 2,
   .discard 0 2 (fun _ => 9), .discard 10 2 (fun _ => 9), .write 20 [5, 6, 7, 8] (fun _ => 0),
   .progress (fun x => x % 2 = 0), .read 20 4, .write 30 [1, 1] (fun _ => 0), .read 20 3,
   .write 30 [2, 2] (fun _ => 7), .finish, .read 30 2, .read 20 4, .discard 20 4 (fun _ => 3),
   .write 40 [6, 6, 6, 6] (fun _ => 0), .read 40 4, .read 30 2]

example : LegalHist 4 Spec.init exOps := by
  simp [LegalHist, Legal, Spec.step, Spec.init, exOps]

example : (run ⟨4, false⟩ (init ⟨4, false⟩ (fun _ _ => 0) (fun _ => 0)) exOps).2 =
    [.done, .done, .done, .got (.data [1, 2]), .done, .done, .done, .done, .got (.data [5, 6, 7, 8]), .done,
     .got (.data [5, 6, 7]), .done, .done, .got (.data [2, 2]), .got (.data [5, 6, 7, 8]), .done, .done,
     .got (.data [6, 6, 6, 6]), .got (.data [2, 2])] := by decide +kernel

/-- A reachable state with two blocks, one of them in the previous buffer. -/
example : ∃ (sp : Spec Nat) (s : State Nat), Reach ⟨4, false⟩ sp s ∧ sp.cont 20 = some [5, 6, 7, 8] ∧
    sp.cont 30 = some [1, 1] ∧ sp.sz = 8 := by
  have r0 : Reach ⟨4, false⟩ Spec.init (init ⟨4, false⟩ (fun _ _ => (0 : Nat)) (fun _ => 0)) := .init _ _
  have r1 := Reach.step (.setSize 8) r0 (by simp [Legal, Spec.init]) (by decide +kernel)
  have r2 := Reach.step (.write 20 [5, 6, 7, 8] (fun _ => 0)) r1 (by simp [Legal, Spec.init, Spec.step])
    (by decide +kernel)
  have r3 := Reach.step (.write 30 [1, 1] (fun _ => 0)) r2 (by simp [Legal, Spec.init, Spec.step])
    (by decide +kernel)
  exact ⟨_, _, r3, by simp [Spec.step], by simp [Spec.step], by simp [Spec.step]⟩

/-! ## Where the code falls short -/

/-- The visible results of a history on a file with write buffers of `W` bytes and zeroed memory. -/
def outs (W : Int) (ops : List (Op Nat)) : List (Out Nat) :=
  (run ⟨W, false⟩ (init ⟨W, false⟩ (fun _ _ => 0) (fun _ => 0)) ops).2

/-- C36, the code as it is: a write that fails for lack of space damages *another* block. `swrite` has already
switched the buffers (`wbtl_file.cpp:285`) when `get_next_write_block` throws, so the older buffer, whose
address may by now belong to a newer block, shadows it. -/
theorem C36_finding_failed_write_damages_other :
    outs 4 [.setSize 4, .write 0 [1, 2] (fun _ => 0), .write 2 [3, 4] (fun _ => 0), .discard 0 2 (fun _ => 0),
        .discard 2 2 (fun _ => 0), .write 0 [5, 6, 7, 8] (fun _ => 0), .read 0 4,
        .write 100 [9, 9] (fun _ => 0), .read 0 4]
      = [.done, .done, .done, .done, .done, .done, .got (.data [5, 6, 7, 8]), .exc .outOfSpace,
         .got (.data [1, 2, 3, 4])] := by decide +kernel

/-- C36, the code as it is: an overwrite that fails for lack of space has already thrown the old contents
away (`wbtl_file.cpp:262`), so the block is gone. -/
theorem C36_finding_failed_overwrite_loses_block :
    outs 4 [.setSize 8, .write 0 [1, 2] (fun _ => 0), .write 2 [3, 4] (fun _ => 0),
        .write 4 [5, 6] (fun _ => 0), .write 6 [7, 8] (fun _ => 0), .read 0 2, .write 0 [9, 9] (fun _ => 0),
        .read 0 2]
      = [.done, .done, .done, .done, .done, .got (.data [1, 2]), .exc .outOfSpace, .got .garbage] := by
  decide +kernel

/-- C36, the code as it is: half of the file is free and two bytes are wanted, but no stretch as long as a
write buffer is free, so the write fails. -/
theorem C36_finding_fragmentation :
    outs 4 [.setSize 8, .write 0 [1, 2] (fun _ => 0), .write 2 [3, 4] (fun _ => 0),
        .write 4 [5, 6] (fun _ => 0), .write 6 [7, 8] (fun _ => 0), .discard 0 2 (fun _ => 0),
        .discard 4 2 (fun _ => 0), .write 8 [9, 9] (fun _ => 0)]
      = [.done, .done, .done, .done, .done, .done, .done, .exc .outOfSpace] := by
  decide +kernel

/-- C36, the code as it is: `discard` trusts the caller's size instead of the recorded one
(`wbtl_file.cpp:113`), so a discard with a larger size gives the neighbour's place away. -/
theorem C36_finding_discard_size :
    outs 4 [.setSize 4, .write 0 [1, 2] (fun _ => 0), .write 2 [3, 4] (fun _ => 0), .discard 0 4 (fun _ => 0),
        .write 8 [7, 7, 7, 7] (fun _ => 0), .read 2 2]
      = [.done, .done, .done, .done, .done, .got (.data [7, 7])] := by
  decide +kernel

/-- C36, the code as it is: an unmapped offset is looked up at the made-up physical address `0xffffffff`
(`wbtl_file.cpp:210`) *before* the sentinel test, so with a write buffer over that address a read of a block
never written is served from the buffer, and a longer one runs past its end. -/
theorem C36_finding_sentinel :
    outs 4294967296 [.setSize 4294967296, .write 0 [1, 2] (fun _ => 0), .read 50 1, .read 50 2]
      = [.done, .done, .got (.data [0]), .got .assertFailed] := by
  decide +kernel

end Stxxl.Wbtl
