import Verif.BlockCache.Ops

/-!
# C43: the hash map's block cache is transparent

Specification: `Verif/BlockCache/Spec.lean`; model: `Verif/BlockCache/Model.lean`.
-/

namespace BlockCache
open Spec (Op Out M Pre Post)

/-- **C43.** A cache with room for at least one block and at least one write buffer, over an I/O layer that keeps
the order of requests for the same block: in every history of calls that observes the client's obligations,
whatever the initial contents of the memory, whenever the asynchronous writes complete, and in whatever order
`flush` visits the cached blocks, every access through a valid pointer yields the value last written to that
subblock, retained blocks stay in the cache, no step is undefined, and `get_subblock` and `prefetch_block` fail
only if as many blocks as fit into the cache are retained. -/
theorem C43_history {V : Type} (c : Cfg) (hn : 0 < c.n) (hm : 0 < c.m) (hf : c.fifo = true)
    (blk wbuf disk : Nat → Nat → V) (ops : List (Op V)) :
    Spec.Conforms c.n (Spec.start disk) ops (run c (ctor c blk wbuf disk) ops) :=
  run_conforms hn hm hf ops (.inl ⟨rfl, init_sim c blk wbuf disk⟩)

/-- What is in external memory after a history. -/
def finalDisk {V : Type} (c : Cfg) (s : St V) : List (Op V) → Nat → Nat → V
  | [] => s.disk
  | op :: ops => finalDisk c (step c s op).1 ops

/-- The client's obligations along a history, and the specification state at its end. -/
def Obeys {V : Type} (n : Nat) : M V → List (Op V) → List (Out V) → Prop
  | _, [], _ => True
  | _, _ :: _, [] => False
  | m, op :: ops, o :: outs => Pre n m op ∧ Obeys n (Spec.next m op o) ops outs

def specEnd {V : Type} : M V → List (Op V) → List (Out V) → M V
  | m, op :: ops, o :: outs => specEnd (Spec.next m op o) ops outs
  | m, _, _ => m

theorem final_rel {V : Type} {c : Cfg} (hn : 0 < c.n) (hm : 0 < c.m) (hf : c.fifo = true) (ops : List (Op V)) :
    ∀ {m : M V} {s : St V}, Rel c m s → Obeys c.n m ops (run c s ops) →
      ∃ s', Rel c (specEnd m ops (run c s ops)) s' ∧ s'.disk = finalDisk c s ops := by
  induction ops with
  | nil => intro m s R _; exact ⟨s, R, rfl⟩
  | cons op ops ih =>
    intro m s R ho
    exact ih (step_ok hn hm hf R op ho.1).2 ho.2

/-- **C43**, durability: after a history that observes the client's obligations and ends with `flush`, external
memory holds the specified value of every subblock whose contents are defined. -/
theorem C43_flush_durable {V : Type} (c : Cfg) (hn : 0 < c.n) (hm : 0 < c.m) (hf : c.fifo = true)
    (blk wbuf disk : Nat → Nat → V) (ops : List (Op V)) (m : M V)
    (ho : Obeys c.n (Spec.start disk) ops (run c (ctor c blk wbuf disk) ops))
    (he : m = specEnd (Spec.start disk) ops (run c (ctor c blk wbuf disk) ops)) (hfl : m.flushed = true)
    (b : Nat) (hb : m.lost b = false) (i : Nat) :
    finalDisk c (ctor c blk wbuf disk) ops b i = m.val b i := by
  obtain ⟨s', R, hd⟩ := final_rel hn hm hf ops (.inl ⟨rfl, init_sim c blk wbuf disk⟩) ho
  rw [← he] at R
  rcases R with ⟨h, -⟩ | ⟨-, F⟩
  · rw [hfl] at h; cases h
  · rw [← hd, F.disk b hb]

/-! ### A case, and what the obligations are for -/

instance {V : Type} (n : Nat) (m : M V) (op : Op V) : Decidable (Pre n m op) := by
  cases op <;> simp only [Pre]
  case write h v =>
    refine @instDecidableAnd _ _ inferInstance ?_
    rcases hp : m.ptr h with _ | ⟨b, i⟩
    · exact .isFalse (by rintro ⟨b, i, h1, -⟩; cases h1)
    · rcases hm : m.marked b with _ | _
      · exact .isFalse (by rintro ⟨b', i', h1, h2⟩; cases h1; rw [hm] at h2; cases h2)
      · exact .isTrue ⟨b, i, rfl, hm⟩
  case read h =>
    refine @instDecidableAnd _ _ inferInstance ?_
    rcases m.ptr h with _ | x
    · exact .isFalse (fun h => h rfl)
    · exact .isTrue (by simp)
  all_goals infer_instance

def obeysB {V : Type} (n : Nat) : M V → List (Op V) → List (Out V) → Bool
  | _, [], _ => true
  | _, _ :: _, [] => false
  | m, op :: ops, o :: outs => decide (Pre n m op) && obeysB n (Spec.next m op o) ops outs

/-- Two cached blocks, one write buffer. -/
def cfg (fifo : Bool) : Cfg := ⟨2, 1, fifo⟩

def mem0 (fifo : Bool) : St Nat := ctor (cfg fifo) (fun _ _ => 7) (fun _ _ => 9) (fun b i => 100 * b + i)

/-- Block 0 is changed, two other blocks push it out of the cache, one is prefetched, it comes back and still has
the change; everything is written and the cache is emptied. -/
def story : List (Op Nat) :=
  [.get 0 1 0, .retain 0, .makeDirty 0, .write 0 5, .read 0, .get 1 2 1, .read 1, .release 0, .prefetch 2, .get 3 0 2,
   .retain 3, .read 2, .get 0 1 3, .read 3, .makeDirty 0, .write 3 6, .retain 0, .get 4 0 4, .release 3, .get 2 3 5,
   .read 5, .flush [1, 0], .clear, .put 2 (fun _ => 1), .get 0 1 6, .read 6, .get 2 3 7, .read 7]

example : run (cfg true) (mem0 true) story =
      [.unit, .bool true, .bool true, .unit, .val 5, .unit, .val 102, .bool true, .unit, .unit, .bool true, .val 300,
       .unit, .val 5, .bool true, .unit, .bool true, .full, .bool true, .unit, .val 203, .unit, .unit, .unit, .unit,
       .val 6, .unit, .val 1] ∧
    obeysB 2 (Spec.start fun b i => 100 * b + i) story (run (cfg true) (mem0 true) story) = true := by
  decide +kernel

/-- The durability theorem's hypotheses are met by the part of the history up to `flush`. -/
example : obeysB 2 (Spec.start fun b i => 100 * b + i) (story.take 22) (run (cfg true) (mem0 true) (story.take 22)) = true ∧
    (specEnd (Spec.start fun b i => 100 * b + i) (story.take 22) (run (cfg true) (mem0 true) (story.take 22))).flushed = true ∧
    finalDisk (cfg true) (mem0 true) (story.take 22) 0 1 = 6 := by decide +kernel

/-- Why the order of requests matters: the cache does not look into its write buffer, so with an I/O layer that
may let a read overtake an earlier write of the same block (as the default request queue, which serves reads
first, does) a changed block that was pushed out comes back with its old contents (100·0+1 instead of 5). -/
theorem C43_needs_fifo :
    run (cfg false) (mem0 false) [.get 0 1 0, .makeDirty 0, .write 0 5, .get 1 0 1, .get 2 0 2, .get 0 1 3, .read 3] =
      [.unit, .bool true, .unit, .unit, .unit, .unit, .val 1] ∧
    run (cfg true) (mem0 true) [.get 0 1 0, .makeDirty 0, .write 0 5, .get 1 0 1, .get 2 0 2, .get 0 1 3, .read 3] =
      [.unit, .bool true, .unit, .unit, .unit, .unit, .val 5] := by decide +kernel

/-- Why `flush` must be followed by `clear`: `flush` leaves the write buffer's old block in the slot, which
remains in the map as valid: the block reads as the garbage 9 although external memory has 5. -/
theorem C43_flush_needs_clear :
    run (cfg true) (mem0 true) [.get 0 1 0, .makeDirty 0, .write 0 5, .flush [0, 1], .get 0 1 1, .read 1] =
      [.unit, .bool true, .unit, .unit, .unit, .val 9] ∧
    run (cfg true) (mem0 true) [.get 0 1 0, .makeDirty 0, .write 0 5, .flush [0, 1], .clear, .get 0 1 1, .read 1] =
      [.unit, .bool true, .unit, .unit, .unit, .unit, .val 5] := by decide +kernel

/-- Why `make_dirty` must come before the change: for a block of which only a subblock is loaded it reads the
whole block from external memory, over the change. -/
theorem C43_write_before_dirty :
    run (cfg true) (mem0 true) [.get 0 1 0, .write 0 5, .makeDirty 0, .read 0] =
      [.unit, .unit, .bool true, .val 1] := by decide +kernel

/-- Why retentions must be counted by their answers: `retain_block` of a block that is not in the cache does
nothing and says so; the later `release_block` then takes away another client's retention, after which the block
is pushed out and the other client's pointer reads another block. (`buffered_reader::operator++`,
hash_map/util.h, ignores the answer.) -/
theorem C43_release_of_other :
    run (cfg true) (mem0 true)
        [.retain 0, .get 0 1 0, .retain 0, .read 0, .release 0, .get 1 0 1, .get 2 1 2, .read 0] =
      [.bool false, .unit, .bool true, .val 1, .bool true, .unit, .unit, .val 201] := by decide +kernel

end BlockCache
