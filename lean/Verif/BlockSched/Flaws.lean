import Verif.BlockSched.Policy

/-!
# Where the block scheduler does not do what a client expects (C59)

Three histories.  The first two are forbidden to the clients of C54 (`Sp.pre` demands that a block is
freed in simulation mode only if it has no contents, `Ent.release` makes no promise for a block that
was overwritten and released as not dirty).  The third shows why C57 asks that no block is acquired.
-/

namespace Stxxl.BlockSched

open Ex (cfg results)

/-- **C59.** Freeing a block in simulation mode does not drop its contents: the block allocated next
after the simulation is initialized and shows the data of the freed one.  Outside simulation mode the
same history yields an uninitialized block. -/
theorem C59_free_in_simulation :
    results 1 [.alloc, .acquire 0 false, .write 0 7, .release 0 true, .toSim, .free 0, .toLru, .alloc, .isInit 0, .acquire 0 false, .read 0] =
      .ok [.idx 0, .unit, .unit, .unit, .unit, .unit, .unit, .idx 0, .bool true, .unit, .val 7] ∧
    results 1 [.alloc, .acquire 0 false, .write 0 7, .release 0 true, .free 0, .alloc, .isInit 0, .acquire 0 false, .read 0] =
      .ok [.idx 0, .unit, .unit, .unit, .unit, .idx 0, .bool false, .unit, .val 0] := by decide +kernel

/-- **C59.** A program that frees its block is simulated and then executed.  Simulation has already
given the block number back, so that the execution gives it back twice, and two blocks allocated
later are the same block: what is written to one is read from the other. -/
theorem C59_freed_twice :
    results 2 [.alloc, .toSim, .free 0, .toLru, .free 0, .alloc, .alloc, .acquire 0 false, .write 0 7, .release 0 true] =
      .ok [.idx 0, .unit, .unit, .unit, .unit, .idx 0, .idx 0, .unit, .unit, .unit] := by decide +kernel

/-- **C59.** A block overwritten after `acquire(uninitialized = true)` and released with
`dirty = false`: while it happens to stay in memory the client reads the new data, after it was
swapped out the old. -/
theorem C59_clean_overwrite :
    results 1 [.alloc, .alloc, .acquire 0 false, .write 0 7, .release 0 true, .flush, .acquire 0 true, .write 0 8, .release 0 false,
      .acquire 0 false, .read 0, .release 0 false, .flush, .acquire 0 false, .read 0] =
      .ok [.idx 0, .idx 1, .unit, .unit, .unit, .unit, .unit, .unit, .unit, .unit, .val 8, .unit, .unit, .unit, .val 7] := by decide +kernel

/-- **C59.** Switching to simulation mode while a block with contents is acquired: simulation says
the block is not initialized after its release, the real scheduler says it is. -/
theorem C59_simulation_while_acquired :
    results 1 [.alloc, .acquire 0 false, .write 0 7, .release 0 true, .acquire 0 false, .toSim, .release 0 false, .isInit 0] =
      .ok [.idx 0, .unit, .unit, .unit, .unit, .unit, .unit, .bool false] ∧
    results 1 [.alloc, .acquire 0 false, .write 0 7, .release 0 true, .acquire 0 false, .release 0 false, .isInit 0] =
      .ok [.idx 0, .unit, .unit, .unit, .unit, .unit, .bool true] := by decide +kernel

end Stxxl.BlockSched
