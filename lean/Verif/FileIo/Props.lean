import Verif.FileIo.History

/-!
# C46: files keep bytes, whatever the system calls do

Under the block discipline of the block manager (requests for the same block or for disjoint ones) every file type
behaves like an array of blocks, for every behaviour of the operating system: short transfers of any size, errors at
any call, arbitrary content of fresh memory.
-/

namespace Stxxl.FileIo

theorem run_inv {c : Cfg} (hc : Fair c) {n0 : Nat} : ∀ (qs : List Call) (h : List Ev) (s : St), Inv c n0 h s →
    Blocks (h.map Ev.op ++ qs.map Call.op) → Inside n0 h (run c s qs).1 →
    (run c s qs).1.map Ev.op = qs.map Call.op ∧ (∀ ev ∈ (run c s qs).1, ev.out = .ok ∨ ev.out = .throws) ∧
    ∀ pre ev post off len b, (run c s qs).1 = pre ++ ev :: post → ev.op = .read off len → ev.out = .ok →
      contentAfter off len (pre.reverse ++ h) = some b → ev.got = b := by
  intro qs
  induction qs with
  | nil =>
    intro h s I hb hin
    refine ⟨rfl, by simp [run], ?_⟩
    intro pre ev post off len b heq
    simp [run] at heq
  | cons q qs ih =>
    intro h s I hb hin
    have hd : ∀ ev ∈ h, ∀ x y, ev.op.range = some x → q.op.range = some y → SameOrDisjoint x y := by
      intro ev hev x y hx hy
      exact hb ev.op (by simp; exact .inl ⟨ev, hev, rfl⟩) q.op (by simp) x y hx hy
    have hin0 : ∀ x, q.op.range = some x → x.1 + x.2 ≤ sizeAfter n0 h := by
      intro x hx
      rw [run] at hin
      dsimp only at hin
      split at hin
      · exact hin.1 x hx
      · exact hin.1 x hx
    obtain ⟨h1, h2, h3⟩ := step_inv hc I q hin0 hd
    have hne : ¬ (step c q.env q.old s q.op).1 = .ub := by rcases h1 with h | h <;> simp [h]
    have hr : (run c s (q :: qs)).1 =
        ⟨q.op, (step c q.env q.old s q.op).1, (step c q.env q.old s q.op).2.2⟩ :: (run c (step c q.env q.old s q.op).2.1 qs).1 := by
      simp only [run]; rw [if_neg hne]
    rw [hr] at hin ⊢
    obtain ⟨e, he⟩ : ∃ e : Ev, e = ⟨q.op, (step c q.env q.old s q.op).1, (step c q.env q.old s q.op).2.2⟩ := ⟨_, rfl⟩
    rw [← he] at hin h2 ⊢
    have heo : e.op = q.op := by rw [he]
    obtain ⟨i1, i2, i3⟩ := ih (e :: h) _ h2 (by
      intro a ha b hb'
      refine hb a ?_ b ?_
      · simp only [List.map_cons, List.mem_append, List.mem_cons, heo] at ha ⊢
        rcases ha with (h | h) | h
        · exact .inr (.inl h)
        · exact .inl h
        · exact .inr (.inr h)
      · simp only [List.map_cons, List.mem_append, List.mem_cons, heo] at hb' ⊢
        rcases hb' with (h | h) | h
        · exact .inr (.inl h)
        · exact .inl h
        · exact .inr (.inr h)) hin.2
    refine ⟨by simp [i1, heo], ?_, ?_⟩
    · intro ev hev
      rcases List.mem_cons.1 hev with rfl | hev
      · rw [he]; exact h1
      · exact i2 ev hev
    · intro pre ev post off len b heq hop hok hcb
      cases pre with
      | nil =>
        simp only [List.nil_append, List.cons.injEq] at heq
        obtain ⟨heq, -⟩ := heq
        rw [← heq, he] at hop hok ⊢
        dsimp only at hop hok ⊢
        exact h3 off len b hop hok hcb
      | cons p pre =>
        simp only [List.cons_append, List.cons.injEq] at heq
        obtain ⟨rfl, heq⟩ := heq
        exact i3 pre ev post off len b heq hop hok (by simpa using hcb)

/-- **C46.** Any file object of any type, any initial contents, any sequence of calls following the block discipline
inside the file, and any behaviour of the system during each call.  No call has undefined behaviour (each one returns
or throws); and a read that returns delivers exactly the bytes that the block contains according to the calls so far:
those of the last write to it, if that write returned, the block was not discarded and the file not cut since. -/
theorem C46_block_history (c : Cfg) (hc : Fair c) (s : St) (qs : List Call)
    (hb : Blocks (qs.map Call.op)) (hin : Inside s.main.length [] (run c s qs).1) :
    (run c s qs).1.map Ev.op = qs.map Call.op ∧
    (∀ ev ∈ (run c s qs).1, ev.out = .ok ∨ ev.out = .throws) ∧
    (∀ pre ev post off len b, (run c s qs).1 = pre ++ ev :: post → ev.op = .read off len → ev.out = .ok →
      contentAfter off len pre.reverse = some b → ev.got = b) := by
  have I : Inv c s.main.length [] s := ⟨fun _ _ => Nat.le_refl _, by intro _ _ _ h; simp [contentAfter] at h⟩
  obtain ⟨h1, h2, h3⟩ := run_inv hc qs [] s I (by simpa using hb) hin
  exact ⟨h1, h2, by simpa using h3⟩

/-- A system that transfers everything at once / one byte at a time / fails after two bytes. -/
def sysAll : Nat → Sys := fun _ => { rc := some 100 }
def sysOne : Nat → Sys := fun _ => { rc := some 1 }
def sysDie : Nat → Sys := fun i => if i < 2 then { rc := some 1 } else { rc := none }

/-- A history with short transfers, a failed overwrite, a discard, on two blocks of a file of 8 bytes. -/
def hist1 : List Call :=
  [⟨.setSize 8, { sys := sysAll }, []⟩, ⟨.write 0 [1, 2, 3, 4], { sys := sysOne }, []⟩,
   ⟨.write 4 [5, 6, 7, 8], { sys := sysAll }, []⟩, ⟨.write 4 [9, 9, 9, 9], { sys := sysDie }, []⟩,
   ⟨.read 0 4, { sys := sysOne }, []⟩, ⟨.read 4 4, { sys := sysOne }, []⟩]

/-- Non-vacuity: the history follows the discipline, `syscall_file` and `fileperblock_file` serve it; the failed write
has left a part of its bytes. -/
example : ((run { kind := .syscall } {} hist1).1.map fun e => (e.out, e.got)) =
    [(.ok, []), (.ok, []), (.ok, []), (.throws, []), (.ok, [1, 2, 3, 4]), (.ok, [9, 9, 7, 8])] ∧
    (run { kind := .syscall, perBlock := true } {} hist1).1 = (run { kind := .syscall } {} hist1).1 ∧
    (run { kind := .mem } {} (hist1.take 3)).1.map (fun e => e.out) = [.ok, .ok, .ok] := by decide +kernel

example : Fair { kind := .mmap, perBlock := true } ∧ Blocks (hist1.map Call.op) ∧
    Inside 0 [] (run { kind := .syscall } {} hist1).1 ∧
    contentAfter 0 4 ((run { kind := .syscall } {} (hist1.take 4)).1.reverse) = some [1, 2, 3, 4] ∧
    contentAfter 4 4 ((run { kind := .syscall } {} (hist1.take 3)).1.reverse) = some [5, 6, 7, 8] ∧
    contentAfter 4 4 ((run { kind := .syscall } {} (hist1.take 4)).1.reverse) = none := by
  refine ⟨⟨by decide, by decide⟩, ?_, ?_, by decide +kernel, by decide +kernel, by decide +kernel⟩
  · intro a ha b hb x y hx hy
    simp only [hist1, List.map_cons, List.map_nil, List.mem_cons, List.not_mem_nil, or_false] at ha hb
    rcases ha with rfl | rfl | rfl | rfl | rfl | rfl <;> rcases hb with rfl | rfl | rfl | rfl | rfl | rfl <;>
      simp [Op.range] at hx hy <;> subst hx hy <;> simp [SameOrDisjoint]
  · have : (run { kind := .syscall } {} hist1).1 =
      [⟨.setSize 8, .ok, []⟩, ⟨.write 0 [1, 2, 3, 4], .ok, []⟩, ⟨.write 4 [5, 6, 7, 8], .ok, []⟩,
       ⟨.write 4 [9, 9, 9, 9], .throws, []⟩, ⟨.read 0 4, .ok, [1, 2, 3, 4]⟩, ⟨.read 4 4, .ok, [9, 9, 7, 8]⟩] := by decide +kernel
    rw [this]
    simp [Inside, Op.range, sizeAfter]

/-- **C46, `syscall_file`, reading at any offset.** Whatever the system calls do, the read returns or throws; if it
returns, the buffer is exactly the file's bytes from `off` on, zeroes behind the end; if it throws, a proper prefix of
the buffer has been overwritten by the file's bytes and nothing else. The file is unchanged. -/
theorem C46_syscall_read (e : Env) (f : List Byte) (off : Nat) (buf : List Byte) :
    ((syscallServe e f .read off buf).1 = .ok ∧ (syscallServe e f .read off buf).2 = (f, bytesAt f off buf.length)) ∨
    ((syscallServe e f .read off buf).1 = .throws ∧ ∃ m, m < buf.length ∧
      (syscallServe e f .read off buf).2 = (f, bytesAt f off m ++ buf.drop m)) := by
  obtain ⟨m, hm, hl, hb, ho⟩ := readLoop_spec f buf.length e.sys buf 0 off buf.length (Nat.le_refl _) (by omega)
  simp only [syscallServe]
  rcases ho with ⟨h1, rfl⟩ | ⟨h1, h2⟩
  · left
    refine ⟨h1, ?_⟩
    congr 1
    apply ext_byteAt (by rw [hl, length_bytesAt])
    intro i hi
    rw [hb i, if_pos (by omega), byteAt_bytesAt, if_pos (by omega)]; congr 1
  · right
    refine ⟨h1, m, h2, ?_⟩
    congr 1
    apply ext_byteAt (by rw [hl]; simp [length_bytesAt]; omega)
    intro i hi
    rw [hb i]
    by_cases him : i < m
    · rw [if_pos (by omega)]
      have : byteAt (bytesAt f off m ++ buf.drop m) i = byteAt (bytesAt f off m) i := by
        simp only [byteAt, List.getD_eq_getElem?_getD]
        rw [List.getElem?_append_left (by rw [length_bytesAt]; exact him)]
      rw [this, byteAt_bytesAt, if_pos him]; congr 1
    · rw [if_neg (by omega)]
      simp only [byteAt, List.getD_eq_getElem?_getD]
      rw [List.getElem?_append_right (by rw [length_bytesAt]; omega), length_bytesAt, List.getElem?_drop]
      congr 3; omega

/-- **C46, `syscall_file`, writing at any offset.** The write returns or throws.  If it returns, exactly the bytes of
the interval are replaced by the buffer; if it throws, by a proper prefix of the buffer.  The file never shrinks. -/
theorem C46_syscall_write (e : Env) (f : List Byte) (off : Nat) (buf : List Byte) :
    ∃ m, m ≤ buf.length ∧
      (∀ i, byteAt (syscallServe e f .write off buf).2.1 i =
        if off ≤ i ∧ i < off + m then byteAt buf (i - off) else byteAt f i) ∧
      (syscallServe e f .write off buf).2.1.length = (if m = 0 then f.length else max f.length (off + m)) ∧
      ((syscallServe e f .write off buf).1 = .ok ∧ m = buf.length ∨
       (syscallServe e f .write off buf).1 = .throws ∧ m < buf.length) := by
  obtain ⟨m, hm, hl, hb, ho⟩ := writeLoop_spec buf buf.length e.sys f 0 off buf.length (Nat.le_refl _) (by omega)
  refine ⟨m, hm, ?_, hl, ho⟩
  intro i
  have := hb i
  simp only [syscallServe]
  rw [this]; simp

/-- The system calls of a run never fail (they may still be short). -/
def NoFail (sc : Nat → Sys) : Prop :=
  ∀ i, (sc i).seekFails = false ∧ (sc i).endFails = false ∧ ∃ k, (sc i).rc = some k ∧ 0 < k

theorem readLoop_ok (f : List Byte) : ∀ (n : Nat) (sc : Nat → Sys) (buf : List Byte) (pos off bytes : Nat),
    bytes ≤ n → NoFail sc → (bytes = 0 ∨ off < f.length) → (readLoop f n sc buf pos off bytes).1 = .ok := by
  intro n
  induction n with
  | zero => intro sc buf pos off bytes hb _ _; have : bytes = 0 := by omega
            simp [readLoop, this]
  | succ n ih =>
    intro sc buf pos off bytes hb hf ho
    by_cases h0 : bytes = 0
    · simp [readLoop, h0]
    have ho : off < f.length := ho.resolve_left h0
    obtain ⟨h1, h2, k, h3, h4⟩ := hf 0
    rw [readLoop, if_neg h0, h1, h2, h3]
    simp only [readRet, length_avail, Bool.false_eq_true, if_false]
    rw [if_neg (by omega)]
    have hf' : NoFail fun i => sc (i + 1) := fun i => hf (i + 1)
    split
    · split
      · rfl
      · exact ih _ _ _ _ _ (by omega) hf' (by omega)
    · exact ih _ _ _ _ _ (by omega) hf' (by omega)

theorem writeLoop_ok (buf : List Byte) : ∀ (n : Nat) (sc : Nat → Sys) (f : List Byte) (pos off bytes : Nat),
    bytes ≤ n → NoFail sc → (writeLoop buf n sc f pos off bytes).1 = .ok := by
  intro n
  induction n with
  | zero => intro sc buf pos off bytes hb _; have : bytes = 0 := by omega
            simp [writeLoop, this]
  | succ n ih =>
    intro sc f pos off bytes hb hf
    by_cases h0 : bytes = 0
    · simp [writeLoop, h0]
    obtain ⟨h1, h2, k, h3, h4⟩ := hf 0
    rw [writeLoop, if_neg h0, h1, h3]
    simp only [writeRet, Bool.false_eq_true, if_false]
    rw [if_neg (by omega)]
    exact ih _ _ _ _ _ (by omega) (fun i => hf (i + 1))

/-- **C46, short transfers are no errors.** If no system call fails, `syscall_file` completes every write, and every
read that starts inside the file, however few bytes each call transfers. -/
theorem C46_syscall_short_transfers (e : Env) (f : List Byte) (off : Nat) (buf : List Byte) (he : NoFail e.sys) :
    (syscallServe e f .write off buf).1 = .ok ∧
    (off < f.length → (syscallServe e f .read off buf).1 = .ok) :=
  ⟨writeLoop_ok buf _ _ _ _ _ _ (Nat.le_refl _) he, fun h => readLoop_ok f _ _ _ _ _ _ (Nat.le_refl _) he (.inr h)⟩

example : NoFail sysOne := fun _ => ⟨rfl, rfl, 1, rfl, by decide⟩

/-- **Finding, `syscall_file`.** "Reads past the end give zeroes" holds only for reads that begin before the end:
a read beginning at or behind it always throws, even right after a read that was zero-filled up to there. -/
theorem C46_syscall_read_behind_end_throws (e : Env) (f : List Byte) (off : Nat) (buf : List Byte)
    (h : f.length ≤ off) (hb : buf ≠ []) : (syscallServe e f .read off buf).1 = .throws := by
  have : buf.length ≠ 0 := by simpa using hb
  obtain ⟨n, hn⟩ : ∃ n, buf.length = n + 1 := ⟨buf.length - 1, by omega⟩
  simp only [syscallServe]
  rw [hn, readLoop, if_neg (by omega)]
  split
  · rfl
  · cases (e.sys 0).rc with
    | none => rfl
    | some k =>
      simp only [readRet, length_avail]
      rw [if_pos (by omega)]

/-- The same bytes read by one request and by two. -/
example : (syscallServe { sys := sysAll } [1, 2] .read 0 [7, 7, 7, 7]) = (.ok, [1, 2], [1, 2, 0, 0]) ∧
    (syscallServe { sys := sysAll } [1, 2] .read 2 [7, 7]) = (.throws, [1, 2], [7, 7]) := by decide +kernel

/-- **Finding, `mmap_file`.** A write reaching behind the end of the file but inside its last page returns normally and
the bytes behind the end are lost; the file does not grow. -/
theorem C46_mmap_write_behind_end_lost (page : Nat) (e : Env) (f : List Byte) (off : Nat) (buf : List Byte)
    (hm : e.mapFails = false) (hu : e.unmapFails = false) (ho : off % page = 0) (hb : buf ≠ [])
    (hin : mapOk page f.length off buf.length = true) :
    (mmapServe page e f .write off buf).1 = .ok ∧ (mmapServe page e f .write off buf).2.1.length = f.length := by
  have h0 : (buf.length == 0) = false := by simpa using hb
  simp only [mmapServe, hm, ho, h0, hin, hu]
  simp [length_pwrite]; omega

/-- A page of 4096 bytes, a file of two, a write of four: "success", and reading them back gives zeroes. -/
example : (run { kind := .mmap } {} [⟨.setSize 2, { sys := sysAll }, []⟩, ⟨.write 0 [1, 2, 3, 4], { sys := sysAll }, []⟩,
      ⟨.read 0 4, { sys := sysAll }, []⟩]).1.map (fun e => (e.out, e.got)) = [(.ok, []), (.ok, []), (.ok, [1, 2, 0, 0])] ∧
    (mmapServe 4096 { sys := sysAll } [1, 2] .read 4096 [0]).1 = .ub := by decide +kernel

/-- **Finding, `fileperblock_file`.** Reading fewer bytes than a block has cuts the block on disk: the rest is zero
afterwards, though only reads have happened and all of them succeeded. -/
theorem C46_fileperblock_short_read_destroys :
    (run { kind := .syscall, perBlock := true } {} [⟨.write 0 [1, 2, 3, 4], { sys := sysAll }, []⟩,
      ⟨.read 0 4, { sys := sysAll }, []⟩, ⟨.read 0 2, { sys := sysAll }, []⟩, ⟨.read 0 4, { sys := sysAll }, []⟩]).1.map
      (fun e => (e.out, e.got)) = [(.ok, []), (.ok, [1, 2, 3, 4]), (.ok, [1, 2]), (.ok, [1, 2, 0, 0])] := by decide +kernel

/-- **Finding, `fileperblock_file`.** Opened with `TRUNC` it forgets every write: each request truncates its file
again. -/
theorem C46_fileperblock_trunc_loses :
    (run { kind := .syscall, perBlock := true, trunc := true } {} [⟨.write 0 [1, 2], { sys := sysAll }, []⟩,
      ⟨.read 0 2, { sys := sysAll }, []⟩]).1.map (fun e => (e.out, e.got)) = [(.ok, []), (.ok, [0, 0])] := by decide +kernel

/-- **Finding, `boostfd_file`.** `set_size` never changes the file. -/
theorem C46_boostfd_set_size_has_no_effect (e : Env) (f : List Byte) (n : Nat) : (baseSetSize .boostfd e f n).2 = f := by
  simp only [baseSetSize]; split <;> rfl

/-- **Finding, `mem_file`.** A request reaching behind the end is undefined behaviour (no check). -/
theorem C46_mem_out_of_bounds (f : List Byte) (ty : Ty) (off : Nat) (buf : List Byte) (h : f.length < off + buf.length) :
    (memServe f ty off buf).1 = .ub := by
  simp only [memServe]; rw [if_neg (by omega)]

/-- **Finding.** Overlapping requests that are not the same block: a one-file type sees one array of bytes, a
`fileperblock_file` does not. -/
theorem C46_overlap_differs :
    ((run { kind := .syscall } {} [⟨.write 0 [1, 2, 3, 4], { sys := sysAll }, []⟩, ⟨.read 2 2, { sys := sysAll }, []⟩]).1.map
      fun e => (e.out, e.got)) = [(.ok, []), (.ok, [3, 4])] ∧
    ((run { kind := .syscall, perBlock := true } {} [⟨.write 0 [1, 2, 3, 4], { sys := sysAll }, []⟩,
      ⟨.read 2 2, { sys := sysAll }, []⟩]).1.map fun e => (e.out, e.got)) = [(.ok, []), (.ok, [0, 0])] := by decide +kernel

end Stxxl.FileIo
