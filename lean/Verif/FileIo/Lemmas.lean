import Verif.FileIo.Spec

/-!
# Facts about bytes, loops and the file types
-/

namespace Stxxl.FileIo

theorem byteAt_splice (buf xs : List Byte) (pos i : Nat) (h : pos ≤ buf.length) :
    byteAt (splice buf pos xs) i = if pos ≤ i ∧ i < pos + xs.length then byteAt xs (i - pos) else byteAt buf i := by
  simp only [byteAt, splice, List.getD_eq_getElem?_getD, List.getElem?_append, List.length_append, List.length_take,
    List.getElem?_take, List.getElem?_drop]
  grind

theorem length_splice (buf xs : List Byte) (pos : Nat) (h : pos ≤ buf.length) :
    (splice buf pos xs).length = max buf.length (pos + xs.length) := by
  simp only [splice, List.length_append, List.length_take, List.length_drop]; omega

theorem byteAt_pwrite (f xs : List Byte) (off i : Nat) :
    byteAt (pwrite f off xs) i = if off ≤ i ∧ i < off + xs.length then byteAt xs (i - off) else byteAt f i := by
  unfold pwrite
  rw [byteAt_splice _ _ _ _ (by simp; omega)]
  split
  · rfl
  · simp only [byteAt, List.getD_eq_getElem?_getD, List.getElem?_append, List.getElem?_replicate]
    grind

theorem length_pwrite (f xs : List Byte) (off : Nat) : (pwrite f off xs).length = max f.length (off + xs.length) := by
  unfold pwrite
  rw [length_splice _ _ _ (by simp; omega)]
  simp; omega

theorem byteAt_truncate (f : List Byte) (n i : Nat) : byteAt (truncate f n) i = if i < n then byteAt f i else 0 := by
  simp only [byteAt, truncate, List.getD_eq_getElem?_getD, List.getElem?_append, List.getElem?_take, List.getElem?_replicate,
    List.length_take]
  grind

theorem length_truncate (f : List Byte) (n : Nat) : (truncate f n).length = n := by
  simp [truncate]; omega

theorem byteAt_avail (f : List Byte) (off n i : Nat) : byteAt (avail f off n) i = if i < n then byteAt f (off + i) else 0 := by
  simp only [byteAt, avail, List.getD_eq_getElem?_getD, List.getElem?_take, List.getElem?_drop]
  grind

theorem length_avail (f : List Byte) (off n : Nat) : (avail f off n).length = min n (f.length - off) := by
  simp [avail]

theorem byteAt_replicate (n i : Nat) : byteAt (List.replicate n 0) i = 0 := by
  simp only [byteAt, List.getD_eq_getElem?_getD, List.getElem?_replicate]; grind

theorem byteAt_end (f : List Byte) (i : Nat) (h : f.length ≤ i) : byteAt f i = 0 := by
  simp [byteAt, List.getD_eq_getElem?_getD, List.getElem?_eq_none h]

theorem ext_byteAt {a b : List Byte} (hl : a.length = b.length) (h : ∀ i, i < a.length → byteAt a i = byteAt b i) : a = b := by
  apply List.ext_getElem hl
  intro i h1 h2
  have := h i h1
  simpa [byteAt, List.getD_eq_getElem?_getD, List.getElem?_eq_getElem h1, List.getElem?_eq_getElem h2] using this

theorem byteAt_bytesAt (f : List Byte) (off n i : Nat) : byteAt (bytesAt f off n) i = if i < n then byteAt f (off + i) else 0 := by
  simp only [byteAt, bytesAt, List.getD_eq_getElem?_getD, List.getElem?_map, List.getElem?_range]
  split <;> simp_all [byteAt]

theorem length_bytesAt (f : List Byte) (off n : Nat) : (bytesAt f off n).length = n := by simp [bytesAt]

/-- The read loop: `m` bytes have arrived, all of them if it ends normally. -/
theorem readLoop_spec (f : List Byte) : ∀ (n : Nat) (sc : Nat → Sys) (buf : List Byte) (pos off bytes : Nat),
    bytes ≤ n → pos + bytes = buf.length →
    ∃ m, m ≤ bytes ∧ (readLoop f n sc buf pos off bytes).2.length = buf.length ∧
      (∀ i, byteAt (readLoop f n sc buf pos off bytes).2 i =
        if pos ≤ i ∧ i < pos + m then byteAt f (off + (i - pos)) else byteAt buf i) ∧
      ((readLoop f n sc buf pos off bytes).1 = .ok ∧ m = bytes ∨ (readLoop f n sc buf pos off bytes).1 = .throws ∧ m < bytes) := by
  intro n
  induction n with
  | zero =>
    intro sc buf pos off bytes hb hp
    have : bytes = 0 := by omega
    subst this
    exact ⟨0, Nat.le_refl _, rfl, by intro i; simp [readLoop]; omega, by simp [readLoop]⟩
  | succ n ih =>
    intro sc buf pos off bytes hb hp
    by_cases h0 : bytes = 0
    · subst h0
      exact ⟨0, Nat.le_refl _, rfl, by intro i; simp [readLoop]; omega, by simp [readLoop]⟩
    have triv : ∃ m, m ≤ bytes ∧ buf.length = buf.length ∧
      (∀ i, byteAt buf i = if pos ≤ i ∧ i < pos + m then byteAt f (off + (i - pos)) else byteAt buf i) ∧
      (Out.throws = .ok ∧ m = bytes ∨ Out.throws = .throws ∧ m < bytes) :=
      ⟨0, Nat.zero_le _, rfl, by intro i; rw [if_neg (by omega)], by right; exact ⟨rfl, by omega⟩⟩
    rw [readLoop, if_neg h0]
    by_cases hs : (sc 0).seekFails
    · rw [if_pos hs]; exact triv
    rw [if_neg hs]
    cases hr : readRet f off bytes (sc 0).rc with
    | none => exact triv
    | some k =>
      dsimp only
      by_cases hk : k = 0
      · rw [if_pos hk]; exact triv
      rw [if_neg hk]
      have hkb : k ≤ bytes ∧ off + k ≤ f.length := by
        cases hc : (sc 0).rc with
        | none => rw [hc] at hr; simp [readRet] at hr
        | some j =>
          rw [hc] at hr; simp only [readRet, Option.some.injEq, length_avail] at hr; omega
      have hav : (avail f off k).length = k := by rw [length_avail]; omega
      have hl1 : (splice buf pos (avail f off k)).length = buf.length := by rw [length_splice _ _ _ (by omega), hav]; omega
      have hb1 : ∀ i, byteAt (splice buf pos (avail f off k)) i =
          if pos ≤ i ∧ i < pos + k then byteAt f (off + (i - pos)) else byteAt buf i := by
        intro i
        rw [byteAt_splice _ _ _ _ (by omega), hav, byteAt_avail]
        grind
      have hrec : ∃ m, m ≤ bytes ∧
          (readLoop f n (fun i => sc (i + 1)) (splice buf pos (avail f off k)) (pos + k) (off + k) (bytes - k)).2.length = buf.length ∧
          (∀ i, byteAt (readLoop f n (fun i => sc (i + 1)) (splice buf pos (avail f off k)) (pos + k) (off + k) (bytes - k)).2 i =
            if pos ≤ i ∧ i < pos + m then byteAt f (off + (i - pos)) else byteAt buf i) ∧
          ((readLoop f n (fun i => sc (i + 1)) (splice buf pos (avail f off k)) (pos + k) (off + k) (bytes - k)).1 = .ok ∧ m = bytes ∨
           (readLoop f n (fun i => sc (i + 1)) (splice buf pos (avail f off k)) (pos + k) (off + k) (bytes - k)).1 = .throws ∧ m < bytes) := by
        obtain ⟨m, hm, hl, hbt, ho⟩ := ih (fun i => sc (i + 1)) (splice buf pos (avail f off k)) (pos + k) (off + k) (bytes - k)
          (by omega) (by rw [hl1]; omega)
        refine ⟨k + m, by omega, by rw [hl, hl1], ?_, ?_⟩
        · intro i
          rw [hbt i, hb1 i]
          by_cases h1 : pos + k ≤ i ∧ i < pos + k + m
          · rw [if_pos h1, if_pos (by omega)]; congr 1; omega
          · rw [if_neg h1]; by_cases h2 : pos ≤ i ∧ i < pos + k
            · rw [if_pos h2, if_pos (by omega)]
            · rw [if_neg h2, if_neg (by omega)]
        · rcases ho with ⟨a, b⟩ | ⟨a, b⟩
          · left; exact ⟨a, by omega⟩
          · right; exact ⟨a, by omega⟩
      by_cases hgt : bytes - k > 0
      · rw [if_pos hgt]
        by_cases hef : (sc 0).endFails
        · rw [if_pos hef]
          exact ⟨k, hkb.1, hl1, hb1, .inr ⟨rfl, by omega⟩⟩
        · rw [if_neg hef]
          by_cases hend : off + k = f.length
          · rw [if_pos hend]
            refine ⟨bytes, Nat.le_refl _, ?_, ?_, .inl ⟨rfl, rfl⟩⟩
            · dsimp only; rw [length_splice _ _ _ (by omega), hl1, List.length_replicate]; omega
            · intro i
              dsimp only
              rw [byteAt_splice _ _ _ _ (by omega), hb1, List.length_replicate, byteAt_replicate]
              by_cases h1 : pos + k ≤ i ∧ i < pos + k + (bytes - k)
              · rw [if_pos h1, if_pos (by omega), byteAt_end _ _ (by omega)]
              · rw [if_neg h1]; by_cases h2 : pos ≤ i ∧ i < pos + k
                · rw [if_pos h2, if_pos (by omega)]
                · rw [if_neg h2, if_neg (by omega)]
          · rw [if_neg hend]; exact hrec
      · rw [if_neg hgt]; exact hrec

/-- The write loop: `m` bytes have been stored, all of them if it ends normally. -/
theorem writeLoop_spec (buf : List Byte) : ∀ (n : Nat) (sc : Nat → Sys) (f : List Byte) (pos off bytes : Nat),
    bytes ≤ n → pos + bytes = buf.length →
    ∃ m, m ≤ bytes ∧
      (writeLoop buf n sc f pos off bytes).2.length = (if m = 0 then f.length else max f.length (off + m)) ∧
      (∀ i, byteAt (writeLoop buf n sc f pos off bytes).2 i =
        if off ≤ i ∧ i < off + m then byteAt buf (pos + (i - off)) else byteAt f i) ∧
      ((writeLoop buf n sc f pos off bytes).1 = .ok ∧ m = bytes ∨ (writeLoop buf n sc f pos off bytes).1 = .throws ∧ m < bytes) := by
  intro n
  induction n with
  | zero =>
    intro sc f pos off bytes hb hp
    have : bytes = 0 := by omega
    subst this
    exact ⟨0, Nat.le_refl _, rfl, by intro i; simp [writeLoop]; omega, by simp [writeLoop]⟩
  | succ n ih =>
    intro sc f pos off bytes hb hp
    by_cases h0 : bytes = 0
    · subst h0
      exact ⟨0, Nat.le_refl _, rfl, by intro i; simp [writeLoop]; omega, by simp [writeLoop]⟩
    have triv : ∃ m, m ≤ bytes ∧ f.length = (if m = 0 then f.length else max f.length (off + m)) ∧
      (∀ i, byteAt f i = if off ≤ i ∧ i < off + m then byteAt buf (pos + (i - off)) else byteAt f i) ∧
      (Out.throws = .ok ∧ m = bytes ∨ Out.throws = .throws ∧ m < bytes) :=
      ⟨0, Nat.zero_le _, rfl, by intro i; rw [if_neg (by omega)], by right; exact ⟨rfl, by omega⟩⟩
    rw [writeLoop, if_neg h0]
    by_cases hs : (sc 0).seekFails
    · rw [if_pos hs]; exact triv
    rw [if_neg hs]
    cases hr : writeRet bytes (sc 0).rc with
    | none => exact triv
    | some k =>
      dsimp only
      by_cases hk : k = 0
      · rw [if_pos hk]; exact triv
      rw [if_neg hk]
      have hkb : k ≤ bytes := by
        cases hc : (sc 0).rc with
        | none => rw [hc] at hr; simp [writeRet] at hr
        | some j => rw [hc] at hr; simp only [writeRet, Option.some.injEq] at hr; omega
      have hav : (avail buf pos k).length = k := by rw [length_avail]; omega
      obtain ⟨m, hm, hl, hbt, ho⟩ := ih (fun i => sc (i + 1)) (pwrite f off (avail buf pos k)) (pos + k) (off + k) (bytes - k)
        (by omega) (by omega)
      refine ⟨k + m, by omega, ?_, ?_, ?_⟩
      · rw [hl, length_pwrite, hav, if_neg (by omega : ¬ k + m = 0)]; split <;> omega
      · intro i
        rw [hbt i, byteAt_pwrite, hav, byteAt_avail]
        by_cases h1 : off + k ≤ i ∧ i < off + k + m
        · rw [if_pos h1, if_pos (by omega)]; congr 1; omega
        · rw [if_neg h1]; by_cases h2 : off ≤ i ∧ i < off + k
          · rw [if_pos h2, if_pos (by omega), if_pos (by omega)]
          · rw [if_neg h2, if_neg (by omega)]
      · rcases ho with ⟨a, b⟩ | ⟨a, b⟩
        · left; exact ⟨a, by omega⟩
        · right; exact ⟨a, by omega⟩

end Stxxl.FileIo
