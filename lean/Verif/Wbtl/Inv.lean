import Verif.Wbtl.Spec
import Verif.DiskAlloc.Spec
import Mathlib.Tactic.ByContra

/-! Invariant of the translation layer. -/

namespace Stxxl.Wbtl

open Stxxl.DiskAlloc (FreeMap Region upperBound mapErase mapSet firstFit Sep Covers InRegion total Overlap
  sep_append sep_cons mapErase_mid mapSet_mid covers_append covers_cons covers_nil total_append total_cons
  total_nil)

variable {β : Type}

/-- `_add_free_region` is the disk allocator's `add_free_region`, whatever `pred--` on `begin()` yields. -/
theorem addFree_ok {junk : Bool} {m : FreeMap} {fb pos size : Int} (hsep : Sep m) (hsz : 0 < size)
    (hfree : ∀ x, pos ≤ x → x < pos + size → ¬ Covers m x) :
    ∃ m', addFree junk m fb pos size = .ok (m', fb + size) ∧ Sep m' ∧
      (∀ x, Covers m' x ↔ Covers m x ∨ (pos ≤ x ∧ x < pos + size)) ∧ total m' = total m + size := by
  obtain ⟨s', h1, h2, h3, h4, h5, -, -⟩ := DiskAlloc.addFree_ok
    (s := { free := m, freeBytes := fb, diskBytes := 0, autogrow := false }) (pos := pos) (size := size)
    hsep hsz (by
      intro r hr hov
      have hp := hsep.2 r hr
      simp only [Overlap] at hov
      by_cases hle : pos ≤ r.1
      · exact hfree r.1 hle (by omega) ⟨r, hr, by simp only [InRegion]; omega⟩
      · exact hfree pos (by omega) (by omega) ⟨r, hr, by simp only [InRegion]; omega⟩)
  refine ⟨s'.free, ?_, h2, h3, h5⟩
  have h4' : s'.freeBytes = fb + size := h4
  rw [← h4']
  simp only [DiskAlloc.addFreeRegion, DiskAlloc.put] at h1
  unfold addFree
  have hlo : ∀ t, (upperBound m pos).2.head? = some t → pos < t.1 := by
    intro t ht
    rcases hd : m.dropWhile (fun e => decide (e.1 ≤ pos)) with _ | ⟨y, ys⟩
    · simp [upperBound, hd] at ht
    · simp only [upperBound, hd, List.head?_cons, Option.some.injEq] at ht
      have := List.head_dropWhile_not (fun e : Region => decide (e.1 ≤ pos)) (l := m) (by simp [hd])
      simp [hd] at this
      subst ht; exact this
  by_cases hm : m = []
  · simp only [hm, if_true] at h1 ⊢
    cases h1; rfl
  · simp only [hm, if_false] at h1 ⊢
    generalize (upperBound m pos).1 = lo at *
    generalize (upperBound m pos).2 = hi at *
    by_cases hl : lo = []
    · subst hl
      simp only [if_true] at h1 ⊢
      rcases hi with _ | ⟨t, hi⟩
      · simp at h1
      · have := hlo t rfl
        have hc : corrupt (if junk = true then (t :: hi).head? else none) (t :: hi).head? pos size
            = decide (pos ≤ t.1 ∧ pos + size > t.1) := by
          cases junk <;> simp [corrupt] <;> omega
        rw [hc]
        simp only [List.head?_cons, Option.any_some, decide_eq_true_eq] at h1 ⊢
        rw [if_neg (by omega)] at h1
        by_cases h7 : pos ≤ t.1 ∧ pos + size > t.1
        · rw [if_pos h7] at h1; cases h1
        · rw [if_neg h7] at h1 ⊢
          revert h1
          simp only [ne_eq, not_true_eq_false, if_false]
          (repeat' split) <;> intro h1 <;> cases h1 <;> rfl
    · simp only [if_neg hl] at h1 ⊢
      rw [corrupt]
      revert h1
      simp only [Bool.or_eq_true]
      split
      · intro h1; cases h1
      · split
        · intro h1; cases h1
        · rename_i g1 g2
          rw [if_neg (by rintro (h | h); exact g1 h; exact g2 h)]
          clear g1 g2 hlo
          generalize lo.getLast? = L
          rcases hi.head? with _ | t <;> rcases L with _ | q <;> dsimp only
          all_goals (try simp only [ne_eq, hl, not_false_eq_true, if_true])
          all_goals
            (repeat' split) <;> intro h1 <;> cases h1 <;> rfl

/-- What `get_next_write_block` does when it finds a region. -/
theorem nextBlock_some {c : Cfg} {s s2 : State β} {a : Int} (hW : 0 < c.W) (hsep : Sep s.free)
    (h : nextBlock c s = some (s2, a)) :
    ∃ m', s2 = { s with free := m', freeBytes := s.freeBytes - c.W } ∧ Sep m' ∧
      (∀ x, Covers m' x ↔ Covers s.free x ∧ ¬ (a ≤ x ∧ x < a + c.W)) ∧
      (∀ x, a ≤ x → x < a + c.W → Covers s.free x) ∧ ¬ Covers s.free (a - 1) ∧
      total m' = total s.free - c.W := by
  unfold nextBlock at h
  rcases hf : firstFit s.free c.W with _ | r
  · rw [hf] at h; cases h
  rw [hf] at h
  obtain ⟨hr, hfit⟩ := DiskAlloc.firstFit_some hf
  simp only [Option.some.injEq, Prod.mk.injEq] at h
  obtain ⟨h1, rfl⟩ := h
  refine ⟨_, h1.symm, ?_⟩
  clear h1 hf
  obtain ⟨A, B, hab⟩ := List.append_of_mem hr
  rw [hab] at hsep ⊢
  clear hab hr
  obtain ⟨sa, srb, sx⟩ := sep_append.1 hsep
  obtain ⟨rp, sb, hrb⟩ := sep_cons.1 srb
  have he := mapErase_mid hsep
  rw [he]
  have hA : ∀ x, Covers A x → x + 1 < r.1 := by
    rintro x ⟨q, hq, hx⟩
    have := sx q hq r (by simp)
    simp only [InRegion] at hx; omega
  have hB : ∀ x, Covers B x → r.1 + r.2 < x := by
    rintro x ⟨q, hq, hx⟩
    have := hrb q hq
    simp only [InRegion] at hx; omega
  have hin : ∀ x, r.1 ≤ x → x < r.1 + c.W → Covers (A ++ r :: B) x := by
    intro x h1 h2
    rw [covers_append, covers_cons]
    exact .inr (.inl (by simp only [InRegion]; omega))
  have hbef : ¬ Covers (A ++ r :: B) (r.1 - 1) := by
    rw [covers_append, covers_cons]
    rintro (h | h | h)
    · have := hA _ h; omega
    · simp only [InRegion] at h; omega
    · have := hB _ h; omega
  by_cases hlt : r.2 > c.W
  · rw [if_pos hlt]
    have e2 : mapSet (A ++ B) (r.1 + c.W) (r.2 - c.W) = A ++ (r.1 + c.W, r.2 - c.W) :: B :=
      mapSet_mid (fun x hx => by have := sx x hx r (by simp); have := sa.2 x hx; omega)
        (fun x hx => by have := hrb x hx; omega)
    rw [e2]
    refine ⟨?_, ?_, hin, hbef, ?_⟩
    · rw [sep_append, sep_cons]
      refine ⟨sa, ⟨by dsimp only; omega, sb, ?_⟩, ?_⟩
      · intro y hy; have := hrb y hy; dsimp only; omega
      · intro x hx y hy
        have := sx x hx r (by simp)
        rcases List.mem_cons.1 hy with rfl | hy
        · dsimp only; omega
        · have := hrb y hy; omega
    · intro x
      have h1 := hA x
      have h2 := hB x
      simp only [covers_append, covers_cons, InRegion]
      by_cases g1 : Covers A x <;> by_cases g2 : Covers B x <;> simp only [g1, g2, true_or, or_true, false_or,
        or_false, true_and, forall_const, true_iff, false_iff] at h1 h2 ⊢ <;> omega
    · simp only [total_append, total_cons]; omega
  · rw [if_neg hlt]
    refine ⟨?_, ?_, hin, hbef, ?_⟩
    · rw [sep_append]
      exact ⟨sa, sb, fun x hx y hy => by
        have := sx x hx r (by simp); have := hrb y hy; omega⟩
    · intro x
      have h1 := hA x
      have h2 := hB x
      simp only [covers_append, covers_cons, InRegion]
      by_cases g1 : Covers A x <;> by_cases g2 : Covers B x <;> simp only [g1, g2, true_or, or_true, false_or,
        or_false, true_and, forall_const, true_iff, false_iff] at h1 h2 ⊢ <;> omega
    · simp only [total_append, total_cons]; omega

/-- When it finds none, every stretch of `W` bytes contains one that is not free. -/
theorem nextBlock_none {c : Cfg} {s : State β} (hW : 0 < c.W) (hsep : Sep s.free)
    (h : nextBlock c s = none) (p : Int) :
    ∃ x, p ≤ x ∧ x < p + c.W ∧ ¬ Covers s.free x := by
  unfold nextBlock at h
  rcases hf : firstFit s.free c.W with _ | r
  · by_contra hcon
    have hall : ∀ x, p ≤ x → x < p + c.W → Covers s.free x := by
      intro x h1 h2
      by_contra h3
      exact hcon ⟨x, h1, h2, h3⟩
    obtain ⟨r, hr, hx⟩ := hall p (by omega) (by omega)
    have hlt := DiskAlloc.firstFit_none hf r hr
    simp only [InRegion] at hx
    obtain ⟨q, hq, hy⟩ := hall (r.1 + r.2) (by omega) (by omega)
    simp only [InRegion] at hy
    obtain ⟨A, B, hab⟩ := List.append_of_mem hr
    rw [hab] at hsep hq
    obtain ⟨sa, srb, sx⟩ := sep_append.1 hsep
    obtain ⟨rp, sb, hrb⟩ := sep_cons.1 srb
    rcases List.mem_append.1 hq with hq | hq
    · have := sx q hq r (by simp); omega
    · rcases List.mem_cons.1 hq with rfl | hq
      · omega
      · have := hrb q hq; omega
  · rw [hf] at h; cases h

/-- Logical block `off` holds `d` and is placed at `p`. -/
def Blk (sp : Spec β) (s : State β) (off p : Int) (d : List β) : Prop :=
  sp.cont off = some d ∧ s.amap off = some p

/-- `f` holds `d` from position `p` on. -/
def Holds (f : Int → β) (p : Int) (d : List β) : Prop :=
  ∀ i : Nat, i < d.length → d[i]? = some (f (p + i))

/-- The block lies outside the range of a buffer. -/
def Out' (c : Cfg) (a : Option Int) (p : Int) (d : List β) : Prop :=
  ∀ x, a = some x → p + d.length ≤ x ∨ x + c.W ≤ p

/-- Where the current contents of a block are found. -/
inductive Where (c : Cfg) (s : State β) (p : Int) (d : List β) : Prop where
  | cur (a : Int) : s.addr s.cur = some a → a ≤ p → p + d.length ≤ a + s.curpos →
      Holds (s.buf s.cur) (p - a) d → Where c s p d
  | prev (a : Int) : Out' c (s.addr s.cur) p d → s.addr (!s.cur) = some a → a ≤ p →
      p + d.length ≤ a + c.W → Holds (s.buf (!s.cur)) (p - a) d →
      (s.pending = none → Holds s.disk p d) → Where c s p d
  | disk : Out' c (s.addr s.cur) p d → Out' c (s.addr (!s.cur)) p d → Holds s.disk p d → Where c s p d

/-- The invariant. -/
structure Inv (c : Cfg) (sp : Spec β) (s : State β) : Prop where
  szEq : s.sz = sp.sz
  sz0 : 0 ≤ s.sz
  szE : 2 ∣ s.sz
  sep : Sep s.free
  bytes : s.freeBytes = total s.free
  bounds : ∀ x, Covers s.free x → 0 ≤ x ∧ x < s.sz
  even : ∀ k, Covers s.free (2 * k) ↔ Covers s.free (2 * k + 1)
  dom : ∀ off, s.amap off = none ↔ sp.cont off = none
  rev : ∀ off p d, Blk sp s off p d → s.rmap p = some (off, (d.length : Int))
  pos : ∀ off p d, Blk sp s off p d → 0 < d.length ∧ 0 ≤ p ∧ p + d.length ≤ s.sz ∧ 2 ∣ p ∧ 2 ∣ d.length
  nofree : ∀ off p d, Blk sp s off p d → ∀ x, p ≤ x → x < p + d.length → ¬ Covers s.free x
  disj : ∀ o1 o2 p1 p2 d1 d2, Blk sp s o1 p1 d1 → Blk sp s o2 p2 d2 → o1 ≠ o2 →
    p1 + d1.length ≤ p2 ∨ p2 + d2.length ≤ p1
  cp0 : 0 ≤ s.curpos
  cpW : s.curpos ≤ c.W
  cpE : 2 ∣ s.curpos
  addrOk : ∀ a, s.addr s.cur = some a → 0 ≤ a ∧ a + c.W ≤ s.sz ∧ 2 ∣ a
  tailFree : ∀ a, s.addr s.cur = some a → ∀ x, a + s.curpos ≤ x → x < a + c.W → ¬ Covers s.free x
  tailLive : ∀ a, s.addr s.cur = some a → ∀ off p d, Blk sp s off p d →
    p + d.length ≤ a + s.curpos ∨ a + c.W ≤ p
  fresh : s.addr s.cur = none → s.curpos = c.W ∧ s.addr (!s.cur) = none
  pend : ∀ b a, s.pending = some (b, a) → b = !s.cur ∧ s.addr (!s.cur) = some a
  place : ∀ off p d, Blk sp s off p d → Where c s p d
  cover : ∀ x, 0 ≤ x → x < s.sz → Covers s.free x ∨
    (∃ off p d, Blk sp s off p d ∧ p ≤ x ∧ x < p + d.length) ∨
    (∃ a, s.addr s.cur = some a ∧ a + s.curpos ≤ x ∧ x < a + c.W)

theorem init_inv (c : Cfg) (hW : 0 < c.W) (hE : 2 ∣ c.W) (mem : Bool → Int → β) (disk : Int → β) :
    Inv c Spec.init (init c mem disk) := by
  have hb : ∀ off p d, ¬ Blk Spec.init (init c mem disk) off p d := by
    rintro off p d ⟨h1, h2⟩; cases h1
  refine ⟨rfl, by simp [init], by simp [init], by simp [init], by simp [init], by simp [init], by simp [init],
    by simp [init, Spec.init], ?_, ?_, ?_, ?_, ?_, ?_, hE, ?_, ?_, ?_, ?_, ?_, ?_, ?_⟩
  · exact fun _ _ _ h => absurd h (hb _ _ _)
  · exact fun _ _ _ h => absurd h (hb _ _ _)
  · exact fun _ _ _ h => absurd h (hb _ _ _)
  · exact fun _ _ _ _ _ _ h => absurd h (hb _ _ _)
  · simp [init]; omega
  · simp [init]
  · simp [init]
  · simp [init]
  · simp [init]
  · simp [init]
  · simp [init]
  · exact fun _ _ _ h => absurd h (hb _ _ _)
  · intro x h1 h2; simp [init] at h2; omega

/-- The backend write running on changes nothing visible. -/
theorem progress_inv {c : Cfg} {sp : Spec β} {s : State β} (I : Inv c sp s) (sel : Int → Bool) :
    Inv c sp (progress c s sel) := by
  unfold progress
  rcases hp : s.pending with _ | ⟨b, a⟩
  · exact I
  · dsimp only
    rw [← hp]
    obtain ⟨hb, ha⟩ := I.pend b a hp
    subst hb
    refine { I with pend := ?pd, place := ?pl }
    case pl =>
      intro off p d hB
      cases I.place off p d hB with
      | cur a' h1 h2 h3 h4 => exact .cur a' h1 h2 h3 h4
      | prev a' h1 h2 h3 h4 h5 h6 => exact .prev a' h1 h2 h3 h4 h5 (by dsimp only; simp [hp])
      | disk h1 h2 h3 =>
        refine .disk h1 h2 ?_
        intro i hi
        have := h2 a ha
        rw [h3 i hi]
        simp only [overlay]
        rw [if_neg (by omega)]
    case pd => intro b' a' h; exact I.pend b' a' h

theorem finish_holds {c : Cfg} {sp : Spec β} {s : State β} (I : Inv c sp s) {off p : Int} {d : List β}
    (hB : Blk sp s off p d) :
    (∃ a, s.addr s.cur = some a ∧ a ≤ p ∧ p + d.length ≤ a + s.curpos ∧ Holds (s.buf s.cur) (p - a) d) ∨
    (Out' c (s.addr s.cur) p d ∧ Holds (finish c s).disk p d) := by
  cases I.place off p d hB with
  | cur a' h1 h2 h3 h4 => exact .inl ⟨a', h1, h2, h3, h4⟩
  | prev a' h1 h2 h3 h4 h5 h6 =>
    refine .inr ⟨h1, ?_⟩
    simp only [finish, progress]
    rcases hp : s.pending with _ | ⟨b, a⟩
    · exact h6 hp
    · obtain ⟨rfl, ha⟩ := I.pend b a hp
      rw [h2] at ha; cases ha
      intro i hi
      simp only [overlay]
      rw [if_pos (by simp only [and_true]; omega), h5 i hi]
      congr 2; omega
  | disk h1 h2 h3 =>
    refine .inr ⟨h1, ?_⟩
    simp only [finish, progress]
    rcases hp : s.pending with _ | ⟨b, a⟩
    · exact h3
    · obtain ⟨rfl, ha⟩ := I.pend b a hp
      have := h2 a ha
      intro i hi
      simp only [overlay]
      rw [if_neg (by omega), h3 i hi]

theorem finish_same (c : Cfg) (s : State β) :
    finish c s = { s with disk := (finish c s).disk, pending := none } := by
  unfold finish progress
  rcases s.pending with _ | ⟨b, a⟩ <;> rfl

theorem finish_inv {c : Cfg} {sp : Spec β} {s : State β} (I : Inv c sp s) : Inv c sp (finish c s) := by
  have hfin := @finish_holds β c sp s I
  have hprog := progress_inv I (fun _ => true)
  rw [finish_same]
  refine { I with pend := ?pd, place := ?pl }
  case pl =>
    intro off p d hB
    have h0 := hfin hB
    cases I.place off p d hB with
    | cur a' h1 h2 h3 h4 => exact .cur a' h1 h2 h3 h4
    | prev a' h1 h2 h3 h4 h5 h6 =>
      rcases h0 with ⟨a, g1, g2, g3, g4⟩ | ⟨g1, g2⟩
      · exact .cur a g1 g2 g3 g4
      · exact .prev a' h1 h2 h3 h4 h5 (fun _ => g2)
    | disk h1 h2 h3 =>
      rcases h0 with ⟨a, g1, g2, g3, g4⟩ | ⟨g1, g2⟩
      · exact .cur a g1 g2 g3 g4
      · exact .disk h1 h2 g2
  case pd => intro b a h; cases h

end Stxxl.Wbtl
