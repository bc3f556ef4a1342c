import Verif.Wbtl.Inv

/-! Every operation keeps the invariant. -/

namespace Stxxl.Wbtl

open Stxxl.DiskAlloc (FreeMap Region firstFit Sep Covers InRegion total)

variable {β : Type}

theorem freeRegion_ok {c : Cfg} {s : State β} {pos size : Int} (hsep : Sep s.free) (hsz : 0 < size)
    (hfree : ∀ x, pos ≤ x → x < pos + size → ¬ Covers s.free x) :
    ∃ m', freeRegion c s pos size = .ok { s with free := m', freeBytes := s.freeBytes + size } ∧ Sep m' ∧
      (∀ x, Covers m' x ↔ Covers s.free x ∨ (pos ≤ x ∧ x < pos + size)) ∧ total m' = total s.free + size := by
  obtain ⟨m', h1, h2⟩ := addFree_ok (junk := c.junk) (fb := s.freeBytes) hsep hsz hfree
  exact ⟨m', by simp [freeRegion, h1], h2⟩

theorem even_add {m m' : FreeMap} {pos size : Int} (hp : 2 ∣ pos) (hs : 2 ∣ size)
    (h : ∀ x, Covers m' x ↔ Covers m x ∨ (pos ≤ x ∧ x < pos + size))
    (he : ∀ k, Covers m (2 * k) ↔ Covers m (2 * k + 1)) (k : Int) :
    Covers m' (2 * k) ↔ Covers m' (2 * k + 1) := by
  have h1 : (pos ≤ 2 * k ∧ 2 * k < pos + size) ↔ (pos ≤ 2 * k + 1 ∧ 2 * k + 1 < pos + size) := by omega
  rw [h, h, he k, h1]

theorem even_sub {m m' : FreeMap} {pos size : Int} (hp : 2 ∣ pos) (hs : 2 ∣ size)
    (h : ∀ x, Covers m' x ↔ Covers m x ∧ ¬ (pos ≤ x ∧ x < pos + size))
    (he : ∀ k, Covers m (2 * k) ↔ Covers m (2 * k + 1)) (k : Int) :
    Covers m' (2 * k) ↔ Covers m' (2 * k + 1) := by
  have h1 : (pos ≤ 2 * k ∧ 2 * k < pos + size) ↔ (pos ≤ 2 * k + 1 ∧ 2 * k + 1 < pos + size) := by omega
  rw [h, h, he k, h1]

theorem setSize_inv {c : Cfg} {sp : Spec β} {s : State β} (I : Inv c sp s) {n : Int} (hn : sp.sz ≤ n)
    (hE : 2 ∣ n) : (setSize c s n).2 = none ∧ Inv c (sp.step (.setSize n)) (setSize c s n).1 := by
  unfold setSize
  have hsz := I.szEq
  rw [if_neg (by omega)]
  by_cases hlt : s.sz < n
  · rw [if_pos hlt]
    obtain ⟨m', h1, h2, h3, h4⟩ := freeRegion_ok (c := c) (s := s) (pos := s.sz) (size := n - s.sz) I.sep
      (by omega) (fun x hx1 _ hc => by have := I.bounds x hc; omega)
    rw [h1]
    refine ⟨rfl, ?_⟩
    have hszE := I.szE
    have hsz0 := I.sz0
    refine { I with
      szEq := rfl, sz0 := by dsimp only; omega, szE := hE, sep := h2
      bytes := by have := I.bytes; dsimp only; omega
      bounds := ?_, even := ?_, pos := ?_, nofree := ?_, addrOk := ?_, tailFree := ?_, place := ?_, cover := ?_ }
    · intro x hx
      dsimp only at hx ⊢
      rcases (h3 x).1 hx with h | h
      · have := I.bounds x h; omega
      · omega
    · exact even_add hszE (by omega) h3 I.even
    · intro off p d hB; have := I.pos off p d hB; dsimp only; omega
    · intro off p d hB x hx1 hx2 hc
      have := I.pos off p d hB
      rcases (h3 x).1 hc with h | h
      · exact I.nofree off p d hB x hx1 hx2 h
      · omega
    · intro a ha; have := I.addrOk a ha; dsimp only; omega
    · intro a ha x hx1 hx2 hc
      have := I.addrOk a ha
      rcases (h3 x).1 hc with h | h
      · exact I.tailFree a ha x hx1 hx2 h
      · omega
    · intro off p d hB
      cases I.place off p d hB with
      | cur a' h1 h2 h3 h4 => exact .cur a' h1 h2 h3 h4
      | prev a' h1 h2 h3 h4 h5 h6 => exact .prev a' h1 h2 h3 h4 h5 h6
      | disk h1 h2 h3 => exact .disk h1 h2 h3
    · intro x h1 h2
      dsimp only at h2
      by_cases hx : x < s.sz
      · rcases I.cover x h1 hx with h | h | h
        · exact .inl ((h3 x).2 (.inl h))
        · exact .inr (.inl h)
        · exact .inr (.inr h)
      · exact .inl ((h3 x).2 (.inr (by omega)))
  · rw [if_neg hlt]
    refine ⟨rfl, ?_⟩
    have : n = sp.sz := by omega
    subst this
    exact I

/-- Forgetting one block. -/
def Spec.drop (sp : Spec β) (off : Int) : Spec β :=
  { sp with cont := fun o => if o = off then none else sp.cont o }

theorem blk_drop {sp : Spec β} {s s' : State β} {off o p : Int} {d : List β}
    (ha : s'.amap = upd s.amap off none) (h : Blk (sp.drop off) s' o p d) : o ≠ off ∧ Blk sp s o p d := by
  obtain ⟨h1, h2⟩ := h
  rw [ha] at h2
  simp only [Spec.drop, upd] at h1 h2
  by_cases ho : o = off
  · rw [if_pos ho] at h1; cases h1
  · rw [if_neg ho] at h1 h2; exact ⟨ho, h1, h2⟩

theorem drop_blk {sp : Spec β} {s s' : State β} {off o p : Int} {d : List β}
    (ha : s'.amap = upd s.amap off none) (ho : o ≠ off) (h : Blk sp s o p d) : Blk (sp.drop off) s' o p d := by
  obtain ⟨h1, h2⟩ := h
  refine ⟨?_, ?_⟩
  · simp only [Spec.drop]; rw [if_neg ho]; exact h1
  · rw [ha]; simp only [upd]; rw [if_neg ho]; exact h2

theorem discard_inv {c : Cfg} {sp : Spec β} {s : State β} (I : Inv c sp s) {off size : Int}
    (hs : ∀ d, sp.cont off = some d → size = d.length) (g : Int → β) :
    (discard c s off size g).2 = none ∧ Inv c (sp.drop off) (discard c s off size g).1 := by
  unfold discard
  rcases ha : s.amap off with _ | p
  · refine ⟨rfl, ?_⟩
    have h0 := (I.dom off).1 ha
    have : sp.drop off = sp := by
      unfold Spec.drop
      cases sp
      congr
      funext o
      by_cases ho : o = off
      · rw [if_pos ho, ho]; exact h0.symm
      · rw [if_neg ho]
    rw [this]; exact I
  · rcases hd : sp.cont off with _ | d
    · rw [(I.dom off).2 hd] at ha; cases ha
    have hB : Blk sp s off p d := ⟨hd, ha⟩
    obtain rfl := hs d hd
    obtain ⟨p1, p2, p3, p4, p5⟩ := I.pos off p d hB
    obtain ⟨m', h1, h2, h3, h4⟩ := freeRegion_ok (c := c)
      (s := { s with amap := upd s.amap off none }) (pos := p) (size := d.length) I.sep
      (by omega) (I.nofree off p d hB)
    dsimp only at h1 h3 h4 ⊢
    rw [h1]
    dsimp only
    have hr := I.rev off p d hB
    rw [hr]
    simp only [Option.any_some, ne_eq, not_true_eq_false, decide_false, Bool.false_eq_true, if_false, true_and]
    obtain ⟨s', hs'⟩ : ∃ s', s' = { s with
      amap := upd s.amap off none, free := m', freeBytes := s.freeBytes + d.length,
      rmap := upd s.rmap p none, disk := overlay s.disk p d.length (fun _ => true) g } := ⟨_, rfl⟩
    rw [← hs']
    have hs1 : s'.amap = upd s.amap off none := by rw [hs']
    have hs2 : s'.free = m' := by rw [hs']
    have hs3 : s'.rmap = upd s.rmap p none := by rw [hs']
    have hs4 : s'.disk = overlay s.disk p d.length (fun _ => true) g := by rw [hs']
    have hs5 : s'.sz = s.sz := by rw [hs']
    have hs6 : s'.addr = s.addr := by rw [hs']
    have hs7 : s'.cur = s.cur := by rw [hs']
    have hs8 : s'.curpos = s.curpos := by rw [hs']
    have hs9 : s'.pending = s.pending := by rw [hs']
    have hs10 : s'.buf = s.buf := by rw [hs']
    have hs11 : s'.freeBytes = s.freeBytes + d.length := by rw [hs']
    have hout : ∀ {o q e}, Blk (sp.drop off) s' o q e →
        Blk sp s o q e ∧ (q + e.length ≤ p ∨ p + d.length ≤ q) := by
      intro o q e h
      obtain ⟨g1, g2⟩ := blk_drop hs1 h
      exact ⟨g2, I.disj o off q p e d g2 hB g1⟩
    clear hs'
    refine { szEq := ?_, sz0 := ?_, szE := ?_, sep := ?_, bytes := ?_, bounds := ?_, even := ?_, dom := ?_,
             rev := ?_, pos := ?_, nofree := ?_, disj := ?_, cp0 := ?_, cpW := ?_, cpE := ?_, addrOk := ?_,
             tailFree := ?_, tailLive := ?_, fresh := ?_, pend := ?_, place := ?_, cover := ?_ }
    · rw [hs5]; exact I.szEq
    · rw [hs5]; exact I.sz0
    · rw [hs5]; exact I.szE
    · rw [hs2]; exact h2
    · rw [hs11, hs2, h4, I.bytes]
    · intro x hx
      rw [hs2] at hx; rw [hs5]
      rcases (h3 x).1 hx with h | h
      · exact I.bounds x h
      · omega
    · rw [hs2]; exact even_add p4 (by omega) h3 I.even
    · intro o
      rw [hs1]
      simp only [upd, Spec.drop]
      by_cases ho : o = off
      · simp [ho]
      · rw [if_neg ho, if_neg ho]; exact I.dom o
    · intro o q e h
      obtain ⟨g1, g2⟩ := hout h
      rw [hs3]
      have := I.pos o q e g1
      simp only [upd]
      rw [if_neg (by omega)]
      exact I.rev o q e g1
    · intro o q e h; rw [hs5]; exact I.pos o q e (hout h).1
    · intro o q e h x hx1 hx2 hc
      obtain ⟨g1, g2⟩ := hout h
      rw [hs2] at hc
      rcases (h3 x).1 hc with hc | hc
      · exact I.nofree o q e g1 x hx1 hx2 hc
      · omega
    · intro o1 o2 q1 q2 e1 e2 g1 g2 hne
      exact I.disj o1 o2 q1 q2 e1 e2 (hout g1).1 (hout g2).1 hne
    · rw [hs8]; exact I.cp0
    · rw [hs8]; exact I.cpW
    · rw [hs8]; exact I.cpE
    · rw [hs6, hs7, hs5]; exact I.addrOk
    · intro a haa x hx1 hx2 hc
      rw [hs6, hs7] at haa
      rw [hs8] at hx1
      rw [hs2] at hc
      rcases (h3 x).1 hc with hc | hc
      · exact I.tailFree a haa x hx1 hx2 hc
      · have := I.tailLive a haa off p d hB; omega
    · intro a haa o q e h
      rw [hs6, hs7] at haa
      rw [hs8]
      exact I.tailLive a haa o q e (hout h).1
    · rw [hs6, hs7, hs8]; exact I.fresh
    · rw [hs6, hs7, hs9]; exact I.pend
    · intro o q e h
      obtain ⟨g1, g2⟩ := hout h
      have hdk : Holds s.disk q e → Holds s'.disk q e := by
        intro hh i hi
        rw [hs4, hh i hi]
        simp only [overlay]
        rw [if_neg (by omega)]
      cases I.place o q e g1 with
      | cur a' h1 h2 h3 h4 =>
        exact .cur a' (by rw [hs6, hs7]; exact h1) h2 (by rw [hs8]; exact h3) (by rw [hs10, hs7]; exact h4)
      | prev a' h1 h2 h3 h4 h5 h6 =>
        exact .prev a' (by rw [hs6, hs7]; exact h1) (by rw [hs6, hs7]; exact h2) h3 h4
          (by rw [hs10, hs7]; exact h5) (by rw [hs9]; exact fun h => hdk (h6 h))
      | disk h1 h2 h3 =>
        exact .disk (by rw [hs6, hs7]; exact h1) (by rw [hs6, hs7]; exact h2) (hdk h3)
    · intro x h1 h2
      rw [hs5] at h2
      rw [hs2, hs6, hs7, hs8]
      rcases I.cover x h1 h2 with h | ⟨o, q, e, hb, hq⟩ | h
      · exact .inl ((h3 x).2 (.inl h))
      · by_cases ho : o = off
        · subst ho
          obtain ⟨k1, k2⟩ := hb
          rw [hd] at k1; rw [ha] at k2
          cases k1; cases k2
          exact .inl ((h3 x).2 (.inr hq))
        · exact .inr (.inl ⟨o, q, e, drop_blk hs1 ho hb, hq⟩)
      · exact .inr (.inr h)

/-- `flush`: the rest of the current buffer becomes free and the buffer is being written. -/
theorem flush_ok {c : Cfg} {sp : Spec β} {s : State β} (I : Inv c sp s) (hE : 2 ∣ c.W) :
    ∃ m' fb' dk pd, flush c s = .ok { s with free := m', freeBytes := fb', disk := dk, pending := pd } ∧
      dk = (finish c s).disk ∧ (∀ a, s.addr s.cur = some a → pd = some (s.cur, a)) ∧
      (s.addr s.cur = none → pd = none) ∧
      Sep m' ∧ fb' = total m' ∧ (∀ k, Covers m' (2 * k) ↔ Covers m' (2 * k + 1)) ∧
      (∀ x, Covers m' x ↔ Covers s.free x ∨
        ∃ a, s.addr s.cur = some a ∧ a + s.curpos ≤ x ∧ x < a + c.W) := by
  unfold flush
  have hb := I.bytes
  rcases ha : s.addr s.cur with _ | a
  · have hp : s.pending = none := by
      rcases hp : s.pending with _ | ⟨b, a⟩
      · rfl
      · have := (I.pend b a hp).2
        rw [(I.fresh ha).2] at this; cases this
    refine ⟨s.free, s.freeBytes, s.disk, s.pending, rfl, ?_, by simp, fun _ => hp, I.sep, hb, I.even, by simp⟩
    simp [finish, progress, hp]
  · dsimp only
    have hao := I.addrOk a ha
    by_cases hlt : s.curpos < c.W
    · rw [if_pos hlt]
      obtain ⟨m', h1, h2, h3, h4⟩ := freeRegion_ok (c := c) (s := s) (pos := a + s.curpos)
        (size := c.W - s.curpos) I.sep (by omega)
        (fun x hx1 hx2 => I.tailFree a ha x hx1 (by omega))
      have hcE := I.cpE
      rw [h1]
      refine ⟨m', s.freeBytes + (c.W - s.curpos), (finish c s).disk, some (s.cur, a), ?_, rfl, ?_, ?_, h2,
        by omega, even_add (by omega) (by omega) h3 I.even, ?_⟩
      · dsimp only
        rw [finish_same]
        congr 2
        simp only [finish, progress]
        rcases s.pending with _ | ⟨b, a⟩ <;> rfl
      · intro a' h; cases h; rfl
      · intro h; cases h
      · intro x
        rw [h3]
        constructor
        · rintro (h | h)
          · exact .inl h
          · exact .inr ⟨a, rfl, by omega, by omega⟩
        · rintro (h | ⟨a', h, h5, h6⟩)
          · exact .inl h
          · cases h; exact .inr (by omega)
    · rw [if_neg hlt]
      refine ⟨s.free, s.freeBytes, (finish c s).disk, some (s.cur, a), ?_, rfl, ?_, ?_, I.sep, hb, I.even, ?_⟩
      · dsimp only
        rw [finish_same]
      · intro a' h; cases h; rfl
      · intro h; cases h
      · intro x
        have := I.cpW
        constructor
        · exact .inl
        · rintro (h | ⟨a', h, h5, h6⟩)
          · exact h
          · cases h; omega

theorem newBuffer_inv {c : Cfg} {sp : Spec β} {s : State β} (I : Inv c sp s) (hW : 0 < c.W) (hE : 2 ∣ c.W) :
    ((newBuffer c s).2 = none ∧ Inv c sp (newBuffer c s).1 ∧ (newBuffer c s).1.curpos = 0 ∧
      (newBuffer c s).1.amap = s.amap ∧
      ∃ a, (newBuffer c s).1.addr (newBuffer c s).1.cur = some a) ∨
    ((newBuffer c s).2 = some .outOfSpace ∧
      ∀ q, 0 ≤ q → q + c.W ≤ s.sz →
        ∃ off p d, Blk sp s off p d ∧ p < q + c.W ∧ q < p + d.length) := by
  obtain ⟨m1, fb1, dk, pd, hf, hdk, hpd, hpd0, hsep1, hfb1, hev1, hcov1⟩ := flush_ok I hE
  unfold newBuffer
  rw [hf]
  dsimp only
  rcases hn : nextBlock c { s with free := m1, freeBytes := fb1, disk := dk, pending := pd, cur := !s.cur }
    with _ | ⟨s2, r⟩
  · right
    refine ⟨rfl, ?_⟩
    intro q hq1 hq2
    obtain ⟨x, hx1, hx2, hx3⟩ := nextBlock_none hW (by exact hsep1) hn q
    dsimp only at hx3
    rcases I.cover x (by omega) (by omega) with h | ⟨o, p, d, hb, hx⟩ | h
    · exact absurd ((hcov1 x).2 (.inl h)) hx3
    · exact ⟨o, p, d, hb, by omega, by omega⟩
    · exact absurd ((hcov1 x).2 (.inr h)) hx3
  · left
    obtain ⟨m2, hs2, hsep2, hcov2, hr1, hr2, htot⟩ := nextBlock_some hW (by exact hsep1) hn
    dsimp only at hcov2 hr1 hr2 htot hs2 ⊢
    subst hs2
    refine ⟨rfl, ?_, rfl, rfl, ⟨r, by simp [upd]⟩⟩
    dsimp only
    have hrE : 2 ∣ r := by
      by_contra hodd
      have h1 : Covers m1 r := hr1 r (by omega) (by omega)
      obtain ⟨k, hk⟩ : ∃ k, r = 2 * k + 1 := ⟨r / 2, by omega⟩
      rw [hk] at h1
      have := (hev1 k).2 h1
      apply hr2
      rw [hk]
      have e : 2 * k + 1 - 1 = 2 * k := by omega
      rw [e]; exact this
    have hbnd : ∀ x, Covers m1 x → 0 ≤ x ∧ x < s.sz := by
      intro x hx
      rcases (hcov1 x).1 hx with h | ⟨a, h1, h2, h3⟩
      · exact I.bounds x h
      · have := I.addrOk a h1; have := I.cp0; omega
    have hlive : ∀ o p d, Blk sp s o p d → ∀ x, p ≤ x → x < p + d.length → ¬ Covers m1 x := by
      intro o p d hb x hx1 hx2 hc
      rcases (hcov1 x).1 hc with h | ⟨a, h1, h2, h3⟩
      · exact I.nofree o p d hb x hx1 hx2 h
      · have := I.tailLive a h1 o p d hb; omega
    have hb1 := hbnd r (hr1 r (by omega) (by omega))
    have hb2 := hbnd (r + c.W - 1) (hr1 _ (by omega) (by omega))
    have hout : ∀ o p d, Blk sp s o p d → p + d.length ≤ r ∨ r + c.W ≤ p := by
      intro o p d hb
      have hp := I.pos o p d hb
      by_contra hcon
      by_cases hle : r ≤ p
      · exact hlive o p d hb p (by omega) (by omega) (hr1 p hle (by omega))
      · exact hlive o p d hb r (by omega) (by omega) (hr1 r (by omega) (by omega))
    have hcur : (upd s.addr (!s.cur) (some r)) (!s.cur) = some r := by simp [upd]
    have hprev : (upd s.addr (!s.cur) (some r)) (!!s.cur) = s.addr s.cur := by
      simp only [upd, Bool.not_not]
      rw [if_neg (by cases s.cur <;> simp)]
    refine { szEq := I.szEq, sz0 := I.sz0, szE := I.szE, sep := hsep2, bytes := ?_, bounds := ?_, even := ?_,
             dom := I.dom, rev := I.rev, pos := I.pos, nofree := ?_, disj := I.disj, cp0 := ?_, cpW := ?_,
             cpE := ?_, addrOk := ?_,
             tailFree := ?_, tailLive := ?_, fresh := ?_, pend := ?_, place := ?_, cover := ?_ }
    · dsimp only; omega
    · intro x hx; exact hbnd x ((hcov2 x).1 hx).1
    · exact even_sub hrE hE hcov2 hev1
    · intro o p d hb x hx1 hx2 hc
      exact hlive o p d hb x hx1 hx2 ((hcov2 x).1 hc).1
    · simp
    · dsimp only; omega
    · simp
    · intro a h
      dsimp only at h ⊢
      rw [hcur] at h; cases h; omega
    · intro a h x hx1 hx2 hc
      dsimp only at h hx1 hx2 hc
      rw [hcur] at h; cases h
      exact ((hcov2 x).1 hc).2 (by omega)
    · intro a h o p d hb
      dsimp only at h ⊢
      rw [hcur] at h; cases h
      have := hout o p d hb; omega
    · intro h; dsimp only at h; rw [hcur] at h; cases h
    · intro b a h
      dsimp only at h ⊢
      rcases ha : s.addr s.cur with _ | a'
      · rw [hpd0 ha] at h; cases h
      · rw [hpd a' ha] at h
        cases h
        rw [hprev, Bool.not_not]
        exact ⟨rfl, ha⟩
    · intro o p d hb
      have ho := hout o p d hb
      have hoc : Out' c ((upd s.addr (!s.cur) (some r)) (!s.cur)) p d := by
        rw [hcur]; intro x hx; cases hx; exact ho
      rcases finish_holds I hb with ⟨a, h1, h2, h3, h4⟩ | ⟨h1, h2⟩
      · refine .prev a hoc ?_ h2 (by have := I.cpW; omega) ?_ ?_
        · dsimp only; rw [hprev]; exact h1
        · dsimp only; rw [Bool.not_not]; exact h4
        · intro h; dsimp only at h; rw [hpd a h1] at h; cases h
      · refine .disk hoc ?_ ?_
        · dsimp only; rw [hprev]; exact h1
        · dsimp only; rw [hdk]; exact h2
    · intro x h1 h2
      dsimp only at h2 ⊢
      rw [hcur]
      by_cases hx : r ≤ x ∧ x < r + c.W
      · exact .inr (.inr ⟨r, rfl, by omega, by omega⟩)
      · rcases I.cover x h1 h2 with h | h | h
        · exact .inl ((hcov2 x).2 ⟨(hcov1 x).2 (.inl h), hx⟩)
        · exact .inr (.inl h)
        · exact .inl ((hcov2 x).2 ⟨(hcov1 x).2 (.inr h), hx⟩)

/-- Adding one block. -/
def Spec.put (sp : Spec β) (off : Int) (d : List β) : Spec β :=
  { sp with cont := fun o => if o = off then some d else sp.cont o }

theorem place_inv {c : Cfg} {sp : Spec β} {s : State β} (I : Inv c sp s) {off a : Int} {d : List β}
    (hn : sp.cont off = none) (ha : s.addr s.cur = some a) (hd : d ≠ []) (hdE : 2 ∣ d.length)
    (hfit : (d.length : Int) ≤ c.W - s.curpos) : Inv c (sp.put off d) (place s off d) := by
  have hlen : 0 < d.length := by cases d; exact absurd rfl hd; simp
  have hao := I.addrOk a ha
  have hcp0 := I.cp0
  have hcpW := I.cpW
  have hcpE := I.cpE
  obtain ⟨s', hs'⟩ : ∃ s', s' = place s off d := ⟨_, rfl⟩
  rw [← hs']
  simp only [Wbtl.place, ha] at hs'
  have hs1 : s'.amap = upd s.amap off (some (a + s.curpos)) := by rw [hs']
  have hs2 : s'.free = s.free := by rw [hs']
  have hs3 : s'.rmap = upd s.rmap (a + s.curpos) (some (off, (d.length : Int))) := by rw [hs']
  have hs4 : s'.disk = s.disk := by rw [hs']
  have hs5 : s'.sz = s.sz := by rw [hs']
  have hs6 : s'.addr = s.addr := by rw [hs']
  have hs7 : s'.cur = s.cur := by rw [hs']
  have hs8 : s'.curpos = s.curpos + d.length := by rw [hs']
  have hs9 : s'.pending = s.pending := by rw [hs']
  have hs10 : s'.buf = upd s.buf s.cur (fun x =>
        if s.curpos ≤ x then (d[(x - s.curpos).toNat]?).getD (s.buf s.cur x) else s.buf s.cur x) := by rw [hs']
  have hs11 : s'.freeBytes = s.freeBytes := by rw [hs']
  clear hs'
  have hcase : ∀ {o q e}, Blk (sp.put off d) s' o q e →
      (o = off ∧ q = a + s.curpos ∧ e = d) ∨ (o ≠ off ∧ Blk sp s o q e) := by
    rintro o q e ⟨h1, h2⟩
    rw [hs1] at h2
    simp only [upd, Spec.put] at h1 h2
    by_cases ho : o = off
    · rw [if_pos ho] at h1 h2; cases h1; cases h2; exact .inl ⟨ho, rfl, rfl⟩
    · rw [if_neg ho] at h1 h2; exact .inr ⟨ho, h1, h2⟩
  have hnew : Blk (sp.put off d) s' off (a + s.curpos) d := by
    refine ⟨?_, ?_⟩
    · simp [Spec.put]
    · rw [hs1]; simp [upd]
  have hold : ∀ {o q e}, Blk sp s o q e → Blk (sp.put off d) s' o q e := by
    rintro o q e ⟨h1, h2⟩
    have ho : o ≠ off := by rintro rfl; rw [hn] at h1; cases h1
    refine ⟨?_, ?_⟩
    · simp only [Spec.put]; rw [if_neg ho]; exact h1
    · rw [hs1]; simp only [upd]; rw [if_neg ho]; exact h2
  have htl : ∀ {o q e}, Blk sp s o q e → q + e.length ≤ a + s.curpos ∨ a + c.W ≤ q :=
    fun h => I.tailLive a ha _ _ _ h
  refine { szEq := ?_, sz0 := ?_, szE := ?_, sep := ?_, bytes := ?_, bounds := ?_, even := ?_, dom := ?_,
           rev := ?_, pos := ?_, nofree := ?_, disj := ?_, cp0 := ?_, cpW := ?_, cpE := ?_, addrOk := ?_,
           tailFree := ?_, tailLive := ?_, fresh := ?_, pend := ?_, place := ?_, cover := ?_ }
  · rw [hs5]; exact I.szEq
  · rw [hs5]; exact I.sz0
  · rw [hs5]; exact I.szE
  · rw [hs2]; exact I.sep
  · rw [hs11, hs2]; exact I.bytes
  · rw [hs2, hs5]; exact I.bounds
  · rw [hs2]; exact I.even
  · intro o
    rw [hs1]
    simp only [upd, Spec.put]
    by_cases ho : o = off
    · simp [ho]
    · rw [if_neg ho, if_neg ho]; exact I.dom o
  · intro o q e h
    rw [hs3]
    simp only [upd]
    rcases hcase h with ⟨rfl, rfl, rfl⟩ | ⟨ho, hb⟩
    · rw [if_pos rfl]
    · have := htl hb; have := I.pos o q e hb
      rw [if_neg (by omega)]; exact I.rev o q e hb
  · intro o q e h
    rw [hs5]
    rcases hcase h with ⟨rfl, rfl, rfl⟩ | ⟨ho, hb⟩
    · omega
    · exact I.pos o q e hb
  · intro o q e h
    rw [hs2]
    rcases hcase h with ⟨rfl, rfl, rfl⟩ | ⟨ho, hb⟩
    · intro x h1 h2; exact I.tailFree a ha x h1 (by omega)
    · exact I.nofree o q e hb
  · intro o1 o2 q1 q2 e1 e2 g1 g2 hne
    rcases hcase g1 with ⟨rfl, rfl, rfl⟩ | ⟨ho, hb⟩ <;> rcases hcase g2 with ⟨h1, h2, h3⟩ | ⟨ho2, hb2⟩
    · exact absurd h1.symm hne
    · have := htl hb2; omega
    · subst h2 h3; have := htl hb; omega
    · exact I.disj _ _ _ _ _ _ hb hb2 hne
  · rw [hs8]; omega
  · rw [hs8]; omega
  · rw [hs8]; omega
  · rw [hs6, hs7, hs5]; exact I.addrOk
  · intro a' h x h1 h2
    rw [hs6, hs7, ha] at h; cases h
    rw [hs8] at h1
    rw [hs2]
    exact I.tailFree a ha x (by omega) h2
  · intro a' h o q e hb
    rw [hs6, hs7, ha] at h; cases h
    rw [hs8]
    rcases hcase hb with ⟨rfl, rfl, rfl⟩ | ⟨ho, hb⟩
    · omega
    · have := htl hb; omega
  · intro h; rw [hs6, hs7, ha] at h; cases h
  · rw [hs6, hs7, hs9]; exact I.pend
  · intro o q e h
    rcases hcase h with ⟨rfl, rfl, rfl⟩ | ⟨ho, hb⟩
    · refine .cur a (by rw [hs6, hs7]; exact ha) (by omega) (by rw [hs8]; omega) ?_
      intro i hi
      rw [hs10, hs7]
      simp only [upd, if_true]
      rw [if_pos (by omega)]
      have e1 : (a + s.curpos - a + (i : Int) - s.curpos).toNat = i := by omega
      rw [e1, List.getElem?_eq_getElem hi, Option.getD_some]
    · have htq := htl hb
      cases I.place o q e hb with
      | cur a' h1 h2 h3 h4 =>
        refine .cur a' (by rw [hs6, hs7]; exact h1) h2 (by rw [hs8]; omega) ?_
        rw [ha] at h1; cases h1
        intro i hi
        rw [hs10, hs7, h4 i hi]
        simp only [upd, if_true]
        rw [if_neg (by omega)]
      | prev a' h1 h2 h3 h4 h5 h6 =>
        refine .prev a' (by rw [hs6, hs7]; exact h1) (by rw [hs6, hs7]; exact h2) h3 h4 ?_ ?_
        · rw [hs10, hs7]
          simp only [upd]
          rw [if_neg (by cases s.cur <;> simp)]
          exact h5
        · rw [hs9, hs4]; exact h6
      | disk h1 h2 h3 =>
        exact .disk (by rw [hs6, hs7]; exact h1) (by rw [hs6, hs7]; exact h2) (by rw [hs4]; exact h3)
  · intro x h1 h2
    rw [hs5] at h2
    rw [hs2, hs6, hs7, hs8]
    rcases I.cover x h1 h2 with h | ⟨o, q, e, hb, hq⟩ | ⟨a', h, h3, h4⟩
    · exact .inl h
    · exact .inr (.inl ⟨o, q, e, hold hb, hq⟩)
    · rw [ha] at h; cases h
      by_cases hx : a + (s.curpos + d.length) ≤ x
      · exact .inr (.inr ⟨a, ha, hx, h4⟩)
      · exact .inr (.inl ⟨off, _, d, hnew, h3, by omega⟩)

/-- `swrite` succeeds and keeps the invariant, or there is no room. -/
theorem write_inv {c : Cfg} {sp : Spec β} {s : State β} (I : Inv c sp s) (hW : 0 < c.W) (hE : 2 ∣ c.W)
    {off : Int} {d : List β} (hd : d ≠ []) (hfit : (d.length : Int) ≤ c.W) (hdE : 2 ∣ d.length)
    (hsame : ∀ d', sp.cont off = some d' → d'.length = d.length) (g : Int → β) :
    ((write c s off d g).2 = none ∧ Inv c (sp.put off d) (write c s off d g).1) ∨
    ((write c s off d g).2 = some .outOfSpace ∧ ∀ q, 0 ≤ q → q + c.W ≤ s.sz →
        ∃ o p e, o ≠ off ∧ Blk sp s o p e ∧ p < q + c.W ∧ q < p + e.length) := by
  unfold write
  have hlen : 0 < d.length := by cases d; exact absurd rfl hd; simp
  obtain ⟨s1, hs1, hI1, hb1, hz1⟩ : ∃ s1, (if (s.amap off).isSome then discard c s off (d.length : Int) g
      else (s, none)) = (s1, none) ∧ Inv c (sp.drop off) s1 ∧
      (∀ o p e, Blk (sp.drop off) s1 o p e → o ≠ off ∧ Blk sp s o p e) ∧ s1.sz = s.sz := by
    have hdis := discard_inv (size := (d.length : Int)) I (off := off) (fun d' h => by rw [hsame d' h]) g
    by_cases hm : (s.amap off).isSome
    · rw [if_pos hm]
      refine ⟨(discard c s off d.length g).1, ?_, hdis.2, ?_, ?_⟩
      · rw [← hdis.1]
      · intro o p e hb
        have : (discard c s off d.length g).1.amap = upd s.amap off none := by
          unfold discard
          rcases ha : s.amap off with _ | p
          · rw [ha] at hm; cases hm
          · dsimp only
            rcases hf : freeRegion c { s with amap := upd s.amap off none } p d.length with e | s2
            · rfl
            · have : s2.amap = upd s.amap off none := by
                unfold freeRegion at hf
                split at hf
                · cases hf
                · cases hf; rfl
              dsimp only
              split <;> exact this
        exact blk_drop this hb
      · have := hdis.2.szEq; have := I.szEq
        simp only [Spec.drop] at *; omega
    · rw [if_neg hm]
      have ha : s.amap off = none := by simpa using hm
      have h2 := hdis.2
      have h3 : discard c s off d.length g = (s, none) := by simp [discard, ha]
      rw [h3] at h2
      refine ⟨s, rfl, h2, ?_, rfl⟩
      rintro o p e ⟨h4, h5⟩
      simp only [Spec.drop] at h4
      by_cases ho : o = off
      · rw [if_pos ho] at h4; cases h4
      · rw [if_neg ho] at h4; exact ⟨ho, h4, h5⟩
  rw [hs1]
  dsimp only
  have hpp : (sp.drop off).put off d = sp.put off d := by
    unfold Spec.put Spec.drop
    cases sp
    congr
    funext o
    dsimp only
    by_cases ho : o = off
    · rw [if_pos ho, if_pos ho]
    · rw [if_neg ho, if_neg ho, if_neg ho]
  have hnone : (sp.drop off).cont off = none := by simp [Spec.drop]
  unfold writeTail
  by_cases hbig : (d.length : Int) > c.W - s1.curpos
  · rw [if_pos hbig]
    dsimp only
    rcases newBuffer_inv hI1 hW hE with ⟨h1, h2, h3, h4, a, h5⟩ | ⟨h1, h2⟩
    · left
      rw [h1]
      dsimp only
      rw [if_neg (by rw [h3]; omega)]
      refine ⟨rfl, ?_⟩
      rw [← hpp]
      exact place_inv h2 hnone h5 hd hdE (by rw [h3]; omega)
    · right
      rw [h1]
      refine ⟨rfl, ?_⟩
      intro q hq1 hq2
      obtain ⟨o, p, e, hb, hx⟩ := h2 q hq1 (by omega)
      obtain ⟨g1, g2⟩ := hb1 o p e hb
      exact ⟨o, p, e, g1, g2, hx⟩
  · left
    rw [if_neg hbig]
    dsimp only
    rw [if_neg hbig]
    refine ⟨rfl, ?_⟩
    rcases ha : s1.addr s1.cur with _ | a
    · have := (hI1.fresh ha).1; omega
    · rw [← hpp]
      exact place_inv hI1 hnone ha hd hdE (by omega)

theorem slice_holds {f : Int → β} {p : Int} {d : List β} (h : Holds f p d) {n : Nat} (hn : n ≤ d.length) :
    slice f p n = d.take n := by
  apply List.ext_getElem?
  intro i
  unfold slice
  rw [List.getElem?_take]
  by_cases hi : i < n
  · rw [if_pos hi, h i (by omega)]
    simp [hi]
  · rw [if_neg hi]
    simp; omega

/-- `sread` returns what the block holds. -/
theorem read_ok {c : Cfg} {sp : Spec β} {s : State β} (I : Inv c sp s) {off : Int} {d : List β} {n : Nat}
    (hd : sp.cont off = some d) (hn : n ≤ d.length) : read c s off n = .data (d.take n) := by
  rcases ha : s.amap off with _ | p
  · rw [(I.dom off).1 ha] at hd; cases hd
  have hB : Blk sp s off p d := ⟨hd, ha⟩
  have hp := I.pos off p d hB
  unfold read
  simp only [ha, Option.getD_some]
  have hnot : ∀ a, Out' c a p d → inBuf c a p = false := by
    intro a h
    rcases a with _ | a
    · rfl
    · have := h a rfl
      simp only [inBuf, Option.any_some, decide_eq_false_iff_not]; omega
  cases I.place off p d hB with
  | cur a h1 h2 h3 h4 =>
    have := I.cpW
    have hin : inBuf c (s.addr s.cur) p = true := by rw [h1]; simp [inBuf]; omega
    rw [if_pos hin]
    simp only [readBuf, h1]
    rw [if_pos (by omega), slice_holds h4 hn]
  | prev a h1 h2 h3 h4 h5 h6 =>
    have hin : inBuf c (s.addr (!s.cur)) p = true := by rw [h2]; simp [inBuf]; omega
    rw [if_neg (by rw [hnot _ h1]; simp), if_pos hin]
    simp only [readBuf, h2]
    rw [if_pos (by omega), slice_holds h5 hn]
  | disk h1 h2 h3 =>
    rw [if_neg (by rw [hnot _ h1]; simp), if_neg (by rw [hnot _ h2]; simp), if_neg (by omega),
      slice_holds h3 hn]

/-- One event. -/
theorem step_inv {c : Cfg} {sp : Spec β} {s : State β} (I : Inv c sp s) (hW : 0 < c.W) (hE : 2 ∣ c.W)
    (o : Op β) (hl : Legal c.W sp o) :
    OutOk sp o (step c s o).2 ∧ ((step c s o).2 ≠ .exc .outOfSpace → Inv c (sp.step o) (step c s o).1) := by
  cases o with
  | setSize n =>
    obtain ⟨h1, h2⟩ := setSize_inv I hl.1 hl.2
    refine ⟨?_, fun _ => h2⟩
    simp only [OutOk, step]; rw [h1]; rfl
  | write off d g =>
    obtain ⟨l1, l2, l3, l4⟩ := hl
    rcases write_inv I hW hE l1 l2 l3 l4 g with ⟨h1, h2⟩ | ⟨h1, -⟩
    · refine ⟨?_, fun _ => h2⟩
      simp only [OutOk, step]; rw [h1]; exact .inl rfl
    · refine ⟨?_, ?_⟩
      · simp only [OutOk, step]; rw [h1]; exact .inr rfl
      · intro h; exfalso; apply h; simp only [step]; rw [h1]; rfl
  | discard off size g =>
    obtain ⟨h1, h2⟩ := discard_inv (size := size) I hl g
    refine ⟨?_, fun _ => h2⟩
    simp only [OutOk, step]; rw [h1]; rfl
  | read off n =>
    refine ⟨?_, fun _ => I⟩
    intro d hd
    simp only [step]
    rw [read_ok I hd (hl d hd)]
  | progress sel => exact ⟨rfl, fun _ => progress_inv I sel⟩
  | finish => exact ⟨rfl, fun _ => finish_inv I⟩

theorem reach_inv {c : Cfg} (hW : 0 < c.W) (hE : 2 ∣ c.W) {sp : Spec β} {s : State β} (h : Reach c sp s) :
    Inv c sp s := by
  induction h with
  | init mem disk => exact init_inv c hW hE mem disk
  | step o _ hl ho ih => exact (step_inv ih hW hE o hl).2 ho

theorem run_conforms {c : Cfg} (hW : 0 < c.W) (hE : 2 ∣ c.W) (os : List (Op β)) :
    ∀ {sp : Spec β} {s : State β}, Inv c sp s → LegalHist c.W sp os → Conforms sp os (run c s os).2 := by
  induction os with
  | nil => intro sp s _ _; rfl
  | cons o os ih =>
    intro sp s I hl
    obtain ⟨h1, h2⟩ := step_inv I hW hE o hl.1
    refine ⟨h1, ?_⟩
    by_cases h : (step c s o).2 = .exc .outOfSpace
    · exact .inl h
    · exact .inr (ih (h2 h) hl.2)

end Stxxl.Wbtl
