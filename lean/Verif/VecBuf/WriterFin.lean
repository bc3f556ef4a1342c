import Verif.VecBuf.WriterPut
/-! Finishing the buffered writer. -/
namespace Stxxl.VecBuf
open Stxxl.ExtVector
open Spec
variable {α : Type} {B P : Nat}

/-- Only page `pg` may be cached. -/
def One (pg : Nat) (s : Sys α) : Prop := ∀ (p t : Nat), s.vec.p2s[p]? = some (some t) → p = pg

def Clean (s : Sys α) : Prop := ∀ p : Nat, s.vec.status[p]? ≠ some .dirty

theorem readPage_frame {s s' : Sys α} {pg slot : Nat} (h : readPage P s pg slot = some s') :
    s'.disk = s.disk ∧ s'.vec.p2s = s.vec.p2s := by
  unfold readPage at h
  cases hs : s.vec.status[pg]? with
  | none => simp [hs] at h
  | some st =>
    rw [hs] at h
    dsimp only at h
    split at h
    · cases h; exact ⟨rfl, rfl⟩
    · split at h
      · cases h
      · cases h; exact ⟨rfl, rfl⟩

theorem fetch_one {s : Sys α} {A pg victim} (h : ExtVector.Inv B P s A) (h1 : One pg s) (hpage : pg * P < s.vec.bids.length) :
    ∃ s' slot, fetch P s pg victim = some (s', slot) ∧ ExtVector.Inv B P s' A ∧ Same s s' ∧ s'.vec.p2s[pg]? = some (some slot) ∧
      One pg s' ∧ s'.vec.status = s.vec.status ∧ s'.disk = s.disk := by
  have hlt : pg < s.vec.p2s.length := by
    rw [← h.lens]
    have := h.page_lt hpage
    rwa [Nat.mul_div_cancel _ h.hP] at this
  obtain ⟨m, hm⟩ : ∃ m, s.vec.p2s[pg]? = some m := ⟨_, List.getElem?_eq_getElem hlt⟩
  unfold fetch
  rw [hm]
  cases m with
  | some t => exact ⟨s, t, rfl, h, Same.refl s, hm, h1, rfl, rfl⟩
  | none =>
    dsimp only
    cases hf : s.vec.free with
    | nil =>
      exfalso
      rcases h.slots 0 h.np with q | q
      · rw [hf] at q; simp at q
      · have := h1 _ _ q
        rw [this, hm] at q
        simp at q
    | cons slot rest =>
      dsimp only
      obtain ⟨s', l1, l2, l3, l4, l5⟩ := load_inv h hf hm hpage
      obtain ⟨f1, f2⟩ := readPage_frame l1
      rw [l1]
      refine ⟨s', slot, rfl, l2, l3, l4, ?_, l5, f1⟩
      intro p t hp
      rw [f2] at hp
      dsimp only at hp
      rw [List.getElem?_set] at hp
      by_cases e : pg = p
      · exact e.symm
      · rw [if_neg e] at hp; exact h1 _ _ hp

/-- A clean page is dropped and marked. -/
theorem drop_one {s : Sys α} {pg} (h : Base B P s) (h1 : One pg s) (hc : Clean s) (hpg : pg < s.vec.status.length) :
    ∃ s', pageExternallyUpdated s pg = some s' ∧ Base B P s' ∧ Calm s' ∧ s'.vec.size = s.vec.size ∧ s'.vec.bids = s.vec.bids ∧
      s'.vec.npages = s.vec.npages ∧ s'.disk = s.disk ∧ s'.vec.status = s.vec.status.set pg .valid := by
  have hlt : pg < s.vec.p2s.length := by rw [← h.inv.lens]; exact hpg
  obtain ⟨m, hm⟩ : ∃ m, s.vec.p2s[pg]? = some m := ⟨_, List.getElem?_eq_getElem hlt⟩
  have hnd : ∀ p : Nat, (s.vec.status.set pg .valid)[p]? ≠ some .dirty := by
    intro p
    rw [List.getElem?_set]
    have := hc p
    split
    · simp
    · exact this
  cases m with
  | none =>
    have calm : Calm s := by
      intro p t hp
      have := h1 p t hp
      rw [this, hm] at hp
      simp at hp
    have hb := base_of (s := { s with vec := { s.vec with status := s.vec.status.set pg .valid } }) h calm rfl rfl rfl rfl rfl rfl
      (by simp) hnd (List.Perm.refl _)
    exact ⟨_, mark_calm h calm hpg, hb.1, hb.2, rfl, rfl, rfl, rfl, rfl⟩
  | some t =>
    have hu := unmap_inv h.inv hm (hc pg)
    have hbu : Base B P { s with vec := { s.vec with free := s.vec.free ++ [t], p2s := s.vec.p2s.set pg none } } :=
      ⟨hu, h.ids, h.tight, h.own, h.own'⟩
    have calm : Calm { s with vec := { s.vec with free := s.vec.free ++ [t], p2s := s.vec.p2s.set pg none } } := by
      intro p t' hp
      dsimp only at hp
      rw [List.getElem?_set] at hp
      by_cases e : pg = p
      · rw [if_pos e] at hp; split at hp <;> simp at hp
      · rw [if_neg e] at hp; exact e (h1 _ _ hp).symm
    have hb := base_of (s := { s with vec := { s.vec with free := s.vec.free ++ [t], p2s := s.vec.p2s.set pg none, status := s.vec.status.set pg .valid } })
      hbu calm rfl rfl rfl rfl rfl rfl (by simp) hnd (List.Perm.refl _)
    refine ⟨_, ?_, hb.1, hb.2, rfl, rfl, rfl, rfl, rfl⟩
    have h2 := List.getElem?_eq_getElem hpg
    unfold pageExternallyUpdated
    rw [h2, hm]
    dsimp only
    rw [if_neg (fun q => hc pg (by rw [h2, q]))]

/-- While `finish` fills the last block. -/
structure Fil (B P np : Nat) (s : Sys α) (iter prev pos : Nat) (o : Bo α) (A : List (Option α)) : Prop where
  w : WInv B P false s (List.replicate iter none ++ A.drop iter)
  one : One (prev / B / P) s
  clean : Clean s
  npg : s.vec.npages = np
  len : A.length = s.vec.size
  il : iter ≤ A.length
  elem : o.elem = pos % B
  bid : o.bid = pos / B
  pm : prev % B = 0
  p0 : prev < iter
  p1 : iter ≤ pos
  p2 : pos ≤ prev + B
  pl : prev < s.vec.size
  nd : (o.pend.map Prod.fst).Nodup
  pmem : ∀ q ∈ o.pend, ∃ k, k < pos / B ∧ s.vec.bids[k]? = some q.1
  cur : ∀ (i : Nat) (v : α), A[i]? = some (some v) → i < pos → i / B = pos / B → o.cur (i % B) = v
  val : ∀ (i : Nat) (v : α), A[i]? = some (some v) → ¬ (i < pos ∧ i / B = pos / B) →
    ∀ c, s.vec.bids[i / B]? = some c → settle s.disk o.pend c (i % B) = v
  stat : ∀ (i : Nat) (v : α), A[i]? = some (some v) → s.vec.status[i / B / P]? = some .valid ∨ i / B / P = prev / B / P

theorem upper_get {A : List (Option α)} {iter i : Nat} {v : α} (hl : iter ≤ A.length) :
    (List.replicate iter none ++ A.drop iter)[i]? = some (some v) ↔ iter ≤ i ∧ A[i]? = some (some v) := by
  rw [List.getElem?_append]
  simp only [List.length_replicate]
  by_cases h : i < iter
  · rw [if_pos h]
    constructor
    · intro q; exact absurd q rep_none
    · rintro ⟨q, _⟩; omega
  · rw [if_neg h, List.getElem?_drop, show iter + (i - iter) = i by omega]
    simp; omega

theorem div_lt_of {B i j : Nat} (hB : 0 < B) (hi : i / B = j / B) (hm : i % B < j % B) : i < j := by
  have h1 := Nat.div_add_mod i B
  have h2 := Nat.div_add_mod j B
  rw [hi] at h1
  omega

theorem fil_done {np} {s : Sys α} {iter prev pos o A} (h : Fil B P np s iter prev pos o A) (hlt : pos < prev + B) (srv : List Nat) :
    Fil B P np { s with disk := (doneSome (s.disk, o.pend) srv).1 } iter prev pos { o with pend := (doneSome (s.disk, o.pend) srv).2 } A := by
  obtain ⟨d1, d2, d3⟩ := doneSome_ok (d := s.disk) srv h.nd
  have hp0 := h.p0
  have hp1 := h.p1
  have hpos : pos / B = prev / B := same_block h.pm (by omega) hlt
  have hit : iter / B = prev / B := same_block h.pm (by omega) (by omega)
  refine { h with w := ⟨{ h.w.inv with content := ?_ }, h.w.ids, h.w.tight, h.w.own, h.w.own'⟩, nd := h.nd.sublist (d2.map _), pmem := (fun q hq => h.pmem q (d2.subset hq)), val := ?_ }
  · intro i v hi
    obtain ⟨st, c1, c2, c3, c4⟩ := h.w.inv.content i v hi
    refine ⟨st, c1, c2, c3, fun hv b hb => ?_⟩
    rw [← c4 hv b hb]
    dsimp only
    rw [d3]
    intro hm
    obtain ⟨q, hq, rfl⟩ := List.mem_map.1 hm
    obtain ⟨k, hk, hk2⟩ := h.pmem q hq
    have := nodup_get_inj h.w.inv.nod hk2 hb
    have := Nat.div_le_div_right (c := B) ((upper_get h.il).1 hi).1
    omega
  · intro i v hv hn c hc
    dsimp only
    rw [d1]; exact h.val i v hv hn c hc

theorem fil_step {np} {s : Sys α} {iter prev pos o A} (h : Fil B P np s iter prev pos o A) (hlt : pos < prev + B) (victim : Nat)
    (junk : Nat → α) :
    ∃ s' x o', constElement B P s pos victim = some (s', x) ∧
      Bo.advance B s'.vec.bids junk { o with cur := upd o.cur o.elem x } = some o' ∧ Fil B P np s' iter prev (pos + 1) o' A := by
  have hB := h.w.inv.hB
  have hp0 := h.p0
  have hp1 := h.p1
  have hpos : pos / B = prev / B := same_block h.pm (by omega) hlt
  have hpb := h.w.inv.lt_cap h.pl
  have hpage : prev / B / P * P < s.vec.bids.length := by
    have := Nat.div_mul_le_self (prev / B) P; omega
  obtain ⟨s', slot, f1, f2, f3, f4, f5, f6, f7⟩ := fetch_one (victim := victim) h.w.inv h.one hpage
  have hce : constElement B P s pos victim = some (s', s'.vec.cache (slot * P + pos / B % P) (pos % B)) := by
    unfold constElement
    rw [pageOf_eq, hpos, f1]
    dsimp only
    rw [blockOf_eq hB, offOf_eq hB, hpos]
  have hx : ∀ v, A[pos]? = some (some v) → s'.vec.cache (slot * P + pos / B % P) (pos % B) = v := by
    intro v hv
    obtain ⟨st, c1, c2, c3, c4⟩ := f2.content pos v ((upper_get h.il).2 ⟨hp1, hv⟩)
    exact c3 slot (by rw [hpos]; exact f4)
  have key : ∀ x : α, (∀ v, A[pos]? = some (some v) → x = v) → ∃ o', Bo.advance B s'.vec.bids junk { o with cur := upd o.cur o.elem x } = some o' ∧
      Fil B P np s' iter prev (pos + 1) o' A := by
    intro x hx
    have hk : s'.vec.bids[pos / B]? = some (s.vec.bids[prev / B]'hpb) := by rw [f3.bids, hpos]; exact List.getElem?_eq_getElem hpb
    have hne : ∀ {i : Nat}, i ≠ pos → i / B = pos / B → i % B ≠ pos % B := by
      intro i hi hib hm
      have h1 := Nat.div_add_mod i B
      have h2 := Nat.div_add_mod pos B
      rw [hib] at h1
      omega
    have h' : Fil B P np s' iter prev pos o A := { h with w := h.w.ofSame f2 f3, one := f5, clean := (by intro p; rw [f6]; exact h.clean p), npg := f3.npages.trans h.npg, len := h.len.trans f3.size.symm, pl := (by rw [f3.size]; exact h.pl), pmem := (by rw [f3.bids]; exact h.pmem), val := (by rw [f3.bids, f7]; exact h.val), stat := (by rw [f6]; exact h.stat) }
    by_cases hw : pos % B + 1 ≥ B
    · obtain ⟨m1, m2⟩ := step_wrap hB hw
      have hadv : Bo.advance B s'.vec.bids junk { o with cur := upd o.cur o.elem x } =
          some ⟨junk, 0, pos / B + 1, o.pend ++ [(s.vec.bids[prev / B]'hpb, upd o.cur (pos % B) x)]⟩ := by
        unfold Bo.advance
        rw [if_pos (by show o.elem + 1 ≥ B; rw [h.elem]; exact hw)]
        unfold Bo.handOver
        dsimp only
        rw [h.bid, hk, h.elem]
      refine ⟨_, hadv, { h' with elem := m1.symm, bid := m2.symm, p1 := (by omega), p2 := hlt, nd := ?_, pmem := ?_, cur := ?_, val := ?_ }⟩
      · rw [List.map_append, List.nodup_append]
        refine ⟨h.nd, by simp, ?_⟩
        rintro a ha c hcc rfl
        simp only [List.map_cons, List.map_nil, List.mem_singleton] at hcc
        obtain ⟨q, hq, rfl⟩ := List.mem_map.1 ha
        obtain ⟨k, hk1, hk2⟩ := h'.pmem q hq
        rw [hcc] at hk2
        have := nodup_get_inj f2.nod hk2 hk
        omega
      · intro q hq
        rw [m2]
        rcases List.mem_append.1 hq with hq | hq
        · obtain ⟨k, hk1, hk2⟩ := h'.pmem q hq
          exact ⟨k, by omega, hk2⟩
        · simp only [List.mem_singleton] at hq
          subst hq
          exact ⟨pos / B, by omega, hk⟩
      · intro i v _ hi hi2
        have := Nat.div_le_div_right (c := B) (show i ≤ pos by omega)
        omega
      · intro i v hv hn c hbc
        dsimp only
        rw [settle_append]
        by_cases hib : i / B = pos / B
        · rw [hib, hk] at hbc
          cases hbc
          rw [upd_same]
          by_cases hip : i = pos
          · rw [hip, upd_same]; exact hx v (by rw [← hip]; exact hv)
          · rw [upd_ne _ _ (hne hip hib)]
            refine h.cur i v hv (div_lt_of hB hib ?_) hib
            have := hne hip hib
            have := Nat.mod_lt i hB
            omega
        · rw [upd_ne]
          · exact h'.val i v hv (fun q => hib q.2) c hbc
          · rintro rfl
            exact hib (nodup_get_inj f2.nod hbc hk)
    · obtain ⟨m1, m2⟩ := step_in (B := B) (i := pos) (by omega)
      have hadv : Bo.advance B s'.vec.bids junk { o with cur := upd o.cur o.elem x } =
          some { o with cur := upd o.cur o.elem x, elem := o.elem + 1 } := by
        unfold Bo.advance
        rw [if_neg (by show ¬ o.elem + 1 ≥ B; rw [h.elem]; exact hw)]
      refine ⟨_, hadv, { h' with elem := (by rw [m1]; exact congrArg (· + 1) h.elem), bid := (by rw [m2]; exact h.bid), p1 := (by omega), p2 := hlt, pmem := (by rw [m2]; exact h'.pmem), cur := ?_, val := ?_ }⟩
      · intro i v hv hi hi2
        rw [m2] at hi2
        dsimp only
        rw [h.elem]
        by_cases hip : i = pos
        · rw [hip, upd_same]; exact hx v (by rw [← hip]; exact hv)
        · rw [upd_ne _ _ (hne hip hi2)]
          exact h.cur i v hv (by omega) hi2
      · intro i v hv hn c hbc
        rw [m2] at hn
        exact h'.val i v hv (fun q => hn ⟨by omega, q.2⟩) c hbc
  obtain ⟨o', k1, k2⟩ := key _ hx
  exact ⟨s', _, o', hce, k1, k2⟩

theorem fill_ok {np iter prev A} (ch : Nat → WCh α) : ∀ (f pos : Nat) (s : Sys α) (o : Bo α), Fil B P np s iter prev pos o A → prev + B - pos ≤ f →
    ∃ s' o', fill B P ch f pos s o = some (s', o') ∧ Fil B P np s' iter prev (prev + B) o' A := by
  intro f
  induction f with
  | zero =>
    intro pos s o h hf
    have h2 := h.p2
    have e : pos = prev + B := by omega
    subst e
    refine ⟨s, o, ?_, h⟩
    unfold fill
    rw [if_pos (by rw [Nat.add_mod_right]; exact h.pm)]
  | succ f ih =>
    intro pos s o h hf
    have h2 := h.p2
    by_cases e : pos = prev + B
    · subst e
      refine ⟨s, o, ?_, h⟩
      unfold fill
      rw [if_pos (by rw [Nat.add_mod_right]; exact h.pm)]
    · have hlt : pos < prev + B := by omega
      have hm : ¬ pos % B = 0 := fun q => e (next_block h.w.inv.hB h.pm q (Nat.lt_of_lt_of_le h.p0 h.p1) h2)
      have h3 := fil_done h hlt (ch f).srv
      obtain ⟨s', x, o', g1, g2, g3⟩ := fil_step h3 hlt (ch f).victim (ch f).junk
      obtain ⟨s2, o2, g4, g5⟩ := ih (pos + 1) s' o' g3 (by omega)
      refine ⟨s2, o2, ?_, g5⟩
      rw [fill, if_neg hm]
      dsimp only
      rw [g1]
      dsimp only
      dsimp only at g2
      rw [g2]
      exact g4

theorem finishOut_ok {np b : Nat} {G : Prop} {w : Bw α} {A : List (Option α)} (ch : Nat → WCh α) (h : Mid B P np b G w A) :
    ∃ w', w.finishOut B P ch = some w' ∧ w'.bufout = none ∧ w'.iter = w.iter ∧ w'.grown = w.grown ∧ WInv B P false w'.sys A ∧
      w'.sys.vec.npages = np ∧ w.iter ≤ A.length := by
  rcases h with ⟨hb, h⟩ | ⟨o, hb, h, hp, hpre⟩
  · refine ⟨w, by unfold Bw.finishOut; rw [hb], hb, rfl, rfl, h.w, h.npg, ?_⟩
    rw [h.w.inv.len, ← h.lst]; exact h.le
  · have hB := h.hB
    have hlast := h.lst
    have hil : w.iter ≤ A.length := by rw [h.len, ← h.lst]; exact h.le
    have hw : WInv B P false w.sys (List.replicate w.iter none ++ A.drop w.iter) := by
      refine calm_inv h.base h.calm ?_ ?_
      · have := h.len
        simp; omega
      · intro i v hi
        obtain ⟨q1, q2⟩ := (upper_get hil).1 hi
        refine ⟨?_, ?_⟩
        · rcases h.stat i v q2 with q | ⟨q, _⟩
          · exact q
          · omega
        · intro c hc
          rw [← h.val i v q2 (fun q => by omega) c hc, settle_not_mem]
          intro hm
          obtain ⟨q, hq, rfl⟩ := List.mem_map.1 hm
          obtain ⟨k, hk, hk2⟩ := h.pmem q hq
          have := nodup_get_inj h.base.inv.nod hk2 hc
          have := Nat.div_le_div_right (c := B) q1
          omega
    have hf : Fil B P np w.sys w.iter w.prevblk w.iter o A :=
      ⟨hw, fun p t hp => absurd hp (h.calm p t), fun p => h.calm.not_dirty h.base.inv p, h.npg, h.len, hil, h.elem, h.bid, h.pm, hp, Nat.le_refl _, h.p2,
        by rw [← h.lst]; exact h.pl, h.nd, h.pmem, h.cur, h.val, fun i v hi => (h.stat i v hi).imp_right (·.2)⟩
    obtain ⟨s1, o1, g1, g2⟩ := fill_ok ch B w.iter w.sys o hf (by omega)
    have hpl : w.prevblk / B / P < s1.vec.status.length := g2.w.inv.page_lt (g2.w.inv.lt_cap g2.pl)
    obtain ⟨s2, d1, d2, d3, d4, d5, d6, d7, d8⟩ := drop_one (WInv.base g2.w) g2.one g2.clean hpl
    have hmod : (w.prevblk + B) % B = 0 := by rw [Nat.add_mod_right]; exact h.pm
    refine ⟨{ w with sys := { s2 with disk := settle s2.disk o1.pend }, prevblk := w.iter, bufout := none }, ?_, rfl, rfl, rfl, ?_, ?_, hil⟩
    · unfold Bw.finishOut
      rw [hb]
      dsimp only
      rw [g1]
      dsimp only
      rw [if_pos (Nat.ne_of_lt hp), pageOf_eq, d1]
      dsimp only
      rw [if_neg (by rw [g2.elem, hmod]; simp)]
    · have hb1 := base_of (s := { s2 with disk := settle s2.disk o1.pend }) d2 d3 rfl rfl rfl rfl rfl rfl rfl
        (fun p => Calm.not_dirty d2.inv d3 p) (List.Perm.refl _)
      refine calm_inv hb1.1 hb1.2 (g2.len.trans d4.symm) ?_
      intro i v hi
      refine ⟨?_, ?_⟩
      · dsimp only
        rw [d8, List.getElem?_set]
        by_cases e : w.prevblk / B / P = i / B / P
        · rw [if_pos e, if_pos hpl]
        · rw [if_neg e]
          exact (g2.stat i v hi).resolve_right (fun q => e q.symm)
      · intro c hc
        dsimp only at hc ⊢
        rw [d7]
        rw [d5] at hc
        refine g2.val i v hi ?_ c hc
        rintro ⟨q1, q2⟩
        have h3 := Nat.div_add_mod i B
        have h4 := Nat.div_add_mod (w.prevblk + B) B
        rw [q2] at h3
        omega
    · exact d6.trans g2.npg

end Stxxl.VecBuf
