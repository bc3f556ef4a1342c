import Verif.BlockManager.Model

/-!
# C06: the block manager
-/

namespace Stxxl.BlockManager
open Stxxl.DiskAlloc

/-! ## Histories -/

/-- The manager, the blocks users hold, and the blocks that a failed (throwing) `new_blocks` had already allocated on
other disks: nobody knows their ids any more. Both lists are defined by the history, not stored by the code. -/
structure World where
  mgr : Mgr
  live : List (Nat × Region)
  lost : List (Nat × Region)

/-- Tag the blocks allocated per disk with the disk number. -/
def tag : Nat → List (List Region) → List (Nat × Region)
  | _, [] => []
  | i, l :: ls => l.map (fun b => (i, b)) ++ tag (i + 1) ls

inductive Event where
  /-- `new_blocks` for `n` blocks of size `bs`, strategy `f`, given offset -/
  | alloc (bs : Int) (n : Nat) (f : Nat → Nat) (offset : Nat)
  /-- `delete_block` -/
  | free (b : Bid)

def World.step (w : World) : Event → World
  | .alloc bs n f off =>
    match newBlocksInt w.mgr bs n f off with
    | (m, .ok out) => ⟨m, w.live ++ out, w.lost⟩
    | (m, .thrown _ bids) => ⟨m, w.live, w.lost ++ tag 0 bids⟩
    | (m, .ub) => ⟨m, w.live, w.lost⟩
  | .free b =>
    match deleteBlock w.mgr b with
    | .error _ => w
    | .ok m => match b with
      | .on d r => ⟨m, w.live.erase (d, r), w.lost⟩
      | _ => ⟨m, w.live, w.lost⟩

/-- Callers: positive block size, a strategy that names existing disks, deleting only blocks they hold (or invalid
or unmanaged ids). -/
def Legal (w : World) : Event → Prop
  | .alloc bs _ f _ => 0 < bs ∧ ∀ i, f i < w.mgr.disks.length
  | .free (.on d r) => (d, r) ∈ w.live
  | .free _ => True

inductive Reachable (cfg : List (Int × Bool)) : World → Prop where
  | init (ds : List State) : (∀ c ∈ cfg, 0 ≤ c.1) → initDisks cfg = .ok ds →
      Reachable cfg ⟨⟨ds, 0, 0, 0⟩, [], []⟩
  | step (w : World) (e : Event) : Reachable cfg w → Legal w e → Reachable cfg (w.step e)

/-- The blocks of disk `d` in a list of tagged blocks. -/
def onDisk (d : Nat) (l : List (Nat × Region)) : List Region := (l.filter (fun p => p.1 == d)).map (·.2)

/-! ## Invariant: every disk allocator is in a reachable state whose live blocks are those of this disk -/

structure Inv (cfg : List (Int × Bool)) (w : World) : Prop where
  ndisks : w.mgr.disks.length = cfg.length
  disk : ∀ d s c, w.mgr.disks[d]? = some s → cfg[d]? = some c →
    ∃ L, L.Perm (onDisk d w.live ++ onDisk d w.lost) ∧ DiskAlloc.Reachable c.1 c.2 ⟨s, L⟩
  inRange : ∀ p ∈ w.live, p.1 < w.mgr.disks.length
  current : w.mgr.currentAllocation = (w.live.map (fun p => p.2.2)).sum

@[simp] theorem onDisk_nil (d) : onDisk d [] = [] := rfl
@[simp] theorem onDisk_append (d a b) : onDisk d (a ++ b) = onDisk d a ++ onDisk d b := by simp [onDisk]

theorem onDisk_cons (d : Nat) (p : Nat × Region) (l) :
    onDisk d (p :: l) = if p.1 = d then p.2 :: onDisk d l else onDisk d l := by
  by_cases h : p.1 = d <;> simp [onDisk, h]

theorem onDisk_tag (d i : Nat) (ls : List (List Region)) :
    onDisk d (tag i ls) = if i ≤ d then (ls[d - i]?).getD [] else [] := by
  induction ls generalizing i with
  | nil => simp [tag]
  | cons l ls ih =>
    simp only [tag, onDisk_append, ih]
    have hmap : onDisk d (l.map (fun b => (i, b))) = if i = d then l else [] := by
      by_cases h : i = d
      · simp [onDisk, h, List.filter_map, Function.comp_def]
      · simp [onDisk, h, List.filter_map, Function.comp_def]
    rw [hmap]
    by_cases h : i = d
    · subst h; simp; intro h; omega
    · by_cases h2 : i ≤ d
      · have : d - i = (d - (i + 1)) + 1 := by omega
        simp [h, h2, show i + 1 ≤ d by omega, this]
      · simp [h, h2, show ¬ i + 1 ≤ d by omega]

theorem erase_onDisk {d : Nat} {r : Region} {l : List (Nat × Region)} (h : (d, r) ∈ l) :
    (onDisk d l).Perm (r :: onDisk d (l.erase (d, r))) ∧
    ∀ d', d' ≠ d → onDisk d' (l.erase (d, r)) = onDisk d' l := by
  induction l with
  | nil => simp at h
  | cons p l ih =>
    by_cases hp : p = (d, r)
    · subst hp
      simp only [List.erase_cons_head, onDisk_cons, if_true]
      refine ⟨.refl _, fun d' hd' => ?_⟩
      simp [Ne.symm hd']
    · have hm : (d, r) ∈ l := by
        rcases List.mem_cons.1 h with h | h
        · exact absurd h.symm hp
        · exact h
      obtain ⟨h1, h2⟩ := ih hm
      rw [List.erase_cons_tail (by simpa using hp)]
      refine ⟨?_, fun d' hd' => ?_⟩
      · simp only [onDisk_cons]
        split
        · exact (h1.cons _).trans (.swap ..)
        · exact h1
      · simp only [onDisk_cons, h2 d' hd']

theorem countDisks_eq (ds : List Nat) (d : Nat) : countDisks ds d = ds.count d := by
  induction ds with
  | nil => rfl
  | cons a ds ih =>
    simp only [countDisks, bump, List.count_cons]
    by_cases h : d = a
    · subst h; simp [ih]
    · simp [h, ih, Ne.symm h]

theorem gather_ok (bids : List (List Region)) (ds : List Nat) : ∀ (bl : Nat → Nat),
    (∀ d ∈ ds, ∃ bd, bids[d]? = some bd ∧ bd.length = bl d + ds.count d) →
    ∃ out, gather bids bl ds = some out ∧ out.map (·.1) = ds ∧
      ∀ d, d ∈ ds → onDisk d out = ((bids[d]?).getD []).drop (bl d) := by
  induction ds with
  | nil => intro bl _; exact ⟨[], rfl, rfl, by simp⟩
  | cons d ds ih =>
    intro bl h
    obtain ⟨bd, h1, h2⟩ := h d (by simp)
    rw [List.count_cons_self] at h2
    have hlt : bl d < bd.length := by omega
    obtain ⟨out, g1, g2, g3⟩ := ih (bump bl d) (by
      intro d' hd'
      obtain ⟨bd', k1, k2⟩ := h d' (List.mem_cons_of_mem _ hd')
      refine ⟨bd', k1, ?_⟩
      simp only [bump, List.count_cons] at k2 ⊢
      by_cases hd : d' = d
      · subst hd; simp at k2 ⊢; omega
      · simp [hd, Ne.symm hd] at k2 ⊢; omega)
    refine ⟨(d, bd[bl d]) :: out, by simp [gather, h1, hlt, g1], by simp [g2], ?_⟩
    intro d' hd'
    rw [onDisk_cons]
    by_cases hd : d = d'
    · subst hd
      simp only [h1, Option.getD_some, if_true]
      rw [List.drop_eq_getElem_cons hlt]
      congr 1
      by_cases hm : d ∈ ds
      · rw [g3 d hm]; simp [h1, bump]
      · have hnil : onDisk d out = [] := by
          rw [onDisk, List.map_eq_nil_iff, List.filter_eq_nil_iff]
          intro p hp hpd
          simp only [beq_iff_eq] at hpd
          apply hm
          rw [← g2, ← hpd]
          exact List.mem_map_of_mem hp
        rw [hnil, List.drop_eq_nil_of_le]
        have : ds.count d = 0 := List.count_eq_zero.2 hm
        omega
    · rw [if_neg hd]
      rcases List.mem_cons.1 hd' with h' | h'
      · exact absurd h'.symm hd
      · rw [g3 d' h']; simp [bump, Ne.symm hd]

theorem allocDisks_ok {bs : Int} (hbs : 0 < bs) (bl : Nat → Nat) : ∀ (ss : List State) (i : Nat)
    (cfg : List (Int × Bool)) (L : Nat → List Region), ss.length = cfg.length →
    (∀ d s c, ss[d]? = some s → cfg[d]? = some c → DiskAlloc.Reachable c.1 c.2 ⟨s, L d⟩) →
    ∃ disks bids oe, allocDisks bs bl i ss = (disks, bids, oe) ∧ disks.length = cfg.length ∧
      (∀ d s c, disks[d]? = some s → cfg[d]? = some c →
        DiskAlloc.Reachable c.1 c.2 ⟨s, L d ++ (bids[d]?).getD []⟩) ∧
      (oe = none → bids.length = ss.length ∧
        ∀ d bd, bids[d]? = some bd → bd.map (·.2) = List.replicate (bl (i + d)) bs) ∧
      (∀ e, oe = some e → e = .outOfMemory) := by
  intro ss
  induction ss with
  | nil =>
    intro i cfg L hlen hr
    exact ⟨[], [], none, rfl, by simpa using hlen, by simp, by simp, by simp⟩
  | cons s ss ih =>
    intro i cfg L hlen hr
    cases cfg with
    | nil => simp at hlen
    | cons c cfg =>
      simp only [List.length_cons, Nat.add_right_cancel_iff] at hlen
      have h0 := hr 0 s c (by simp) (by simp)
      obtain ⟨disks, bids, oe, e1, e2, e3, e4, e5⟩ := ih (i + 1) cfg (fun d => L (d + 1)) hlen
        (fun d s' c' hs hc => hr (d + 1) s' c' (by simpa using hs) (by simpa using hc))
      by_cases hz : bl i = 0
      · refine ⟨s :: disks, [] :: bids, oe, by simp [allocDisks, hz, e1], by simp [e2], ?_, ?_, e5⟩
        · intro d s' c' hs hc
          cases d with
          | zero => simp at hs hc; subst hs hc; simpa using h0
          | succ d => simpa using e3 d s' c' (by simpa using hs) (by simpa using hc)
        · intro ho
          obtain ⟨l1, l2⟩ := e4 ho
          refine ⟨by simp [l1], fun d bd hbd => ?_⟩
          cases d with
          | zero => simp at hbd; subst hbd; simp [hz]
          | succ d => rw [l2 d bd (by simpa using hbd), Nat.add_right_comm, Nat.add_assoc]
      · rcases newBlocks_fixed hbs (bl i) ⟨s, L 0⟩ (by omega) h0 with ⟨g1, _⟩ | ⟨s', b, g1, g2, g3, _⟩
        · simp only [] at g1
          refine ⟨s :: ss, [[]], some .outOfMemory, by simp [allocDisks, hz, g1], by simp [hlen], ?_, by simp, by simp⟩
          intro d s' c' hs hc
          have := hr d s' c' hs hc
          cases d with
          | zero => simpa using this
          | succ d => simpa using this
        · simp only [] at g1
          refine ⟨s' :: disks, b :: bids, oe, by simp [allocDisks, hz, g1, e1], by simp [e2], ?_, ?_, e5⟩
          · intro d t c' hs hc
            cases d with
            | zero => simp at hs hc; subst hs hc; simpa using g3
            | succ d => simpa using e3 d t c' (by simpa using hs) (by simpa using hc)
          · intro ho
            obtain ⟨l1, l2⟩ := e4 ho
            refine ⟨by simp [l1], fun d bd hbd => ?_⟩
            cases d with
            | zero => simp at hbd; subst hbd; simpa using g2
            | succ d => rw [l2 d bd (by simpa using hbd), Nat.add_right_comm, Nat.add_assoc]

theorem initDisks_ok {cfg : List (Int × Bool)} (hc : ∀ c ∈ cfg, 0 ≤ c.1) {ds : List State}
    (h : initDisks cfg = .ok ds) : ds.length = cfg.length ∧
    ∀ (d : Nat) (s : State) (c : Int × Bool), ds[d]? = some s → cfg[d]? = some c →
      DiskAlloc.Reachable c.1 c.2 ⟨s, []⟩ := by
  induction cfg generalizing ds with
  | nil => simp [initDisks] at h; subst h; simp
  | cons c cfg ih =>
    simp only [initDisks] at h
    split at h
    · cases h
    · rename_i s hs
      split at h
      · cases h
      · rename_i ss hss
        cases h
        obtain ⟨h1, h2⟩ := ih (fun c hc' => hc c (by simp [hc'])) hss
        refine ⟨by simp [h1], fun d t c' ht hc' => ?_⟩
        cases d with
        | zero => simp at ht hc'; subst ht hc'; exact .init _ (hc _ (by simp)) hs
        | succ d => exact h2 d t c' (by simpa using ht) (by simpa using hc')

theorem perm_sum {a b : List Int} (h : a.Perm b) : a.sum = b.sum := by
  induction h with
  | nil => rfl
  | cons x _ ih => simp [ih]
  | swap x y l => simp; omega
  | trans _ _ h1 h2 => rw [h1, h2]

theorem sum_replicate (n : Nat) (bs : Int) : (List.replicate n bs).sum = n * bs := by
  induction n with
  | zero => simp
  | succ k ihk => rw [List.replicate_succ, List.sum_cons, ihk]; push_cast; rw [Int.add_mul]; omega

/-- Everything `new_blocks_int` guarantees, from any world satisfying the invariant. -/
theorem newBlocksInt_ok {cfg w} (hi : Inv cfg w) {bs : Int} (hbs : 0 < bs) (n : Nat) (f : Nat → Nat) (off : Nat)
    (hf : ∀ i, f i < w.mgr.disks.length) :
    (∃ m out, newBlocksInt w.mgr bs n f off = (m, .ok out) ∧
      out.map (·.1) = (List.range n).map (fun i => f (off + i)) ∧ (∀ p ∈ out, p.2.2 = bs) ∧
      Inv cfg ⟨m, w.live ++ out, w.lost⟩) ∨
    (∃ m bids, newBlocksInt w.mgr bs n f off = (m, .thrown .outOfMemory bids) ∧
      Inv cfg ⟨m, w.live, w.lost ++ tag 0 bids⟩) := by
  have hany : ((List.range n).map (fun i => f (off + i))).any
      (fun d => decide (w.mgr.disks.length ≤ d)) = false := by
    rw [List.any_eq_false]
    intro d hd
    simp only [List.mem_map] at hd
    obtain ⟨i, _, rfl⟩ := hd
    have := hf (off + i)
    simp; omega
  have hch : ∀ d : Nat, ∃ L : List Region, ∀ s c, w.mgr.disks[d]? = some s → cfg[d]? = some c →
      L.Perm (onDisk d w.live ++ onDisk d w.lost) ∧ DiskAlloc.Reachable c.1 c.2 ⟨s, L⟩ := by
    intro d
    by_cases h : d < w.mgr.disks.length
    · have h' : d < cfg.length := hi.ndisks ▸ h
      obtain ⟨L, h1, h2⟩ := hi.disk d _ _ (List.getElem?_eq_getElem h) (List.getElem?_eq_getElem h')
      refine ⟨L, fun s c hs hc => ?_⟩
      rw [List.getElem?_eq_getElem h] at hs
      rw [List.getElem?_eq_getElem h'] at hc
      cases hs; cases hc
      exact ⟨h1, h2⟩
    · refine ⟨[], fun s c hs _ => ?_⟩
      rw [List.getElem?_eq_none (by omega)] at hs
      cases hs
  obtain ⟨L, hL⟩ := Classical.skolem.1 hch
  obtain ⟨disks, bids, oe, e1, e2, e3, e4, e5⟩ :=
    allocDisks_ok hbs (countDisks ((List.range n).map (fun i => f (off + i)))) w.mgr.disks 0 cfg L hi.ndisks
      (fun d s c hs hc => (hL d s c hs hc).2)
  have hdisk : ∀ (d : Nat) (c : Int × Bool), cfg[d]? = some c → ∃ s, w.mgr.disks[d]? = some s := by
    intro d c hc; 
    exact ⟨_, List.getElem?_eq_getElem (by rw [hi.ndisks]; exact (List.getElem?_eq_some_iff.1 hc).1)⟩
  cases oe with
  | some e =>
    right
    have he := e5 e rfl
    subst he
    refine ⟨{ w.mgr with disks := disks }, bids, ?_, ?_⟩
    · unfold newBlocksInt
      simp only [hany, Bool.false_eq_true, if_false, e1]
    · refine ⟨e2, ?_, ?_, hi.current⟩
      · intro d s c hs hc
        obtain ⟨s0, hs0⟩ := hdisk d c hc
        refine ⟨L d ++ (bids[d]?).getD [], ?_, e3 d s c hs hc⟩
        simp only [onDisk_append, onDisk_tag, Nat.zero_le, if_true, Nat.sub_zero]
        rw [← List.append_assoc]
        exact (hL d s0 c hs0 hc).1.append_right _
      · intro p hp; have := hi.inRange p hp; rw [hi.ndisks] at this; simp only [e2]; exact this
  | none =>
    left
    obtain ⟨l1, l2⟩ := e4 rfl
    have hg : ∀ d ∈ (List.range n).map (fun i => f (off + i)), ∃ bd, bids[d]? = some bd ∧
        bd.length = (fun _ => 0) d + ((List.range n).map (fun i => f (off + i))).count d := by
      intro d hd
      have hd2 := hd
      simp only [List.mem_map] at hd2
      obtain ⟨i, _, rfl⟩ := hd2
      have hlt : f (off + i) < bids.length := by rw [l1]; exact hf _
      refine ⟨bids[f (off + i)], by simp [hlt], ?_⟩
      have := congrArg List.length (l2 (f (off + i)) _ (List.getElem?_eq_getElem hlt))
      simpa [countDisks_eq] using this
    obtain ⟨out, g1, g2, g3⟩ := gather_ok bids _ _ hg
    have hon : ∀ d, onDisk d out = (bids[d]?).getD [] := by
      intro d
      by_cases hm : d ∈ (List.range n).map (fun i => f (off + i))
      · simpa using g3 d hm
      · have h1 : onDisk d out = [] := by
          rw [onDisk, List.map_eq_nil_iff, List.filter_eq_nil_iff]
          intro p hp hpd
          simp only [beq_iff_eq] at hpd
          apply hm
          rw [← g2, ← hpd]
          exact List.mem_map_of_mem hp
        rw [h1]
        cases hb : bids[d]? with
        | none => rfl
        | some bd =>
          have := congrArg List.length (l2 d bd hb)
          simp only [List.length_map, List.length_replicate, Nat.zero_add, countDisks_eq,
            List.count_eq_zero.2 hm] at this
          simp [List.length_eq_zero_iff.1 this]
    have hsz : ∀ p ∈ out, p.2.2 = bs := by
      intro p hp
      have hmem : p.2 ∈ onDisk p.1 out := by
        simp only [onDisk, List.mem_map, List.mem_filter, beq_iff_eq]
        exact ⟨p, ⟨hp, rfl⟩, rfl⟩
      rw [hon] at hmem
      cases hb : bids[p.1]? with
      | none => simp [hb] at hmem
      | some bd =>
        simp only [hb, Option.getD_some] at hmem
        have h3 : p.2.2 ∈ bd.map (·.2) := List.mem_map_of_mem hmem
        rw [l2 p.1 bd hb, List.mem_replicate] at h3
        exact h3.2
    refine ⟨{ disks := disks
              totalAllocation := w.mgr.totalAllocation + n * bs
              currentAllocation := w.mgr.currentAllocation + n * bs
              maximumAllocation := max w.mgr.maximumAllocation (w.mgr.currentAllocation + n * bs) },
      out, ?_, g2, hsz, ?_⟩
    · unfold newBlocksInt
      simp only [hany, Bool.false_eq_true, if_false, e1, g1]
    · refine ⟨e2, ?_, ?_, ?_⟩
      · intro d s c hs hc
        obtain ⟨s0, hs0⟩ := hdisk d c hc
        refine ⟨L d ++ (bids[d]?).getD [], ?_, e3 d s c hs hc⟩
        simp only [onDisk_append, hon]
        refine ((hL d s0 c hs0 hc).1.append_right _).trans ?_
        rw [List.append_assoc, List.append_assoc]
        exact List.perm_append_comm.append_left _
      · intro p hp
        simp only [e2, ← hi.ndisks]
        rcases List.mem_append.1 hp with hp | hp
        · exact hi.inRange p hp
        · have : p.1 ∈ out.map (·.1) := List.mem_map_of_mem hp
          rw [g2, List.mem_map] at this
          obtain ⟨i, _, h⟩ := this
          rw [← h]; exact hf _
      · have h1 : out.map (fun p => p.2.2) = List.replicate n bs := by
          rw [List.eq_replicate_iff]
          refine ⟨?_, fun b hb => ?_⟩
          · have := congrArg List.length g2; simpa using this
          · obtain ⟨p, hp, rfl⟩ := List.mem_map.1 hb; exact hsz p hp
        simp only [List.map_append, List.sum_append, h1, sum_replicate, hi.current]

theorem deleteBlock_ok {cfg w} (hi : Inv cfg w) {d : Nat} {r : Region} (h : (d, r) ∈ w.live) :
    ∃ m, deleteBlock w.mgr (.on d r) = .ok m ∧ Inv cfg ⟨m, w.live.erase (d, r), w.lost⟩ := by
  have hlt := hi.inRange _ h
  simp only [] at hlt
  have hlt' : d < cfg.length := hi.ndisks ▸ hlt
  obtain ⟨L, hp, hr⟩ := hi.disk d _ _ (List.getElem?_eq_getElem hlt) (List.getElem?_eq_getElem hlt')
  obtain ⟨h1, h2⟩ := erase_onDisk h
  have hmem : r ∈ L := by
    rw [hp.mem_iff, List.mem_append]
    left; rw [h1.mem_iff]; simp
  obtain ⟨s', hs'⟩ := C03_live_delete_ok hr r hmem
  have hpos := (C01_live_blocks_disjoint hr).2 r hmem
  have hr' := DiskAlloc.Reachable.step _ (.free r) hr ⟨hpos.1, .inl hmem⟩
  simp only [] at hs'
  simp only [DiskAlloc.World.step, hs'] at hr'
  refine ⟨{ w.mgr with disks := w.mgr.disks.set d s', currentAllocation := w.mgr.currentAllocation - r.2 },
    by simp only [deleteBlock, List.getElem?_eq_getElem hlt, hs'], ?_, ?_, ?_, ?_⟩
  · simp [hi.ndisks]
  · intro d' s c hs hc
    simp only [List.getElem?_set] at hs
    by_cases hd : d = d'
    · subst hd
      rw [List.getElem?_eq_getElem hlt'] at hc
      cases hc
      simp only [hlt, if_true] at hs
      cases hs
      refine ⟨_, ?_, hr'⟩
      have h3 := (hp.trans (h1.append_right _)).erase r
      simpa using h3
    · simp only [hd, if_false] at hs
      obtain ⟨L', k1, k2⟩ := hi.disk d' s c hs hc
      exact ⟨L', by rw [h2 d' (Ne.symm hd)]; exact k1, k2⟩
  · intro p hp'
    simp only [List.length_set]
    exact hi.inRange p (List.mem_of_mem_erase hp')
  · have hsum := (List.perm_cons_erase h).map (fun p => p.2.2)
    have : (w.live.map (fun p => p.2.2)).sum = r.2 + ((w.live.erase (d, r)).map (fun p => p.2.2)).sum := by
      rw [perm_sum hsum]; simp
    simp only [hi.current, this]; omega

theorem reachable_inv {cfg w} (h : Reachable cfg w) : Inv cfg w := by
  induction h with
  | init ds hc h =>
    obtain ⟨h1, h2⟩ := initDisks_ok hc h
    exact ⟨h1, fun d s c hs hc => ⟨[], by simp, h2 d s c hs hc⟩, by simp, by simp⟩
  | step w e _ hl ih =>
    cases e with
    | alloc bs n f off =>
      rcases newBlocksInt_ok ih hl.1 n f off hl.2 with ⟨m, out, h1, _, _, h4⟩ | ⟨m, bids, h1, h2⟩
      · simpa only [World.step, h1] using h4
      · simpa only [World.step, h1] using h2
    | free b =>
      cases b with
      | invalid => simpa [World.step, deleteBlock] using ih
      | unmanaged => simpa [World.step, deleteBlock] using ih
      | on d r =>
        obtain ⟨m, h1, h2⟩ := deleteBlock_ok ih hl
        simpa only [World.step, h1] using h2

/-! ## The property -/

/-- Two tagged blocks share storage. -/
def Share (p q : Nat × Region) : Prop := p.1 = q.1 ∧ Overlap p.2 q.2

theorem pairwise_share {w cfg} (hi : Inv cfg w) : w.live.Pairwise (fun p q => ¬ Share p q) := by
  rw [List.pairwise_iff_getElem]
  intro i j hi' hj' hij ⟨hd, ho⟩
  have hlt := hi.inRange _ (List.getElem_mem hi')
  have hlt' : w.live[i].1 < cfg.length := hi.ndisks ▸ hlt
  obtain ⟨L, hp, hr⟩ := hi.disk _ _ _ (List.getElem?_eq_getElem hlt) (List.getElem?_eq_getElem hlt')
  have hpw := (C01_live_blocks_disjoint hr).1
  have hpw2 : (onDisk w.live[i].1 w.live ++ onDisk w.live[i].1 w.lost).Pairwise (fun a b => ¬ Overlap a b) :=
    (hp.pairwise_iff (fun {a b} h => by rw [overlap_comm]; exact h)).1 hpw
  have h1 := (List.pairwise_append.1 hpw2).1
  -- project to the two positions
  have hpw3 : (w.live.filter (fun p => p.1 == w.live[i].1)).Pairwise (fun p q => ¬ Overlap p.2 q.2) := by
    rw [onDisk, List.pairwise_map] at h1; exact h1
  rw [List.pairwise_filter] at hpw3
  have := (List.pairwise_iff_getElem.1 hpw3) i j hi' hj' hij (by simp) (by simp [hd])
  exact this ho

/-- **C06** In every reachable world, a request for `n` blocks of size `bs` with a strategy that names existing disks
either throws `bad_ext_alloc`, or returns exactly `n` ids, the `i`-th on disk `f (offset + i)`, each of the requested
size, and all of them together with all blocks already held are pairwise non-overlapping. There is no out-of-range
access. -/
theorem C06_new_blocks {cfg w} (h : Reachable cfg w) (bs : Int) (hbs : 0 < bs) (n : Nat) (f : Nat → Nat) (off : Nat)
    (hf : ∀ i, f i < w.mgr.disks.length) :
    (∃ m out, newBlocksInt w.mgr bs n f off = (m, .ok out) ∧ out.length = n ∧
      (∀ i (hi : i < out.length), out[i].1 = f (off + i) ∧ out[i].2.2 = bs) ∧
      (w.live ++ out).Pairwise (fun p q => ¬ Share p q)) ∨
    (∃ m bids, newBlocksInt w.mgr bs n f off = (m, .thrown .outOfMemory bids)) := by
  rcases newBlocksInt_ok (reachable_inv h) hbs n f off hf with ⟨m, out, h1, h2, h3, h4⟩ | ⟨m, b, h1, _⟩
  · left
    have hlen : out.length = n := by have := congrArg List.length h2; simpa using this
    refine ⟨m, out, h1, hlen, ?_, pairwise_share h4⟩
    intro i hi
    refine ⟨?_, h3 _ (List.getElem_mem hi)⟩
    have : (out.map (·.1))[i]'(by simpa) = ((List.range n).map (fun i => f (off + i)))[i]'(by simp; omega) := by
      congr 1
    simpa using this
  · exact .inr ⟨m, b, h1⟩

/-- **C06** (histories) blocks held by users never share storage, on any disk, and lie on existing disks inside the
disk file. -/
theorem C06_live_disjoint {cfg w} (h : Reachable cfg w) :
    w.live.Pairwise (fun p q => ¬ Share p q) ∧
    ∀ p ∈ w.live, ∃ s, w.mgr.disks[p.1]? = some s ∧ 0 ≤ p.2.1 ∧ 0 < p.2.2 ∧ p.2.1 + p.2.2 ≤ s.diskBytes := by
  have hi := reachable_inv h
  refine ⟨pairwise_share hi, fun p hp => ?_⟩
  have hlt := hi.inRange p hp
  have hlt' : p.1 < cfg.length := hi.ndisks ▸ hlt
  obtain ⟨L, hperm, hr⟩ := hi.disk _ _ _ (List.getElem?_eq_getElem hlt) (List.getElem?_eq_getElem hlt')
  have hmem : p.2 ∈ L := by
    rw [hperm.mem_iff, List.mem_append]; left
    simp only [onDisk, List.mem_map, List.mem_filter, beq_iff_eq]
    exact ⟨p, ⟨hp, rfl⟩, rfl⟩
  have := (C01_live_blocks_disjoint hr).2 _ hmem
  exact ⟨_, List.getElem?_eq_getElem hlt, this.2.1, this.1, this.2.2⟩

/-- **C06** `get_current_allocation` is the number of bytes users hold. -/
theorem C06_current_allocation {cfg w} (h : Reachable cfg w) :
    w.mgr.currentAllocation = (w.live.map (fun p => p.2.2)).sum := (reachable_inv h).current

/-- **C06** deleting any block a user holds succeeds. -/
theorem C06_delete_ok {cfg w} (h : Reachable cfg w) {d r} (hl : (d, r) ∈ w.live) :
    ∃ m, deleteBlock w.mgr (.on d r) = .ok m := by
  obtain ⟨m, h1, _⟩ := deleteBlock_ok (reachable_inv h) hl
  exact ⟨m, h1⟩

/-- **C06** Disagreement found: when `new_blocks` throws because one disk is full, the blocks already allocated on
the disks before it are neither returned nor freed. Two disks of 8 and 4 bytes without autogrow; asking for 4 blocks
of 4 bytes striped over both throws, and the 8 bytes of the first disk are gone. -/
theorem C06_failed_request_leaks :
    ∃ w, Reachable [(8, false), (4, false)] w ∧ w.live = [] ∧ getFreeBytes w.mgr = 4 ∧ getTotalBytes w.mgr = 12 := by
  have h0 : Reachable [(8, false), (4, false)]
      ⟨⟨[⟨[(0, 8)], 8, 8, false⟩, ⟨[(0, 4)], 4, 4, false⟩], 0, 0, 0⟩, [], []⟩ := .init _ (by decide) rfl
  have h1 := Reachable.step _ (.alloc 4 4 (fun i => i % 2) 0) h0 ⟨by decide, fun i => by simp; omega⟩
  have e1 : newBlocks ⟨[(0, 8)], 8, 8, false⟩ 4 (List.replicate 2 4) = (⟨[], 0, 8, false⟩, .ok [(0, 4), (4, 4)]) := by
    rw [newBlocks]; rfl
  have e2 : newBlocks ⟨[(0, 4)], 4, 4, false⟩ 4 (List.replicate 2 4) = (⟨[(0, 4)], 4, 4, false⟩, .error .outOfMemory) := by
    rw [newBlocks]; rfl
  have e3 : newBlocksInt ⟨[⟨[(0, 8)], 8, 8, false⟩, ⟨[(0, 4)], 4, 4, false⟩], 0, 0, 0⟩ 4 4 (fun i => i % 2) 0 =
      (⟨[⟨[], 0, 8, false⟩, ⟨[(0, 4)], 4, 4, false⟩], 0, 0, 0⟩, .thrown .outOfMemory [[(0, 4), (4, 4)], []]) := by
    have c0 : countDisks ((List.range 4).map (fun i => (fun i => i % 2) (0 + i))) 0 = 2 := by decide
    have c1 : countDisks ((List.range 4).map (fun i => (fun i => i % 2) (0 + i))) 1 = 2 := by decide
    simp only [newBlocksInt, allocDisks, c0, c1, e1, e2]
    simp
    decide
  refine ⟨_, h1, ?_, ?_, ?_⟩ <;> simp only [World.step, e3] <;> decide

/-! Non-vacuity: a reachable world in which a user holds blocks on two disks. -/
example : ∃ w, Reachable [(8, false), (8, false)] w ∧ w.live = [(0, (0, 4)), (1, (0, 4)), (0, (4, 4))] := by
  have h0 : Reachable [(8, false), (8, false)]
      ⟨⟨[⟨[(0, 8)], 8, 8, false⟩, ⟨[(0, 8)], 8, 8, false⟩], 0, 0, 0⟩, [], []⟩ := .init _ (by decide) rfl
  have h1 := Reachable.step _ (.alloc 4 3 (fun i => i % 2) 0) h0 ⟨by decide, fun i => by simp; omega⟩
  have e1 : newBlocks ⟨[(0, 8)], 8, 8, false⟩ 4 (List.replicate 2 4) = (⟨[], 0, 8, false⟩, .ok [(0, 4), (4, 4)]) := by
    rw [newBlocks]; rfl
  have e2 : newBlocks ⟨[(0, 8)], 8, 8, false⟩ 4 (List.replicate 1 4) = (⟨[(4, 4)], 4, 8, false⟩, .ok [(0, 4)]) := by
    rw [newBlocks]; rfl
  have e3 : newBlocksInt ⟨[⟨[(0, 8)], 8, 8, false⟩, ⟨[(0, 8)], 8, 8, false⟩], 0, 0, 0⟩ 4 3 (fun i => i % 2) 0 =
      (⟨[⟨[], 0, 8, false⟩, ⟨[(4, 4)], 4, 8, false⟩], 12, 12, 12⟩,
        .ok [(0, (0, 4)), (1, (0, 4)), (0, (4, 4))]) := by
    have c0 : countDisks ((List.range 3).map (fun i => (fun i => i % 2) (0 + i))) 0 = 2 := by decide
    have c1 : countDisks ((List.range 3).map (fun i => (fun i => i % 2) (0 + i))) 1 = 1 := by decide
    simp only [newBlocksInt, allocDisks, c0, c1, e1, e2]
    rfl
  exact ⟨_, h1, by simp only [World.step, e3]; rfl⟩

end Stxxl.BlockManager
