import Verif.HashMap.Rebuild
import Verif.HashMap.Spec
import Mathlib.Data.List.Nodup
import Mathlib.Data.List.Perm.Subperm

/-! # Invariant and abstraction -/
namespace Verif.HashMap
variable {K V : Type} {P : Params K V}

/-- One bucket. -/
structure BOK (P : Params K V) (mem : Nat → K × V) (n na i : Nat) (b : Bucket K V) : Prop where
  sn : SortedN P b.list
  sv : SortedV P (bext P mem b)
  nb : ∀ x ∈ b.list, P.bktNum n x.key = i
  eb : ∀ x ∈ bext P mem b, P.bktNum n x.1 = i
  nd : (b.list.map (·.addr)).Nodup
  na : ∀ x ∈ b.list, x.addr < na

/-- The state invariant. -/
structure Inv (P : Params K V) (s : HMap K V) : Prop where
  lay : Layout P s.nBids s.buckets
  first : ∀ b ∈ s.buckets.head?, bstart P b = 0
  bok : ∀ (i : Nat) (b : Bucket K V), s.buckets[i]? = some b →
    BOK P s.mem s.buckets.length s.nextAddr i b
  buf : s.bufSize = (s.buckets.map fun b => b.list.length).sum

/-- The map stores `v` under `k`. -/
def Has (P : Params K V) (s : HMap K V) (k : K) (v : V) : Prop :=
  ∃ b, s.buckets[P.bktNum s.buckets.length k]? = some b ∧ LHas b.list (bext P s.mem b) k v

/-- The state represents the abstract map `m`. -/
def Rep (P : Params K V) (s : HMap K V) (m : K → Option V) : Prop :=
  Inv P s ∧ ∀ k v, Has P s k v ↔ m k = some v

/-! ## The value stream -/

theorem mem_allFrom (mem : Nat → K × V) (bs : List (Bucket K V)) (i j : Nat) (x : K × V) :
    (j, x) ∈ allFrom P mem i bs ↔
      ∃ b, i ≤ j ∧ bs[j - i]? = some b ∧ x ∈ mergeB P b.list (bext P mem b) := by
  induction bs generalizing i with
  | nil => simp [allFrom]
  | cons b bs ih =>
    rw [allFrom, List.mem_append, ih]
    constructor
    · rintro (h | ⟨b', h1, h2, h3⟩)
      · simp only [List.mem_map, Prod.mk.injEq] at h
        obtain ⟨y, hy, rfl, rfl⟩ := h
        exact ⟨b, Nat.le_refl _, by simp, hy⟩
      · refine ⟨b', by omega, ?_, h3⟩
        rw [show j - i = (j - (i + 1)) + 1 by omega, List.getElem?_cons_succ]; exact h2
    · rintro ⟨b', h1, h2, h3⟩
      by_cases h : i = j
      · left
        subst h
        simp only [Nat.sub_self, List.getElem?_cons_zero, Option.some.injEq] at h2
        subst h2
        exact List.mem_map.2 ⟨x, h3, rfl⟩
      · right
        rw [show j - i = (j - (i + 1)) + 1 by omega, List.getElem?_cons_succ] at h2
        exact ⟨b', by omega, h2, h3⟩

section
variable (ok : P.OK)
include ok

theorem merge_bkt {mem : Nat → K × V} {n na i : Nat} {b : Bucket K V} (h : BOK P mem n na i b)
    {x : K × V} (hx : x ∈ mergeB P b.list (bext P mem b)) : P.bktNum n x.1 = i := by
  obtain ⟨_, h2⟩ := mergeB_ok ok b.list (bext P mem b) h.sn h.sv
  rcases (h2 x.1 x.2).1 hx with ⟨y, hy, h3, _⟩ | ⟨_, h3⟩
  · rw [← h3]; exact h.nb y hy
  · exact h.eb _ h3

theorem allFrom_sorted (mem : Nat → K × V) (n na : Nat) (bs : List (Bucket K V)) (i : Nat)
    (hb : ∀ (j : Nat) (b : Bucket K V), bs[j]? = some b → BOK P mem n na (i + j) b) :
    SortedV P ((allFrom P mem i bs).map (·.2)) := by
  induction bs generalizing i with
  | nil => exact List.Pairwise.nil
  | cons b bs ih =>
    rw [allFrom, List.map_append, List.map_map]
    have e : ((fun x : Nat × (K × V) => x.2) ∘ fun x => (i, x)) = id := rfl
    rw [e, List.map_id]
    have h0 := hb 0 b rfl
    unfold SortedV
    rw [List.pairwise_append]
    refine ⟨(mergeB_ok ok _ _ h0.sn h0.sv).1, ?_, ?_⟩
    · apply ih
      intro j b' hj
      have := hb (j + 1) b' (by rw [List.getElem?_cons_succ]; exact hj)
      rw [show i + 1 + j = i + (j + 1) by omega]; exact this
    · intro x hx y hy
      obtain ⟨⟨j, y'⟩, hy1, rfl⟩ := List.mem_map.1 hy
      obtain ⟨b', h1, h2, h3⟩ := (mem_allFrom mem bs (i + 1) j y').1 hy1
      have hb' := hb (j - (i + 1) + 1) b' (by rw [List.getElem?_cons_succ]; exact h2)
      have e1 := merge_bkt ok h0 hx
      have e2 := merge_bkt ok hb' h3
      apply ok.lt_of_bkt n
      show P.bktNum n x.1 < P.bktNum n y'.1
      omega

/-- The stream delivers every stored pair once, in increasing key order, labelled with its bucket. -/
theorem stream_spec {s : HMap K V} (I : Inv P s) : ∃ hs, streamAll P s = some hs ∧
    SortedV P (hs.map (·.val)) ∧ (∀ k v, (k, v) ∈ hs.map (·.val) ↔ Has P s k v) ∧
    ∀ h ∈ hs, h.bkt = P.bktNum s.buckets.length h.val.1 := by
  obtain ⟨hs, e1, e2⟩ := streamAll_ok ok s I.lay I.first
  have hv : hs.map (·.val) = (allFrom P s.mem 0 s.buckets).map (·.2) := by
    rw [← e2, List.map_map]; rfl
  have hbok : ∀ (j : Nat) (b : Bucket K V), s.buckets[j]? = some b →
      BOK P s.mem s.buckets.length s.nextAddr (0 + j) b := by
    intro j b hj; rw [Nat.zero_add]; exact I.bok j b hj
  refine ⟨hs, e1, ?_, ?_, ?_⟩
  · rw [hv]
    exact allFrom_sorted ok s.mem s.buckets.length s.nextAddr s.buckets 0 hbok
  · intro k v
    rw [hv, List.mem_map]
    constructor
    · rintro ⟨⟨j, x⟩, h1, h2⟩
      obtain ⟨b, _, h4, h5⟩ := (mem_allFrom s.mem s.buckets 0 j x).1 h1
      dsimp only at h2
      subst h2
      rw [Nat.sub_zero] at h4
      have hB := I.bok j b h4
      have := merge_bkt ok hB h5
      dsimp only at this
      exact ⟨b, by rw [this]; exact h4, ((mergeB_ok ok _ _ hB.sn hB.sv).2 k v).1 h5⟩
    · rintro ⟨b, h1, h2⟩
      have hB := I.bok _ b h1
      refine ⟨(P.bktNum s.buckets.length k, (k, v)), ?_, rfl⟩
      rw [mem_allFrom]
      exact ⟨b, Nat.zero_le _, h1, ((mergeB_ok ok _ _ hB.sn hB.sv).2 k v).2 h2⟩
  · intro h hh
    have : (h.bkt, h.val) ∈ allFrom P s.mem 0 s.buckets := by
      rw [← e2]; exact List.mem_map.2 ⟨h, hh, rfl⟩
    obtain ⟨b, _, h4, h5⟩ := (mem_allFrom s.mem s.buckets 0 _ _).1 this
    rw [Nat.sub_zero] at h4
    exact (merge_bkt ok (I.bok _ b h4) h5).symm

/-- A new set of buckets as produced by the rebuild loops is consistent. -/
theorem inv_of_fill {n : Nat} {w : Writer K V} {xs : List (K × V)} {bs : List (Bucket K V)}
    {s : HMap K V} (hbs : bs.length = n) (hw : WOK P w)
    (hF : FillOK P n 0 0 (w.read P) (w.pos P) xs bs) (hxs : SortedV P xs)
    (h1 : s.buckets = bs) (h2 : s.mem = (w.flush P).mem) (h3 : s.nBids = (w.flush P).nBids)
    (h4 : s.bufSize = 0) (hbk : ∀ x ∈ xs, P.bktNum n x.1 < n) :
    Inv P s ∧ ∀ k v, Has P s k v ↔ (k, v) ∈ xs := by
  obtain ⟨_, _, _, w4, w5⟩ := writeOut_ok ok hw
  have hposlt : w.pos P < (w.iBlock + 1) * P.BB := by
    have := hw.iv
    unfold Writer.pos
    rw [Nat.add_mul]; omega
  have hnB : (w.iBlock + 1) * P.BB ≤ s.nBids * P.BB := by
    rw [h3]; exact Nat.mul_le_mul_right _ w5
  have hext : ∀ b ∈ bs, bext P s.mem b = bext P (w.read P) b := by
    intro b hb
    unfold bext
    apply extL_congr
    intro i hi
    have := hF.hi b hb
    rw [h2]
    exact w4 _ (by omega)
  have hpos : 0 < s.nBids := by rw [h3]; exact Nat.lt_of_le_of_lt (Nat.zero_le _) w5
  refine ⟨⟨⟨?_, ?_, ?_⟩, ?_, ?_, ?_⟩, ?_⟩
  · intro h; omega
  · intro _ b hb
    rw [h1] at hb
    have g1 := hF.hi b hb
    refine ⟨by omega, ?_, hF.sub b hb⟩
    have : b.iBlock * P.BB < s.nBids * P.BB := by
      unfold bstart at g1; omega
    exact Nat.lt_of_mul_lt_mul_right this
  · rw [h1]; exact hF.ord
  · rw [h1]; exact hF.first
  · intro i b hi
    rw [h1] at hi ⊢
    have hb := List.mem_of_getElem? hi
    have hl := hF.lst b hb
    have hc := hF.cont i b hi
    rw [Nat.zero_add] at hc
    constructor
    · rw [hl]; exact List.Pairwise.nil
    · rw [hext b hb, hc]
      exact List.Pairwise.filter _ hxs
    · rw [hl]; simp
    · intro x hx
      rw [hext b hb, hc, List.mem_filter] at hx
      rw [hbs]
      simpa using hx.2
    · rw [hl]; simp
    · rw [hl]; simp
  · rw [h4, h1]
    have : bs.map (fun b => b.list.length) = bs.map (fun _ => 0) :=
      List.map_congr_left (fun b hb => by rw [hF.lst b hb]; rfl)
    rw [this]
    clear this hF hbs hext h1 h3 h4
    induction bs with
    | nil => rfl
    | cons b bs ih => rw [List.map_cons, List.sum_cons, ← ih]
  · intro k v
    unfold Has
    rw [h1, hbs]
    constructor
    · rintro ⟨b, hb, hl⟩
      have hb' := List.mem_of_getElem? hb
      rw [hext b hb', hF.lst b hb'] at hl
      rcases hl with ⟨_, h, _⟩ | ⟨_, h⟩
      · simp at h
      · rw [hF.cont _ b hb] at h
        exact (List.mem_filter.1 h).1
    · intro h
      have hlt := hbk _ h
      dsimp only at hlt
      rw [← hbs] at hlt
      refine ⟨bs[P.bktNum bs.length k], by rw [← hbs]; exact List.getElem?_eq_getElem hlt, ?_⟩
      have hb' : bs[P.bktNum bs.length k] ∈ bs := List.getElem_mem hlt
      rw [hext _ hb', hF.lst _ hb']
      refine Or.inr ⟨by simp, ?_⟩
      rw [hF.cont (P.bktNum bs.length k) _ (List.getElem?_eq_getElem hlt), List.mem_filter]
      exact ⟨h, by simp [hbs]⟩

/-- `_rebuild_buckets`, if the new number of buckets is positive. -/
theorem rebuild_ok (d : Nat) {s : HMap K V} (I : Inv P s) (hn : 0 < newCount P s.numTotal d) :
    ∃ s', rebuild P d s = some s' ∧ Inv P s' ∧ (∀ k v, Has P s' k v ↔ Has P s k v) ∧
      s'.buckets.length = newCount P s.numTotal d ∧ s'.obliv = false ∧ s'.bufSize = 0 ∧
      s'.maxBuf = s.maxBuf ∧ s'.nextId = s.nextId ∧
      ∃ hs : List (K × V), SortedV P hs ∧ (∀ k v, (k, v) ∈ hs ↔ Has P s k v) ∧
        s'.numTotal = hs.length % 2 ^ 64 := by
  obtain ⟨hs, e1, e2, e3, e4⟩ := stream_spec ok I
  generalize hnn : newCount P s.numTotal d = n at *
  have hbk : ∀ x : K, P.bktNum n x < n := fun x => ok.range n x hn
  have w0 : WOK P (Writer.new P) := ⟨ok.bb, Nat.le_refl _⟩
  have hp0 : (Writer.new P).pos P = 0 := by simp [Writer.pos, Writer.new]
  obtain ⟨bs, w, its, f1, f2, f3, _, _, f6⟩ := fillAll_ok ok n n 0 hs (Writer.new P) s.its (by omega) w0
    (by simp [Writer.new]) (fun h _ => ⟨Nat.zero_le _, hbk _⟩) e2
  rw [hp0] at f6
  refine ⟨{ s with
    buckets := bs, mem := (w.flush P).mem, nBids := (w.flush P).nBids, numTotal := hs.length % 2 ^ 64,
    its := its, bufSize := 0, obliv := false }, ?_, ?_⟩
  · unfold rebuild
    rw [e1]
    simp only [Option.bind_eq_bind, Option.bind_some, Option.pure_def]
    rw [hnn, f1]
  · obtain ⟨g1, g2⟩ := inv_of_fill ok (s := { s with
      buckets := bs, mem := (w.flush P).mem, nBids := (w.flush P).nBids, numTotal := hs.length % 2 ^ 64,
      its := its, bufSize := 0, obliv := false }) f2 f3 f6 e2 rfl rfl rfl rfl (fun x _ => hbk x.1)
    refine ⟨g1, ?_, f2, rfl, rfl, rfl, rfl, hs.map (·.val), e2, e3, by simp⟩
    intro k v
    rw [g2, e3]

/-- `_rebuild_buckets`, if the new number of buckets is zero: everything is gone. -/
theorem rebuild_zero (d : Nat) {s : HMap K V} (I : Inv P s) (hn : newCount P s.numTotal d = 0) :
    ∃ s', rebuild P d s = some s' ∧ Inv P s' ∧ (∀ k v, ¬ Has P s' k v) ∧
      s'.buckets = [] ∧ s'.numTotal = 0 ∧ s'.obliv = false ∧ s'.bufSize = 0 ∧
      s'.maxBuf = s.maxBuf := by
  obtain ⟨hs, e1, e2, e3, e4⟩ := stream_spec ok I
  refine ⟨{ s with
    buckets := [], mem := ((Writer.new P).flush P).mem, nBids := ((Writer.new P).flush P).nBids,
    numTotal := 0, bufSize := 0, obliv := false }, ?_, ?_, ?_, rfl, rfl, rfl, rfl, rfl⟩
  · unfold rebuild
    rw [e1]
    simp only [Option.bind_eq_bind, Option.bind_some, Option.pure_def]
    rw [hn]
    rfl
  · exact ⟨⟨by simp, by simp, by simp⟩, by simp, by simp, by simp⟩
  · rintro k v ⟨b, hb, _⟩
    simp at hb

end
end Verif.HashMap
