import Verif.HashMap.Ops

/-! # One call agrees with the abstract map -/
namespace Verif.HashMap
variable {K V : Type} {P : Params K V}

/-! ## Counting -/

/-- `num_total_` is right (unless it is marked as an estimate). -/
def Counted (s : HMap K V) (m : K → Option V) : Prop :=
  s.obliv = false → ∃ n, HasCard m n ∧ s.numTotal = n % 2 ^ 64

theorem HasCard.unique {m : K → Option V} {a b : Nat} (h1 : HasCard m a) (h2 : HasCard m b) :
    a = b := by
  obtain ⟨l1, n1, m1, rfl⟩ := h1
  obtain ⟨l2, n2, m2, rfl⟩ := h2
  classical
  exact ((List.perm_ext_iff_of_nodup n1 n2).2 fun k => by rw [m1, m2]).length_eq

theorem hasCard_of_sorted (ok : P.OK) {xs : List (K × V)} {m : K → Option V} (h1 : SortedV P xs)
    (h2 : ∀ k v, (k, v) ∈ xs ↔ m k = some v) : HasCard m xs.length := by
  refine ⟨xs.map (·.1), ?_, ?_, by simp⟩
  · unfold List.Nodup
    rw [List.pairwise_map]
    exact h1.imp fun h => ok.lt_ne h
  · intro k
    rw [List.mem_map, Option.isSome_iff_exists]
    constructor
    · rintro ⟨⟨k', v⟩, h, rfl⟩; exact ⟨v, (h2 _ _).1 h⟩
    · rintro ⟨v, h⟩; exact ⟨(k, v), (h2 _ _).2 h, rfl⟩

section
variable [DecidableEq K]

theorem upd_same {m : K → Option V} {k : K} {o : Option V} (h : m k = o) : upd m k o = m := by
  funext x
  unfold upd
  split_ifs with hx
  · rw [hx, h]
  · rfl

theorem HasCard.add {m : K → Option V} {n : Nat} (h : HasCard m n) {k : K} (hk : m k = none) (v : V) :
    HasCard (upd m k (some v)) (n + 1) := by
  obtain ⟨l, h1, h2, h3⟩ := h
  refine ⟨k :: l, List.nodup_cons.2 ⟨?_, h1⟩, ?_, by simp [h3]⟩
  · intro hm
    have := (h2 k).1 hm
    rw [hk] at this; cases this
  · intro x
    rw [List.mem_cons, h2]
    unfold upd
    split_ifs with hx
    · simp [hx]
    · simp [hx]

theorem HasCard.keep {m : K → Option V} {n : Nat} (h : HasCard m n) {k : K}
    (hk : (m k).isSome = true) (v : V) : HasCard (upd m k (some v)) n := by
  obtain ⟨l, h1, h2, h3⟩ := h
  refine ⟨l, h1, ?_, h3⟩
  intro x
  rw [h2]
  unfold upd
  split_ifs with hx
  · subst hx; simp [hk]
  · rfl

theorem HasCard.del {m : K → Option V} {n : Nat} (h : HasCard m n) {k : K}
    (hk : (m k).isSome = true) : 0 < n ∧ HasCard (upd m k none) (n - 1) := by
  obtain ⟨l, h1, h2, h3⟩ := h
  have hkl : k ∈ l := (h2 k).2 hk
  refine ⟨by rw [← h3]; exact List.length_pos_of_mem hkl, l.erase k, h1.erase _, ?_, ?_⟩
  · intro x
    rw [h1.mem_erase_iff, h2]
    unfold upd
    split_ifs with hx
    · simp [hx]
    · simp [hx]
  · rw [List.length_erase_of_mem hkl, h3]

end

theorem inc64_mod (n : Nat) : inc64 (n % 2 ^ 64) = (n + 1) % 2 ^ 64 := by unfold inc64; omega

theorem dec64_mod (n : Nat) (h : 0 < n) : dec64 (n % 2 ^ 64) = (n - 1) % 2 ^ 64 := by
  unfold dec64; omega

theorem hasCard_empty {m : K → Option V} (h : Empty m) : HasCard m 0 :=
  ⟨[], List.nodup_nil, by intro k; simp [h k], rfl⟩

/-! ## Frame -/

theorem Inv.congr {s s' : HMap K V} (I : Inv P s) (e1 : s'.buckets = s.buckets) (e2 : s'.mem = s.mem)
    (e3 : s'.nBids = s.nBids) (e4 : s'.nextAddr = s.nextAddr) (e5 : s'.bufSize = s.bufSize) :
    Inv P s' := by
  obtain ⟨a, b, c, d⟩ := I
  exact ⟨by rw [e1, e3]; exact a, by rw [e1]; exact b, by rw [e1, e2, e4]; exact c, by rw [e5, e1]; exact d⟩

theorem Has.congr {s s' : HMap K V} (e1 : s'.buckets = s.buckets) (e2 : s'.mem = s.mem) (k : K) (v : V) :
    Has P s' k v ↔ Has P s k v := by unfold Has; rw [e1, e2]

theorem Rep.congr {s s' : HMap K V} {m : K → Option V} (R : Rep P s m) (e1 : s'.buckets = s.buckets)
    (e2 : s'.mem = s.mem) (e3 : s'.nBids = s.nBids) (e4 : s'.nextAddr = s.nextAddr)
    (e5 : s'.bufSize = s.bufSize) : Rep P s' m :=
  ⟨R.1.congr e1 e2 e3 e4 e5, fun k v => by rw [Has.congr e1 e2]; exact R.2 k v⟩

theorem Rep.none_iff {s : HMap K V} {m : K → Option V} (R : Rep P s m) (k : K) :
    m k = none ↔ ∀ v, ¬ Has P s k v := by
  constructor
  · intro h v hv
    rw [R.2, h] at hv; cases hv
  · intro h
    cases hm : m k with
    | none => rfl
    | some v => exact absurd ((R.2 k v).2 hm) (h v)

section
variable (ok : P.OK)
include ok

/-- What a call that may end with a rebuild leaves behind. -/
def After (P : Params K V) (s' : HMap K V) (m' : K → Option V) (c : Prop) : Prop :=
  Inv P s' ∧ (0 < s'.buckets.length ∨ Empty m' → Rep P s' m' ∧ (c → Counted s' m'))

theorem rebuild_after (d : Nat) {s s' : HMap K V} {m : K → Option V} (R : Rep P s m)
    (h : rebuild P d s = some s') : After P s' m True ∧
      (0 < newCount P s.numTotal d → s'.buckets.length = newCount P s.numTotal d) ∧
      (newCount P s.numTotal d = 0 → s'.buckets.length = 0) ∧ s'.bufSize = 0 ∧ s'.obliv = false ∧
      s'.maxBuf = s.maxBuf := by
  rcases Nat.eq_zero_or_pos (newCount P s.numTotal d) with hn | hn
  · obtain ⟨s1, e1, e2, e3, e4, e5, e6, e7, e8⟩ := rebuild_zero ok d R.1 hn
    rw [h] at e1
    cases e1
    refine ⟨⟨e2, ?_⟩, by omega, fun _ => by rw [e4]; rfl, e7, e6, e8⟩
    rintro (hl | hl)
    · rw [e4] at hl; simp at hl
    · refine ⟨⟨e2, ?_⟩, ?_⟩
      · intro k v
        rw [hl k]
        exact ⟨fun hh => absurd hh (e3 k v), fun hh => by cases hh⟩
      · intro _ _
        exact ⟨0, hasCard_empty hl, by rw [e5]⟩
  · obtain ⟨s1, e1, e2, e3, e4, e5, e6, e6', e7, hs, e8, e9, e10⟩ := rebuild_ok ok d R.1 hn
    rw [h] at e1
    cases e1
    refine ⟨⟨e2, ?_⟩, fun _ => e4, by omega, e6, e5, e6'⟩
    intro _
    have R' : Rep P s' m := ⟨e2, fun k v => by rw [e3]; exact R.2 k v⟩
    refine ⟨R', ?_⟩
    intro _ _
    exact ⟨hs.length, hasCard_of_sorted ok e8 (fun k v => by rw [e9]; exact R.2 k v), e10⟩

theorem checkBuf_after {s s' : HMap K V} {m : K → Option V} (R : Rep P s m)
    (h : checkBuf P s = some s') : After P s' m (Counted s m) := by
  unfold checkBuf at h
  split_ifs at h
  · obtain ⟨⟨h1, h2⟩, _⟩ := rebuild_after ok 0 R h
    exact ⟨h1, fun hl => ⟨(h2 hl).1, fun _ => (h2 hl).2 trivial⟩⟩
  · cases h
    exact ⟨R.1, fun _ => ⟨R, id⟩⟩

omit ok in
theorem After.imp {s' s'' : HMap K V} {m : K → Option V} {c c' : Prop} (h : After P s' m c) (hc : c' → c)
    (e1 : s''.buckets = s'.buckets) (e2 : s''.mem = s'.mem) (e3 : s''.nBids = s'.nBids)
    (e4 : s''.nextAddr = s'.nextAddr) (e5 : s''.bufSize = s'.bufSize)
    (e6 : s''.numTotal = s'.numTotal) (e7 : s''.obliv = s'.obliv) : After P s'' m c' := by
  refine ⟨h.1.congr e1 e2 e3 e4 e5, fun hl => ?_⟩
  rw [e1] at hl
  obtain ⟨a, b⟩ := h.2 hl
  refine ⟨a.congr e1 e2 e3 e4 e5, fun hc' => ?_⟩
  have := b (hc hc')
  intro ho
  rw [e6]; exact this (by rw [← e7]; exact ho)

end

/-! ## The individual calls -/

section
variable [DecidableEq K] (ok : P.OK)
include ok

theorem rep_of_add {s s' : HMap K V} {m : K → Option V} (R : Rep P s m) {k : K} {v : V} {del : Bool}
    (h : Inv P s' ∧ s'.buckets.length = s.buckets.length ∧ ∀ k' v', Has P s' k' v' ↔
      (k' = k ∧ del = false ∧ v = v') ∨ (k' ≠ k ∧ Has P s k' v')) :
    Rep P s' (upd m k (if del then none else some v)) := by
  refine ⟨h.1, fun k' v' => ?_⟩
  rw [h.2.2]
  unfold upd
  by_cases hk : k' = k
  · rw [if_pos hk]
    cases del <;> simp [hk]
  · rw [if_neg hk, R.2]
    simp [hk]

theorem bucket_of_len {s : HMap K V} {k : K} (h : 0 < s.buckets.length) :
    ∃ b, s.buckets[P.bktNum s.buckets.length k]? = some b :=
  ⟨_, List.getElem?_eq_getElem (ok.range _ k h)⟩

theorem insert_ok {k : K} {v : V} {s s' : HMap K V} {m : K → Option V} {id : Nat} {o : Bool}
    (R : Rep P s m) (c : Prop) (hc : c → Counted s m) (h : insert P k v s = some (s', id, o)) :
    o = (m k).isNone ∧ After P s' (if (m k).isNone then upd m k (some v) else m) c := by
  unfold insert at h
  -- after the initial rebuild
  obtain ⟨s1, hs1, h⟩ : ∃ s1, ensureBuckets P s = some s1 ∧ _ :=
    Option.bind_eq_some_iff.1 h
  dsimp only at h
  obtain ⟨b, hb, h⟩ : ∃ b, s1.buckets[P.bktNum s1.buckets.length k]? = some b ∧ _ :=
    Option.bind_eq_some_iff.1 h
  have hlen : 0 < s1.buckets.length := by
    have := (List.getElem?_eq_some_iff.1 hb).1; omega
  have hR1 : Rep P s1 m ∧ (c → Counted s1 m) := by
    unfold ensureBuckets at hs1
    split_ifs at hs1
    · obtain ⟨⟨_, h2⟩, _⟩ := rebuild_after ok 128 R hs1
      exact ⟨(h2 (Or.inl hlen)).1, fun _ => (h2 (Or.inl hlen)).2 trivial⟩
    · cases hs1; exact ⟨R, hc⟩
  clear hs1 R hc
  obtain ⟨R, hc⟩ := hR1
  rcases locate ok R.1 k b hb with ⟨n, a1, a2, a3, a4, a5⟩ |
      ⟨l1, l2, v0, i, a1, a2, a3, a4, a5, a6, a7, a8, a9⟩ | ⟨l1, l2, a1, a2, a3, a4, a5, a8, a9⟩
  · rw [a4] at h
    dsimp only at h
    by_cases hd : n.del = true
    · rw [if_pos hd] at h
      simp only [Option.pure_def, Option.some.injEq, Prod.mk.injEq] at h
      obtain ⟨rfl, _, rfl⟩ := h
      have hnone : m k = none := by
        rw [R.none_iff]
        intro v' hv
        rw [a5, hd] at hv; simp at hv
      rw [hnone]
      refine ⟨rfl, ?_⟩
      have hm := mod_node ok R.1 hb a2 a3 (fun n => { n with del := false, key := k, val := v }) rfl rfl
        (s' := (HMap.newIt { s1.modNode (P.bktNum s1.buckets.length k) b n.addr
          (fun n => { n with del := false, key := k, val := v }) with numTotal := inc64 s1.numTotal }
          (P.bktNum s1.buckets.length k) (some n.addr) 0 .internal false k).1) rfl rfl rfl rfl rfl
      have R' := rep_of_add (del := false) ok R hm
      refine ⟨hm.1, fun _ => ⟨R', fun hcc ho => ?_⟩⟩
      obtain ⟨c1, c2, c3⟩ := hc hcc ho
      exact ⟨c1 + 1, c2.add hnone v, by
        show inc64 s1.numTotal = _
        rw [c3, inc64_mod]⟩
    · rw [if_neg hd] at h
      simp only [Option.pure_def, Option.some.injEq, Prod.mk.injEq] at h
      obtain ⟨rfl, _, rfl⟩ := h
      have hsome : m k = some n.val := by
        rw [← R.2, a5]; exact ⟨by simpa using hd, rfl⟩
      rw [hsome]
      refine ⟨rfl, ?_⟩
      have R' : Rep P (HMap.newIt s1 (P.bktNum s1.buckets.length k) (some n.addr) 0 .internal false k).1 m :=
        R.congr rfl rfl rfl rfl rfl
      exact ⟨R'.1, fun _ => ⟨R', hc⟩⟩
  · rw [a5] at h
    dsimp only at h
    rw [a8] at h
    dsimp only at h
    rw [if_pos ⟨a6, (ok.eqv_iff _ _).2 rfl⟩] at h
    simp only [Option.pure_def, Option.some.injEq, Prod.mk.injEq] at h
    obtain ⟨rfl, _, rfl⟩ := h
    have hsome : m k = some v0 := by rw [← R.2, a9]
    rw [hsome]
    refine ⟨rfl, ?_⟩
    have R' : Rep P (HMap.newIt s1 (P.bktNum s1.buckets.length k)
        (Option.map (fun x => x.addr) (findInt P k none b.list)) i .external true k).1 m :=
      R.congr rfl rfl rfl rfl rfl
    exact ⟨R'.1, fun _ => ⟨R', hc⟩⟩
  · rw [a5] at h
    dsimp only at h
    rw [a8] at h
    dsimp only at h
    rw [if_neg (fun h => Nat.lt_irrefl _ h.1)] at h
    obtain ⟨s2, hs2, h⟩ : ∃ s2, checkBuf P _ = some s2 ∧ _ := Option.bind_eq_some_iff.1 h
    simp only [Option.pure_def, Option.some.injEq, Prod.mk.injEq] at h
    obtain ⟨rfl, _, rfl⟩ := h
    have hnone : m k = none := by rw [R.none_iff]; exact a9
    rw [hnone]
    refine ⟨rfl, ?_⟩
    obtain ⟨s3, hs3⟩ : ∃ s3, s3 = (HMap.newIt { s1.addNode (P.bktNum s1.buckets.length k) b
        (findInt P k none b.list) k v false with numTotal := inc64 s1.numTotal }
        (P.bktNum s1.buckets.length k) (some s1.nextAddr) 0 .internal false k).1 := ⟨_, rfl⟩
    rw [← hs3] at hs2
    have hm := add_node ok R.1 hb a1 a2 a3 a4 v false (s' := s3) (by rw [hs3]; rfl) (by rw [hs3]; rfl)
      (by rw [hs3]; rfl) (by rw [hs3]; rfl) (by rw [hs3]; rfl)
    have R' := rep_of_add ok R hm
    refine (checkBuf_after ok R' hs2).imp ?_ rfl rfl rfl rfl rfl rfl rfl
    intro hcc ho
    have ho' : s1.obliv = false := by rw [hs3] at ho; exact ho
    obtain ⟨c1, c2, c3⟩ := hc hcc ho'
    exact ⟨c1 + 1, c2.add hnone v, by
      rw [hs3]
      show inc64 s1.numTotal = _
      rw [c3, inc64_mod]⟩

theorem insertObl_ok {k : K} {v : V} {s s' : HMap K V} {m : K → Option V} {id : Nat}
    (R : Rep P s m) (c : Prop) (hc : c → Counted s m) (h : insertObl P k v s = some (s', id)) :
    After P s' (upd m k (some v)) c := by
  unfold insertObl at h
  dsimp only at h
  obtain ⟨b, hb, h⟩ : ∃ b, s.buckets[P.bktNum s.buckets.length k]? = some b ∧ _ :=
    Option.bind_eq_some_iff.1 h
  have fin : ∀ l1 l2 : List (Node K V), b.list = l1 ++ l2 → (∀ n ∈ l1, P.lt n.key k = true) →
      (∀ n ∈ l2, P.lt k n.key = true) → findInt P k none b.list = l1.getLast? →
      (∃ s2, checkBuf P (HMap.newIt { s.addNode (P.bktNum s.buckets.length k) b
        (findInt P k none b.list) k v false with
          numTotal := inc64 s.numTotal, obliv := true,
          its := fix2int P (P.bktNum s.buckets.length k) k s.nextAddr s.its }
        (P.bktNum s.buckets.length k) (some s.nextAddr) 0 .internal false k).1 = some s2 ∧ s2 = s') →
      After P s' (upd m k (some v)) c := by
    rintro l1 l2 a1 a2 a3 a4 ⟨s2, hs2, rfl⟩
    obtain ⟨s3, hs3⟩ : ∃ s3, s3 = (HMap.newIt { s.addNode (P.bktNum s.buckets.length k) b
        (findInt P k none b.list) k v false with
          numTotal := inc64 s.numTotal, obliv := true,
          its := fix2int P (P.bktNum s.buckets.length k) k s.nextAddr s.its }
        (P.bktNum s.buckets.length k) (some s.nextAddr) 0 .internal false k).1 := ⟨_, rfl⟩
    rw [← hs3] at hs2
    have hm := add_node ok R.1 hb a1 a2 a3 a4 v false (s' := s3) (by rw [hs3]; rfl) (by rw [hs3]; rfl)
      (by rw [hs3]; rfl) (by rw [hs3]; rfl) (by rw [hs3]; rfl)
    have R' := rep_of_add ok R hm
    refine (checkBuf_after ok R' hs2).imp ?_ rfl rfl rfl rfl rfl rfl rfl
    intro hcc ho
    rw [hs3] at ho
    cases ho
  rcases locate ok R.1 k b hb with ⟨n, a1, a2, a3, a4, a5⟩ |
      ⟨l1, l2, v0, i, a1, a2, a3, a4, a5, a6, a7, a8, a9⟩ | ⟨l1, l2, a1, a2, a3, a4, a5, a8, a9⟩
  · rw [a4] at h
    dsimp only at h
    simp only [Option.pure_def, Option.some.injEq] at h
    have h := congrArg Prod.fst h
    dsimp only at h
    subst h
    have hm := mod_node ok R.1 hb a2 a3 (fun n => { n with del := false, key := k, val := v }) rfl rfl
      (s' := (HMap.newIt { s.modNode (P.bktNum s.buckets.length k) b n.addr
        (fun n => { n with del := false, key := k, val := v }) with
          numTotal := if n.del then inc64 s.numTotal else s.numTotal }
        (P.bktNum s.buckets.length k) (some n.addr) 0 .internal false k).1) rfl rfl rfl rfl rfl
    have R' := rep_of_add (del := false) ok R hm
    refine ⟨hm.1, fun _ => ⟨R', fun hcc ho => ?_⟩⟩
    obtain ⟨c1, c2, c3⟩ := hc hcc ho
    by_cases hd : n.del = true
    · have hnone : m k = none := by
        rw [R.none_iff]
        intro v' hv
        rw [a5, hd] at hv; simp at hv
      refine ⟨c1 + 1, c2.add hnone v, ?_⟩
      show (if n.del = true then inc64 s.numTotal else s.numTotal) = _
      rw [if_pos hd, c3, inc64_mod]
    · have hsome : m k = some n.val := by
        rw [← R.2, a5]; exact ⟨by simpa using hd, rfl⟩
      refine ⟨c1, c2.keep (by rw [hsome]; rfl) v, ?_⟩
      show (if n.del = true then inc64 s.numTotal else s.numTotal) = _
      rw [if_neg hd, c3]
  · rw [a5] at h
    dsimp only at h
    obtain ⟨s2, hs2, h⟩ : ∃ s2, checkBuf P _ = some s2 ∧ _ := Option.bind_eq_some_iff.1 h
    simp only [Option.pure_def, Option.some.injEq, Prod.mk.injEq] at h
    exact fin l1 l2 a1 a2 a3 a4 ⟨s2, hs2, h.1⟩
  · rw [a5] at h
    dsimp only at h
    obtain ⟨s2, hs2, h⟩ : ∃ s2, checkBuf P _ = some s2 ∧ _ := Option.bind_eq_some_iff.1 h
    simp only [Option.pure_def, Option.some.injEq, Prod.mk.injEq] at h
    exact fin l1 l2 a1 a2 a3 a4 ⟨s2, hs2, h.1⟩

/-- Deleting a live node in place. -/
theorem del_node_ok {k : K} {s s' : HMap K V} {m : K → Option V} (R : Rep P s m) (c : Prop)
    (hc : c → Counted s m) {b : Bucket K V}
    (hb : s.buckets[P.bktNum s.buckets.length k]? = some b) {n : Node K V} (a2 : n ∈ b.list)
    (a3 : n.key = k) (a5 : ∀ v, Has P s k v ↔ n.del = false ∧ n.val = v) (hd : ¬ n.del = true)
    (e1 : s'.buckets = (s.modNode (P.bktNum s.buckets.length k) b n.addr
      (fun n => { n with del := true })).buckets)
    (e2 : s'.mem = s.mem) (e3 : s'.nBids = s.nBids) (e4 : s'.nextAddr = s.nextAddr)
    (e5 : s'.bufSize = s.bufSize) (e6 : s'.numTotal = dec64 s.numTotal) (e7 : s'.obliv = s.obliv) :
    (m k).isSome = true ∧ After P s' (upd m k none) c := by
  have hsome : m k = some n.val := by
    rw [← R.2, a5]; exact ⟨by simpa using hd, rfl⟩
  have hm := mod_node ok R.1 hb a2 a3 (fun n => { n with del := true }) a3 rfl e1 e2 e3 e4 e5
  have R' : Rep P s' (upd m k none) := rep_of_add (del := true) (v := n.val) ok R hm
  refine ⟨by rw [hsome]; rfl, hm.1, fun _ => ⟨R', fun hcc ho => ?_⟩⟩
  obtain ⟨c1, c2, c3⟩ := hc hcc (by rw [← e7]; exact ho)
  obtain ⟨d1, d2⟩ := c2.del (k := k) (by rw [hsome]; rfl)
  exact ⟨c1 - 1, d2, by rw [e6, c3, dec64_mod _ d1]⟩

theorem erase_ok {k : K} {s s' : HMap K V} {m : K → Option V} {o : Nat}
    (R : Rep P s m) (c : Prop) (hc : c → Counted s m) (h : erase P k s = some (s', o)) :
    o = (if (m k).isSome then 1 else 0) ∧ After P s' (upd m k none) c := by
  unfold erase at h
  dsimp only at h
  obtain ⟨b, hb, h⟩ : ∃ b, s.buckets[P.bktNum s.buckets.length k]? = some b ∧ _ :=
    Option.bind_eq_some_iff.1 h
  rcases locate ok R.1 k b hb with ⟨n, a1, a2, a3, a4, a5⟩ |
      ⟨l1, l2, v0, i, a1, a2, a3, a4, a5, a6, a7, a8, a9⟩ | ⟨l1, l2, a1, a2, a3, a4, a5, a8, a9⟩
  · rw [a4] at h
    dsimp only at h
    by_cases hd : n.del = true
    · rw [if_pos hd] at h
      simp only [Option.pure_def, Option.some.injEq, Prod.mk.injEq] at h
      obtain ⟨rfl, rfl⟩ := h
      have hnone : m k = none := by
        rw [R.none_iff]
        intro v' hv
        rw [a5, hd] at hv; simp at hv
      rw [upd_same hnone, hnone]
      exact ⟨rfl, R.1, fun _ => ⟨R, hc⟩⟩
    · rw [if_neg hd] at h
      simp only [Option.pure_def, Option.some.injEq, Prod.mk.injEq] at h
      obtain ⟨rfl, rfl⟩ := h
      obtain ⟨x1, x2⟩ := del_node_ok ok R c hc hb a2 a3 a5 hd (s' := { s.modNode
        (P.bktNum s.buckets.length k) b n.addr (fun n => { n with del := true }) with
        numTotal := dec64 s.numTotal, its := fix2end P (P.bktNum s.buckets.length k) k s.its })
        rfl rfl rfl rfl rfl rfl rfl
      exact ⟨by rw [if_pos x1], x2⟩
  · rw [a5] at h
    dsimp only at h
    rw [a8] at h
    dsimp only at h
    rw [if_pos ⟨a6, (ok.eqv_iff _ _).2 rfl⟩] at h
    obtain ⟨s2, hs2, h⟩ : ∃ s2, checkBuf P _ = some s2 ∧ _ := Option.bind_eq_some_iff.1 h
    simp only [Option.pure_def, Option.some.injEq, Prod.mk.injEq] at h
    obtain ⟨rfl, rfl⟩ := h
    have hsome : m k = some v0 := by rw [← R.2, a9]
    refine ⟨by rw [hsome]; rfl, ?_⟩
    obtain ⟨s3, hs3⟩ : ∃ s3, s3 = { s.addNode (P.bktNum s.buckets.length k) b
        (findInt P k none b.list) k P.dv true with
        numTotal := dec64 s.numTotal, its := fix2end P (P.bktNum s.buckets.length k) k s.its } := ⟨_, rfl⟩
    rw [← hs3] at hs2
    have hm := add_node ok R.1 hb a1 a2 a3 a4 P.dv true (s' := s3) (by rw [hs3]) (by rw [hs3]; rfl)
      (by rw [hs3]; rfl) (by rw [hs3]; rfl) (by rw [hs3]; rfl)
    have R' : Rep P s3 (upd m k none) := rep_of_add ok R hm
    refine (checkBuf_after ok R' hs2).imp ?_ rfl rfl rfl rfl rfl rfl rfl
    intro hcc ho
    obtain ⟨c1, c2, c3⟩ := hc hcc (by rw [hs3] at ho; exact ho)
    obtain ⟨d1, d2⟩ := c2.del (k := k) (by rw [hsome]; rfl)
    refine ⟨c1 - 1, d2, ?_⟩
    rw [hs3]
    show dec64 s.numTotal = _
    rw [c3, dec64_mod _ d1]
  · rw [a5] at h
    dsimp only at h
    rw [a8] at h
    dsimp only at h
    rw [if_neg (fun h => Nat.lt_irrefl _ h.1)] at h
    simp only [Option.pure_def, Option.some.injEq, Prod.mk.injEq] at h
    obtain ⟨rfl, rfl⟩ := h
    have hnone : m k = none := by rw [R.none_iff]; exact a9
    rw [upd_same hnone, hnone]
    exact ⟨rfl, R.1, fun _ => ⟨R, hc⟩⟩

theorem eraseObl_ok {k : K} {s s' : HMap K V} {m : K → Option V}
    (R : Rep P s m) (c : Prop) (hc : c → Counted s m) (h : eraseObl P k s = some s') :
    After P s' (upd m k none) c := by
  unfold eraseObl at h
  dsimp only at h
  obtain ⟨b, hb, h⟩ : ∃ b, s.buckets[P.bktNum s.buckets.length k]? = some b ∧ _ :=
    Option.bind_eq_some_iff.1 h
  have fin : ∀ l1 l2 : List (Node K V), b.list = l1 ++ l2 → (∀ n ∈ l1, P.lt n.key k = true) →
      (∀ n ∈ l2, P.lt k n.key = true) → findInt P k none b.list = l1.getLast? →
      (checkBuf P { s.addNode (P.bktNum s.buckets.length k) b
        (findInt P k none b.list) k P.dv true with
          numTotal := dec64 s.numTotal, obliv := true,
          its := fix2end P (P.bktNum s.buckets.length k) k s.its } = some s') →
      After P s' (upd m k none) c := by
    rintro l1 l2 a1 a2 a3 a4 hs2
    obtain ⟨s3, hs3⟩ : ∃ s3, s3 = { s.addNode (P.bktNum s.buckets.length k) b
        (findInt P k none b.list) k P.dv true with
          numTotal := dec64 s.numTotal, obliv := true,
          its := fix2end P (P.bktNum s.buckets.length k) k s.its } := ⟨_, rfl⟩
    rw [← hs3] at hs2
    have hm := add_node ok R.1 hb a1 a2 a3 a4 P.dv true (s' := s3) (by rw [hs3]) (by rw [hs3]; rfl)
      (by rw [hs3]; rfl) (by rw [hs3]; rfl) (by rw [hs3]; rfl)
    have R' : Rep P s3 (upd m k none) := rep_of_add ok R hm
    refine (checkBuf_after ok R' hs2).imp ?_ rfl rfl rfl rfl rfl rfl rfl
    intro hcc ho
    rw [hs3] at ho
    cases ho
  rcases locate ok R.1 k b hb with ⟨n, a1, a2, a3, a4, a5⟩ |
      ⟨l1, l2, v0, i, a1, a2, a3, a4, a5, a6, a7, a8, a9⟩ | ⟨l1, l2, a1, a2, a3, a4, a5, a8, a9⟩
  · rw [a4] at h
    dsimp only at h
    by_cases hd : n.del = true
    · rw [if_pos hd] at h
      simp only [Option.pure_def, Option.some.injEq] at h
      subst h
      have hnone : m k = none := by
        rw [R.none_iff]
        intro v' hv
        rw [a5, hd] at hv; simp at hv
      rw [upd_same hnone]
      exact ⟨R.1, fun _ => ⟨R, hc⟩⟩
    · rw [if_neg hd] at h
      simp only [Option.pure_def, Option.some.injEq] at h
      subst h
      exact (del_node_ok ok R c hc hb a2 a3 a5 hd (s' := { s.modNode
        (P.bktNum s.buckets.length k) b n.addr (fun n => { n with del := true }) with
        numTotal := dec64 s.numTotal, its := fix2end P (P.bktNum s.buckets.length k) k s.its })
        rfl rfl rfl rfl rfl rfl rfl).2
  · rw [a5] at h
    exact fin l1 l2 a1 a2 a3 a4 h
  · rw [a5] at h
    exact fin l1 l2 a1 a2 a3 a4 h

end
end Verif.HashMap
