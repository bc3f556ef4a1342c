import Verif.HashMap.Total

/-! # Histories of calls -/
namespace Verif.HashMap
variable {K V : Type} {P : Params K V}

/-- The range handed to a bulk insertion: as the sorter delivers it, no two different keys with the
same hash. Other calls have no such precondition. -/
def OpPre (P : Params K V) : Op K V → Prop
  | .bulk xs => BulkOK P xs
  | _ => True

section
variable [DecidableEq K] (ok : P.OK)
include ok

/-- One call that does not run into undefined behaviour. -/
theorem step_ok {op : Op K V} {s s' : HMap K V} {m : K → Option V} {o : Out K V} (R : Rep P s m)
    (c : Prop) (hc : c → Counted s m) (hpre : OpPre P op) (h : step P op s = some (s', o)) :
    (op.isSize = false ∨ c → Result P.dv op m o) ∧
      After P s' (next P.dv op m) (keeps op m c) := by
  cases op with
  | insert k v =>
    change ((insert P k v s).bind fun r => some (r.1.dropIt r.2.1, Out.bool r.2.2)) = _ at h
    obtain ⟨⟨s1, id, b⟩, h1, h⟩ := Option.bind_eq_some_iff.1 h
    obtain ⟨e1, e2⟩ := insert_ok ok R c hc h1
    simp only [Option.some.injEq, Prod.mk.injEq] at h
    obtain ⟨rfl, rfl⟩ := h
    exact ⟨fun _ => by rw [e1]; rfl, e2.imp (fun h => h) rfl rfl rfl rfl rfl rfl rfl⟩
  | insertObl k v =>
    change ((insertObl P k v s).bind fun r => some (r.1.dropIt r.2, Out.unit)) = _ at h
    obtain ⟨⟨s1, id⟩, h1, h⟩ := Option.bind_eq_some_iff.1 h
    have e2 := insertObl_ok ok R c hc h1
    simp only [Option.some.injEq, Prod.mk.injEq] at h
    obtain ⟨rfl, rfl⟩ := h
    exact ⟨fun _ => rfl, e2.imp (fun h => h) rfl rfl rfl rfl rfl rfl rfl⟩
  | erase k =>
    change ((erase P k s).bind fun r => some (r.1, Out.nat r.2)) = _ at h
    obtain ⟨⟨s1, b⟩, h1, h⟩ := Option.bind_eq_some_iff.1 h
    obtain ⟨e1, e2⟩ := erase_ok ok R c hc h1
    simp only [Option.some.injEq, Prod.mk.injEq] at h
    obtain ⟨rfl, rfl⟩ := h
    exact ⟨fun _ => by rw [e1]; rfl, e2⟩
  | eraseObl k =>
    change ((eraseObl P k s).bind fun r => some (r, Out.unit)) = _ at h
    obtain ⟨s1, h1, h⟩ := Option.bind_eq_some_iff.1 h
    have e2 := eraseObl_ok ok R c hc h1
    simp only [Option.some.injEq, Prod.mk.injEq] at h
    obtain ⟨rfl, rfl⟩ := h
    exact ⟨fun _ => rfl, e2⟩
  | find k =>
    obtain ⟨e1, e2⟩ := find_ok ok R c hc h
    exact ⟨fun _ => e1, e2⟩
  | findC k =>
    obtain ⟨e1, e2⟩ := findC_ok ok R c hc h
    exact ⟨fun _ => e1, e2⟩
  | get k =>
    obtain ⟨e1, e2⟩ := get_ok ok R c hc h
    exact ⟨fun _ => e1, e2⟩
  | set k v =>
    obtain ⟨e1, e2⟩ := set_ok ok R c hc h
    exact ⟨fun _ => e1, e2⟩
  | size =>
    change ((size P s).bind fun r => some (r.1, Out.nat r.2)) = _ at h
    obtain ⟨⟨s1, b⟩, h1, h⟩ := Option.bind_eq_some_iff.1 h
    obtain ⟨e1, e2⟩ := size_ok ok R c hc h1
    simp only [Option.some.injEq, Prod.mk.injEq] at h
    obtain ⟨rfl, rfl⟩ := h
    refine ⟨?_, e2⟩
    rintro (hh | hh)
    · cases hh
    · obtain ⟨n, n1, n2⟩ := e1 (Or.inl hh)
      exact ⟨n, n1, by rw [n2]⟩
  | rehash n =>
    change ((rebuild P n s).bind fun r => some (r, Out.unit)) = _ at h
    obtain ⟨s1, h1, h⟩ := Option.bind_eq_some_iff.1 h
    have e2 := (rebuild_after ok n R h1).1
    simp only [Option.some.injEq, Prod.mk.injEq] at h
    obtain ⟨rfl, rfl⟩ := h
    exact ⟨fun _ => rfl, e2⟩
  | clear =>
    change some (clear s, Out.unit) = _ at h
    simp only [Option.some.injEq, Prod.mk.injEq] at h
    obtain ⟨rfl, rfl⟩ := h
    exact ⟨fun _ => rfl, clear_ok ok⟩
  | setMaxBuf n =>
    change ((checkBuf P { s with maxBuf := n }).bind fun r => some (r, Out.unit)) = _ at h
    obtain ⟨s1, h1, h⟩ := Option.bind_eq_some_iff.1 h
    have R' : Rep P { s with maxBuf := n } m := R.congr rfl rfl rfl rfl rfl
    have e2 := checkBuf_after ok R' h1
    simp only [Option.some.injEq, Prod.mk.injEq] at h
    obtain ⟨rfl, rfl⟩ := h
    exact ⟨fun _ => rfl, e2.imp hc rfl rfl rfl rfl rfl rfl rfl⟩
  | bulk xs =>
    change ((bulk P xs s).bind fun r => some (r, Out.unit)) = _ at h
    obtain ⟨s1, h1, h⟩ := Option.bind_eq_some_iff.1 h
    have e2 := (bulk_ok ok R hpre h1).1
    simp only [Option.some.injEq, Prod.mk.injEq] at h
    obtain ⟨rfl, rfl⟩ := h
    exact ⟨fun _ => rfl, e2⟩

/-- A fresh table. -/
theorem new_rep (n mb : Nat) : Rep P (HMap.new P n mb) (fun _ => none) ∧
    Counted (HMap.new P n mb) (fun _ => none) := by
  obtain ⟨h1, h2⟩ := clear_ok ok (s := HMap.new P n mb)
  obtain ⟨h3, h4⟩ := h2 (Or.inr fun _ => rfl)
  have e : (clear (HMap.new P n mb)).buckets = (HMap.new P n mb).buckets := by
    simp [clear, HMap.new]
  exact ⟨h3.congr e.symm rfl rfl rfl rfl, h4 trivial⟩

end

/-- During the history `ops` the table never loses all its buckets while it holds elements, and bulk
insertions get collision-free ranges. The first half is guaranteed for `Safe` histories. -/
def Live [DecidableEq K] (P : Params K V) : List (Op K V) → HMap K V → (K → Option V) → Prop
  | [], _, _ => True
  | op :: ops, s, m => OpPre P op ∧ ∀ s' o, step P op s = some (s', o) →
      (0 < s'.buckets.length ∨ Empty (next P.dv op m)) ∧ Live P ops s' (next P.dv op m)

/-- Histories in terms of the abstract map only: the map is not empty when it is searched, no
`operator[]` on absent keys, no oblivious operations, fewer than `2^64` elements. -/
def Safe [DecidableEq K] (P : Params K V) : List (Op K V) → (K → Option V) → Prop
  | [], _ => True
  | op :: ops, m =>
    (match op with
      | .insert _ _ => True
      | .insertObl _ _ => False
      | .erase _ => ¬ Empty m
      | .eraseObl _ => False
      | .find _ => ¬ Empty m
      | .findC _ => ¬ Empty m
      | .get k => (m k).isSome = true
      | .set k _ => (m k).isSome = true
      | .size => True
      | .rehash _ => True
      | .clear => True
      | .setMaxBuf _ => True
      | .bulk xs => BulkOK P xs ∧ ∀ n, HasCard m n → n + xs.length < 2 ^ 64) ∧
    (∀ n, HasCard (next P.dv op m) n → n < 2 ^ 64) ∧ Safe P ops (next P.dv op m)

section
variable [DecidableEq K] (ok : P.OK)
include ok

theorem run_ok : ∀ (ops : List (Op K V)) (s s' : HMap K V) (m : K → Option V) (outs : List (Out K V))
    (c : Prop), Rep P s m → (c → Counted s m) → Live P ops s m → run P ops s = some (s', outs) →
    Agrees P.dv ops outs m c := by
  intro ops
  induction ops with
  | nil =>
    intro s s' m outs c _ _ _ h
    simp only [run, Option.some.injEq, Prod.mk.injEq] at h
    exact h.2.symm
  | cons op ops ih =>
    intro s s' m outs c R hc hl h
    change ((step P op s).bind fun r => (run P ops r.1).bind fun t => some (t.1, r.2 :: t.2)) = _ at h
    obtain ⟨⟨s1, o⟩, h1, h⟩ := Option.bind_eq_some_iff.1 h
    obtain ⟨⟨s2, os⟩, h2, h⟩ := Option.bind_eq_some_iff.1 h
    simp only [Option.some.injEq, Prod.mk.injEq] at h
    obtain ⟨rfl, rfl⟩ := h
    obtain ⟨hpre, hl⟩ := hl
    obtain ⟨l1, l2⟩ := hl s1 o h1
    obtain ⟨a1, _, a3⟩ := step_ok ok R c hc hpre h1
    obtain ⟨R', hc'⟩ := a3 l1
    exact ⟨a1, ih s1 _ _ _ _ R' hc' l2 h2⟩

omit ok in
theorem some_of_not_empty {m : K → Option V} {n : Nat} (h : HasCard m n) (he : ¬ Empty m) : 0 < n := by
  rcases Nat.eq_zero_or_pos n with rfl | hn
  · exact absurd (empty_of_card h) he
  · exact hn

omit ok in
theorem not_empty_of_some {m : K → Option V} {k : K} (h : (m k).isSome = true) : ¬ Empty m := by
  intro he; rw [he k] at h; cases h

/-- One safe call succeeds and leaves a table that is again safe to use. -/
theorem step_live (hp : P.Pos) {op : Op K V} {ops : List (Op K V)} {s : HMap K V} {m : K → Option V}
    {n : Nat} (R : Rep P s m) (hk : Known s m n) (hl : 0 < s.buckets.length ∨ Empty m)
    (hsafe : Safe P (op :: ops) m) :
    OpPre P op ∧ ∃ s' o n', step P op s = some (s', o) ∧ Rep P s' (next P.dv op m) ∧
      Known s' (next P.dv op m) n' ∧ (0 < s'.buckets.length ∨ Empty (next P.dv op m)) := by
  obtain ⟨hs1, hs2, _⟩ := hsafe
  have hpre : OpPre P op := by cases op <;> first | exact trivial | exact hs1.1
  refine ⟨hpre, ?_⟩
  have hc : True → Counted s m := fun _ _ => ⟨n, hk.2.1, by rw [hk.2.2.1, Nat.mod_eq_of_lt hk.2.2.2]⟩
  -- it is enough to know that the call succeeds and keeps a bucket
  have fin : ∀ s' o, step P op s = some (s', o) → s'.obliv = false →
      (0 < s'.buckets.length ∨ Empty (next P.dv op m)) → keeps op m True →
      ∃ s' o n', step P op s = some (s', o) ∧ Rep P s' (next P.dv op m) ∧
      Known s' (next P.dv op m) n' ∧ (0 < s'.buckets.length ∨ Empty (next P.dv op m)) := by
    intro s' o h1 h2 h3 h4
    obtain ⟨_, _, a3⟩ := step_ok ok R True hc hpre h1
    obtain ⟨R', hc'⟩ := a3 h3
    obtain ⟨n', c1, c2⟩ := hc' h4 h2
    have hlt := hs2 n' c1
    exact ⟨s', o, n', h1, R', ⟨h2, c1, by rw [c2, Nat.mod_eq_of_lt hlt], hlt⟩, h3⟩
  have hlen : ¬ Empty m → 0 < s.buckets.length := fun he => hl.resolve_right he
  have hpos : ¬ Empty m → 0 < n := fun he => some_of_not_empty hk.2.1 he
  cases op with
  | insert k v =>
    have hn1 : n + 1 < 2 ^ 64 ∨ (m k).isSome = true := by
      cases hm : m k with
      | some _ => exact Or.inr rfl
      | none =>
        left
        apply hs2
        show HasCard (if (m k).isNone = true then _ else _) _
        rw [hm]
        exact hk.2.1.add hm v
    rcases hn1 with hn1 | hsm
    · obtain ⟨s', id, o, h1, h2, h3⟩ := insert_live ok hp k v R hk hn1
      exact fin (s'.dropIt id) (.bool o) (by show (insert P k v s).bind _ = _; rw [h1]; rfl) h2 (Or.inl h3) trivial
    · -- the key is present: nothing happens
      have hl0 := hlen (not_empty_of_some hsm)
      obtain ⟨v0, hv0⟩ := Option.isSome_iff_exists.1 hsm
      have hlt := ok.range _ k hl0
      have hb := List.getElem?_eq_getElem hlt
      generalize s.buckets[P.bk s.buckets.length (P.hash k)] = b at hb
      change s.buckets[P.bktNum s.buckets.length k]? = some b at hb
      have hE : ensureBuckets P s = some s := by unfold ensureBuckets; rw [if_neg (by omega)]
      have : ∃ s' id o, insert P k v s = some (s', id, o) ∧ s'.obliv = false ∧ 0 < s'.buckets.length := by
        unfold insert
        rw [hE]
        simp only [Option.bind_eq_bind, Option.bind_some]
        rw [hb]
        simp only [Option.bind_some]
        rcases locate ok R.1 k b hb with ⟨n, a1, a2, a3, a4, a5⟩ |
          ⟨l1, l2, v1, i, a1, a2, a3, a4, a5, a6, a7, a8, a9⟩ | ⟨l1, l2, a1, a2, a3, a4, a5, a8, a9⟩
        · rw [a4]
          dsimp only
          have := (a5 v0).1 ((R.2 k v0).2 hv0)
          rw [this.1]
          exact ⟨_, _, _, rfl, hk.1, hl0⟩
        · rw [a5, a8]
          dsimp only
          rw [if_pos ⟨a6, (ok.eqv_iff _ _).2 rfl⟩]
          exact ⟨_, _, _, rfl, hk.1, hl0⟩
        · exact absurd ((R.2 k v0).2 hv0) (a9 v0)
      obtain ⟨s', id, o, h1, h2, h3⟩ := this
      exact fin (s'.dropIt id) (.bool o) (by show (insert P k v s).bind _ = _; rw [h1]; rfl) h2 (Or.inl h3) trivial
  | insertObl k v => exact absurd hs1 id
  | erase k =>
    obtain ⟨s', o, h1, h2, h3⟩ := erase_live ok hp k R hk (hlen hs1)
    have hstep : step P (.erase k) s = some (s', .nat o) := by show (erase P k s).bind _ = _; rw [h1]; rfl
    refine fin s' (.nat o) hstep h2 ?_ trivial
    by_cases hcond : o = 0 ∨ 1 < n
    · exact Or.inl (h3 hcond)
    · right
      have ho := (erase_ok ok R True hc h1).1
      have hsm : (m k).isSome = true := by
        cases hm : (m k).isSome with
        | true => rfl
        | false => rw [hm] at ho; exact absurd (Or.inl ho) hcond
      obtain ⟨d1, d2⟩ := hk.2.1.del hsm
      have : n - 1 = 0 := by omega
      rw [this] at d2
      exact empty_of_card d2
  | eraseObl k => exact absurd hs1 id
  | find k =>
    obtain ⟨s', o, h1, h2, h3⟩ := find_live ok hp k R hk (hlen hs1) (hpos hs1)
    exact fin s' o h1 h2 (Or.inl h3) trivial
  | findC k =>
    obtain ⟨s', o, h1, h2, h3⟩ := findC_live ok k R.1 (hlen hs1)
    exact fin s' o h1 (by rw [h2]; exact hk.1) (Or.inl h3) trivial
  | get k =>
    have hne := not_empty_of_some hs1
    obtain ⟨s', i, a, h1, h2, h3⟩ := index_live ok hp k R hk (hlen hne) (hpos hne)
    obtain ⟨g1, g2, ⟨b, nd, b1, b2, b3, b4, b5, b6⟩, g4, g5⟩ := index_ok ok R True hc h1
    refine fin s' (.val (some (nd.key, nd.val))) ?_ h2 (Or.inl h3) ⟨trivial, hs1⟩
    show (index P k s).bind _ = _
    rw [h1]
    simp only [Option.bind_some, Option.bind_eq_bind]
    rw [← b3, readNode_of b1 (g4.1.bok _ _ b1).nd b2]; rfl
  | set k v =>
    have hne := not_empty_of_some hs1
    obtain ⟨s', i, a, h1, h2, h3⟩ := index_live ok hp k R hk (hlen hne) (hpos hne)
    obtain ⟨g1, g2, ⟨b, nd, b1, b2, b3, b4, b5, b6⟩, g4, g5⟩ := index_ok ok R True hc h1
    refine fin (s'.modNode i b a (fun n => { n with val := v })) .unit ?_ h2 (Or.inl ?_) ⟨trivial, hs1⟩
    · show (index P k s).bind _ = _
      rw [h1]
      simp only [Option.bind_some, Option.bind_eq_bind, HMap.writeNode, b1]
      rw [← b3, find_addr (g4.1.bok _ _ b1).nd b2]; rfl
    · simpa [HMap.modNode, HMap.setBucket] using h3
  | size =>
    refine fin s (.nat s.numTotal) ?_ hk.1 hl trivial
    show (size P s).bind _ = _
    unfold size
    rw [hk.1]; rfl
  | rehash d =>
    obtain ⟨s', h1⟩ := rebuild_some ok d R.1
    obtain ⟨_, h4, h5, _, h7, _⟩ := rebuild_after ok d R h1
    refine fin s' .unit (by show (rebuild P d s).bind _ = _; rw [h1]; rfl) h7 ?_ trivial
    by_cases he : Empty m
    · exact Or.inr he
    · have hpos' := newCount_pos ok hp (t := s.numTotal) (d := d) (Or.inl (by rw [hk.2.2.1]; exact hpos he))
      exact Or.inl (by rw [h4 hpos']; exact hpos')
  | clear => exact fin (clear s) .unit rfl rfl (Or.inr fun _ => rfl) trivial
  | setMaxBuf d =>
    have R' : Rep P { s with maxBuf := d } m := R.congr rfl rfl rfl rfl rfl
    by_cases he : Empty m
    · obtain ⟨s', h1⟩ := checkBuf_some ok R'.1
      have hobl : s'.obliv = false := by
        unfold checkBuf at h1
        split_ifs at h1
        · exact (rebuild_after ok 0 R' h1).2.2.2.2.1
        · cases h1; exact hk.1
      exact fin s' .unit (by show (checkBuf P _).bind _ = _; rw [h1]; rfl) hobl (Or.inr he) trivial
    · obtain ⟨s', h1, h2, h3⟩ := checkBuf_live ok hp R'.1 hk.1 (hlen he)
      refine fin s' .unit (by show (checkBuf P _).bind _ = _; rw [h1]; rfl) h2 (Or.inl (h3 ?_)) trivial
      show 0 < s.numTotal
      rw [hk.2.2.1]; exact hpos he
  | bulk xs =>
    obtain ⟨hb1, hb2⟩ := hs1
    obtain ⟨s', h1⟩ : ∃ s', bulk P xs s = some s' := by
      obtain ⟨os, e1, _⟩ := stream_spec ok R.1
      unfold bulk
      rw [e1]; exact ⟨_, rfl⟩
    obtain ⟨_, h2, h3⟩ := bulk_ok ok R hb1 h1
    refine fin s' .unit (by show (bulk P xs s).bind _ = _; rw [h1]; rfl) h2 ?_ trivial
    have hlt := hb2 n hk.2.1
    rw [hk.2.2.1, Nat.mod_eq_of_lt hlt] at h3
    rcases Nat.eq_zero_or_pos (n + xs.length) with hz | hz
    · right
      have hx : xs = [] := List.length_eq_zero_iff.1 (by omega)
      have hn0 : n = 0 := by omega
      subst hx hn0
      exact fun k => empty_of_card hk.2.1 k
    · left
      rw [h3, Nat.lt_min]
      exact ⟨hp.nb _ hz, hp.maxb⟩

theorem run_live (hp : P.Pos) : ∀ (ops : List (Op K V)) (s : HMap K V) (m : K → Option V) (n : Nat),
    Rep P s m → Known s m n → (0 < s.buckets.length ∨ Empty m) → Safe P ops m →
    ∃ s' outs, run P ops s = some (s', outs) ∧ Live P ops s m := by
  intro ops
  induction ops with
  | nil => intro s m n _ _ _ _; exact ⟨s, [], rfl, trivial⟩
  | cons op ops ih =>
    intro s m n R hk hl hs
    obtain ⟨hpre, s1, o, n1, h1, R1, hk1, hl1⟩ := step_live ok hp R hk hl hs
    obtain ⟨s2, outs, h2, h3⟩ := ih s1 _ n1 R1 hk1 hl1 hs.2.2
    refine ⟨s2, o :: outs, ?_, hpre, ?_⟩
    · show (step P op s).bind _ = _
      rw [h1]
      simp only [Option.bind_some, Option.bind_eq_bind]
      rw [h2]; rfl
    · intro s' o' h'
      rw [h1] at h'
      cases h'
      exact ⟨hl1, h3⟩

end
end Verif.HashMap
