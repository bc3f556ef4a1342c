import Verif.HashMap.IterStep

/-! # Histories with iterators -/
namespace Verif.HashMap
variable {K V : Type} {P : Params K V}

section
variable [DecidableEq K] (ok : P.OK)
include ok

omit [DecidableEq K] in
theorem sortedN_inj {l : List (Node K V)} (hs : SortedN P l) {a b : Node K V} (ha : a ∈ l) (hb : b ∈ l) (h : a.key = b.key) :
    a = b := by
  unfold SortedN at hs
  obtain ⟨i, hi, rfl⟩ := List.mem_iff_getElem.1 ha
  obtain ⟨j, hj, rfl⟩ := List.mem_iff_getElem.1 hb
  have hp := List.pairwise_iff_getElem.1 hs
  rcases Nat.lt_trichotomy i j with g | g | g
  · have := hp i j hi hj g
    rw [h, ok.lt_irrefl] at this; cases this
  · subst g; rfl
  · have := hp j i hj hi g
    rw [h, ok.lt_irrefl] at this; cases this

theorem itEq_ok {s : HMap K V} (I : Inv P s) {a b : It K} {f1 g1 f2 g2 : Bool} (ha : ItP P s f1 g1 a) (hb : ItP P s f2 g2 b)
    (h : a.view.isSome = b.view.isSome) : itEq a b = decide (a.view = b.view) := by
  unfold itEq
  rcases Bool.eq_false_or_eq_true a.ended with ea | ea <;> rcases Bool.eq_false_or_eq_true b.ended with eb | eb
  · simp [It.view, ea, eb]
  · simp [It.view, ea, eb] at h
  · simp [It.view, ea, eb] at h
  · rw [ea, eb]
    rcases ha with ha | ⟨c, a1, a2, a3, a4⟩
    · rw [ea] at ha; cases ha
    rcases hb with hb | ⟨d, b1, b2, b3, b4⟩
    · rw [eb] at hb; cases hb
    simp only [Bool.and_self, Bool.false_eq_true, if_false, It.view, ea, eb, Option.some.injEq]
    have hcd : a.bkt = b.bkt → c = d := by
      intro h
      rw [h] at a1
      rw [a1] at b1
      cases b1; rfl
    have hkb : a.key = b.key → a.bkt = b.bkt := by intro h; rw [a2, b2, h]
    have B := I.bok _ c a1
    have hs := sortedV_extL.1 B.sv
    rcases a4 with ⟨p1, ⟨n, p2, p3, p4, _⟩, _⟩ | ⟨p1, _, p3, p4, p5, _⟩ <;>
      rcases b4 with ⟨q1, ⟨n', q2, q3, q4, _⟩, _⟩ | ⟨q1, _, q3, q4, q5, _⟩
    · by_cases hbk : a.bkt = b.bkt
      · rw [if_neg (by rw [p1, q1]; simp [hbk]), if_pos p1]
        have := hcd hbk
        subst this
        congr 1
        apply propext
        rw [p3, q3, Option.some.injEq, ← p4, ← q4]
        constructor
        · intro h
          have := List.inj_on_of_nodup_map B.nd p2 q2 h
          rw [this]
        · intro h
          rw [sortedN_inj ok B.sn p2 q2 h]
      · rw [if_pos (.inl hbk)]
        have : ¬ a.key = b.key := fun h => hbk (hkb h)
        simp [this]
    · rw [if_pos (.inr (by rw [p1, q1]; exact fun h => by cases h))]
      have : ¬ a.key = b.key := by
        intro h
        have := hcd (hkb h)
        subst this
        exact q5 n p2 (p4.trans h)
      simp [this]
    · rw [if_pos (.inr (by rw [p1, q1]; exact fun h => by cases h))]
      have : ¬ a.key = b.key := by
        intro h
        have := hcd (hkb h)
        subst this
        exact p5 n' q2 (q4.trans h.symm)
      simp [this]
    · by_cases hbk : a.bkt = b.bkt
      · rw [if_neg (by rw [p1, q1]; simp [hbk]), if_neg (by rw [p1]; exact fun h => by cases h)]
        have := hcd hbk
        subst this
        congr 1
        apply propext
        rw [← p4, ← q4]
        constructor
        · intro h; rw [h]
        · intro h
          rcases Nat.lt_trichotomy a.iExt b.iExt with g | g | g
          · have := hs _ _ g q3
            rw [h, ok.lt_irrefl] at this; cases this
          · exact g
          · have := hs _ _ g p3
            rw [h, ok.lt_irrefl] at this; cases this
      · rw [if_pos (.inl hbk)]
        have : ¬ a.key = b.key := fun h => hbk (hkb h)
        simp [this]

theorem isFirst_of {s : HMap K V} {m : K → Option V} (R : Rep P s m) {q : K → Prop} {o : Option K}
    (h1 : o = none → ∀ k v, Has P s k v → ¬ q k)
    (h2 : ∀ k0, o = some k0 → (∃ v, Has P s k0 v) ∧ q k0 ∧ ∀ k v, Has P s k v → q k → P.leq k0 k = true) :
    IsFirst P.lt m q o := by
  have hh : ∀ k, m k ≠ none → ∃ v, Has P s k v := by
    intro k hk
    cases hm : m k with
    | none => exact absurd hm hk
    | some v => exact ⟨v, (R.2 k v).2 hm⟩
  cases o with
  | none =>
    intro k hk
    obtain ⟨v, hv⟩ := hh k hk
    exact h1 rfl k v hv
  | some k0 =>
    obtain ⟨⟨v, hv⟩, g2, g3⟩ := h2 k0 rfl
    refine ⟨?_, g2, ?_⟩
    · rw [(R.2 _ _).1 hv]; exact fun h => by cases h
    · intro k' hk' hq
      obtain ⟨v', hv'⟩ := hh k' hk'
      rcases (ok.leq_iff _ _).1 (g3 k' v' hv' hq) with h | h
      · exact .inr h
      · exact .inl h.symm

omit ok [DecidableEq K] in
theorem ensure_id {s s' : HMap K V} (h : ensureBuckets P s = some s') : s'.nextId = s.nextId := by
  unfold ensureBuckets at h
  split_ifs at h
  · unfold rebuild at h
    obtain ⟨hs, _, h⟩ := Option.bind_eq_some_iff.1 h
    simp only [Option.pure_def, Option.some.injEq] at h
    rw [← h]
  · cases h; rfl

omit ok [DecidableEq K] in
theorem insert_id {k : K} {v : V} {s s' : HMap K V} {i : Nat} {o : Bool} (h : insert P k v s = some (s', i, o)) :
    i = s.nextId := by
  unfold insert at h
  obtain ⟨s1, hs1, h⟩ : ∃ s1, ensureBuckets P s = some s1 ∧ _ := Option.bind_eq_some_iff.1 h
  rw [← ensure_id hs1]
  obtain ⟨b, _, h⟩ := Option.bind_eq_some_iff.1 h
  dsimp only at h
  split at h
  · split_ifs at h <;>
    · simp only [Option.pure_def, Option.some.injEq, Prod.mk.injEq] at h
      exact h.2.1.symm
  · split_ifs at h
    · simp only [Option.pure_def, Option.some.injEq, Prod.mk.injEq] at h
      exact h.2.1.symm
    · obtain ⟨s2, _, h⟩ := Option.bind_eq_some_iff.1 h
      simp only [Option.pure_def, Option.some.injEq, Prod.mk.injEq] at h
      exact h.2.1.symm

omit ok [DecidableEq K] in
theorem insertObl_id {k : K} {v : V} {s s' : HMap K V} {i : Nat} (h : insertObl P k v s = some (s', i)) :
    i = s.nextId := by
  unfold insertObl at h
  obtain ⟨b, _, h⟩ := Option.bind_eq_some_iff.1 h
  dsimp only at h
  split at h
  · simp only [Option.pure_def, Option.some.injEq, HMap.newIt, Prod.mk.injEq] at h
    exact h.2.symm
  · obtain ⟨s2, _, h⟩ := Option.bind_eq_some_iff.1 h
    simp only [Option.pure_def, Option.some.injEq, Prod.mk.injEq] at h
    exact h.2.symm

omit ok in
/-- The result of a call is as specified. -/
def IRes (P : Params K V) (σ : ISt K V) (op : IOp K V) : Option (HMap K V × IOut K V) → Prop
  | none => op.mayFail = true
  | some (s', o) => ∃ σ', IStep P.lt P.dv σ op o σ' ∧
        (0 < s'.buckets.length ∨ Empty σ'.m → Rep P s' σ'.m ∧ ISim P s' σ'.its)

/-- Every call. -/
theorem istep_ok {s : HMap K V} {σ : ISt K V} (R : Rep P s σ.m) (S : ISim P s σ.its) (op : IOp K V) (hpre : IPre σ op)
    (hb : ∀ o, op = .call o → OpPre P o) : IRes P σ op (istep P op s) := by
  obtain ⟨m, σ⟩ := σ
  dsimp only at R S
  have free := S.free
  have view : ∀ {it : It K} {p : Pos K} {k : K}, p.pos = some k → p.pos = it.view → it.ended = false ∧ it.key = k := by
    intro it p k h1 h2
    rw [h1] at h2
    exact view_some.1 h2.symm
  cases op with
  | call op =>
    simp only [istep]
    cases h : step P op s with
    | none => rfl
    | some r =>
      obtain ⟨s', o⟩ := r
      obtain ⟨h1, h2⟩ := step_ok ok R False (fun h => h.elim) (hb op rfl) h
      exact ⟨⟨next P.dv op m, itsAfter P.lt op σ⟩, ⟨o, rfl, fun hh => h1 (.inl hh), rfl⟩,
        fun hl => ⟨(h2.2 hl).1, call_sim ok S R (hb op rfl) hpre h hl⟩⟩
  | find k =>
    simp only [istep]
    cases h : find P k s with
    | none => rfl
    | some r =>
      obtain ⟨s', i⟩ := r
      obtain ⟨rfl, h2, h3, h4⟩ := find_sim ok S R h
      exact ⟨⟨m, _⟩, ⟨s.nextId, rfl, free, rfl⟩, fun _ => ⟨h3, h4⟩⟩
  | findC k =>
    simp only [istep]
    cases h : findC P k s with
    | none => rfl
    | some r =>
      obtain ⟨s', i⟩ := r
      obtain ⟨rfl, h2, h3, h4⟩ := findC_sim ok S R h
      exact ⟨⟨m, _⟩, ⟨s.nextId, rfl, free, rfl⟩, fun _ => ⟨h3, h4⟩⟩
  | insert k v =>
    simp only [istep]
    cases h : insert P k v s with
    | none => rfl
    | some r =>
      obtain ⟨s', i, o⟩ := r
      obtain ⟨rfl, h2⟩ := insert_ok ok R False (fun h => h.elim) h
      have hi : i = s.nextId := insert_id h
      subst hi
      exact ⟨⟨next P.dv (.insert k v) m, _⟩, ⟨s.nextId, rfl, free, rfl⟩,
        fun hl => ⟨(h2.2 hl).1, (insert_sim ok S R h hl).2⟩⟩
  | insertObl k v =>
    simp only [istep]
    cases h : insertObl P k v s with
    | none => rfl
    | some r =>
      obtain ⟨s', i⟩ := r
      have h2 := insertObl_ok ok R False (fun h => h.elim) h
      have hi : i = s.nextId := insertObl_id h
      subst hi
      exact ⟨⟨next P.dv (.insertObl k v) m, _⟩, ⟨s.nextId, rfl, free, rfl⟩,
        fun hl => ⟨(h2.2 hl).1, (insertObl_sim ok S R h hl).2⟩⟩
  | begin =>
    obtain ⟨it, e1, e2, e3, e4, e5⟩ := itBegin_ok ok R.1 s.nextId
    simp only [istep, e1, Option.map_some]
    refine ⟨⟨m, setI σ s.nextId (some ⟨it.view, true, false⟩)⟩, ⟨s.nextId, it.view, rfl, free, ?_, rfl⟩, fun _ =>
      ⟨R.congr rfl rfl rfl rfl rfl, ?_⟩⟩
    · refine isFirst_of ok R ?_ ?_
      · intro h k v hk _; exact e4 h k v hk
      · intro k0 h
        obtain ⟨g1, g2⟩ := e5 k0 h
        exact ⟨g1, trivial, fun k v hk _ => g2 k v hk⟩
    · have hit : ({ it with id := s.nextId } : It K) = it := by rw [← e2]
      exact S.add it ⟨it.view, true, false⟩ (by show _ = it :: s.its; rw [← hit]; rfl) e2 rfl rfl rfl rfl rfl e3
  | next i =>
    obtain ⟨p, k, h1, h2, h3⟩ := hpre
    obtain ⟨it, g1, g2, rfl, g4, g5⟩ := S.get h1
    obtain ⟨he, hk⟩ := view h2 g4
    rw [h3] at g5
    obtain ⟨it', e1, e2, e3, e4, e5⟩ := itNext_ok ok R.1 he g5
    simp only [istep, g1, Option.bind_eq_bind, Option.bind_some, e1, Option.pure_def]
    refine ⟨⟨m, setI σ it.id (some { p with pos := it'.view })⟩, ⟨p, k, it'.view, rfl, h1, h2, ?_, rfl⟩, fun _ =>
      ⟨R.congr rfl rfl rfl rfl rfl, putIt_sim S g2 e2 rfl ?_⟩⟩
    · rw [hk] at e4 e5
      exact isFirst_of ok R e4 e5
    · show ItP P s p.frag p.broken it'
      rw [h3]; exact e3
  | deref i =>
    obtain ⟨k, p, h1, h2⟩ := hpre
    obtain ⟨it, g1, g2, rfl, g4, g5⟩ := S.get h1
    obtain ⟨he, hk⟩ := view h2 g4
    obtain ⟨it', v, e1, e2, e3, e4, e5⟩ := itDeref_ok ok R.1 he g5
    simp only [istep, g1, Option.bind_eq_bind, Option.bind_some, e1, Option.pure_def]
    refine ⟨⟨m, σ⟩, ⟨k, v, ⟨p, h1, h2⟩, ?_, ?_, rfl⟩, fun _ => ⟨R.congr rfl rfl rfl rfl rfl, ?_⟩⟩
    · rw [← hk]; exact (R.2 _ _).1 e2
    · rw [hk]
    · have := putIt_sim S g2 e3 (p := p) (by rw [e4]; exact g4) e5
      rw [setI_self h1] at this
      exact this
  | assign i v =>
    obtain ⟨k, p, h1, h2⟩ := hpre
    obtain ⟨it, g1, g2, rfl, g4, g5⟩ := S.get h1
    obtain ⟨he, hk⟩ := view h2 g4
    obtain ⟨it', s', e1, e2, e3⟩ := itAssign_ok ok R S g2 h1 g4 he g5 v
    simp only [istep, g1, Option.bind_eq_bind, Option.bind_some, e1, Option.pure_def]
    rw [hk] at e2
    exact ⟨⟨upd m k (some v), σ⟩, ⟨k, ⟨p, h1, h2⟩, rfl, rfl⟩, fun _ => ⟨e2, e3⟩⟩
  | eraseIt i =>
    obtain ⟨k, p, h1, h2⟩ := hpre
    obtain ⟨it, g1, g2, rfl, g4, g5⟩ := S.get h1
    obtain ⟨he, hk⟩ := view h2 g4
    obtain ⟨s', e1, e2⟩ := eraseIt_ok ok R S he g5
    simp only [istep, g1, Option.bind_eq_bind, Option.bind_some, e1, Option.pure_def]
    rw [hk] at e2
    exact ⟨⟨upd m k none, _⟩, ⟨k, ⟨p, h1, h2⟩, rfl, rfl⟩, e2⟩
  | isEnd i =>
    obtain ⟨p, h1⟩ : ∃ p, σ i = some p := Option.ne_none_iff_exists'.1 hpre
    obtain ⟨it, g1, g2, rfl, g4, g5⟩ := S.get h1
    simp only [istep, g1, Option.bind_eq_bind, Option.bind_some, Option.pure_def]
    refine ⟨⟨m, σ⟩, ⟨p, h1, ?_, rfl⟩, fun _ => ⟨R, S⟩⟩
    rw [g4]
    congr 1
    unfold itEq It.view
    rcases g5 with h | ⟨b, _, _, _, h⟩
    · simp [h]
    · have hs : it.src ≠ .unknown := by
        rcases h with ⟨h, _⟩ | ⟨h, _⟩ <;> rw [h] <;> exact fun h => by cases h
      cases he : it.ended <;> simp [he, hs]
  | equal i j =>
    obtain ⟨p, q, h1, h2, h3⟩ := hpre
    obtain ⟨a, a1, a2, rfl, a4, a5⟩ := S.get h1
    obtain ⟨b, b1, b2, rfl, b4, b5⟩ := S.get h2
    simp only [istep, a1, b1, Option.bind_eq_bind, Option.bind_some, Option.pure_def]
    refine ⟨⟨m, σ⟩, ⟨p, q, h1, h2, ?_, rfl⟩, fun _ => ⟨R, S⟩⟩
    rw [a4, b4] at h3
    rw [itEq_ok ok R.1 a5 b5 h3, a4, b4]
  | copy i =>
    obtain ⟨p, h1⟩ : ∃ p, σ i = some p := Option.ne_none_iff_exists'.1 hpre
    obtain ⟨it, g1, g2, rfl, g4, g5⟩ := S.get h1
    simp only [istep, g1, Option.bind_eq_bind, Option.bind_some, Option.pure_def]
    refine ⟨⟨m, setI σ s.nextId (some p)⟩, ⟨s.nextId, p, rfl, free, h1, rfl⟩, fun _ => ⟨R.congr rfl rfl rfl rfl rfl, ?_⟩⟩
    refine S.add { it with reader := none, id := s.nextId } p rfl rfl rfl rfl rfl rfl g4 ?_
    rcases g5 with h | ⟨b, c1, c2, _, c4⟩
    · exact .inl h
    · exact .inr ⟨b, c1, c2, (fun r hr => by cases hr), c4⟩
  | drop i =>
    exact ⟨⟨m, setI σ i none⟩, ⟨rfl, rfl⟩, fun _ => ⟨R.congr rfl rfl rfl rfl rfl, S.drop i⟩⟩

end
end Verif.HashMap
