import Verif.HashMap.IterOps

/-! # Iterators and reorganisation -/
namespace Verif.HashMap
variable {K V : Type} {P : Params K V}

/-- `fix_iterators_2ext` for one iterator. -/
def fixOne (P : Params K V) (bOld : Nat) (k : K) (bNew iExt : Nat) (it : It K) : It K :=
  if !it.ended && decide (it.bkt = bOld) && P.eqv k it.key then
    { it with bkt := bNew, node := none, iExt := iExt, src := .external, extValid := true, reader := none }
  else it

/-- What `fillBucket` does to one iterator. -/
def go (P : Params K V) (n i : Nat) : List (HV K V) → Nat → It K → It K
  | [], _, it => it
  | h :: hs, c, it =>
    if P.bktNum n h.val.1 ≠ i then it else go P n i hs (c + 1) (fixOne P h.bkt h.val.1 i c it)

/-- What `fillAll` does to one iterator. -/
def goAll (P : Params K V) (n : Nat) : Nat → Nat → List (HV K V) → It K → It K
  | 0, _, _, it => it
  | todo + 1, i, hs, it => goAll P n todo (i + 1) (hs.dropWhile fun h => decide (P.bktNum n h.val.1 = i)) (go P n i hs 0 it)

theorem fillBucket_its (n i : Nat) : ∀ (hs : List (HV K V)) (c : Nat) (w : Writer K V) (its : List (It K)),
    (fillBucket P n i hs c w its).2.2.2 = its.map (go P n i hs c) ∧
    (fillBucket P n i hs c w its).1 = hs.dropWhile fun h => decide (P.bktNum n h.val.1 = i) := by
  intro hs
  induction hs with
  | nil => intro c w its; exact ⟨by simp [fillBucket, go], rfl⟩
  | cons h hs ih =>
    intro c w its
    unfold fillBucket
    by_cases hb : P.bktNum n h.val.1 ≠ i
    · rw [if_pos hb, List.dropWhile_cons_of_neg (by simpa using hb)]
      refine ⟨?_, rfl⟩
      have : go P n i (h :: hs) c = id := by funext it; simp [go, hb]
      rw [this]; simp
    · rw [if_neg hb, List.dropWhile_cons_of_pos (by simpa using hb)]
      obtain ⟨h1, h2⟩ := ih (c + 1) (w.append P h.val) (fix2ext P h.bkt h.val.1 i c its)
      refine ⟨?_, h2⟩
      rw [h1]
      unfold fix2ext
      rw [List.map_map]
      apply List.map_congr_left
      intro it _
      simp only [go, if_neg hb]
      rfl

theorem fillAll_its (n : Nat) : ∀ (todo i : Nat) (hs : List (HV K V)) (w : Writer K V) (its : List (It K)),
    (fillAll P n todo i hs w its).2.2.2 = its.map (goAll P n todo i hs) := by
  intro todo
  induction todo with
  | zero => intro i hs w its; simp [fillAll, goAll]
  | succ todo ih =>
    intro i hs w its
    obtain ⟨h1, h2⟩ := fillBucket_its (P := P) n i hs 0 w its
    simp only [fillAll]
    rw [ih, h1, h2, List.map_map]
    rfl

section
variable (ok : P.OK)
include ok

theorem fixOne_id {bOld : Nat} {k : K} {bNew e : Nat} {it : It K} (h : it.ended = true ∨ it.key ≠ k) :
    fixOne P bOld k bNew e it = it := by
  unfold fixOne
  rw [if_neg]
  simp only [Bool.and_eq_true, Bool.not_eq_true', decide_eq_true_eq, ok.eqv_iff]
  rintro ⟨⟨h1, _⟩, h2⟩
  rcases h with h | h
  · rw [h] at h1; cases h1
  · exact h h2.symm

theorem fixOne_hit {k : K} {bNew e : Nat} {it : It K} (h : it.ended = false) (hk : it.key = k) :
    fixOne P it.bkt k bNew e it =
      { it with bkt := bNew, node := none, iExt := e, src := .external, extValid := true, reader := none } := by
  unfold fixOne
  rw [if_pos]
  simp [h, hk, ok.eqv_iff]

theorem go_id (n i : Nat) : ∀ (hs : List (HV K V)) (c : Nat) (it : It K), it.ended = true ∨ (∀ h ∈ hs, h.val.1 ≠ it.key) →
    go P n i hs c it = it := by
  intro hs
  induction hs with
  | nil => intro c it _; rfl
  | cons h hs ih =>
    intro c it hh
    unfold go
    split_ifs
    · rfl
    · rw [fixOne_id ok (hh.imp id fun g e => g h List.mem_cons_self e.symm)]
      exact ih _ _ (hh.imp id fun g x hx => g x (List.mem_cons_of_mem _ hx))

/-- `go` stops at the end of the bucket. -/
theorem go_append (n i : Nat) (hs2 : List (HV K V)) (h2 : ∀ h ∈ hs2.head?, P.bktNum n h.val.1 ≠ i) :
    ∀ (hs1 : List (HV K V)) (c : Nat) (it : It K), (∀ h ∈ hs1, P.bktNum n h.val.1 = i) →
      go P n i (hs1 ++ hs2) c it = go P n i hs1 c it := by
  intro hs1
  induction hs1 with
  | nil =>
    intro c it _
    cases hs2 with
    | nil => rfl
    | cons h hs2 =>
      show go P n i (h :: hs2) c it = it
      unfold go
      rw [if_pos (h2 h (by simp))]
  | cons h hs1 ih =>
    intro c it hh
    have := hh h List.mem_cons_self
    rw [List.cons_append, go, if_neg (by simp [this]), go, if_neg (by simp [this])]
    exact ih _ _ (fun x hx => hh x (List.mem_cons_of_mem _ hx))

theorem go_hit (n i : Nat) : ∀ (hs : List (HV K V)) (c : Nat) (it : It K) (h : HV K V), it.ended = false →
    (∀ h ∈ hs, P.bktNum n h.val.1 = i) → SortedV P (hs.map (·.val)) → h ∈ hs → h.val.1 = it.key → h.bkt = it.bkt →
    ∃ j, hs[j]? = some h ∧ go P n i hs c it =
      { it with bkt := i, node := none, iExt := c + j, src := .external, extValid := true, reader := none } := by
  intro hs
  induction hs with
  | nil => intro c it h _ _ _ hm; cases hm
  | cons x hs ih =>
    intro c it h he hi hs' hm hk hb
    unfold SortedV at hs'
    rw [List.map_cons, List.pairwise_cons] at hs'
    unfold go
    rw [if_neg (by simp [hi x List.mem_cons_self])]
    rcases List.mem_cons.1 hm with rfl | hm
    · refine ⟨0, rfl, ?_⟩
      rw [hb, fixOne_hit ok he hk.symm, go_id ok]
      · rfl
      · right
        intro y hy e
        have := hs'.1 y.val (List.mem_map.2 ⟨y, hy, rfl⟩)
        dsimp only at e
        rw [hk, e] at this
        exact ok.lt_ne this rfl
    · have hne : it.key ≠ x.val.1 := by
        rw [← hk]
        exact (ok.lt_ne (hs'.1 h.val (List.mem_map.2 ⟨h, hm, rfl⟩))).symm
      rw [fixOne_id ok (.inr hne)]
      obtain ⟨j, h1, h2⟩ := ih (c + 1) it h he (fun y hy => hi y (List.mem_cons_of_mem _ hy)) hs'.2 hm hk hb
      exact ⟨j + 1, h1, by rw [h2, show c + 1 + j = c + (j + 1) by omega]⟩

omit ok in
theorem takeWhile_all {α : Type} (p : α → Bool) (l : List α) : ∀ x ∈ l.takeWhile p, p x = true := by
  induction l with
  | nil => intro x h; simp at h
  | cons a l ih =>
    intro x h
    rw [List.takeWhile_cons] at h
    split_ifs at h with hp
    · rcases List.mem_cons.1 h with rfl | h
      · exact hp
      · exact ih x h
    · simp at h

omit ok in
theorem dropWhile_head {α : Type} (p : α → Bool) (l : List α) : ∀ x ∈ (l.dropWhile p).head?, p x = false := by
  induction l with
  | nil => intro x h; simp at h
  | cons a l ih =>
    intro x h
    rw [List.dropWhile_cons] at h
    split_ifs at h with hp
    · exact ih x h
    · simp only [List.head?_cons, Option.mem_def, Option.some.injEq] at h; rw [← h]; simpa using hp

theorem goAll_id (n : Nat) : ∀ (todo i : Nat) (hs : List (HV K V)) (it : It K), it.ended = true ∨ (∀ h ∈ hs, h.val.1 ≠ it.key) →
    goAll P n todo i hs it = it := by
  intro todo
  induction todo with
  | zero => intro i hs it _; rfl
  | succ todo ih =>
    intro i hs it h
    unfold goAll
    rw [go_id ok _ _ _ _ _ h]
    exact ih _ _ _ (h.imp id fun g x hx => g x ((List.dropWhile_sublist _).subset hx))

theorem goAll_hit (n : Nat) : ∀ (todo i : Nat) (hs : List (HV K V)) (it : It K) (h : HV K V), i + todo = n →
    (∀ h ∈ hs, i ≤ P.bktNum n h.val.1 ∧ P.bktNum n h.val.1 < n) → SortedV P (hs.map (·.val)) → it.ended = false →
    h ∈ hs → h.val.1 = it.key → h.bkt = it.bkt →
    ∃ j, (hs.filter fun x => decide (P.bktNum n x.val.1 = P.bktNum n it.key))[j]? = some h ∧ goAll P n todo i hs it =
      { it with bkt := P.bktNum n it.key, node := none, iExt := j, src := .external, extValid := true, reader := none } := by
  intro todo
  induction todo with
  | zero =>
    intro i hs it h hn hr _ _ hm
    have := hr h hm; omega
  | succ todo ih =>
    intro i hs it h hn hr hsort he hm hk hb
    obtain ⟨h1, e1⟩ : ∃ l, l = hs.takeWhile fun h => decide (P.bktNum n h.val.1 = i) := ⟨_, rfl⟩
    obtain ⟨h2, e2⟩ : ∃ l, l = hs.dropWhile fun h => decide (P.bktNum n h.val.1 = i) := ⟨_, rfl⟩
    have e : hs = h1 ++ h2 := by rw [e1, e2, List.takeWhile_append_dropWhile]
    have a1 : ∀ x ∈ h1, P.bktNum n x.val.1 = i := by
      intro x hx; rw [e1] at hx; simpa using takeWhile_all _ _ x hx
    have a2 : ∀ x ∈ h2.head?, P.bktNum n x.val.1 ≠ i := by
      intro x hx; rw [e2] at hx; simpa using dropWhile_head _ _ x hx
    have hsort' : SortedV P (h1.map (·.val)) ∧ SortedV P (h2.map (·.val)) ∧
        ∀ a ∈ h1.map (·.val), ∀ b ∈ h2.map (·.val), P.lt a.1 b.1 = true := by
      unfold SortedV at *
      rw [e, List.map_append, List.pairwise_append] at hsort; exact hsort
    have a3 : ∀ x ∈ h2, i + 1 ≤ P.bktNum n x.val.1 := by
      intro x hx
      have hge := (hr x (by rw [e]; simp [hx])).1
      cases h2 with
      | nil => cases hx
      | cons y ys =>
        have hy := a2 y (by simp)
        have hyge := (hr y (by rw [e]; simp)).1
        rcases List.mem_cons.1 hx with rfl | hx
        · omega
        · have := hsort'.2.1
          unfold SortedV at this
          rw [List.map_cons, List.pairwise_cons] at this
          have := ok.bkt_mono n (this.1 x.val (List.mem_map.2 ⟨x, hx, rfl⟩))
          show i + 1 ≤ P.bktNum n x.val.1
          omega
    unfold goAll
    rw [← e2]
    have hgo : go P n i hs 0 it = go P n i h1 0 it := by rw [e]; exact go_append ok n i h2 a2 h1 0 it a1
    rw [hgo]
    rw [e] at hm
    rcases List.mem_append.1 hm with hm | hm
    · have hi : P.bktNum n it.key = i := by rw [← hk]; exact a1 h hm
      obtain ⟨j, g1, g2⟩ := go_hit ok n i h1 0 it h he a1 hsort'.1 hm hk hb
      refine ⟨j, ?_, ?_⟩
      · rw [e, List.filter_append, hi]
        have f1 : h1.filter (fun x => decide (P.bktNum n x.val.1 = i)) = h1 :=
          List.filter_eq_self.2 fun x hx => by simpa using a1 x hx
        rw [f1, List.getElem?_append_left (List.getElem?_eq_some_iff.1 g1).1]; exact g1
      · rw [g2, hi, Nat.zero_add]
        apply goAll_id ok
        right
        intro x hx ex
        have := hsort'.2.2 h.val (List.mem_map.2 ⟨h, hm, rfl⟩) x.val (List.mem_map.2 ⟨x, hx, rfl⟩)
        dsimp only at ex
        rw [hk, ex] at this
        exact ok.lt_ne this rfl
    · rw [go_id ok n i h1 0 it (.inr ?_)]
      · obtain ⟨j, g1, g2⟩ := ih (i + 1) h2 it h (by omega)
          (fun x hx => ⟨a3 x hx, (hr x (by rw [e]; simp [hx])).2⟩) hsort'.2.1 he hm hk hb
        refine ⟨j, ?_, g2⟩
        rw [e, List.filter_append]
        have f1 : h1.filter (fun x => decide (P.bktNum n x.val.1 = P.bktNum n it.key)) = [] := by
          rw [List.filter_eq_nil_iff]
          intro x hx
          have q1 := a1 x hx
          have q2 := a3 h hm
          rw [hk] at q2
          simp only [decide_eq_true_eq]; omega
        rw [f1, List.nil_append]; exact g1
      · intro x hx ex
        have := hsort'.2.2 x.val (List.mem_map.2 ⟨x, hx, rfl⟩) h.val (List.mem_map.2 ⟨h, hm, rfl⟩)
        rw [hk, ex] at this
        exact ok.lt_ne this rfl

/-- The table is rebuilt from the values `hs`. -/
theorem ISim.rehash {s s' : HMap K V} {σ : Nat → Option (Pos K)} (S : ISim P s σ) {n : Nat} {hs : List (HV K V)}
    (hn : 0 < n) (hsort : SortedV P (hs.map (·.val)))
    (hall : ∀ it ∈ s.its, it.ended = false → ∃ h ∈ hs, h.val.1 = it.key ∧ h.bkt = it.bkt)
    (e1 : s'.its = s.its.map (goAll P n n 0 hs)) (e2 : s'.nextId = s.nextId) (e3 : s'.buckets.length = n)
    (hlist : ∀ b ∈ s'.buckets, b.list = [])
    (hcont : ∀ (j : Nat) (b : Bucket K V), s'.buckets[j]? = some b →
      bext P s'.mem b = (hs.map (·.val)).filter (fun h => decide (P.bktNum n h.1 = j))) :
    ISim P s' σ := by
  have : σ = fun i => (σ i).map id := by funext i; simp
  rw [this]
  have hr : ∀ h ∈ hs, 0 ≤ P.bktNum n h.val.1 ∧ P.bktNum n h.val.1 < n := fun h _ => ⟨Nat.zero_le _, ok.range n _ hn⟩
  have spec : ∀ it ∈ s.its, (it.ended = true ∧ goAll P n n 0 hs it = it) ∨ (it.ended = false ∧ ∃ h ∈ hs, h.val.1 = it.key ∧
      ∃ j, (hs.filter fun x => decide (P.bktNum n x.val.1 = P.bktNum n it.key))[j]? = some h ∧ goAll P n n 0 hs it =
      { it with bkt := P.bktNum n it.key, node := none, iExt := j, src := .external, extValid := true, reader := none }) := by
    intro it hit
    rcases Bool.eq_false_or_eq_true it.ended with he | he
    · exact .inl ⟨he, goAll_id ok _ _ _ _ _ (.inl he)⟩
    · obtain ⟨h, h1, h2, h3⟩ := hall it hit he
      exact .inr ⟨he, h, h1, h2, goAll_hit ok n n 0 hs it h (by omega) hr hsort he h1 h2 h3⟩
  -- identifiers are kept by all iterators of the state
  have hid : ∀ it ∈ s.its, (goAll P n n 0 hs it).id = it.id := by
    intro it hit
    rcases spec it hit with ⟨_, h⟩ | ⟨_, h, _, _, j, _, h⟩ <;> rw [h]
  have e1' : s'.its = s.its.map fun it => { goAll P n n 0 hs it with id := it.id } := by
    rw [e1]
    apply List.map_congr_left
    intro it hit
    have := hid it hit
    dsimp only
    rw [← this]
  refine S.map _ id e1' (by omega) (fun _ => rfl) ?_
  intro it hit p hp hI
  rcases spec it hit with ⟨he, h⟩ | ⟨he, h, hm, hk, j, hj, hg⟩
  · rw [h]
    exact ⟨hp, .inl he⟩
  · rw [hg]
    refine ⟨by rw [id_eq, hp]; unfold It.view; rfl, .inr ?_⟩
    have hlt : P.bktNum n it.key < s'.buckets.length := by rw [e3]; exact ok.range n _ hn
    refine ⟨s'.buckets[P.bktNum n it.key], List.getElem?_eq_getElem hlt, by rw [e3], ?_⟩
    have hl := hlist _ (List.getElem_mem hlt)
    have hc := hcont _ _ (List.getElem?_eq_getElem hlt)
    have hget : (bext P s'.mem s'.buckets[P.bktNum n it.key])[j]? = some h.val := by
      rw [hc, List.filter_map, List.getElem?_map]
      rw [show (hs.filter ((fun h => decide (P.bktNum n h.1 = P.bktNum n it.key)) ∘ fun x => x.val)) =
        hs.filter (fun x => decide (P.bktNum n x.val.1 = P.bktNum n it.key)) from rfl, hj]
      rfl
    obtain ⟨g1, g2⟩ := List.getElem?_eq_some_iff.1 hget
    unfold bext at g1 g2
    rw [extL_length] at g1
    rw [extL_getElem] at g2
    refine ⟨(fun r hr => by cases hr), .inr ⟨rfl, rfl, g1, ?_, ?_, ?_⟩⟩
    · show (s'.mem _).1 = it.key
      rw [g2]; exact hk
    · rw [hl]; intro n hn; cases hn
    · intro a ha; cases ha

/-- `_rebuild_buckets`. -/
theorem ISim.rebuild {s s' : HMap K V} {σ : Nat → Option (Pos K)} (S : ISim P s σ) (I : Inv P s) (d : Nat)
    (h : rebuild P d s = some s') (hl : 0 < s'.buckets.length) : ISim P s' σ := by
  obtain ⟨hs, e1, e2, e3, e4⟩ := stream_spec ok I
  unfold Verif.HashMap.rebuild at h
  rw [e1] at h
  simp only [Option.bind_eq_bind, Option.bind_some, Option.pure_def, Option.some.injEq] at h
  generalize hnn : newCount P s.numTotal d = n at *
  rcases Nat.eq_zero_or_pos n with hn | hn
  · subst hn
    rw [← h] at hl
    simp [fillAll] at hl
  have w0 : WOK P (Writer.new P) := ⟨ok.bb, Nat.le_refl _⟩
  have hp0 : (Writer.new P).pos P = 0 := by simp [Writer.pos, Writer.new]
  obtain ⟨bs, w, its, f1, f2, f3, _, _, f6⟩ := fillAll_ok ok n n 0 hs (Writer.new P) s.its (by omega) w0
    (by simp [Writer.new]) (fun h _ => ⟨Nat.zero_le _, ok.range n _ hn⟩) e2
  have hits := fillAll_its (P := P) n n 0 hs (Writer.new P) s.its
  rw [f1] at hits h
  dsimp only at hits h
  rw [hp0] at f6
  obtain ⟨_, _, _, w4, w5⟩ := writeOut_ok ok f3
  have hposlt : w.pos P < (w.iBlock + 1) * P.BB := by
    have := f3.iv
    unfold Writer.pos
    rw [Nat.add_mul]; omega
  subst h
  refine S.rehash ok (hs := hs) hn e2 ?_ (by dsimp only; exact hits) rfl f2 f6.lst ?_
  · intro it hit he
    obtain ⟨p, _, _, hI⟩ := S.itp it hit
    obtain ⟨v, hv⟩ := hI.has he
    rw [← e3] at hv
    obtain ⟨h, h1, h2⟩ := List.mem_map.1 hv
    refine ⟨h, h1, by rw [h2], ?_⟩
    rw [e4 h h1, h2]
    rcases hI with hI | ⟨b, _, hI, _⟩
    · rw [hI] at he; cases he
    · exact hI.symm
  · intro j b hj
    have hb := List.mem_of_getElem? hj
    have hc := f6.cont j b hj
    rw [Nat.zero_add] at hc
    rw [← hc]
    unfold bext
    apply extL_congr
    intro i hi
    have := f6.hi b hb
    exact w4 _ (by omega)

end
end Verif.HashMap
