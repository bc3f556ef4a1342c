import Verif.HashMap.IterSim2

/-! # Bulk insertion keeps the iterators -/
namespace Verif.HashMap
variable {K V : Type} {P : Params K V}

section
variable (ok : P.OK)
include ok

/-- Old values stay, possibly with a new mapped value, and keep the bucket they came from. -/
theorem mrg_keep : ∀ (N : Nat) (os : List (HV K V)) (ns : List (Nat × (K × V))), os.length + ns.length ≤ N →
    ∀ o ∈ os, ∃ h ∈ mrg P os ns, h.val.1 = o.val.1 ∧ h.bkt = o.bkt := by
  intro N
  induction N with
  | zero =>
    intro os ns h o ho
    have h1 : os = [] := List.length_eq_zero_iff.1 (by omega)
    subst h1; cases ho
  | succ N ih =>
    intro os ns hN o ho
    cases os with
    | nil => cases ho
    | cons a os =>
      cases ns with
      | nil => rw [mrg_nil_right]; exact ⟨o, ho, rfl, rfl⟩
      | cons x ns =>
        simp only [List.length_cons] at hN
        rw [mrg]
        split_ifs with c1 c2
        · rcases List.mem_cons.1 ho with rfl | ho
          · exact ⟨o, List.mem_cons_self, rfl, rfl⟩
          · obtain ⟨h, h1, h2⟩ := ih os (x :: ns) (by simp only [List.length_cons]; omega) o ho
            exact ⟨h, List.mem_cons_of_mem _ h1, h2⟩
        · rcases List.mem_cons.1 ho with rfl | ho
          · exact ⟨_, List.mem_cons_self, ((ok.eqv_iff _ _).1 c2).symm, rfl⟩
          · obtain ⟨h, h1, h2⟩ := ih os ns (by omega) o ho
            exact ⟨h, List.mem_cons_of_mem _ h1, h2⟩
        · obtain ⟨h, h1, h2⟩ := ih (a :: os) ns (by simp only [List.length_cons]; omega) o ho
          exact ⟨h, List.mem_cons_of_mem _ h1, h2⟩

variable [DecidableEq K]

theorem bulk_sim {xs : List (Nat × (K × V))} {s s' : HMap K V} {m : K → Option V} {σ : Nat → Option (Pos K)}
    (S : ISim P s σ) (R : Rep P s m) (hx : BulkOK P xs) (h : bulk P xs s = some s')
    (hl : 0 < s'.buckets.length ∨ Empty (fun k => ((xs.find? fun x => x.2.1 = k).map fun x => x.2.2).or (m k))) :
    ISim P s' σ := by
  obtain ⟨os, e1, e2, e3, e4⟩ := stream_spec ok R.1
  obtain ⟨u1, u2⟩ := uniq_ok ok xs hx
  obtain ⟨m1, m2⟩ := mrg_ok ok _ os (uniq xs) (Nat.le_refl _) e2 u1.sort
  unfold bulk at h
  rw [e1] at h
  simp only [Option.bind_eq_bind, Option.bind_some, Option.pure_def, Option.some.injEq] at h
  generalize hnn : min (P.nb ((s.numTotal + xs.length) % 2 ^ 64)) P.maxb = n at *
  -- iterators point to old values
  have hold : ∀ it ∈ s.its, it.ended = false → ∃ o ∈ os, o.val.1 = it.key ∧ o.bkt = it.bkt := by
    intro it hit he
    obtain ⟨p, _, _, hI⟩ := S.itp it hit
    obtain ⟨v, hv⟩ := hI.has he
    rw [← e3] at hv
    obtain ⟨h, h1, h2⟩ := List.mem_map.1 hv
    refine ⟨h, h1, by rw [h2], ?_⟩
    rw [e4 h h1, h2]
    rcases hI with hI | ⟨b, _, hI, _⟩
    · rw [hI] at he; cases he
    · exact hI.symm
  obtain ⟨bs, t, w, l, l', g1, g2, g3⟩ := bulkAll_ok ok n n 0 os (uniq xs) (Writer.new P) s.its s.its e2 u1
    (fun _ _ => Nat.zero_le _) (fun _ _ => Nat.zero_le _)
  have hll : l = l' := g3 rfl fun it hit he x _ _ => by
    obtain ⟨o, o1, o2, _⟩ := hold it hit he
    exact ⟨o, o1, o2⟩
  subst hll
  rw [g1] at h
  dsimp only at h
  rcases Nat.eq_zero_or_pos n with hn | hn
  · subst hn
    rw [fillAll] at g2
    simp only [Prod.mk.injEq] at g2
    obtain ⟨rfl, rfl, rfl, rfl⟩ := g2
    have he := hl.resolve_left (by subst h; simp)
    have hits : s'.its = s.its := by subst h; rfl
    have hid : s'.nextId = s.nextId := by subst h; rfl
    refine ⟨by rw [hits]; exact S.nodup, by rw [hits, hid]; exact S.fresh, by rw [hits]; exact S.dom, ?_⟩
    intro it hit
    rw [hits] at hit
    obtain ⟨p, h1, h2, h3⟩ := S.itp it hit
    refine ⟨p, h1, h2, .inl ?_⟩
    cases he' : it.ended with
    | true => rfl
    | false =>
      have := he it.key
      rw [Option.or_eq_none_iff] at this
      exact absurd this.2 (S.has R hit (view_some.2 ⟨he', rfl⟩))
  · have hbk : ∀ x : K, P.bktNum n x < n := fun x => ok.range n x hn
    have w0 : WOK P (Writer.new P) := ⟨ok.bb, Nat.le_refl _⟩
    have hp0 : (Writer.new P).pos P = 0 := by simp [Writer.pos, Writer.new]
    obtain ⟨bs', w', its, f1, f2, f3, _, _, f6⟩ := fillAll_ok ok n n 0 (mrg P os (uniq xs)) (Writer.new P)
      s.its (by omega) w0 (by simp [Writer.new]) (fun h _ => ⟨Nat.zero_le _, hbk _⟩) m1
    have hits := fillAll_its (P := P) n n 0 (mrg P os (uniq xs)) (Writer.new P) s.its
    rw [hp0] at f6
    rw [g2] at f1 hits
    dsimp only at hits
    simp only [Prod.mk.injEq] at f1
    obtain ⟨rfl, rfl, rfl, _⟩ := f1
    obtain ⟨_, _, _, w4, w5⟩ := writeOut_ok ok f3
    have hposlt : w.pos P < (w.iBlock + 1) * P.BB := by
      have := f3.iv
      unfold Writer.pos
      rw [Nat.add_mul]; omega
    subst h
    refine S.rehash ok (hs := mrg P os (uniq xs)) hn m1 ?_ (by dsimp only; exact hits) rfl f2 f6.lst ?_
    · intro it hit he
      obtain ⟨o, o1, o2, o3⟩ := hold it hit he
      obtain ⟨h, h1, h2, h3⟩ := mrg_keep ok _ os (uniq xs) (Nat.le_refl _) o o1
      exact ⟨h, h1, h2.trans o2, h3.trans o3⟩
    · intro j b hj
      have hb := List.mem_of_getElem? hj
      have hc := f6.cont j b hj
      rw [Nat.zero_add] at hc
      rw [← hc]
      unfold bext
      apply extL_congr
      intro i hi
      have := f6.hi b hb
      exact w4 _ (by omega)

/-- A call of the map. -/
theorem call_sim {op : Op K V} {s s' : HMap K V} {m : K → Option V} {o : Out K V} {σ : Nat → Option (Pos K)}
    (S : ISim P s σ) (R : Rep P s m) (hpre : OpPre P op) (hip : IPre ⟨m, σ⟩ (.call op)) (h : step P op s = some (s', o))
    (hl : 0 < s'.buckets.length ∨ Empty (next P.dv op m)) : ISim P s' (itsAfter P.lt op σ) := by
  have dropT : ∀ {s1 : HMap K V} {k : K} {p : Pos K}, ISim P s1 (setI (touch P.lt k σ) s.nextId (some p)) →
      ISim P (s1.dropIt s.nextId) (touch P.lt k σ) := by
    intro s1 k p h
    have := h.drop s.nextId
    rw [setI_drop (touch_none _ _ _ _ S.free)] at this
    exact this
  cases op with
  | insert k v =>
    obtain ⟨⟨s1, id, b⟩, h1, h⟩ : ∃ r, insert P k v s = some r ∧ _ := Option.bind_eq_some_iff.1 h
    simp only [Option.pure_def, Option.some.injEq, Prod.mk.injEq] at h
    obtain ⟨rfl, rfl⟩ := h
    obtain ⟨rfl, h2⟩ := insert_sim ok S R h1 hl
    exact dropT h2
  | insertObl k v =>
    obtain ⟨⟨s1, id⟩, h1, h⟩ : ∃ r, insertObl P k v s = some r ∧ _ := Option.bind_eq_some_iff.1 h
    simp only [Option.pure_def, Option.some.injEq, Prod.mk.injEq] at h
    obtain ⟨rfl, rfl⟩ := h
    obtain ⟨rfl, h2⟩ := insertObl_sim ok S R h1 hl
    exact dropT h2
  | erase k =>
    obtain ⟨⟨s1, id⟩, h1, h⟩ : ∃ r, erase P k s = some r ∧ _ := Option.bind_eq_some_iff.1 h
    simp only [Option.pure_def, Option.some.injEq, Prod.mk.injEq] at h
    obtain ⟨rfl, rfl⟩ := h
    exact erase_sim ok S R h1 hl
  | eraseObl k =>
    obtain ⟨s1, h1, h⟩ : ∃ r, eraseObl P k s = some r ∧ _ := Option.bind_eq_some_iff.1 h
    simp only [Option.pure_def, Option.some.injEq, Prod.mk.injEq] at h
    obtain ⟨rfl, rfl⟩ := h
    exact eraseObl_sim ok S R h1 hl
  | find k =>
    obtain ⟨⟨s1, id⟩, h1, h⟩ : ∃ r, find P k s = some r ∧ _ := Option.bind_eq_some_iff.1 h
    obtain ⟨rfl, _, _, h2⟩ := find_sim ok S R h1
    rw [obsIt_state h]
    exact dropT h2
  | findC k =>
    obtain ⟨⟨s1, id⟩, h1, h⟩ : ∃ r, findC P k s = some r ∧ _ := Option.bind_eq_some_iff.1 h
    obtain ⟨rfl, _, _, h2⟩ := findC_sim ok S R h1
    rw [obsIt_state h]
    have := h2.drop s.nextId
    rw [setI_drop S.free] at this
    exact this
  | get k =>
    obtain ⟨⟨s1, i, a⟩, h1, h⟩ : ∃ r, index P k s = some r ∧ _ := Option.bind_eq_some_iff.1 h
    obtain ⟨x, _, h⟩ := Option.bind_eq_some_iff.1 h
    simp only [Option.pure_def, Option.some.injEq, Prod.mk.injEq] at h
    obtain ⟨rfl, rfl⟩ := h
    exact index_sim ok S R h1 fun i p hp e => hip i ⟨p, hp, e⟩
  | set k v =>
    obtain ⟨⟨s1, i, a⟩, h1, h⟩ : ∃ r, index P k s = some r ∧ _ := Option.bind_eq_some_iff.1 h
    obtain ⟨s2, h2, h⟩ := Option.bind_eq_some_iff.1 h
    simp only [Option.pure_def, Option.some.injEq, Prod.mk.injEq] at h
    obtain ⟨rfl, rfl⟩ := h
    obtain ⟨_, _, _, R1, _⟩ := index_ok ok R False (fun h => h.elim) h1
    exact writeNode_sim ok (index_sim ok S R h1 fun i p hp e => hip i ⟨p, hp, e⟩) R1.1 h2
  | size =>
    obtain ⟨⟨s1, i⟩, h1, h⟩ : ∃ r, size P s = some r ∧ _ := Option.bind_eq_some_iff.1 h
    simp only [Option.pure_def, Option.some.injEq, Prod.mk.injEq] at h
    obtain ⟨rfl, rfl⟩ := h
    exact size_sim S h1
  | rehash d =>
    obtain ⟨s1, h1, h⟩ : ∃ r, rebuild P d s = some r ∧ _ := Option.bind_eq_some_iff.1 h
    simp only [Option.pure_def, Option.some.injEq, Prod.mk.injEq] at h
    obtain ⟨rfl, rfl⟩ := h
    exact (S.rebuilt ok R d h1 hl).1
  | clear =>
    cases h
    exact clear_sim S
  | setMaxBuf d =>
    obtain ⟨s1, h1, h⟩ : ∃ r, setMaxBuf P d s = some r ∧ _ := Option.bind_eq_some_iff.1 h
    simp only [Option.pure_def, Option.some.injEq, Prod.mk.injEq] at h
    obtain ⟨rfl, rfl⟩ := h
    have S' : ISim P { s with maxBuf := d } σ := S.congr rfl (Nat.le_refl _) rfl rfl rfl
    have R' : Rep P { s with maxBuf := d } m := R.congr rfl rfl rfl rfl rfl
    exact (S'.checkBuf ok R' h1 hl).1
  | bulk xs =>
    obtain ⟨s1, h1, h⟩ : ∃ r, bulk P xs s = some r ∧ _ := Option.bind_eq_some_iff.1 h
    simp only [Option.pure_def, Option.some.injEq, Prod.mk.injEq] at h
    obtain ⟨rfl, rfl⟩ := h
    exact bulk_sim ok S R hpre h1 hl

end
end Verif.HashMap
