import Verif.HashMap.IterInv

/-! # The map's operations and the iterators: buffer changes -/
namespace Verif.HashMap
variable {K V : Type} {P : Params K V}

theorem view_none {it : It K} : it.view = none ↔ it.ended = true := by
  unfold It.view; split_ifs with h <;> simp [h]

theorem view_some {it : It K} {k : K} : it.view = some k ↔ it.ended = false ∧ it.key = k := by
  unfold It.view
  cases it.ended <;> simp

/-- `broken` may be set. -/
theorem ItP.weaken {s : HMap K V} {fr br br' : Bool} {it : It K} (h : ItP P s fr br it) (hb : br = true → br' = true) :
    ItP P s fr br' it := by
  rcases h with h | ⟨b, h1, h2, h3, h4⟩
  · exact .inl h
  · refine .inr ⟨b, h1, h2, h3, h4.imp id ?_⟩
    rintro ⟨a1, a2, a3, a4, a5, a6⟩
    refine ⟨a1, a2, a3, a4, a5, fun a ha => ?_⟩
    obtain ⟨l1, n, l2, g1, g2, g3, g4⟩ := a6 a ha
    refine ⟨l1, n, l2, g1, g2, g3, fun hf => g4 ?_⟩
    cases hbb : br with
    | false => rfl
    | true => rw [hb hbb] at hf; cases hf

theorem ISim.touch {s : HMap K V} {σ : Nat → Option (Pos K)} (S : ISim P s σ) (k : K) : ISim P s (touch P.lt k σ) := by
  refine S.map (s' := s) id (fun p => { p with broken := p.broken || (p.frag && (p.pos.any fun k' => P.lt k' k)) })
    (by simp) (Nat.le_refl _) (fun _ => rfl) ?_
  intro it _ p h1 h2
  exact ⟨h1, h2.weaken (fun h => by simp [h])⟩

section
variable [DecidableEq K] (ok : P.OK)
include ok

/-- `fix_iterators_2end`. -/
theorem ISim.end1 {s s' : HMap K V} {σ : Nat → Option (Pos K)} (S : ISim P s σ) (k : K)
    (e1 : s'.its = fix2end P (P.bktNum s.buckets.length k) k s.its) (e2 : s'.nextId = s.nextId)
    (e3 : s'.buckets = s.buckets) (e4 : s'.mem = s.mem) (e5 : s'.nBids = s.nBids) :
    ISim P s' (toEnd k σ) ∧ ∀ it ∈ s'.its, it.view ≠ some k := by
  have key : ∀ it ∈ s.its, ∀ fr br, ItP P s fr br it →
      (((!it.ended && decide (it.bkt = P.bktNum s.buckets.length k) && P.eqv k it.key) = true) ↔ it.view = some k) := by
    intro it _ fr br h
    simp only [Bool.and_eq_true, Bool.not_eq_true', decide_eq_true_eq, ok.eqv_iff, view_some]
    constructor
    · rintro ⟨⟨h1, h2⟩, h3⟩; exact ⟨h1, h3.symm⟩
    · rintro ⟨h1, h2⟩
      refine ⟨⟨h1, ?_⟩, h2.symm⟩
      rcases h with h | ⟨b, g1, g2, _⟩
      · rw [h] at h1; cases h1
      · rw [g2, h2]
  constructor
  · refine S.map _ (fun p => if p.pos = some k then { p with pos := none } else p) e1 (by omega) ?_ ?_
    · intro it; split_ifs <;> rfl
    · intro it hit p h1 h2
      have hk := key it hit _ _ h2
      by_cases h : it.view = some k
      · rw [if_pos (by rw [h1]; exact h), if_pos (hk.2 h)]
        exact ⟨by unfold It.view; simp, .inl rfl⟩
      · rw [if_neg (by rw [h1]; exact h), if_neg (fun e => h (hk.1 e))]
        exact ⟨h1, by unfold ItP; rw [e3, e4, e5]; exact h2⟩
  · intro it hit
    rw [e1] at hit
    obtain ⟨j, hj, rfl⟩ := List.mem_map.1 hit
    obtain ⟨p, _, _, h⟩ := S.itp j hj
    have hk := key j hj _ _ h
    split_ifs with hc
    · unfold It.view; simp
    · exact fun e => hc (hk.2 e)

theorem addNode_buckets {s : HMap K V} (I : Inv P s) {b : Bucket K V} {k : K}
    (hb : s.buckets[P.bktNum s.buckets.length k]? = some b) {l1 l2 : List (Node K V)}
    (h1 : b.list = l1 ++ l2) {nd : Option (Node K V)} (h4 : nd = l1.getLast?) (v : V) (del : Bool) :
    (s.addNode (P.bktNum s.buckets.length k) b nd k v del).buckets =
      s.buckets.set (P.bktNum s.buckets.length k) { b with list := l1 ++ ⟨s.nextAddr, k, v, del⟩ :: l2 } := by
  have B := I.bok _ b hb
  have : link nd ⟨s.nextAddr, k, v, del⟩ b.list = l1 ++ ⟨s.nextAddr, k, v, del⟩ :: l2 := by
    rw [h4, h1]; exact link_split _ l1 l2 (by rw [← h1]; exact B.nd)
  show s.buckets.set _ { b with list := link nd _ b.list } = _
  rw [this]

/-- A node for `k` is linked in while no iterator points to `k`. -/
theorem ISim.link0 {s s' : HMap K V} {σ : Nat → Option (Pos K)} (S : ISim P s σ) (I : Inv P s) {b : Bucket K V} {k : K}
    (hb : s.buckets[P.bktNum s.buckets.length k]? = some b) {l1 l2 : List (Node K V)}
    (h1 : b.list = l1 ++ l2) (h2 : ∀ n ∈ l1, P.lt n.key k = true) (h3 : ∀ n ∈ l2, P.lt k n.key = true)
    {nd : Option (Node K V)} (h4 : nd = l1.getLast?) (v : V) (del : Bool) (hno : ∀ it ∈ s.its, it.view ≠ some k)
    (e0 : s'.buckets = (s.addNode (P.bktNum s.buckets.length k) b nd k v del).buckets)
    (e1 : s'.its = s.its) (e2 : s'.nextId = s.nextId) (e3 : s'.mem = s.mem) (e4 : s'.nBids = s.nBids) :
    ISim P s' (Verif.HashMap.touch P.lt k σ) := by
  rw [addNode_buckets ok I hb h1 h4] at e0
  refine S.map id (fun p => { p with broken := p.broken || (p.frag && (p.pos.any fun k' => P.lt k' k)) })
    (by simp [e1]) (by omega) (fun _ => rfl) ?_
  intro it hit p hp hI
  refine ⟨hp, hI.set hb e0 e3 e4 (fun h => by simp [h]) ?_⟩
  intro he _ hB
  have hk : it.key ≠ k := fun e => hno it hit (view_some.2 ⟨he, e⟩)
  have := hB.link ok h1 ⟨s.nextAddr, k, v, del⟩ h2 h3 hk
  have e : p.pos = some it.key := by rw [hp]; exact view_some.2 ⟨he, rfl⟩
  simpa [e] using this

/-- A node for `k` is linked in and the iterators to `k` are moved to it. -/
theorem ISim.linkFix {s s' : HMap K V} {σ : Nat → Option (Pos K)} (S : ISim P s σ) (I : Inv P s) {b : Bucket K V} {k : K}
    (hb : s.buckets[P.bktNum s.buckets.length k]? = some b) {l1 l2 : List (Node K V)}
    (h1 : b.list = l1 ++ l2) (h2 : ∀ n ∈ l1, P.lt n.key k = true) (h3 : ∀ n ∈ l2, P.lt k n.key = true)
    {nd : Option (Node K V)} (h4 : nd = l1.getLast?) (v : V)
    (e0 : s'.buckets = (s.addNode (P.bktNum s.buckets.length k) b nd k v false).buckets)
    (e1 : s'.its = fix2int P (P.bktNum s.buckets.length k) k s.nextAddr s.its) (e2 : s'.nextId = s.nextId)
    (e3 : s'.mem = s.mem) (e4 : s'.nBids = s.nBids) : ISim P s' (Verif.HashMap.touch P.lt k σ) := by
  rw [addNode_buckets ok I hb h1 h4] at e0
  have B := I.bok _ b hb
  refine S.map _ (fun p => { p with broken := p.broken || (p.frag && (p.pos.any fun k' => P.lt k' k)) })
    e1 (by omega) ?_ ?_
  · intro it; split_ifs <;> rfl
  intro it hit p hp hI
  by_cases hv : it.view = some k
  · obtain ⟨he, rfl⟩ := view_some.1 hv
    rcases hI with h | ⟨c, g1, g2, g3, g4⟩
    · rw [h] at he; cases he
    have hcond : (!it.ended && decide (it.bkt = P.bktNum s.buckets.length it.key) && P.eqv it.key it.key) = true := by
      simp [he, ← g2, ok.eqv_iff]
    dsimp only
    rw [if_pos hcond]
    refine ⟨by rw [hp]; unfold It.view; rfl, .inr ?_⟩
    rw [g2, hb] at g1; cases g1
    refine ⟨{ b with list := l1 ++ ⟨s.nextAddr, it.key, v, false⟩ :: l2 }, ?_, ?_, ?_⟩
    · show s'.buckets[it.bkt]? = _
      rw [e0, g2]
      exact List.getElem?_set_self (List.getElem?_eq_some_iff.1 hb).1
    · show it.bkt = P.bktNum s'.buckets.length it.key
      rw [e0, List.length_set]; exact g2
    rcases g4 with ⟨_, ⟨n, a2, _, a4, _⟩, _⟩ | ⟨a1, a2, a3, a4, a5, a6⟩
    · exfalso
      rw [h1] at a2
      rcases List.mem_append.1 a2 with a2 | a2
      · exact ok.lt_ne (h2 n a2) a4
      · exact ok.lt_ne (h3 n a2) a4.symm
    · have hnB := ext_pos ok I hb (by omega)
      have hlay := (I.lay.pos hnB b (List.mem_of_getElem? hb)).1
      rw [e3, e4]
      refine ⟨?_, .inl ⟨rfl, ⟨⟨s.nextAddr, it.key, v, false⟩, by simp, rfl, rfl, rfl⟩, fun _ => ?_⟩⟩
      · intro r hr
        obtain ⟨r0, hr0, rfl⟩ := Option.map_eq_some_iff.1 hr
        obtain ⟨_, hR⟩ := g3 r0 hr0
        refine ⟨a2, ?_⟩
        have := hR.inc ok hnB (by omega)
        exact this
      · refine ⟨a3, fun j hj => ?_⟩
        show j < it.iExt + 1 ↔ P.leq (s.mem (bstart P b + j)).1 it.key = true
        have hs := sortedV_extL.1 B.sv
        rw [ok.leq_iff, ← a4]
        constructor
        · intro h
          by_cases hji : j = it.iExt
          · right; rw [hji]
          · left; exact hs j it.iExt (by omega) a3
        · intro h
          rcases Nat.lt_or_ge it.iExt j with hlt | hge
          · have := hs it.iExt j hlt hj
            rcases h with h | h
            · rw [ok.lt_asymm h] at this; cases this
            · exact absurd h.symm (ok.lt_ne this)
          · omega
  · have hcond : (!it.ended && decide (it.bkt = P.bktNum s.buckets.length k) && P.eqv it.key k) ≠ true := by
      intro h
      simp only [Bool.and_eq_true, Bool.not_eq_true', decide_eq_true_eq, ok.eqv_iff] at h
      exact hv (view_some.2 ⟨h.1.1, h.2⟩)
    dsimp only
    rw [if_neg hcond]
    refine ⟨hp, hI.set hb e0 e3 e4 (fun h => by simp [h]) ?_⟩
    intro he _ hB
    have hk : it.key ≠ k := fun e => hv (view_some.2 ⟨he, e⟩)
    have := hB.link ok h1 ⟨s.nextAddr, k, v, false⟩ h2 h3 hk
    have e : p.pos = some it.key := by rw [hp]; exact view_some.2 ⟨he, rfl⟩
    simpa [e] using this

/-- A node is changed in place. -/
theorem ISim.mod {s s' : HMap K V} {σ : Nat → Option (Pos K)} (S : ISim P s σ) (I : Inv P s) {b : Bucket K V} {i : Nat}
    (hb : s.buckets[i]? = some b) {n : Node K V} (hn : n ∈ b.list)
    (f : Node K V → Node K V) (hf : (f n).key = n.key) (hfa : (f n).addr = n.addr)
    (hd : n.del = false → (f n).del = true → ∀ it ∈ s.its, it.view ≠ some n.key)
    (e0 : s'.buckets = (s.modNode i b n.addr f).buckets)
    (e1 : s'.its = s.its) (e2 : s'.nextId = s.nextId) (e3 : s'.mem = s.mem) (e4 : s'.nBids = s.nBids) :
    ISim P s' σ := by
  have e0' : s'.buckets = s.buckets.set i { b with list := updNode n.addr f b.list } := e0
  have B := I.bok _ b hb
  have : σ = fun i => (σ i).map id := by funext i; simp
  rw [this]
  refine S.map id id (by simp [e1]) (by omega) (fun _ => rfl) ?_
  intro it hit p hp hI
  refine ⟨hp, hI.set hb e0' e3 e4 id ?_⟩
  intro he _ hB
  refine hB.mod ok B.nd hn f hf hfa ?_
  intro hk hnd
  cases h : (f n).del with
  | false => rfl
  | true => exact absurd (view_some.2 ⟨he, hk⟩) (hd hnd h it hit)

end
end Verif.HashMap
