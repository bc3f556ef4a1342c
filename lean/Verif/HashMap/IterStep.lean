import Verif.HashMap.IterNext
import Verif.HashMap.IterBulk
import Verif.HashMap.Total

/-! # Calls of iterator objects -/
namespace Verif.HashMap
variable {K V : Type} {P : Params K V}

theorem setI_self {σ : Nat → Option (Pos K)} {i : Nat} {p : Pos K} (h : σ i = some p) : setI σ i (some p) = σ := by
  funext j
  unfold setI
  split_ifs with hj
  · rw [hj, h]
  · rfl

theorem putIt_sim {s : HMap K V} {σ : Nat → Option (Pos K)} (S : ISim P s σ) {it it' : It K} (hm : it ∈ s.its)
    (hid : it'.id = it.id) {p : Pos K} (h1 : p.pos = it'.view) (h2 : ItP P s p.frag p.broken it') :
    ISim P (s.putIt it') (setI σ it.id (some p)) := by
  rw [← hid]
  exact S.put (s' := s.putIt it') it' p rfl rfl ⟨it, hm, hid.symm⟩ h1 h2 (fun _ _ _ _ h => h)

theorem readerPos {nB p : Nat} {r : Reader} (h : RAt P nB r p) (h0 : 0 < nB) :
    r.sb * P.BB + r.si * P.SS + r.iv % P.SS = p := by
  obtain ⟨_, h | h⟩ := h
  · omega
  · obtain ⟨_, h2, h3, h4, h5, h6⟩ := h
    rw [h5, h6]
    have e := Nat.div_add_mod r.iv P.SS
    rw [Nat.mul_comm] at e
    omega

section
variable [DecidableEq K] (ok : P.OK)
include ok

omit [DecidableEq K] in
theorem itDeref_ok {s : HMap K V} (I : Inv P s) {it : It K} {fr br : Bool} (he : it.ended = false) (hI : ItP P s fr br it) :
    ∃ it' v, itDeref P it s = some (it', (it.key, v)) ∧ Has P s it.key v ∧ it'.id = it.id ∧ it'.view = it.view ∧
      ItP P s fr br it' := by
  have hI0 := hI
  rcases hI with h | ⟨b, hb, hbk, hB⟩
  · rw [h] at he; cases he
  have B := I.bok _ b hb
  have hHas : ∀ v, LHas b.list (bext P s.mem b) it.key v → Has P s it.key v := by
    intro v hv; exact ⟨b, by rw [← hbk]; exact hb, hv⟩
  unfold itDeref
  rcases hB.2 with ⟨a1, ⟨n, a2, a3, a4, a5⟩, a6⟩ | ⟨a1, a2, a3, a4, a5, a6⟩
  · rw [if_pos a1, a3]
    refine ⟨it, n.val, ?_, hHas _ (.inl ⟨n, a2, a4, a5, rfl⟩), rfl, rfl, hI0⟩
    simp only [Option.bind_eq_bind, Option.bind_some]
    rw [readNode_of hb B.nd a2, a4]; rfl
  · rw [if_neg (by rw [a1]; exact fun h => by cases h)]
    obtain ⟨it1, r, e1, hB1, hr1, hv1, i1, i2, i3, i4, i5, i6⟩ := ensureReader_ok ok I hb hB
    have hie : it1.iExt < b.nExt ∧ (s.mem (bstart P b + it1.iExt)).1 = it.key := by
      rcases hB1.2 with ⟨g1, _⟩ | ⟨_, _, g3, g4, _⟩
      · rw [i3, a1] at g1; cases g1
      · exact ⟨g3, by rw [← i5]; exact g4⟩
    have hnB := ext_pos ok I hb (by omega)
    obtain ⟨_, hR⟩ := hB1.1 r hr1
    refine ⟨it1, (s.mem (bstart P b + it1.iExt)).2, ?_, hHas _ (.inr ⟨a5, ?_⟩), i1, ?_, ?_⟩
    · rw [e1]
      simp only [Option.bind_eq_bind, Option.bind_some]
      rw [hr1]
      simp only [Option.bind_some, Option.pure_def]
      rw [hR.value ok hnB, ← hie.2]
    · rw [← hie.2]
      exact mem_extL.2 ⟨it1.iExt, hie.1, rfl⟩
    · unfold It.view; rw [i6, i5]
    · exact .inr ⟨b, by rw [i2]; exact hb, by rw [i2, i5]; exact hbk, hB1⟩

/-- Changing the mapped value of a stored external entry. -/
theorem memSet_ok {s : HMap K V} {m : K → Option V} (R : Rep P s m) {σ : Nat → Option (Pos K)} (S : ISim P s σ)
    {b : Bucket K V} {k : K} (hb : s.buckets[P.bktNum s.buckets.length k]? = some b) {e : Nat} (he : e < b.nExt)
    (hk : (s.mem (bstart P b + e)).1 = k) (hno : ∀ n ∈ b.list, n.key ≠ k) (v : V) :
    let s' : HMap K V := { s with mem := fun q => if q = bstart P b + e then ((s.mem (bstart P b + e)).1, v) else s.mem q }
    Rep P s' (upd m k (some v)) ∧ ISim P s' σ := by
  intro s'
  have hkey : ∀ q, (s'.mem q).1 = (s.mem q).1 := by
    intro q
    show (if q = bstart P b + e then ((s.mem (bstart P b + e)).1, v) else s.mem q).1 = _
    split_ifs with h
    · rw [h]
    · rfl
  have hval : ∀ q, q ≠ bstart P b + e → s'.mem q = s.mem q := by
    intro q hq
    show (if q = bstart P b + e then ((s.mem (bstart P b + e)).1, v) else s.mem q) = _
    rw [if_neg hq]
  have hat : s'.mem (bstart P b + e) = (k, v) := by
    show (if bstart P b + e = bstart P b + e then ((s.mem (bstart P b + e)).1, v) else s.mem _) = _
    rw [if_pos rfl, hk]
  have hs := sortedV_extL.1 (R.1.bok _ b hb).sv
  have hInv : Inv P s' := by
    refine ⟨R.1.lay, R.1.first, ?_, R.1.buf⟩
    intro i c hc
    have B := R.1.bok i c hc
    refine ⟨B.sn, ?_, B.nb, ?_, B.nd, B.na⟩
    · refine sortedV_extL.2 fun x y h1 h2 => ?_
      rw [hkey, hkey]; exact sortedV_extL.1 B.sv x y h1 h2
    · intro x hx
      obtain ⟨j, h1, rfl⟩ := mem_extL.1 hx
      rw [hkey]
      exact B.eb _ (mem_extL.2 ⟨j, h1, rfl⟩)
  refine ⟨⟨hInv, fun k' v' => ?_⟩, ?_⟩
  · unfold upd
    by_cases hkk : k' = k
    · subst hkk
      rw [if_pos rfl]
      constructor
      · rintro ⟨c, hc, hh⟩
        have hcb : c = b := by
          have := hc.symm.trans hb
          cases this; rfl
        subst hcb
        rcases hh with ⟨n, h1, h2, _⟩ | ⟨_, h2⟩
        · exact absurd h2 (hno n h1)
        · obtain ⟨j, h3, h4⟩ := mem_extL.1 h2
          have hje : j = e := by
            have hkj : (s.mem (bstart P c + j)).1 = k' := by rw [← hkey, h4]
            rcases Nat.lt_trichotomy j e with h | h | h
            · have := hs j e h he
              rw [hkj, hk, ok.lt_irrefl] at this; cases this
            · exact h
            · have := hs e j h h3
              rw [hkj, hk, ok.lt_irrefl] at this; cases this
          rw [hje, hat] at h4
          cases h4; rfl
      · intro h
        cases h
        refine ⟨b, hb, .inr ⟨hno, mem_extL.2 ⟨e, he, hat⟩⟩⟩
    · rw [if_neg hkk, ← R.2]
      have : ∀ c : Bucket K V, (k', v') ∈ bext P s'.mem c ↔ (k', v') ∈ bext P s.mem c := by
        intro c
        unfold bext
        rw [mem_extL, mem_extL]
        constructor
        · rintro ⟨j, h1, h2⟩
          refine ⟨j, h1, ?_⟩
          rw [← h2]
          refine (hval _ fun h => hkk ?_).symm
          have := congrArg Prod.fst h2
          rw [hkey, h, hk] at this
          exact this.symm
        · rintro ⟨j, h1, h2⟩
          refine ⟨j, h1, ?_⟩
          rw [← h2]
          refine hval _ fun h => hkk ?_
          have := congrArg Prod.fst h2
          rw [h, hk] at this
          exact this.symm
      unfold Has LHas
      simp only [this]; rfl
  · have hI : ∀ it fr br, ItP P s fr br it → ItP P s' fr br it := by
      intro it fr br h
      rcases h with h | ⟨c, h1, h2, h3, h4⟩
      · exact .inl h
      · refine .inr ⟨c, h1, h2, h3, ?_⟩
        rcases h4 with ⟨g1, g2, g3⟩ | ⟨g1, g2, g3, g4, g5⟩
        · refine .inl ⟨g1, g2, fun hv => ⟨(g3 hv).1, fun j hj => ?_⟩⟩
          rw [hkey]; exact (g3 hv).2 j hj
        · exact .inr ⟨g1, g2, g3, by rw [hkey]; exact g4, g5⟩
    refine ⟨S.nodup, S.fresh, S.dom, fun it hit => ?_⟩
    obtain ⟨p, g1, g2, g3⟩ := S.itp it hit
    exact ⟨p, g1, g2, hI _ _ _ g3⟩

theorem itAssign_ok {s : HMap K V} {m : K → Option V} (R : Rep P s m) {σ : Nat → Option (Pos K)} (S : ISim P s σ)
    {it : It K} (hm : it ∈ s.its) {p : Pos K} (hp : σ it.id = some p) (hpos : p.pos = it.view)
    (he : it.ended = false) (hI : ItP P s p.frag p.broken it) (v : V) :
    ∃ it' s', itAssign P it v s = some (it', s') ∧ Rep P (s'.putIt it') (upd m it.key (some v)) ∧ ISim P (s'.putIt it') σ := by
  have hI0 := hI
  rcases hI with h | ⟨b, hb, hbk, hB⟩
  · rw [h] at he; cases he
  have B := R.1.bok _ b hb
  have hb' : s.buckets[P.bktNum s.buckets.length it.key]? = some b := by rw [← hbk]; exact hb
  unfold itAssign
  rcases hB.2 with ⟨a1, ⟨n, a2, a3, a4, a5⟩, a6⟩ | ⟨a1, a2, a3, a4, a5, a6⟩
  · rw [if_pos a1, a3]
    have hw : s.writeNode it.bkt n.addr v = some (s.modNode it.bkt b n.addr (fun n => { n with val := v })) := by
      unfold HMap.writeNode
      rw [hb]
      simp only [Option.bind_eq_bind, Option.bind_some, Option.pure_def, find_addr B.nd a2]
    refine ⟨it, s.modNode it.bkt b n.addr (fun n => { n with val := v }), ?_, ?_, ?_⟩
    · simp only [Option.bind_eq_bind, Option.bind_some, Option.pure_def, hw]
    · have := mod_node ok R.1 hb' a2 a4 (fun n => { n with val := v }) a4 rfl
        (s' := (s.modNode it.bkt b n.addr (fun n => { n with val := v })).putIt it) (by rw [← hbk]; rfl) rfl rfl rfl rfl
      dsimp only at this
      rw [a5] at this
      exact rep_of_add ok R (del := false) this
    · have S1 := writeNode_sim ok S R.1 hw
      have hm1 : it ∈ (s.modNode it.bkt b n.addr (fun n => { n with val := v })).its := hm
      obtain ⟨q, q1, q2, q3⟩ := S1.itp it hm1
      have := putIt_sim S1 hm1 (it' := it) rfl q2 q3
      rw [setI_self q1] at this
      exact this
  · rw [if_neg (by rw [a1]; exact fun h => by cases h)]
    obtain ⟨it1, r, e1, hB1, hr1, hv1, i1, i2, i3, i4, i5, i6⟩ := ensureReader_ok ok R.1 hb hB
    have hie : it1.iExt < b.nExt ∧ (s.mem (bstart P b + it1.iExt)).1 = it.key := by
      rcases hB1.2 with ⟨g1, _⟩ | ⟨_, _, g3, g4, _⟩
      · rw [i3, a1] at g1; cases g1
      · exact ⟨g3, by rw [← i5]; exact g4⟩
    have hnB := ext_pos ok R.1 hb (by omega)
    obtain ⟨_, hR⟩ := hB1.1 r hr1
    have hpp : r.sb * P.BB + r.si * P.SS + r.iv % P.SS = bstart P b + it1.iExt :=
      readerPos hR hnB
    have hItP1 : ItP P s p.frag p.broken it1 := .inr ⟨b, by rw [i2]; exact hb, by rw [i2, i5]; exact hbk, hB1⟩
    have hview : it1.view = it.view := by unfold It.view; rw [i6, i5]
    have S1 := putIt_sim S hm i1 (p := p) (by rw [hview]; exact hpos) hItP1
    rw [setI_self hp] at S1
    have R1 : Rep P (s.putIt it1) m := R.congr rfl rfl rfl rfl rfl
    obtain ⟨R2, S2⟩ := memSet_ok ok R1 S1 (k := it.key) (b := b) hb' hie.1 hie.2 a5 v
    refine ⟨it1, { s with mem := fun q => if q = bstart P b + it1.iExt then ((s.mem (bstart P b + it1.iExt)).1, v) else s.mem q },
      ?_, R2, S2⟩
    rw [e1]
    simp only [Option.bind_eq_bind, Option.bind_some]
    rw [hr1]
    simp only [Option.bind_some, Option.pure_def, hpp]

theorem eraseIt_ok {s : HMap K V} {m : K → Option V} (R : Rep P s m) {σ : Nat → Option (Pos K)} (S : ISim P s σ)
    {it : It K} {fr br : Bool} (he : it.ended = false) (hI : ItP P s fr br it) :
    ∃ s', eraseIt P it s = some s' ∧ (0 < s'.buckets.length ∨ Empty (upd m it.key none) →
      Rep P s' (upd m it.key none) ∧ ISim P s' (touch P.lt it.key (toEnd it.key σ))) := by
  rcases hI with h | ⟨b, hb, hbk, hB⟩
  · rw [h] at he; cases he
  have B := R.1.bok _ b hb
  obtain ⟨k, hkk⟩ : ∃ k, k = it.key := ⟨_, rfl⟩
  have hb' : s.buckets[P.bktNum s.buckets.length k]? = some b := by rw [hkk, ← hbk]; exact hb
  unfold eraseIt
  rw [hb, ← hkk]
  rw [← hkk] at hbk
  simp only [Option.bind_eq_bind, Option.bind_some]
  rcases hB.2 with ⟨a1, ⟨n, a2, a3, a4, a5⟩, a6⟩ | ⟨a1, a2, a3, a4, a5, a6⟩
  · rw [if_pos a1, a3]
    rw [← hkk] at a4
    simp only [Option.bind_some, find_addr B.nd a2, Option.pure_def]
    refine ⟨_, rfl, fun _ => ⟨?_, ?_⟩⟩
    · rw [hbk]
      refine rep_of_add ok R (del := true) (v := P.dv) ?_
      have := mod_node ok R.1 hb' a2 a4 (fun n => { n with del := true }) a4 rfl
        (s' := { s.modNode (P.bktNum s.buckets.length k) b n.addr (fun n => { n with del := true }) with
          numTotal := dec64 s.numTotal, its := fix2end P (P.bktNum s.buckets.length k) k s.its }) rfl rfl rfl rfl rfl
      simpa using this
    · rw [hbk]
      exact del_sim ok S R.1 hb' a2 a4 rfl rfl rfl rfl rfl
  · rw [if_neg (by rw [a1]; exact fun h => by cases h)]
    rw [← hkk] at a4 a5
    have hfin : ∀ l1 l2 : List (Node K V), b.list = l1 ++ l2 → (∀ n ∈ l1, P.lt n.key k = true) →
        (∀ n ∈ l2, P.lt k n.key = true) → findInt P k none b.list = l1.getLast? →
        ∃ s', checkBuf P { s.addNode it.bkt b (findInt P k none b.list) k P.dv true with
          numTotal := dec64 s.numTotal, its := fix2end P it.bkt k s.its } = some s' ∧
          (0 < s'.buckets.length ∨ Empty (upd m k none) →
            Rep P s' (upd m k none) ∧ ISim P s' (touch P.lt k (toEnd k σ))) := by
      intro l1 l2 c1 c2 c3 c4
      rw [hbk]
      obtain ⟨s3, hs3⟩ : ∃ s3, s3 = { s.addNode (P.bktNum s.buckets.length k) b
          (findInt P k none b.list) k P.dv true with
          numTotal := dec64 s.numTotal, its := fix2end P (P.bktNum s.buckets.length k) k s.its } := ⟨_, rfl⟩
      rw [← hs3]
      have hm := add_node ok R.1 hb' c1 c2 c3 c4 P.dv true (s' := s3) (by rw [hs3]) (by rw [hs3]; rfl)
        (by rw [hs3]; rfl) (by rw [hs3]; rfl) (by rw [hs3]; rfl)
      have R' : Rep P s3 (upd m k none) := rep_of_add ok R hm
      have S3 := tomb_sim ok S R.1 hb' c1 c2 c3 c4 P.dv (s' := s3) (by rw [hs3]) (by rw [hs3]) (by rw [hs3]; rfl)
        (by rw [hs3]; rfl) (by rw [hs3]; rfl)
      obtain ⟨s', hs'⟩ := checkBuf_some ok R'.1
      exact ⟨s', hs', fun hl => ⟨((checkBuf_after ok R' hs').2 hl).1, (S3.checkBuf ok R' hs' hl).1⟩⟩
    rcases locate ok R.1 k b hb' with ⟨n, c1, c2, c3, c4, c5⟩ |
        ⟨l1, l2, v0, i, c1, c2, c3, c4, _⟩ | ⟨l1, l2, c1, c2, c3, c4, _⟩
    · exact absurd c3 (a5 n c2)
    · exact hfin l1 l2 c1 c2 c3 c4
    · exact hfin l1 l2 c1 c2 c3 c4

end
end Verif.HashMap
