import Verif.HashMap.IterModel
import Verif.HashMap.History

/-! # The iterator invariant -/
namespace Verif.HashMap
variable {K V : Type} {P : Params K V}

/-- Exactly the first `e` external values of the bucket have keys up to `k`. -/
def ExtLe (P : Params K V) (mem : Nat → K × V) (b : Bucket K V) (e : Nat) (k : K) : Prop :=
  e ≤ b.nExt ∧ ∀ j, j < b.nExt → (j < e ↔ P.leq (mem (bstart P b + j)).1 k = true)

/-- The node remembered by an iterator to the external value with key `key`. -/
def NodeP (P : Params K V) (l : List (Node K V)) (fr br : Bool) (node : Option Nat) (key : K) : Prop :=
  ∀ a, node = some a → ∃ l1 n l2, l = l1 ++ n :: l2 ∧ n.addr = a ∧ (fr = false → P.lt n.key key = true) ∧
    (br = false → ∀ y ∈ l1, P.lt y.key key = true)

/-- An iterator into bucket `b`. -/
def BIt (P : Params K V) (mem : Nat → K × V) (nB : Nat) (b : Bucket K V) (fr br : Bool) (it : It K) : Prop :=
  (∀ r, it.reader = some r → it.extValid = true ∧ RAt P nB r (bstart P b + it.iExt)) ∧
  ((it.src = .internal ∧ (∃ n ∈ b.list, it.node = some n.addr ∧ n.key = it.key ∧ n.del = false) ∧
      (it.extValid = true → ExtLe P mem b it.iExt it.key)) ∨
   (it.src = .external ∧ it.extValid = true ∧ it.iExt < b.nExt ∧ (mem (bstart P b + it.iExt)).1 = it.key ∧
      (∀ n ∈ b.list, n.key ≠ it.key) ∧ NodeP P b.list fr br it.node it.key))

/-- An iterator is consistent with the state. -/
def ItP (P : Params K V) (s : HMap K V) (fr br : Bool) (it : It K) : Prop :=
  it.ended = true ∨ ∃ b, s.buckets[it.bkt]? = some b ∧ it.bkt = P.bktNum s.buckets.length it.key ∧
    BIt P s.mem s.nBids b fr br it

/-- What the user sees of an iterator. -/
def It.view (it : It K) : Option K := if it.ended then none else some it.key

/-- The iterators of the state are those of the specification. -/
structure ISim (P : Params K V) (s : HMap K V) (σ : Nat → Option (Pos K)) : Prop where
  nodup : (s.its.map (·.id)).Nodup
  fresh : ∀ it ∈ s.its, it.id < s.nextId
  dom : ∀ i p, σ i = some p → ∃ it ∈ s.its, it.id = i
  itp : ∀ it ∈ s.its, ∃ p, σ it.id = some p ∧ p.pos = it.view ∧ ItP P s p.frag p.broken it

theorem ISim.free {s : HMap K V} {σ : Nat → Option (Pos K)} (S : ISim P s σ) : σ s.nextId = none := by
  cases h : σ s.nextId with
  | none => rfl
  | some p =>
    obtain ⟨it, h1, h2⟩ := S.dom _ _ h
    have := S.fresh it h1; omega

/-- All iterators are changed by `F`, their specifications by `G`. -/
theorem ISim.map {s s' : HMap K V} {σ : Nat → Option (Pos K)} (S : ISim P s σ) (F : It K → It K) (G : Pos K → Pos K)
    (e1 : s'.its = s.its.map F) (e2 : s.nextId ≤ s'.nextId) (hid : ∀ it, (F it).id = it.id)
    (h : ∀ it ∈ s.its, ∀ p, p.pos = it.view → ItP P s p.frag p.broken it →
      (G p).pos = (F it).view ∧ ItP P s' (G p).frag (G p).broken (F it)) :
    ISim P s' (fun i => (σ i).map G) := by
  have hids : s'.its.map (·.id) = s.its.map (·.id) := by
    rw [e1, List.map_map]; exact List.map_congr_left fun it _ => hid it
  refine ⟨by rw [hids]; exact S.nodup, ?_, ?_, ?_⟩
  · intro it hit
    rw [e1] at hit
    obtain ⟨j, hj, rfl⟩ := List.mem_map.1 hit
    rw [hid]; have := S.fresh j hj; omega
  · intro i p hp
    obtain ⟨q, hq, rfl⟩ := Option.map_eq_some_iff.1 hp
    obtain ⟨it, h1, h2⟩ := S.dom i q hq
    exact ⟨F it, by rw [e1]; exact List.mem_map.2 ⟨it, h1, rfl⟩, by rw [hid]; exact h2⟩
  · intro it hit
    rw [e1] at hit
    obtain ⟨j, hj, rfl⟩ := List.mem_map.1 hit
    obtain ⟨p, h1, h2, h3⟩ := S.itp j hj
    obtain ⟨g1, g2⟩ := h j hj p h2 h3
    exact ⟨G p, by rw [hid, h1]; rfl, g1, g2⟩

/-- A new iterator. -/
theorem ISim.add {s s' : HMap K V} {σ : Nat → Option (Pos K)} (S : ISim P s σ) (it : It K) (p : Pos K)
    (e1 : s'.its = it :: s.its) (e2 : it.id = s.nextId) (e3 : s'.nextId = s.nextId + 1)
    (eb : s'.buckets = s.buckets) (em : s'.mem = s.mem) (en : s'.nBids = s.nBids)
    (h1 : p.pos = it.view) (h2 : ItP P s p.frag p.broken it) : ISim P s' (setI σ s.nextId (some p)) := by
  have hc : ∀ fr br it, ItP P s fr br it → ItP P s' fr br it := by
    intro fr br it h; unfold ItP; rw [eb, em, en]; exact h
  have hne : ∀ j ∈ s.its, j.id ≠ s.nextId := fun j hj => by have := S.fresh j hj; omega
  refine ⟨?_, ?_, ?_, ?_⟩
  · rw [e1, List.map_cons, List.nodup_cons]
    refine ⟨?_, S.nodup⟩
    rw [e2]
    intro h
    obtain ⟨j, hj, e⟩ := List.mem_map.1 h
    exact hne j hj e
  · intro j hj
    rw [e1] at hj
    rcases List.mem_cons.1 hj with rfl | hj
    · omega
    · have := S.fresh j hj; omega
  · intro i q hq
    unfold setI at hq
    split_ifs at hq with hi
    · exact ⟨it, by rw [e1]; exact List.mem_cons_self, by omega⟩
    · obtain ⟨j, g1, g2⟩ := S.dom i q hq
      exact ⟨j, by rw [e1]; exact List.mem_cons_of_mem _ g1, g2⟩
  · intro j hj
    rw [e1] at hj
    rcases List.mem_cons.1 hj with rfl | hj
    · exact ⟨p, by unfold setI; rw [if_pos e2], h1, hc _ _ _ h2⟩
    · obtain ⟨q, g1, g2, g3⟩ := S.itp j hj
      exact ⟨q, by unfold setI; rw [if_neg (hne j hj)]; exact g1, g2, hc _ _ _ g3⟩

/-- Only the iterators' containers change. -/
theorem ISim.congr {s s' : HMap K V} {σ : Nat → Option (Pos K)} (S : ISim P s σ)
    (e1 : s'.its = s.its) (e2 : s.nextId ≤ s'.nextId) (eb : s'.buckets = s.buckets) (em : s'.mem = s.mem)
    (en : s'.nBids = s.nBids) : ISim P s' σ := by
  refine ⟨by rw [e1]; exact S.nodup, ?_, ?_, ?_⟩
  · intro it h; rw [e1] at h; have := S.fresh it h; omega
  · intro i p h; rw [e1]; exact S.dom i p h
  · intro it h
    rw [e1] at h
    obtain ⟨p, h1, h2, h3⟩ := S.itp it h
    exact ⟨p, h1, h2, by unfold ItP; rw [eb, em, en]; exact h3⟩

/-- An iterator is destroyed. -/
theorem ISim.drop {s : HMap K V} {σ : Nat → Option (Pos K)} (S : ISim P s σ) (i : Nat) :
    ISim P (s.dropIt i) (setI σ i none) := by
  refine ⟨?_, ?_, ?_, ?_⟩
  · exact S.nodup.sublist (List.Sublist.map _ List.filter_sublist)
  · intro it h; exact S.fresh it (List.mem_of_mem_filter h)
  · intro j p h
    unfold setI at h
    split_ifs at h with hj
    obtain ⟨it, h1, h2⟩ := S.dom j p h
    exact ⟨it, List.mem_filter.2 ⟨h1, by simpa [h2] using hj⟩, h2⟩
  · intro it h
    obtain ⟨h1, h2⟩ := List.mem_filter.1 h
    obtain ⟨p, g1, g2, g3⟩ := S.itp it h1
    exact ⟨p, by unfold setI; rw [if_neg (by simpa using h2)]; exact g1, g2, g3⟩

/-- An iterator is replaced. -/
theorem ISim.put {s s' : HMap K V} {σ : Nat → Option (Pos K)} (S : ISim P s σ) (it : It K) (p : Pos K)
    (e1 : s'.its = s.its.map fun j => if j.id = it.id then it else j) (e2 : s'.nextId = s.nextId)
    (hi : ∃ j ∈ s.its, j.id = it.id) (h1 : p.pos = it.view) (h2 : ItP P s' p.frag p.broken it)
    (h3 : ∀ j ∈ s.its, ∀ q : Pos K, q.pos = j.view → ItP P s q.frag q.broken j → ItP P s' q.frag q.broken j) :
    ISim P s' (setI σ it.id (some p)) := by
  have hid : ∀ j : It K, (if j.id = it.id then it else j).id = j.id := by
    intro j; split_ifs with h
    · exact h.symm
    · rfl
  have hids : s'.its.map (·.id) = s.its.map (·.id) := by
    rw [e1, List.map_map]; exact List.map_congr_left fun j _ => hid j
  refine ⟨by rw [hids]; exact S.nodup, ?_, ?_, ?_⟩
  · intro j hj
    rw [e1] at hj
    obtain ⟨x, hx, rfl⟩ := List.mem_map.1 hj
    rw [hid, e2]; exact S.fresh x hx
  · intro i q hq
    have : ∃ x ∈ s.its, x.id = i := by
      unfold setI at hq
      split_ifs at hq with h
      · subst h; exact hi
      · exact S.dom i q hq
    obtain ⟨x, hx, rfl⟩ := this
    exact ⟨_, by rw [e1]; exact List.mem_map.2 ⟨x, hx, rfl⟩, hid x⟩
  · intro j hj
    rw [e1] at hj
    obtain ⟨x, hx, rfl⟩ := List.mem_map.1 hj
    by_cases h : x.id = it.id
    · rw [if_pos h]; exact ⟨p, by unfold setI; rw [if_pos rfl], h1, h2⟩
    · rw [if_neg h]
      obtain ⟨q, g1, g2, g3⟩ := S.itp x hx
      exact ⟨q, by unfold setI; rw [if_neg h]; exact g1, g2, h3 x hx q g2 g3⟩

theorem ISim.get {s : HMap K V} {σ : Nat → Option (Pos K)} (S : ISim P s σ) {i : Nat} {p : Pos K} (h : σ i = some p) :
    ∃ it, s.getIt i = some it ∧ it ∈ s.its ∧ it.id = i ∧ p.pos = it.view ∧ ItP P s p.frag p.broken it := by
  obtain ⟨it, h1, h2⟩ := S.dom i p h
  obtain ⟨q, g1, g2, g3⟩ := S.itp it h1
  rw [h2, h] at g1; cases g1
  refine ⟨it, ?_, h1, h2, g2, g3⟩
  unfold HMap.getIt
  have hn := S.nodup
  generalize s.its = l at h1 hn
  induction l with
  | nil => cases h1
  | cons a l ih =>
    rw [List.find?_cons]
    rw [List.map_cons, List.nodup_cons] at hn
    rcases List.mem_cons.1 h1 with rfl | h1
    · simp [h2]
    · have : a.id ≠ i := fun e => hn.1 (List.mem_map.2 ⟨it, h1, by omega⟩)
      simp only [this, decide_false]
      exact ih h1 hn.2

/-! ## Changes of a bucket -/

section
variable (ok : P.OK)
include ok

/-- A node with another key is linked in. -/
theorem BIt.link {mem : Nat → K × V} {nB : Nat} {b : Bucket K V} {fr br : Bool} {it : It K}
    (h : BIt P mem nB b fr br it) {l1 l2 : List (Node K V)} (hl : b.list = l1 ++ l2) (x : Node K V)
    (h1 : ∀ n ∈ l1, P.lt n.key x.key = true) (h2 : ∀ n ∈ l2, P.lt x.key n.key = true) (hk : it.key ≠ x.key) :
    BIt P mem nB { b with list := l1 ++ x :: l2 } fr (br || (fr && P.lt it.key x.key)) it := by
  refine ⟨h.1, ?_⟩
  rcases h.2 with ⟨a1, ⟨n, a2, a3⟩, a4⟩ | ⟨a1, a2, a3, a4, a5, a6⟩
  · refine .inl ⟨a1, ⟨n, ?_, a3⟩, a4⟩
    rw [hl] at a2
    simp only [List.mem_append, List.mem_cons] at a2 ⊢
    tauto
  · refine .inr ⟨a1, a2, a3, a4, ?_, ?_⟩
    · intro n hn
      simp only [List.mem_append, List.mem_cons] at hn
      rcases hn with hn | rfl | hn
      · exact a5 n (by rw [hl]; simp [hn])
      · exact fun e => hk e.symm
      · exact a5 n (by rw [hl]; simp [hn])
    · intro a ha
      obtain ⟨m1, n, m2, e1, e2, e3, e4⟩ := a6 a ha
      rw [hl] at e1
      rcases List.append_eq_append_iff.1 e1 with ⟨t, g1, g2⟩ | ⟨t, g1, g2⟩
      · -- `n` is in `l2`
        refine ⟨l1 ++ x :: t, n, m2, ?_, e2, e3, ?_⟩
        · show l1 ++ x :: l2 = _
          rw [g2]; simp
        · intro hb y hy
          simp only [Bool.or_eq_false_iff, Bool.and_eq_false_iff] at hb
          simp only [List.mem_append, List.mem_cons] at hy
          rcases hy with hy | rfl | hy
          · exact e4 hb.1 y (by rw [g1]; simp [hy])
          · rcases hb.2 with hf | hf
            · have := e3 hf
              have hxn := h2 n (by rw [g2]; simp)
              exact ok.lt_trans hxn this
            · rcases ok.lt_tri it.key y.key with q | q | q
              · rw [q] at hf; cases hf
              · exact absurd q hk
              · exact q
          · exact e4 hb.1 y (by rw [g1]; simp [hy])
      · -- `n` may be the last of `l1` or in `l2`
        cases t with
        | nil =>
          simp only [List.append_nil] at g1
          simp only [List.nil_append] at g2
          refine ⟨l1 ++ [x], n, m2, ?_, e2, e3, ?_⟩
          · show l1 ++ x :: l2 = _
            rw [← g2]; simp
          · intro hb y hy
            simp only [Bool.or_eq_false_iff, Bool.and_eq_false_iff] at hb
            simp only [List.mem_append, List.mem_singleton] at hy
            rcases hy with hy | rfl
            · exact e4 hb.1 y (by rw [← g1]; exact hy)
            · rcases hb.2 with hf | hf
              · have := e3 hf
                have hxn := h2 n (by rw [← g2]; simp)
                exact ok.lt_trans hxn this
              · rcases ok.lt_tri it.key y.key with q | q | q
                · rw [q] at hf; cases hf
                · exact absurd q hk
                · exact q
        | cons t0 t =>
          rw [List.cons_append, List.cons.injEq] at g2
          obtain ⟨rfl, rfl⟩ := g2
          refine ⟨m1, n, t ++ x :: l2, ?_, e2, e3, ?_⟩
          · show l1 ++ x :: l2 = _
            rw [g1]; simp
          · intro hb
            simp only [Bool.or_eq_false_iff] at hb
            exact e4 hb.1

/-- A node is changed in place. -/
theorem BIt.mod {mem : Nat → K × V} {nB : Nat} {b : Bucket K V} {fr br : Bool} {it : It K}
    (h : BIt P mem nB b fr br it) (hnd : (b.list.map (·.addr)).Nodup) {n : Node K V} (hn : n ∈ b.list)
    (f : Node K V → Node K V) (hf : (f n).key = n.key) (hfa : (f n).addr = n.addr)
    (hd : it.key = n.key → n.del = false → (f n).del = false) :
    BIt P mem nB { b with list := updNode n.addr f b.list } fr br it := by
  have huniq : ∀ y ∈ b.list, y.addr = n.addr → y = n := by
    intro y hy e
    exact List.inj_on_of_nodup_map hnd hy hn e
  have himg : ∀ y ∈ b.list, (if y.addr = n.addr then f y else y).key = y.key ∧
      (if y.addr = n.addr then f y else y).addr = y.addr := by
    intro y hy
    split_ifs with e
    · rw [huniq y hy e]; exact ⟨hf, hfa⟩
    · exact ⟨rfl, rfl⟩
  refine ⟨h.1, ?_⟩
  rcases h.2 with ⟨a1, ⟨m, a2, a3, a4, a5⟩, a6⟩ | ⟨a1, a2, a3, a4, a5, a6⟩
  · refine .inl ⟨a1, ⟨_, List.mem_map.2 ⟨m, a2, rfl⟩, ?_, ?_, ?_⟩, a6⟩
    · rw [(himg m a2).2]; exact a3
    · rw [(himg m a2).1]; exact a4
    · split_ifs with e
      · have := huniq m a2 e
        subst this
        exact hd a4.symm a5
      · exact a5
  · refine .inr ⟨a1, a2, a3, a4, ?_, ?_⟩
    · intro y hy
      obtain ⟨z, hz, rfl⟩ := List.mem_map.1 hy
      rw [(himg z hz).1]; exact a5 z hz
    · intro a ha
      obtain ⟨m1, m, m2, e1, e2, e3, e4⟩ := a6 a ha
      refine ⟨updNode n.addr f m1, if m.addr = n.addr then f m else m, updNode n.addr f m2, ?_, ?_, ?_, ?_⟩
      · show updNode n.addr f b.list = _
        rw [e1]; simp [updNode]
      · rw [(himg m (by rw [e1]; simp)).2]; exact e2
      · rw [(himg m (by rw [e1]; simp)).1]; exact e3
      · intro hb y hy
        obtain ⟨z, hz, rfl⟩ := List.mem_map.1 hy
        rw [(himg z (by rw [e1]; simp [hz])).1]; exact e4 hb z hz

end

/-! ## Changes of the state -/

/-- Bucket `i` is replaced by `b'`; iterators in other buckets do not notice. -/
theorem ItP.set {s s' : HMap K V} {fr br br' : Bool} {it : It K} (h : ItP P s fr br it) {i : Nat} {b b' : Bucket K V}
    (hb : s.buckets[i]? = some b) (e1 : s'.buckets = s.buckets.set i b') (e2 : s'.mem = s.mem) (e3 : s'.nBids = s.nBids)
    (hbr : br = true → br' = true) (hB : it.ended = false → it.bkt = i → BIt P s.mem s.nBids b fr br it →
      BIt P s.mem s.nBids b' fr br' it) :
    ItP P s' fr br' it := by
  rcases h with h | ⟨c, h1, h2, h3⟩
  · exact .inl h
  · by_cases he : it.ended = true
    · exact .inl he
    right
    have he : it.ended = false := by simpa using he
    rw [e1, e2, e3, List.length_set]
    by_cases hi : it.bkt = i
    · rw [hi] at h1
      rw [hb] at h1; cases h1
      refine ⟨b', ?_, h2, hB he hi h3⟩
      rw [hi, List.getElem?_set_self (List.getElem?_eq_some_iff.1 hb).1]
    · refine ⟨c, ?_, h2, ?_⟩
      · rw [List.getElem?_set_ne (fun e => hi e.symm)]; exact h1
      · refine ⟨h3.1, h3.2.imp id ?_⟩
        rintro ⟨a1, a2, a3, a4, a5, a6⟩
        refine ⟨a1, a2, a3, a4, a5, fun a ha => ?_⟩
        obtain ⟨l1, n, l2, g1, g2, g3, g4⟩ := a6 a ha
        refine ⟨l1, n, l2, g1, g2, g3, fun hf => g4 ?_⟩
        cases hbb : br with
        | false => rfl
        | true => rw [hbr hbb] at hf; cases hf

/-- The key an iterator points to is in the map. -/
theorem ItP.has {s : HMap K V} {fr br : Bool} {it : It K} (h : ItP P s fr br it) (he : it.ended = false) :
    ∃ v, Has P s it.key v := by
  rcases h with h | ⟨b, h1, h2, h3⟩
  · rw [h] at he; cases he
  · rw [h2] at h1
    rcases h3.2 with ⟨_, ⟨n, a2, a3, a4, a5⟩, _⟩ | ⟨_, a2, a3, a4, a5, a6⟩
    · exact ⟨n.val, b, h1, .inl ⟨n, a2, a4, a5, rfl⟩⟩
    · refine ⟨(s.mem (bstart P b + it.iExt)).2, b, h1, .inr ⟨a5, ?_⟩⟩
      unfold bext
      rw [mem_extL]
      exact ⟨it.iExt, a3, by rw [← a4]⟩

end Verif.HashMap
