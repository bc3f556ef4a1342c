/-
Every operation of the node cache preserves the invariant.
-/
import Verif.NodeCache.Inv

namespace NodeCache
open Stxxl.Pager (Lru)
open Spec (Op Out)
variable {V : Type} {R : Nat → Prop} {d0 : Nat → Nat × V} {s : St V} {σ : Spec.M V}

@[simp] theorem upd_self {α : Type} (f : Nat → α) (k : Nat) (v : α) : upd f k v k = v := by simp [upd]
theorem upd_ne {α : Type} (f : Nat → α) {k i : Nat} (v : α) (h : i ≠ k) : upd f k v i = f i := by simp [upd, h]

theorem filter_erase {p : Nat → Bool} {L : List Nat} (hn : L.Nodup) (i : Nat) : (L.erase i).filter p = (L.filter p).erase i := by
  rw [List.Nodup.erase_eq_filter hn, List.Nodup.erase_eq_filter (hn.filter _), List.filter_filter, List.filter_filter]
  congr 1; funext x; exact Bool.and_comm _ _

theorem filter_congr' {p q : Nat → Bool} {L : List Nat} (h : ∀ x ∈ L, p x = q x) : L.filter p = L.filter q :=
  List.filter_congr h

theorem prefix_erase {α : Type} [BEq α] [LawfulBEq α] {A B : List α} (h : A <+: B) (x : α) (hx : x ∈ A) : A.erase x <+: B.erase x := by
  obtain ⟨C, rfl⟩ := h
  rw [List.erase_append_left _ hx]
  exact List.prefix_append _ _

theorem prefix_erase_not {α : Type} [BEq α] [LawfulBEq α] {A B : List α} (h : A <+: B) (x : α) (hx : x ∉ A) : A <+: B.erase x := by
  obtain ⟨C, rfl⟩ := h
  rw [List.erase_append_right _ hx]
  exact List.prefix_append _ _

theorem map_erase_inj {α β : Type} [BEq α] [LawfulBEq α] [BEq β] [LawfulBEq β] {f : α → β} {l : List α} {x : α}
    (hf : ∀ a ∈ l, f a = f x → a = x) : (l.map f).erase (f x) = (l.erase x).map f := by
  induction l with
  | nil => rfl
  | cons a l ih =>
    by_cases h : a = x
    · subst h; simp
    · have h' : f a ≠ f x := fun he => h (hf a (by simp) he)
      rw [List.map_cons, List.erase_cons_tail (by simpa using h'), List.erase_cons_tail (by simpa using h), List.map_cons,
        ih (fun a ha => hf a (by simp [ha]))]

theorem Sim.ptr_hot (h : Sim R d0 s σ) (f : Nat → Option (Nat × Bool)) (hf : ∀ k b w, f k = some (b, w) → Spec.hot σ b = true → σ.ptr k = some (b, w)) :
    Sim R d0 s { σ with ptr := f } :=
  { h with ptr := fun k b w h1 h2 => h.ptr k b w (hf k b w h1 h2) h2 }

theorem Sim.drop (h : Sim R d0 s σ) : Sim R d0 s (Spec.drop σ) := by
  refine h.ptr_hot _ ?_
  intro k b w h1 _
  split at h1
  · rename_i b' w' e
    split at h1
    · cases h1; exact e
    · cases h1
  · cases h1

theorem tight_drop (σ : Spec.M V) : Tight (Spec.drop σ) := by
  intro k b w h1
  unfold Spec.drop at h1
  dsimp only at h1
  split at h1
  · split at h1
    · rename_i b' w' e hh
      cases h1; exact hh
    · cases h1
  · cases h1

theorem Sim.setNull (h : Sim R d0 s σ) (k : Nat) : Sim R d0 (setPtr s k none) (Spec.setPtr σ k none) := by
  refine { h with ptr := ?_ }
  intro k' b w h1 h2
  unfold Spec.setPtr at h1
  dsimp only at h1
  split at h1
  · cases h1
  · rename_i hne
    obtain ⟨i, g1, g2⟩ := h.ptr k' b w h1 h2
    exact ⟨i, by simp [setPtr, upd_ne, hne, g1], g2⟩

/-- Waiting for a request. -/
theorem Sim.wait (h : Sim R d0 s σ) {b i : Nat} (hb : s.map b = some i) : Sim R d0 (wait s i) σ ∧ (NodeCache.wait s i).pend i = none ∧
    (NodeCache.wait s i).map = s.map ∧ (NodeCache.wait s i).free = s.free ∧ (NodeCache.wait s i).n = s.n ∧ (NodeCache.wait s i).lru = s.lru ∧
    (NodeCache.wait s i).dirty = s.dirty ∧ (NodeCache.wait s i).fixed = s.fixed ∧ (NodeCache.wait s i).live = s.live ∧ (NodeCache.wait s i).disk = s.disk ∧ (NodeCache.wait s i).ptr = s.ptr ∧
    (∀ j, s.pend j = none → (NodeCache.wait s i).pend j = none) := by
  unfold NodeCache.wait
  cases hp : s.pend i with
  | none => exact ⟨h, hp, rfl, rfl, rfl, rfl, rfl, rfl, rfl, rfl, rfl, fun _ h => h⟩
  | some b' =>
    obtain ⟨rfl, hd⟩ := h.pnd b i b' hb hp
    dsimp only
    refine ⟨{ h with fpend := ?_, pnd := ?_, cont := ?_, ptr := ?_ }, by simp, rfl, rfl, rfl, rfl, rfl, rfl, rfl, rfl, rfl, ?_⟩
    · intro j hj
      by_cases hji : j = i
      · subst hji; simp
      · simp [upd_ne, hji, h.fpend j hj]
    · intro a j a' h1 h2
      by_cases hji : j = i
      · subst hji; simp at h2
      · dsimp only at h2; rw [upd_ne _ _ hji] at h2; exact h.pnd a j a' h1 h2
    · intro a j h1 h2
      by_cases hji : j = i
      · subst hji
        have := h.inj a b' j h1 hb
        subst this
        simp only [upd_self]
        exact h.clean a j hb hd
      · dsimp only at h2 ⊢; rw [upd_ne _ _ hji] at h2 ⊢; exact h.cont a j h1 h2
    · intro k a w h1 h2
      obtain ⟨j, g1, g2, g3, g4⟩ := h.ptr k a w h1 h2
      refine ⟨j, g1, g2, ?_, g4⟩
      by_cases hji : j = i
      · subst hji; simp
      · simp [upd_ne, hji, g3]
    · intro j hj
      by_cases hji : j = i
      · subst hji; simp
      · simp [upd_ne, hji, hj]

/-- Moving a slot to the front of the pager's history. -/
theorem Sim.hit (h : Sim R d0 s σ) {i : Nat} (hi : i < s.n) : s.lru.hit i = some { s.lru with history := i :: s.lru.history.erase i } := by
  unfold Lru.hit
  rw [if_pos (by rw [h.lsz]; exact hi)]

theorem Sim.hit_perm (h : Sim R d0 s σ) {i : Nat} (hi : i < s.n) : (i :: s.lru.history.erase i).Perm (List.range s.n) :=
  (List.perm_cons_erase ((h.mem i).mpr hi)).symm.trans h.hp

theorem Sim.hitFree (h : Sim R d0 s σ) {v : Nat} (hv : v ∈ s.free) :
    Sim R d0 { s with lru := { s.lru with history := v :: s.lru.history.erase v } } σ := by
  refine { h with hp := h.hit_perm (h.flt v hv), recent := ?_ }
  show σ.recent.map s.map <+: ((v :: s.lru.history.erase v).filter (unf s)).map some
  have hv' : unf s v = false := by simp [unf, hv]
  rw [List.filter_cons_of_neg (by simp [hv']), filter_erase h.nd, List.erase_of_not_mem]
  · exact h.recent
  · simp [hv']

/-- Kicking out a node: the slot becomes free. -/
theorem Sim.evict (h : Sim R d0 s σ) (hf : s.free = []) (hx : σ.fx.length ≠ s.n) :
    ∃ v s', evict s = some (some v, s') ∧ Sim R d0 { s' with free := [v] } (Spec.shrink s.n σ) ∧ s'.free = [] ∧ s'.n = s.n ∧
      s'.lru.history.head? = some v ∧ s'.live = s.live ∧ s'.ptr = s.ptr ∧ (∀ b, s.map b = none → s'.map b = none) := by
  -- the victim
  have hU : s.lru.history.filter (unf s) ≠ [] := by
    intro he
    have := h.unf_length hf
    rw [he] at this
    simp at this; exact hx this
  obtain ⟨U, v, hUv⟩ : ∃ U v, s.lru.history.filter (unf s) = U ++ [v] :=
    ⟨_, _, (List.dropLast_append_getLast hU).symm⟩
  obtain ⟨A, B, hAB, hA, hB⟩ : ∃ A B, s.lru.history = A ++ v :: B ∧ A.filter (unf s) = U ∧ ∀ i ∈ B, unf s i = false := by
    obtain ⟨L1, L2, e1, e2, e3⟩ := List.filter_eq_append_iff.mp hUv
    obtain ⟨M1, M2, g1, g2, g3, g4⟩ := List.filter_eq_cons_iff.mp e3
    refine ⟨L1 ++ M1, M2, by rw [e1, g1]; simp, ?_, ?_⟩
    · rw [List.filter_append, e2]
      have : M1.filter (unf s) = [] := by rw [List.filter_eq_nil_iff]; intro a ha; simpa using g2 a ha
      rw [this, List.append_nil]
    · intro i hi
      rw [List.filter_eq_nil_iff] at g4
      simpa using g4 i hi
  have hunf : ∀ i, unf s i = !s.fixed i := by intro i; simp [unf, hf]
  have hvU : unf s v = true := by
    have : v ∈ s.lru.history.filter (unf s) := by rw [hUv]; simp
    exact (List.mem_filter.mp this).2
  have hvf : s.fixed v = false := by rw [hunf] at hvU; simpa using hvU
  have hl : s.lru.history.length = s.n := by rw [h.hp.length_eq]; simp
  have hk := kickLoop_found s.fixed s.n B A v s.lru (by rw [← hl, hAB]; simp; omega) hAB h.nd (fun i hi => by rw [h.lsz]; exact (h.mem i).mp hi)
    (fun i hi => by have := hB i hi; rw [hunf] at this; simpa using this) hvf
  have hvn : v < s.n := (h.mem v).mp (by rw [hAB]; simp)
  obtain ⟨b, hb⟩ : ∃ b, s.map b = some v := by
    rcases h.cover v hvn with h1 | h1
    · rw [hf] at h1; cases h1
    · exact h1
  -- the request
  obtain ⟨w1, w2, w3, w4, w5, w6, w7, w8, w9, w10, w11, w12⟩ := h.wait hb
  have hnode := w1.cont b v (by rw [w3]; exact hb) w2
  have hwc : NodeCache.wait { s with lru := { s.lru with history := v :: (B ++ A) } } v =
      { NodeCache.wait s v with lru := { s.lru with history := v :: (B ++ A) } } := by
    unfold NodeCache.wait
    dsimp only
    cases s.pend v <;> rfl
  have hperm : (v :: (B ++ A)).Perm s.lru.history := by
    rw [hAB, List.perm_iff_count]; intro y; simp only [List.count_append, List.count_cons]; omega
  generalize hs1 : NodeCache.wait s v = s1 at *
  -- the state after the eviction
  refine ⟨v, { s1 with lru := { s.lru with history := v :: (B ++ A) }, disk := if s1.dirty v then upd s1.disk b (s1.node v) else s1.disk, map := upd s1.map b none }, ?_, ?_, by simp [w4, hf], w5, rfl, w9, w11, ?_⟩
  · unfold NodeCache.evict
    rw [hk]
    dsimp only
    rw [hwc]
    dsimp only
    rw [hnode]
    by_cases hd : s1.dirty v
    · rw [if_pos hd, if_pos hd]
    · rw [if_neg hd, if_neg hd]
  · have hmap : ∀ c j, upd s1.map b none c = some j → c ≠ b ∧ s1.map c = some j ∧ j ≠ v := by
      intro c j hc
      by_cases hcb : c = b
      · subst hcb; simp at hc
      · rw [upd_ne _ _ hcb] at hc
        refine ⟨hcb, hc, ?_⟩
        intro hjv; subst hjv
        exact hcb (w1.inj c b j hc (by rw [w3]; exact hb))
    have hb1 : s1.map b = some v := by rw [w3]; exact hb
    have hdisk : ∀ c, c ≠ b → (if s1.dirty v then upd s1.disk b (s1.node v) else s1.disk) c = s1.disk c := by
      intro c hc; split
      · rw [upd_ne _ _ hc]
      · rfl
    have hdb : (if s1.dirty v then upd s1.disk b (s1.node v) else s1.disk) b = (b, σ.val b) := by
      split
      · rw [upd_self, hnode]
      · rename_i hd
        exact w1.clean b v hb1 (by simpa using hd)
    have hfixed : ∀ i, s1.fixed i = s.fixed i := fun i => by rw [w8]
    have hrec : ∀ c ∈ σ.recent.take (s.n - 1 - σ.fx.length), c ≠ b := by
      intro c hc he
      subst he
      have hUl : U.length = s.n - 1 - σ.fx.length := by
        have := h.unf_length hf
        rw [hUv] at this; simp at this; omega
      have hpre : (σ.recent.take (s.n - 1 - σ.fx.length)).map s.map <+: U.map some := by
        have h1 := h.recent
        rw [hUv, List.map_append] at h1
        rw [List.map_take]
        have h2 := List.prefix_iff_eq_take.mp (List.IsPrefix.trans (List.take_prefix (s.n - 1 - σ.fx.length) _) h1)
        refine List.prefix_of_prefix_length_le (List.IsPrefix.trans (List.take_prefix (s.n - 1 - σ.fx.length) _) h1) (List.prefix_append _ _) ?_
        simp; omega
      have hm : s.map c ∈ U.map some := hpre.subset (List.mem_map_of_mem hc)
      rw [hb] at hm
      have hvU' : v ∈ U := by
        obtain ⟨x, hx, he⟩ := List.mem_map.mp hm
        cases he; exact hx
      have hnd := h.nd.filter (unf s)
      rw [hUv] at hnd
      exact (List.nodup_append.mp hnd).2.2 v hvU' v (by simp) rfl
    have hfree1 : s1.free = [] := by rw [w4, hf]
    refine { hp := ?_, lsz := by rw [← w5] at *; exact w1.lsz ▸ (by rw [w6]), inj := ?_, mlt := ?_, mfree := ?_, cover := ?_, fnd := by simp, flt := ?_, ffix := ?_, fpend := ?_, mlive := ?_, live := w1.live, lnd := w1.lnd, fx := ?_, fxnd := h.fxnd, pnd := ?_, cont := ?_, clean := ?_, out := ?_, recent := ?_, ptr := ?_, foreign := ?_ }
    · show (v :: (B ++ A)).Perm (List.range s1.n)
      rw [w5]; exact hperm.trans h.hp
    · intro a c i ha hc
      obtain ⟨_, h1, _⟩ := hmap a i ha
      obtain ⟨_, h2, _⟩ := hmap c i hc
      exact w1.inj a c i h1 h2
    · intro c i hc; exact w1.mlt c i (hmap c i hc).2.1
    · intro c i hc; simpa using (hmap c i hc).2.2
    · intro i hi
      by_cases hiv : i = v
      · left; simp [hiv]
      · right
        rcases w1.cover i hi with h1 | ⟨c, h1⟩
        · rw [hfree1] at h1; cases h1
        · refine ⟨c, ?_⟩
          dsimp only
          rw [upd_ne _ _ ?_]
          · exact h1
          · intro he; subst he; rw [hb1] at h1; cases h1; exact hiv rfl
    · intro i hi; simp at hi; subst hi; show i < s1.n; rw [w5]; exact hvn
    · intro i hi; simp at hi; subst hi; show s1.fixed i = false; rw [w8]; exact hvf
    · intro i hi; simp at hi; subst hi; exact w2
    · intro c i hc; exact w1.mlive c i (hmap c i hc).2.1
    · intro c
      show c ∈ σ.fx ↔ _
      rw [w1.fx c]
      constructor
      · rintro ⟨i, h1, h2⟩
        refine ⟨i, ?_, h2⟩
        dsimp only
        rw [upd_ne _ _ ?_]
        · exact h1
        · intro he; subst he; rw [hb1] at h1; cases h1; rw [hfixed, hvf] at h2; cases h2
      · rintro ⟨i, h1, h2⟩; exact ⟨i, (hmap c i h1).2.1, h2⟩
    · intro c i b' h1 h2; exact w1.pnd c i b' (hmap c i h1).2.1 h2
    · intro c i h1 h2; exact w1.cont c i (hmap c i h1).2.1 h2
    · intro c i h1 h2
      obtain ⟨g1, g2, g3⟩ := hmap c i h1
      show (if s1.dirty v then upd s1.disk b (s1.node v) else s1.disk) c = _
      rw [hdisk c g1]; exact w1.clean c i g2 h2
    · intro c hc h1
      show (if s1.dirty v then upd s1.disk b (s1.node v) else s1.disk) c = _
      by_cases hcb : c = b
      · subst hcb; exact hdb
      · rw [hdisk c hcb]
        dsimp only at h1
        rw [upd_ne _ _ hcb] at h1
        exact w1.out c hc h1
    · show (σ.recent.take (s.n - 1 - σ.fx.length)).map (upd s1.map b none) <+: ((v :: (B ++ A)).filter _).map some
      have e1 : (σ.recent.take (s.n - 1 - σ.fx.length)).map (upd s1.map b none) = (σ.recent.take (s.n - 1 - σ.fx.length)).map s.map := by
        refine List.map_congr_left ?_
        intro c hc
        rw [upd_ne _ _ (hrec c hc), w3]
      have hnd' : (v :: (B ++ A)).Nodup := hperm.nodup_iff.mpr h.nd
      have e2 : (v :: (B ++ A)).filter (unf { s1 with lru := { s.lru with history := v :: (B ++ A) }, disk := if s1.dirty v then upd s1.disk b (s1.node v) else s1.disk, map := upd s1.map b none, free := [v] }) = U := by
        rw [List.filter_cons_of_neg (by simp [unf]), List.filter_append]
        have hnv : ∀ x ∈ B ++ A, x ≠ v := by
          intro x hx he; subst he; exact (List.nodup_cons.mp hnd').1 hx
        have eB : B.filter (unf { s1 with lru := { s.lru with history := v :: (B ++ A) }, disk := if s1.dirty v then upd s1.disk b (s1.node v) else s1.disk, map := upd s1.map b none, free := [v] }) = [] := by
          rw [List.filter_eq_nil_iff]
          intro x hx
          have := hB x hx
          rw [hunf] at this
          simp [unf, hfixed]
          intro _
          simpa using this
        rw [eB, List.nil_append, ← hA]
        refine List.filter_congr ?_
        intro x hx
        have := hnv x (by simp [hx])
        simp [unf, hfixed, hf, this]
      rw [e1, e2]
      have h1 := h.recent
      rw [hUv, List.map_append] at h1
      rw [List.map_take]
      refine List.prefix_of_prefix_length_le (List.IsPrefix.trans (List.take_prefix _ _) h1) (List.prefix_append _ _) ?_
      have := h.unf_length hf
      rw [hUv] at this; simp at this ⊢; omega
    · intro k c w h1 h2
      have h2' : Spec.hot σ c = true := by
        rw [hot_iff] at h2 ⊢
        rcases h2 with h2 | h2
        · exact Or.inl h2
        · exact Or.inr (List.mem_of_mem_take h2)
      obtain ⟨i, g1, g2, g3, g4⟩ := w1.ptr k c w h1 h2'
      refine ⟨i, g1, ?_, g3, g4⟩
      dsimp only
      rw [upd_ne _ _ ?_]
      · exact g2
      · intro he
        subst he
        rcases hot_iff.mp h2 with h3 | h3
        · obtain ⟨j, j1, j2⟩ := (h.fx c).mp h3
          rw [hb] at j1; cases j1; rw [hvf] at j2; cases j2
        · exact hrec c h3 rfl
    · intro c hc
      obtain ⟨g1, g2⟩ := w1.foreign c hc
      refine ⟨?_, g2⟩
      show (if s1.dirty v then upd s1.disk b (s1.node v) else s1.disk) c = _
      rw [hdisk c ?_]
      · exact g1
      · intro he; subst he; exact g2 (w1.mlive c v hb1)
  · intro c hc
    dsimp only
    by_cases hcb : c = b
    · subst hcb; simp
    · rw [upd_ne _ _ hcb, w3]; exact hc

end NodeCache
