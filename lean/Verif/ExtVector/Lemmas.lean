import Verif.ExtVector.Model

/-!
# Invariant of the external vector and its preservation by the paging primitives
-/

namespace Stxxl.ExtVector

variable {α : Type} {B P : Nat}

/-! ## Arithmetic of positions -/

theorem divCeil_le_mul (n : Nat) {d : Nat} (hd : 0 < d) : n ≤ divCeil n d * d := by
  unfold divCeil
  have h := Nat.div_add_mod n d
  have hlt := Nat.mod_lt n hd
  split
  · rw [Nat.add_mul, Nat.mul_comm (n / d) d]; omega
  · rw [Nat.add_mul, Nat.mul_comm (n / d) d]; omega

theorem lt_of_lt_divCeil {k n d : Nat} (h : k < divCeil n d) : k * d < n := by
  by_cases hd : d = 0
  · subst hd
    simp [divCeil] at h
    split at h <;> omega
  have hd : 0 < d := Nat.pos_of_ne_zero hd
  unfold divCeil at h
  have h1 := Nat.div_add_mod n d
  split at h
  · have h3 := Nat.mul_le_mul_left d (show k ≤ n / d by omega)
    rw [Nat.mul_comm] at h3; omega
  · have h3 := Nat.mul_le_mul_left d (show k + 1 ≤ n / d by omega)
    rw [Nat.mul_add] at h3
    rw [Nat.mul_comm k d]; omega

theorem divCeil_le_iff {n d m : Nat} (hd : 0 < d) : divCeil n d ≤ m ↔ n ≤ m * d := by
  constructor
  · intro h
    exact Nat.le_trans (divCeil_le_mul n hd) (Nat.mul_le_mul_right d h)
  · intro h
    apply Classical.byContradiction
    intro hc
    have := lt_of_lt_divCeil (k := m) (n := n) (d := d) (by omega)
    omega

theorem lt_divCeil_iff {n d m : Nat} (hd : 0 < d) : m < divCeil n d ↔ m * d < n := by
  have := divCeil_le_iff (n := n) (m := m) hd
  omega

/-- page of element `i` = page of its block -/
theorem pageOf_eq (i : Nat) : pageOf B P i = i / B / P := by
  rw [pageOf, Nat.div_div_eq_div_mul, Nat.mul_comm]

theorem blockOf_eq (hB : 0 < B) (i : Nat) : blockOf B P i = (i / B) % P := by
  unfold blockOf
  rw [pageOf_eq]
  have h1 := Nat.div_add_mod i B
  have h2 := Nat.div_add_mod (i / B) P
  have e : i - i / B / P * (P * B) = B * ((i / B) % P) + i % B := by
    have : i / B / P * (P * B) = B * (P * (i / B / P)) := by
      ac_rfl
    rw [this]
    have h3 : B * (i / B) = B * (P * (i / B / P)) + B * (i / B % P) := by rw [← Nat.mul_add, h2]
    omega
  rw [e, Nat.mul_add_div hB, Nat.div_eq_of_lt (Nat.mod_lt i hB), Nat.add_zero]

theorem offOf_eq (hB : 0 < B) (i : Nat) : offOf B P i = i % B := by
  unfold offOf
  rw [blockOf_eq hB, pageOf_eq]
  have h1 := Nat.div_add_mod i B
  have h2 := Nat.div_add_mod (i / B) P
  have : i / B / P * (P * B) = B * (P * (i / B / P)) := by
    ac_rfl
  rw [this, Nat.mul_comm _ B]
  have h3 : B * (i / B) = B * (P * (i / B / P)) + B * (i / B % P) := by rw [← Nat.mul_add, h2]
  omega

@[simp] theorem upd_same {β} (f : Nat → β) (i : Nat) (v : β) : upd f i v i = v := by simp [upd]
theorem upd_ne {β} (f : Nat → β) {i j : Nat} (v : β) (h : j ≠ i) : upd f i v j = f j := by simp [upd, h]

theorem resizeList_length {β} (l : List β) (n : Nat) (x : β) : (resizeList l n x).length = n := by
  simp [resizeList]; omega

theorem resizeList_get {β} (l : List β) (n : Nat) (x : β) (h : l.length ≤ n) (i : Nat) :
    (resizeList l n x)[i]? = if i < l.length then l[i]? else if i < n then some x else none := by
  unfold resizeList
  rw [List.take_of_length_le h, List.getElem?_append]
  split
  · rfl
  · rw [List.getElem?_replicate]
    by_cases h2 : i < n
    · simp [h2, show i - l.length < n - l.length by omega]
    · simp [h2, show ¬ i - l.length < n - l.length by omega]

/-! ## The page transfer loops -/

theorem writeBlocks_other (cache : Nat → Nat → α) (bs : List Nat) (i : Nat) (d : Nat → Nat → α) {b : Nat}
    (h : b ∉ bs) : writeBlocks cache bs i d b = d b := by
  induction bs generalizing i d with
  | nil => rfl
  | cons a bs ih =>
    simp only [List.mem_cons, not_or] at h
    simp only [writeBlocks]
    rw [ih _ _ h.2, upd_ne _ _ h.1]

theorem writeBlocks_get (cache : Nat → Nat → α) (bs : List Nat) (hnd : bs.Nodup) (i : Nat) (d : Nat → Nat → α)
    (j : Nat) (b : Nat) (h : bs[j]? = some b) : writeBlocks cache bs i d b = cache (i + j) := by
  induction bs generalizing i d j with
  | nil => simp at h
  | cons a bs ih =>
    simp only [writeBlocks]
    cases j with
    | zero =>
      simp at h; subst h
      rw [writeBlocks_other _ _ _ _ (List.nodup_cons.1 hnd).1]; simp
    | succ j =>
      rw [ih (List.nodup_cons.1 hnd).2 (i + 1) _ j (by simpa using h)]
      congr 1; omega

theorem readBlocks_get (disk : Nat → Nat → α) (bs : List Nat) (i : Nat) (c : Nat → Nat → α) (x : Nat) :
    readBlocks disk bs i c x =
      if i ≤ x ∧ x < i + bs.length then (match bs[x - i]? with | some b => disk b | none => c x) else c x := by
  induction bs generalizing i c with
  | nil => simp [readBlocks]
  | cons b bs ih =>
    simp only [readBlocks]
    rw [ih]
    by_cases h0 : x = i
    · subst h0; simp; intro h; omega
    · by_cases h1 : i + 1 ≤ x ∧ x < i + 1 + bs.length
      · have e : x - i = (x - (i + 1)) + 1 := by omega
        have h2 : i ≤ x ∧ x < i + (b :: bs).length := by simp; omega
        have h3 : x - (i + 1) < bs.length := by omega
        simp only [h1, h2, and_self, if_true, e, List.getElem?_cons_succ, List.getElem?_eq_getElem h3]
      · have h2 : ¬ (i ≤ x ∧ x < i + (b :: bs).length) := by simp; omega
        simp only [h1, h2, if_false]
        exact upd_ne _ _ h0

theorem pageBids_get (bids : List Nat) (page k : Nat) (hk : k / P = page) (hlt : k < bids.length) (hP : 0 < P) :
    (pageBids P bids page)[k % P]? = bids[k]? := by
  have h1 := Nat.div_add_mod k P
  have h2 := Nat.mod_lt k hP
  subst hk
  rw [pageBids, List.getElem?_take, List.getElem?_drop]
  rw [Nat.mul_comm] at h1
  have : k % P < min (k / P * P + P) bids.length - k / P * P := by omega
  rw [if_pos this, h1]

theorem pageBids_length (bids : List Nat) (page : Nat) :
    (pageBids P bids page).length = min (page * P + P) bids.length - page * P := by
  simp [pageBids]; omega

theorem pageBids_nodup {bids : List Nat} (h : bids.Nodup) (page : Nat) : (pageBids P bids page).Nodup :=
  ((h.sublist (List.drop_sublist _ _)).sublist (List.take_sublist _ _))

/-- A block of the page's id list is block number `k` of the vector with `k / P = page`. -/
theorem mem_pageBids {bids : List Nat} {page b : Nat} (hP : 0 < P) (h : b ∈ pageBids P bids page) :
    ∃ k, bids[k]? = some b ∧ k / P = page := by
  obtain ⟨j, hj⟩ := List.mem_iff_getElem?.1 h
  have hlt : j < (pageBids P bids page).length := (List.getElem?_eq_some_iff.1 hj).1
  rw [pageBids_length] at hlt
  rw [pageBids, List.getElem?_take] at hj
  rw [if_pos (by omega), List.getElem?_drop] at hj
  refine ⟨_, hj, ?_⟩
  rw [Nat.mul_comm, Nat.mul_add_div hP, Nat.div_eq_of_lt (by omega)]; omega

theorem nodup_get_inj {l : List Nat} (h : l.Nodup) {i j b : Nat} (hi : l[i]? = some b) (hj : l[j]? = some b) : i = j := by
  obtain ⟨h1, e1⟩ := List.getElem?_eq_some_iff.1 hi
  obtain ⟨h2, e2⟩ := List.getElem?_eq_some_iff.1 hj
  exact (List.getElem_inj h).1 (e1.trans e2.symm)

/-! ## Invariant -/

/-- `abs` is the abstract vector: element `i` is `some v` if `v` was the last value written to it, `none` if its value
is unspecified. -/
structure Inv (B P : Nat) (s : Sys α) (abs : List (Option α)) : Prop where
  hB : 0 < B
  hP : 0 < P
  np : 0 < s.vec.npages
  len : abs.length = s.vec.size
  cap : s.vec.size ≤ s.vec.bids.length * B
  nod : s.vec.bids.Nodup
  lens : s.vec.status.length = s.vec.p2s.length
  pages : s.vec.bids.length ≤ s.vec.status.length * P
  map : ∀ p t, s.vec.p2s[p]? = some (some t) → t < s.vec.npages ∧ s.vec.s2p t = p ∧ t ∉ s.vec.free
  freeLt : ∀ t ∈ s.vec.free, t < s.vec.npages
  freeNd : s.vec.free.Nodup
  slots : ∀ t, t < s.vec.npages → t ∈ s.vec.free ∨ s.vec.p2s[s.vec.s2p t]? = some (some t)
  dirtyC : ∀ p, s.vec.status[p]? = some .dirty →
    (∃ t, s.vec.p2s[p]? = some (some t)) ∧ p * P < s.vec.bids.length
  content : ∀ i v, abs[i]? = some (some v) → ∃ st, s.vec.status[i / B / P]? = some st ∧ st ≠ .uninit ∧
    (∀ t, s.vec.p2s[i / B / P]? = some (some t) → s.vec.cache (t * P + i / B % P) (i % B) = v) ∧
    (st = .valid → ∀ b, s.vec.bids[i / B]? = some b → s.disk b (i % B) = v)

theorem Inv.lt_cap {s : Sys α} {abs} (h : Inv B P s abs) {i : Nat} (hi : i < s.vec.size) : i / B < s.vec.bids.length := by
  rw [Nat.div_lt_iff_lt_mul h.hB]; exact Nat.lt_of_lt_of_le hi h.cap

theorem Inv.page_lt {s : Sys α} {abs} (h : Inv B P s abs) {k : Nat} (hi : k < s.vec.bids.length) :
    k / P < s.vec.status.length := by
  rw [Nat.div_lt_iff_lt_mul h.hP]; exact Nat.lt_of_lt_of_le hi h.pages

theorem Inv.idx {s : Sys α} {abs} (h : Inv B P s abs) {i : Nat} {v : α} (hi : abs[i]? = some (some v)) :
    i < s.vec.size := by
  rw [← h.len]; exact (List.getElem?_eq_some_iff.1 hi).1

/-- distinct slots/blocks have distinct cache addresses -/
theorem addr_inj {t t' a a' : Nat} (ha : a < P) (ha' : a' < P) (h : t * P + a = t' * P + a') : t = t' ∧ a = a' := by
  have hP : 0 < P := by omega
  have h1 : (t * P + a) / P = t := by rw [Nat.mul_comm, Nat.mul_add_div hP, Nat.div_eq_of_lt ha, Nat.add_zero]
  have h2 : (t' * P + a') / P = t' := by rw [Nat.mul_comm, Nat.mul_add_div hP, Nat.div_eq_of_lt ha', Nat.add_zero]
  have : t = t' := by rw [← h1, ← h2, h]
  subst this
  exact ⟨rfl, by omega⟩

/-- What changes between two states is only page traffic: everything a user of the block manager sees is the same. -/
structure Same (s s' : Sys α) : Prop where
  size : s'.vec.size = s.vec.size
  bids : s'.vec.bids = s.vec.bids
  npages : s'.vec.npages = s.vec.npages
  fromFile : s'.vec.fromFile = s.vec.fromFile
  slen : s'.vec.status.length = s.vec.status.length
  owned : s'.owned = s.owned
  fileBlocks : s'.fileBlocks = s.fileBlocks
  disk : ∀ b, b ∉ s.vec.bids → s'.disk b = s.disk b

theorem Same.refl (s : Sys α) : Same s s := ⟨rfl, rfl, rfl, rfl, rfl, rfl, rfl, fun _ _ => rfl⟩
theorem Same.trans {a b c : Sys α} (h1 : Same a b) (h2 : Same b c) : Same a c :=
  ⟨h2.size.trans h1.size, h2.bids.trans h1.bids, h2.npages.trans h1.npages, h2.fromFile.trans h1.fromFile,
    h2.slen.trans h1.slen,
    h2.owned.trans h1.owned, h2.fileBlocks.trans h1.fileBlocks,
    fun x hx => (h2.disk x (by rw [h1.bids]; exact hx)).trans (h1.disk x hx)⟩

/-- A: writing back a cached page. -/
theorem writePage_inv {s : Sys α} {abs} (h : Inv B P s abs) {page slot : Nat}
    (hm : s.vec.p2s[page]? = some (some slot)) :
    ∃ s', writePage P s page slot = some s' ∧ Inv B P s' abs ∧ Same s s' ∧ s'.vec.status[page]? ≠ some .dirty ∧
      s'.vec.p2s = s.vec.p2s ∧ s'.vec.s2p = s.vec.s2p ∧ s'.vec.free = s.vec.free ∧ s'.vec.cache = s.vec.cache ∧
      (∀ p : Nat, s'.vec.status[p]? = some Status.dirty → s.vec.status[p]? = some Status.dirty) := by
  have hlt : page < s.vec.status.length := by rw [h.lens]; exact (List.getElem?_eq_some_iff.1 hm).1
  obtain ⟨st, hst⟩ : ∃ st, s.vec.status[page]? = some st := ⟨_, List.getElem?_eq_getElem hlt⟩
  unfold writePage
  simp only [hst]
  by_cases hd : st = .dirty
  · subst hd
    have hb := (h.dirtyC page hst).2
    have hmin : page * P < min (page * P + P) s.vec.bids.length := by have := h.hP; omega
    simp only [ne_eq, not_true_eq_false, if_false, hmin]
    refine ⟨_, rfl, ?_, ?_, ?_, rfl, rfl, rfl, rfl, ?_⟩
    · refine ⟨h.hB, h.hP, h.np, h.len, h.cap, h.nod, by simpa using h.lens, by simpa using h.pages,
        h.map, h.freeLt, h.freeNd, h.slots, ?_, ?_⟩
      · intro p hp
        simp only [List.getElem?_set] at hp
        by_cases hpp : page = p
        · subst hpp; simp [hlt] at hp
        · simp only [hpp, if_false] at hp; exact h.dirtyC p hp
      · intro i v hi
        obtain ⟨st, h1, h2, h3, h4⟩ := h.content i v hi
        have hk := h.lt_cap (h.idx hi)
        simp only [List.getElem?_set]
        by_cases hp : page = i / B / P
        · refine ⟨.valid, by rw [if_pos hp, if_pos hlt], by simp, h3, fun _ b hb' => ?_⟩
          have hpb : (pageBids P s.vec.bids page)[i / B % P]? = some b := by
            rw [pageBids_get _ _ _ hp.symm hk h.hP]; exact hb'
          rw [writeBlocks_get _ _ (pageBids_nodup h.nod _) _ _ _ _ hpb]
          exact h3 slot (by rw [← hp]; exact hm)
        · refine ⟨st, by simp [hp, h1], h2, h3, fun hv b hb' => ?_⟩
          rw [writeBlocks_other]
          · exact h4 hv b hb'
          · intro hmem
            obtain ⟨k, hk1, hk2⟩ := mem_pageBids h.hP hmem
            rw [nodup_get_inj h.nod hk1 hb'] at hk2
            exact hp hk2.symm
    · refine ⟨rfl, rfl, rfl, rfl, by simp, rfl, rfl, fun b hb' => ?_⟩
      refine writeBlocks_other _ _ _ _ (fun hmem => hb' ?_)
      obtain ⟨k, hk1, _⟩ := mem_pageBids h.hP hmem
      exact List.mem_of_getElem? hk1
    · simp [List.getElem?_set, hlt]
    · intro p hp
      simp only [List.getElem?_set] at hp
      by_cases hpp : page = p
      · subst hpp; simp [hlt] at hp
      · simpa only [hpp, if_false] using hp
  · simp only [ne_eq, hd, not_false_eq_true, if_true]
    exact ⟨s, rfl, h, Same.refl s, by rw [hst]; simpa using hd, rfl, rfl, rfl, rfl, fun _ hp => hp⟩

/-- B: dropping a clean cached page from the cache. -/
theorem unmap_inv {s : Sys α} {abs} (h : Inv B P s abs) {page slot : Nat}
    (hm : s.vec.p2s[page]? = some (some slot)) (hc : s.vec.status[page]? ≠ some .dirty) :
    Inv B P { s with vec := { s.vec with free := s.vec.free ++ [slot], p2s := s.vec.p2s.set page none } } abs := by
  obtain ⟨m1, m2, m3⟩ := h.map _ _ hm
  have hlt : page < s.vec.p2s.length := (List.getElem?_eq_some_iff.1 hm).1
  refine ⟨h.hB, h.hP, h.np, h.len, h.cap, h.nod, by simpa using h.lens, h.pages, ?_, ?_, ?_, ?_, ?_, ?_⟩
  · intro p t hp
    simp only [List.getElem?_set] at hp
    by_cases hpp : page = p
    · subst hpp; simp [hlt] at hp
    · simp only [hpp, if_false] at hp
      obtain ⟨a, b, c⟩ := h.map p t hp
      refine ⟨a, b, ?_⟩
      simp only [List.mem_append, List.mem_singleton, not_or]
      refine ⟨c, fun ht => hpp ?_⟩
      subst ht; rw [← m2, b]
  · intro t ht
    simp only [List.mem_append, List.mem_singleton] at ht
    rcases ht with ht | rfl
    · exact h.freeLt t ht
    · exact m1
  · simp only [List.nodup_append, h.freeNd, true_and]
    refine ⟨by simp, ?_⟩
    intro a ha b hb hab
    simp at hb; subst hb hab; exact m3 ha
  · intro t ht
    simp only [List.mem_append, List.mem_singleton, List.getElem?_set]
    rcases h.slots t ht with h1 | h1
    · exact .inl (.inl h1)
    · by_cases hts : t = slot
      · exact .inl (.inr hts)
      · right
        have : page ≠ s.vec.s2p t := by
          intro he; rw [← he, hm] at h1; simp at h1; exact hts h1.symm
        simp [this, h1]
  · intro p hp
    obtain ⟨⟨t, ht⟩, hb⟩ := h.dirtyC p hp
    have hne : page ≠ p := by rintro rfl; exact hc hp
    exact ⟨⟨t, by simp [List.getElem?_set, hne, ht]⟩, hb⟩
  · intro i v hi
    obtain ⟨st, h1, h2, h3, h4⟩ := h.content i v hi
    refine ⟨st, h1, h2, fun t ht => ?_, h4⟩
    simp only [List.getElem?_set] at ht
    by_cases hp : page = i / B / P
    · rw [if_pos hp, if_pos hlt] at ht; simp at ht
    · simp only [hp, if_false] at ht; exact h3 t ht

/-- C: loading an uncached page into a free slot. -/
theorem load_inv {s : Sys α} {abs} (h : Inv B P s abs) {page slot : Nat} {rest : List Nat}
    (hf : s.vec.free = slot :: rest) (hm : s.vec.p2s[page]? = some none) (hpage : page * P < s.vec.bids.length) :
    ∃ s', readPage P { s with vec := { s.vec with
        free := rest, p2s := s.vec.p2s.set page (some slot), s2p := upd s.vec.s2p slot page } } page slot = some s' ∧
      Inv B P s' abs ∧ Same s s' ∧ s'.vec.p2s[page]? = some (some slot) ∧ s'.vec.status = s.vec.status := by
  have hlt : page < s.vec.p2s.length := (List.getElem?_eq_some_iff.1 hm).1
  have hlt' : page < s.vec.status.length := by rw [h.lens]; exact hlt
  obtain ⟨st, hst⟩ : ∃ st, s.vec.status[page]? = some st := ⟨_, List.getElem?_eq_getElem hlt'⟩
  have hslotfree : slot ∈ s.vec.free := by rw [hf]; simp
  have hnd := h.freeNd
  rw [hf] at hnd
  obtain ⟨hnr, hnd2⟩ := List.nodup_cons.1 hnd
  have hmin : page * P < min (page * P + P) s.vec.bids.length := by have := h.hP; omega
  have hnd' : st ≠ .dirty := by
    rintro rfl
    obtain ⟨⟨t, ht⟩, _⟩ := h.dirtyC page hst
    rw [hm] at ht; simp at ht
  -- everything except the cache contents
  have core : ∀ cache', (∀ i v, abs[i]? = some (some v) →
        (page ≠ i / B / P → ∀ t, s.vec.p2s[i / B / P]? = some (some t) →
            cache' (t * P + i / B % P) (i % B) = s.vec.cache (t * P + i / B % P) (i % B)) ∧
        (page = i / B / P → cache' (slot * P + i / B % P) (i % B) = v)) →
      Inv B P { s with vec := { s.vec with
        free := rest, p2s := s.vec.p2s.set page (some slot), s2p := upd s.vec.s2p slot page, cache := cache' } } abs := by
    intro cache' hcache
    refine ⟨h.hB, h.hP, h.np, h.len, h.cap, h.nod, by simpa using h.lens, h.pages, ?_, ?_, hnd2, ?_, ?_, ?_⟩
    · intro p t hp
      simp only [List.getElem?_set] at hp
      by_cases hpp : page = p
      · subst hpp; simp only [if_true, hlt] at hp
        cases hp
        exact ⟨h.freeLt _ hslotfree, by simp, hnr⟩
      · simp only [hpp, if_false] at hp
        obtain ⟨a, b, c⟩ := h.map p t hp
        refine ⟨a, ?_, fun ht => c (by rw [hf]; simp [ht])⟩
        have : t ≠ slot := by rintro rfl; exact c hslotfree
        dsimp only
        rw [upd_ne _ _ this]; exact b
    · intro t ht; exact h.freeLt t (by rw [hf]; simp [ht])
    · intro t ht
      by_cases hts : t = slot
      · subst hts; right; simp [hlt]
      · rcases h.slots t ht with h1 | h1
        · rw [hf] at h1; simp [hts] at h1; exact .inl h1
        · right
          dsimp only
          rw [upd_ne _ _ hts]
          have : page ≠ s.vec.s2p t := by intro he; rw [← he, hm] at h1; simp at h1
          simp [List.getElem?_set, this, h1]
    · intro p hp
      obtain ⟨⟨t, ht⟩, hb⟩ := h.dirtyC p hp
      have hne : page ≠ p := by rintro rfl; rw [hm] at ht; simp at ht
      exact ⟨⟨t, by simp [List.getElem?_set, hne, ht]⟩, hb⟩
    · intro i v hi
      obtain ⟨st, h1, h2, h3, h4⟩ := h.content i v hi
      obtain ⟨c1, c2⟩ := hcache i v hi
      refine ⟨st, h1, h2, fun t ht => ?_, h4⟩
      simp only [List.getElem?_set] at ht
      by_cases hp : page = i / B / P
      · rw [if_pos hp, if_pos hlt] at ht
        cases ht
        exact c2 hp
      · simp only [hp, if_false] at ht
        dsimp only
        rw [c1 hp t ht]; exact h3 t ht
  unfold readPage
  simp only [hst]
  by_cases hu : st = .uninit
  · simp only [hu, if_true]
    refine ⟨_, rfl, ?_, ?_, ?_, rfl⟩
    · refine core s.vec.cache ?_
      intro i v hi
      refine ⟨fun _ _ _ => rfl, fun hp => ?_⟩
      obtain ⟨st', h1, h2, _⟩ := h.content i v hi
      rw [← hp, hst] at h1; cases h1; exact absurd hu h2
    · exact ⟨rfl, rfl, rfl, rfl, rfl, rfl, rfl, fun _ _ => rfl⟩
    · simp [hlt]
  · simp only [hu, if_false, hmin, not_true_eq_false]
    refine ⟨_, rfl, ?_, ?_, ?_, rfl⟩
    · refine core (readBlocks s.disk (pageBids P s.vec.bids page) (slot * P) s.vec.cache) ?_
      intro i v hi
      have hk := h.lt_cap (h.idx hi)
      have hmod := Nat.mod_lt (i / B) h.hP
      refine ⟨fun hp t ht => ?_, fun hp => ?_⟩
      · rw [readBlocks_get]
        have : t ≠ slot := by rintro rfl; exact (h.map _ _ ht).2.2 hslotfree
        rw [if_neg]
        rintro ⟨h1, h2⟩
        rw [pageBids_length] at h2
        have hlen : min (page * P + P) s.vec.bids.length - page * P ≤ P := by omega
        obtain ⟨a, ha⟩ : ∃ a, t * P + i / B % P = slot * P + a ∧ a < P := ⟨t * P + i / B % P - slot * P, by omega, by omega⟩
        exact this (addr_inj hmod ha.2 ha.1).1
      · obtain ⟨st', h1, h2, _, h4⟩ := h.content i v hi
        rw [← hp, hst] at h1; cases h1
        have hv : st = .valid := by cases st <;> simp_all
        have hb := List.getElem?_eq_getElem hk
        have hpb := pageBids_get s.vec.bids page (i / B) hp.symm hk h.hP
        rw [hb] at hpb
        have hl : i / B % P < (pageBids P s.vec.bids page).length := (List.getElem?_eq_some_iff.1 hpb).1
        rw [readBlocks_get, if_pos (by omega), Nat.add_sub_cancel_left, hpb]
        exact h4 hv _ hb
    · exact ⟨rfl, rfl, rfl, rfl, rfl, rfl, rfl, fun _ _ => rfl⟩
    · simp [hlt]

/-- Making a page cached (any victim allowed by the pager). -/
theorem fetch_inv {s : Sys α} {abs} (h : Inv B P s abs) {page victim : Nat} (hv : victim < s.vec.npages)
    (hpage : page * P < s.vec.bids.length) :
    ∃ s' slot, fetch P s page victim = some (s', slot) ∧ Inv B P s' abs ∧ Same s s' ∧
      s'.vec.p2s[page]? = some (some slot) := by
  have hlt : page < s.vec.p2s.length := by
    rw [← h.lens]
    have := h.page_lt hpage
    rwa [Nat.mul_div_cancel _ h.hP] at this
  obtain ⟨m, hm⟩ : ∃ m, s.vec.p2s[page]? = some m := ⟨_, List.getElem?_eq_getElem hlt⟩
  unfold fetch
  cases m with
  | some slot => simp only [hm]; exact ⟨s, slot, rfl, h, Same.refl s, hm⟩
  | none =>
    simp only [hm]
    cases hf : s.vec.free with
    | cons slot rest =>
      simp only
      obtain ⟨s', h1, h2, h3, h4, _⟩ := load_inv h hf hm hpage
      simp only [h1]
      exact ⟨s', slot, rfl, h2, h3, h4⟩
    | nil =>
      simp only
      have hsl := h.slots victim hv
      rw [hf] at hsl
      simp only [List.not_mem_nil, false_or] at hsl
      have hold : s.vec.s2p victim < s.vec.p2s.length := (List.getElem?_eq_some_iff.1 hsl).1
      simp only [hold, if_true]
      have hne : s.vec.s2p victim ≠ page := by intro he; rw [he, hm] at hsl; simp at hsl
      -- evict in the abstract order: write back, unmap, load
      obtain ⟨sw, w1, w2, w3, w4, w5, w6, w7, w8, _⟩ := writePage_inv h hsl
      have hun := unmap_inv w2 (page := s.vec.s2p victim) (slot := victim) (by rw [w5]; exact hsl) w4
      have hm2 : ((sw.vec.p2s.set (s.vec.s2p victim) none))[page]? = some none := by
        rw [w5, List.getElem?_set]; simp [hne, hm]
      obtain ⟨s', l1, l2, l3, l4, _⟩ := load_inv (rest := []) hun (page := page) (slot := victim) (by simp [w7, hf])
        hm2 (by simpa [w3.bids] using hpage)
      -- the code's write_page runs on the re-linked tables; it only looks at status, cache and disk
      have hw : writePage P { s with vec := { s.vec with
          p2s := (s.vec.p2s.set page (some victim)).set (s.vec.s2p victim) none
          s2p := upd s.vec.s2p victim page
          free := [] } } (s.vec.s2p victim) victim =
          some { sw with vec := { sw.vec with
            free := []
            p2s := (sw.vec.p2s.set (s.vec.s2p victim) none).set page (some victim)
            s2p := upd sw.vec.s2p victim page } } := by
        rw [w5, w6, List.set_comm _ _ hne]
        unfold writePage at w1 ⊢
        simp only at w1 ⊢
        cases hst : s.vec.status[s.vec.s2p victim]? with
        | none => simp [hst] at w1
        | some st =>
          simp only [hst] at w1 ⊢
          split at w1
          · rename_i hd; rw [if_pos hd]; cases w1; rfl
          · rename_i hd
            split at w1
            · cases w1
            · rename_i hd2; rw [if_neg hd, if_neg hd2]; cases w1; rfl
      simp only at hw
      rw [hw]
      simp only
      simp only at l1
      rw [l1]
      refine ⟨s', victim, rfl, l2, ?_, l4⟩
      exact Same.trans w3 ⟨l3.size, l3.bids, l3.npages, l3.fromFile, l3.slen, l3.owned, l3.fileBlocks, l3.disk⟩

/-- Marking a cached page dirty. -/
theorem setDirty_inv {s : Sys α} {abs} (h : Inv B P s abs) {page slot : Nat}
    (hm : s.vec.p2s[page]? = some (some slot)) (hpage : page * P < s.vec.bids.length) :
    Inv B P (setDirty s page) abs := by
  have hlt : page < s.vec.status.length := by rw [h.lens]; exact (List.getElem?_eq_some_iff.1 hm).1
  refine ⟨h.hB, h.hP, h.np, h.len, h.cap, h.nod, by simpa [setDirty] using h.lens, by simpa [setDirty] using h.pages,
    h.map, h.freeLt, h.freeNd, h.slots, ?_, ?_⟩
  · intro p hp
    simp only [setDirty, List.getElem?_set] at hp ⊢
    by_cases hpp : page = p
    · subst hpp; exact ⟨⟨slot, hm⟩, hpage⟩
    · simp only [hpp, if_false] at hp; exact h.dirtyC p hp
  · intro i v hi
    obtain ⟨st, h1, h2, h3, h4⟩ := h.content i v hi
    simp only [setDirty, List.getElem?_set]
    by_cases hp : page = i / B / P
    · exact ⟨.dirty, by rw [if_pos hp, if_pos hlt], by simp, h3, by simp⟩
    · exact ⟨st, by simp [hp, h1], h2, h3, h4⟩

/-- Writing element `i` of a cached dirty page. -/
theorem poke_inv {s : Sys α} {abs} (h : Inv B P s abs) {i slot : Nat} (v : α) (hi : i < s.vec.size)
    (hm : s.vec.p2s[i / B / P]? = some (some slot)) (hd : s.vec.status[i / B / P]? = some .dirty) :
    Inv B P { s with vec := { s.vec with
      cache := upd s.vec.cache (slot * P + i / B % P)
        (upd (s.vec.cache (slot * P + i / B % P)) (i % B) v) } } (abs.set i (some v)) := by
  refine ⟨h.hB, h.hP, h.np, by simpa using h.len, h.cap, h.nod, h.lens, h.pages, h.map, h.freeLt, h.freeNd, h.slots,
    h.dirtyC, ?_⟩
  intro j w hj
  have hmodi := Nat.mod_lt (i / B) h.hP
  have hmodj := Nat.mod_lt (j / B) h.hP
  simp only [List.getElem?_set] at hj
  by_cases hij : i = j
  · subst hij
    rw [if_pos rfl, if_pos (by rw [h.len]; exact hi)] at hj
    cases hj
    refine ⟨.dirty, hd, by simp, fun t ht => ?_, by simp⟩
    rw [hm] at ht; cases ht
    simp
  · simp only [hij, if_false] at hj
    obtain ⟨st, h1, h2, h3, h4⟩ := h.content j w hj
    refine ⟨st, h1, h2, fun t ht => ?_, h4⟩
    simp only
    by_cases haddr : t * P + j / B % P = slot * P + i / B % P
    · obtain ⟨e1, e2⟩ := addr_inj hmodj hmodi haddr
      subst e1
      have hpg : j / B / P = i / B / P := by
        rw [← (h.map _ _ ht).2.1, ← (h.map _ _ hm).2.1]
      have hblk : j / B = i / B := by
        have a := Nat.div_add_mod (j / B) P
        have b := Nat.div_add_mod (i / B) P
        rw [hpg] at a; omega
      have hoff : j % B ≠ i % B := by
        intro he
        have a := Nat.div_add_mod j B
        have b := Nat.div_add_mod i B
        rw [hblk] at a; omega
      rw [haddr, upd_same, upd_ne _ _ hoff, ← haddr]
      exact h3 t ht
    · rw [upd_ne _ _ haddr]
      exact h3 t ht

end Stxxl.ExtVector
