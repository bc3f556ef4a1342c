import Verif.ExtVector.Lemmas

/-!
# The public operations preserve the invariant
-/

namespace Stxxl.ExtVector

variable {α : Type} {B P : Nat}

theorem Inv.page_ok {s : Sys α} {abs} (h : Inv B P s abs) {i : Nat} (hi : i < s.vec.size) :
    i / B / P * P < s.vec.bids.length := by
  have := h.lt_cap hi
  have h2 := Nat.div_mul_le_self (i / B) P
  omega

theorem constElement_inv {s : Sys α} {abs} (h : Inv B P s abs) {i victim : Nat} (hi : i < s.vec.size)
    (hv : victim < s.vec.npages) :
    ∃ s' r, constElement B P s i victim = some (s', r) ∧ Inv B P s' abs ∧ Same s s' ∧
      (∀ v, abs[i]? = some (some v) → r = v) := by
  obtain ⟨s', slot, h1, h2, h3, h4⟩ := fetch_inv h hv (h.page_ok hi)
  refine ⟨s', s'.vec.cache (slot * P + blockOf B P i) (offOf B P i), by simp only [constElement, pageOf_eq, h1], h2, h3, fun v hv' => ?_⟩
  obtain ⟨st, _, _, c3, _⟩ := h2.content i v hv'
  rw [blockOf_eq h.hB, offOf_eq h.hB]
  exact c3 slot h4

theorem setDirty_same (s : Sys α) (p : Nat) : Same s (setDirty s p) :=
  ⟨rfl, rfl, rfl, rfl, by simp [setDirty], rfl, rfl, fun _ _ => rfl⟩

theorem elementRead_inv {s : Sys α} {abs} (h : Inv B P s abs) {i victim : Nat} (hi : i < s.vec.size)
    (hv : victim < s.vec.npages) :
    ∃ s' r, elementRead B P s i victim = some (s', r) ∧ Inv B P s' abs ∧ Same s s' ∧
      (∀ v, abs[i]? = some (some v) → r = v) := by
  obtain ⟨s', slot, h1, h2, h3, h4⟩ := fetch_inv h hv (h.page_ok hi)
  refine ⟨setDirty s' (i / B / P), s'.vec.cache (slot * P + blockOf B P i) (offOf B P i), by simp only [elementRead, pageOf_eq, h1]; rfl,
    setDirty_inv h2 h4 (by rw [h3.bids]; exact h.page_ok hi), h3.trans (setDirty_same _ _), fun v hv' => ?_⟩
  obtain ⟨st, _, _, c3, _⟩ := h2.content i v hv'
  rw [blockOf_eq h.hB, offOf_eq h.hB]
  exact c3 slot h4

theorem elementWrite_inv {s : Sys α} {abs} (h : Inv B P s abs) {i victim : Nat} (v : α) (hi : i < s.vec.size)
    (hv : victim < s.vec.npages) :
    ∃ s', elementWrite B P s i v victim = some s' ∧ Inv B P s' (abs.set i (some v)) ∧ Same s s' := by
  obtain ⟨s', slot, h1, h2, h3, h4⟩ := fetch_inv h hv (h.page_ok hi)
  have hd := setDirty_inv h2 h4 (by rw [h3.bids]; exact h.page_ok hi)
  have hlt : i / B / P < s'.vec.status.length := by rw [h2.lens]; exact (List.getElem?_eq_some_iff.1 h4).1
  have hp := poke_inv hd v (i := i) (slot := slot) (by simpa [setDirty, h3.size] using hi) (by simpa [setDirty] using h4)
    (by simp [setDirty, hlt])
  refine ⟨_, ?_, hp, ?_⟩
  · simp only [elementWrite, pageOf_eq, h1, blockOf_eq h.hB, offOf_eq h.hB]
  · have := h3.trans (setDirty_same s' (i / B / P))
    exact ⟨this.size, this.bids, this.npages, this.fromFile, this.slen, this.owned, this.fileBlocks, this.disk⟩

/-! ## reserve -/

/-- What a call that may reserve needs: ids from the block manager that are new and as many as asked for, and a page
table that is not cut (which can only happen after `resize(n, true)`, see `C10`). -/
def FreshOk (B : Nat) (s : Sys α) (n : Nat) (fresh : List Nat) : Prop :=
  capacity B s.vec < n → s.vec.fromFile = false →
    fresh.length = divCeil n B - s.vec.bids.length ∧ fresh.Nodup ∧ ∀ b ∈ fresh, b ∉ s.vec.bids

def NoCut (B P : Nat) (s : Sys α) (n : Nat) : Prop :=
  capacity B s.vec < n → s.vec.status.length ≤ divCeil (divCeil n B) P

/-- In a file-backed vector block `k` is block `k` of the file. -/
def FileIds (s : Sys α) : Prop := s.vec.fromFile = true → s.vec.bids = List.range s.vec.bids.length

theorem reserve_inv {s : Sys α} {abs} (h : Inv B P s abs) {n : Nat} {fresh : List Nat}
    (hf : FreshOk B s n fresh) (hc : NoCut B P s n) (hid : FileIds s) :
    Inv B P (reserve B P s n fresh) abs ∧ n ≤ (reserve B P s n fresh).vec.bids.length * B ∧
      (reserve B P s n fresh).vec.size = s.vec.size ∧ (reserve B P s n fresh).vec.npages = s.vec.npages ∧
      (reserve B P s n fresh).vec.fromFile = s.vec.fromFile ∧ FileIds (reserve B P s n fresh) ∧
      (reserve B P s n fresh).disk = s.disk := by
  unfold reserve
  by_cases hle : n ≤ capacity B s.vec
  · rw [if_pos hle]; exact ⟨h, hle, rfl, rfl, rfl, hid, rfl⟩
  · rw [if_neg hle]
    have hlt : capacity B s.vec < n := by omega
    have hcut := hc hlt
    have hbig : s.vec.bids.length < divCeil n B := by rw [lt_divCeil_iff h.hB]; exact hlt
    have hslen := h.lens
    -- the part common to both kinds of vectors: `more` are the added ids
    have main : ∀ more : List Nat, more.length = divCeil n B - s.vec.bids.length → (s.vec.bids ++ more).Nodup →
        ∀ owned fb, Inv B P { s with
          vec := { s.vec with
            status := resizeList s.vec.status (divCeil (divCeil n B) P) .uninit
            p2s := resizeList s.vec.p2s (divCeil (divCeil n B) P) none
            bids := s.vec.bids ++ more }
          owned := owned, fileBlocks := fb } abs := by
      intro more hlen hnd owned fb
      have hget := resizeList_get s.vec.status (divCeil (divCeil n B) P) .uninit hcut
      have hget2 := resizeList_get s.vec.p2s (divCeil (divCeil n B) P) none (by rw [← hslen]; exact hcut)
      have hp2s : ∀ p t : Nat, (resizeList s.vec.p2s (divCeil (divCeil n B) P) none)[p]? = some (some t) →
          s.vec.p2s[p]? = some (some t) := by
        intro p t hp
        rw [hget2] at hp
        split at hp
        · exact hp
        · split at hp <;> simp at hp
      have hp2s' : ∀ p t : Nat, s.vec.p2s[p]? = some (some t) →
          (resizeList s.vec.p2s (divCeil (divCeil n B) P) none)[p]? = some (some t) := by
        intro p t hp
        rw [hget2, if_pos (List.getElem?_eq_some_iff.1 hp).1]; exact hp
      refine ⟨h.hB, h.hP, h.np, h.len, ?_, hnd, ?_, ?_, ?_, h.freeLt, h.freeNd, ?_, ?_, ?_⟩
      · simp only [List.length_append, Nat.add_mul]
        have := h.cap; omega
      · simp only [resizeList_length]
      · simp only [resizeList_length, List.length_append, hlen]
        have := divCeil_le_mul (divCeil n B) h.hP
        omega
      · intro p t hp; exact h.map p t (hp2s p t hp)
      · intro t ht
        rcases h.slots t ht with h1 | h1
        · exact .inl h1
        · exact .inr (hp2s' _ _ h1)
      · intro p hp
        simp only [hget] at hp
        split at hp
        · obtain ⟨⟨t, ht⟩, hb⟩ := h.dirtyC p hp
          exact ⟨⟨t, hp2s' _ _ ht⟩, by simp only [List.length_append]; omega⟩
        · split at hp <;> simp at hp
      · intro i v hi
        obtain ⟨st, h1, h2, h3, h4⟩ := h.content i v hi
        have hk := h.lt_cap (h.idx hi)
        refine ⟨st, ?_, h2, fun t ht => h3 t (hp2s _ _ ht), fun hv b hb => h4 hv b ?_⟩
        · simp only [hget]; rw [if_pos (List.getElem?_eq_some_iff.1 h1).1]; exact h1
        · simp only [List.getElem?_append_left hk] at hb; exact hb
    have hcap : ∀ more : List Nat, more.length = divCeil n B - s.vec.bids.length →
        n ≤ (s.vec.bids ++ more).length * B := by
      intro more hm
      have := divCeil_le_mul n h.hB
      rw [List.length_append, hm, show s.vec.bids.length + (divCeil n B - s.vec.bids.length) = divCeil n B by omega]
      exact this
    by_cases hff : s.vec.fromFile = true
    · simp only [hff, if_true]
      have hbids := hid hff
      have e : s.vec.bids ++ List.range' s.vec.bids.length (divCeil n B - s.vec.bids.length) =
          List.range (divCeil n B) := by
        conv => lhs; lhs; rw [hbids]
        rw [List.range_eq_range', List.range_eq_range']
        have := List.range'_append_1 (s := 0) (m := s.vec.bids.length) (n := divCeil n B - s.vec.bids.length)
        rw [Nat.zero_add] at this
        rw [this]; congr 1; omega
      have hl : (List.range' s.vec.bids.length (divCeil n B - s.vec.bids.length)).length =
          divCeil n B - s.vec.bids.length := by simp
      refine ⟨?_, hcap _ hl, (by trivial), (by trivial), by first | rfl | trivial | exact hff.symm, ?_, (by trivial)⟩
      · have := main _ hl (by rw [e]; exact List.nodup_range) s.owned (divCeil n B)
        simpa only [hff] using this
      · intro _
        simp only [e, List.length_range]
    · have hff' : s.vec.fromFile = false := by simpa using hff
      obtain ⟨f1, f2, f3⟩ := hf hlt hff'
      simp only [hff', Bool.false_eq_true, if_false]
      refine ⟨?_, hcap _ f1, (by trivial), (by trivial), by first | rfl | trivial | exact hff'.symm, by intro hx; simp at hx, (by trivial)⟩
      have hnd : (s.vec.bids ++ fresh).Nodup := by
        rw [List.nodup_append]
        exact ⟨h.nod, f2, fun a ha b hb hab => f3 b hb (hab ▸ ha)⟩
      have := main fresh f1 hnd (s.owned ++ fresh) s.fileBlocks
      simpa only [hff'] using this

/-! ## resize -/

/-- Dropping a page that holds no specified element. -/
theorem dropPage_inv {s : Sys α} {abs} (h : Inv B P s abs) {page : Nat}
    (hno : ∀ i v, abs[i]? = some (some v) → i / B / P ≠ page) :
    Inv B P { s with vec := { s.vec with status := s.vec.status.set page .uninit } } abs := by
  refine ⟨h.hB, h.hP, h.np, h.len, h.cap, h.nod, by simpa using h.lens, by simpa using h.pages,
    h.map, h.freeLt, h.freeNd, h.slots, ?_, ?_⟩
  · intro p hp
    simp only [List.getElem?_set] at hp
    by_cases hpp : page = p
    · rw [if_pos hpp] at hp; split at hp <;> simp at hp
    · rw [if_neg hpp] at hp; exact h.dirtyC p hp
  · intro i v hi
    obtain ⟨st, h1, h2, h3, h4⟩ := h.content i v hi
    refine ⟨st, ?_, h2, h3, h4⟩
    simp only [List.getElem?_set]
    rw [if_neg (fun he => hno i v hi he.symm)]; exact h1

theorem evictLoop_inv {abs : List (Option α)} (k : Nat) : ∀ (s : Sys α) (i : Nat), Inv B P s abs →
    (∀ j v, abs[j]? = some (some v) → j / B / P < i) →
    Inv B P (evictLoop s k i) abs ∧ Same s (evictLoop s k i) := by
  induction k with
  | zero => intro s i h _; exact ⟨h, Same.refl s⟩
  | succ k ih =>
    intro s i h hno
    have hne : ∀ j v, abs[j]? = some (some v) → j / B / P ≠ i := fun j v hj => by have := hno j v hj; omega
    simp only [evictLoop]
    have hdrop := dropPage_inv h hne
    cases hm : s.vec.p2s[i]? with
    | none =>
      simp only
      obtain ⟨a, b⟩ := ih _ (i + 1) hdrop (fun j v hj => by have := hno j v hj; omega)
      exact ⟨a, ⟨b.size, b.bids, b.npages, b.fromFile, b.slen.trans (by simp), b.owned, b.fileBlocks, b.disk⟩⟩
    | some m =>
      cases m with
      | none =>
        simp only
        obtain ⟨a, b⟩ := ih _ (i + 1) hdrop (fun j v hj => by have := hno j v hj; omega)
        exact ⟨a, ⟨b.size, b.bids, b.npages, b.fromFile, b.slen.trans (by simp), b.owned, b.fileBlocks, b.disk⟩⟩
      | some slot =>
        simp only
        have hun := unmap_inv hdrop (page := i) (slot := slot) hm (by
          simp only [List.getElem?_set, if_true]; split <;> simp)
        obtain ⟨a, b⟩ := ih _ (i + 1) hun (fun j v hj => by have := hno j v hj; omega)
        exact ⟨a, ⟨b.size, b.bids, b.npages, b.fromFile, b.slen.trans (by simp), b.owned, b.fileBlocks, b.disk⟩⟩

/-- Forgetting elements at the end / adding unspecified ones, within capacity. -/
theorem setSize_inv {s : Sys α} {abs abs'} (h : Inv B P s abs) {n : Nat} (hn : n ≤ s.vec.bids.length * B)
    (hlen : abs'.length = n) (hsub : ∀ (i : Nat) (v : α), abs'[i]? = some (some v) → abs[i]? = some (some v)) :
    Inv B P { s with vec := { s.vec with size := n } } abs' :=
  ⟨h.hB, h.hP, h.np, hlen, hn, h.nod, h.lens, h.pages, h.map, h.freeLt, h.freeNd, h.slots, h.dirtyC,
    fun i v hi => h.content i v (hsub i v hi)⟩

/-- The abstract resize. -/
def absResize (abs : List (Option α)) (n : Nat) : List (Option α) := abs.take n ++ List.replicate (n - abs.length) none

theorem absResize_length (abs : List (Option α)) (n : Nat) : (absResize abs n).length = n := by
  simp [absResize]; omega

theorem absResize_some {abs : List (Option α)} {n i : Nat} {v : α} (h : (absResize abs n)[i]? = some (some v)) :
    abs[i]? = some (some v) ∧ i < n := by
  unfold absResize at h
  rw [List.getElem?_append] at h
  split at h
  · rename_i hlt
    simp at hlt
    rw [List.getElem?_take] at h
    split at h
    · exact ⟨h, by omega⟩
    · simp at h
  · rw [List.getElem?_replicate] at h
    split at h <;> simp at h

theorem resizeV_inv {s : Sys α} {abs} (h : Inv B P s abs) {n : Nat} {fresh : List Nat}
    (hf : FreshOk B s n fresh) (hc : NoCut B P s n) (hid : FileIds s) :
    Inv B P (resizeV B P s n fresh) (absResize abs n) ∧
      (resizeV B P s n fresh).vec.npages = s.vec.npages ∧ FileIds (resizeV B P s n fresh) ∧
      (resizeV B P s n fresh).vec.bids = (reserve B P s n fresh).vec.bids ∧
      (resizeV B P s n fresh).vec.status.length = (reserve B P s n fresh).vec.status.length ∧
      (resizeV B P s n fresh).owned = (reserve B P s n fresh).owned := by
  obtain ⟨r1, r2, r3, r4, r5, r6, r7⟩ := reserve_inv h hf hc hid
  unfold resizeV
  by_cases hlt : n < (reserve B P s n fresh).vec.size
  · simp only [hlt, if_true]
    -- first forget the elements, then evict
    have hfor : Inv B P { reserve B P s n fresh with vec := { (reserve B P s n fresh).vec with size := n } }
        (absResize abs n) :=
      setSize_inv r1 r2 (absResize_length _ _) (fun i v hi => (absResize_some hi).1)
    have hPB : 0 < B * P := Nat.mul_pos h.hB h.hP
    have hno : ∀ j v, (absResize abs n)[j]? = some (some v) → j / B / P < divCeil n (B * P) := by
      intro j v hj
      have hjn := (absResize_some hj).2
      rw [lt_divCeil_iff hPB, Nat.div_div_eq_div_mul]
      have := Nat.div_mul_le_self j (B * P)
      omega
    have hev := evictLoop_inv (abs := absResize abs n)
      ((reserve B P s n fresh).vec.status.length - divCeil n (B * P)) _ (divCeil n (B * P)) hfor hno
    have hcomm : ∀ (k i : Nat) (t : Sys α), evictLoop { t with vec := { t.vec with size := n } } k i =
        { evictLoop t k i with vec := { (evictLoop t k i).vec with size := n } } := by
      intro k
      induction k with
      | zero => intro i t; rfl
      | succ k ihk =>
        intro i t
        simp only [evictLoop]
        rw [← ihk]
        congr 1
        cases t.vec.p2s[i]? with
        | none => rfl
        | some m => cases m <;> rfl
    rw [hcomm] at hev
    obtain ⟨e1, e2⟩ := hev
    refine ⟨e1, ?_, ?_, ?_, ?_, ?_⟩
    · exact e2.npages.trans r4
    · intro hx
      have hb := e2.bids
      have hff := e2.fromFile
      simp only at hb hff hx ⊢
      rw [hb]
      exact r6 (hff ▸ hx)
    · exact e2.bids
    · exact e2.slen
    · exact e2.owned
  · simp only [hlt, if_false]
    exact ⟨setSize_inv r1 r2 (absResize_length _ _) (fun i v hi => (absResize_some hi).1), r4, r6, (by trivial), (by trivial), (by trivial)⟩

theorem absResize_succ_set (abs : List (Option α)) (v : α) :
    (absResize abs (abs.length + 1)).set abs.length (some v) = abs ++ [some v] := by
  simp only [absResize]
  rw [List.take_of_length_le (by omega)]
  simp

theorem pushBack_inv {s : Sys α} {abs} (h : Inv B P s abs) (v : α) {victim : Nat} {fresh : List Nat}
    (hv : victim < s.vec.npages) (hf : FreshOk B s (s.vec.size + 1) fresh) (hc : NoCut B P s (s.vec.size + 1))
    (hid : FileIds s) :
    ∃ s', pushBack B P s v victim fresh = some s' ∧ Inv B P s' (abs ++ [some v]) ∧ FileIds s' ∧
      s'.vec.bids = (reserve B P s (s.vec.size + 1) fresh).vec.bids ∧
      s'.vec.status.length = (reserve B P s (s.vec.size + 1) fresh).vec.status.length ∧
      s'.owned = (reserve B P s (s.vec.size + 1) fresh).owned := by
  obtain ⟨r1, r2, r3, r4, r5, r6⟩ := resizeV_inv h hf hc hid
  obtain ⟨s', w1, w2, w3⟩ := elementWrite_inv r1 v (i := s.vec.size) (victim := victim)
    (by rw [← r1.len, absResize_length]; omega) (by rw [r2]; exact hv)
  refine ⟨s', w1, ?_, ?_, w3.bids.trans r4, w3.slen.trans r5, w3.owned.trans r6⟩
  · have := absResize_succ_set abs v
    rw [h.len] at this
    rw [← this]; exact w2
  · intro hx
    rw [w3.bids]; exact r3 (by rw [← w3.fromFile]; exact hx)

theorem popBack_inv {s : Sys α} {abs} (h : Inv B P s abs) (hid : FileIds s) :
    Inv B P (popBack B P s) abs.dropLast ∧ (popBack B P s).vec.npages = s.vec.npages ∧ FileIds (popBack B P s) ∧
      (popBack B P s).vec.bids = s.vec.bids ∧ (popBack B P s).vec.status.length = s.vec.status.length ∧
      (popBack B P s).owned = s.owned := by
  have hle : ¬ capacity B s.vec < s.vec.size - 1 := by have := h.cap; simp only [capacity]; omega
  obtain ⟨r1, r2, r3, r4, r5, r6⟩ := resizeV_inv h (n := s.vec.size - 1) (fresh := [])
    (fun hx => absurd hx hle) (fun hx => absurd hx hle) hid
  have he : reserve B P s (s.vec.size - 1) [] = s := by
    unfold reserve; rw [if_pos (by omega)]
  rw [he] at r4 r5 r6
  refine ⟨?_, r2, r3, r4, r5, r6⟩
  have : absResize abs (s.vec.size - 1) = abs.dropLast := by
    rw [← h.len, absResize, List.dropLast_eq_take]
    have : abs.length - 1 - abs.length = 0 := by omega
    rw [this]; simp
  rw [← this]; exact r1

/-! ## resize(n, true) -/

theorem resizeShrink_inv {s : Sys α} {abs} (h : Inv B P s abs) {n : Nat} {fresh : List Nat}
    (hf : FreshOk B s n fresh) (hc : NoCut B P s n) (hid : FileIds s) :
    Inv B P (resizeShrink B P s n fresh) (absResize abs n) ∧
      (resizeShrink B P s n fresh).vec.npages = s.vec.npages ∧ FileIds (resizeShrink B P s n fresh) := by
  unfold resizeShrink
  by_cases h1 : divCeil n B > s.vec.bids.length
  · simp only [h1, if_true]
    obtain ⟨r1, r2, r3, r4, r5, r6, _⟩ := reserve_inv h hf hc hid
    exact ⟨setSize_inv r1 r2 (absResize_length _ _) (fun i v hi => (absResize_some hi).1), r4, r6⟩
  · simp only [h1, if_false]
    have hcap : n ≤ s.vec.bids.length * B := (divCeil_le_iff h.hB).1 (by omega)
    by_cases h2 : divCeil n B < s.vec.bids.length
    · simp only [h2, if_true]
      have hnp : divCeil (divCeil n B) P ≤ s.vec.status.length := by
        rw [divCeil_le_iff h.hP]
        have := h.pages; omega
      -- content and tables
      have hst : ∀ p : Nat, (s.vec.status.take (divCeil (divCeil n B) P) ++
          List.replicate (s.vec.status.length - divCeil (divCeil n B) P) Status.valid)[p]? =
          if p < divCeil (divCeil n B) P then s.vec.status[p]?
          else if p < s.vec.status.length then some .valid else none := by
        intro p
        rw [List.getElem?_append]
        have hl : (s.vec.status.take (divCeil (divCeil n B) P)).length = divCeil (divCeil n B) P := by simp; omega
        rw [hl]
        by_cases hp : p < divCeil (divCeil n B) P
        · simp [hp]
        · simp only [hp, if_false, List.getElem?_replicate]
          by_cases hp2 : p < s.vec.status.length
          · rw [if_pos (by omega), if_pos hp2]
          · rw [if_neg (by omega), if_neg hp2]
      have main : ∀ owned fb, Inv B P { s with
          vec := { s.vec with
            bids := s.vec.bids.take (divCeil n B)
            status := s.vec.status.take (divCeil (divCeil n B) P) ++
              List.replicate (s.vec.status.length - divCeil (divCeil n B) P) Status.valid
            size := n }
          owned := owned, fileBlocks := fb } (absResize abs n) := by
        intro owned fb
        have hlb : (s.vec.bids.take (divCeil n B)).length = divCeil n B := by simp; omega
        refine ⟨h.hB, h.hP, h.np, absResize_length _ _, ?_, h.nod.sublist (List.take_sublist _ _), ?_, ?_, h.map,
          h.freeLt, h.freeNd, h.slots, ?_, ?_⟩
        · simp only [hlb]; exact divCeil_le_mul n h.hB
        · simp only [List.length_append, List.length_take, List.length_replicate]
          have := h.lens; omega
        · simp only [hlb, List.length_append, List.length_take, List.length_replicate]
          have e : min (divCeil (divCeil n B) P) s.vec.status.length +
              (s.vec.status.length - divCeil (divCeil n B) P) = s.vec.status.length := by omega
          rw [e]
          have := h.pages; omega
        · intro p hp
          simp only [hst] at hp
          split at hp
          · rename_i hlt
            obtain ⟨h3, _⟩ := h.dirtyC p hp
            refine ⟨h3, ?_⟩
            simp only [hlb]
            exact (lt_divCeil_iff h.hP).1 hlt
          · split at hp <;> simp at hp
        · intro i v hi
          obtain ⟨hi1, hi2⟩ := absResize_some hi
          obtain ⟨st, c1, c2, c3, c4⟩ := h.content i v hi1
          have hk : i / B < divCeil n B := by
            rw [lt_divCeil_iff h.hB]; have := Nat.div_mul_le_self i B; omega
          have hpg : i / B / P < divCeil (divCeil n B) P := by
            rw [lt_divCeil_iff h.hP]; have := Nat.div_mul_le_self (i / B) P; omega
          refine ⟨st, ?_, c2, c3, fun hv b hb => c4 hv b ?_⟩
          · simp only [hst]; rw [if_pos hpg]; exact c1
          · simp only [List.getElem?_take, hk, if_true] at hb; exact hb
      have hids : ∀ x : Sys α, x.vec.fromFile = s.vec.fromFile → x.vec.bids = s.vec.bids.take (divCeil n B) →
          FileIds x := by
        intro x h1 h2 hx
        have := hid (h1 ▸ hx)
        rw [h2, List.length_take]
        conv => lhs; rw [this]
        rw [List.take_range]
      by_cases hff : s.vec.fromFile = true
      · simp only [hff, if_true]
        refine ⟨?_, (by trivial), hids _ (by simp [hff]) rfl⟩
        have := main s.owned (divCeil n B)
        simpa only [hff] using this
      · have hff' : s.vec.fromFile = false := by simpa using hff
        simp only [hff', Bool.false_eq_true, if_false]
        refine ⟨?_, (by trivial), hids _ (by simp [hff']) rfl⟩
        have := main (release s.owned (s.vec.bids.drop s.vec.bids.length)) s.fileBlocks
        simpa only [hff'] using this
    · simp only [h2, if_false]
      exact ⟨setSize_inv h hcap (absResize_length _ _) (fun i v hi => (absResize_some hi).1), (by trivial), hid⟩

/-! ## clear -/

theorem clear_inv {s : Sys α} {abs} (h : Inv B P s abs) : Inv B P (clear s) [] := by
  refine ⟨h.hB, h.hP, h.np, rfl, Nat.zero_le _, List.nodup_nil, rfl, Nat.zero_le _, by simp [clear], by simp [clear],
    List.nodup_range, ?_, by simp [clear], by simp⟩
  intro t ht
  left; simpa [clear] using ht

/-! ## flush -/

/-- Replace the free list (used to relate the loop's partial free list with the logical one). -/
def withFree (s : Sys α) (f : List Nat) : Sys α := { s with vec := { s.vec with free := f } }

theorem writePage_withFree (s : Sys α) (f : List Nat) (page slot : Nat) :
    writePage P (withFree s f) page slot = (writePage P s page slot).map (withFree · f) := by
  unfold writePage withFree
  simp only
  cases s.vec.status[page]? with
  | none => rfl
  | some st =>
    simp only
    split
    · rfl
    · split <;> rfl

theorem flushLoop_inv {abs : List (Option α)} (nonFree : Nat → Bool) (orig : List Nat)
    (hnf : ∀ i, nonFree i = !orig.contains i) (k : Nat) :
    ∀ (s : Sys α) (i : Nat), s.vec.free = List.range i → i + k = s.vec.npages →
      Inv B P (withFree s (List.range i ++ orig.filter (fun t => decide (i ≤ t)))) abs →
      (∀ p t : Nat, s.vec.p2s[p]? = some (some t) → i ≤ t) →
      ∃ s', flushLoop P nonFree s k i = some s' ∧ Inv B P s' abs ∧ Same s s' ∧
        (∀ p t : Nat, s'.vec.p2s[p]? ≠ some (some t)) := by
  induction k with
  | zero =>
    intro s i hfree hik hinv hmap
    refine ⟨s, rfl, ?_, Same.refl s, ?_⟩
    · have hnil : orig.filter (fun t => decide (i ≤ t)) = [] := by
        rw [List.filter_eq_nil_iff]
        intro t ht
        by_cases hle : i ≤ t
        · have := hinv.freeLt t (by simp [withFree, ht, hle])
          simp only [withFree] at this; omega
        · simpa using hle
      rw [hnil, List.append_nil, ← hfree] at hinv
      exact hinv
    · intro p t hp
      have h1 := hmap p t hp
      have h2 := (hinv.map p t hp).1
      simp only [withFree] at h2; omega
  | succ k ih =>
    intro s i hfree hik hinv hmap
    have hin : i < s.vec.npages := by omega
    simp only [flushLoop]
    have hfree1 : s.vec.free ++ [i] = List.range (i + 1) := by rw [hfree, List.range_succ]
    by_cases hf : nonFree i = true
    · -- occupied slot
      simp only [hf, if_true]
      have hnot : i ∉ orig := by rw [hnf] at hf; simpa using hf
      have hsl : s.vec.p2s[s.vec.s2p i]? = some (some i) := by
        rcases hinv.slots i hin with h1 | h1
        · simp [withFree, hnot] at h1
        · exact h1
      obtain ⟨sw, w1, w2, w3, w4, w5, w6, w7, w8, w9⟩ := writePage_inv hinv (page := s.vec.s2p i) (slot := i) hsl
      have hw : writePage P ({ s with vec := { s.vec with free := s.vec.free ++ [i] } }) (s.vec.s2p i) i =
          some (withFree sw (List.range (i + 1))) := by
        have e : ({ s with vec := { s.vec with free := s.vec.free ++ [i] } } : Sys α) =
            withFree (withFree s (List.range i ++ orig.filter (fun t => decide (i ≤ t)))) (List.range (i + 1)) := by
          simp only [withFree, hfree1]
        rw [e, writePage_withFree, w1]; rfl
      rw [hw]
      have hp : s.vec.s2p i < (withFree sw (List.range (i + 1))).vec.p2s.length := by
        simp only [withFree, w5]; exact (List.getElem?_eq_some_iff.1 hsl).1
      simp only [hp, if_true]
      have hun := unmap_inv w2 (page := s.vec.s2p i) (slot := i) (by rw [w5]; exact hsl) w4
      have hperm : (sw.vec.free ++ [i]).Perm (List.range (i + 1) ++ orig.filter (fun t => decide (i + 1 ≤ t))) := by
        rw [w7]
        simp only [withFree, List.range_succ, List.append_assoc]
        refine List.Perm.append_left _ ?_
        have : orig.filter (fun t => decide (i ≤ t)) = orig.filter (fun t => decide (i + 1 ≤ t)) := by
          apply List.filter_congr
          intro t ht
          have : t ≠ i := by rintro rfl; exact hnot ht
          simp only [decide_eq_decide]; omega
        rw [this]
        exact List.perm_append_comm
      have hinv2 : Inv B P (withFree ({ withFree sw (List.range (i + 1)) with
            vec := { (withFree sw (List.range (i + 1))).vec with
              p2s := (withFree sw (List.range (i + 1))).vec.p2s.set (s.vec.s2p i) none } })
            (List.range (i + 1) ++ orig.filter (fun t => decide (i + 1 ≤ t)))) abs := by
        refine ⟨hun.hB, hun.hP, hun.np, hun.len, hun.cap, hun.nod, hun.lens, hun.pages, ?_, ?_, ?_, ?_, hun.dirtyC, hun.content⟩
        · intro p t hpt
          obtain ⟨a, b, c⟩ := hun.map p t hpt
          exact ⟨a, b, fun hx => c (hperm.mem_iff.2 hx)⟩
        · intro t ht; exact hun.freeLt t (hperm.mem_iff.2 ht)
        · exact hperm.nodup_iff.1 hun.freeNd
        · intro t ht
          rcases hun.slots t ht with h1 | h1
          · exact .inl (hperm.mem_iff.1 h1)
          · exact .inr h1
      obtain ⟨s', r1, r2, r3, r4⟩ := ih ({ withFree sw (List.range (i + 1)) with
            vec := { (withFree sw (List.range (i + 1))).vec with
              p2s := (withFree sw (List.range (i + 1))).vec.p2s.set (s.vec.s2p i) none } }) (i + 1) rfl
        (by have := w3.npages; simp only [withFree] at this ⊢; omega) hinv2 (by
          intro p t hpt
          simp only [withFree, w5, List.getElem?_set] at hpt
          by_cases hpp : s.vec.s2p i = p
          · rw [if_pos hpp] at hpt; split at hpt <;> simp at hpt
          · rw [if_neg hpp] at hpt
            have h1 := hmap p t hpt
            have h2 := (hinv.map p t hpt).2.1
            have : t ≠ i := by rintro rfl; exact hpp h2
            omega)
      refine ⟨s', r1, r2, ?_, r4⟩
      have a : Same s sw := ⟨w3.size, w3.bids, w3.npages, w3.fromFile, w3.slen, w3.owned, w3.fileBlocks, w3.disk⟩
      exact a.trans ⟨r3.size, r3.bids, r3.npages, r3.fromFile, r3.slen, r3.owned, r3.fileBlocks, r3.disk⟩
    · simp only [hf, if_false]
      have hin' : i ∈ orig := by
        have : nonFree i = false := by simpa using hf
        rw [hnf] at this; simpa using this
      have hnd := hinv.freeNd
      simp only [withFree] at hnd
      have hperm : (List.range i ++ orig.filter (fun t => decide (i ≤ t))).Perm
          (List.range (i + 1) ++ orig.filter (fun t => decide (i + 1 ≤ t))) := by
        have hndf : (orig.filter (fun t => decide (i ≤ t))).Nodup := (List.nodup_append.1 hnd).2.1
        rw [List.range_succ, List.append_assoc]
        refine List.Perm.append_left _ ?_
        have hmem : i ∈ orig.filter (fun t => decide (i ≤ t)) := by simp [hin']
        refine (List.perm_cons_erase hmem).trans ?_
        rw [List.singleton_append]
        refine List.Perm.cons _ (List.Perm.of_eq ?_)
        rw [hndf.erase_eq_filter, List.filter_filter]
        apply List.filter_congr
        intro t _
        by_cases ht : t = i
        · subst ht; simp
        · have : (decide (i ≤ t)) = (decide (i + 1 ≤ t)) := by rw [decide_eq_decide]; omega
          simp [ht, this]
      have hinv2 : Inv B P (withFree ({ s with vec := { s.vec with free := s.vec.free ++ [i] } })
            (List.range (i + 1) ++ orig.filter (fun t => decide (i + 1 ≤ t)))) abs := by
        refine ⟨hinv.hB, hinv.hP, hinv.np, hinv.len, hinv.cap, hinv.nod, hinv.lens, hinv.pages, ?_, ?_, ?_, ?_, hinv.dirtyC, hinv.content⟩
        · intro p t hpt
          obtain ⟨a, b, c⟩ := hinv.map p t hpt
          exact ⟨a, b, fun hx => c (hperm.mem_iff.2 hx)⟩
        · intro t ht; exact hinv.freeLt t (hperm.mem_iff.2 ht)
        · exact hperm.nodup_iff.1 hinv.freeNd
        · intro t ht
          rcases hinv.slots t ht with h1 | h1
          · exact .inl (hperm.mem_iff.1 h1)
          · exact .inr h1
      obtain ⟨s', r1, r2, r3, r4⟩ := ih ({ s with vec := { s.vec with free := s.vec.free ++ [i] } }) (i + 1) hfree1
        (by show i + 1 + k = s.vec.npages; omega) hinv2 (by
          intro p t hpt
          have h1 := hmap p t hpt
          have h2 := (hinv.map p t hpt).2.2
          have : t ≠ i := by rintro rfl; exact h2 (by simp [withFree, hin'])
          omega)
      exact ⟨s', r1, r2, ⟨r3.size, r3.bids, r3.npages, r3.fromFile, r3.slen, r3.owned, r3.fileBlocks, r3.disk⟩, r4⟩

theorem flush_inv {s : Sys α} {abs} (h : Inv B P s abs) :
    ∃ s', flush P s = some s' ∧ Inv B P s' abs ∧ Same s s' ∧ (∀ p t : Nat, s'.vec.p2s[p]? ≠ some (some t)) := by
  obtain ⟨s', h1, h2, h3, h4⟩ := flushLoop_inv (B := B) (P := P) (abs := abs) (fun i => !s.vec.free.contains i) s.vec.free
    (fun _ => rfl) s.vec.npages (withFree s []) 0 rfl (by simp [withFree])
    (by
      have e : s.vec.free.filter (fun t => decide (0 ≤ t)) = s.vec.free := by
        rw [List.filter_eq_self]; simp
      rw [e]; exact h) (by intros; exact Nat.zero_le _)
  exact ⟨s', h1, h2, ⟨h3.size, h3.bids, h3.npages, h3.fromFile, h3.slen, h3.owned, h3.fileBlocks, h3.disk⟩, h4⟩

/-! ## external updates -/

/-- Elements of block `k` get the values written to the block. -/
def absBlock (B : Nat) (abs : List (Option α)) (k : Nat) (c : Nat → α) : List (Option α) :=
  abs.mapIdx (fun i a => if i / B = k then some (c (i % B)) else a)

theorem externalWrite_inv {s : Sys α} {abs} (h : Inv B P s abs) {k : Nat} (c : Nat → α)
    (hk : k < s.vec.bids.length) (hclean : s.vec.status[k / P]? ≠ some .dirty) :
    ∃ s', externalWrite B P s k c = some s' ∧ Inv B P s' (absBlock B abs k c) ∧ Same s s' := by
  have hb := List.getElem?_eq_getElem hk
  have hpg : (k * B) / (B * P) = k / P := by
    rw [Nat.mul_comm k B, Nat.mul_div_mul_left _ _ h.hB]
  have hlt : k / P < s.vec.status.length := h.page_lt hk
  have hlt' : k / P < s.vec.p2s.length := by rw [← h.lens]; exact hlt
  obtain ⟨st, hst⟩ : ∃ st, s.vec.status[k / P]? = some st := ⟨_, List.getElem?_eq_getElem hlt⟩
  obtain ⟨m, hm⟩ : ∃ m, s.vec.p2s[k / P]? = some m := ⟨_, List.getElem?_eq_getElem hlt'⟩
  have hnd : st ≠ .dirty := by rintro rfl; exact hclean hst
  -- first drop the page from the cache
  have base : ∃ s1 : Sys α, Inv B P s1 abs ∧ s1.vec.p2s[k / P]? = some none ∧
      s1.vec.status = s.vec.status ∧ s1.vec.bids = s.vec.bids ∧ s1.disk = s.disk ∧
      Same s s1 ∧
      externalWrite B P s k c = some { s1 with
        disk := upd s1.disk s.vec.bids[k] c, vec := { s1.vec with status := s1.vec.status.set (k / P) .valid } } := by
    cases m with
    | none =>
      refine ⟨s, h, hm, rfl, rfl, rfl, Same.refl s, ?_⟩
      simp only [externalWrite, hb, pageExternallyUpdated, hpg, hst, hm, hnd, if_false]
    | some slot =>
      refine ⟨_, unmap_inv h hm hclean, by simp [hlt'], rfl, rfl, rfl,
        ⟨rfl, rfl, rfl, rfl, rfl, rfl, rfl, fun _ _ => rfl⟩, ?_⟩
      simp only [externalWrite, hb, pageExternallyUpdated, hpg, hst, hm, hnd, if_false]
  obtain ⟨s1, b1, b2, b3, b4, b5, b6, b7⟩ := base
  refine ⟨_, b7, ?_, ?_⟩
  · refine ⟨b1.hB, b1.hP, b1.np, by simpa [absBlock] using b1.len, b1.cap, b1.nod, by simpa using b1.lens,
      by simpa using b1.pages, b1.map, b1.freeLt, b1.freeNd, b1.slots, ?_, ?_⟩
    · intro p hp
      simp only [List.getElem?_set] at hp
      by_cases hpp : k / P = p
      · rw [if_pos hpp] at hp; split at hp <;> simp at hp
      · rw [if_neg hpp] at hp; exact b1.dirtyC p hp
    · intro i v hi
      simp only [absBlock, List.getElem?_mapIdx, Option.map_eq_some_iff] at hi
      obtain ⟨a, ha, hav⟩ := hi
      have hil : i < s1.vec.size := by rw [← b1.len]; exact (List.getElem?_eq_some_iff.1 ha).1
      simp only [List.getElem?_set]
      by_cases hik : i / B = k
      · rw [if_pos hik] at hav
        cases hav
        refine ⟨.valid, by rw [if_pos (by rw [hik]), if_pos (by rw [b3]; exact hlt)], by simp, ?_, fun _ b hb' => ?_⟩
        · intro t ht; rw [hik, b2] at ht; simp at ht
        · rw [hik, b4, hb] at hb'; cases hb'
          rw [upd_same]
      · rw [if_neg hik] at hav
        subst hav
        obtain ⟨st', c1, c2, c3, c4⟩ := b1.content i v ha
        have hdisk : ∀ b, s1.vec.bids[i / B]? = some b → upd s1.disk s.vec.bids[k] c b = s1.disk b := by
          intro b hb'
          apply upd_ne
          rintro rfl
          rw [b4] at hb'
          exact hik (nodup_get_inj h.nod hb' hb)
        by_cases hp : k / P = i / B / P
        · have hv : st' = .valid := by
            rw [← hp, b3, hst] at c1
            cases c1
            cases st <;> simp_all
          refine ⟨.valid, by rw [if_pos hp, if_pos (by rw [b3]; exact hlt)], by simp, c3, fun _ b hb' => ?_⟩
          rw [hdisk b hb']; exact c4 hv b hb'
        · refine ⟨st', by rw [if_neg hp]; exact c1, c2, c3, fun hv b hb' => ?_⟩
          rw [hdisk b hb']; exact c4 hv b hb'
  · refine b6.trans ⟨rfl, rfl, rfl, rfl, by simp, rfl, rfl, fun b hb' => ?_⟩
    refine upd_ne _ _ ?_
    rintro rfl
    exact hb' (by rw [b4]; exact List.getElem_mem hk)

/-! ## constructors -/

theorem initSlots (npages : Nat) : ∀ t ∈ List.range npages, t < npages := fun _ h => List.mem_range.1 h

theorem newVec_inv (hB : 0 < B) (hP : 0 < P) {n npages : Nat} (hnp : 0 < npages) {fresh : List Nat}
    (hl : fresh.length = divCeil n B) (hnd : fresh.Nodup) (s2p cache) (disk : Nat → Nat → α) :
    Inv B P (newVec B P n npages fresh s2p cache disk) (List.replicate n none) := by
  refine ⟨hB, hP, hnp, by simp [newVec], ?_, hnd, by simp [newVec], ?_, ?_, initSlots npages, List.nodup_range, ?_, ?_, ?_⟩
  · simp only [newVec, hl]; exact divCeil_le_mul n hB
  · simp only [newVec, hl, List.length_replicate]; exact divCeil_le_mul _ hP
  · intro p t hp; simp [newVec, List.getElem?_replicate] at hp
  · intro t ht; exact .inl (by simpa [newVec] using ht)
  · intro p hp; simp [newVec, List.getElem?_replicate] at hp
  · intro i v hi; simp [List.getElem?_replicate] at hi

/-- The elements stored in blocks `bids` on disk. -/
def diskElems (B : Nat) (bids : List Nat) (disk : Nat → Nat → α) (n : Nat) : List (Option α) :=
  (List.range n).map (fun i => (bids[i / B]?).map (fun b => disk b (i % B)))

theorem opened_inv (hB : 0 < B) (hP : 0 < P) {n npages : Nat} (hnp : 0 < npages) {bids : List Nat}
    (hl : bids.length = divCeil n B) (hnd : bids.Nodup) (s2p cache) (disk : Nat → Nat → α) (ff : Bool) (owned fb) :
    Inv B P
      { vec := { size := n, bids := bids
                 status := List.replicate (divCeil (divCeil n B) P) .valid
                 p2s := List.replicate (divCeil (divCeil n B) P) none
                 s2p := s2p, free := List.range npages, cache := cache, npages := npages, fromFile := ff }
        disk := disk, owned := owned, fileBlocks := fb } (diskElems B bids disk n) := by
  refine ⟨hB, hP, hnp, by simp [diskElems], ?_, hnd, by simp, ?_, ?_, initSlots npages, List.nodup_range, ?_, ?_, ?_⟩
  · simp only [hl]; exact divCeil_le_mul n hB
  · simp only [hl, List.length_replicate]; exact divCeil_le_mul _ hP
  · intro p t hp; simp [List.getElem?_replicate] at hp
  · intro t ht; exact .inl (by simpa using ht)
  · intro p hp; simp [List.getElem?_replicate] at hp
  · intro i v hi
    simp only [diskElems, List.getElem?_map, Option.map_eq_some_iff] at hi
    obtain ⟨j, hj, b, hb, hv⟩ := hi
    obtain ⟨hjn, rfl⟩ := List.getElem?_eq_some_iff.1 hj
    simp at hb hv hjn
    have hk : i / B < divCeil n B := by rw [← hl]; exact (List.getElem?_eq_some_iff.1 hb).1
    have hpg : i / B / P < divCeil (divCeil n B) P := by
      rw [lt_divCeil_iff hP]; have := Nat.div_mul_le_self (i / B) P; omega
    refine ⟨.valid, by simp [hpg], by simp, ?_, fun _ b' hb' => ?_⟩
    · intro t ht; simp [List.getElem?_replicate] at ht
    · simp only at hb'
      rw [hb] at hb'; cases hb'; exact hv

end Stxxl.ExtVector
