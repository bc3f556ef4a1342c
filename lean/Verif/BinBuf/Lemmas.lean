import Verif.BinBuf.Model

/-! # Lemmas for C21 and C22 -/

namespace Stxxl.BinBuf

/-! ## Specification of varints -/

/-- The number denoted by a little-endian base-128 string: seven bits per byte. -/
def leb : List Nat → Nat
  | [] => 0
  | b :: bs => b % 128 + 128 * leb bs

/-- A well-formed varint of at most `n + 1` bytes: all bytes but the last have the continuation bit (are `≥ 128`), the last has not, and if all
`n + 1` bytes are used the last one has only `r` bits. -/
def Varint (r : Nat) : Nat → List Nat → Prop
  | _, [] => False
  | 0, b :: bs => b < 2 ^ r ∧ bs = []
  | n + 1, b :: bs => if b < 128 then bs = [] else Varint r n bs

/-! ## Writer -/

theorem growTo_ge (s n : Nat) : n ≤ Buf.growTo s n := by
  fun_induction Buf.growTo s n with
  | case1 s h ih => exact ih
  | case2 s h => omega

theorem dynalloc_spec (b : Buf) (n : Nat) (h : b.size ≤ b.cap) :
    n ≤ (b.dynalloc n).cap ∧ (b.dynalloc n).size = b.size ∧ (b.dynalloc n).str = b.str ∧ b.cap ≤ (b.dynalloc n).cap := by
  unfold Buf.dynalloc Buf.alloc
  have := growTo_ge b.cap n
  unfold Buf.cap at *
  split
  · split
    · refine ⟨by simp; omega, rfl, ?_, by simp⟩
      simp only [Buf.str]
      rw [List.take_append_of_le_length h]
    · omega
  · exact ⟨by omega, rfl, rfl, Nat.le_refl _⟩

theorem copyIn_spec {b : Buf} {data : List Nat} (h : b.size + data.length ≤ b.cap) :
    ∃ b', b.putAt data = some b' ∧ b'.size ≤ b'.cap ∧ b'.str = b.str ++ data := by
  unfold Buf.putAt Buf.copyIn
  rw [if_pos h]
  unfold Buf.cap at *
  refine ⟨_, rfl, ?_, ?_⟩
  · simp; omega
  · simp only [Buf.str]
    rw [List.take_append_of_le_length (by simp; omega), List.take_of_length_le (by simp; omega)]

theorem append_spec {b : Buf} (h : b.size ≤ b.cap) (data : List Nat) :
    ∃ b', b.append data = some b' ∧ b'.size ≤ b'.cap ∧ b'.str = b.str ++ data := by
  unfold Buf.append
  obtain ⟨h1, h2, h3, _⟩ := dynalloc_spec b (b.size + data.length) h
  split
  · obtain ⟨b', e, a1, a2⟩ := copyIn_spec (b := b.dynalloc (b.size + data.length)) (data := data) (by omega)
    exact ⟨b', e, a1, by rw [a2, h3]⟩
  · exact copyIn_spec (by omega)

theorem putBytes_spec {b : Buf} (h : b.size ≤ b.cap) (l : List Nat) :
    ∃ b', b.putBytes l = some b' ∧ b'.size ≤ b'.cap ∧ b'.str = b.str ++ l := by
  induction l generalizing b with
  | nil => exact ⟨b, rfl, h, by simp⟩
  | cons x xs ih =>
    obtain ⟨b1, e1, a1, a2⟩ := append_spec h [x]
    obtain ⟨b2, e2, c1, c2⟩ := ih a1
    exact ⟨b2, by simp [Buf.putBytes, e1, e2], c1, by rw [c2, a2]; simp⟩

theorem align_spec {b : Buf} (h : b.size ≤ b.cap) {n : Nat} (hn : 0 < n) :
    ∃ b', b.align n = some b' ∧ b'.size ≤ b'.cap ∧ ∃ k, k < n ∧ b'.str = b.str ++ List.replicate k 0 ∧ (b.size + k) % n = 0 := by
  unfold Buf.align
  dsimp only
  have hm := Nat.mod_lt b.size hn
  split
  · next hr =>
    have hd := Nat.div_add_mod b.size n
    have hz : (b.size + (n - b.size % n)) % n = 0 := by
      have : b.size + (n - b.size % n) = n * (b.size / n + 1) := by rw [Nat.mul_add, Nat.mul_one]; omega
      rw [this]; exact Nat.mul_mod_right _ _
    obtain ⟨h1, h2, h3, _⟩ := dynalloc_spec b (b.size + (n - b.size % n)) h
    split
    · obtain ⟨b', e, a1, a2⟩ := copyIn_spec (b := b.dynalloc (b.size + (n - b.size % n))) (data := List.replicate (n - b.size % n) 0)
        (by simp; omega)
      exact ⟨b', e, a1, _, by omega, by rw [a2, h3], hz⟩
    · obtain ⟨b', e, a1, a2⟩ := copyIn_spec (b := b) (data := List.replicate (n - b.size % n) 0) (by simp; omega)
      exact ⟨b', e, a1, _, by omega, a2, hz⟩
  · exact ⟨b, rfl, h, 0, hn, by simp, by simp; omega⟩

theorem assign_spec (b : Buf) (data : List Nat) : ∃ b', b.assign data = some b' ∧ b'.size ≤ b'.cap ∧ b'.str = data := by
  unfold Buf.assign Buf.copyIn Buf.alloc
  have hc : data.length ≤ (if b.cap < data.length then (if b.cap < data.length then { b with mem := b.mem ++ List.replicate (data.length - b.cap) 0 } else b) else b).cap := by
    unfold Buf.cap; split
    · simp; omega
    · omega
  generalize (if b.cap < data.length then (if b.cap < data.length then ({ b with mem := b.mem ++ List.replicate (data.length - b.cap) 0 } : Buf) else b) else b) = b1 at *
  rw [if_pos (by omega)]
  refine ⟨_, rfl, ?_, ?_⟩
  · unfold Buf.cap at *; simp
  · simp [Buf.str]

theorem str_length {b : Buf} (h : b.size ≤ b.cap) : b.str.length = b.size := by
  simp only [Buf.str, List.length_take]; unfold Buf.cap at h; omega

/-! ## Bit operations -/

set_option maxRecDepth 20000 in
theorem or128 : ∀ x : Fin 128, x.val ||| 0x80 = x.val + 128 := by decide
set_option maxRecDepth 20000 in
theorem and80 : ∀ u : Fin 256, (u.val &&& 0x80 = 0 ↔ u.val < 128) := by decide
set_option maxRecDepth 20000 in
theorem andF0 : ∀ u : Fin 256, (u.val &&& 0xF0 = 0 ↔ u.val < 2 ^ 4) := by decide
set_option maxRecDepth 20000 in
theorem andFE : ∀ u : Fin 256, (u.val &&& 0xFE = 0 ↔ u.val < 2 ^ 1) := by decide

theorem and7F (x : Nat) : x &&& 0x7F = x % 128 := Nat.and_two_pow_sub_one_eq_mod x 7

theorem hi_eq (v k : Nat) : Buf.hi v k = v / 2 ^ k % 128 := by rw [Buf.hi, and7F, Nat.shiftRight_eq_div_pow]
theorem lo_eq (v k : Nat) : Buf.lo v k = v / 2 ^ k % 128 + 128 := by
  rw [Buf.lo, and7F, Nat.shiftRight_eq_div_pow]
  exact or128 ⟨_, Nat.mod_lt _ (by decide)⟩

theorem orIn_eq {W v u s k : Nat} (hv : v < 2 ^ s) (hu : u % 128 < 2 ^ k) (hW : s + k ≤ W) : orIn W v u s = v + u % 128 * 2 ^ s := by
  unfold orIn
  rw [and7F, Nat.shiftLeft_eq]
  have h1 : u % 128 * 2 ^ s < 2 ^ W := by
    calc u % 128 * 2 ^ s < 2 ^ k * 2 ^ s := Nat.mul_lt_mul_of_pos_right hu (Nat.two_pow_pos s)
      _ = 2 ^ (k + s) := (Nat.pow_add 2 k s).symm
      _ ≤ 2 ^ W := Nat.pow_le_pow_right (by decide) (by omega)
  rw [Nat.mod_eq_of_lt h1, ← Nat.shiftLeft_eq, Nat.or_comm, ← Nat.shiftLeft_add_eq_or_of_lt hv, Nat.add_comm]

theorem leb_lo {v k : Nat} {t : List Nat} (h : leb t = v / 2 ^ (k + 7)) : leb (Buf.lo v k :: t) = v / 2 ^ k := by
  rw [leb, lo_eq, h, Nat.pow_add, ← Nat.div_div_eq_div_mul]
  omega
theorem leb_hi {v k : Nat} (h : v / 2 ^ k < 128) : leb [Buf.hi v k] = v / 2 ^ k := by
  rw [leb, hi_eq, leb, Nat.mod_eq_of_lt h, Nat.mod_eq_of_lt h, Nat.mul_zero, Nat.add_zero]
theorem wf_lo {r n v k : Nat} {t : List Nat} (h : Varint r n t) : Varint r (n + 1) (Buf.lo v k :: t) := by
  rw [Varint, lo_eq, if_neg (by omega)]; exact h
theorem wf_hi {r n v k : Nat} : Varint r (n + 1) [Buf.hi v k] := by
  rw [Varint, hi_eq, if_pos (by omega)]
theorem wf_last {r v k : Nat} (h : v / 2 ^ k < 2 ^ r) : Varint r 0 [Buf.hi v k] := by
  rw [Varint, hi_eq]; exact ⟨Nat.lt_of_le_of_lt (Nat.mod_le _ _) h, rfl⟩

theorem varint32_wf {v : Nat} (h : v < 2 ^ 32) : Varint 4 4 (Buf.varint32 v) ∧ leb (Buf.varint32 v) = v := by
  have h0 : ∀ l, leb l = v / 2 ^ 0 → leb l = v := fun l e => by simpa using e
  unfold Buf.varint32
  split
  · next hv => exact ⟨by simp [Varint, hv], by simp [leb]; omega⟩
  split
  · exact ⟨wf_lo wf_hi, h0 _ (leb_lo (leb_hi (by omega)))⟩
  split
  · exact ⟨wf_lo (wf_lo wf_hi), h0 _ (leb_lo (leb_lo (leb_hi (by omega))))⟩
  split
  · exact ⟨wf_lo (wf_lo (wf_lo wf_hi)), h0 _ (leb_lo (leb_lo (leb_lo (leb_hi (by omega)))))⟩
  · exact ⟨wf_lo (wf_lo (wf_lo (wf_lo (wf_last (by omega))))), h0 _ (leb_lo (leb_lo (leb_lo (leb_lo (leb_hi (by omega))))))⟩

theorem varint64_wf {v : Nat} (h : v < 2 ^ 64) : Varint 1 9 (Buf.varint64 v) ∧ leb (Buf.varint64 v) = v := by
  have h0 : ∀ l, leb l = v / 2 ^ 0 → leb l = v := fun l e => by simpa using e
  unfold Buf.varint64
  split
  · next hv => exact ⟨by simp [Varint, hv], by simp [leb]; omega⟩
  split
  · exact ⟨wf_lo wf_hi, h0 _ (leb_lo (leb_hi (by omega)))⟩
  split
  · exact ⟨wf_lo (wf_lo wf_hi), h0 _ (leb_lo (leb_lo (leb_hi (by omega))))⟩
  split
  · exact ⟨wf_lo (wf_lo (wf_lo wf_hi)), h0 _ (leb_lo (leb_lo (leb_lo (leb_hi (by omega)))))⟩
  split
  · exact ⟨wf_lo (wf_lo (wf_lo (wf_lo wf_hi))), h0 _ (leb_lo (leb_lo (leb_lo (leb_lo (leb_hi (by omega))))))⟩
  split
  · exact ⟨wf_lo (wf_lo (wf_lo (wf_lo (wf_lo wf_hi)))), h0 _ (leb_lo (leb_lo (leb_lo (leb_lo (leb_lo (leb_hi (by omega)))))))⟩
  split
  · exact ⟨wf_lo (wf_lo (wf_lo (wf_lo (wf_lo (wf_lo wf_hi))))), h0 _ (leb_lo (leb_lo (leb_lo (leb_lo (leb_lo (leb_lo (leb_hi (by omega))))))))⟩
  split
  · exact ⟨wf_lo (wf_lo (wf_lo (wf_lo (wf_lo (wf_lo (wf_lo wf_hi)))))),
      h0 _ (leb_lo (leb_lo (leb_lo (leb_lo (leb_lo (leb_lo (leb_lo (leb_hi (by omega)))))))))⟩
  split
  · exact ⟨wf_lo (wf_lo (wf_lo (wf_lo (wf_lo (wf_lo (wf_lo (wf_lo wf_hi))))))),
      h0 _ (leb_lo (leb_lo (leb_lo (leb_lo (leb_lo (leb_lo (leb_lo (leb_lo (leb_hi (by omega))))))))))⟩
  · exact ⟨wf_lo (wf_lo (wf_lo (wf_lo (wf_lo (wf_lo (wf_lo (wf_lo (wf_lo (wf_last (by omega)))))))))),
      h0 _ (leb_lo (leb_lo (leb_lo (leb_lo (leb_lo (leb_lo (leb_lo (leb_lo (leb_lo (leb_hi (by omega)))))))))))⟩

/-! ## Reader -/

/-- The decoding chain of `get_varint`/`get_varint64` after the first byte: `n` further optional bytes and a last one; `s` is the next shift. -/
def chain (W mask : Nat) : Nat → Nat → Nat → RM Nat
  | 0, s, v => RM.bind get8 fun u => if u &&& mask ≠ 0 then RM.throwOverflow else RM.pure (orIn W v u s)
  | n + 1, s, v => RM.bind get8 fun u => let v := orIn W v u s
      if u &&& 0x80 = 0 then RM.pure v else chain W mask n (s + 7) v

theorem getVarint_chain :
    getVarint = RM.bind get8 fun v => if v &&& 0x80 = 0 then RM.pure v else chain 32 0xF0 3 7 (v &&& 0x7F) := rfl
theorem getVarint64_chain :
    getVarint64 = RM.bind get8 fun v => if v &&& 0x80 = 0 then RM.pure v else chain 64 0xFE 8 7 (v &&& 0x7F) := rfl

/-- A buffer is made of bytes and has a size that a C++ object can have. -/
structure Bytes (d : List Nat) : Prop where
  byte : ∀ x ∈ d, x < 256
  size : d.length < 2 ^ 63

variable {d : List Nat} {c : Nat}

theorem get8_eq (hd : Bytes d) (hc : c ≤ d.length) :
    get8 d c = match d[c]? with | some u => (.ok u, c + 1) | none => (.underflow, c) := by
  have hs := hd.size
  unfold get8 RM.bind read available
  have hm : (c + 1) % 2 ^ 64 = c + 1 := Nat.mod_eq_of_lt (by omega)
  rw [hm]
  by_cases h : c < d.length
  · rw [if_pos (by simp; omega), if_pos (by omega), List.getElem?_eq_getElem h, List.drop_eq_getElem_cons h]
    rfl
  · rw [if_neg (by simp; omega), List.getElem?_eq_none (by omega)]

theorem drop_cons_of_get {u : Nat} (h : d[c]? = some u) : d.drop c = u :: d.drop (c + 1) := by
  obtain ⟨hl, rfl⟩ := List.getElem?_eq_some_iff.1 h
  exact List.drop_eq_getElem_cons hl

theorem mask80 (hd : Bytes d) {u : Nat} (h : d[c]? = some u) : u &&& 0x80 = 0 ↔ u < 128 :=
  and80 ⟨u, hd.byte u (List.mem_of_getElem? h)⟩

/-- One reader step. -/
theorem bind_get8 (hd : Bytes d) (hc : c ≤ d.length) {α : Type} (f : Nat → RM α) :
    (∃ u, d[c]? = some u ∧ d.drop c = u :: d.drop (c + 1) ∧ c < d.length ∧ RM.bind get8 f d c = f u d (c + 1)) ∨
    (d.drop c = [] ∧ RM.bind get8 f d c = (.underflow, c)) := by
  cases hg : d[c]? with
  | some u =>
    refine .inl ⟨u, rfl, drop_cons_of_get hg, (List.getElem?_eq_some_iff.1 hg).1, ?_⟩
    unfold RM.bind
    rw [get8_eq hd hc, hg]
  | none =>
    refine .inr ⟨List.drop_of_length_le (List.getElem?_eq_none_iff.1 hg), ?_⟩
    unfold RM.bind
    rw [get8_eq hd hc, hg]

/-- Outcomes of the chain. -/
theorem chain_spec {W mask r : Nat} (hr : r ≤ 7) (hmask : ∀ u : Fin 256, (u.val &&& mask = 0 ↔ u.val < 2 ^ r)) (hd : Bytes d)
    (n s v : Nat) (hv : v < 2 ^ s) (hW : s + 7 * n + r = W) (hc : c ≤ d.length) :
    (∃ bs, Varint r n bs ∧ bs <+: d.drop c ∧ chain W mask n s v d c = (.ok (v + leb bs * 2 ^ s), c + bs.length)) ∨
    ((¬ ∃ bs, Varint r n bs ∧ bs <+: d.drop c) ∧ ∃ c', c ≤ c' ∧ c' ≤ d.length ∧
      (chain W mask n s v d c = (.underflow, c') ∨ chain W mask n s v d c = (.overflow, c'))) := by
  induction n generalizing s v c with
  | zero =>
    unfold chain
    rcases bind_get8 hd hc (fun u => if u &&& mask ≠ 0 then RM.throwOverflow else RM.pure (orIn W v u s)) with ⟨u, hg, hdr, hlt, e⟩ | ⟨hdr, e⟩
    · have hm := hmask ⟨u, hd.byte u (List.mem_of_getElem? hg)⟩
      rw [e]
      by_cases hu : u < 2 ^ r
      · left
        have h128 : u < 128 := Nat.lt_of_lt_of_le hu (Nat.pow_le_pow_right (n := 2) (by decide) hr)
        refine ⟨[u], ⟨hu, rfl⟩, by rw [hdr]; exact ⟨_, rfl⟩, ?_⟩
        rw [if_neg (by simpa using hm.2 hu), orIn_eq (k := r) hv (by rw [Nat.mod_eq_of_lt h128]; exact hu) (by omega)]
        simp [RM.pure, leb]
      · right
        refine ⟨?_, c + 1, by omega, by omega, .inr ?_⟩
        · rintro ⟨bs, hb, hp⟩
          rw [hdr] at hp
          cases bs with
          | nil => exact hb
          | cons b bs => obtain ⟨rfl, _⟩ := List.cons_prefix_cons.1 hp; exact hu hb.1
        · rw [if_pos (fun h => hu (hm.1 h))]; rfl
    · right
      refine ⟨?_, c, Nat.le_refl _, hc, .inl e⟩
      rintro ⟨bs, hb, hp⟩
      rw [hdr, List.prefix_nil] at hp
      subst hp; exact hb
  | succ n ih =>
    unfold chain
    rcases bind_get8 hd hc (fun u => let v := orIn W v u s; if u &&& 0x80 = 0 then RM.pure v else chain W mask n (s + 7) v) with
      ⟨u, hg, hdr, hlt, e⟩ | ⟨hdr, e⟩
    · have hm := mask80 hd hg
      have ho : orIn W v u s = v + u % 128 * 2 ^ s := orIn_eq (k := 7) hv (Nat.mod_lt _ (by decide)) (by omega)
      rw [e]
      dsimp only
      rw [ho]
      by_cases hu : u < 128
      · left
        refine ⟨[u], by simp [Varint, hu], by rw [hdr]; exact ⟨_, rfl⟩, ?_⟩
        rw [if_pos (hm.2 hu)]
        simp [RM.pure, leb]
      · rw [if_neg (fun h => hu (hm.1 h))]
        have hv' : v + u % 128 * 2 ^ s < 2 ^ (s + 7) := by
          have h1 : u % 128 < 128 := Nat.mod_lt _ (by decide)
          have h2 : (u % 128) * 2 ^ s ≤ 127 * 2 ^ s := Nat.mul_le_mul_right _ (by omega)
          rw [Nat.pow_add]; omega
        rcases ih (c := c + 1) (s + 7) (v + u % 128 * 2 ^ s) hv' (by omega) (by omega) with ⟨bs, h1, h2, h3⟩ | ⟨h1, c', h2, h3, h4⟩
        · left
          refine ⟨u :: bs, by simpa [Varint, hu] using h1, by rw [hdr]; exact List.cons_prefix_cons.2 ⟨rfl, h2⟩, ?_⟩
          rw [h3]
          congr 1
          · congr 1
            simp only [leb, Nat.pow_add, Nat.add_mul]
            rw [Nat.add_assoc]; congr 2
            rw [show (2 ^ 7 : Nat) = 128 from rfl, Nat.mul_comm (2 ^ s) 128, ← Nat.mul_assoc, Nat.mul_comm (leb bs) 128]
          · simp; omega
        · right
          refine ⟨?_, c', by omega, h3, h4⟩
          rintro ⟨bs, hb, hp⟩
          rw [hdr] at hp
          cases bs with
          | nil => exact hb
          | cons b bs =>
            obtain ⟨rfl, h⟩ := List.cons_prefix_cons.1 hp
            simp only [Varint, if_neg hu] at hb
            exact h1 ⟨bs, hb, h⟩
    · right
      refine ⟨?_, c, Nat.le_refl _, hc, .inl e⟩
      rintro ⟨bs, hb, hp⟩
      rw [hdr, List.prefix_nil] at hp
      subst hp; exact hb

/-- Outcomes of a whole varint read. -/
theorem varint_spec {W mask r n : Nat} (hr : r ≤ 7) (hmask : ∀ u : Fin 256, (u.val &&& mask = 0 ↔ u.val < 2 ^ r)) (hd : Bytes d)
    (hW : 7 + 7 * n + r = W) (hc : c ≤ d.length) {g : RM Nat}
    (hg : g = RM.bind get8 fun v => if v &&& 0x80 = 0 then RM.pure v else chain W mask n 7 (v &&& 0x7F)) :
    (∃ bs, Varint r (n + 1) bs ∧ bs <+: d.drop c ∧ g d c = (.ok (leb bs), c + bs.length)) ∨
    ((¬ ∃ bs, Varint r (n + 1) bs ∧ bs <+: d.drop c) ∧ ∃ c', c ≤ c' ∧ c' ≤ d.length ∧ (g d c = (.underflow, c') ∨ g d c = (.overflow, c'))) := by
  subst hg
  rcases bind_get8 hd hc (fun v => if v &&& 0x80 = 0 then RM.pure v else chain W mask n 7 (v &&& 0x7F)) with ⟨u, hg, hdr, hlt, e⟩ | ⟨hdr, e⟩
  · have hm := mask80 hd hg
    rw [e]
    by_cases hu : u < 128
    · left
      refine ⟨[u], by simp [Varint, hu], by rw [hdr]; exact ⟨_, rfl⟩, ?_⟩
      rw [if_pos (hm.2 hu)]
      simp [RM.pure, leb, Nat.mod_eq_of_lt hu]
    · rw [if_neg (fun h => hu (hm.1 h)), and7F]
      rcases chain_spec (c := c + 1) hr hmask hd n 7 (u % 128) (Nat.mod_lt _ (by decide)) hW (by omega) with ⟨bs, h1, h2, h3⟩ | ⟨h1, c', h2, h3, h4⟩
      · left
        refine ⟨u :: bs, by simpa [Varint, hu] using h1, by rw [hdr]; exact List.cons_prefix_cons.2 ⟨rfl, h2⟩, ?_⟩
        rw [h3]
        congr 1
        · congr 1; simp only [leb]; omega
        · simp; omega
      · right
        refine ⟨?_, c', by omega, h3, h4⟩
        rintro ⟨bs, hb, hp⟩
        rw [hdr] at hp
        cases bs with
        | nil => exact hb
        | cons b bs =>
          obtain ⟨rfl, h⟩ := List.cons_prefix_cons.1 hp
          simp only [Varint, if_neg hu] at hb
          exact h1 ⟨bs, hb, h⟩
  · right
    refine ⟨?_, c, Nat.le_refl _, hc, .inl e⟩
    rintro ⟨bs, hb, hp⟩
    rw [hdr, List.prefix_nil] at hp
    subst hp; exact hb

/-- A prefix of a list contains at most one varint. -/
theorem Varint.unique {r n : Nat} {l bs bs' : List Nat} (h : Varint r n bs) (h' : Varint r n bs') (hp : bs <+: l) (hp' : bs' <+: l) : bs = bs' := by
  induction n generalizing l bs bs' with
  | zero =>
    cases bs with
    | nil => exact absurd h id
    | cons b t =>
      cases bs' with
      | nil => exact absurd h' id
      | cons b' t' =>
        cases l with
        | nil => simp at hp
        | cons x l =>
          obtain ⟨rfl, _⟩ := List.cons_prefix_cons.1 hp
          obtain ⟨rfl, _⟩ := List.cons_prefix_cons.1 hp'
          rw [h.2, h'.2]
  | succ n ih =>
    cases bs with
    | nil => exact absurd h (by simp [Varint])
    | cons b t =>
      cases bs' with
      | nil => exact absurd h' (by simp [Varint])
      | cons b' t' =>
        cases l with
        | nil => simp at hp
        | cons x l =>
          obtain ⟨rfl, p1⟩ := List.cons_prefix_cons.1 hp
          obtain ⟨rfl, p2⟩ := List.cons_prefix_cons.1 hp'
          simp only [Varint] at h h'
          split at h
          · rw [if_pos (by assumption)] at h'; rw [h, h']
          · rw [if_neg (by assumption)] at h'; rw [ih h h' p1 p2]

theorem getVarint_spec (hd : Bytes d) (hc : c ≤ d.length) :
    (∃ bs, Varint 4 4 bs ∧ bs <+: d.drop c ∧ getVarint d c = (.ok (leb bs), c + bs.length)) ∨
    ((¬ ∃ bs, Varint 4 4 bs ∧ bs <+: d.drop c) ∧ ∃ c', c ≤ c' ∧ c' ≤ d.length ∧
      (getVarint d c = (.underflow, c') ∨ getVarint d c = (.overflow, c'))) :=
  varint_spec (by decide) andF0 hd (by decide) hc getVarint_chain
theorem getVarint64_spec (hd : Bytes d) (hc : c ≤ d.length) :
    (∃ bs, Varint 1 9 bs ∧ bs <+: d.drop c ∧ getVarint64 d c = (.ok (leb bs), c + bs.length)) ∨
    ((¬ ∃ bs, Varint 1 9 bs ∧ bs <+: d.drop c) ∧ ∃ c', c ≤ c' ∧ c' ≤ d.length ∧
      (getVarint64 d c = (.underflow, c') ∨ getVarint64 d c = (.overflow, c'))) :=
  varint_spec (by decide) andFE hd (by decide) hc getVarint64_chain

end Stxxl.BinBuf
