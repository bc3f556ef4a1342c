import Verif.BinBuf.Lemmas

/-! # C21: encodings round-trip. C22: the reader is safe. -/

namespace Stxxl.BinBuf

/-! ## Reachable buffers -/

/-- What can be put into a buffer: the bytes of an object (`put<T>`, `append`), a 32-bit or 64-bit varint, a string with its length. -/
inductive Item where
  | raw (bytes : List Nat)
  | v32 (v : Nat)
  | v64 (v : Nat)
  | str (s : List Nat)
  deriving DecidableEq

/-- Values the C++ types allow; strings shorter than 4 GiB. -/
def Item.Valid : Item → Prop
  | .raw bs => (∀ x ∈ bs, x < 256) ∧ bs.length < 2 ^ 63
  | .v32 v => v < 2 ^ 32
  | .v64 v => v < 2 ^ 64
  | .str s => (∀ x ∈ s, x < 256) ∧ s.length < 2 ^ 32

def Buf.putItem (b : Buf) : Item → Option Buf
  | .raw bs => b.append bs
  | .v32 v => b.putVarint32 v
  | .v64 v => b.putVarint64 v
  | .str s => b.putString s

def Buf.putItems (b : Buf) : List Item → Option Buf
  | [] => some b
  | i :: is => match b.putItem i with
    | none => none
    | some b => b.putItems is

/-- The matching read call: only the type (and for `raw` the size) of the item is known to the reader. -/
inductive Kind where
  | raw (n : Nat) | v32 | v64 | str

def Item.kind : Item → Kind
  | .raw bs => .raw bs.length
  | .v32 _ => .v32
  | .v64 _ => .v64
  | .str _ => .str

def getItem : Kind → RM Item
  | .raw n => RM.bind (read n) fun l => RM.pure (.raw l)
  | .v32 => RM.bind getVarint fun v => RM.pure (.v32 v)
  | .v64 => RM.bind getVarint64 fun v => RM.pure (.v64 v)
  | .str => RM.bind getString fun v => RM.pure (.str v)

def getItems : List Kind → RM (List Item)
  | [] => RM.pure []
  | k :: ks => RM.bind (getItem k) fun i => RM.bind (getItems ks) fun is => RM.pure (i :: is)

/-! ## Single values -/

theorem read_ok {pre bs suf : List Nat} (h : (pre ++ bs ++ suf).length < 2 ^ 63) :
    read bs.length (pre ++ bs ++ suf) pre.length = (.ok bs, pre.length + bs.length) := by
  simp only [List.length_append] at h
  unfold read available
  have hm : (pre.length + bs.length) % 2 ^ 64 = pre.length + bs.length := Nat.mod_eq_of_lt (by omega)
  rw [hm, if_pos (by simp), if_pos (by simp)]
  simp

theorem drop_pre {pre bs suf : List Nat} : bs <+: (pre ++ bs ++ suf).drop pre.length := by
  rw [List.append_assoc, List.drop_left]; exact List.prefix_append _ _

/-- **C21** What `put_varint(uint32)` wrote, `get_varint` reads back, leaving the cursor right behind it, whatever surrounds it. -/
theorem C21_varint32 {v : Nat} (hv : v < 2 ^ 32) {pre suf : List Nat} (hd : Bytes (pre ++ Buf.varint32 v ++ suf)) :
    getVarint (pre ++ Buf.varint32 v ++ suf) pre.length = (.ok v, pre.length + (Buf.varint32 v).length) := by
  obtain ⟨hw, hl⟩ := varint32_wf hv
  rcases getVarint_spec (c := pre.length) hd (by simp) with ⟨bs, h1, h2, h3⟩ | ⟨h1, _⟩
  · have := Varint.unique h1 hw h2 drop_pre
    subst this
    rw [h3, hl]
  · exact absurd ⟨_, hw, drop_pre⟩ h1

/-- **C21** The same for 64 bits. -/
theorem C21_varint64 {v : Nat} (hv : v < 2 ^ 64) {pre suf : List Nat} (hd : Bytes (pre ++ Buf.varint64 v ++ suf)) :
    getVarint64 (pre ++ Buf.varint64 v ++ suf) pre.length = (.ok v, pre.length + (Buf.varint64 v).length) := by
  obtain ⟨hw, hl⟩ := varint64_wf hv
  rcases getVarint64_spec (c := pre.length) hd (by simp) with ⟨bs, h1, h2, h3⟩ | ⟨h1, _⟩
  · have := Varint.unique h1 hw h2 drop_pre
    subst this
    rw [h3, hl]
  · exact absurd ⟨_, hw, drop_pre⟩ h1

/-- **C21** Strings (shorter than 4 GiB). -/
theorem C21_string {s : List Nat} (hs : s.length < 2 ^ 32) {pre suf : List Nat} (hd : Bytes (pre ++ (Buf.varint32 s.length ++ s) ++ suf)) :
    getString (pre ++ (Buf.varint32 s.length ++ s) ++ suf) pre.length = (.ok s, pre.length + (Buf.varint32 s.length ++ s).length) := by
  have e1 : pre ++ (Buf.varint32 s.length ++ s) ++ suf = pre ++ Buf.varint32 s.length ++ (s ++ suf) := by simp
  have e2 : pre ++ (Buf.varint32 s.length ++ s) ++ suf = (pre ++ Buf.varint32 s.length) ++ s ++ suf := by simp
  have h1 := C21_varint32 hs (pre := pre) (suf := s ++ suf) (e1 ▸ hd)
  have h2 := read_ok (pre := pre ++ Buf.varint32 s.length) (bs := s) (suf := suf) (e2 ▸ hd.size)
  unfold getString RM.bind
  rw [e1, h1]
  dsimp only
  rw [← e1, e2, ← List.length_append, h2]
  simp; omega

/-! ## Sequences -/

/-- The bytes of an item. -/
def Item.bytes : Item → List Nat
  | .raw bs => bs
  | .v32 v => Buf.varint32 v
  | .v64 v => Buf.varint64 v
  | .str s => Buf.varint32 s.length ++ s

theorem putItem_spec {b : Buf} (h : b.size ≤ b.cap) {i : Item} (hv : i.Valid) :
    ∃ b', b.putItem i = some b' ∧ b'.size ≤ b'.cap ∧ b'.str = b.str ++ i.bytes := by
  cases i with
  | raw bs => exact append_spec h bs
  | v32 v => exact putBytes_spec h _
  | v64 v => exact putBytes_spec h _
  | str s =>
    obtain ⟨b1, e1, a1, a2⟩ := putBytes_spec h (Buf.varint32 s.length)
    obtain ⟨b2, e2, c1, c2⟩ := append_spec a1 s
    refine ⟨b2, ?_, c1, by rw [c2, a2]; simp [Item.bytes]⟩
    have : s.length % 2 ^ 32 = s.length := Nat.mod_eq_of_lt hv.2
    simp only [Buf.putItem, Buf.putString, Buf.putVarint32, this, e1, e2]

theorem putItems_spec {b : Buf} (h : b.size ≤ b.cap) {is : List Item} (hv : ∀ i ∈ is, i.Valid) :
    ∃ b', b.putItems is = some b' ∧ b'.size ≤ b'.cap ∧ b'.str = b.str ++ (is.map Item.bytes).flatten := by
  induction is generalizing b with
  | nil => exact ⟨b, rfl, h, by simp⟩
  | cons i is ih =>
    obtain ⟨b1, e1, a1, a2⟩ := putItem_spec h (hv i (by simp))
    obtain ⟨b2, e2, c1, c2⟩ := ih a1 (fun j hj => hv j (by simp [hj]))
    exact ⟨b2, by simp [Buf.putItems, e1, e2], c1, by rw [c2, a2]; simp⟩

theorem getItem_spec {i : Item} (hv : i.Valid) {pre suf : List Nat} (hd : Bytes (pre ++ i.bytes ++ suf)) :
    getItem i.kind (pre ++ i.bytes ++ suf) pre.length = (.ok i, pre.length + i.bytes.length) := by
  cases i with
  | raw bs =>
    simp only [getItem, Item.kind, RM.bind, Item.bytes]
    rw [read_ok (by have := hd.size; simpa [Item.bytes] using this)]; rfl
  | v32 v => simp only [getItem, Item.kind, RM.bind, Item.bytes]; rw [C21_varint32 hv hd]; rfl
  | v64 v => simp only [getItem, Item.kind, RM.bind, Item.bytes]; rw [C21_varint64 hv hd]; rfl
  | str s => simp only [getItem, Item.kind, RM.bind, Item.bytes]; rw [C21_string hv.2 hd]; rfl

theorem getItems_spec {is : List Item} (hv : ∀ i ∈ is, i.Valid) {pre : List Nat} (hd : Bytes (pre ++ (is.map Item.bytes).flatten)) :
    getItems (is.map Item.kind) (pre ++ (is.map Item.bytes).flatten) pre.length =
      (.ok is, (pre ++ (is.map Item.bytes).flatten).length) := by
  induction is generalizing pre with
  | nil => simp [getItems, RM.pure]
  | cons i is ih =>
    have e : pre ++ ((i :: is).map Item.bytes).flatten = pre ++ i.bytes ++ (is.map Item.bytes).flatten := by simp
    rw [e] at hd ⊢
    simp only [List.map_cons, getItems]
    have h1 := getItem_spec (hv i (by simp)) hd
    have h2 := ih (fun j hj => hv j (by simp [hj])) (pre := pre ++ i.bytes) hd
    rw [List.length_append] at h2
    rw [RM.bind, h1]
    dsimp only
    rw [RM.bind, h2]
    rfl

theorem hi_byte (v k : Nat) : Buf.hi v k < 256 := by rw [hi_eq]; omega
theorem lo_byte (v k : Nat) : Buf.lo v k < 256 := by rw [lo_eq]; omega

theorem varint32_byte (v : Nat) : ∀ x ∈ Buf.varint32 v, x < 256 := by
  unfold Buf.varint32
  repeat' split
  all_goals simp [hi_byte, lo_byte]
  omega
theorem varint64_byte (v : Nat) : ∀ x ∈ Buf.varint64 v, x < 256 := by
  unfold Buf.varint64
  repeat' split
  all_goals simp [hi_byte, lo_byte]
  omega

theorem bytes_byte {i : Item} (hv : i.Valid) : ∀ x ∈ i.bytes, x < 256 := by
  cases i with
  | raw bs => exact hv.1
  | v32 v => exact varint32_byte v
  | v64 v => exact varint64_byte v
  | str s =>
    intro x hx
    rcases List.mem_append.1 hx with h | h
    · exact varint32_byte _ x h
    · exact hv.1 x h

/-- **C21** Any sequence of put operations is read back by the same sequence of get operations: the reader returns the items put and
ends at the end of the buffer. (`b` may already hold other data, which the reader has skipped. The buffer must stay below the largest
size of a C++ object.) -/
theorem C21_sequence {b : Buf} (hb : b.size ≤ b.cap) (hby : ∀ x ∈ b.str, x < 256) {is : List Item} (hv : ∀ i ∈ is, i.Valid) :
    ∃ b', b.putItems is = some b' ∧ b'.size ≤ b'.cap ∧
      (b'.size < 2 ^ 63 → getItems (is.map Item.kind) b'.str b.size = (.ok is, b'.size)) := by
  obtain ⟨b', e, h1, h2⟩ := putItems_spec hb hv
  refine ⟨b', e, h1, fun hl => ?_⟩
  have hd : Bytes b'.str := by
    refine ⟨fun x hx => ?_, by rw [str_length h1]; exact hl⟩
    rw [h2] at hx
    rcases List.mem_append.1 hx with h | h
    · exact hby x h
    · obtain ⟨l, hl, hx⟩ := List.mem_flatten.1 h
      obtain ⟨i, hi, rfl⟩ := List.mem_map.1 hl
      exact bytes_byte (hv i hi) x hx
  have := getItems_spec hv (pre := b.str) (h2 ▸ hd)
  rw [← h2, str_length hb, str_length h1] at this
  exact this

/-- **C21** `put_varint(int)` casts to `uint32`; casting the number read back to `int` gives the original. -/
theorem C21_int {v : Int} (h1 : -2 ^ 31 ≤ v) (h2 : v < 2 ^ 31) {pre suf : List Nat}
    (hd : Bytes (pre ++ Buf.varint32 (v % 2 ^ 32).toNat ++ suf)) :
    ∃ u c, getVarint (pre ++ Buf.varint32 (v % 2 ^ 32).toNat ++ suf) pre.length = (.ok u, c) ∧
      (if u < 2 ^ 31 then (u : Int) else u - 2 ^ 32) = v := by
  refine ⟨_, _, C21_varint32 (by omega) hd, ?_⟩
  split <;> omega

theorem long_string_lost {s : List Nat} (hs : s.length % 2 ^ 32 = 0) :
    ∃ b : Buf, Buf.new.putString s = some b ∧ (Bytes b.str → getString b.str 0 = (.ok [], 1)) := by
  obtain ⟨b1, e1, a1, a2⟩ := putBytes_spec (b := Buf.new) (by decide) (Buf.varint32 0)
  obtain ⟨b2, e2, c1, c2⟩ := append_spec a1 s
  refine ⟨b2, ?_, fun hd => ?_⟩
  · simp only [Buf.putString, hs, Buf.putVarint32, e1, e2]
  · have e : b2.str = [] ++ (Buf.varint32 ([] : List Nat).length ++ []) ++ s := by
      rw [c2, a2]; simp [Buf.new, Buf.str]
    rw [e] at hd ⊢
    have := C21_string (s := []) (pre := []) (by decide) hd
    simpa [Buf.varint32] using this

/-- **C21, limit.** A string of 4 GiB is not read back: its length is truncated to 32 bits, and the empty string is read instead. -/
theorem C21_long_string_lost : ∃ (s : List Nat) (b : Buf), Buf.new.putString s = some b ∧ (Bytes b.str → getString b.str 0 = (.ok [], 1)) ∧ s ≠ [] := by
  obtain ⟨n, hn, hm⟩ : ∃ n : Nat, n ≠ 0 ∧ n % 2 ^ 32 = 0 := ⟨2 ^ 32, by decide, by decide⟩
  obtain ⟨b, h1, h2⟩ := long_string_lost (s := List.replicate n 0) (by rw [List.length_replicate]; exact hm)
  exact ⟨_, b, h1, h2, fun h => hn (by simpa using h)⟩

/-! ## C22 -/

variable {d : List Nat} {c : Nat}

/-- Outcome of a safe call: no access outside the buffer, and the cursor stays in it. -/
def Safe {α : Type} (d : List Nat) (c : Nat) (r : Res α × Nat) : Prop := r.1 ≠ .ub ∧ c ≤ r.2 ∧ r.2 ≤ d.length

theorem read_cases (hd : Bytes d) (hc : c ≤ d.length) {n : Nat} (hn : n ≤ 2 ^ 63) :
    (c + n ≤ d.length ∧ read n d c = (.ok ((d.drop c).take n), c + n)) ∨ (d.length < c + n ∧ read n d c = (.underflow, c)) := by
  have := hd.size
  unfold read available
  have hm : (c + n) % 2 ^ 64 = c + n := Nat.mod_eq_of_lt (by omega)
  rw [hm]
  by_cases h : c + n ≤ d.length
  · left; exact ⟨h, by simp [h]⟩
  · right; exact ⟨by omega, by simp [h]⟩

/-- **C22** `read(n)` / `get<T>()`: returns exactly the next `n` bytes and advances by `n`, or throws `underflow_error` and stays, exactly
when fewer than `n` bytes are left. (`n` at most half the address space.) -/
theorem C22_read (hd : Bytes d) (hc : c ≤ d.length) {n : Nat} (hn : n ≤ 2 ^ 63) :
    read n d c = if n ≤ d.length - c then (.ok ((d.drop c).take n), c + n) else (.underflow, c) := by
  rcases read_cases hd hc hn with ⟨h, e⟩ | ⟨h, e⟩
  · rw [e, if_pos (by omega)]
  · rw [e, if_neg (by omega)]

/-- **C22** `skip(n)`. -/
theorem C22_skip (hd : Bytes d) (hc : c ≤ d.length) {n : Nat} (hn : n ≤ 2 ^ 63) :
    skip n d c = if n ≤ d.length - c then (.ok (), c + n) else (.underflow, c) := by
  have := hd.size
  unfold skip available
  have hm : (c + n) % 2 ^ 64 = c + n := Nat.mod_eq_of_lt (by omega)
  rw [hm]
  by_cases h : c + n ≤ d.length
  · rw [if_pos (by simpa using h), if_pos (by omega)]
  · rw [if_neg (by simpa using h), if_neg (by omega)]

/-- **C22** `get_varint()` succeeds exactly if the bytes at the cursor start with a well-formed varint of at most five bytes denoting a 32-bit
number; it then returns that number and stops right behind it. Everything else is rejected. -/
theorem C22_get_varint (hd : Bytes d) (hc : c ≤ d.length) (v c' : Nat) :
    getVarint d c = (.ok v, c') ↔ ∃ bs, Varint 4 4 bs ∧ bs <+: d.drop c ∧ v = leb bs ∧ c' = c + bs.length := by
  rcases getVarint_spec hd hc with ⟨bs, h1, h2, h3⟩ | ⟨h1, c1, h2, h3, h4⟩
  · rw [h3]
    constructor
    · intro h; cases h; exact ⟨bs, h1, h2, rfl, rfl⟩
    · rintro ⟨bs', a1, a2, rfl, rfl⟩; rw [Varint.unique h1 a1 h2 a2]
  · constructor
    · intro h; rw [h] at h4; rcases h4 with h4 | h4 <;> cases h4
    · rintro ⟨bs', a1, a2, _, _⟩; exact absurd ⟨bs', a1, a2⟩ h1

/-- **C22** `get_varint64()`, at most ten bytes. -/
theorem C22_get_varint64 (hd : Bytes d) (hc : c ≤ d.length) (v c' : Nat) :
    getVarint64 d c = (.ok v, c') ↔ ∃ bs, Varint 1 9 bs ∧ bs <+: d.drop c ∧ v = leb bs ∧ c' = c + bs.length := by
  rcases getVarint64_spec hd hc with ⟨bs, h1, h2, h3⟩ | ⟨h1, c1, h2, h3, h4⟩
  · rw [h3]
    constructor
    · intro h; cases h; exact ⟨bs, h1, h2, rfl, rfl⟩
    · rintro ⟨bs', a1, a2, rfl, rfl⟩; rw [Varint.unique h1 a1 h2 a2]
  · constructor
    · intro h; rw [h] at h4; rcases h4 with h4 | h4 <;> cases h4
    · rintro ⟨bs', a1, a2, _, _⟩; exact absurd ⟨bs', a1, a2⟩ h1

theorem leb_bound {r : Nat} : ∀ {n : Nat} {bs : List Nat}, Varint r n bs → leb bs < 2 ^ (7 * n + r) := by
  intro n
  induction n with
  | zero =>
    intro bs h
    cases bs with
    | nil => exact absurd h id
    | cons b t =>
      obtain ⟨h1, rfl⟩ := h
      rw [Nat.mul_zero, Nat.zero_add]
      show b % 128 + 128 * 0 < 2 ^ r
      exact Nat.lt_of_le_of_lt (by rw [Nat.mul_zero, Nat.add_zero]; exact Nat.mod_le _ _) h1
  | succ n ih =>
    intro bs h
    cases bs with
    | nil => exact absurd h (by simp [Varint])
    | cons b t =>
      have hp : 2 ^ (7 * (n + 1) + r) = 128 * 2 ^ (7 * n + r) := by
        rw [show 7 * (n + 1) + r = 7 + (7 * n + r) by omega, Nat.pow_add]
      have h1 : b % 128 < 128 := Nat.mod_lt _ (by decide)
      have hpos := Nat.two_pow_pos (7 * n + r)
      simp only [Varint] at h
      simp only [leb]
      rw [hp]
      split at h
      · subst h
        have : (128 : Nat) ≤ 128 * 2 ^ (7 * n + r) := by omega
        show b % 128 + 128 * 0 < _
        omega
      · have := ih h; omega

theorem varint_safe (hd : Bytes d) (hc : c ≤ d.length) : Safe d c (getVarint d c) := by
  rcases getVarint_spec hd hc with ⟨bs, h1, h2, h3⟩ | ⟨h1, c1, h2, h3, h4⟩
  · rw [h3]
    have := h2.length_le
    rw [List.length_drop] at this
    have hp : bs ≠ [] := by rintro rfl; exact absurd h1 (by simp [Varint])
    have := List.length_pos_iff.2 hp
    exact ⟨by simp, by simp, by simp; omega⟩
  · rcases h4 with h4 | h4 <;> rw [h4] <;> exact ⟨by simp, h2, h3⟩

theorem varint64_safe (hd : Bytes d) (hc : c ≤ d.length) : Safe d c (getVarint64 d c) := by
  rcases getVarint64_spec hd hc with ⟨bs, h1, h2, h3⟩ | ⟨h1, c1, h2, h3, h4⟩
  · rw [h3]
    have := h2.length_le
    rw [List.length_drop] at this
    have hp : bs ≠ [] := by rintro rfl; exact absurd h1 (by simp [Varint])
    have := List.length_pos_iff.2 hp
    exact ⟨by simp, by simp, by simp; omega⟩
  · rcases h4 with h4 | h4 <;> rw [h4] <;> exact ⟨by simp, h2, h3⟩

/-- A `get_varint` result is a 32-bit number. -/
theorem getVarint_lt (hd : Bytes d) (hc : c ≤ d.length) {v c' : Nat} (h : getVarint d c = (.ok v, c')) : v < 2 ^ 32 := by
  obtain ⟨bs, h1, _, rfl, _⟩ := (C22_get_varint hd hc v c').1 h
  exact leb_bound h1

theorem read_safe (hd : Bytes d) (hc : c ≤ d.length) {n : Nat} (hn : n ≤ 2 ^ 63) : Safe d c (read n d c) := by
  rcases read_cases hd hc hn with ⟨h, e⟩ | ⟨h, e⟩ <;> rw [e]
  · exact ⟨by simp, by simp, h⟩
  · exact ⟨by simp, Nat.le_refl _, hc⟩

/-- **C22** No reader call ever accesses memory outside the buffer, and the cursor never moves back or past the end, whatever bytes the buffer
holds. -/
theorem C22_safe (hd : Bytes d) (hc : c ≤ d.length) :
    (∀ n, n ≤ 2 ^ 63 → Safe d c (read n d c)) ∧ (∀ n, n ≤ 2 ^ 63 → Safe d c (skip n d c)) ∧
    Safe d c (getVarint d c) ∧ Safe d c (getVarint64 d c) ∧ Safe d c (getString d c) ∧ Safe d c (getRef d c) := by
  have hv := varint_safe hd hc
  refine ⟨fun n hn => read_safe hd hc hn, fun n hn => ?_, hv, varint64_safe hd hc, ?_, ?_⟩
  · rw [C22_skip hd hc hn]; split
    · exact ⟨by simp, by simp, by simp; omega⟩
    · exact ⟨by simp, Nat.le_refl _, hc⟩
  · unfold getString RM.bind
    rcases hg : getVarint d c with ⟨r, c1⟩
    rw [hg] at hv
    obtain ⟨a1, a2, a3⟩ := hv
    cases r with
    | ok v =>
      dsimp only at *
      obtain ⟨b1, b2, b3⟩ := read_safe hd a3 (n := v) (by have := getVarint_lt hd hc hg; omega)
      exact ⟨b1, by omega, b3⟩
    | underflow => exact ⟨by simp, a2, a3⟩
    | overflow => exact ⟨by simp, a2, a3⟩
    | ub => exact absurd rfl a1
  · unfold getRef RM.bind
    rcases hg : getVarint d c with ⟨r, c1⟩
    rw [hg] at hv
    obtain ⟨a1, a2, a3⟩ := hv
    cases r with
    | ok v =>
      dsimp only at *
      rw [C22_skip hd a3 (n := v) (by have := getVarint_lt hd hc hg; omega)]
      split
      · next h => split at h <;> cases h; exact ⟨by simp [RM.pure], by simp [RM.pure]; omega, by simp [RM.pure]; omega⟩
      all_goals next h => split at h <;> cases h <;> exact ⟨by simp, a2, a3⟩
    | underflow => exact ⟨by simp, a2, a3⟩
    | overflow => exact ⟨by simp, a2, a3⟩
    | ub => exact absurd rfl a1

/-- **C22** A reference returned by `get_binary_buffer_ref` lies inside the buffer. -/
theorem C22_ref_inside (hd : Bytes d) (hc : c ≤ d.length) {p n c' : Nat} (h : getRef d c = (.ok (p, n), c')) :
    c < p ∧ p + n = c' ∧ c' ≤ d.length := by
  unfold getRef RM.bind at h
  rcases hg : getVarint d c with ⟨r, c1⟩
  have hv := varint_safe hd hc
  rw [hg] at hv h
  obtain ⟨a1, a2, a3⟩ := hv
  cases r with
  | ok v =>
    dsimp only at *
    rw [C22_skip hd a3 (n := v) (by have := getVarint_lt hd hc hg; omega)] at h
    have hlt : c < c1 := by
      obtain ⟨bs, h1, _, _, h4⟩ := (C22_get_varint hd hc v c1).1 hg
      have hp : bs ≠ [] := by rintro rfl; exact absurd h1 (by simp [Varint])
      have := List.length_pos_iff.2 hp
      omega
    by_cases hl : v ≤ d.length - c1
    · rw [if_pos hl] at h
      simp [RM.pure] at h
      omega
    · rw [if_neg hl] at h; cases h
  | underflow => cases h
  | overflow => cases h
  | ub => cases h

/-- **C22, defect.** The bounds check adds the caller's length to the cursor in `size_t` arithmetic (`binary_buffer.h:518`), so a huge length
passes it: `skip(2^64 - 1)` moves the cursor one byte back instead of throwing, and `read(2^64 - 1)` accesses memory far outside the buffer. -/
theorem C22_huge_length_wraps (d : List Nat) (c : Nat) (hc : 1 ≤ c) (hl : c ≤ d.length) (hd : d.length < 2 ^ 63) :
    skip (2 ^ 64 - 1) d c = (.ok (), c - 1) ∧ read (2 ^ 64 - 1) d c = (.ub, c) := by
  have hm : (c + (2 ^ 64 - 1)) % 2 ^ 64 = c - 1 := by omega
  unfold skip read available
  rw [hm]
  refine ⟨if_pos (by simp; omega), ?_⟩
  rw [if_pos (by simp; omega), if_neg (by omega)]

/-! ## C22: the buffer side -/

/-- **C22** The writer never writes outside its allocation: `append`, `align` and `assign` always succeed, keep the old contents, and leave
`size() ≤ capacity()`; `align(n)` pads with fewer than `n` zeros to a multiple of `n`. -/
theorem C22_writer_safe {b : Buf} (h : b.size ≤ b.cap) :
    (∀ data, ∃ b', b.append data = some b' ∧ b'.size ≤ b'.cap ∧ b'.str = b.str ++ data) ∧
    (∀ data, ∃ b', b.assign data = some b' ∧ b'.size ≤ b'.cap ∧ b'.str = data) ∧
    (∀ n, 0 < n → ∃ b', b.align n = some b' ∧ b'.size ≤ b'.cap ∧ b'.size % n = 0 ∧ ∃ k, k < n ∧ b'.str = b.str ++ List.replicate k 0) := by
  refine ⟨append_spec h, assign_spec b, fun n hn => ?_⟩
  obtain ⟨b', e, h1, k, h2, h3, h4⟩ := align_spec h hn
  refine ⟨b', e, h1, ?_, k, h2, h3⟩
  have := congrArg List.length h3
  rw [List.length_append, str_length h, str_length h1, List.length_replicate] at this
  rw [this, h4]

/-! ## Non-vacuity -/

/-- A mixed sequence of items is written and read back. -/
example : ∃ b, Buf.new.putItems [.v32 300, .raw [1, 2], .str [104, 105], .v64 (2 ^ 64 - 1)] = some b ∧ b.size = 17 ∧
    getItems [.v32, .raw 2, .str, .v64] b.str 0 = (.ok [.v32 300, .raw [1, 2], .str [104, 105], .v64 (2 ^ 64 - 1)], 17) := by
  refine ⟨(Buf.new.putItems [.v32 300, .raw [1, 2], .str [104, 105], .v64 (2 ^ 64 - 1)]).getD .new, ?_⟩
  have hv : ∀ i ∈ [Item.v32 300, .raw [1, 2], .str [104, 105], .v64 (2 ^ 64 - 1)], i.Valid := by
    intro i hi
    simp only [List.mem_cons, List.not_mem_nil, or_false] at hi
    rcases hi with rfl | rfl | rfl | rfl <;> simp [Item.Valid]
  obtain ⟨b, e, h1, h2⟩ := putItems_spec (b := .new) (by decide) hv
  obtain ⟨b', e', _, h3⟩ := C21_sequence (b := .new) (by decide) (by decide) hv
  rw [e] at e'; cases e'
  have hb : b.str = [172, 2, 1, 2, 2, 104, 105, 255, 255, 255, 255, 255, 255, 255, 255, 255, 1] := by rw [h2]; decide +kernel
  have hs : b.size = 17 := by rw [← str_length h1, hb]; rfl
  rw [e]
  refine ⟨rfl, hs, ?_⟩
  have := h3 (by rw [hs]; decide)
  rw [hs] at this
  exact this

/-- Malformed input is rejected. -/
example : getVarint [0x80, 0x80, 0x80, 0x80, 0x10] 0 = (.overflow, 5) ∧ getVarint [0x80, 0x80] 0 = (.underflow, 2) ∧
    getVarint [0x80, 0x80, 0x80, 0x80, 0x0F] 0 = (.ok (15 * 2 ^ 28), 5) := by decide +kernel

end Stxxl.BinBuf
