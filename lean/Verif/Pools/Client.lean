import Verif.Stack.GrowShrink2Props

/-!
# Using the pools from a container

The sequences of pool calls that `queue` and `sequence` make, and what they guarantee.
-/

namespace Stxxl.Pools
open Stxxl.Io Stxxl.ExtVector
open Stxxl.Stack (Env)
open Stxxl.Stack.G2 (hintLoop hintLoop_ok reach_serveAll mem_serveAll wait_mem hint_mem read_mem)

variable {β : Type}

/-- No unserved read targets buffer `b`. -/
def NoPR (b : Nat) (io : Io β) : Prop := ∀ (i : Nat) (r : Rq), io.rqs[i]? = some r → r.st = .pending → r.isWrite = false → r.buf ≠ b

theorem NoPR.serve {b : Nat} {io : Io β} (h : NoPR b io) (i : Nat) : NoPR b (io.serve i) ∧ (io.serve i).mem b = io.mem b := by
  unfold Io.serve
  split
  · exact ⟨h, rfl⟩
  · rename_i r hr
    have hset : ∀ (j : Nat) (q : Rq), (io.rqs.set i { r with st := .done })[j]? = some q → q.st = .pending → q.isWrite = false → q.buf ≠ b := by
      intro j q hq hp hw
      rw [List.getElem?_set] at hq
      split at hq
      · split at hq
        · cases hq; simp at hp
        · simp at hq
      · exact h j q hq hp hw
    split
    · exact ⟨h, rfl⟩
    · rename_i hpend
      split
      · split
        · exact ⟨h, rfl⟩
        · exact ⟨hset, rfl⟩
      · rename_i hw
        refine ⟨hset, ?_⟩
        dsimp only
        rw [upd_ne]
        intro hb
        exact h i r hr (Classical.not_not.1 hpend) (by simpa using hw) hb.symm

theorem NoPR.serveAll {b : Nat} (l : List Nat) : ∀ {io : Io β}, NoPR b io → NoPR b (io.serveAll l) ∧ (io.serveAll l).mem b = io.mem b := by
  induction l with
  | nil => intro io h; exact ⟨h, rfl⟩
  | cons i l ih =>
    intro io h
    have h1 := h.serve i
    have h2 := ih h1.1
    exact ⟨h2.1, h2.2.trans h1.2⟩

theorem NoPR.wait {b : Nat} {io io' : Io β} (h : NoPR b io) {i : Nat} (hw : io.wait i = some io') : NoPR b io' ∧ io'.mem b = io.mem b :=
  Io.wait_ind (P := fun x => NoPR b x ∧ x.mem b = io.mem b)
    (fun x i hx => ⟨(hx.1.serve i).1, (hx.1.serve i).2.trans hx.2⟩) hw ⟨h, rfl⟩

theorem NoPR.cancel {b : Nat} {io : Io β} (h : NoPR b io) (ok : Bool) (i : Nat) : NoPR b (io.cancel ok i) ∧ (io.cancel ok i).mem b = io.mem b := by
  unfold Io.cancel
  split
  · exact ⟨h, rfl⟩
  · rename_i r hr
    split
    · refine ⟨?_, rfl⟩
      intro j q hq hp hw
      dsimp only at hq
      rw [List.getElem?_set] at hq
      split at hq
      · split at hq
        · cases hq; simp at hp
        · simp at hq
      · exact h j q hq hp hw
    · exact ⟨h, rfl⟩

theorem NoPR.issue {b : Nat} {io : Io β} (h : NoPR b io) {w : Bool} {buf bid : Nat} (hb : w = true ∨ buf ≠ b) : NoPR b (io.issue w buf bid) := by
  intro j q hq hp hw
  unfold Io.issue at hq
  dsimp only at hq
  rw [List.getElem?_append] at hq
  split at hq
  · exact h j q hq hp hw
  · rw [List.getElem?_singleton] at hq
    split at hq
    · cases hq
      rcases hb with hb | hb
      · simp [hb] at hw
      · exact hb
    · simp at hq

theorem NoPR.cancelAll {b : Nat} (canc : Nat → Bool) (l : List Nat) : ∀ {io : Io β}, NoPR b io → NoPR b (Sys.cancelAll io canc l) ∧ (Sys.cancelAll io canc l).mem b = io.mem b := by
  induction l with
  | nil => intro io h; exact ⟨h, rfl⟩
  | cons i l ih =>
    intro io h
    have h1 := h.cancel (canc i) i
    have h2 := ih h1.1
    exact ⟨h2.1, h2.2.trans h1.2⟩

/-- Buffer `b` is not the pool's, and no read targets it. -/
structure Own (b : Nat) (s : Sys β) : Prop where
  no : NoPR b s.io
  wb : b ∉ s.p.wbusy.map (·.buf)
  pf : b ∉ s.p.pfree
  pb : b ∉ s.p.pbusy.map (·.buf)

theorem Reach.own {s : Sys β} {c : Client} {spec : Nat → β} (h : Reach s c spec) {b : Nat} (hb : b ∈ c.held) : Own b s := by
  have hn := C20_exclusive h
  refine ⟨fun i r hr hp _ => C20_no_io_on_free h (.inl hb) hr hp, ?_, ?_, ?_⟩ <;>
    (intro h'; simp only [List.nodup_append, List.append_assoc] at hn; simp only [List.mem_append] at hn; grind)

theorem Own.invalidate {b : Nat} {s s' : Sys β} (h : Own b s) {canc : Nat → Bool} {bid : Nat} {f : Bool}
    (hi : s.invalidate canc bid = some (s', f)) : Own b s' ∧ s'.io.mem b = s.io.mem b := by
  unfold Sys.invalidate at hi
  cases hf : s.pFind bid with
  | none => rw [hf] at hi; simp at hi; rw [← hi.1]; exact ⟨h, rfl⟩
  | some e =>
    obtain ⟨_, l1, l2, e1, e2⟩ := pFind_some hf
    rw [hf] at hi
    simp only at hi
    have h1 : NoPR b (if (s.io.rqs[e.req]?.any fun r => !r.isWrite) then s.io.cancel (canc e.req) e.req else s.io) ∧
        (if (s.io.rqs[e.req]?.any fun r => !r.isWrite) then s.io.cancel (canc e.req) e.req else s.io).mem b = s.io.mem b := by
      split
      · exact h.no.cancel _ _
      · exact ⟨h.no, rfl⟩
    generalize (if (s.io.rqs[e.req]?.any fun r => !r.isWrite) then s.io.cancel (canc e.req) e.req else s.io) = io1 at h1 hi
    split at hi
    · simp at hi
    · rename_i io2 hw
      simp at hi
      have h2 := h1.1.wait hw
      have hpb := h.pb
      rw [e1] at hpb
      simp at hpb
      rw [← hi.1]
      refine ⟨⟨h2.1, h.wb, ?_, ?_⟩, h2.2.trans h1.2⟩
      · have := h.pf; simp; exact ⟨this, hpb.2.1⟩
      · show b ∉ (s.pErase bid).map (·.buf)
        rw [e2]
        simp
        exact ⟨hpb.1, hpb.2.2⟩

theorem Own.hint {b : Nat} {s : Sys β} (h : Own b s) (bid : Nat) : Own b (s.hint bid) ∧ (s.hint bid).io.mem b = s.io.mem b := by
  unfold Sys.hint
  split
  · exact ⟨h, rfl⟩
  · split
    · exact ⟨h, rfl⟩
    · rename_i b' hb'
      have hne : b' ≠ b := by rintro rfl; exact h.pf (List.mem_of_getLast? hb')
      split
      · rename_i e he
        obtain ⟨l1, l2, e1, e2⟩ := wFind_some he
        have hwb := h.wb
        rw [e1] at hwb
        simp at hwb
        refine ⟨⟨h.no, ?_, ?_, ?_⟩, rfl⟩
        · show b ∉ (s.wErase bid).map (·.buf)
          rw [e2]; simp; exact ⟨hwb.1, hwb.2.2⟩
        · intro h'; exact h.pf (List.dropLast_subset _ h')
        · have := h.pb; simp at this ⊢; exact ⟨this, hwb.2.1⟩
      · refine ⟨⟨h.no.issue (.inr hne), h.wb, ?_, ?_⟩, rfl⟩
        · intro h'; exact h.pf (List.dropLast_subset _ h')
        · have := h.pb; simp at this ⊢; exact ⟨this, hne.symm⟩

theorem clearBid_bufs (bid : Nat) (l : List WEntry) : (l.map (Sys.clearBid bid)).map (·.buf) = l.map (·.buf) := by
  rw [List.map_map]
  apply List.map_congr_left
  intro e _
  simp only [Function.comp, Sys.clearBid]
  split <;> rfl

theorem Own.wWrite {b : Nat} {s s' : Sys β} (h : Own b s) {canc : Nat → Bool} {buf bid : Nat} (hne : buf ≠ b)
    (hw : s.wWrite canc buf bid = some s') : Own b s' ∧ s'.io.mem b = s.io.mem b := by
  unfold Sys.wWrite at hw
  split at hw
  · simp at hw
  · cases hw
    have h1 := h.no.cancelAll canc ((s.p.wbusy.filter (fun e => decide (e.bid = some bid))).map (·.req))
    refine ⟨⟨h1.1.issue (.inl rfl), ?_, h.pf, h.pb⟩, h1.2⟩
    dsimp only
    rw [List.map_append, clearBid_bufs]
    have := h.wb
    simp at this ⊢
    exact ⟨this, hne.symm⟩

theorem Own.write {b : Nat} {s s' : Sys β} (h : Own b s) {canc : Nat → Bool} {sched : List Nat} {buf bid : Nat} (hne : buf ≠ b)
    (hw : s.write canc sched buf bid = some s') : Own b s' ∧ s'.io.mem b = s.io.mem b := by
  unfold Sys.write at hw
  split at hw
  · simp at hw
  · rename_i s1 e1
    have h1 := h.wWrite hne e1
    have h1' := h1.1.no.serveAll sched
    have h1o : Own b { s1 with io := s1.io.serveAll sched } := ⟨h1'.1, h1.1.wb, h1.1.pf, h1.1.pb⟩
    split at hw
    · simp at hw
    · rename_i s2 f e2
      have h2 := h1o.invalidate e2
      split at hw
      · cases hw
        have h3 := h2.1.hint bid
        exact ⟨h3.1, h3.2.trans (h2.2.trans (h1'.2.trans h1.2))⟩
      · cases hw
        exact ⟨h2.1, h2.2.trans (h1'.2.trans h1.2)⟩

theorem NoPR.checkAllBusy {b : Nat} (sched : Nat → List Nat) (es : List WEntry) : ∀ {io : Io β}, NoPR b io →
    NoPR b (Sys.checkAllBusy sched es io).1 ∧ (Sys.checkAllBusy sched es io).1.mem b = io.mem b := by
  induction es with
  | nil => intro io h; exact ⟨h, rfl⟩
  | cons e es ih =>
    intro io h
    have h1 := h.serveAll (sched e.req)
    have h2 := ih h1.1
    unfold Sys.checkAllBusy
    dsimp only
    generalize Sys.checkAllBusy sched es (io.serveAll (sched e.req)) = R at *
    obtain ⟨io2, fr, bs⟩ := R
    dsimp only at *
    split <;> exact ⟨h2.1, h2.2.trans h1.2⟩

theorem NoPR.steal {b : Nat} {s s' : Sys β} (h : NoPR b s.io) {pick buf : Nat} {sched : Nat → List Nat} (hs : s.steal pick sched = some (s', buf)) :
    s'.io.mem b = s.io.mem b := by
  unfold Sys.steal at hs
  split at hs
  · simp at hs; rw [← hs.1]
  · split at hs
    · simp at hs
    · split at hs
      · simp at hs
      · rename_i e he io1 hw
        simp at hs
        rw [← hs.1]
        dsimp only
        have h1 := h.wait hw
        exact (h1.1.checkAllBusy sched _).2.trans h1.2

/-! ## Pool state with its client -/

/-- The pool with ghost state: who holds which buffer, and the latest content written to each block. -/
structure PS (α : Type) where
  sys : Sys (Nat → α)
  cl : Client
  spec : Nat → Nat → α

namespace PS
variable {α : Type}

def Ok (p : PS α) : Prop := Reach p.sys p.cl p.spec
def mem (p : PS α) (b : Nat) : Nat → α := p.sys.io.mem b

/-- Change a buffer the program holds. -/
def put (p : PS α) (b : Nat) (v : Nat → α) : PS α := { p with sys := { p.sys with io := { p.sys.io with mem := upd p.sys.io.mem b v } } }

/-- `pool->read(block, bid)`, then `pool->hint(h)` for each `h`, then `req->wait()`. -/
def fetch (p : PS α) (env : Env) (buf bid : Nat) (hints : List Nat) : Option (PS α × Nat) :=
  let r := p.sys.read buf bid
  let s2 := hintLoop env hints r.1
  match (s2.io.serveAll env.sched).wait r.2.2 with
  | none => none
  | some io => some (⟨{ s2 with io := io }, ⟨r.2.1 :: p.cl.held.erase buf, p.cl.up⟩, p.spec⟩, r.2.1)

/-- `pool->write(block, bid)`, then `pool->hint(bid)` if `h`. -/
def spill (p : PS α) (env : Env) (buf bid : Nat) (h : Bool) : Option (PS α) :=
  match p.sys.write env.canc env.sched buf bid with
  | none => none
  | some s1 => some ⟨if h then s1.hint bid else s1, { p.cl with held := p.cl.held.erase buf }, upd p.spec bid (p.mem buf)⟩

/-- `pool->steal()`. -/
def steal (p : PS α) (env : Env) : Option (PS α × Nat) :=
  match p.sys.steal env.pick env.stealSched with
  | none => none
  | some (s, b) => some ({ p with sys := s, cl := { p.cl with held := b :: p.cl.held } }, b)

/-- `pool->add(block)`. -/
def add (p : PS α) (buf : Nat) : PS α := { p with sys := p.sys.add buf, cl := { p.cl with held := p.cl.held.erase buf } }

theorem Ok.nodup {p : PS α} (h : p.Ok) : p.cl.held.Nodup := by
  have := C20_exclusive h
  simp only [List.append_assoc, List.nodup_append] at this
  exact this.1

theorem Ok.put {p : PS α} (h : p.Ok) {b : Nat} (hb : b ∈ p.cl.held) (v : Nat → α) : (p.put b v).Ok := Reach.step h (.fill b v hb)

theorem put_same (p : PS α) (b : Nat) (v : Nat → α) : (p.put b v).mem b = v := by simp [put, mem, upd_same]
theorem put_ne (p : PS α) {b x : Nat} (v : Nat → α) (h : x ≠ b) : (p.put b v).mem x = p.mem x := by simp [put, mem, upd_ne _ _ h]

theorem hintLoop_sizeWrite (env : Env) (l : List Nat) : ∀ s : Sys (Nat → α), (hintLoop env l s).sizeWrite = s.sizeWrite := by
  induction l with
  | nil => intro s; rfl
  | cons b l ih =>
    intro s
    unfold hintLoop
    rw [ih]
    exact ((C20_sizes s).2.2.2.1 b).1

theorem fetch_ok {p : PS α} (h : p.Ok) (env : Env) {buf bid : Nat} (hb : buf ∈ p.cl.held) (ho : ¬ p.cl.open bid) {hints : List Nat}
    (hh : ∀ x ∈ hints, ¬ p.cl.open x ∧ x ≠ bid) :
    ∃ p' b, p.fetch env buf bid hints = some (p', b) ∧ p'.Ok ∧ p'.cl = ⟨b :: p.cl.held.erase buf, p.cl.up⟩ ∧ p'.spec = p.spec ∧
      p'.mem b = p.spec bid ∧ (∀ x ∈ p.cl.held, x ≠ buf → p'.mem x = p.mem x) ∧ p'.sys.sizeWrite = p.sys.sizeWrite ∧ b ∉ p.cl.held.erase buf := by
  have p1 := Reach.step h (.read buf bid hb ho)
  unfold fetch
  dsimp only
  have hsz := ((C20_sizes p.sys).2.2.1 buf bid).1
  have hm := read_mem p.sys buf bid
  generalize hr : p.sys.read buf bid = r at p1 hsz hm ⊢
  obtain ⟨s1, b1, q1⟩ := r
  dsimp only at p1 hsz hm ⊢
  have p2 := hintLoop_ok env hints p1 (by
    intro x hx ⟨e, he, hex⟩
    obtain ⟨hx1, hx2⟩ := hh x hx
    simp at he
    rcases he with rfl | he
    · exact hx2 hex.symm
    · exact hx1 ⟨e, he, hex⟩)
  have p3 := reach_serveAll (s := hintLoop env hints s1) env.sched p2.1
  obtain ⟨io, e1, e2⟩ := C19_read_latest p3 (e := ⟨bid, b1, q1⟩) (by simp)
  dsimp only at e1 e2
  rw [e1]
  have p4 := p3.step (.wait ⟨bid, b1, q1⟩ io [] p.cl.up rfl e1)
  refine ⟨_, b1, rfl, p4, rfl, rfl, e2, ?_, ?_, ?_⟩
  · intro x hx hne
    have hxe : x ∈ p.cl.held.erase buf := (List.mem_erase_of_ne hne).2 hx
    show io.mem x = _
    have := wait_mem p3 hxe e1
    rw [this]
    show ((hintLoop env hints s1).io.serveAll env.sched).mem x = _
    rw [mem_serveAll env.sched p2.1 hxe, p2.2 x hxe, hm]
    rfl
  · show (hintLoop env hints s1).sizeWrite = _
    rw [hintLoop_sizeWrite, hsz]
  · have := Ok.nodup (p := ⟨_, _, _⟩) p4
    simp at this
    exact this.1

theorem spill_ok {p : PS α} (h : p.Ok) (env : Env) {buf bid : Nat} (hb : buf ∈ p.cl.held) (ho : ¬ p.cl.open bid) (hf : Bool) :
    ∃ p', p.spill env buf bid hf = some p' ∧ p'.Ok ∧ p'.cl = { p.cl with held := p.cl.held.erase buf } ∧ p'.spec = upd p.spec bid (p.mem buf) ∧
      (∀ x ∈ p.cl.held, x ≠ buf → p'.mem x = p.mem x) ∧ p'.sys.sizeWrite = p.sys.sizeWrite + 1 := by
  obtain ⟨s1, e1⟩ := (C19_no_failure h).1 env.canc env.sched buf bid hb ho
  have h1 := Reach.step h (.write env.canc env.sched buf bid hb ho e1)
  have hm : ∀ x ∈ p.cl.held, x ≠ buf → s1.io.mem x = p.mem x := fun x hx hne => ((h.own hx).write hne.symm e1).2
  have hz := ((C20_sizes p.sys).1 _ _ _ _ _ e1).1
  unfold spill
  rw [e1]
  cases hf with
  | false => exact ⟨_, rfl, h1, rfl, rfl, hm, hz⟩
  | true =>
    refine ⟨_, rfl, Reach.step h1 (.hint bid ho), rfl, rfl, ?_, ?_⟩
    · intro x hx hne
      rw [← hm x hx hne]
      exact congrFun (hint_mem s1 bid) x
    · rw [← hz]; exact ((C20_sizes s1).2.2.2.1 bid).1

theorem steal_ok {p : PS α} (h : p.Ok) (env : Env) (hs : 0 < p.sys.sizeWrite) :
    ∃ p' b, p.steal env = some (p', b) ∧ p'.Ok ∧ p'.cl = { p.cl with held := b :: p.cl.held } ∧ p'.spec = p.spec ∧
      (∀ x ∈ p.cl.held, p'.mem x = p.mem x) ∧ p'.sys.sizeWrite + 1 = p.sys.sizeWrite ∧ b ∉ p.cl.held := by
  obtain ⟨⟨s1, b⟩, e1⟩ := (C19_no_failure h).2.2.1 env.pick env.stealSched hs
  have h1 := Reach.step h (.steal env.pick env.stealSched b e1)
  unfold steal
  rw [e1]
  refine ⟨_, b, rfl, h1, rfl, rfl, fun x hx => NoPR.steal (h.own hx).no e1, ((C20_sizes p.sys).2.1 _ _ _ _ e1).1, ?_⟩
  have := Ok.nodup (p := ⟨_, _, _⟩) h1
  simp at this
  exact this.1

theorem add_ok {p : PS α} (h : p.Ok) {buf : Nat} (hb : buf ∈ p.cl.held) :
    (p.add buf).Ok ∧ (p.add buf).sys.sizeWrite = p.sys.sizeWrite + 1 ∧ (∀ x, (p.add buf).mem x = p.mem x) :=
  ⟨Reach.step h (.add buf hb), by simp [add, Sys.add, Sys.sizeWrite]; omega, fun _ => rfl⟩

end PS
end Stxxl.Pools
