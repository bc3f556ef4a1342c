import Verif.Stack.GrowShrink2

/-!
# C13: proofs for `grow_shrink_stack2`
-/

namespace Stxxl.Stack
open Stxxl.ExtVector (upd upd_same upd_ne nodup_get_inj)
open Stxxl.Pools Stxxl.Io

namespace G2
open Gs (Holds)
variable {α : Type} {B : Nat}

structure Inv (B : Nat) (g : G2 α) (l : List α) : Prop where
  pool : Pools.Reach g.sys g.cl g.spec
  held : g.cache ∈ g.cl.held
  nod : g.bids.Nodup
  closed : ∀ b ∈ g.bids, ¬ g.cl.open b
  size : g.size = l.length
  len : l.length = g.bids.length * B + g.off
  off : g.off ≤ B
  ne : g.bids ≠ [] → 0 < g.off
  dsk : ∀ (k : Nat) b, g.bids[k]? = some b → Holds B l k (g.spec b)
  mem : Holds B l g.bids.length (g.sys.io.mem g.cache)

theorem reach_serveAll {s : Sys (Nat → α)} {c spec} (l : List Nat) : ∀ {s : Sys (Nat → α)}, Pools.Reach s c spec →
    Pools.Reach { s with io := s.io.serveAll l } c spec := by
  induction l with
  | nil => intro s h; exact h
  | cons i l ih => intro s h; exact ih (h.step (.serve i))

theorem mem_serve {s : Sys (Nat → α)} {c spec} (h : Pools.Reach s c spec) {b : Nat} (hb : b ∈ c.held) (i : Nat) :
    (s.io.serve i).mem b = s.io.mem b :=
  Io.serve_mem (fun _ _ hp _ => C20_no_io_on_free h (.inl hb) hp.1 hp.2) i

theorem mem_serveAll {c spec} (l : List Nat) : ∀ {s : Sys (Nat → α)}, Pools.Reach s c spec → ∀ {b : Nat}, b ∈ c.held →
    (s.io.serveAll l).mem b = s.io.mem b := by
  induction l with
  | nil => intro s h b _; rfl
  | cons i l ih =>
    intro s h b hb
    have := ih (h.step (.serve i)) hb
    exact this.trans (mem_serve h hb i)

theorem wait_mem {s : Sys (Nat → α)} {c spec} (h : Pools.Reach s c spec) {b : Nat} (hb : b ∈ c.held) {i : Nat} {io : Io (Nat → α)}
    (hw : s.io.wait i = some io) : io.mem b = s.io.mem b :=
  (Io.wait_ind (P := fun x => Pools.Reach { s with io := x } c spec ∧ x.mem b = s.io.mem b)
    (fun x i hx => ⟨hx.1.step (.serve i), (mem_serve hx.1 hb i).trans hx.2⟩) hw ⟨h, rfl⟩).2

/-- Invalidation does not touch the client's buffers. -/
theorem invalidate_mem {s s' : Sys (Nat → α)} {c spec} (h : Pools.Reach s c spec) {b bid : Nat} (hb : b ∈ c.held) {canc : Nat → Bool} {f : Bool}
    (hi : s.invalidate canc bid = some (s', f)) : s'.io.mem b = s.io.mem b := by
  have hok : Pools.Inv (fun _ => True) (fun b => b ≠ bid) s c spec := Pools.Inv.weaken h.ok (by simp) (by simp) (by simp) (by simp)
  unfold Sys.invalidate at hi
  cases hf : s.pFind bid with
  | none => rw [hf] at hi; simp at hi; rw [← hi.1]
  | some e =>
    obtain ⟨hbid, l1, l2, e1, e2⟩ := pFind_some hf
    have hem : e ∈ s.p.pbusy := by rw [e1]; simp
    rw [hf] at hi
    simp only at hi
    have h1 : Pools.Inv (fun _ => True) (fun b => b ≠ bid)
        { s with io := if (s.io.rqs[e.req]?.any fun r => !r.isWrite) then s.io.cancel (canc e.req) e.req else s.io } c spec ∧
        (if (s.io.rqs[e.req]?.any fun r => !r.isWrite) then s.io.cancel (canc e.req) e.req else s.io).mem = s.io.mem := by
      split
      · rename_i hc
        refine ⟨hok.cancelRead hem (by simp [hbid]) ?_ _, (Io.cancel_mem _ _ _).1⟩
        intro r hr
        rw [hr] at hc
        simpa using hc
      · exact ⟨hok, rfl⟩
    generalize (if (s.io.rqs[e.req]?.any fun r => !r.isWrite) then s.io.cancel (canc e.req) e.req else s.io) = io1 at h1 hi
    split at hi
    · simp at hi
    · rename_i io2 hw
      simp at hi
      rw [← hi.1]
      dsimp only
      have := (Io.wait_ind (P := fun x => Pools.Inv (fun _ => True) (fun b => b ≠ bid) { s with io := x } c spec ∧ x.mem b = io1.mem b)
        (fun x i hx => ⟨hx.1.serve i, (Io.serve_mem (fun j r hp _ hbuf => by
          have hm := hx.1.own j r hp
          rw [hbuf] at hm
          exact hx.1.free_not (by simp [Pools.frees, hb]) hm) i).trans hx.2⟩) hw ⟨h1.1, rfl⟩).2
      rw [this, h1.2]

theorem hint_mem (s : Sys (Nat → α)) (bid : Nat) : (s.hint bid).io.mem = s.io.mem := by
  unfold Sys.hint
  split
  · rfl
  · split
    · rfl
    · split <;> rfl

theorem read_mem (s : Sys (Nat → α)) (buf bid : Nat) : (s.read buf bid).1.io.mem = s.io.mem := by
  unfold Sys.read
  split
  · rfl
  · split <;> rfl

theorem invalLoop_ok (env : Env) {c spec} (bs : List Nat) : ∀ {s : Sys (Nat → α)}, Pools.Reach s c spec →
    (∀ b ∈ bs, ¬ c.open b) →
    ∃ s', invalLoop env bs s = some s' ∧ Pools.Reach s' c spec ∧ ∀ b ∈ c.held, s'.io.mem b = s.io.mem b := by
  induction bs with
  | nil => intro s h _; exact ⟨s, rfl, h, fun _ _ => rfl⟩
  | cons b bs ih =>
    intro s h hc
    obtain ⟨⟨s1, f⟩, e1⟩ := (C19_no_failure h).2.1 env.canc b
    have h1 := h.step (.invalidate env.canc b f (hc b (by simp)) e1)
    have h2 := reach_serveAll (s := s1) (env.sv b) h1
    obtain ⟨s', e2, h3, h4⟩ := ih h2 (fun b hb => hc b (by simp [hb]))
    refine ⟨s', by unfold invalLoop; rw [e1]; exact e2, h3, fun x hx => ?_⟩
    rw [h4 x hx]
    dsimp only
    rw [mem_serveAll (env.sv b) h1 hx, invalidate_mem h hx e1]

theorem hintLoop_ok (env : Env) {c spec} (bs : List Nat) : ∀ {s : Sys (Nat → α)}, Pools.Reach s c spec →
    (∀ b ∈ bs, ¬ c.open b) →
    Pools.Reach (hintLoop env bs s) c spec ∧ ∀ b ∈ c.held, (hintLoop env bs s).io.mem b = s.io.mem b := by
  induction bs with
  | nil => intro s h _; exact ⟨h, fun _ _ => rfl⟩
  | cons b bs ih =>
    intro s h hc
    have h1 := h.step (.hint b (hc b (by simp)))
    have h2 := reach_serveAll (s := s.hint b) (env.sv b) h1
    obtain ⟨h3, h4⟩ := ih h2 (fun b hb => hc b (by simp [hb]))
    refine ⟨h3, fun x hx => ?_⟩
    have := h4 x hx
    unfold hintLoop
    rw [this]
    dsimp only
    rw [mem_serveAll (env.sv b) h1 hx, hint_mem]

theorem rehint_inv {g : G2 α} {l : List α} (h : Inv B g l) (env : Env) : Inv B (rehint env g) l := by
  obtain ⟨h1, h2⟩ := hintLoop_ok env (g.bids.drop (g.bids.length - g.pref)).reverse h.pool (by
    intro b hb
    exact h.closed b (List.drop_subset _ _ (List.mem_reverse.1 hb)))
  refine ⟨h1, h.held, h.nod, h.closed, h.size, h.len, h.off, h.ne, h.dsk, ?_⟩
  show Holds B l g.bids.length ((hintLoop env (g.bids.drop (g.bids.length - g.pref)).reverse g.sys).io.mem g.cache)
  rw [h2 _ h.held]
  exact h.mem

theorem setPref_inv {g : G2 α} {l : List α} (h : Inv B g l) (env : Env) (n : Nat) : ∃ g', setPref g env n = some g' ∧ Inv B g' l := by
  unfold setPref
  split
  · obtain ⟨s', e, h1, h2⟩ := invalLoop_ok env ((g.bids.take (g.bids.length - n)).drop (g.bids.length - g.pref)).reverse h.pool (by
      intro b hb
      exact h.closed b (List.take_subset _ _ (List.drop_subset _ _ (List.mem_reverse.1 hb))))
    rw [e]
    refine ⟨_, rfl, rehint_inv (g := { g with sys := s', pref := n }) ⟨h1, h.held, h.nod, h.closed, h.size, h.len, h.off, h.ne, h.dsk, ?_⟩ env⟩
    dsimp only
    rw [h2 _ h.held]; exact h.mem
  · exact ⟨_, rfl, rehint_inv (g := { g with pref := n }) ⟨h.pool, h.held, h.nod, h.closed, h.size, h.len, h.off, h.ne, h.dsk, h.mem⟩ env⟩

/-- Storing into the cache. -/
theorem put_inv {g : G2 α} {l : List α} (hp : Pools.Reach g.sys g.cl g.spec) (hc : g.cache ∈ g.cl.held) (o : Nat) (v : α) :
    Pools.Reach (put g o v).sys g.cl g.spec := hp.step (.fill g.cache _ hc)

theorem append_inv {g : G2 α} {l : List α} (h1 : Pools.Reach g.sys g.cl g.spec) (h2 : g.cache ∈ g.cl.held) (h3 : g.bids.Nodup)
    (h4 : ∀ b ∈ g.bids, ¬ g.cl.open b) (h5 : g.size = l.length) (h6 : l.length = g.bids.length * B + g.off) (h7 : g.off < B)
    (h8 : ∀ (k : Nat) b, g.bids[k]? = some b → Holds B l k (g.spec b)) (h9 : Holds B l g.bids.length (g.sys.io.mem g.cache)) (v : α) :
    Inv B (append g v) (l ++ [v]) := by
  refine ⟨put_inv (l := l) h1 h2 _ _, h2, h3, h4, by simp [append, h5], ?_, h7, fun _ => Nat.succ_pos _, ?_, ?_⟩
  · simp [append, put, h6]; omega
  · intro k b hb
    have hk : k < g.bids.length := (List.getElem?_eq_some_iff.1 hb).1
    have : (k + 1) * B ≤ g.bids.length * B := Nat.mul_le_mul_right _ hk
    exact (h8 k b hb).grow (by omega) [v]
  · intro x w hx hw
    show upd g.sys.io.mem g.cache (upd (g.sys.io.mem g.cache) g.off v) g.cache x = w
    rw [upd_same]
    have hw' : (l ++ [v])[g.bids.length * B + x]? = some w := hw
    by_cases hxo : x = g.off
    · subst hxo
      rw [upd_same]
      rw [← h6] at hw'
      simp at hw'
      exact hw'
    · rw [upd_ne _ _ hxo]
      refine h9 x w hx ?_
      by_cases hlt : g.bids.length * B + x < l.length
      · rw [List.getElem?_append_left hlt] at hw'; exact hw'
      · rw [List.getElem?_eq_none (by simp; omega)] at hw'; simp at hw'

theorem push_inv (hB : 0 < B) {g : G2 α} {l : List α} (h : Inv B g l) (env : Env) (v : α) (hf : env.fresh ∉ g.bids) (ho : ¬ g.cl.open env.fresh) :
    ∃ g', push B g env v = some g' ∧ Inv B g' (l ++ [v]) := by
  unfold push
  rw [if_neg (by have := h.off; omega)]
  by_cases hfull : g.off = B
  · rw [if_pos hfull]
    unfold grow
    obtain ⟨s1, e1⟩ := (C19_no_failure h.pool).1 env.canc env.sched g.cache env.fresh h.held ho
    rw [e1]
    simp only
    have p1 := h.pool.step (.write env.canc env.sched g.cache env.fresh h.held ho e1)
    have hs1 : 0 < s1.sizeWrite := by have := ((C20_sizes g.sys).1 _ _ _ _ _ e1).1; omega
    obtain ⟨⟨s2, b⟩, e2⟩ := (C19_no_failure p1).2.2.1 env.pick env.stealSched hs1
    rw [e2]
    simp only
    have p2 := p1.step (.steal env.pick env.stealSched b e2)
    obtain ⟨s3, e3, p3, m3⟩ := invalLoop_ok env (g.bids.drop (g.bids.length - g.pref)).reverse p2 (by
      intro x hx
      exact h.closed x (List.drop_subset _ _ (List.mem_reverse.1 hx)))
    rw [e3]
    refine ⟨_, rfl, append_inv (g := { g with sys := s3, cache := b, bids := g.bids ++ [env.fresh], off := 0, cl := { g.cl with held := b :: g.cl.held.erase g.cache }, spec := upd g.spec env.fresh (g.sys.io.mem g.cache) }) ?_ ?_ ?_ ?_ h.size ?_ hB ?_ ?_ v⟩
    · exact p3
    · simp
    · rw [List.nodup_append]
      refine ⟨h.nod, by simp, ?_⟩
      intro a ha b' hb' hc
      simp at hb'; subst hb' hc; exact hf ha
    · intro x hx
      simp at hx
      rcases hx with hx | rfl
      · exact h.closed x hx
      · exact ho
    · have := h.len; simp [Nat.add_mul]; omega
    · intro k b' hb'
      by_cases hk : k < g.bids.length
      · simp only at hb'
        rw [List.getElem?_append_left hk] at hb'
        dsimp only
        rw [upd_ne]
        · exact h.dsk k b' hb'
        · rintro rfl; exact hf (List.mem_of_getElem? hb')
      · simp only at hb'
        have hk2 : k = g.bids.length := by
          have := (List.getElem?_eq_some_iff.1 hb').1
          simp at this; omega
        subst hk2
        simp at hb'; subst hb'
        dsimp only
        rw [upd_same]; exact h.mem
    · dsimp only
      apply Holds.empty
      have := h.len; simp [Nat.add_mul]; omega
  · rw [if_neg hfull]
    exact ⟨_, rfl, append_inv h.pool h.held h.nod h.closed h.size h.len (by have := h.off; omega) h.dsk h.mem v⟩
where
  Holds.empty {l : List α} {k : Nat} {f : Nat → α} (h : l.length ≤ k * B) : Holds B l k f := Gs.Holds.empty h

theorem readBack_spec {g : G2 α} (hp : Pools.Reach g.sys g.cl g.spec) (hc : g.cache ∈ g.cl.held) (env : Env) {last : Nat} (ho : ¬ g.cl.open last) :
    ∃ g', readBack g env last = some g' ∧ Pools.Reach g'.sys g'.cl g.spec ∧ g'.cache ∈ g'.cl.held ∧ g'.cl.up = g.cl.up ∧
      g'.sys.io.mem g'.cache = g.spec last ∧ g' = { g with sys := g'.sys, cache := g'.cache, cl := g'.cl } := by
  have p1 := hp.step (.read g.cache last hc ho)
  unfold readBack
  dsimp only
  generalize hr : g.sys.read g.cache last = r at p1 ⊢
  obtain ⟨s1, b1, q1⟩ := r
  dsimp only at p1 ⊢
  have p2 := reach_serveAll (s := s1) env.sched p1
  obtain ⟨io, e1, e2⟩ := C19_read_latest p2 (e := ⟨last, b1, q1⟩) (by simp)
  dsimp only at e1 e2
  rw [e1]
  have p3 := p2.step (.wait ⟨last, b1, q1⟩ io [] g.cl.up rfl e1)
  exact ⟨_, rfl, p3, by simp, rfl, e2, rfl⟩

theorem pop_inv (hB : 0 < B) {g : G2 α} {l : List α} (h : Inv B g l) (env : Env) (hl : l ≠ []) :
    ∃ g', pop B g env = some g' ∧ Inv B g' l.dropLast := by
  have hpos : 0 < l.length := List.length_pos_iff.2 hl
  have hoff : 0 < g.off := by
    by_cases hb : g.bids = []
    · have := h.len; simp [hb] at this; omega
    · exact h.ne hb
  have simple : (g.bids ≠ [] → g.off ≠ 1) → Inv B { g with off := g.off - 1, size := g.size - 1 } l.dropLast := by
    intro hne
    refine ⟨h.pool, h.held, h.nod, h.closed, by simp [h.size], by simp [h.len]; omega, ?_, ?_, ?_, ?_⟩
    · have := h.off; simp only; omega
    · intro hb; have := hne hb; simp only; omega
    · intro k b hb; exact (h.dsk k b hb).prefix Gs.dropLast_sub
    · exact h.mem.prefix Gs.dropLast_sub
  unfold pop
  rw [if_neg (by have := h.off; have := h.size; simp; omega)]
  by_cases h1 : g.off = 1
  · rw [if_pos h1]
    cases hlast : g.bids.getLast? with
    | none =>
      refine ⟨_, rfl, simple ?_⟩
      intro hb; exact absurd (List.getLast?_eq_none_iff.1 hlast) hb
    | some last =>
      simp only
      have hsp := getLast?_split hlast
      have hmem : last ∈ g.bids := by rw [hsp]; simp
      obtain ⟨g1, e1, p1, c1, u1, m1, e2⟩ := readBack_spec (g := { g with bids := g.bids.dropLast }) h.pool h.held env (h.closed last hmem)
      rw [e1]
      have hblen : g.bids.length = g.bids.dropLast.length + 1 := by
        have := congrArg List.length hsp; simpa using this
      have f1 : g1.bids = g.bids.dropLast := by rw [e2]
      have f2 : g1.size = g.size := by rw [e2]
      have f3 : g1.spec = g.spec := by rw [e2]
      have hinv : Inv B { g1 with off := B, size := g1.size - 1 } l.dropLast := by
        refine ⟨by simp only [f3]; exact p1, c1, ?_, ?_, by simp [f2, h.size], ?_, Nat.le_refl _, fun _ => hB, ?_, ?_⟩
        · simp only [f1]; exact h.nod.sublist (List.dropLast_sublist _)
        · intro b hb hop
          simp only [f1] at hb
          refine h.closed b (List.dropLast_subset _ hb) ?_
          obtain ⟨e, he, hbe⟩ := hop
          simp only [u1] at he
          exact ⟨e, he, hbe⟩
        · simp only [f1, List.length_dropLast]
          have := h.len
          rw [hblen, h1, Nat.add_mul] at this
          rw [List.length_dropLast] at this
          omega
        · intro k b hb
          simp only [f1, f3] at hb ⊢
          exact (h.dsk k b (by
            rw [List.getElem?_dropLast] at hb
            split at hb
            · exact hb
            · simp at hb)).prefix Gs.dropLast_sub
        · simp only [f1]
          rw [m1]
          refine (h.dsk g.bids.dropLast.length last ?_).prefix Gs.dropLast_sub
          conv => lhs; rw [hsp]
          simp
      exact ⟨_, rfl, rehint_inv hinv env⟩
  · rw [if_neg h1]
    exact ⟨_, rfl, simple (fun _ => h1)⟩

theorem Inv.topCond {g : G2 α} {l : List α} (h : Inv B g l) (hl : l ≠ []) : 0 < g.size ∧ 0 < g.off ∧ g.off ≤ B := by
  have hpos : 0 < l.length := List.length_pos_iff.2 hl
  refine ⟨by rw [h.size]; exact hpos, ?_, h.off⟩
  by_cases hb : g.bids = []
  · have := h.len; simp [hb] at this; omega
  · exact h.ne hb

theorem top_inv {g : G2 α} {l : List α} (h : Inv B g l) : top B g = l.getLast? := by
  unfold top
  by_cases hl : l = []
  · subst hl
    have := h.size
    rw [if_neg (by simp at this; omega)]; rfl
  · have hc := h.topCond hl
    rw [if_pos hc, List.getLast?_eq_getElem?]
    have hlt : l.length - 1 < l.length := by have := h.size; omega
    rw [List.getElem?_eq_getElem hlt]
    congr 1
    refine h.mem _ _ (by omega) ?_
    rw [← List.getElem?_eq_getElem hlt]
    congr 1
    have := h.len; omega

theorem setTop_inv {g : G2 α} {l : List α} (h : Inv B g l) (v : α) (hl : l ≠ []) :
    ∃ g', setTop B g v = some g' ∧ Inv B g' (l.dropLast ++ [v]) := by
  have hc := h.topCond hl
  have hpos : 0 < l.length := List.length_pos_iff.2 hl
  have hlen : (l.dropLast ++ [v]).length = l.length := by simp; omega
  unfold setTop
  rw [if_pos hc]
  refine ⟨_, rfl, put_inv (l := l) h.pool h.held _ _, h.held, h.nod, h.closed, by rw [hlen]; exact h.size, by rw [hlen]; exact h.len, h.off, h.ne, ?_, ?_⟩
  · intro k b hb
    have hk : k < g.bids.length := (List.getElem?_eq_some_iff.1 hb).1
    have : (k + 1) * B ≤ g.bids.length * B := Nat.mul_le_mul_right _ hk
    have := h.len
    exact (h.dsk k b hb).setLast (by omega) v
  · intro x w hx hw
    show upd g.sys.io.mem g.cache (upd (g.sys.io.mem g.cache) (g.off - 1) v) g.cache x = w
    rw [upd_same]
    have hw' : (l.dropLast ++ [v])[g.bids.length * B + x]? = some w := hw
    have hln := h.len
    by_cases hxo : x = g.off - 1
    · subst hxo
      rw [upd_same]
      rw [show g.bids.length * B + (g.off - 1) = l.dropLast.length from by simp; omega] at hw'
      simp at hw'
      exact hw'
    · rw [upd_ne _ _ hxo]
      refine h.mem x w hx ?_
      by_cases hlt : g.bids.length * B + x < l.length - 1
      · rw [List.getElem?_append_left (by simp; omega), List.getElem?_dropLast, if_pos hlt] at hw'; exact hw'
      · rw [List.getElem?_eq_none (by rw [hlen]; omega)] at hw'; simp at hw'

theorem step_ok (hB : 0 < B) {g : G2 α} {l : List α} (h : Inv B g l) {env : Env} {op : Op α} (hl : specLegal l op)
    (hf : env.fresh ∉ g.bids) (ho : ¬ g.cl.open env.fresh) : ∃ g', step B g env op = some g' ∧ Inv B g' (specStep l op) := by
  cases op with
  | push v => exact push_inv hB h env v hf ho
  | pop => exact pop_inv hB h env hl
  | setTop v => exact setTop_inv h v hl

theorem reach_inv (hB : 0 < B) {g : G2 α} {l : List α} (h : Reach B g l) : Inv B g l := by
  induction h with
  | new cache pref hp hc =>
    refine ⟨hp, hc, List.nodup_nil, by simp, rfl, by simp, Nat.zero_le _, by simp, by simp, ?_⟩
    exact Gs.Holds.empty (by simp)
  | step env op _ hl hf ho hs ih =>
    obtain ⟨g', e, h'⟩ := step_ok hB ih hl hf ho
    rw [hs] at e; cases e; exact h'
  | setPref env n _ hs ih =>
    obtain ⟨g', e, h'⟩ := setPref_inv ih env n
    rw [hs] at e; cases e; exact h'
  | serve i _ ih =>
    refine ⟨ih.pool.step (.serve i), ih.held, ih.nod, ih.closed, ih.size, ih.len, ih.off, ih.ne, ih.dsk, ?_⟩
    dsimp only
    rw [mem_serve ih.pool ih.held]; exact ih.mem
  | other _ hs hc hm hb ih =>
    refine ⟨ih.pool.step hs, hc, ih.nod, fun b h => (hb b h).2, ih.size, ih.len, ih.off, ih.ne, ?_, ?_⟩
    · intro k b hk
      dsimp only
      rw [(hb b (List.mem_of_getElem? hk)).1]; exact ih.dsk k b hk
    · dsimp only; rw [hm]; exact ih.mem

end G2

/-- **C13** `grow_shrink_stack2`: after every history of stack operations and changes of the prefetch setting, on a shared
pool with any completion schedule, `top()`, `size()` and `empty()` are those of the in-memory stack. -/
theorem C13_observers {α : Type} {B : Nat} (hB : 0 < B) {g : G2 α} {l : List α} (h : G2.Reach B g l) :
    g.top B = specTop l ∧ g.size = l.length ∧ g.isEmpty = l.isEmpty := by
  have hi := G2.reach_inv hB h
  refine ⟨G2.top_inv hi, hi.size, ?_⟩
  simp only [G2.isEmpty, hi.size]
  cases l <;> simp

/-- **C13** Every legal operation and every change of the prefetch setting succeeds: no assertion fails in the stack or in
the pool, whatever the sizes of the pools (even if they own no buffer at all). -/
theorem C13_no_failure {α : Type} {B : Nat} (hB : 0 < B) {g : G2 α} {l : List α} (h : G2.Reach B g l) (env : Env) :
    (∀ op, specLegal l op → env.fresh ∉ g.bids → ¬ g.cl.open env.fresh →
      ∃ g', G2.step B g env op = some g' ∧ G2.Reach B g' (specStep l op)) ∧
    (∀ n, ∃ g', G2.setPref g env n = some g' ∧ g'.pref = n ∧ G2.Reach B g' l) := by
  have hi := G2.reach_inv hB h
  refine ⟨fun op hl hf ho => ?_, fun n => ?_⟩
  · obtain ⟨g', e, _⟩ := G2.step_ok hB hi hl hf ho
    exact ⟨g', e, .step env op h hl hf ho e⟩
  · obtain ⟨g', e, _⟩ := G2.setPref_inv hi env n
    refine ⟨g', e, ?_, .setPref env n h e⟩
    unfold G2.setPref at e
    split at e
    · split at e
      · simp at e
      · cases e; rfl
    · cases e; rfl

/-- **C13** The buffer the user works on never has an outstanding request. -/
theorem C13_no_access_in_flight {α : Type} {B : Nat} (hB : 0 < B) {g : G2 α} {l : List α} (h : G2.Reach B g l) {i : Nat} {r : Rq}
    (hr : g.sys.io.rqs[i]? = some r) (hp : r.st = .pending) : r.buf ≠ g.cache :=
  C20_no_io_on_free (G2.reach_inv hB h).pool (.inl (G2.reach_inv hB h).held) hr hp

/-- Non-vacuity: block size 1, prefetch setting 2, three pushes (two overflows), two pops: the first reads block 6 from the
write pool and hints block 5, which is then read from the prefetch pool. -/
example : ∃ g : G2 Nat, G2.Reach 1 g [10] ∧ g.top 1 = some 10 ∧ g.sys.sizePrefetch = 2 := by
  let d : G2 Nat := ⟨0, 0, 0, [], 0, ⟨⟨fun _ _ => 0, fun _ _ => 0, []⟩, ⟨[], [], [], []⟩⟩, ⟨[], []⟩, fun _ _ => 0⟩
  let env (f : Nat) : Env := ⟨f, fun _ => false, [], 0, fun _ => [], fun _ => []⟩
  have p0 : Pools.Reach (β := Nat → Nat) _ _ _ := .new (fun _ _ => 0) (fun _ _ => 0) [1] [2, 3] (by decide)
  have p1 := p0.step (.newBuf 9 (by decide))
  have h0 := G2.Reach.new (B := 1) 9 2 p1 (by simp)
  have h1 := G2.Reach.step (env 5) (.push 10) h0 trivial (by decide) (by simp [Client.open]) (some_getD (d := d) (by decide))
  have h2 := G2.Reach.step (env 5) (.push 11) h1 trivial (by decide) (by simp [Client.open, G2.step, G2.push, G2.append, G2.put, some_getD]) (some_getD (d := d) (by decide))
  have h3 := G2.Reach.step (env 6) (.push 12) h2 trivial (by decide) (by exact fun h => by simp [Client.open] at h; exact absurd h (by decide)) (some_getD (d := d) (by decide))
  have h4 := G2.Reach.step (env 7) .pop h3 (by simp [specLegal, specStep]) (by decide) (by exact fun h => by simp [Client.open] at h; exact absurd h (by decide)) (some_getD (d := d) (by decide))
  have h5 := G2.Reach.step (env 7) .pop h4 (by simp [specLegal, specStep]) (by decide) (by exact fun h => by simp [Client.open] at h; exact absurd h (by decide)) (some_getD (d := d) (by decide))
  exact ⟨_, h5, by decide, by decide⟩

end Stxxl.Stack
