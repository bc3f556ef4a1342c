import Verif.Cmdline.Proc

namespace Stxxl.Cmdline

theorem conv_eq (lib : Lib) (ty : Ty) (cur : Val) (w : Str) :
    conv lib ty cur w = (reads lib ty w).map (fun _ => after lib ty cur [w]) := by
  cases ty <;> simp only [conv, after, List.getLast?_singleton, reads]
  · simp
  · cases h : lib.scanInt w <;> simp
  · cases h : lib.scanUint w <;> simp
  · cases h : lib.scanDbl w <;> simp
  · split <;> simp
  · split <;> simp
  · simp
  · simp [elems]; cases cur <;> rfl

theorem after_cons (lib : Lib) (ty : Ty) (v0 : Val) (w : Str) (ws : List Str)
    (h : ∀ x ∈ w :: ws, (reads lib ty x).isSome) : after lib ty (after lib ty v0 [w]) ws = after lib ty v0 (w :: ws) := by
  cases hw : ws.getLast? with
  | none =>
    have : ws = [] := by simpa using hw
    subst this
    simp [after]
  | some z =>
    have hz : z ∈ ws := List.mem_of_getLast? hw
    have h1 : (w :: ws).getLast? = some z := by simp [List.getLast?_cons, hw]
    obtain ⟨v, hv⟩ := Option.isSome_iff_exists.1 (h z (List.mem_cons_of_mem _ hz))
    simp only [after, hw, h1]
    by_cases hs : ty = .strlist
    · simp [hs, elems]
    · simp [hs, hv]

theorem after_nil (lib : Lib) (ty : Ty) (v0 : Val) : after lib ty v0 [] = v0 := rfl

/-- Options only. -/
def runOpt (lib : Lib) (opts : List Arg) : List Item → List Val → Option (List Val)
  | [], ov => some ov
  | .par _ :: its, ov => runOpt lib opts its ov
  | .opt j w :: its, ov =>
    match opts[j]? with
    | none => none
    | some o => (conv lib o.ty (ov.getD j (.b false)) w).bind (fun x => runOpt lib opts its (ov.set j x))

/-- Parameters only. -/
def runPar (lib : Lib) (params : List Arg) : List Str → Nat → List Val → List Bool → Option (Nat × List Val × List Bool)
  | [], k, pv, f => some (k, pv, f)
  | w :: ws, k, pv, f =>
    match params[k]? with
    | none => none
    | some p => (conv lib p.ty (pv.getD k (.b false)) w).bind (fun x =>
        runPar lib params ws (if p.repeated then k else k + 1) (pv.set k x) (f.set k true))

theorem runItems_split (lib : Lib) (opts params : List Arg) : ∀ (its : List Item) (st : PSt),
    runItems lib opts params its st =
      (runOpt lib opts its st.ov).bind (fun ov' =>
        (runPar lib params (positional its) st.argi st.pv st.found).map (fun r =>
          { ov := ov', pv := r.2.1, argi := r.1, found := r.2.2, endOpt := st.endOpt })) := by
  intro its
  induction its with
  | nil => intro st; rfl
  | cons it its ih =>
    intro st
    cases it with
    | opt j w =>
      simp only [runItems, stepItem, runOpt, positional]
      cases ho : opts[j]? with
      | none => rfl
      | some o =>
        simp only
        cases hc : conv lib o.ty (st.ov.getD j (.b false)) w with
        | none => rfl
        | some x =>
          simp only [Option.map_some, Option.bind_some]
          rw [ih]
    | par w =>
      simp only [runItems, stepItem, runOpt, positional, runPar]
      cases hp : params[st.argi]? with
      | none => cases runOpt lib opts its st.ov <;> rfl
      | some p =>
        simp only
        cases hc : conv lib p.ty (st.pv.getD st.argi (.b false)) w with
        | none => cases runOpt lib opts its st.ov <;> rfl
        | some x =>
          simp only [Option.map_some, Option.bind_some]
          rw [ih]

/-- Every option item names an existing option. -/
def Indexed (opts : List Arg) (its : List Item) : Prop := ∀ (j : Nat) (w : Str), Item.opt j w ∈ its → j < opts.length

theorem optVals_nil (lib : Lib) (opts : List Arg) (ov : List Val) (h : ov.length = opts.length) : optVals lib opts ov [] = ov := by
  apply List.ext_getElem?
  intro k
  simp only [optVals, List.getElem?_mapIdx, given, after_nil]
  by_cases hk : k < ov.length
  · rw [List.getElem?_eq_getElem (l := opts.zip ov) (by simp; omega), List.getElem?_eq_getElem hk]
    simp
  · rw [List.getElem?_eq_none (l := opts.zip ov) (by simp; omega), List.getElem?_eq_none (l := ov) (by omega)]
    rfl

theorem optVals_length (lib : Lib) (opts : List Arg) (ov : List Val) (its : List Item) (h : ov.length = opts.length) :
    (optVals lib opts ov its).length = opts.length := by
  simp [optVals, h]

theorem optVals_get (lib : Lib) (opts : List Arg) (ov : List Val) (its : List Item) (h : ov.length = opts.length) (k : Nat) (o : Arg)
    (v : Val) (ho : opts[k]? = some o) (hv : ov[k]? = some v) : (optVals lib opts ov its)[k]? = some (after lib o.ty v (given k its)) := by
  simp only [optVals, List.getElem?_mapIdx]
  have : (opts.zip ov)[k]? = some (o, v) := by rw [List.getElem?_zip_eq_some]; exact ⟨ho, hv⟩
  rw [this]; rfl

theorem runOpt_iff (lib : Lib) (opts : List Arg) : ∀ (its : List Item), Indexed opts its → ∀ (ov ov' : List Val),
    ov.length = opts.length →
    (runOpt lib opts its ov = some ov' ↔
      (∀ (j : Nat) (o : Arg), opts[j]? = some o → ∀ w ∈ given j its, (reads lib o.ty w).isSome) ∧ ov' = optVals lib opts ov its) := by
  intro its
  induction its with
  | nil =>
    intro _ ov ov' hl
    rw [optVals_nil lib opts ov hl]
    simp only [runOpt, given, Option.some.injEq]
    exact ⟨fun h => ⟨fun _ _ _ _ h => by simp at h, h.symm⟩, fun h => h.2.symm⟩
  | cons it its ih =>
    intro hi ov ov' hl
    have hi' : Indexed opts its := fun j w h => hi j w (List.mem_cons_of_mem _ h)
    cases it with
    | par w =>
      simp only [runOpt]
      rw [ih hi' ov ov' hl]
      rfl
    | opt j w =>
      have hj := hi j w (List.mem_cons_self ..)
      have ho : opts[j]? = some opts[j] := List.getElem?_eq_getElem hj
      simp only [runOpt, ho]
      rw [conv_eq]
      cases hr : reads lib opts[j].ty w with
      | none =>
        constructor
        · intro h; simp at h
        · rintro ⟨h, _⟩
          have := h j _ ho w (by simp [given])
          simp [hr] at this
      | some y =>
        simp only [Option.map_some, Option.bind_some]
        rw [ih hi' _ _ (by simpa using hl)]
        have key : (∀ (k : Nat) (o : Arg), opts[k]? = some o → ∀ x ∈ given k its, (reads lib o.ty x).isSome) →
            optVals lib opts (ov.set j (after lib opts[j].ty (ov.getD j (.b false)) [w])) its = optVals lib opts ov (.opt j w :: its) := by
          intro hrd
          apply List.ext_getElem?
          intro k
          by_cases hk : k < opts.length
          · have hko : opts[k]? = some opts[k] := List.getElem?_eq_getElem hk
            have hkv : ov[k]? = some ov[k] := List.getElem?_eq_getElem (by omega)
            rw [optVals_get lib opts ov _ hl k _ _ hko hkv]
            by_cases hjk : j = k
            · subst hjk
              rw [optVals_get lib opts _ its (by simpa using hl) j _ (after lib opts[j].ty (ov.getD j (.b false)) [w]) hko
                (by simp [List.getElem?_set, hl, hk])]
              simp only [given, if_pos]
              congr 1
              have hg : ov.getD j (.b false) = ov[j] := by simp [List.getD, hkv]
              rw [hg]
              exact after_cons lib _ _ w _ (by
                intro x hx
                rcases List.mem_cons.1 hx with rfl | hx
                · simp [hr]
                · exact hrd j _ hko x hx)
            · rw [optVals_get lib opts _ its (by simpa using hl) k _ ov[k] hko (by rw [List.getElem?_set_ne hjk]; exact hkv)]
              simp only [given, if_neg hjk]
          · rw [List.getElem?_eq_none (by rw [optVals_length _ _ _ _ (by simpa using hl)]; omega),
              List.getElem?_eq_none (by rw [optVals_length _ _ _ _ hl]; omega)]
        constructor
        · rintro ⟨h1, h2⟩
          refine ⟨?_, by rw [h2, key h1]⟩
          intro k o hko x hx
          simp only [given] at hx
          split at hx
          · rename_i hjk
            subst hjk
            rw [ho] at hko
            simp at hko
            subst hko
            rcases List.mem_cons.1 hx with rfl | hx
            · simp [hr]
            · exact h1 j _ ho x hx
          · exact h1 k o hko x hx
        · rintro ⟨h1, h2⟩
          have h1' : ∀ (k : Nat) (o : Arg), opts[k]? = some o → ∀ x ∈ given k its, (reads lib o.ty x).isSome := by
            intro k o hko x hx
            refine h1 k o hko x ?_
            simp only [given]
            split
            · exact List.mem_cons_of_mem _ hx
            · exact hx
          exact ⟨h1', by rw [h2, key h1']⟩

theorem assign_nil : ∀ (ps : List Arg), assign ps [] = some (ps.map (fun _ => [])) := by
  intro ps
  induction ps with
  | nil => rfl
  | cons p ps ih => simp [assign, ih]

theorem assign_length : ∀ (ps : List Arg) (ws : List Str) (as : List (List Str)), assign ps ws = some as → as.length = ps.length := by
  intro ps
  induction ps with
  | nil => intro ws as h; cases ws <;> simp [assign] at h; subst h; rfl
  | cons p ps ih =>
    intro ws as h
    simp only [assign] at h
    split at h
    · simp at h; subst h; simp
    · simp only [Option.map_eq_some_iff] at h
      obtain ⟨as', h1, rfl⟩ := h
      simp [ih _ _ h1]

/-- Suffix of readable words. -/
def Readable (lib : Lib) (ps : List Arg) (as : List (List Str)) : Prop :=
  ∀ (i : Nat) (p : Arg) (ws : List Str), ps[i]? = some p → as[i]? = some ws → ∀ w ∈ ws, (reads lib p.ty w).isSome

theorem readable_cons (lib : Lib) (p : Arg) (ps : List Arg) (a : List Str) (as : List (List Str)) :
    Readable lib (p :: ps) (a :: as) ↔ (∀ w ∈ a, (reads lib p.ty w).isSome) ∧ Readable lib ps as := by
  constructor
  · intro h
    exact ⟨h 0 p a rfl rfl, fun i p' ws h1 h2 => h (i + 1) p' ws h1 h2⟩
  · rintro ⟨h1, h2⟩ i p' ws hp ha
    cases i with
    | zero => simp at hp ha; subst hp ha; exact h1
    | succ i => exact h2 i p' ws (by simpa using hp) (by simpa using ha)

theorem readable_nil (lib : Lib) (ps : List Arg) : Readable lib ps (ps.map (fun _ => [])) := by
  intro i p ws hp ha w hw
  simp [List.getElem?_map, hp] at ha
  subst ha
  simp at hw

theorem parVals_nil (lib : Lib) : ∀ (ps : List Arg) (pv : List Val), pv.length = ps.length →
    parVals lib ps pv (ps.map (fun _ => [])) = pv := by
  intro ps
  induction ps with
  | nil => intro pv h; simp at h; subst h; rfl
  | cons p ps ih =>
    intro pv h
    cases pv with
    | nil => simp at h
    | cons v pv =>
      have := ih pv (by simpa using h)
      simp only [parVals] at this ⊢
      simp [after_nil, this]

def markFound (f : List Bool) (as : List (List Str)) : List Bool := (f.zip as).map (fun x => x.1 || !x.2.isEmpty)

theorem markFound_nil {α : Type} : ∀ (ps : List α) (f : List Bool), f.length = ps.length → markFound f (ps.map (fun _ => [])) = f := by
  intro ps
  induction ps with
  | nil => intro pv h; simp at h; subst h; rfl
  | cons p ps ih =>
    intro pv h
    cases pv with
    | nil => simp at h
    | cons v pv =>
      have := ih pv (by simpa using h)
      simp only [markFound] at this ⊢
      simp [this]

theorem markFound_cons (b : Bool) (f : List Bool) (a : List Str) (as : List (List Str)) :
    markFound (b :: f) (a :: as) = (b || !a.isEmpty) :: markFound f as := rfl

theorem parVals_cons (lib : Lib) (p : Arg) (ps : List Arg) (v : Val) (pv : List Val) (a : List Str) (as : List (List Str)) :
    parVals lib (p :: ps) (v :: pv) (a :: as) = after lib p.ty v a :: parVals lib ps pv as := rfl

theorem runPar_iff (lib : Lib) (params : List Arg) : ∀ (ws : List Str) (k : Nat) (pv pv' : List Val) (f f' : List Bool),
    pv.length = params.length → f.length = params.length →
    ((∃ k', runPar lib params ws k pv f = some (k', pv', f')) ↔
      ∃ as, assign (params.drop k) ws = some as ∧ Readable lib (params.drop k) as ∧
        pv' = pv.take k ++ parVals lib (params.drop k) (pv.drop k) as ∧ f' = f.take k ++ markFound (f.drop k) as) := by
  intro ws
  induction ws with
  | nil =>
    intro k pv pv' f f' h1 h2
    simp only [runPar, assign_nil, Option.some.injEq]
    constructor
    · rintro ⟨k', h⟩
      simp only [Prod.mk.injEq] at h
      obtain ⟨_, rfl, rfl⟩ := h
      refine ⟨_, rfl, readable_nil _ _, ?_, ?_⟩
      · rw [parVals_nil _ _ _ (by simp [h1]), List.take_append_drop]
      · rw [markFound_nil _ _ (by simp [h2]), List.take_append_drop]
    · rintro ⟨as, rfl, _, rfl, rfl⟩
      refine ⟨k, ?_⟩
      rw [parVals_nil _ _ _ (by simp [h1]), List.take_append_drop, markFound_nil _ _ (by simp [h2]), List.take_append_drop]
  | cons w ws ih =>
    intro k pv pv' f f' h1 h2
    simp only [runPar]
    by_cases hk : k < params.length
    · have hp : params[k]? = some params[k] := List.getElem?_eq_getElem hk
      have hd : params.drop k = params[k] :: params.drop (k + 1) := List.drop_eq_getElem_cons hk
      have hkv : k < pv.length := by omega
      have hkf : k < f.length := by omega
      have hdv : pv.drop k = pv[k] :: pv.drop (k + 1) := List.drop_eq_getElem_cons hkv
      have hdf : f.drop k = f[k] :: f.drop (k + 1) := List.drop_eq_getElem_cons hkf
      have hg : pv.getD k (.b false) = pv[k] := by simp [List.getD, hkv]
      simp only [hp, hg]
      rw [conv_eq]
      generalize params[k] = p at *
      cases hr : reads lib p.ty w with
      | none =>
        constructor
        · rintro ⟨k', h⟩; simp at h
        · rintro ⟨as, ha, hrd, _⟩
          rw [hd] at ha hrd
          simp only [assign] at ha
          exfalso
          split at ha
          · simp only [Option.some.injEq] at ha
            subst ha
            have := ((readable_cons ..).1 hrd).1 w (by simp)
            simp [hr] at this
          · simp only [Option.map_eq_some_iff] at ha
            obtain ⟨as', _, rfl⟩ := ha
            have := ((readable_cons ..).1 hrd).1 w (by simp)
            simp [hr] at this
      | some y =>
        simp only [Option.map_some, Option.bind_some]
        rw [ih _ _ _ _ _ (by simpa using h1) (by simpa using h2)]
        have hrw : (reads lib p.ty w).isSome := by simp [hr]
        generalize hx : after lib p.ty pv[k] [w] = x
        have e7 : (pv.set k x).drop (k + 1) = pv.drop (k + 1) := List.drop_set_of_lt (by omega)
        have e8 : (f.set k true).drop (k + 1) = f.drop (k + 1) := List.drop_set_of_lt (by omega)
        have e1 : (pv.set k x).take k = pv.take k := List.take_set_of_le (Nat.le_refl _)
        have e2 : (pv.set k x).drop k = x :: pv.drop (k + 1) := by
          rw [List.drop_eq_getElem_cons (by simpa using hkv), e7]; simp
        have e3 : (f.set k true).take k = f.take k := List.take_set_of_le (Nat.le_refl _)
        have e4 : (f.set k true).drop k = true :: f.drop (k + 1) := by
          rw [List.drop_eq_getElem_cons (by simpa using hkf), e8]; simp
        have e5 : (pv.set k x).take (k + 1) = pv.take k ++ [x] := by
          rw [List.take_succ_eq_append_getElem (by simpa using hkv), e1]; simp
        have e6 : (f.set k true).take (k + 1) = f.take k ++ [true] := by
          rw [List.take_succ_eq_append_getElem (by simpa using hkf), e3]; simp
        by_cases hs : p.ty = .strlist
        · have hrep : p.repeated = true := by simp [Arg.repeated, hs]
          simp only [hrep, if_true, e1, e2, e3, e4, hd, hdv, hdf]
          simp only [assign, hs, if_true, Option.some.injEq]
          constructor
          · rintro ⟨as, rfl, hrd, h3, h4⟩
            have hc := (readable_cons ..).1 hrd
            refine ⟨_, rfl, (readable_cons ..).2 ⟨?_, hc.2⟩, ?_, ?_⟩
            · intro z hz
              rcases List.mem_cons.1 hz with rfl | hz
              · exact hrw
              · exact hc.1 z hz
            · rw [h3]
              simp only [parVals, List.zip_cons_cons, List.map_cons]
              rw [← hx, after_cons]
              intro z hz
              rcases List.mem_cons.1 hz with rfl | hz
              · exact hrw
              · exact hc.1 z hz
            · rw [h4]; simp only [markFound_cons]; simp
          · rintro ⟨as, rfl, hrd, h3, h4⟩
            have hc := (readable_cons ..).1 hrd
            refine ⟨_, rfl, (readable_cons ..).2 ⟨fun z hz => hc.1 z (List.mem_cons_of_mem _ hz), hc.2⟩, ?_, ?_⟩
            · rw [h3]
              simp only [parVals, List.zip_cons_cons, List.map_cons]
              rw [← hx, after_cons]
              exact hc.1
            · rw [h4]; simp only [markFound_cons]; simp
        · have hrep : p.repeated = false := by simp [Arg.repeated, hs]
          simp only [hrep, Bool.false_eq_true, if_false, e5, e6, e7, e8, hd, hdv, hdf]
          simp only [assign, hs, if_false, Option.map_eq_some_iff, List.drop_succ_cons, List.drop_zero]
          constructor
          · rintro ⟨as, ha, hrd, h3, h4⟩
            refine ⟨_, ⟨as, ha, rfl⟩, (readable_cons ..).2 ⟨?_, hrd⟩, ?_, ?_⟩
            · intro z hz
              simp at hz
              subst hz
              exact hrw
            · rw [h3]; simp only [parVals_cons]; simp [hx]
            · rw [h4]; simp only [markFound_cons]; simp
          · rintro ⟨as, ⟨as', ha, rfl⟩, hrd, h3, h4⟩
            refine ⟨as', ha, ((readable_cons ..).1 hrd).2, ?_, ?_⟩
            · rw [h3]; simp only [parVals_cons]; simp [hx]
            · rw [h4]; simp only [markFound_cons]; simp
    · have hp : params[k]? = none := List.getElem?_eq_none (by omega)
      have hd : params.drop k = [] := List.drop_eq_nil_of_le (by omega)
      simp [hp, hd, assign]

theorem parses_indexed {opts : List Arg} {e : Bool} {args : List Str} {its : List Item} (h : Parses opts e args its) : Indexed opts its := by
  induction h with
  | nil => intro j w h; simp at h
  | stop _ _ _ _ ih => exact ih
  | dash _ _ _ ih => exact ih
  | flag arg j o rest its _ _ ho _ _ ih =>
    intro i w hi
    rcases List.mem_cons.1 hi with hi | hi
    · injection hi with h1 h2; subst h1; exact (List.getElem?_eq_some_iff.1 ho).1
    · exact ih i w hi
  | value arg j o x rest its _ _ ho _ _ ih =>
    intro i w hi
    rcases List.mem_cons.1 hi with hi | hi
    · injection hi with h1 h2; subst h1; exact (List.getElem?_eq_some_iff.1 ho).1
    · exact ih i w hi
  | par _ _ _ _ _ _ ih =>
    intro i w hi
    rcases List.mem_cons.1 hi with hi | hi
    · simp at hi
    · exact ih i w hi

end Stxxl.Cmdline
