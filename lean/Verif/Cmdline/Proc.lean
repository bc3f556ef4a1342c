import Verif.Cmdline.Spec
import Mathlib.Tactic.Common
import Mathlib.Tactic.ByContra

namespace Stxxl.Cmdline

/-- One item on the state. -/
def stepItem (lib : Lib) (opts params : List Arg) (st : PSt) : Item → Option PSt
  | .opt j w =>
    match opts[j]? with
    | none => none
    | some o => (conv lib o.ty (st.ov.getD j (.b false)) w).map (fun x => { st with ov := st.ov.set j x })
  | .par w =>
    match params[st.argi]? with
    | none => none
    | some p => (conv lib p.ty (st.pv.getD st.argi (.b false)) w).map (fun x =>
        { st with pv := st.pv.set st.argi x, found := st.found.set st.argi true, argi := if p.repeated then st.argi else st.argi + 1 })

def runItems (lib : Lib) (opts params : List Arg) : List Item → PSt → Option PSt
  | [], st => some st
  | it :: its, st => (stepItem lib opts params st it).bind (runItems lib opts params its)

theorem named_iff {arg : Str} {o : Arg} : named arg o = true ↔ names arg o := by
  unfold named names
  split
  · rename_i l
    constructor
    · intro h; exact Or.inl (by simpa using h)
    · rintro (h | ⟨hk, s, h⟩)
      · simpa using h
      · simp at h; exact absurd h.1.symm hk
  · rename_i c l hne
    constructor
    · intro h
      have : c = o.key := by simpa using h
      subst this
      exact Or.inr ⟨fun hk => hne hk, l, rfl⟩
    · rintro (h | ⟨hk, s, h⟩)
      · simp at h; exact absurd h.1 hne
      · simp at h; simpa using h.1
  · rename_i h1 h2
    constructor
    · intro h; simp at h
    · rintro (h | ⟨hk, s, h⟩)
      · exact absurd h (h1 _)
      · exact absurd h (h2 _ _)

theorem findIdx_namesAt {opts : List Arg} {arg : Str} {j : Nat} :
    opts.findIdx? (named arg) = some j ↔ namesAt opts arg j := by
  rw [List.findIdx?_eq_some_iff_getElem]
  unfold namesAt
  constructor
  · rintro ⟨h, h1, h2⟩
    refine ⟨⟨opts[j], by simp [h], named_iff.1 h1⟩, ?_⟩
    intro i hi o ho hn
    obtain ⟨hi', rfl⟩ := List.getElem?_eq_some_iff.1 ho
    exact absurd (named_iff.2 hn) (h2 i hi)
  · rintro ⟨⟨o, ho, hn⟩, h2⟩
    obtain ⟨hj, rfl⟩ := List.getElem?_eq_some_iff.1 ho
    refine ⟨hj, named_iff.2 hn, ?_⟩
    intro i hi hc
    exact h2 i hi _ (List.getElem?_eq_getElem (by omega)) (named_iff.1 hc)

theorem names_dash {arg : Str} {o : Arg} (h : names arg o) : arg.head? = some '-' ∧ arg ≠ ['-'] := by
  rcases h with h | ⟨_, s, h⟩ <;> subst h <;> simp

theorem step_end (lib : Lib) (opts params : List Arg) (it : Item) (st : PSt) (b : Bool) :
    stepItem lib opts params { st with endOpt := b } it = (stepItem lib opts params st it).map (fun s => { s with endOpt := b }) := by
  cases it <;> simp only [stepItem] <;> split <;> simp [Function.comp_def]

theorem run_end' (lib : Lib) (opts params : List Arg) : ∀ (its : List Item) (st : PSt) (b : Bool),
    runItems lib opts params its { st with endOpt := b } = (runItems lib opts params its st).map (fun s => { s with endOpt := b }) := by
  intro its
  induction its with
  | nil => intro st b; rfl
  | cons it its ih =>
    intro st b
    simp only [runItems, step_end]
    cases stepItem lib opts params st it with
    | none => rfl
    | some s => simp only [Option.map_some, Option.bind_some]; exact ih s b

theorem run_end (lib : Lib) (opts params : List Arg) (its : List Item) (st : PSt) (b : Bool) {st' : PSt} :
    (∃ e, runItems lib opts params its { st with endOpt := b } = some { st' with endOpt := e }) ↔
      ∃ e, runItems lib opts params its st = some { st' with endOpt := e } := by
  rw [run_end']
  cases h : runItems lib opts params its st with
  | none => simp
  | some s =>
    obtain ⟨a1, a2, a3, a4, a5⟩ := s
    obtain ⟨b1, b2, b3, b4, b5⟩ := st'
    simp

/-- With distinct state parts: acceptance by the loop is grouping into items plus running them. -/
theorem loop_iff (lib : Lib) (opts params : List Arg) : ∀ (n : Nat) (args : List Str), args.length ≤ n → ∀ (st st' : PSt),
    (∃ e, loop lib opts params args st = some { st' with endOpt := e }) ↔
      ∃ its, Parses opts st.endOpt args its ∧ ∃ e, runItems lib opts params its st = some { st' with endOpt := e } := by
  intro n
  induction n with
  | zero =>
    intro args hl st st'
    cases args with
    | cons a l => simp at hl
    | nil =>
      constructor
      · rintro ⟨e, h⟩
        exact ⟨[], .nil _, e, by simpa [loop, runItems] using h⟩
      · rintro ⟨its, hp, e, h⟩
        have : its = [] := by
          generalize st.endOpt = E at hp
          cases hp; rfl
        subst this
        exact ⟨e, by simpa [loop, runItems] using h⟩
  | succ n ih =>
    intro args hl st st'
    cases args with
    | nil =>
      constructor
      · rintro ⟨e, h⟩
        exact ⟨[], .nil _, e, by simpa [loop, runItems] using h⟩
      · rintro ⟨its, hp, e, h⟩
        have : its = [] := by
          generalize st.endOpt = E at hp
          cases hp; rfl
        subst this
        exact ⟨e, by simpa [loop, runItems] using h⟩
    | cons arg rest =>
      have hl' : rest.length ≤ n := by simp at hl; omega
      rw [loop]
      by_cases hd : arg.head? = some '-' ∧ st.endOpt = false
      · rw [if_pos hd]
        by_cases h3 : ['-', '-', '-'] <+: arg
        · rw [if_pos h3, ih rest hl']
          obtain ⟨s, rfl⟩ := h3
          constructor
          · rintro ⟨its, hp, e, h⟩
            refine ⟨its, by rw [hd.2]; exact .stop s rest its hp, ?_⟩
            have := run_end lib opts params its st true (st' := st')
            exact this.1 ⟨e, h⟩
          · rintro ⟨its, hp, e, h⟩
            rw [hd.2] at hp
            cases hp with
            | stop _ _ _ hp => exact ⟨its, hp, (run_end lib opts params its st true (st' := st')).2 ⟨e, h⟩⟩
            | flag _ _ _ _ _ hn => exact absurd ⟨s, rfl⟩ hn
            | value _ _ _ _ _ _ hn => exact absurd ⟨s, rfl⟩ hn
            | par _ _ _ _ hc => simp at hc
        · rw [if_neg h3]
          by_cases h1 : arg = ['-']
          · rw [if_pos h1, ih rest hl']
            subst h1
            constructor
            · rintro ⟨its, hp, h⟩
              refine ⟨its, ?_, h⟩
              rw [hd.2] at hp ⊢
              exact .dash rest its hp
            · rintro ⟨its, hp, h⟩
              rw [hd.2] at hp
              cases hp with
              | dash _ _ hp => exact ⟨its, by rw [hd.2]; exact hp, h⟩
              | flag _ _ _ _ _ _ hn => obtain ⟨⟨o, _, hn⟩, _⟩ := hn; exact absurd rfl (names_dash hn).2
              | value _ _ _ _ _ _ _ hn => obtain ⟨⟨o, _, hn⟩, _⟩ := hn; exact absurd rfl (names_dash hn).2
              | par _ _ _ _ hc => simp at hc
          · rw [if_neg h1]
            cases hf : opts.findIdx? (named arg) with
            | none =>
              constructor
              · rintro ⟨e, h⟩; simp at h
              · rintro ⟨its, hp, _⟩
                rw [hd.2] at hp
                cases hp with
                | stop => simp at h3
                | dash => simp at h1
                | flag _ _ _ _ _ _ hn => rw [findIdx_namesAt.2 hn] at hf; simp at hf
                | value _ _ _ _ _ _ _ hn => rw [findIdx_namesAt.2 hn] at hf; simp at hf
                | par _ _ _ _ hc => simp [hd.1] at hc
            | some j =>
              have hna := findIdx_namesAt.1 hf
              obtain ⟨⟨o, ho, hno⟩, _⟩ := hna
              simp only [ho]
              by_cases hty : o.ty = .flag
              · rw [if_pos hty, ih rest hl']
                constructor
                · rintro ⟨its, hp, h⟩
                  refine ⟨.opt j [] :: its, ?_, ?_⟩
                  · rw [hd.2]
                    exact .flag arg j o rest its h3 (findIdx_namesAt.1 hf) ho hty (by simpa [hd.2] using hp)
                  · simpa [runItems, stepItem, ho, hty, conv] using h
                · rintro ⟨its, hp, h⟩
                  rw [hd.2] at hp
                  cases hp with
                  | stop => simp at h3
                  | dash => simp at h1
                  | flag _ j2 o2 _ its _ hn ho2 hty2 hp =>
                    have : j2 = j := by
                      have := findIdx_namesAt.2 hn; rw [hf] at this; simpa using this.symm
                    subst this
                    refine ⟨its, by simpa [hd.2] using hp, ?_⟩
                    simpa [runItems, stepItem, ho, hty, conv] using h
                  | value _ j2 o2 _ _ its _ hn ho2 hty2 hp =>
                    have : j2 = j := by
                      have := findIdx_namesAt.2 hn; rw [hf] at this; simpa using this.symm
                    subst this
                    rw [ho] at ho2
                    simp at ho2
                    subst ho2
                    exact absurd hty hty2
                  | par _ _ _ _ hc => simp [hd.1] at hc
              · rw [if_neg hty]
                cases rest with
                | nil =>
                  constructor
                  · rintro ⟨e, h⟩; simp at h
                  · rintro ⟨its, hp, _⟩
                    rw [hd.2] at hp
                    cases hp with
                    | stop => simp at h3
                    | dash => simp at h1
                    | flag _ j2 o2 _ its _ hn ho2 hty2 hp =>
                      have : j2 = j := by
                        have := findIdx_namesAt.2 hn; rw [hf] at this; simpa using this.symm
                      subst this
                      rw [ho] at ho2; simp at ho2; subst ho2
                      exact absurd hty2 hty
                    | par _ _ _ _ hc => simp [hd.1] at hc
                | cons v rest' =>
                  have hl2 : rest'.length ≤ n := by simp at hl'; omega
                  cases hcv : conv lib o.ty (st.ov.getD j (.b false)) v with
                  | none =>
                    constructor
                    · rintro ⟨e, h⟩; simp only [hcv] at h; simp at h
                    · rintro ⟨its, hp, e, h⟩
                      rw [hd.2] at hp
                      cases hp with
                      | stop => simp at h3
                      | dash => simp at h1
                      | flag _ j2 o2 _ its _ hn ho2 hty2 hp =>
                        have : j2 = j := by
                          have := findIdx_namesAt.2 hn; rw [hf] at this; simpa using this.symm
                        subst this
                        rw [ho] at ho2; simp at ho2; subst ho2
                        exact absurd hty2 hty
                      | value _ j2 o2 _ _ its _ hn ho2 hty2 hp =>
                        have : j2 = j := by
                          have := findIdx_namesAt.2 hn; rw [hf] at this; simpa using this.symm
                        subst this
                        simp only [runItems, stepItem, ho, hcv] at h
                        simp at h
                      | par _ _ _ _ hc => simp [hd.1] at hc
                  | some x =>
                    simp only [hcv]
                    rw [ih rest' hl2]
                    constructor
                    · rintro ⟨its, hp, h⟩
                      refine ⟨.opt j v :: its, ?_, ?_⟩
                      · rw [hd.2]
                        exact .value arg j o v rest' its h3 (findIdx_namesAt.1 hf) ho hty (by simpa [hd.2] using hp)
                      · simp only [runItems, stepItem, ho, hcv]
                        exact h
                    · rintro ⟨its, hp, h⟩
                      rw [hd.2] at hp
                      cases hp with
                      | stop => simp at h3
                      | dash => simp at h1
                      | flag _ j2 o2 _ its _ hn ho2 hty2 hp =>
                        have : j2 = j := by
                          have := findIdx_namesAt.2 hn; rw [hf] at this; simpa using this.symm
                        subst this
                        rw [ho] at ho2; simp at ho2; subst ho2
                        exact absurd hty2 hty
                      | value _ j2 o2 _ _ its _ hn ho2 hty2 hp =>
                        have : j2 = j := by
                          have := findIdx_namesAt.2 hn; rw [hf] at this; simpa using this.symm
                        subst this
                        refine ⟨its, by simpa [hd.2] using hp, ?_⟩
                        simp only [runItems, stepItem, ho, hcv] at h
                        exact h
                      | par _ _ _ _ hc => simp [hd.1] at hc
      · rw [if_neg hd]
        have hpar : st.endOpt = true ∨ arg.head? ≠ some '-' := by
          by_contra hc
          push Not at hc
          exact hd ⟨hc.2, by simpa using hc.1⟩
        have only : ∀ its, Parses opts st.endOpt (arg :: rest) its → ∃ its', its = .par arg :: its' ∧ Parses opts st.endOpt rest its' := by
          intro its hp
          generalize hE : st.endOpt = E at hp hpar
          cases hp with
          | stop => simp at hpar
          | dash => simp at hpar
          | flag _ _ _ _ _ _ hn => obtain ⟨⟨o, _, hn⟩, _⟩ := hn; simp [(names_dash hn).1] at hpar
          | value _ _ _ _ _ _ _ hn => obtain ⟨⟨o, _, hn⟩, _⟩ := hn; simp [(names_dash hn).1] at hpar
          | par _ _ _ its _ hp => exact ⟨_, rfl, hp⟩
        cases hpp : params[st.argi]? with
        | none =>
          constructor
          · rintro ⟨e, h⟩; simp at h
          · rintro ⟨its, hp, e, h⟩
            obtain ⟨its', rfl, _⟩ := only its hp
            simp [runItems, stepItem, hpp] at h
        | some p =>
          cases hcv : conv lib p.ty (st.pv.getD st.argi (.b false)) arg with
          | none =>
            constructor
            · rintro ⟨e, h⟩; simp only [hcv] at h; simp at h
            · rintro ⟨its, hp, e, h⟩
              obtain ⟨its', rfl, _⟩ := only its hp
              simp only [runItems, stepItem, hpp, hcv] at h
              simp at h
          | some x =>
            simp only [hcv]
            rw [ih rest hl']
            constructor
            · rintro ⟨its, hp, h⟩
              refine ⟨.par arg :: its, .par _ arg rest its hpar hp, ?_⟩
              simp only [runItems, stepItem, hpp, hcv]
              exact h
            · rintro ⟨its, hp, h⟩
              obtain ⟨its', rfl, hp'⟩ := only its hp
              refine ⟨its', hp', ?_⟩
              simp only [runItems, stepItem, hpp, hcv] at h
              exact h

end Stxxl.Cmdline
