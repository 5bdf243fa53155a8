import Verif.Model.KappaRun
import Verif.Props.KappaCfgOpt

/-! # C124: a model that is only called DEBYE -/

namespace TEflow.KappaRun

open PyDict Re Loader Interface TableFile ToolRuns KappaCfg

/-- the option is there and switched off -/
def Off (e : Entry) (k : String) : Prop :=
  ∃ t, get? e k = some t ∧ String.ofList (t.map Char.toLower) ∈ ["0", "no", "false", "off"]

theorem off_iff (e : Entry) (k : String) : getBoolean e k true = .ok false ↔ Off e k := by
  unfold getBoolean Off
  rw [lowerAscii_eq]
  cases h : get? e k with
  | none => simp
  | some t =>
    simp only [Option.some.injEq, exists_eq_left']
    generalize String.ofList (t.map Char.toLower) = w
    by_cases h1 : w ∈ ["1", "yes", "true", "on"]
    · rw [if_pos h1]
      simp only [Except.ok.injEq, Bool.true_eq_false, false_iff]
      intro h2
      revert h2
      simp only [List.mem_cons, List.not_mem_nil, or_false] at h1
      rcases h1 with rfl | rfl | rfl | rfl <;> decide
    · rw [if_neg h1]
      split <;> simp [*]

/-- the unit of frequency can be had without a Debye model: a number, THz, or anything that is not the name of a unit of the Debye
frequency or of the reduced frequency -/
def FreeUnit (E : Env) (e : Entry) : Prop :=
  ∀ t, get? e "frequnit" = some t → (∃ x, E.float t = .ok x) ∨ Begins "thz" t ∨
    ¬ (Begins "omega_d" t ∨ Begins "wd" t ∨ Begins "w_d" t ∨ Begins "norm" t ∨ Begins "reduce" t ∨ Begins "x" t)

/-- the temperature can be read -/
def ReadableTemperature (E : Env) (e : Entry) : Prop := ∀ t, get? e "temperature" = some t → ∃ x, E.float t = .ok x

theorem unit_free (E : Env) (e : Entry) (T : ℝ) : (∃ u, unitStep E e none T = .ok u) ↔ FreeUnit E e := by
  have key : ∀ t, unitNeedsDebye E.float t = false ↔ (∃ x, E.float t = .ok x) ∨ Begins "thz" t ∨
      ¬ (Begins "omega_d" t ∨ Begins "wd" t ∨ Begins "w_d" t ∨ Begins "norm" t ∨ Begins "reduce" t ∨ Begins "x" t) := by
    intro t
    unfold unitNeedsDebye
    simp only [← prefixCI_iff]
    cases h : E.float t with
    | ok x => simp
    | error err =>
      simp only [reduceCtorEq, exists_false, false_or]
      generalize prefixCI "thz" t = a
      generalize prefixCI "omega_d" t = b
      generalize prefixCI "wd" t = c
      generalize prefixCI "w_d" t = d
      generalize prefixCI "norm" t = n
      generalize prefixCI "reduce" t = r
      generalize prefixCI "x" t = x
      cases a <;> simp [and_assoc]
  have step : (∃ u, unitStep E e none T = .ok u) ↔
      unitNeedsDebye E.float ((get? e "frequnit").getD "2pi.THz".toList) = false := by
    unfold unitStep
    cases unitNeedsDebye E.float ((get? e "frequnit").getD "2pi.THz".toList) <;> simp
  rw [step, key]
  unfold FreeUnit
  cases h : get? e "frequnit" with
  | some t => simp
  | none =>
    simp only [Option.getD_none, reduceCtorEq, false_implies, implies_true, iff_true]
    refine .inr (.inr ?_)
    simp only [← prefixCI_iff]
    decide

/-- **C124** A model of another type in a section called DEBYE is treated as a Debye model: the run succeeds exactly if the four settings
for details are all switched off, the temperature can be read, and the unit of frequency does not need the Debye model; then there are no
detail tables. -/
theorem C124_foreign (E : Env) (e : Entry) (o : Obj) (s : KappaVar.St) (n : Int) (r : Results) (htag : o.tag = "DEBYE".toList)
    (hty : o.ty ≠ "DEBYE") :
    ((∃ r', detailStep E e o s n r = .ok r') ↔ Off e "splitkappa" ∧ Off e "scattering" ∧ Off e "spectral" ∧ Off e "cumulate" ∧
      ReadableTemperature E e ∧ FreeUnit E e) ∧
    (∀ r', detailStep E e o s n r = .ok r' → r' = { r with rate := none, spec := none, cumu := none }) := by
  have hd : debyeResults o = true := by unfold debyeResults; simp [htag]
  have ho : debyeObj E o s = .ok none := by unfold debyeObj; rw [if_neg hty]
  have hs : ∀ c, splitStep E e none r.predX r.pred = .ok c ↔ Off e "splitkappa" ∧ c = r.pred := by
    intro c
    rw [← off_iff]
    unfold splitStep
    rcases getBoolean e "splitkappa" true with err | _ | _ <;> simp [asDebye, eq_comm]
  have h1 : ∀ T u c, rateStep e none n T u = .ok c ↔ Off e "scattering" ∧ c = none := by
    intro T u c
    rw [← off_iff]
    unfold rateStep
    rcases getBoolean e "scattering" true with err | _ | _ <;> simp [asDebye, eq_comm]
  have h2 : ∀ T u c, specStep e none n T u = .ok c ↔ Off e "spectral" ∧ c = none := by
    intro T u c
    rw [← off_iff]
    unfold specStep
    rcases getBoolean e "spectral" true with err | _ | _ <;> simp [asDebye, eq_comm]
  have h3 : ∀ T c, cumuStep e none n T = .ok c ↔ Off e "cumulate" ∧ c = none := by
    intro T c
    rw [← off_iff]
    unfold cumuStep
    rcases getBoolean e "cumulate" true with err | _ | _ <;> simp [asDebye, eq_comm]
  have hT : (∃ T, getConv E.float e "temperature" 300 = .ok T) ↔ ReadableTemperature E e := by
    unfold getConv ReadableTemperature
    cases get? e "temperature" <;> simp
  have split : ∀ r', detailStep E e o s n r = .ok r' ↔ ∃ c T u a b d, splitStep E e none r.predX r.pred = .ok c ∧
      getConv E.float e "temperature" 300 = .ok T ∧ unitStep E e none T = .ok u ∧ rateStep e none n T u = .ok a ∧
      specStep e none n T u = .ok b ∧ cumuStep e none n T = .ok d ∧ r' = { r with pred := c, rate := a, spec := b, cumu := d } := by
    intro r'
    unfold detailStep
    rw [hd]
    simp only [if_true, ho, bind, Except.bind]
    cases splitStep E e none r.predX r.pred with
    | error => simp
    | ok c =>
    cases getConv E.float e "temperature" 300 with
    | error => simp
    | ok T =>
    simp only
    cases hu : unitStep E e none T with
    | error => simp [hu]
    | ok u =>
    simp only
    cases hr : rateStep e none n T u with
    | error => simp [hu, hr]
    | ok a =>
    simp only
    cases hp : specStep e none n T u with
    | error => simp [hu, hr, hp]
    | ok b =>
    simp only
    cases hc : cumuStep e none n T with
    | error => simp [hu, hr, hp, hc]
    | ok d => simp [hu, hr, hp, hc, pure, Except.pure, eq_comm]
  constructor
  · constructor
    · rintro ⟨r', h⟩
      obtain ⟨c, T, u, a, b, d, e1, e2, e3, e4, e5, e6, -⟩ := (split r').1 h
      exact ⟨((hs c).1 e1).1, ((h1 _ _ _).1 e4).1, ((h2 _ _ _).1 e5).1, ((h3 _ _).1 e6).1, hT.1 ⟨T, e2⟩, (unit_free E e T).1 ⟨u, e3⟩⟩
    · rintro ⟨a1, a2, a3, a4, a5, a6⟩
      obtain ⟨T, hT⟩ := hT.2 a5
      obtain ⟨u, hu⟩ := (unit_free E e T).2 a6
      exact ⟨_, (split _).2 ⟨_, T, u, _, _, _, (hs _).2 ⟨a1, rfl⟩, hT, hu, (h1 _ _ _).2 ⟨a2, rfl⟩, (h2 _ _ _).2 ⟨a3, rfl⟩,
        (h3 _ _).2 ⟨a4, rfl⟩, rfl⟩⟩
  · intro r' h
    obtain ⟨c, T, u, a, b, d, e1, e2, e3, e4, e5, e6, rfl⟩ := (split r').1 h
    rw [((hs c).1 e1).2, ((h1 _ _ _).1 e4).2, ((h2 _ _ _).1 e5).2, ((h3 _ _).1 e6).2]

/-- the default settings are all on -/
example (E : Env) (s : KappaVar.St) (n : Int) (r : Results) (o : Obj) (htag : o.tag = "DEBYE".toList) (hty : o.ty = "SLACK") :
    ¬ ∃ r', detailStep E [] o s n r = .ok r' := by
  rw [(C124_foreign E [] o s n r htag (by rw [hty]; decide)).1]
  rintro ⟨⟨t, h, -⟩, -⟩
  cases h

end TEflow.KappaRun
