import Mathlib.Tactic
import Verif.Model.KappaWire
import Verif.Props.KappaCfgSub
import Verif.Props.KappaDebye
import Verif.Props.KappaKlemens

/-! # C108: from the sections of a configuration to rates and conductivities -/

namespace TEflow.KappaCfg

open Re PyDict Utils Kappa

variable {float : List Char → Except PyErr ℝ} {cfg : Config} {vars : List (List Char × VarVal)} {name : List Char} {o : Obj}

/-- every argument is a number or a variable -/
def Numeric (o : Obj) : Prop := ∀ k v, get? o.args k = some (some v) → (∃ x, v = .num x) ∨ ∃ r, v = .ref r

/-- the number given for an argument, or a default: numbers and constants as they are, variables with their current (scaled) value -/
noncomputable def valueOr (env : Nat → ℝ) (o : Obj) (k : String) (d : ℝ) : ℝ :=
  match get? o.args k with
  | some (some (.num x)) => x
  | some (some (.ref (.const x))) => x
  | some (some (.ref (.var i))) => env i
  | _ => d

/-- the number given for an argument that is there -/
noncomputable abbrev valueOf (env : Nat → ℝ) (o : Obj) (k : String) : ℝ := valueOr env o k 0

/-- what every type of section needs -/
def needs : List (String × List String) := [
  ("DEBYE", ["vs", "td", "components"]), ("PH", ["gm", "vs", "Va", "Ma"]), ("PHX", ["coef"]), ("PD", ["vs", "Va", "G"]), ("PDX", ["coef"]),
  ("GB", ["vs", "L"]), ("NP", ["vs", "R", "N1", "D0", "D1"]), ("NPX", ["vs", "R", "phi", "D0", "D1"]), ("DL", ["Nd", "vs", "Va", "Bd", "gm"]),
  ("SF", ["Nsf", "vs", "Va", "gm"]), ("EP", ["vs", "md", "EF", "Ed", "D0"]), ("EPR", ["vs", "md", "Ed", "D0", "Rep"]),
  ("EPX", ["vs", "md", "EF", "coef"]), ("EPRX", ["Rep", "coef"]), ("CAHILL", []), ("SLACK", ["td", "gm", "Ma", "Va", "A"]),
  ("BIPOLAR", ["Kbp", "Eg"]), ("POWERLAW", ["Kamb"]), ("KLEMENS", ["Kpure", "vs", "td", "G0", "Va"])]

theorem args_of (hcfg : Distinct cfg) (h : Built float cfg vars name o) {ty : String} (hty : o.ty = ty) {req opt : List String}
    (hm : get? execMeta ty = some (req, opt)) :
    (∀ k ∈ req, ∃ v, get? o.args k = some (some v)) ∧ (∀ k, k ∉ req → k ∉ opt → get? o.args k = none) ∧
    ∀ k x, get? o.args k = some x → ∃ v, x = some v := by
  obtain ⟨items, ty', req', opt', kw, h1, h2, h3, h4, _, h6, h7, _⟩ := C96_built hcfg name o h
  rw [← h4, hty, hm] at h2
  cases h2
  refine ⟨fun k hk => ?_, fun k hk hk' => ?_, fun k x hx => ?_⟩
  · rw [h7, if_pos (.inl hk)]
    exact h6 k hk
  · rw [h7, if_neg (by tauto)]
  · rw [h7] at hx
    split_ifs at hx
    have hmem := get?_mem hx
    obtain ⟨it, _, hit⟩ := (forall2_mem_right h3) _ hmem
    obtain ⟨_, w, hw, _⟩ := hit
    exact ⟨w, hw⟩

theorem numVal_valueOr {env : Nat → ℝ} {k : String} {v : Val Obj} (hn : Numeric o) (hv : get? o.args k = some (some v)) (d : ℝ) :
    numVal env v = .ok (valueOr env o k d) := by
  unfold valueOr
  rw [hv]
  rcases hn k v hv with ⟨x, rfl⟩ | ⟨r, rfl⟩
  · rfl
  · cases r <;> rfl

theorem kwarg_req {env : Nat → ℝ} {k : String} (hn : Numeric o) (hv : ∃ v, get? o.args k = some (some v)) (d : Option ℝ) :
    kwarg env o k d = .ok (some (valueOf env o k)) := by
  obtain ⟨v, hv⟩ := hv
  unfold kwarg
  rw [hv]
  simp only
  rw [numVal_valueOr hn hv]
  rfl

theorem kwarg_none {env : Nat → ℝ} {k : String} (hv : get? o.args k = none) (d : Option ℝ) : kwarg env o k d = .ok d := by
  unfold kwarg
  rw [hv]

theorem kwarg_opt {env : Nat → ℝ} {k : String} (hn : Numeric o) (hs : ∀ k x, get? o.args k = some x → ∃ v, x = some v) (d : ℝ) :
    kwarg env o k (some d) = .ok (some (valueOr env o k d)) := by
  cases hg : get? o.args k with
  | none =>
    rw [kwarg_none hg]
    unfold valueOr
    rw [hg]
  | some x =>
    obtain ⟨v, rfl⟩ := hs k x hg
    unfold kwarg
    rw [hg]
    simp only
    rw [numVal_valueOr hn hg d]
    rfl

theorem posarg_req {env : Nat → ℝ} {k : String} (hn : Numeric o) (hv : ∃ v, get? o.args k = some (some v)) :
    posarg env o k = .ok (valueOf env o k) := by
  obtain ⟨v, hv⟩ := hv
  unfold posarg
  rw [hv]
  simp only
  rw [numVal_valueOr hn hv]

theorem numarg_opt {env : Nat → ℝ} {k : String} (hn : Numeric o) (hs : ∀ k x, get? o.args k = some x → ∃ v, x = some v) (d : ℝ) :
    numarg env o k d = .ok (valueOr env o k d) := by
  cases hg : get? o.args k with
  | none =>
    unfold numarg valueOr
    rw [hg]
  | some x =>
    obtain ⟨v, rfl⟩ := hs k x hg
    unfold numarg
    rw [hg]
    simp only
    rw [numVal_valueOr hn hg d]

/-! ## Scattering mechanisms -/

/-- **C108** `PH`: three-phonon scattering with the parameters of the section; `A` is 1 and `Theta` 0 unless given. -/
theorem C108_PH (hcfg : Distinct cfg) (h : Built float cfg vars name o) (hty : o.ty = "PH") (hn : Numeric o) (env : Nat → ℝ) :
    rateOf env o = .ok (Ph.formula (gm := valueOf env o "gm") (vs := valueOf env o "vs") (Va := valueOf env o "Va") (Ma := valueOf env o "Ma")
      (A := valueOr env o "A" 1) (Theta := valueOr env o "Theta" 0)).rate := by
  obtain ⟨h1, h2, h3⟩ := args_of hcfg h hty (req := ["gm", "vs", "Va", "Ma"]) (opt := ["A", "Theta"]) (by decide)
  unfold rateOf
  rw [if_pos (.inl hty)]
  unfold makePh
  rw [kwarg_req hn (h1 "gm" (by decide)), kwarg_req hn (h1 "vs" (by decide)), kwarg_req hn (h1 "Va" (by decide)),
    kwarg_req hn (h1 "Ma" (by decide)), kwarg_opt hn h3, kwarg_opt hn h3, kwarg_none (h2 "coef" (by decide) (by decide))]
  rfl

/-- **C108** `PHX`: three-phonon scattering with a given coefficient -/
theorem C108_PHX (hcfg : Distinct cfg) (h : Built float cfg vars name o) (hty : o.ty = "PHX") (hn : Numeric o) (env : Nat → ℝ) :
    rateOf env o = .ok (Ph.direct (coef := valueOf env o "coef") (Theta := valueOr env o "Theta" 0)).rate := by
  obtain ⟨h1, h2, h3⟩ := args_of hcfg h hty (req := ["coef"]) (opt := ["Theta"]) (by decide)
  have e : rateOf env o = makePh env o := by
    unfold rateOf
    simp [hty]
  rw [e]
  unfold makePh
  rw [kwarg_none (h2 "gm" (by decide) (by decide)), kwarg_none (h2 "vs" (by decide) (by decide)), kwarg_none (h2 "Va" (by decide) (by decide)), kwarg_none (h2 "Ma" (by decide) (by decide)), kwarg_none (h2 "A" (by decide) (by decide)), kwarg_opt hn h3, kwarg_req hn (h1 "coef" (by decide))]
  rfl

/-- **C108** `PD`: point defects -/
theorem C108_PD (hcfg : Distinct cfg) (h : Built float cfg vars name o) (hty : o.ty = "PD") (hn : Numeric o) (env : Nat → ℝ) :
    rateOf env o = .ok (Pd.formula (vs := valueOf env o "vs") (Va := valueOf env o "Va") (G := valueOf env o "G")).rate := by
  obtain ⟨h1, h2, h3⟩ := args_of hcfg h hty (req := ["vs", "Va", "G"]) (opt := []) (by decide)
  have e : rateOf env o = makePd env o := by
    unfold rateOf
    simp [hty]
  rw [e]
  unfold makePd
  rw [kwarg_req hn (h1 "vs" (by decide)), kwarg_req hn (h1 "Va" (by decide)), kwarg_req hn (h1 "G" (by decide)), kwarg_none (h2 "coef" (by decide) (by decide))]
  rfl

/-- **C108** `PDX`: point defects with a given coefficient -/
theorem C108_PDX (hcfg : Distinct cfg) (h : Built float cfg vars name o) (hty : o.ty = "PDX") (hn : Numeric o) (env : Nat → ℝ) :
    rateOf env o = .ok (Pd.direct (coef := valueOf env o "coef")).rate := by
  obtain ⟨h1, h2, h3⟩ := args_of hcfg h hty (req := ["coef"]) (opt := []) (by decide)
  have e : rateOf env o = makePd env o := by
    unfold rateOf
    simp [hty]
  rw [e]
  unfold makePd
  rw [kwarg_none (h2 "vs" (by decide) (by decide)), kwarg_none (h2 "Va" (by decide) (by decide)), kwarg_none (h2 "G" (by decide) (by decide)), kwarg_req hn (h1 "coef" (by decide))]
  rfl

/-- **C108** `GB`: grain boundaries; `alpha` is 1 unless given -/
theorem C108_GB (hcfg : Distinct cfg) (h : Built float cfg vars name o) (hty : o.ty = "GB") (hn : Numeric o) (env : Nat → ℝ) :
    rateOf env o = .ok ({ vs := valueOf env o "vs", L := valueOf env o "L", alpha := valueOr env o "alpha" 1 } : Gb).rate := by
  obtain ⟨h1, h2, h3⟩ := args_of hcfg h hty (req := ["vs", "L"]) (opt := ["alpha"]) (by decide)
  have e : rateOf env o = makeGb env o := by
    unfold rateOf
    simp [hty]
  rw [e]
  unfold makeGb
  rw [posarg_req hn (h1 "vs" (by decide)), posarg_req hn (h1 "L" (by decide)), numarg_opt hn h3]
  rfl

/-- **C108** `NP`: nanoparticles, their amount given by the number density; the force-constant ratio terms default to 1 -/
theorem C108_NP (hcfg : Distinct cfg) (h : Built float cfg vars name o) (hty : o.ty = "NP") (hn : Numeric o) (env : Nat → ℝ) :
    rateOf env o = .ok ({ amount := .density (valueOf env o "N1"), vs := valueOf env o "vs", R := valueOf env o "R", D0 := valueOf env o "D0", D1 := valueOf env o "D1", Y0 := valueOr env o "Y0" 1, Y1 := valueOr env o "Y1" 1, alpha := valueOr env o "alpha" 1 } : Np).rate := by
  obtain ⟨h1, h2, h3⟩ := args_of hcfg h hty (req := ["vs", "R", "N1", "D0", "D1"]) (opt := ["Y0", "Y1", "alpha"]) (by decide)
  have e : rateOf env o = makeNp env o := by
    unfold rateOf
    simp [hty]
  rw [e]
  unfold makeNp
  rw [kwarg_req hn (h1 "N1" (by decide)), kwarg_req hn (h1 "vs" (by decide)), kwarg_req hn (h1 "R" (by decide)), kwarg_req hn (h1 "D0" (by decide)), kwarg_req hn (h1 "D1" (by decide)), kwarg_opt hn h3, kwarg_opt hn h3, kwarg_opt hn h3, kwarg_none (h2 "phi" (by decide) (by decide))]
  rfl

/-- **C108** `NPX`: nanoparticles, their amount given by the volume fraction; the force-constant ratio terms default to 1 -/
theorem C108_NPX (hcfg : Distinct cfg) (h : Built float cfg vars name o) (hty : o.ty = "NPX") (hn : Numeric o) (env : Nat → ℝ) :
    rateOf env o = .ok ({ amount := .fraction (valueOf env o "phi"), vs := valueOf env o "vs", R := valueOf env o "R", D0 := valueOf env o "D0", D1 := valueOf env o "D1", Y0 := valueOr env o "Y0" 1, Y1 := valueOr env o "Y1" 1, alpha := valueOr env o "alpha" 1 } : Np).rate := by
  obtain ⟨h1, h2, h3⟩ := args_of hcfg h hty (req := ["vs", "R", "phi", "D0", "D1"]) (opt := ["Y0", "Y1", "alpha"]) (by decide)
  have e : rateOf env o = makeNp env o := by
    unfold rateOf
    simp [hty]
  rw [e]
  unfold makeNp
  rw [kwarg_none (h2 "N1" (by decide) (by decide)), kwarg_req hn (h1 "vs" (by decide)), kwarg_req hn (h1 "R" (by decide)), kwarg_req hn (h1 "D0" (by decide)), kwarg_req hn (h1 "D1" (by decide)), kwarg_opt hn h3, kwarg_opt hn h3, kwarg_opt hn h3, kwarg_req hn (h1 "phi" (by decide))]
  rfl

/-- **C108** `DL`: dislocations; `F` is 1 and `alpha` 0.55 unless given -/
theorem C108_DL (hcfg : Distinct cfg) (h : Built float cfg vars name o) (hty : o.ty = "DL") (hn : Numeric o) (env : Nat → ℝ) :
    rateOf env o = .ok ({ Nd := valueOf env o "Nd", vs := valueOf env o "vs", Va := valueOf env o "Va", Bd := valueOf env o "Bd", gm := valueOf env o "gm", F := valueOr env o "F" 1, alpha := valueOr env o "alpha" (55 / 100) } : Dl).rate := by
  obtain ⟨h1, h2, h3⟩ := args_of hcfg h hty (req := ["Nd", "vs", "Va", "Bd", "gm"]) (opt := ["F", "alpha"]) (by decide)
  have e : rateOf env o = makeDl env o := by
    unfold rateOf
    simp [hty]
  rw [e]
  unfold makeDl
  rw [posarg_req hn (h1 "Nd" (by decide)), posarg_req hn (h1 "vs" (by decide)), posarg_req hn (h1 "Va" (by decide)), posarg_req hn (h1 "Bd" (by decide)), posarg_req hn (h1 "gm" (by decide)), numarg_opt hn h3, numarg_opt hn h3]
  rfl

/-- **C108** `SF`: stacking faults; `alpha` is 0.7 unless given -/
theorem C108_SF (hcfg : Distinct cfg) (h : Built float cfg vars name o) (hty : o.ty = "SF") (hn : Numeric o) (env : Nat → ℝ) :
    rateOf env o = .ok ({ Nsf := valueOf env o "Nsf", vs := valueOf env o "vs", Va := valueOf env o "Va", gm := valueOf env o "gm", alpha := valueOr env o "alpha" (7 / 10) } : Sf).rate := by
  obtain ⟨h1, h2, h3⟩ := args_of hcfg h hty (req := ["Nsf", "vs", "Va", "gm"]) (opt := ["alpha"]) (by decide)
  have e : rateOf env o = makeSf env o := by
    unfold rateOf
    simp [hty]
  rw [e]
  unfold makeSf
  rw [posarg_req hn (h1 "Nsf" (by decide)), posarg_req hn (h1 "vs" (by decide)), posarg_req hn (h1 "Va" (by decide)), posarg_req hn (h1 "gm" (by decide)), numarg_opt hn h3]
  rfl

/-- **C108** `CAHILL`: Cahill's minimum rate -/
theorem C108_CAHILL (hcfg : Distinct cfg) (h : Built float cfg vars name o) (hty : o.ty = "CAHILL") (hn : Numeric o) (env : Nat → ℝ) :
    rateOf env o = .ok fun w _ => valueOr env o "alpha" 1 * w / Real.pi := by
  obtain ⟨h1, h2, h3⟩ := args_of hcfg h hty (req := []) (opt := ["alpha"]) (by decide)
  have e : rateOf env o = makeCahill env o := by
    unfold rateOf
    simp [hty]
  rw [e]
  unfold makeCahill
  rw [numarg_opt hn h3]
  rfl

/-- **C108** `EP`: electrons, everything computed from the five parameters -/
theorem C108_EP (hcfg : Distinct cfg) (h : Built float cfg vars name o) (hty : o.ty = "EP") (hn : Numeric o) (env : Nat → ℝ) :
    rateOf env o = .ok fun w T => epConst * (valueOf env o "Ed" * valueOf env o "md") ^ 2 / (valueOf env o "D0" * valueOf env o "vs") *
      repOf (valueOf env o "md") (valueOf env o "vs") (valueOf env o "EF") w T * w := by
  obtain ⟨h1, h2, h3⟩ := args_of hcfg h hty (req := ["vs", "md", "EF", "Ed", "D0"]) (opt := []) (by decide)
  have e : rateOf env o = makeEp env o := by
    unfold rateOf
    simp [hty]
  rw [e]
  unfold makeEp
  rw [kwarg_req hn (h1 "vs" (by decide)), kwarg_req hn (h1 "md" (by decide)), kwarg_req hn (h1 "EF" (by decide)), kwarg_req hn (h1 "Ed" (by decide)), kwarg_req hn (h1 "D0" (by decide)), kwarg_none (h2 "Rep" (by decide) (by decide)), kwarg_none (h2 "coef" (by decide) (by decide))]
  rfl

/-- **C108** `EPR`: electrons with a given factor; (finding) a factor 0 makes the evaluation fail -/
theorem C108_EPR (hcfg : Distinct cfg) (h : Built float cfg vars name o) (hty : o.ty = "EPR") (hn : Numeric o) (env : Nat → ℝ) :
    (valueOf env o "Rep" ≠ 0 → rateOf env o = .ok fun w _ => epConst * (valueOf env o "Ed" * valueOf env o "md") ^ 2 /
      (valueOf env o "D0" * valueOf env o "vs") * valueOf env o "Rep" * w) ∧
    (valueOf env o "Rep" = 0 → rateOf env o = .error .keyError) := by
  obtain ⟨h1, h2, h3⟩ := args_of hcfg h hty (req := ["vs", "md", "Ed", "D0", "Rep"]) (opt := []) (by decide)
  have e : rateOf env o = makeEp env o := by
    unfold rateOf
    simp [hty]
  rw [e]
  unfold makeEp
  rw [kwarg_req hn (h1 "vs" (by decide)), kwarg_req hn (h1 "md" (by decide)), kwarg_none (h2 "EF" (by decide) (by decide)), kwarg_req hn (h1 "Ed" (by decide)), kwarg_req hn (h1 "D0" (by decide)), kwarg_req hn (h1 "Rep" (by decide)), kwarg_none (h2 "coef" (by decide) (by decide))]
  constructor
  · intro hr
    simp only [bind, Except.bind, Ep.make, requireAll, List.all_cons, List.all_nil, Option.isSome, Bool.and_self, if_true, totalRate, Ep.rate,
      Ep.coefOf, Ep.repAt, orElse, if_neg hr, Ep.calCoef, needKey, pure, Except.pure]
  · intro hr
    simp only [bind, Except.bind, Ep.make, requireAll, List.all_cons, List.all_nil, Option.isSome, Bool.and_self, if_true, totalRate, Ep.rate,
      Ep.coefOf, Ep.repAt, orElse, if_pos hr, Ep.calCoef, Ep.calRep, needKey, pure, Except.pure]

/-- **C108** `EPX`: electrons with a given coefficient; (finding) a coefficient 0 makes the evaluation fail -/
theorem C108_EPX (hcfg : Distinct cfg) (h : Built float cfg vars name o) (hty : o.ty = "EPX") (hn : Numeric o) (env : Nat → ℝ) :
    (valueOf env o "coef" ≠ 0 → rateOf env o = .ok fun w T => valueOf env o "coef" *
      repOf (valueOf env o "md") (valueOf env o "vs") (valueOf env o "EF") w T * w) ∧
    (valueOf env o "coef" = 0 → rateOf env o = .error .keyError) := by
  obtain ⟨h1, h2, h3⟩ := args_of hcfg h hty (req := ["vs", "md", "EF", "coef"]) (opt := []) (by decide)
  have e : rateOf env o = makeEp env o := by
    unfold rateOf
    simp [hty]
  rw [e]
  unfold makeEp
  rw [kwarg_req hn (h1 "vs" (by decide)), kwarg_req hn (h1 "md" (by decide)), kwarg_req hn (h1 "EF" (by decide)), kwarg_none (h2 "Ed" (by decide) (by decide)), kwarg_none (h2 "D0" (by decide) (by decide)), kwarg_none (h2 "Rep" (by decide) (by decide)), kwarg_req hn (h1 "coef" (by decide))]
  constructor
  · intro hr
    simp only [bind, Except.bind, Ep.make, requireAll, List.all_cons, List.all_nil, Option.isSome, Bool.and_self, if_true, totalRate, Ep.rate,
      Ep.coefOf, Ep.repAt, orElse, if_neg hr, Ep.calRep, needKey, pure, Except.pure]
  · intro hr
    simp only [bind, Except.bind, Ep.make, requireAll, List.all_cons, List.all_nil, Option.isSome, Bool.and_self, if_true, totalRate, Ep.rate,
      Ep.coefOf, Ep.repAt, orElse, if_pos hr, Ep.calCoef, Ep.calRep, needKey, pure, Except.pure]

/-- **C108** `EPRX`: electrons with both given; (finding) a zero makes the evaluation fail -/
theorem C108_EPRX (hcfg : Distinct cfg) (h : Built float cfg vars name o) (hty : o.ty = "EPRX") (hn : Numeric o) (env : Nat → ℝ) :
    (valueOf env o "coef" ≠ 0 → valueOf env o "Rep" ≠ 0 → rateOf env o = .ok fun w _ => valueOf env o "coef" * valueOf env o "Rep" * w) ∧
    (valueOf env o "coef" = 0 ∨ valueOf env o "Rep" = 0 → rateOf env o = .error .keyError) := by
  obtain ⟨h1, h2, h3⟩ := args_of hcfg h hty (req := ["Rep", "coef"]) (opt := []) (by decide)
  have e : rateOf env o = makeEp env o := by
    unfold rateOf
    simp [hty]
  rw [e]
  unfold makeEp
  rw [kwarg_none (h2 "vs" (by decide) (by decide)), kwarg_none (h2 "md" (by decide) (by decide)), kwarg_none (h2 "EF" (by decide) (by decide)), kwarg_none (h2 "Ed" (by decide) (by decide)), kwarg_none (h2 "D0" (by decide) (by decide)), kwarg_req hn (h1 "Rep" (by decide)), kwarg_req hn (h1 "coef" (by decide))]
  constructor
  · intro hc hr
    simp only [bind, Except.bind, Ep.make, totalRate, Ep.rate, Ep.coefOf, Ep.repAt, orElse, if_neg hr, if_neg hc, pure, Except.pure]
  · intro hr
    by_cases hc : valueOf env o "coef" = 0
    · simp only [bind, Except.bind, Ep.make, totalRate, Ep.rate, Ep.coefOf, Ep.repAt, orElse, if_pos hc, Ep.calCoef, needKey, pure, Except.pure]
    · have hr := hr.resolve_left hc
      simp only [bind, Except.bind, Ep.make, totalRate, Ep.rate, Ep.coefOf, Ep.repAt, orElse, if_neg hc, if_pos hr, Ep.calRep, needKey, pure,
        Except.pure]

/-! ## Models of the conductivity -/

/-- **C108** `BIPOLAR`: the bipolar term; `p` is 1 unless given -/
theorem C108_BIPOLAR (hcfg : Distinct cfg) (h : Built float cfg vars name o) (hty : o.ty = "BIPOLAR") (hn : Numeric o) (env : Nat → ℝ) (quad : (ℝ → ℝ) → ℝ → ℝ → ℝ) (n : Nat) :
    kappaOf quad env (n + 1) o = .ok (bipolar (Kbp := valueOf env o "Kbp") (Eg := valueOf env o "Eg") (p := valueOr env o "p" 1)) := by
  obtain ⟨h1, h2, h3⟩ := args_of hcfg h hty (req := ["Kbp", "Eg"]) (opt := ["p"]) (by decide)
  have e : kappaOf quad env (n + 1) o = makeBipolar env o := by
    unfold kappaOf
    simp [hty]
  rw [e]
  unfold makeBipolar
  rw [posarg_req hn (h1 "Kbp" (by decide)), posarg_req hn (h1 "Eg" (by decide)), numarg_opt hn h3]
  rfl

/-- **C108** `POWERLAW`: the power law; the exponent is -1 and the offset 0 unless given -/
theorem C108_POWERLAW (hcfg : Distinct cfg) (h : Built float cfg vars name o) (hty : o.ty = "POWERLAW") (hn : Numeric o) (env : Nat → ℝ) (quad : (ℝ → ℝ) → ℝ → ℝ → ℝ) (n : Nat) :
    kappaOf quad env (n + 1) o = .ok (powerLaw (Kamb := valueOf env o "Kamb") (n := valueOr env o "n" (-1)) (K0 := valueOr env o "K0" 0)) := by
  obtain ⟨h1, h2, h3⟩ := args_of hcfg h hty (req := ["Kamb"]) (opt := ["n", "K0"]) (by decide)
  have e : kappaOf quad env (n + 1) o = makePowerLaw env o := by
    unfold kappaOf
    simp [hty]
  rw [e]
  unfold makePowerLaw
  rw [posarg_req hn (h1 "Kamb" (by decide)), numarg_opt hn h3, numarg_opt hn h3]
  rfl

/-- **C108** `KLEMENS`: Klemens' model, a function of the composition -/
theorem C108_KLEMENS (hcfg : Distinct cfg) (h : Built float cfg vars name o) (hty : o.ty = "KLEMENS") (hn : Numeric o) (env : Nat → ℝ) (quad : (ℝ → ℝ) → ℝ → ℝ → ℝ) (n : Nat) :
    kappaOf quad env (n + 1) o = .ok ({ Kpure := valueOf env o "Kpure", vs := valueOf env o "vs", td := valueOf env o "td", G0 := valueOf env o "G0", Va := valueOf env o "Va" } : Klemens).call := by
  obtain ⟨h1, h2, h3⟩ := args_of hcfg h hty (req := ["Kpure", "vs", "td", "G0", "Va"]) (opt := []) (by decide)
  have e : kappaOf quad env (n + 1) o = makeKlemens env o := by
    unfold kappaOf
    simp [hty]
  rw [e]
  unfold makeKlemens
  rw [posarg_req hn (h1 "Kpure" (by decide)), posarg_req hn (h1 "vs" (by decide)), posarg_req hn (h1 "td" (by decide)), posarg_req hn (h1 "G0" (by decide)), posarg_req hn (h1 "Va" (by decide))]
  rfl

/-- the argument is a number or a variable -/
def NumericAt (o : Obj) (k : String) : Prop := ∀ v, get? o.args k = some (some v) → (∃ x, v = .num x) ∨ ∃ r, v = .ref r

theorem numVal_at {env : Nat → ℝ} {k : String} {v : Val Obj} (hn : NumericAt o k) (hv : get? o.args k = some (some v)) (d : ℝ) :
    numVal env v = .ok (valueOr env o k d) := by
  unfold valueOr
  rw [hv]
  rcases hn v hv with ⟨x, rfl⟩ | ⟨r, rfl⟩
  · rfl
  · cases r <;> rfl

theorem posarg_at {env : Nat → ℝ} {k : String} (hn : NumericAt o k) (hv : ∃ v, get? o.args k = some (some v)) :
    posarg env o k = .ok (valueOf env o k) := by
  obtain ⟨v, hv⟩ := hv
  unfold posarg
  rw [hv]
  simp only
  rw [numVal_at hn hv]

theorem numarg_at {env : Nat → ℝ} {k : String} (hn : NumericAt o k) (hs : ∀ k x, get? o.args k = some x → ∃ v, x = some v) (d : ℝ) :
    numarg env o k d = .ok (valueOr env o k d) := by
  cases hg : get? o.args k with
  | none =>
    unfold numarg valueOr
    rw [hg]
  | some x =>
    obtain ⟨v, rfl⟩ := hs k x hg
    unfold numarg
    rw [hg]
    simp only
    rw [numVal_at hn hg d]

/-- **C108** `SLACK`: Slack's model; `A` is a number, a variable or the name of a formula (`Julian`, `Qin`) for it, `N` is 1 unless given;
any other name is an error. -/
theorem C108_SLACK (hcfg : Distinct cfg) (h : Built float cfg vars name o) (hty : o.ty = "SLACK")
    (hn : ∀ k ∈ ["td", "gm", "Ma", "Va", "N"], NumericAt o k) (env : Nat → ℝ) (quad : (ℝ → ℝ) → ℝ → ℝ → ℝ) (n : Nat) (c : ℝ) :
    let result := Except.ok (ε := PyErr) fun T => c * valueOf env o "Ma" * valueOf env o "Va" ^ (1 / 3 : ℝ) * valueOf env o "td" ^ 3 /
      valueOf env o "gm" ^ 2 / valueOr env o "N" 1 ^ (2 / 3 : ℝ) / T
    (NumericAt o "A" → c = valueOf env o "A" → kappaOf quad env (n + 1) o = result) ∧
    (get? o.args "A" = some (some (.text "Julian".toList)) → c = coefJulian (valueOf env o "gm") → kappaOf quad env (n + 1) o = result) ∧
    (get? o.args "A" = some (some (.text "Qin".toList)) → c = coefQin (valueOf env o "gm") → kappaOf quad env (n + 1) o = result) ∧
    (∀ t, get? o.args "A" = some (some (.text t)) → t ≠ "Julian".toList → t ≠ "Qin".toList → ∃ e, kappaOf quad env (n + 1) o = .error e) := by
  obtain ⟨h1, h2, h3⟩ := args_of hcfg h hty (req := ["td", "gm", "Ma", "Va", "A"]) (opt := ["N"]) (by decide)
  have e : kappaOf quad env (n + 1) o = makeSlack env o := by
    unfold kappaOf
    simp [hty]
  rw [e]
  unfold makeSlack
  rw [posarg_at (hn "td" (by decide)) (h1 "td" (by decide)), posarg_at (hn "gm" (by decide)) (h1 "gm" (by decide)),
    posarg_at (hn "Ma" (by decide)) (h1 "Ma" (by decide)), posarg_at (hn "Va" (by decide)) (h1 "Va" (by decide)),
    numarg_at (hn "N" (by decide)) h3]
  simp only [bind, Except.bind]
  refine ⟨fun ha hc => ?_, fun ha hc => ?_, fun ha hc => ?_, fun t ha hj hq => ?_⟩
  · obtain ⟨v, hv⟩ := h1 "A" (by decide)
    have : slackA env o = .ok (.number (valueOf env o "A")) := by
      unfold slackA
      rw [hv]
      have hnum := numVal_at (env := env) ha hv 0
      rcases ha v hv with ⟨x, rfl⟩ | ⟨r, rfl⟩
      · simp only [hnum]; rfl
      · simp only [hnum]; rfl
    rw [this, ← hc]
    rfl
  · have : slackA env o = .ok (.name "Julian") := by
      unfold slackA
      rw [ha]
      rfl
    rw [this, hc]
    rfl
  · have : slackA env o = .ok (.name "Qin") := by
      unfold slackA
      rw [ha]
      rfl
    rw [this, hc]
    rfl
  · have : slackA env o = .ok (.name (String.ofList t)) := by
      unfold slackA
      rw [ha]
    rw [this]
    have n1 : String.ofList t ≠ "Julian" := fun h => hj (by rw [← String.toList_ofList (l := t), h])
    have n2 : String.ofList t ≠ "Qin" := fun h => hq (by rw [← String.toList_ofList (l := t), h])
    simp only [Slack.coef, if_neg n1, if_neg n2]
    split_ifs <;> exact ⟨_, rfl⟩

/-- the mechanisms among the components -/
def mechanisms (o : Obj) : List Obj := o.components.filter fun c => c.ty ∉ modelTypes
/-- the additional models among the components -/
def additional (o : Obj) : List Obj := o.components.filter fun c => c.ty ∈ modelTypes

theorem mapM_components {env : Nat → ℝ} {sub : Obj → Except PyErr (ℝ → ℝ)} {R : Obj → Rate} {F : Obj → ℝ → ℝ} : ∀ {l : List Obj},
    (∀ c ∈ l, c.ty ∉ kappaTypes → rateOf env c = .ok (R c)) → (∀ c ∈ l, c.ty ∈ kappaTypes → sub c = .ok (F c)) →
    ∃ cs, l.mapM (component env sub) = .ok cs ∧ Component.other ∉ cs ∧
      scatsOf cs = (l.filter fun c => c.ty ∉ kappaTypes).map (fun c => (c.tag, R c)) ∧
      addsOf cs = (l.filter fun c => c.ty ∈ kappaTypes).map (fun c => (c.tag, F c))
  | [], _, _ => ⟨[], rfl, by simp, rfl, rfl⟩
  | c :: l, hR, hF => by
    obtain ⟨cs, e, ho, hs, ha⟩ := mapM_components (l := l) (fun d hd => hR d (List.mem_cons_of_mem _ hd))
      (fun d hd => hF d (List.mem_cons_of_mem _ hd))
    rw [List.mapM_cons, e]
    by_cases hc : c.ty ∈ kappaTypes
    · refine ⟨.submodel c.tag (F c) :: cs, ?_, ?_, ?_, ?_⟩
      · unfold component
        rw [if_pos hc, hF c List.mem_cons_self hc]
        rfl
      · simpa using ho
      · rw [List.filter_cons_of_neg (by simpa using hc)]; exact hs
      · rw [List.filter_cons_of_pos (by simpa using hc), List.map_cons, ← ha]; rfl
    · refine ⟨.scattering c.tag (R c) :: cs, ?_, ?_, ?_, ?_⟩
      · unfold component
        rw [if_neg hc, hR c List.mem_cons_self hc]
        rfl
      · simpa using ho
      · rw [List.filter_cons_of_pos (by simpa using hc), List.map_cons, ← hs]; rfl
      · rw [List.filter_cons_of_neg (by simpa using hc)]; exact ha

/-- **C108** `DEBYE`: the conductivity of a Debye model made from a configuration is the integral, up to the cut-off frequency of its
section, of the spectral factor over the sum of the rates of its mechanisms, plus the conductivities of its additional models. -/
theorem C108_DEBYE (hcfg : Distinct cfg) (h : Built float cfg vars name o) (hty : o.ty = "DEBYE")
    (hvs : NumericAt o "vs") (htd : NumericAt o "td") (env : Nat → ℝ) (quad : (ℝ → ℝ) → ℝ → ℝ → ℝ) (n : Nat) (R : Obj → Rate) (F : Obj → ℝ → ℝ)
    (hR : ∀ c ∈ mechanisms o, rateOf env c = .ok (R c)) (hF : ∀ c ∈ additional o, kappaOf quad env n c = .ok (F c)) :
    kappaOf quad env (n + 1) o = .ok fun T =>
      quad (fun w => spectralFactor (valueOf env o "vs") w T / ((mechanisms o).map fun c => R c w T).sum) eps (valueOf env o "td" / hbarKB) +
        ((additional o).map fun c => F c T).sum := by
  obtain ⟨h1, h2, h3⟩ := args_of hcfg h hty (req := ["vs", "td", "components"]) (opt := []) (by decide)
  obtain ⟨_, _, _, _, _, _, _, _, _, _, _, _, h8⟩ := C96_built hcfg name o h
  obtain ⟨l, hl, d1, d2, d3⟩ := h8 hty
  have hcomp : o.components = l := by
    unfold Obj.components
    rw [hl]
  have e : kappaOf quad env (n + 1) o = makeDebye quad env (kappaOf quad env n) o := by
    rw [kappaOf, if_pos hty]
  rw [e]
  unfold makeDebye
  rw [posarg_at hvs (h1 "vs" (by decide)), posarg_at htd (h1 "td" (by decide))]
  obtain ⟨cs, ecs, ho, hs, ha⟩ := mapM_components (env := env) (sub := kappaOf quad env n) (R := R) (F := F) (l := o.components)
    (fun c hc ht => hR c (List.mem_filter.mpr ⟨hc, decide_eq_true (kappaTypes_eq ▸ ht)⟩)) (fun c hc ht => hF c (List.mem_filter.mpr ⟨hc, decide_eq_true (kappaTypes_eq ▸ ht)⟩))
  have hmake : Debye.make (valueOf env o "vs") (valueOf env o "td") cs =
      .ok ⟨valueOf env o "vs", valueOf env o "td", scatsOf cs, addsOf cs⟩ := by
    rw [C85_make]
    refine ⟨ho, ?_, ?_, ?_, rfl⟩
    · rw [hs, List.map_map, hcomp]
      have : (l.filter fun c => c.ty ∉ kappaTypes) = l.filter fun o => !(o.ty ∈ kappaTypes) := by
        congr 1; funext c; simp
      rw [this]
      exact d1
    · rw [ha, List.map_map, hcomp]
      exact d2
    · rw [hs, hcomp]
      obtain ⟨c, hc, ht⟩ := d3
      intro h0
      have h0 := List.map_eq_nil_iff.mp h0
      have : c ∈ l.filter fun c => c.ty ∉ kappaTypes := List.mem_filter.mpr ⟨hc, decide_eq_true (kappaTypes_eq ▸ ht)⟩
      rw [h0] at this
      cases this
  simp only [bind, Except.bind, ecs, hmake, pure, Except.pure, Debye.call, Debye.spectralSum, Debye.wd, hs, ha, ne_eq, not_true_eq_false, if_false,
    List.map_map]
  rfl

/-- raising the recursion limit does not change a result -/
theorem kappaOf_limit {quad : (ℝ → ℝ) → ℝ → ℝ → ℝ} {env : Nat → ℝ} : ∀ {n : Nat} {o : Obj} {f : ℝ → ℝ},
    kappaOf quad env n o = .ok f → kappaOf quad env (n + 1) o = .ok f
  | 0, _, _, h => by cases h
  | n + 1, o, f, h => by
    rw [kappaOf] at h ⊢
    by_cases hd : o.ty = "DEBYE"
    · rw [if_pos hd] at h ⊢
      unfold makeDebye at h ⊢
      cases h1 : posarg env o "vs" with
      | error e => rw [h1] at h; cases h
      | ok vs =>
        cases h2 : posarg env o "td" with
        | error e => rw [h1, h2] at h; cases h
        | ok td =>
          cases h3 : o.components.mapM (component env (kappaOf quad env n)) with
          | error e => rw [h1, h2, h3] at h; cases h
          | ok cs =>
            rw [h1, h2, h3] at h
            have : o.components.mapM (component env (kappaOf quad env (n + 1))) = .ok cs := by
              clear h
              generalize o.components = l at h3
              induction l generalizing cs with
              | nil => exact h3
              | cons c l ih =>
                rw [List.mapM_cons] at h3 ⊢
                cases hc : component env (kappaOf quad env n) c with
                | error e => rw [hc] at h3; cases h3
                | ok x =>
                  cases hl : l.mapM (component env (kappaOf quad env n)) with
                  | error e => rw [hc, hl] at h3; cases h3
                  | ok xs =>
                    rw [hc, hl] at h3
                    have hc' : component env (kappaOf quad env (n + 1)) c = .ok x := by
                      unfold component at hc ⊢
                      by_cases hk : c.ty ∈ kappaTypes
                      · rw [if_pos hk] at hc ⊢
                        cases hs : kappaOf quad env n c with
                        | error e => rw [hs] at hc; cases hc
                        | ok g =>
                          rw [hs] at hc
                          rw [kappaOf_limit hs]
                          exact hc
                      · rw [if_neg hk] at hc ⊢
                        exact hc
                    rw [hc', ih xs hl]
                    exact h3
            rw [this]
            exact h
    · rw [if_neg hd] at h ⊢
      exact h

/-- **C108** Electron scattering whose evaluation can fail (a zero `Rep` or `coef` counts as missing): it fails at every frequency and
temperature or at none, so that one evaluation decides, and the rate used in the model is the one evaluated. -/
theorem C108_fails_everywhere (m : Ep) :
    (∀ f, totalRate m.rate = .ok f ↔ ∀ w T, m.rate w T = .ok (f w T)) ∧
    (∀ e, totalRate m.rate = .error e ↔ ∀ w T, m.rate w T = .error e) := by
  have key : (∃ e, ∀ w T, m.rate w T = .error e) ∨ ∃ g : ℝ → ℝ → ℝ, ∀ w T, m.rate w T = .ok (g w T) := by
    obtain ⟨vs, md, EF, Ed, D0, Rep, coef⟩ := m
    simp only [Ep.rate, bind, Except.bind, pure, Except.pure]
    generalize Ep.coefOf _ = c
    cases c with
    | error e => exact .inl ⟨e, fun _ _ => rfl⟩
    | ok c =>
      simp only [Ep.repAt, orElse, Ep.calRep, bind, Except.bind, pure, Except.pure]
      cases Rep with
      | some r =>
        by_cases h : r = 0
        · subst h
          cases md <;> cases vs <;> cases EF <;> simp [needKey]
          all_goals exact ⟨_, fun _ _ => rfl⟩
        · exact .inr ⟨fun w _ => c * r * w, fun w T => by simp [h]⟩
      | none =>
        cases md <;> cases vs <;> cases EF <;> simp [needKey]
        all_goals exact ⟨_, fun _ _ => rfl⟩
  rcases key with ⟨e, h⟩ | ⟨g, h⟩
  · refine ⟨fun f => ?_, fun e' => ?_⟩
    · simp [totalRate, h]
    · simp [totalRate, h]
  · refine ⟨fun f => ?_, fun e' => ?_⟩
    · simp only [totalRate, h, Except.ok.injEq]
      exact ⟨fun e w T => by rw [← e], fun e => by funext w T; exact e w T⟩
    · simp [totalRate, h]

/-- **C108** The result does not depend on the recursion limit, once there is one. -/
theorem C108_limit (quad : (ℝ → ℝ) → ℝ → ℝ → ℝ) (env : Nat → ℝ) {n m : Nat} {o : Obj} {f : ℝ → ℝ} (hnm : n ≤ m)
    (h : kappaOf quad env n o = .ok f) : kappaOf quad env m o = .ok f := by
  induction hnm with
  | refl => exact h
  | step _ ih => exact kappaOf_limit ih

/-- **C108** A section that lacks something its type needs is refused, with exactly the missing names. -/
theorem C108_needs (hcfg : Distinct cfg) (name : List Char) (items : List (String × List Char)) (ty : List Char) (req : List String)
    (kw : PyDict String (Option (Val Obj))) (h1 : pmatch cfg name = .ok (items, ty)) (h2 : (String.ofList ty, req) ∈ needs)
    (h3 : Kwargs float vars (Built float cfg vars) items kw) (h4 : ∃ k ∈ req, ∀ it ∈ items, it.1 ≠ k) :
    ∃ names, Fails float cfg vars name (.valueErrorNaming names) ∧ ∀ k, k ∈ names ↔ k ∈ req ∧ ∀ it ∈ items, it.1 ≠ k := by
  have hspec : ∃ opt, get? execMeta (String.ofList ty) = some (req, opt) := by
    have all : ∀ p ∈ needs, ∃ opt, get? execMeta p.1 = some (p.2, opt) := by
      have : ∀ p ∈ needs, (get? execMeta p.1).map Prod.fst = some p.2 := by decide
      intro p hp
      have := this p hp
      cases hg : get? execMeta p.1 with
      | none => rw [hg] at this; cases this
      | some q =>
        rw [hg] at this
        have hq : q.1 = p.2 := Option.some.inj this
        exact ⟨q.2, by rw [← hq]⟩
    exact all _ h2
  obtain ⟨opt, hspec⟩ := hspec
  have hnone : ∀ k, get? kw k = none ↔ ∀ it ∈ items, it.1 ≠ k := by
    intro k
    clear h1 h4
    unfold Kwargs at h3
    induction h3 with
    | nil => simp
    | @cons a b l1 l2 hab _ ih =>
      obtain ⟨hk, _⟩ := hab
      obtain ⟨b1, b2⟩ := b
      simp only at hk
      subst hk
      rw [get?_cons]
      by_cases hk : a.1 = k
      · simp [hk]
      · simp [hk, ih]
  obtain ⟨names, hf, hm⟩ := (C96_bad_arguments hcfg name items ty req opt kw h1 hspec h3).1 (by
    obtain ⟨k, hk, hno⟩ := h4
    exact ⟨k, hk, (hnone k).mpr hno⟩)
  exact ⟨names, hf, fun k => by rw [hm, hnone]⟩

/-- **C108** Only the types of the table exist: any other section is refused. -/
theorem C108_types (name : List Char) (items : List (String × List Char)) (ty : List Char) (h1 : pmatch cfg name = .ok (items, ty))
    (h2 : ∀ req, (String.ofList ty, req) ∉ needs) : Fails float cfg vars name .typeError := by
  refine (C96_unknown name).2 items ty h1 ?_
  cases hg : get? execMeta (String.ofList ty) with
  | none => rfl
  | some q =>
    exfalso
    have all : ∀ p ∈ execMeta, (p.1, p.2.1) ∈ needs := by decide
    exact h2 q.1 (all _ (get?_mem hg))

/-- **C108** (finding) Klemens' model as a component of a Debye model is evaluated at the temperature instead of the composition: above
1 K it adds the constant value it has for the pure compound. -/
theorem C108_klemens_component (hcfg : Distinct cfg) (h : Built float cfg vars name o) (hty : o.ty = "KLEMENS") (hn : Numeric o)
    (env : Nat → ℝ) (quad : (ℝ → ℝ) → ℝ → ℝ → ℝ) (n : Nat) (hK : 0 < valueOf env o "Kpure") (ht : 0 ≤ valueOf env o "td")
    (hG : 0 ≤ valueOf env o "G0") (hV : 0 ≤ valueOf env o "Va") :
    ∃ f, kappaOf quad env (n + 1) o = .ok f ∧ ∀ T, 1 ≤ T → f T = f 0 := by
  refine ⟨_, C108_KLEMENS hcfg h hty hn env quad n, fun T hT => ?_⟩
  have hu : ∀ m : Klemens, 0 < m.Kpure → 0 ≤ m.td → 0 ≤ m.G0 → 0 ≤ m.Va → m.call T = m.call 0 := by
    intro m hK ht hG hV
    have h0 : m.u2 0 ≤ 0 := by unfold Klemens.u2; simp
    have h1 : m.u2 T ≤ 0 := by
      unfold Klemens.u2
      have hpi := Real.pi_pos
      have : 0 ≤ Real.pi * m.td * m.Va / (2 * (1054571817 / 10 ^ 7) * m.vs ^ 2) * m.Kpure * m.G0 * T := by positivity
      nlinarith
    unfold Klemens.call
    rw [max_eq_right (h0.trans (by norm_num)), max_eq_right (h1.trans (by norm_num))]
  exact hu _ hK ht hG hV

/-! ### Example -/

/-- a number parser that knows two numbers -/
noncomputable def exFloat (t : List Char) : Except PyErr ℝ :=
  if t = "2".toList then .ok 2 else if t = "3".toList then .ok 3 else .error .valueError

/-- a Debye model with one mechanism and one additional model -/
def exampleCfg2 : Config := [
  ("M.DEBYE".toList, [("vs", "3".toList), ("td", "@".toList), ("components", "GB P".toList)]),
  ("GB".toList, [("vs", "3".toList), ("L", "@ size".toList)]),
  ("P.POWERLAW".toList, [("Kamb", "2".toList)])]

noncomputable def exampleVars2 : List (List Char × VarVal) := [("td".toList, .const 300), ("size".toList, .var 0)]

example : ∃ o, Built exFloat exampleCfg2 exampleVars2 "GB".toList o ∧ o.ty = "GB" ∧ Numeric o ∧
    rateOf (fun _ => 5) o = .ok ({ vs := 3, L := 5, alpha := 1 } : Gb).rate := by
  have e3 : exFloat "3".toList = .ok 3 := by unfold exFloat; rw [if_neg (by decide), if_pos rfl]
  have hb : Built exFloat exampleCfg2 exampleVars2 "GB".toList (.mk "GB" "GB".toList [("vs", some (.num 3)), ("L", some (.ref (.var 0)))]) := by
    refine ⟨1, ?_⟩
    have p : pmatch exampleCfg2 "GB".toList = .ok ([("vs", "3".toList), ("L", "@ size".toList)], "GB".toList) := rfl
    have i1 : itemVal exFloat exampleVars2 (parseSub exFloat exampleCfg2 exampleVars2 0) "vs" "3".toList = .ok (.num 3) := by
      unfold itemVal
      rw [if_neg (by decide), if_neg (by decide), show refTag "vs".toList "3".toList = none from rfl]
      simp only [e3]
    have i2 : itemVal exFloat exampleVars2 (parseSub exFloat exampleCfg2 exampleVars2 0) "L" "@ size".toList = .ok (.ref (.var 0)) := rfl
    rw [parseSub, p]
    simp only [show get? execMeta (String.ofList "GB".toList) = some (["vs", "L"], ["alpha"]) from by decide, itemVals, i1, i2]
    rfl
  refine ⟨_, hb, rfl, ?_, rfl⟩
  intro k v hv
  have := get?_mem hv
  simp only [Obj.args, List.mem_cons, List.not_mem_nil, or_false, Prod.mk.injEq, Option.some.injEq] at this
  rcases this with ⟨_, rfl⟩ | ⟨_, rfl⟩
  · exact .inl ⟨3, rfl⟩
  · exact .inr ⟨_, rfl⟩

end TEflow.KappaCfg
