import Verif.Model.KappaCfg

/-! # From the sections of a configuration to numbers: evaluating the objects made by `parse_submodel`

`Verif.Model.KappaCfg` models which constructor is called with which arguments; here the arguments are handed to the
constructors of `Verif.Model.KappaScat` and `Verif.Model.KappaModels`.  `env i` is the current value of variable `i` times
its scale, which is what the parameter sets hold (kappa.py:198-203, 181-186; kept in step as modelled in
`Verif.Model.KappaVar`).  A text where a number is needed is an error of the first evaluation; it is reported here as a
`TypeError` of the construction. -/

namespace TEflow.KappaCfg

noncomputable section

open Re PyDict Utils Kappa

/-- the number a parameter set holds for an argument, kappa.py:198-203 -/
def numVal (env : Nat → ℝ) : Val Obj → Except PyErr ℝ
  | .num x => .ok x
  | .ref (.const x) => .ok x
  | .ref (.var i) => .ok (env i)
  | .text _ => .error .typeError
  | .comps _ => .error .typeError

/-- an argument with a default in the signature of the constructor -/
def kwarg (env : Nat → ℝ) (o : Obj) (k : String) (dflt : Option ℝ) : Except PyErr (Option ℝ) :=
  match get? o.args k with
  | some (some v) => (numVal env v).map some
  | _ => .ok dflt

/-- an argument with a number as default -/
def numarg (env : Nat → ℝ) (o : Obj) (k : String) (dflt : ℝ) : Except PyErr ℝ :=
  match get? o.args k with
  | some (some v) => numVal env v
  | _ => .ok dflt

/-- an argument without default: Python raises `TypeError` when it is missing -/
def posarg (env : Nat → ℝ) (o : Obj) (k : String) : Except PyErr ℝ :=
  match get? o.args k with
  | some (some v) => numVal env v
  | _ => .error .typeError

/-- the rate of a mechanism whose evaluation can fail; for `FreeElectrons` this depends on the parameters only, not on the frequency
and the temperature (kappa.py:1004-1048) -/
def totalRate (f : ℝ → ℝ → Except PyErr ℝ) : Except PyErr Rate :=
  match f 0 0 with
  | .error e => .error e
  | .ok _ => .ok fun w T => match f w T with
    | .ok x => x
    | .error _ => 0

/-- `ThreePhonon(...)`, kappa.py:603, 1408-1415 -/
def makePh (env : Nat → ℝ) (o : Obj) : Except PyErr Rate := do
  let gm ← kwarg env o "gm" none
  let vs ← kwarg env o "vs" none
  let Va ← kwarg env o "Va" none
  let Ma ← kwarg env o "Ma" none
  let A ← kwarg env o "A" (some 1)
  let Theta ← kwarg env o "Theta" (some 0)
  let coef ← kwarg env o "coef" none
  let m ← Ph.make { gm := gm, vs := vs, Va := Va, Ma := Ma, A := A, Theta := Theta, coef := coef }
  return m.rate

/-- `PointDefect(...)`, kappa.py:662, 1416-1421 -/
def makePd (env : Nat → ℝ) (o : Obj) : Except PyErr Rate := do
  let vs ← kwarg env o "vs" none
  let Va ← kwarg env o "Va" none
  let G ← kwarg env o "G" none
  let coef ← kwarg env o "coef" none
  let m ← Pd.make { vs := vs, Va := Va, G := G, coef := coef }
  return m.rate

/-- `GrainBoundary(...)`, kappa.py:711, 1422-1425 -/
def makeGb (env : Nat → ℝ) (o : Obj) : Except PyErr Rate := do
  let vs ← posarg env o "vs"
  let L ← posarg env o "L"
  let alpha ← numarg env o "alpha" 1
  return ({ vs := vs, L := L, alpha := alpha } : Gb).rate

/-- `Nanoparticles(...)`, kappa.py:762, 1426-1433 -/
def makeNp (env : Nat → ℝ) (o : Obj) : Except PyErr Rate := do
  let N1 ← kwarg env o "N1" none
  let vs ← kwarg env o "vs" none
  let R ← kwarg env o "R" none
  let D0 ← kwarg env o "D0" none
  let D1 ← kwarg env o "D1" none
  let Y0 ← kwarg env o "Y0" (some 1)
  let Y1 ← kwarg env o "Y1" (some 1)
  let alpha ← kwarg env o "alpha" (some 1)
  let phi ← kwarg env o "phi" none
  let m ← Np.make { N1 := N1, vs := vs, R := R, D0 := D0, D1 := D1, Y0 := Y0, Y1 := Y1, alpha := alpha, phi := phi }
  return m.rate

/-- `Dislocations(...)`, kappa.py:870, 1434-1437 -/
def makeDl (env : Nat → ℝ) (o : Obj) : Except PyErr Rate := do
  let Nd ← posarg env o "Nd"
  let vs ← posarg env o "vs"
  let Va ← posarg env o "Va"
  let Bd ← posarg env o "Bd"
  let gm ← posarg env o "gm"
  let F ← numarg env o "F" 1
  let alpha ← numarg env o "alpha" (55 / 100)
  return ({ Nd := Nd, vs := vs, Va := Va, Bd := Bd, gm := gm, F := F, alpha := alpha } : Dl).rate

/-- `StackingFaults(...)`, kappa.py:914, 1438-1441 -/
def makeSf (env : Nat → ℝ) (o : Obj) : Except PyErr Rate := do
  let Nsf ← posarg env o "Nsf"
  let vs ← posarg env o "vs"
  let Va ← posarg env o "Va"
  let gm ← posarg env o "gm"
  let alpha ← numarg env o "alpha" (7 / 10)
  return ({ Nsf := Nsf, vs := vs, Va := Va, gm := gm, alpha := alpha } : Sf).rate

/-- `FreeElectrons(...)`, kappa.py:962, 1442-1453 -/
def makeEp (env : Nat → ℝ) (o : Obj) : Except PyErr Rate := do
  let vs ← kwarg env o "vs" none
  let md ← kwarg env o "md" none
  let EF ← kwarg env o "EF" none
  let Ed ← kwarg env o "Ed" none
  let D0 ← kwarg env o "D0" none
  let Rep ← kwarg env o "Rep" none
  let coef ← kwarg env o "coef" none
  let m ← Ep.make { vs := vs, md := md, EF := EF, Ed := Ed, D0 := D0, Rep := Rep, coef := coef }
  totalRate m.rate

/-- `CahillScattering(...)`, kappa.py:1058, 1454-1456 -/
def makeCahill (env : Nat → ℝ) (o : Obj) : Except PyErr Rate := do
  let alpha ← numarg env o "alpha" 1
  return cahillRate alpha

/-- the scattering rate of an object made from a section: `EXECMETA` names the classes, kappa.py:1404-1456 -/
def rateOf (env : Nat → ℝ) (o : Obj) : Except PyErr Rate :=
  if o.ty = "PH" ∨ o.ty = "PHX" then makePh env o
  else if o.ty = "PD" ∨ o.ty = "PDX" then makePd env o
  else if o.ty = "GB" then makeGb env o
  else if o.ty = "NP" ∨ o.ty = "NPX" then makeNp env o
  else if o.ty = "DL" then makeDl env o
  else if o.ty = "SF" then makeSf env o
  else if o.ty = "EP" ∨ o.ty = "EPR" ∨ o.ty = "EPX" ∨ o.ty = "EPRX" then makeEp env o
  else if o.ty = "CAHILL" then makeCahill env o
  else .error .typeError

/-- the argument `A` of `KappaSlack`: a text is the name of a model, kappa.py:1107-1112 -/
def slackA (env : Nat → ℝ) (o : Obj) : Except PyErr SlackA :=
  match get? o.args "A" with
  | some (some (.text t)) => .ok (.name (String.ofList t))
  | some (some v) => (numVal env v).map .number
  | _ => .ok (.number (1 / 10 ^ 6))

/-- `KappaSlack(...)` and its evaluation, kappa.py:1085-1117, 1457-1460; whether it fails does not depend on the temperature -/
def makeSlack (env : Nat → ℝ) (o : Obj) : Except PyErr (ℝ → ℝ) := do
  let td ← posarg env o "td"
  let gm ← posarg env o "gm"
  let Ma ← posarg env o "Ma"
  let Va ← posarg env o "Va"
  let N ← numarg env o "N" 1
  let A ← slackA env o
  let c ← Slack.coef { td := td, gm := gm, Ma := Ma, Va := Va, N := N, A := A }
  let _ := c
  return fun T => match Slack.call { td := td, gm := gm, Ma := Ma, Va := Va, N := N, A := A } T with
    | .ok k => k
    | .error _ => 0

/-- `KappaBipolar(...)`, kappa.py:1170, 1461-1464 -/
def makeBipolar (env : Nat → ℝ) (o : Obj) : Except PyErr (ℝ → ℝ) := do
  let Kbp ← posarg env o "Kbp"
  let Eg ← posarg env o "Eg"
  let p ← numarg env o "p" 1
  return bipolar Kbp Eg p

/-- `KappaPowerLaw(...)`, kappa.py:1199, 1465-1468 -/
def makePowerLaw (env : Nat → ℝ) (o : Obj) : Except PyErr (ℝ → ℝ) := do
  let Kamb ← posarg env o "Kamb"
  let n ← numarg env o "n" (-1)
  let K0 ← numarg env o "K0" 0
  return powerLaw Kamb n K0

/-- `KappaKlemens(...)`, kappa.py:1231, 1469-1471; the argument of the model is the composition -/
def makeKlemens (env : Nat → ℝ) (o : Obj) : Except PyErr (ℝ → ℝ) := do
  let Kpure ← posarg env o "Kpure"
  let vs ← posarg env o "vs"
  let td ← posarg env o "td"
  let G0 ← posarg env o "G0"
  let Va ← posarg env o "Va"
  return ({ Kpure := Kpure, vs := vs, td := td, G0 := G0, Va := Va } : Klemens).call

/-- the components of a Debye model -/
def Obj.components (o : Obj) : List Obj :=
  match get? o.args "components" with
  | some (some (.comps l)) => l
  | _ => []

/-- a component as the constructor of `KappaDebye` sees it, kappa.py:322-340 -/
def component (env : Nat → ℝ) (sub : Obj → Except PyErr (ℝ → ℝ)) (c : Obj) : Except PyErr Component :=
  if c.ty ∈ kappaTypes then
    match sub c with
    | .error e => .error e
    | .ok f => .ok (.submodel c.tag f)
  else
    match rateOf env c with
    | .error e => .error e
    | .ok r => .ok (.scattering c.tag r)

/-- `KappaDebye(...)` as a function of the temperature, kappa.py:308-342, 471-474 -/
def makeDebye (quad : (ℝ → ℝ) → ℝ → ℝ → ℝ) (env : Nat → ℝ) (sub : Obj → Except PyErr (ℝ → ℝ)) (o : Obj) :
    Except PyErr (ℝ → ℝ) := do
  let vs ← posarg env o "vs"
  let td ← posarg env o "td"
  let cs ← o.components.mapM (component env sub)
  let d ← Debye.make vs td cs
  return fun T => d.call quad T none

/-- the thermal conductivity of an object made from a section; the first argument is the recursion limit of the interpreter -/
def kappaOf (quad : (ℝ → ℝ) → ℝ → ℝ → ℝ) (env : Nat → ℝ) : Nat → Obj → Except PyErr (ℝ → ℝ)
  | 0, _ => .error .recursionError
  | n + 1, o =>
    if o.ty = "DEBYE" then makeDebye quad env (kappaOf quad env n) o
    else if o.ty = "SLACK" then makeSlack env o
    else if o.ty = "BIPOLAR" then makeBipolar env o
    else if o.ty = "POWERLAW" then makePowerLaw env o
    else if o.ty = "KLEMENS" then makeKlemens env o
    else .error .typeError

end

end TEflow.KappaCfg
