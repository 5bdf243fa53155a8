import Mathlib.Analysis.SpecialFunctions.Pow.Real
import Mathlib.Analysis.SpecialFunctions.Trigonometric.Basic
import Mathlib.Analysis.SpecialFunctions.Log.Basic
import Verif.Model.Basic

/-! # Scattering mechanisms of `kappa.py`

Real arithmetic, one frequency and one temperature at a time (the program broadcasts arrays elementwise).  A mechanism is
modelled by the current contents of its parameter set; how these are kept in step with `Variable` objects is modelled in
`Verif.Model.KappaVar`. -/

open Real

namespace TEflow.Kappa

noncomputable section

/-- `self.paras` misses a required value: the loop over the items, kappa.py:631-633, 683-685, 792-794 -/
def requireAll (l : List (Option ℝ)) : Bool := l.all Option.isSome

/-! ## `ThreePhonon` -/

/-- the constructor arguments, kappa.py:603 -/
structure PhArgs where
  gm : Option ℝ := none
  vs : Option ℝ := none
  Va : Option ℝ := none
  Ma : Option ℝ := none
  A : Option ℝ := some 1
  Theta : Option ℝ := some 0
  coef : Option ℝ := none

/-- the two parameter sets of `ThreePhonon`, kappa.py:625-630 -/
inductive Ph where
  | formula (gm vs Va Ma A Theta : ℝ)
  | direct (coef Theta : ℝ)

/-- `ThreePhonon.__init__`, kappa.py:603-633 -/
def Ph.make (a : PhArgs) : Except PyErr Ph :=
  match a.coef with
  | none =>
    match a.gm, a.vs, a.Va, a.Ma, a.A, a.Theta with
    | some gm, some vs, some Va, some Ma, some A, some Th => .ok (.formula gm vs Va Ma A Th)
    | _, _, _, _, _, _ => .error .valueError
  | some c =>
    match a.Theta with
    | some Th => .ok (.direct c Th)
    | none => .error .valueError

/-- `ThreePhonon.coef`, kappa.py:640-650 -/
def Ph.coef : Ph → ℝ
  | .direct c _ => c
  | .formula gm vs Va Ma A _ =>
    1380649 / 1000000 / (167492749804 / 10 ^ 11) * (1 / 10 ^ 15) * A * Va ^ (1 / 3 : ℝ) * gm ^ 2 / (Ma * vs ^ 3)

/-- the parameter `Theta`, kappa.py:637 -/
def Ph.theta : Ph → ℝ
  | .direct _ t => t
  | .formula _ _ _ _ _ t => t

/-- `ThreePhonon.__call__`, kappa.py:635-638 -/
def Ph.rate (m : Ph) (w T : ℝ) : ℝ := 10 ^ 12 * m.coef * w ^ 2 * T * exp (-m.theta / (3 * T))

/-! ## `PointDefect` -/

/-- the constructor arguments, kappa.py:662 -/
structure PdArgs where
  vs : Option ℝ := none
  Va : Option ℝ := none
  G : Option ℝ := none
  coef : Option ℝ := none

/-- the two parameter sets of `PointDefect`, kappa.py:677-682 -/
inductive Pd where
  | formula (vs Va G : ℝ)
  | direct (coef : ℝ)

/-- `PointDefect.__init__`, kappa.py:662-685 -/
def Pd.make (a : PdArgs) : Except PyErr Pd :=
  match a.coef with
  | none =>
    match a.vs, a.Va, a.G with
    | some vs, some Va, some G => .ok (.formula vs Va G)
    | _, _, _ => .error .valueError
  | some c => .ok (.direct c)

/-- `PointDefect.coef`, kappa.py:691-700 -/
def Pd.coef : Pd → ℝ
  | .direct c => c
  | .formula vs Va G => 1 / 10 ^ 39 * Va * G / (4 * π * vs ^ 3)

/-- `PointDefect.__call__`, kappa.py:687-689 -/
def Pd.rate (m : Pd) (w _T : ℝ) : ℝ := 10 ^ 36 * m.coef * w ^ 4

/-! ## `GrainBoundary` -/

/-- the parameters of `GrainBoundary`, kappa.py:711-722 -/
structure Gb where
  vs : ℝ
  L : ℝ
  alpha : ℝ := 1

/-- `GrainBoundary.__call__`, kappa.py:724-726 -/
def Gb.rate (m : Gb) (_w _T : ℝ) : ℝ := 1 / 10 ^ 3 * m.alpha * m.vs / m.L

/-! ## `Nanoparticles` -/

/-- the constructor arguments, kappa.py:762 -/
structure NpArgs where
  N1 : Option ℝ := none
  vs : Option ℝ := none
  R : Option ℝ := none
  D0 : Option ℝ := none
  D1 : Option ℝ := none
  Y0 : Option ℝ := some 1
  Y1 : Option ℝ := some 1
  alpha : Option ℝ := some 1
  phi : Option ℝ := none

/-- how the amount of nanoparticles is given -/
inductive NpAmount where
  | density (N1 : ℝ)
  | fraction (phi : ℝ)

/-- the parameters of `Nanoparticles`, kappa.py:786-791 -/
structure Np where
  amount : NpAmount
  vs : ℝ
  R : ℝ
  D0 : ℝ
  D1 : ℝ
  Y0 : ℝ := 1
  Y1 : ℝ := 1
  alpha : ℝ := 1

/-- `Nanoparticles.__init__`, kappa.py:762-794 -/
def Np.make (a : NpArgs) : Except PyErr Np :=
  match a.vs, a.R, a.D0, a.D1, a.Y0, a.Y1, a.alpha with
  | some vs, some R, some D0, some D1, some Y0, some Y1, some al =>
    match a.phi with
    | some p => .ok ⟨.fraction p, vs, R, D0, D1, Y0, Y1, al⟩
    | none =>
      match a.N1 with
      | some n => .ok ⟨.density n, vs, R, D0, D1, Y0, Y1, al⟩
      | none => .error .valueError
  | _, _, _, _, _, _, _ => .error .valueError

/-- `Nanoparticles.phi`, kappa.py:811-819 -/
def Np.phi (m : Np) : ℝ :=
  match m.amount with
  | .fraction p => p
  | .density n => 1 / 10 ^ 6 * n * 4 / 3 * π * m.R ^ 3

/-- the ratio of the cross sections, kappa.py:800-808 -/
def Np.ratio (m : Np) (w : ℝ) : ℝ :=
  8 / 9 * (1 / 4 * m.alpha ^ 2 * (1 - m.D1 / m.D0) ^ 2 + 3 * m.alpha ^ 8 * (1 - m.Y1 / m.Y0) ^ 2) * (w * m.R / m.vs) ^ 4

/-- the geometric limit, kappa.py:799 -/
def Np.geom (m : Np) : ℝ := 3 / 2 * m.vs * m.phi / m.R

/-- `Nanoparticles.__call__`, kappa.py:796-809 -/
def Np.rate (m : Np) (w _T : ℝ) : ℝ := m.geom * m.ratio w / (1 + m.ratio w)

/-! ## `Dislocations`, `StackingFaults`, `CahillScattering` -/

/-- the parameters of `Dislocations`, kappa.py:870-890 -/
structure Dl where
  Nd : ℝ
  vs : ℝ
  Va : ℝ
  Bd : ℝ
  gm : ℝ
  F : ℝ := 1
  alpha : ℝ := 55 / 100

/-- the constant `C`, kappa.py:893 -/
def dlConst : ℝ := 9676996514698976 / 10 ^ 16

/-- the core part `DC`, kappa.py:895 -/
def Dl.core (m : Dl) (w : ℝ) : ℝ := 1 / 10 ^ 8 * m.Va ^ (4 / 3 : ℝ) / m.vs * w ^ 3

/-- the strain part `DS`, kappa.py:896 -/
def Dl.strain (m : Dl) (w : ℝ) : ℝ := 1 / 10 ^ 6 * (m.Bd * m.gm) ^ 2 * w

/-- `Dislocations.__call__`, kappa.py:892-897 -/
def Dl.rate (m : Dl) (w _T : ℝ) : ℝ := m.alpha * m.Nd * (m.core w + dlConst * m.F * m.strain w)

/-- the parameters of `StackingFaults`, kappa.py:914-930 -/
structure Sf where
  Nsf : ℝ
  vs : ℝ
  Va : ℝ
  gm : ℝ
  alpha : ℝ := 7 / 10

/-- `StackingFaults.__call__`, kappa.py:932-936 -/
def Sf.rate (m : Sf) (w _T : ℝ) : ℝ :=
  1 / 10 ^ 5 * m.alpha * m.Nsf * m.Va ^ (2 / 3 : ℝ) / m.vs * (m.gm * w) ^ 2

/-- `CahillScattering.__call__`, kappa.py:1067-1069 -/
def cahillRate (alpha w _T : ℝ) : ℝ := alpha * w / π

/-! ## `FreeElectrons` -/

/-- the constructor arguments, kappa.py:962 -/
structure EpArgs where
  vs : Option ℝ := none
  md : Option ℝ := none
  EF : Option ℝ := none
  Ed : Option ℝ := none
  D0 : Option ℝ := none
  Rep : Option ℝ := none
  coef : Option ℝ := none

/-- the parameter set of `FreeElectrons`: which keys it has depends on the arguments, kappa.py:987-1002 -/
structure Ep where
  vs : Option ℝ := none
  md : Option ℝ := none
  EF : Option ℝ := none
  Ed : Option ℝ := none
  D0 : Option ℝ := none
  Rep : Option ℝ := none
  coef : Option ℝ := none

/-- `FreeElectrons.__init__`, kappa.py:987-1002 -/
def Ep.make (a : EpArgs) : Except PyErr Ep :=
  match a.coef, a.Rep with
  | none, none =>
    if requireAll [a.vs, a.md, a.EF, a.Ed, a.D0] then .ok { vs := a.vs, md := a.md, EF := a.EF, Ed := a.Ed, D0 := a.D0 }
    else .error .valueError
  | none, some r =>
    if requireAll [a.vs, a.md, a.Ed, a.D0] then .ok { vs := a.vs, md := a.md, Ed := a.Ed, D0 := a.D0, Rep := some r }
    else .error .valueError
  | some c, none =>
    if requireAll [a.vs, a.md, a.EF] then .ok { vs := a.vs, md := a.md, EF := a.EF, coef := some c }
    else .error .valueError
  | some c, some r => .ok { Rep := some r, coef := some c }

/-- `self.paras[key]` -/
def needKey : Option ℝ → Except PyErr ℝ
  | some v => .ok v
  | none => .error .keyError

/-- `self.paras.get(key) or fallback`: a zero counts as missing -/
def orElse (v : Option ℝ) (fallback : Except PyErr ℝ) : Except PyErr ℝ :=
  match v with
  | none => fallback
  | some x => if x = 0 then fallback else .ok x

/-- the constant in `_cal_coef`, kappa.py:1017 -/
def epConst : ℝ := 289061617105021 / 10 ^ 17

/-- `_cal_coef`, kappa.py:1013-1019 -/
def Ep.calCoef (m : Ep) : Except PyErr ℝ := do
  let Ed ← needKey m.Ed
  let md ← needKey m.md
  let D0 ← needKey m.D0
  let vs ← needKey m.vs
  return epConst * (Ed * md) ^ 2 / (D0 * vs)

/-- `coef`, kappa.py:1008-1011 -/
def Ep.coefOf (m : Ep) : Except PyErr ℝ := orElse m.coef m.calCoef

/-- `hbar/kB * 1E12`, kappa.py:307, 1031 -/
def hbarKB : ℝ := 7638232577577646 / 10 ^ 15

/-- `kB/q`, kappa.py:1035, 1184 -/
def kBeV : ℝ := 8617333262145179 / 10 ^ 20

/-- `Tmv`, kappa.py:1040 -/
def tmvOf (md vs : ℝ) : ℝ := 3298949878462954 / 10 ^ 17 * (md * vs ^ 2)

/-- `Thw`, kappa.py:1042 -/
def thwOf (w : ℝ) : ℝ := 36464123068230276 / 10 ^ 16 * w ^ 2

/-- the part of `_cal_Rep` after the parameters are read, kappa.py:1027-1048 -/
def repOf (md vs EF w T : ℝ) : ℝ :=
  let w := max w (1 / 10 ^ 6)
  let x := hbarKB * w / T
  let Tele := EF / kBeV
  let Tph := thwOf w / tmvOf md vs + tmvOf md vs
  let p := exp (min ((Tph - Tele) / T) 23)
  log ((exp (x / 2) + p) / (exp (-x / 2) + p)) / x

/-- `_cal_Rep`, kappa.py:1025-1048 -/
def Ep.calRep (m : Ep) (w T : ℝ) : Except PyErr ℝ := do
  let md ← needKey m.md
  let vs ← needKey m.vs
  let EF ← needKey m.EF
  return repOf md vs EF w T

/-- `Rep`, kappa.py:1021-1023 -/
def Ep.repAt (m : Ep) (w T : ℝ) : Except PyErr ℝ := orElse m.Rep (m.calRep w T)

/-- `FreeElectrons.__call__`, kappa.py:1004-1006 -/
def Ep.rate (m : Ep) (w T : ℝ) : Except PyErr ℝ := do
  let c ← m.coefOf
  let r ← m.repAt w T
  return c * r * w

end

end TEflow.Kappa
