import Mathlib.Analysis.SpecialFunctions.Trigonometric.Arctan
import Verif.Model.KappaScat
import Verif.Model.Engout

/-! # The thermal-conductivity models of `kappa.py`

Real arithmetic, pointwise.  A scattering mechanism is its rate function `w, T ↦ 1/ps`; a sub-model its function of `T`
(mechanisms that raise an error while being evaluated are not modelled here, see `Verif.Model.KappaScat` for the one that
can). -/

open Real

namespace TEflow.Kappa

noncomputable section

/-- a tag (`str`) -/
abbrev Tag := List Char

/-- a scattering rate as function of frequency and temperature -/
abbrev Rate := ℝ → ℝ → ℝ

/-! ## `KappaDebye` -/

/-- an element of `components`, kappa.py:322-340 -/
inductive Component where
  | scattering (tag : Tag) (rate : Rate)
  | submodel (tag : Tag) (f : ℝ → ℝ)
  | other

/-- a `KappaDebye` object, kappa.py:319-342 -/
structure Debye where
  vs : ℝ
  td : ℝ
  scat : PyDict Tag Rate
  add : PyDict Tag (ℝ → ℝ)

/-- the loop over `components`, kappa.py:320-338 -/
def collect : List Component → PyDict Tag Rate → PyDict Tag (ℝ → ℝ) → Except PyErr (PyDict Tag Rate × PyDict Tag (ℝ → ℝ))
  | [], s, a => .ok (s, a)
  | .scattering t r :: cs, s, a => if PyDict.has s t then .error .valueError else collect cs (PyDict.set s t r) a
  | .submodel t f :: cs, s, a => if PyDict.has a t then .error .valueError else collect cs s (PyDict.set a t f)
  | .other :: _, _, _ => .error .notImplementedError

/-- `KappaDebye.__init__`, kappa.py:308-342 -/
def Debye.make (vs td : ℝ) (comps : List Component) : Except PyErr Debye :=
  match collect comps [] [] with
  | .error e => .error e
  | .ok (s, a) => if s.isEmpty then .error .valueError else .ok ⟨vs, td, s, a⟩

/-- `_EPS`, kappa.py:306 -/
def eps : ℝ := 1 / 10 ^ 6

/-- `wd`, kappa.py:344-351 -/
def Debye.wd (d : Debye) : ℝ := d.td / hbarKB

/-- the key `'total'` -/
def totalTag : Tag := ['t', 'o', 't', 'a', 'l']

/-- `scattering`, kappa.py:353-360 -/
def Debye.scattering (d : Debye) (w T : ℝ) (withTotal : Bool) : PyDict Tag ℝ :=
  let f := PyDict.ofPairs (d.scat.map fun p => (p.1, p.2 w T))
  if withTotal then PyDict.set f totalTag (f.map Prod.snd).sum else f

/-- `_spectral_factor`, kappa.py:455-460 -/
def spectralFactor (vs w T : ℝ) : ℝ :=
  let x := w / T * hbarKB
  let wt := x ^ 2 * exp x / (exp x - 1) ^ 2 * (1380649 / 10 ^ 8)
  (w / π) ^ 2 / (2 * vs) * wt

/-- the accumulation loop (over values or over functions), kappa.py:388-391, 437-439 -/
def accumGo {α : Type} [Add α] (prev : Tag × α) : List (Tag × α) → List (Tag × α)
  | [] => []
  | (t, v) :: rest => (prev.1 ++ ['+'] ++ t, prev.2 + v) :: accumGo (prev.1 ++ ['+'] ++ t, prev.2 + v) rest

/-- the list `out` after the accumulation loop, kappa.py:387-391 -/
def accum {α : Type} [Add α] : List (Tag × α) → List (Tag × α)
  | [] => []
  | p :: rest => p :: accumGo p rest

/-- `factor` at a frequency that is already at least `_EPS`, kappa.py:392 -/
def Debye.factor (d : Debye) (w T : ℝ) : ℝ := if w ≤ d.wd then spectralFactor d.vs w T else 0

/-- `spectral` at one point, kappa.py:362-395 -/
def Debye.spectral (d : Debye) (w T : ℝ) (accumulate : Bool) : PyDict Tag ℝ :=
  let w := max eps w
  let out := d.scat.map fun p => (p.1, p.2 w T)
  let out := if accumulate then accum out else out
  PyDict.ofPairs (out.map fun p => (p.1, d.factor w T / p.2))

/-- `cumulative` for a list of frequencies at one temperature, kappa.py:397-409; the trapezoid rule runs over the frequencies
as given, the values are those at the clipped ones -/
def Debye.cumulative (d : Debye) (ws : List ℝ) (T : ℝ) (accumulate : Bool) (key : Tag) : List ℝ :=
  (Engout.cumtrapz (ws.map fun w => (w, (PyDict.get? (d.spectral w T accumulate) key).getD 0))).map Prod.snd

/-- the left edge of bin `j`, kappa.py:430, 433 -/
def binLeft (dw : ℝ) (j : Nat) : ℝ := if j = 0 then eps else j * dw
/-- the right edge of bin `j`, kappa.py:431 -/
def binRight (dw : ℝ) (j : Nat) : ℝ := j * dw + dw
/-- the centre of bin `j`, kappa.py:432 -/
def binCentre (dw : ℝ) (j : Nat) : ℝ := (j * dw + (j * dw + dw)) / 2

/-- `weight` of bin `j` for the (accumulated) rate `r`, kappa.py:434-435 -/
def Debye.weight (d : Debye) (r : Rate) (T dw : ℝ) (j : Nat) : ℝ :=
  dw * (d.factor (max eps (binCentre dw j)) T / r (max eps (binCentre dw j)) T)

/-- `mfp_ave`, kappa.py:440-442 -/
def Debye.mfpAve (d : Debye) (r : Rate) (T dw : ℝ) (j : Nat) : ℝ :=
  (d.vs / r (binLeft dw j) T + d.vs / r (binRight dw j) T) / 2

/-- `mfp_wd`, kappa.py:443 -/
def Debye.mfpWd (d : Debye) (r : Rate) (T dw : ℝ) (j : Nat) : ℝ :=
  max |d.vs / r (binLeft dw j) T - d.vs / r (binRight dw j) T| (10 * eps)

/-- the contribution of one bin, kappa.py:451 -/
def binCum (mfp ave wd w : ℝ) : ℝ := w / wd * min (max (mfp - ave - wd / 2) 0) wd

/-- one entry of `cum_mfp`, kappa.py:447-452 -/
def Debye.cumRate (d : Debye) (r : Rate) (mfp T dw : ℝ) (nbatch : Nat) : ℝ :=
  ((List.range nbatch).map fun j => binCum mfp (d.mfpAve r T dw j) (d.mfpWd r T dw j) (d.weight r T dw j)).sum

/-- `cumulative_mfp_t` at one mean free path, kappa.py:411-453; the temperature is a list as in `np.atleast_1d(T)` -/
def Debye.cumulativeMfp (d : Debye) (mfp : ℝ) (Ts : List ℝ) (accumulate : Bool) (nbatch : Nat) :
    Except PyErr (PyDict Tag ℝ) :=
  match Ts with
  | [T] =>
    if d.wd / nbatch < 10 * eps then .error .valueError
    else
      let rates := if accumulate then accum d.scat else d.scat
      .ok (PyDict.ofPairs (rates.map fun p => (p.1, d.cumRate p.2 mfp T (d.wd / nbatch) nbatch)))
  | _ => .error .valueError

/-- `_spectral_sum`, kappa.py:462-469 -/
def Debye.spectralSum (d : Debye) (w T : ℝ) (n : Nat) : ℝ :=
  let scattering := if n ≠ 0 then (d.scat.map Prod.snd).take n else d.scat.map Prod.snd
  spectralFactor d.vs w T / (scattering.map fun r => r w T).sum

/-- `__call__` at one temperature, kappa.py:471-474; `quad f a b` is the quadrature of scipy (not modelled) -/
def Debye.call (quad : (ℝ → ℝ) → ℝ → ℝ → ℝ) (d : Debye) (T : ℝ) : Option Nat → ℝ
  | none => quad (fun w => d.spectralSum w T 0) eps d.wd + (d.add.map fun p => p.2 T).sum
  | some n => quad (fun w => d.spectralSum w T n) eps d.wd

/-- `vs_to_td`, kappa.py:476-497 -/
def vsToTd (vs Va : ℝ) : ℝ := hbarKB * 10 * (6 * π * π / Va) ^ (1 / 3 : ℝ) * vs

/-- `vs_to_gm`, kappa.py:499-525 -/
def vsToGm (v1 v2 : ℝ) : ℝ := 3 / 2 * (3 * (v1 / v2) ^ 2 - 4) / ((v1 / v2) ^ 2 + 2)

/-- `vs_mean` for (broadcast) arrays of velocities, given as pairs, kappa.py:527-553 -/
def vsMean (v : List (ℝ × ℝ)) (p : ℤ) : ℝ :=
  if p = 0 then (v.map fun x => x.1 * x.2 * x.2).prod ^ (1 / 3 : ℝ)
  else ((v.map fun x => x.1 ^ p + x.2 ^ p + x.2 ^ p).sum / (3 * v.length)) ^ (1 / p : ℝ)

/-! ## `KappaSlack`, `KappaBipolar`, `KappaPowerLaw` -/

/-- the argument `A` of `KappaSlack`, kappa.py:1107-1112 -/
inductive SlackA where
  | number (A : ℝ)
  | name (model : String)

/-- the parameters of `KappaSlack`, kappa.py:1085-1112 -/
structure Slack where
  td : ℝ
  gm : ℝ
  Ma : ℝ
  Va : ℝ
  N : ℝ := 1
  A : SlackA := .number (1 / 10 ^ 6)

/-- `coef_Julian`, kappa.py:1126-1136 -/
def coefJulian (gm : ℝ) : ℝ := 243 / 10 ^ 8 / (1 - 514 / 1000 / gm + 228 / 1000 / gm / gm)
/-- `coef_Qin`, kappa.py:1138-1148 -/
def coefQin (gm : ℝ) : ℝ := 1 / (1 + 1 / gm + 830000 / gm ^ (24 / 10 : ℝ))

/-- `coef`: the attribute `coef_<name>` is looked up, kappa.py:1119-1157 (attributes of subclasses are not modelled) -/
def Slack.coef (m : Slack) : Except PyErr ℝ :=
  match m.A with
  | .number A => .ok A
  | .name s =>
    if s = "Julian" then .ok (coefJulian m.gm)
    else if s = "Qin" then .ok (coefQin m.gm)
    else if s = "Constant" then .error .keyError
    else .error .attributeError

/-- `KappaSlack.__call__`, kappa.py:1114-1117 -/
def Slack.call (m : Slack) (T : ℝ) : Except PyErr ℝ := do
  let c ← m.coef
  return c * m.Ma * m.Va ^ (1 / 3 : ℝ) * m.td ^ 3 / m.gm ^ 2 / m.N ^ (2 / 3 : ℝ) / T

/-- `KappaBipolar.__call__`, kappa.py:1183-1187 -/
def bipolar (Kbp Eg p T : ℝ) : ℝ := Kbp * (T / 300) ^ p * exp (-Eg / (2 * kBeV * T))

/-- `KappaPowerLaw.__call__`, kappa.py:1214-1216 -/
def powerLaw (Kamb n K0 T : ℝ) : ℝ := Kamb * (T / 300) ^ n + K0

/-! ## `KappaKlemens` -/

/-- the parameters of `KappaKlemens`, kappa.py:1231-1247 -/
structure Klemens where
  Kpure : ℝ
  vs : ℝ
  td : ℝ
  G0 : ℝ
  Va : ℝ

/-- `u2`, kappa.py:1249-1261 -/
def Klemens.u2 (m : Klemens) (X : ℝ) : ℝ :=
  π * m.td * m.Va / (2 * (1054571817 / 10 ^ 7) * m.vs ^ 2) * m.Kpure * m.G0 * X * (1 - X)

/-- `__call__`, kappa.py:1386-1388 -/
def Klemens.call (m : Klemens) (X : ℝ) : ℝ :=
  let u := √(max (m.u2 X) (1 / 10 ^ 12))
  m.Kpure * arctan u / u

/-- `np.pad(o, (0, n - size), constant_values=c)`: a negative width is an error, kappa.py:1352, 1363, 1372 -/
def pad (n : Nat) (c : ℝ) (l : List ℝ) : Except PyErr (List ℝ) :=
  if l.length ≤ n then .ok (l ++ List.replicate (n - l.length) c) else .error .valueError

/-- `np.allclose(op, np.ones_like(op))`, kappa.py:1354 -/
def sumsToOne (oc : List (List ℝ)) : Bool := oc.all fun o => decide (|o.sum - 1| ≤ 1 / 10 ^ 8 + 1 / 10 ^ 5)

/-- the normalisation, kappa.py:1353-1359: rows with their sums -/
def normalise (oc : List (List ℝ)) (renorm : Bool) : Except PyErr (List (List ℝ × ℝ)) :=
  if sumsToOne oc then .ok (oc.map fun o => (o, o.sum))
  else if renorm then .ok (oc.map fun o => (o.map (· / o.sum), 1))
  else .error .valueError

/-- `np.sum(oc*ms, axis=1)` for one row, kappa.py:1364, 1373 -/
def rowMean (o m : List ℝ) : ℝ := (List.zipWith (· * ·) o m).sum

/-- `np.sum(oc*np.power(1-ms/mp, 2), axis=1)` for one row, kappa.py:1366, 1374 -/
def rowVar (o m : List ℝ) : ℝ := (List.zipWith (fun c x => c * (1 - x / rowMean o m) ^ 2) o m).sum

/-- `np.sum(op*f)/np.sum(op)`, kappa.py:1365, 1367, 1375 -/
def rowsAvg {α : Type} (op f : α → ℝ) (rows : List α) : ℝ := (rows.map fun r => op r * f r).sum / (rows.map op).sum

/-- `mave`, kappa.py:1365: rows are `((occupations, their sum), masses)` -/
def massAve (rows : List ((List ℝ × ℝ) × List ℝ)) : ℝ := rowsAvg (fun r => r.1.2) (fun r => rowMean r.1.1 r.2) rows

/-- `gmass`, `gradius`, kappa.py:1367, 1375; `x` selects what fluctuates -/
def gammaOf {α : Type} (row : α → (List ℝ × ℝ) × List ℝ) (x : α → List ℝ) (rows : List α) : ℝ :=
  rowsAvg (fun r => (row r).1.2)
    (fun r => (rowMean (row r).1.1 (row r).2 / massAve (rows.map row)) ^ 2 * rowVar (row r).1.1 (x r)) rows

/-- `Sconf`, kappa.py:1380 -/
def sconf (rows : List (List ℝ × ℝ)) : ℝ :=
  -1 * (rows.map fun r => (r.1.map fun c => c * log (max c (1 / 10 ^ 12))).sum).sum

/-- `fluctuation`, kappa.py:1263-1384.  The numbers of sublattices of `masses` and `radii` must agree with `occupy`: a
mismatch is an error here (numpy would broadcast a single row). -/
def fluctuation (occupy masses : List (List ℝ)) (radii : Option (List (List ℝ))) (alpha : ℝ) (renorm : Bool) :
    Except PyErr (ℝ × ℝ × ℝ × ℝ) := do
  if occupy.isEmpty then .error .valueError
  let n := (occupy.map List.length).foldr max 0
  let oc ← occupy.mapM (pad n 0)
  let rows ← normalise oc renorm
  let ms ← masses.mapM (pad n 1)
  if ms.length ≠ rows.length then .error .valueError
  let gmass := gammaOf id Prod.snd (rows.zip ms)
  let gradius ← match radii with
    | none => pure 0
    | some [] => pure 0
    | some rs => do
      let ra ← rs.mapM (pad n 1)
      if ra.length ≠ rows.length then .error .valueError
      pure (gammaOf Prod.fst Prod.snd ((rows.zip ms).zip ra))
  return (gmass + alpha * gradius, gmass, gradius, sconf rows)

end

end TEflow.Kappa
