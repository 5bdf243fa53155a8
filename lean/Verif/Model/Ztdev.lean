import Mathlib.Analysis.SpecialFunctions.Sqrt
import Verif.Model.Basic

/-! # Model of /repo/src/teflow/ztdev.py

Numbers are exact; a result that numpy makes NaN or infinite is `none`.  The four columns `T, C, S, K` of the program are
one list of points. -/

namespace TEflow.Ztdev

/-- one row of the TE datas: temperature (K), conductivity (S/cm), Seebeck coefficient (uV/K), thermal conductivity -/
structure TEPoint where
  T : ℝ
  C : ℝ
  S : ℝ
  K : ℝ

/-- `cal_Phi(u, S, T)`, ztdev.py:25-44, for `u` different from zero -/
noncomputable def calPhi (u S T : ℝ) : ℝ := 1 / 1000000 * S * T + 1 / u

/-- one step of the loop of `cal_Yita`, ztdev.py:73-76: from the previous and the current point and `1/u` to the new
`1/u` (`u_inv` of the program).  `1/u = 0` means that `u` is infinite: then, and for a negative argument of the square
root, every later number is NaN.  `C = 0` is NaN for increasing temperatures. -/
noncomputable def yitaStep (prev cur : TEPoint) (uInv : Option ℝ) : Option ℝ :=
  uInv.bind fun w =>
    if w = 0 ∨ prev.C = 0 ∨ cur.C = 0 then none
    else
      let u := 1 / w
      let pSqrt := 1 - u ^ 2 * (cur.K / (100 * cur.C) + prev.K / (100 * prev.C)) * (cur.T - prev.T)
      let pLast := (cur.T + prev.T) / 2 * (cur.S / 1000000 - prev.S / 1000000)
      if pSqrt < 0 then none else some (Real.sqrt pSqrt / u - pLast)

/-- `1 - Phi_0/Phi_i`, ztdev.py:77-78 (before the factor 100) -/
noncomputable def yitaAt (phi0 : ℝ) (cur : TEPoint) (uInv : Option ℝ) : Option ℝ :=
  uInv.bind fun w =>
    let phi := cur.S / 1000000 * cur.T + w
    if phi = 0 then none else some (1 - phi0 / phi)

/-- the loop of `cal_Yita`, ztdev.py:72-78 -/
noncomputable def yitaLoop (phi0 : ℝ) : TEPoint → List TEPoint → Option ℝ → List (Option ℝ)
  | _, [], _ => []
  | prev, cur :: rest, uInv =>
    let uInv' := yitaStep prev cur uInv
    yitaAt phi0 cur uInv' :: yitaLoop phi0 cur rest uInv'

/-- `cal_Yita(u, datas, allTemp=True)`, ztdev.py:46-81, for a Python float `u` -/
noncomputable def calYitas (u : ℝ) (d : List TEPoint) : Except PyErr (List (Option ℝ)) :=
  match d with
  | [] => .error .indexError
  | p :: rest =>
    if u = 0 then .error .zeroDivisionError
    else
      let phi0 := p.S / 1000000 * p.T + 1 / u
      .ok ((some 0 :: yitaLoop phi0 p rest (some (1 / u))).map (Option.map (100 * ·)))

/-- `cal_Yita(u, datas)` (`allTemp=False`), ztdev.py:81 -/
noncomputable def calYita (u : ℝ) (d : List TEPoint) : Except PyErr (Option ℝ) :=
  (calYitas u d).map fun ys => ys.getLast?.join

/-- `cal_ZTdev(Yita, Tc, Th)`, ztdev.py:83-108, for one entry -/
noncomputable def calZTdev (yita Tc Th : ℝ) : ℝ :=
  let sub1 := Th - Tc * (1 - yita / 100)
  let sub2 := Th * (1 - yita / 100) - Tc
  let sub := if |sub2| > 1 / 1000 then sub1 / sub2 else 1
  sub ^ 2 - 1

/-- the bounds `(u_min, u_max)` of `optim_u`, ztdev.py:134-139 -/
noncomputable def bounds (p : TEPoint) : ℝ × ℝ :=
  if p.S > 0 then (1 / 100, 1 / 10000 * p.S * p.C / p.K) else (1 / 10000 * p.S * p.C / p.K, -1 / 100)

/-- `scipy.optimize.minimize_scalar(fun, bounds, method='bounded')`: `success`, `x`, `fun` (the search itself is not
modelled: it is an argument of the functions below) -/
structure OptResult where
  success : Bool
  x : ℝ
  fn : Option ℝ

/-- the search routine: objective (possibly NaN), lower and upper bound -/
abbrev Search := (ℝ → Except PyErr (Option ℝ)) → ℝ → ℝ → OptResult

/-- `optim_u(datas)` (`details=False`, `returnYita=False`), ztdev.py:110-159.  scipy raises `ValueError` if the lower
bound exceeds the upper one; `C` and `K` are arrays of numpy numbers. -/
noncomputable def optimU (search : Search) (d : List TEPoint) : Except PyErr (Option ℝ) :=
  match d with
  | [] => .error .indexError
  | p :: _ =>
    let (lo, hi) := bounds p
    if hi < lo then .error .valueError
    else
      let rst := search (fun u => (calYita u d).map (Option.map (-1 * ·))) lo hi
      .ok (if rst.success then some rst.x else none)

/-- `optim_Yita(datas, allTemp)`, ztdev.py:161-183: with `u_opt = None` the first arithmetic operation is a `TypeError`.
The result is the whole list, or a list of one for `allTemp=False` (numpy broadcasts a single number like one). -/
noncomputable def optimYita (search : Search) (d : List TEPoint) (allTemp : Bool) : Except PyErr (List (Option ℝ)) :=
  match optimU search d with
  | .error e => .error e
  | .ok none => .error .typeError
  | .ok (some u) => if allTemp then calYitas u d else (calYita u d).map fun y => [y]

/-- the result of `valuate` -/
structure Valuation where
  Tc : List ℝ
  Th : List ℝ
  ZTdev : List (Option ℝ)
  Yita : List (Option ℝ)

/-- `valuate(datas_TCSK, allTemp)`, ztdev.py:185-221: a single efficiency is broadcast to all temperatures -/
noncomputable def valuate (search : Search) (d : List TEPoint) (allTemp : Bool) : Except PyErr Valuation :=
  match d with
  | [] => .error .indexError
  | p :: _ =>
    let Th := d.map (·.T)
    let Tc := Th.map fun _ => p.T
    match optimYita search d allTemp with
    | .error e => .error e
    | .ok ys =>
      let ys' := if allTemp then ys else Th.map fun _ => ys.head?.join
      .ok { Tc := Tc, Th := Th, Yita := ys,
            ZTdev := List.zipWith (fun y (c, h) => y.map fun y => calZTdev y c h) ys' (Tc.zip Th) }

end TEflow.Ztdev
