import Mathlib.Analysis.SpecialFunctions.Sqrt
import Mathlib.Algebra.Polynomial.Eval.Defs
import Verif.Model.Interp
import Verif.Model.Ztdev

/-! # Model of /repo/src/teflow/engout.py

Numbers are exact.  numpy arrays over several temperature pairs are lists; the formulas act entry by entry.  Division by
zero (numpy: NaN/inf) is excluded by the hypotheses of the theorems. -/

namespace TEflow.Engout
open TEflow.Ztdev (TEPoint)
open TEflow.Mathext (npInterp)

/-- the loop of scipy's `cumulative_trapezoid`, after the first point -/
def cumtrapzGo {R : Type} [Field R] (acc : R) : R × R → List (R × R) → List (R × R)
  | _, [] => []
  | (x0, y0), (x1, y1) :: rest =>
    let acc' := acc + (x1 - x0) * (y1 + y0) / 2
    (x1, acc') :: cumtrapzGo acc' (x1, y1) rest

/-- `cumtrapz(y, x, initial=0)` (scipy), as the points `(x, integral up to x)` -/
def cumtrapz {R : Type} [Field R] : List (R × R) → List (R × R)
  | [] => []
  | (x, y) :: rest => (x, 0) :: cumtrapzGo 0 (x, y) rest

/-- the integrals `itgs` of one temperature pair -/
structure Itgs where
  Tc : ℝ
  Th : ℝ
  deltaT : ℝ
  Sc : ℝ
  Sh : ℝ
  Rho : ℝ
  S : ℝ
  K : ℝ
  RhoT : ℝ
  ST : ℝ

/-- `interp(P_itg, Th) - interp(P_itg, Tc)` for the points `(T, P)`, engout.py:177-191 -/
def tabItg {R : Type} [Field R] [LinearOrder R] (d : List (R × R)) (Tc Th : R) : R :=
  npInterp (cumtrapz d) none none Th - npInterp (cumtrapz d) none none Tc

/-- `Polynomial.integ()` of numpy: the antiderivative with value 0 at 0 -/
noncomputable def integ (p : Polynomial ℝ) : Polynomial ℝ :=
  p.sum fun n a => Polynomial.monomial (n + 1) (a / (n + 1))

/-- the TE datas: a table, or three polynomials (resistivity, Seebeck, thermal conductivity).  numpy polynomials with a
domain other than the default are not modelled. -/
inductive TEData where
  | table (d : List TEPoint)
  | poly (Rho S K : Polynomial ℝ)

/-- `GenCore._get_itgs` for one pair of temperatures, engout.py:142-192.  `np.interp` on an empty table is a
`ValueError`. -/
noncomputable def coreItgs (data : TEData) (Tc Th : ℝ) : Except PyErr Itgs :=
  match data with
  | .poly Rho S K =>
    let T : Polynomial ℝ := Polynomial.X
    let RhoT := T * Rho
    let ST := T * Rho
    .ok { Tc := Tc, Th := Th, deltaT := Th - Tc, Sc := S.eval Tc, Sh := S.eval Th
          Rho := (integ Rho).eval Th - (integ Rho).eval Tc
          S := (integ S).eval Th - (integ S).eval Tc
          K := (integ K).eval Th - (integ K).eval Tc
          RhoT := (integ RhoT).eval Th - (integ RhoT).eval Tc
          ST := (integ ST).eval Th - (integ ST).eval Tc }
  | .table [] => .error .valueError
  | .table d =>
    .ok { Tc := Tc, Th := Th, deltaT := Th - Tc
          Sc := npInterp (d.map fun p => (p.T, p.S)) none none Tc
          Sh := npInterp (d.map fun p => (p.T, p.S)) none none Th
          Rho := tabItg (d.map fun p => (p.T, 10000 / p.C)) Tc Th
          S := tabItg (d.map fun p => (p.T, p.S)) Tc Th
          K := tabItg (d.map fun p => (p.T, p.K)) Tc Th
          RhoT := tabItg (d.map fun p => (p.T, p.T * (10000 / p.C))) Tc Th
          ST := tabItg (d.map fun p => (p.T, p.T * p.S)) Tc Th }

/-- the modification factors -/
structure Mdfs where
  Rho : ℝ
  S : ℝ
  RhoW : ℝ
  SW : ℝ
  RhoT : ℝ
  ST : ℝ
  ST_RhoT_0 : ℝ
  ST_RhoT_1 : ℝ
  ST_RhoT_2 : ℝ

/-- `GenCore._get_mdfs`, engout.py:194-211 -/
noncomputable def mdfs (i : Itgs) : Mdfs :=
  let Rho := i.RhoT / i.Rho
  let S := i.ST / i.S
  let RhoT := Rho - i.Tc
  let ST := 2 * S - i.Tc
  { Rho := Rho, S := S, RhoW := i.RhoT - i.Tc * i.Rho, SW := 2 * i.ST - i.Tc * i.S, RhoT := RhoT, ST := ST
    ST_RhoT_0 := ST, ST_RhoT_1 := ST - RhoT, ST_RhoT_2 := ST - RhoT - RhoT }

/-- the weight factors -/
structure Wgts where
  W_J : ℝ
  W_T : ℝ
  alpha_0 : ℝ
  alpha_1 : ℝ
  alpha_2 : ℝ

/-- `GenCore._get_wgts`, engout.py:213-234 -/
noncomputable def wgts (i : Itgs) : Wgts :=
  let m := mdfs i
  let TSc := i.Tc * i.Sc
  let TSh := i.Th * i.Sh
  let Tau_w := (TSh * i.deltaT - m.SW) / (TSh - TSc - i.S)
  { W_J := m.Rho / i.deltaT, W_T := Tau_w / i.deltaT
    alpha_0 := m.ST_RhoT_0 / i.Sh, alpha_1 := m.ST_RhoT_1 / i.Sh, alpha_2 := m.ST_RhoT_2 / i.Sh }

/-- the profiles of the device at one temperature pair -/
structure Prfs where
  deltaT : ℝ
  PFeng : ℝ
  Zeng : ℝ
  ZTeng : ℝ
  ZTp : ℝ
  m_opt : ℝ
  Voc : ℝ
  Isc : ℝ
  Qx : ℝ
  itgs : Itgs
  mdfs : Mdfs
  wgts : Option Wgts

/-- `GenCore._get_prfs` and the weight factors of `_build`, engout.py:66-84, 236-265.  (`np.sqrt` of a negative number
is NaN: theorems about `m_opt` assume `1+ZTp >= 0`.) -/
noncomputable def prfs (L A : ℝ) (calWeights : Bool) (i : Itgs) : Prfs :=
  let m := Engout.mdfs i
  let PFeng := 1 / 1000000 * i.S * i.S / i.Rho
  let Zeng := PFeng / i.K
  let ZTp := Zeng * m.ST_RhoT_1
  { deltaT := i.deltaT, PFeng := PFeng, Zeng := Zeng, ZTeng := Zeng * i.deltaT, ZTp := ZTp, m_opt := Real.sqrt (1 + ZTp)
    Voc := 1 / 1000 * i.S
    Isc := 1 / 1000 * i.deltaT * i.S / (i.Rho * L) * A
    Qx := 1 / 1000 * PFeng * i.deltaT / L * A
    itgs := i, mdfs := m, wgts := if calWeights then some (Engout.wgts i) else none }

/-- the outputs of a simulation at one temperature pair and one reduced current -/
structure Outs where
  I : ℝ
  Vout : ℝ
  Pout : ℝ
  Qhot : ℝ
  Yita : ℝ

/-- the formulas of `_simulate`, engout.py:128-138 -/
noncomputable def simulate1 (p : Prfs) (I_r : ℝ) : Outs :=
  let Vout_r := 1 - I_r
  let Pout_r := I_r * Vout_r
  let Qhot_rt := 1 / p.Zeng + p.mdfs.ST * I_r - p.mdfs.RhoT * I_r * I_r
  let Pout := p.Qx * Pout_r
  let Qhot := p.Qx * Qhot_rt / p.deltaT
  { I := p.Isc * I_r, Vout := p.Voc * Vout_r, Pout := Pout, Qhot := Qhot, Yita := 100 * Pout / Qhot }

/-- numpy broadcasting of two one-dimensional arrays -/
def bcast {α β : Type} (x : List α) (y : List β) : Except PyErr (List (α × β)) :=
  if x.length = y.length then .ok (x.zip y)
  else match x, y with
    | [a], y => .ok (y.map fun b => (a, b))
    | x, [b] => .ok (x.map fun a => (a, b))
    | _, _ => .error .valueError

/-- the `I_r` argument -/
inductive Current where
  | str (s : List Char)
  | values (l : List ℝ)

/-- the first letter of `I_r.lower()` (the letters y, p, s have no other upper-case form) -/
def initial : List Char → Option Char
  | [] => none
  | c :: _ => some (if c = 'Y' then 'y' else if c = 'P' then 'p' else if c = 'S' then 's' else if c = 'Z' then 'z' else c)

/-- the currents selected by `I_r`, engout.py:98-117.  `'s…'` computes `[-1,]+[1,]*deltaT`, which numpy turns into an
array of floating-point numbers (temperatures are floating-point): `reshape` rejects it with `TypeError`. -/
noncomputable def currents (ps : List Prfs) : Current → Except PyErr (List ℝ)
  | .str s =>
    if initial s = some 'y' then .ok (ps.map fun p => 1 / (1 + p.m_opt))
    else if initial s = some 'p' then .ok [1 / 2]
    else if initial s = some 's' then .error .typeError
    else .error .valueError
  | .values l => .ok l

/-- `GenCore._simulate`, engout.py:86-140; `none`: nothing built yet -/
noncomputable def simulate (profiles : Option (List Prfs)) (I_r : Current) : Except PyErr (List Outs) :=
  match profiles with
  | none => .error .runtimeError
  | some ps => do
    let is ← currents ps I_r
    let pairs ← bcast ps is
    return pairs.map fun (p, i) => simulate1 p i

/-! ## A single leg as an object -/

/-- the state of a `GenLeg`, engout.py:56-64 -/
structure Leg where
  data : TEData
  Tc : List ℝ
  Th : List ℝ
  L : ℝ
  A : ℝ
  profiles : Option (List Prfs)

/-- `GenLeg(TEdatas, Tc, Th, L, A)`, engout.py:271-307: reporting `Tc[0]`, `Th[0]` of empty arrays is an `IndexError` -/
noncomputable def Leg.init (data : TEData) (Tc Th : List ℝ) (L A : ℝ) : Except PyErr Leg :=
  if Tc = [] ∨ Th = [] then .error .indexError else .ok ⟨data, Tc, Th, L, A, none⟩

/-- the profiles computed by `_build` from the present attributes -/
noncomputable def Leg.compute (g : Leg) (calWeights : Bool) : Except PyErr (List Prfs) := do
  let temps ← bcast g.Tc g.Th
  let itgs ← temps.mapM fun (c, h) => coreItgs g.data c h
  return itgs.map (prfs g.L g.A calWeights)

/-- `GenLeg.build(calWeights)`, engout.py:66-84, 309-318: the profiles are replaced only at the end -/
noncomputable def Leg.build (g : Leg) (calWeights : Bool) : Except PyErr (List Prfs) × Leg :=
  match g.compute calWeights with
  | .error e => (.error e, g)
  | .ok ps => (.ok ps, { g with profiles := some ps })

/-- `GenLeg.simulate(I_r)`, engout.py:320-331 -/
noncomputable def Leg.simulate (g : Leg) (I_r : Current) : Except PyErr (List Outs) := Engout.simulate g.profiles I_r

/-- the result of `GenLeg.valuate` -/
structure LegValuation where
  Tc : List ℝ
  Th : List ℝ
  deltaT : List ℝ
  PFeng : List ℝ
  ZTeng : List ℝ
  Pout : List ℝ
  Yita : List ℝ

/-- `GenLeg.valuate(datas_TCSK, L)`, engout.py:333-367 (`T[0]` of an empty table is an `IndexError`) -/
noncomputable def Leg.valuate (d : List TEPoint) (L : ℝ) : Except PyErr LegValuation :=
  match d.map (·.T) with
  | [] => .error .indexError
  | Tc :: Th => do
    let g ← Leg.init (.table d) [Tc] Th L 100
    let (r, g) := g.build false
    let ps ← r
    let outP ← g.simulate (.str "PowerMax".toList)
    let outY ← g.simulate (.str "YitaMax".toList)
    return { Tc := Th.map fun _ => Tc, Th := Th, deltaT := ps.map (·.deltaT), PFeng := ps.map (·.PFeng),
             ZTeng := ps.map (·.ZTeng), Pout := outP.map (·.Pout), Yita := outY.map (·.Yita) }

/-! ## A pair of legs -/

/-- the `ratioArea` argument, An/Ap -/
inductive RatioArea where
  | str (s : List Char)
  | value (r : ℝ)

/-- the area ratio used, engout.py:462-476 -/
noncomputable def areaRatio (p n : Itgs) (rL : ℝ) : RatioArea → Except PyErr ℝ
  | .str s =>
    if initial s = some 'z' then .ok (rL * Real.sqrt (p.Rho / n.Rho * n.K / p.K))
    else if initial s = some 'p' then .ok (Real.sqrt (rL * p.Rho / n.Rho))
    else .error .valueError
  | .value r => .ok r

/-- the integrals of the equivalent leg, engout.py:484-498 -/
noncomputable def pairItgs (p n : Itgs) (rL rA : ℝ) : Itgs :=
  let fx_t := fun p n : ℝ => (p + n) / 2
  let fx_s := fun p n : ℝ => p - n
  let fx_r := fun p n : ℝ => p * (1 + rA) + n * rL / rA * (1 + rA)
  let fx_k := fun p n : ℝ => p / (1 + rA) + n / (1 + rA) * rA / rL
  { Tc := fx_t p.Tc n.Tc, Th := fx_t p.Th n.Th, deltaT := fx_t p.deltaT n.deltaT
    Sc := fx_s p.Sc n.Sc, Sh := fx_s p.Sh n.Sh, S := fx_s p.S n.S, ST := fx_s p.ST n.ST
    Rho := fx_r p.Rho n.Rho, RhoT := fx_r p.RhoT n.RhoT, K := fx_k p.K n.K }

/-- the state of a `GenPair`; `rL`, `rA` are the ratios reported by the latest build -/
structure Pair where
  dataP : TEData
  dataN : TEData
  Tc : List ℝ
  Th : List ℝ
  L : ℝ
  A : ℝ
  profiles : Option (List Prfs)

/-- `GenPair(TEdatas_p, TEdatas_n, Tc, Th, L, A)`, engout.py:373-419 -/
noncomputable def Pair.init (dataP dataN : TEData) (Tc Th : List ℝ) (L A : ℝ) : Except PyErr Pair :=
  if Tc = [] ∨ Th = [] then .error .indexError else .ok ⟨dataP, dataN, Tc, Th, L, A, none⟩

/-- integrals and area ratio of the pair at one pair of temperatures, engout.py:450-498, for a single length ratio -/
noncomputable def Pair.itgs1 (g : Pair) (rL : ℝ) (rA : RatioArea) (c h : ℝ) : Except PyErr (Itgs × ℝ) := do
  let p ← coreItgs g.dataP c h
  let n ← coreItgs g.dataN c h
  let r ← areaRatio p n rL rA
  return (pairItgs p n rL r, r)

/-- profiles and area ratios computed by `GenPair.build`: `_build(options)` receives the dictionary of options, which is
always true, so the weight factors are always computed, engout.py:421-437 -/
noncomputable def Pair.compute (g : Pair) (rL : ℝ) (rA : RatioArea) (_calWeights : Bool) :
    Except PyErr (List Prfs × List ℝ) := do
  let temps ← bcast g.Tc g.Th
  let itgs ← temps.mapM fun (c, h) => g.itgs1 rL rA c h
  return (itgs.map fun x => prfs g.L g.A true x.1, itgs.map (·.2))

/-- `GenPair.build(ratioLength, ratioArea, calWeights)`, engout.py:421-437 -/
noncomputable def Pair.build (g : Pair) (rL : ℝ) (rA : RatioArea) (calWeights : Bool) :
    Except PyErr (List Prfs × List ℝ) × Pair :=
  match g.compute rL rA calWeights with
  | .error e => (.error e, g)
  | .ok ps => (.ok ps, { g with profiles := some ps.1 })

/-- `GenPair.simulate(I_r)`, engout.py:439-450 -/
noncomputable def Pair.simulate (g : Pair) (I_r : Current) : Except PyErr (List Outs) := Engout.simulate g.profiles I_r

/-- the result of `GenPair.valuate` -/
structure PairValuation where
  Tc : List ℝ
  Th : List ℝ
  deltaT : List ℝ
  ZTeng : List ℝ
  Yita : List ℝ
  PFeng : List ℝ
  Pout : List ℝ

/-- `GenPair.valuate(datas_p_TCSK, datas_n_TCSK, L)`, engout.py:500-539: temperatures from the p-type leg -/
noncomputable def Pair.valuate (dp dn : List TEPoint) (L : ℝ) : Except PyErr PairValuation :=
  match dp.map (·.T) with
  | [] => .error .indexError
  | Tc :: Th => do
    let g ← Pair.init (.table dp) (.table dn) [Tc] Th L 100
    let (r, g) := g.build 1 (.str "ZTengMax".toList) false
    let ps ← r
    let outY ← g.simulate (.str "YitaMax".toList)
    let (r', g) := g.build 1 (.str "PFengMax".toList) false
    let ps' ← r'
    let outP ← g.simulate (.str "PowerMax".toList)
    return { Tc := Th.map fun _ => Tc, Th := Th, deltaT := ps.1.map (·.deltaT), ZTeng := ps.1.map (·.ZTeng),
             Yita := outY.map (·.Yita), PFeng := ps'.1.map (·.PFeng), Pout := outP.map (·.Pout) }

end TEflow.Engout
