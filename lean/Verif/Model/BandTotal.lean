import Verif.Model.BandFuncs

/-! # Model of the distribution functions of a `MultiBands` object, bandlib.py:529-555 -/

namespace TEflow.Bandlib

noncomputable section

/-- a band in a `MultiBands` object: its functions, its carrier sign (+1 valence, -1 conduction) and its offset -/
structure Placed where
  fns : BandFns
  sign : ℝ
  delta : ℝ

/-- `np.maximum(-1*band._q_sign*(E-delta), 0)`, bandlib.py:534, 543, 553 -/
def Placed.depth (b : Placed) (E : ℝ) : ℝ := max (-1 * b.sign * (E - b.delta)) 0

/-- `MultiBands.dos`, bandlib.py:529-536 -/
def totDos (bs : List Placed) (E : ℝ) : ℝ := (bs.map fun b => b.fns.dos (b.depth E)).sum

/-- `MultiBands.trs`, bandlib.py:538-545 -/
def totTrs (bs : List Placed) (E T : ℝ) : ℝ := (bs.map fun b => b.fns.trs (b.depth E) T).sum

/-- `band.hall(E, T)`: a `LinearBand` raises `NotImplementedError`, bandlib.py:1263-1265 -/
def BandFns.hallAt (f : BandFns) (E T : ℝ) : Except PyErr ℝ :=
  match f.hall with
  | none => .error .notImplementedError
  | some h => .ok (h E T)

/-- `MultiBands.hall`, bandlib.py:547-555 -/
def totHall (E T : ℝ) : ℝ → List Placed → Except PyErr ℝ
  | acc, [] => .ok acc
  | acc, b :: bs => match b.fns.hallAt (b.depth E) T with
    | .error e => .error e
    | .ok v => totHall E T (acc + v) bs

/-- `APSSPB.PFmax`, bandlib.py:839-842 -/
def Spb.PFmax (b : Spb) : ℝ := b.sigma0 * sigma0ToPFmax

/-- `APSSPB.EFopt`, bandlib.py:844-846 (it does not depend on the band) -/
def Spb.EFopt (_b : Spb) (T : ℝ) : ℝ := yitaOpt * kB * T

end

end TEflow.Bandlib
