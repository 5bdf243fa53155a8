import Mathlib.Analysis.SpecialFunctions.Pow.Real
import Mathlib.Analysis.SpecialFunctions.Trigonometric.Inverse
import Mathlib.Analysis.SpecialFunctions.Sigmoid
import Verif.Model.Basic
import Verif.Model.Re

/-! # Model of /repo/src/teflow/mathext.py

Arrays are functions on a finite index type or lists; numbers are exact (ℝ, or a field).  Numpy's infinities and NaNs are
not modelled: where the program would produce one (division by zero) the theorems carry the condition. -/

namespace TEflow.Mathext

section Metric
variable {n : ℕ}

/-- `np.mean(·, axis=-1)` of a one-dimensional array (higher-dimensional input: row by row) -/
noncomputable def mean (f : Fin n → ℝ) : ℝ := (∑ i, f i) / n

/-- `Metric.MSE`, mathext.py:67-78 -/
noncomputable def MSE (y y2 : Fin n → ℝ) : ℝ := mean (fun i => (y2 i - y i) ^ 2)
/-- `Metric.RMSE`, mathext.py:80-91 -/
noncomputable def RMSE (y y2 : Fin n → ℝ) : ℝ := Real.sqrt (mean (fun i => (y2 i - y i) ^ 2))
/-- `Metric.MAE`, mathext.py:93-104 -/
noncomputable def MAE (y y2 : Fin n → ℝ) : ℝ := mean (fun i => |y2 i - y i|)
/-- `Metric.MAPE`, mathext.py:106-118 -/
noncomputable def MAPE (y y2 : Fin n → ℝ) : ℝ := mean (fun i => |y2 i / y i - 1|)
/-- `Metric.SMAPE`, mathext.py:120-136 -/
noncomputable def SMAPE (y y2 : Fin n → ℝ) : ℝ := 2 * mean (fun i => |y2 i - y i| / (|y2 i| + |y i|))

/-- the kinds of metric -/
inductive Kind where
  | MSE | RMSE | MAE | MAPE | SMAPE
  deriving DecidableEq, Repr

/-- `Metric(kind)` with `kind` already in upper case, mathext.py:50-64: the metric it calls, or `ValueError` -/
def metricKind (kind : String) : Except PyErr Kind :=
  if kind = "MSE" then .ok .MSE else if kind = "RMSE" then .ok .RMSE else if kind = "MAE" then .ok .MAE
  else if kind = "MAPE" then .ok .MAPE else if kind = "SMAPE" then .ok .SMAPE else .error .valueError

/-- `Metric.__call__`, mathext.py:66-67 -/
noncomputable def callMetric (k : Kind) (y y2 : Fin n → ℝ) : ℝ :=
  match k with
  | .MSE => MSE y y2 | .RMSE => RMSE y y2 | .MAE => MAE y y2 | .MAPE => MAPE y y2 | .SMAPE => SMAPE y y2

end Metric

section Steps

/-- `scipy.special.expit` -/
noncomputable def expit (x : ℝ) : ℝ := 1 / (1 + Real.exp (-x))
/-- `scipy.special.logit` on the open unit interval -/
noncomputable def logit (p : ℝ) : ℝ := Real.log (p / (1 - p))
/-- `np.clip` -/
noncomputable def clip (x lo hi : ℝ) : ℝ := min (max x lo) hi

/-- `fermidirac(x, inverse)`, mathext.py:331-354 -/
noncomputable def fermidirac (x : ℝ) (inverse : Bool) : ℝ :=
  if inverse then -1 * logit (clip x 0 1) else expit (-1 * x)

/-- `smoothstep(x, inverse, shift)`, mathext.py:356-400 -/
noncomputable def smoothstep (x : ℝ) (inverse shift : Bool) : ℝ :=
  if shift then
    if inverse then 2 * Real.sin (Real.arcsin (1 - 2 * x) / 3)
    else let x := clip x (-1) 1; (x - 1) * (x - 1) * (x + 2) / 4
  else
    if inverse then 1 / 2 - Real.sin (Real.arcsin (1 - 2 * x) / 3)
    else let x := clip x 0 1; x * x * (3 - 2 * x)

end Steps

end TEflow.Mathext
