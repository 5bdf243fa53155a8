import Mathlib.Analysis.SpecialFunctions.Trigonometric.DerivHyp
import Mathlib.Analysis.SpecialFunctions.Exp
import Mathlib.LinearAlgebra.Matrix.NonsingularInverse
import Verif.Model.Basic

/-! # Model of the Gaussian-process interpolation (/repo/src/teflow/mathext.py:402-496) -/

namespace TEflow.Mathext
open Matrix

/-- `_kernel_rbf(u, v, scale, gradient)` at one pair `(u, v)`, mathext.py:402-408 -/
noncomputable def kernelRbf (gradient : Bool) (u v scale : ℝ) : ℝ :=
  let conv := Real.exp (-(u - v) ^ 2 / 2 / scale ^ 2)
  if gradient then (v - u) / scale ^ 2 * conv else conv

/-- `_kernel_dfx(u, v, scale, gradient)` at one pair, mathext.py:410-418 -/
noncomputable def kernelDfx (gradient : Bool) (u v scale : ℝ) : ℝ :=
  let tg := Real.tanh ((u - v) / (2 * scale))
  let conv := 1 - tg ^ 2
  if gradient then -tg / scale * conv else conv

/-- `kernel.lower()`: the named kernels, mathext.py:422-428 (the name is given in lower case) -/
noncomputable def kernelOf (name : String) : Except PyErr (Bool → ℝ → ℝ → ℝ → ℝ) :=
  if name = "rbf" then .ok kernelRbf else if name = "dfx" then .ok kernelDfx else .error .valueError

/-- `interp_gpr(x, y, xp, kernel, scale, regular, gradient)`, mathext.py:420-496, with a scalar `scale`, the vector
`regular` put on the diagonal (mathext.py:487), and `xp` flattened.  `meshgrid(u, v)` has rows for `v` and columns for
`u`; `lsolve(A, B)` is the exact solution `A⁻¹ B`. -/
noncomputable def gprPredict {n m : ℕ} (kernel : Bool → ℝ → ℝ → ℝ → ℝ) (x y : Fin n → ℝ) (xp : Fin m → ℝ)
    (scale : ℝ) (regular : Fin n → ℝ) (gradient : Bool) : Fin m → ℝ :=
  let A : Matrix (Fin n) (Fin n) ℝ := Matrix.of (fun i j => kernel false (x j) (x i) scale) + Matrix.diagonal regular
  let B : Matrix (Fin n) (Fin m) ℝ := Matrix.of (fun i j => kernel gradient (xp j) (x i) scale)
  y ᵥ* (A⁻¹ * B)

end TEflow.Mathext
