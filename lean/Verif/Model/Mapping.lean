import Verif.Model.Gpr
import Mathlib.LinearAlgebra.Matrix.PosDef
import Mathlib.Analysis.SpecialFunctions.Log.Basic
import Mathlib.Analysis.Real.Pi.Bounds

/-! # Model of the kernel mapping of scattered data (/repo/src/teflow/mathext.py:271-329) -/

namespace TEflow.Mathext
open Matrix

/-- what `mapping` can raise: `ValueError('Unsupported kernel')` (mathext.py:313) and the `LinAlgError` of
`scipy.linalg.solve(…, assume_a='pos')` (mathext.py:321, 323) -/
inductive MapErr where
  | unsupported
  | linAlg
  deriving DecidableEq

/-- a `kernel` argument: a string or a callable, mathext.py:307-313.  A callable is given by its value at one pair. -/
inductive Kernel where
  | named (s : String)
  | fn (k : Bool → ℝ → ℝ → ℝ → ℝ)

/-- the choice of the kernel, mathext.py:307-313 (`kernel.lower()`) -/
noncomputable def Kernel.resolve : Kernel → Except MapErr (Bool → ℝ → ℝ → ℝ → ℝ)
  | .fn k => .ok k
  | .named s => if s.toLower = "rbf" then .ok kernelRbf else if s.toLower = "dfx" then .ok kernelDfx else .error .unsupported

/-- the symmetric matrix with the upper triangle of `A`: all that `solve(A, …, assume_a='pos')` looks at -/
def upper {n : ℕ} (A : Matrix (Fin n) (Fin n) ℝ) : Matrix (Fin n) (Fin n) ℝ :=
  Matrix.of fun i j => if i ≤ j then A i j else A j i

open Classical in
/-- `lsolve(A, B, assume_a='pos')`: the exact solution, or `LinAlgError` for a matrix that is not positive definite
(in the code a nearly singular matrix gives a warning; rounding is not modelled) -/
noncomputable def solvePos {n m : ℕ} (A : Matrix (Fin n) (Fin n) ℝ) (B : Matrix (Fin n) (Fin m) ℝ) :
    Except MapErr (Matrix (Fin n) (Fin m) ℝ) :=
  if (upper A).PosDef then .ok ((upper A)⁻¹ * B) else .error .linAlg

/-- the matrix `A`, mathext.py:317-318: `+ regular` broadcasts along the last axis, a scalar being the constant vector -/
noncomputable def mapA {n : ℕ} (k : Bool → ℝ → ℝ → ℝ → ℝ) (x y : Fin n → ℝ) (xscale yscale : ℝ) (regular : Fin n → ℝ) :
    Matrix (Fin n) (Fin n) ℝ :=
  Matrix.of fun i j => k false (x j) (x i) xscale * k false (y j) (y i) yscale + regular j

/-- the matrix `B`, mathext.py:319-320 -/
noncomputable def mapB {n m : ℕ} (k : Bool → ℝ → ℝ → ℝ → ℝ) (x y : Fin n → ℝ) (px py : Fin m → ℝ) (xscale yscale : ℝ) :
    Matrix (Fin n) (Fin m) ℝ :=
  Matrix.of fun i j => k false (px j) (x i) xscale * k false (py j) (y i) yscale

/-- `mapping(dataXYZ, predXY, kernel, xscale, yscale, regular)`, mathext.py:271-326, with scalar scales -/
noncomputable def mapping {n m : ℕ} (x y z : Fin n → ℝ) (px py : Fin m → ℝ) (kernel : Kernel) (xscale yscale : ℝ) (regular : Fin n → ℝ) :
    Except MapErr ((Fin m → ℝ) × ℝ) := do
  let k ← kernel.resolve
  let A := mapA k x y xscale yscale regular
  let B := mapB k x y px py xscale yscale
  let W ← solvePos A B
  let v ← solvePos A (Matrix.of fun i (_ : Fin 1) => z i)
  return (z ᵥ* W, -(1 / 2) * (z ⬝ᵥ fun i => v i 0) - 1 / 2 * Real.log |A.det| - 1 / 2 * n * Real.log (2 * Real.pi))

end TEflow.Mathext
