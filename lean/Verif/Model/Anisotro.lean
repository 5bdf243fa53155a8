import Mathlib.Analysis.SpecialFunctions.Trigonometric.Basic
import Mathlib.LinearAlgebra.Matrix.Notation
import Mathlib.Data.Matrix.Mul
import Verif.Model.Basic

/-! # Model of /repo/src/teflow/anisotro.py

Tensor components may be arrays in the program; the formulas act entry by entry, the model treats one entry.  Numbers are
exact. -/

namespace TEflow.Anisotro
open Matrix

abbrev Mat := Matrix (Fin 3) (Fin 3) ℝ

/-- Voigt sequence `(C11, C22, C33, C23, C13, C12)` -/
@[ext] structure Voigt where
  C11 : ℝ
  C22 : ℝ
  C33 : ℝ
  C23 : ℝ
  C13 : ℝ
  C12 : ℝ

/-- `tens2seq(matrix, use_upper)`, anisotro.py:18-54 -/
noncomputable def tens2seq (m : Mat) (useUpper : Option Bool) : Voigt :=
  match useUpper with
  | none => ⟨m 0 0, m 1 1, m 2 2, (m 1 2 + m 2 1) / 2, (m 0 2 + m 2 0) / 2, (m 0 1 + m 1 0) / 2⟩
  | some true => ⟨m 0 0, m 1 1, m 2 2, m 1 2, m 0 2, m 0 1⟩
  | some false => ⟨m 0 0, m 1 1, m 2 2, m 2 1, m 2 0, m 1 0⟩

/-- `seq2tens`, anisotro.py:56-82 -/
def seq2tens (t : Voigt) : Mat := !![t.C11, t.C12, t.C13; t.C12, t.C22, t.C23; t.C13, t.C23, t.C33]

/-- `comb_rotations(theta_y, theta_z)`, anisotro.py:84-109 -/
noncomputable def combRotations (ty tz : ℝ) : Mat :=
  let Ry : Mat := !![Real.cos ty, 0, Real.sin ty; 0, 1, 0; -Real.sin ty, 0, Real.cos ty]
  let Rz : Mat := !![Real.cos tz, -Real.sin tz, 0; Real.sin tz, Real.cos tz, 0; 0, 0, 1]
  Rz * Ry

/-- `project3d(theta_rad, phi_rad, C…)`, anisotro.py:111-144 -/
noncomputable def project3d (theta phi : ℝ) (t : Voigt) : ℝ :=
  let cx := Real.sin phi * Real.cos theta
  let cy := Real.sin phi * Real.sin theta
  let cz := Real.cos phi
  cx * cx * t.C11 + cy * cy * t.C22 + cz * cz * t.C33 + 2 * (cy * cz * t.C23 + cz * cx * t.C13 + cx * cy * t.C12)

/-- the final formulas of `rotate3d`, anisotro.py:256-286 -/
def rotateBy (R : Mat) (t : Voigt) : Voigt where
  C11 := R 0 0 * R 0 0 * t.C11 + R 0 1 * R 0 1 * t.C22 + R 0 2 * R 0 2 * t.C33 +
    2 * (R 0 0 * R 0 1 * t.C12 + R 0 0 * R 0 2 * t.C13 + R 0 1 * R 0 2 * t.C23)
  C22 := R 1 0 ^ 2 * t.C11 + R 1 1 ^ 2 * t.C22 + R 1 2 ^ 2 * t.C33 +
    2 * (R 1 0 * R 1 1 * t.C12 + R 1 0 * R 1 2 * t.C13 + R 1 1 * R 1 2 * t.C23)
  C33 := R 2 0 ^ 2 * t.C11 + R 2 1 ^ 2 * t.C22 + R 2 2 ^ 2 * t.C33 +
    2 * (R 2 0 * R 2 1 * t.C12 + R 2 0 * R 2 2 * t.C13 + R 2 1 * R 2 2 * t.C23)
  C12 := R 0 0 * R 1 0 * t.C11 + R 0 1 * R 1 1 * t.C22 + R 0 2 * R 1 2 * t.C33 +
    (R 0 0 * R 1 1 + R 0 1 * R 1 0) * t.C12 + (R 0 0 * R 1 2 + R 0 2 * R 1 0) * t.C13 +
    (R 0 1 * R 1 2 + R 0 2 * R 1 1) * t.C23
  C13 := R 0 0 * R 2 0 * t.C11 + R 0 1 * R 2 1 * t.C22 + R 0 2 * R 2 2 * t.C33 +
    (R 0 0 * R 2 1 + R 0 1 * R 2 0) * t.C12 + (R 0 0 * R 2 2 + R 0 2 * R 2 0) * t.C13 +
    (R 0 1 * R 2 2 + R 0 2 * R 2 1) * t.C23
  C23 := R 1 0 * R 2 0 * t.C11 + R 1 1 * R 2 1 * t.C22 + R 1 2 * R 2 2 * t.C33 +
    (R 1 0 * R 2 1 + R 1 1 * R 2 0) * t.C12 + (R 1 0 * R 2 2 + R 1 2 * R 2 0) * t.C13 +
    (R 1 1 * R 2 2 + R 1 2 * R 2 1) * t.C23

/-- the `rotation`/`orient` arguments of `rotate3d` -/
inductive Rotation where
  /-- `orient=None`: a matrix -/
  | matrix (m : Mat)
  /-- `orient` a string -/
  | named (theta : ℝ) (orient : List Char)
  /-- `orient` a vector -/
  | about (theta ux uy uz : ℝ)

/-- the rotation matrix built by `rotate3d`, anisotro.py:212-253.  For named axes the code starts from the matrix about
`x` and permutes its entries.  A zero axis vector makes numpy divide by zero (excluded in the theorems). -/
noncomputable def rotationMatrix : Rotation → Except PyErr Mat
  | .matrix m => .ok m
  | .named theta orient =>
    let R11 : ℝ := 1; let R12 : ℝ := 0; let R13 : ℝ := 0
    let R21 : ℝ := 0; let R22 := Real.cos theta; let R23 := -Real.sin theta
    let R31 : ℝ := 0; let R32 := Real.sin theta; let R33 := Real.cos theta
    match orient with
    | [] => .error .indexError
    | c :: _ =>
      if c = 'x' ∨ c = 'X' then .ok !![R11, R12, R13; R21, R22, R23; R31, R32, R33]
      else if c = 'y' ∨ c = 'Y' then .ok !![R33, R31, R32; R13, R11, R12; R23, R21, R22]
      else if c = 'z' ∨ c = 'Z' then .ok !![R22, R23, R21; R32, R33, R31; R12, R13, R11]
      else .error .valueError
  | .about theta vx vy vz =>
    let norm := Real.sqrt (vx ^ 2 + vy ^ 2 + vz ^ 2)
    let ux := vx / norm; let uy := vy / norm; let uz := vz / norm
    let c := Real.cos theta; let s := Real.sin theta
    .ok !![c + ux ^ 2 * (1 - c), ux * uy * (1 - c) - uz * s, ux * uz * (1 - c) + uy * s;
      uy * ux * (1 - c) + uz * s, c + uy ^ 2 * (1 - c), uy * uz * (1 - c) - ux * s;
      uz * ux * (1 - c) - uy * s, uz * uy * (1 - c) + ux * s, c + uz ^ 2 * (1 - c)]

/-- `rotate3d(rotation, C…, orient=…)`, anisotro.py:146-287 -/
noncomputable def rotate3d (r : Rotation) (t : Voigt) : Except PyErr Voigt :=
  (rotationMatrix r).map (rotateBy · t)

/-! ## `anilay` -/

/-- the `widths` argument of `anilay` -/
inductive Widths where
  | none
  | number (w : ℝ)
  | list (ws : List ℝ)
  | ndarray (ws : List ℝ)

/-- `widths or 1.0`, anisotro.py:324: numpy refuses the truth value of an array with more than one entry; falsy values
(`None`, `0`, an empty list) become `1.0`.  The result is a one-dimensional list, a number counting as a list of one. -/
noncomputable def widthsOr : Widths → Except PyErr (List ℝ)
  | .none => .ok [1]
  | .number w => .ok [if w = 0 then 1 else w]
  | .list [] => .ok [1]
  | .list ws => .ok ws
  | .ndarray [] => .ok [1]
  | .ndarray [w] => .ok [if w = 0 then 1 else w]
  | .ndarray _ => .error .valueError

/-- one layer -/
structure Layer where
  w : ℝ
  C : ℝ
  S : ℝ
  K : ℝ

/-- broadcast a one-dimensional list to length `n` -/
def stretch (n : Nat) (l : List ℝ) : Except PyErr (List ℝ) :=
  if l.length = n then .ok l else match l with
    | [a] => .ok (List.replicate n a)
    | _ => .error .valueError

/-- the common length of lists under broadcasting: the length of the first one not of length 1 -/
def commonLen (ls : List (List ℝ)) : Nat := ((ls.map List.length).find? (· ≠ 1)).getD 1

/-- the six results -/
structure Effective where
  Cv : ℝ
  Cp : ℝ
  Sv : ℝ
  Sp : ℝ
  Kv : ℝ
  Kp : ℝ

/-- the formulas, anisotro.py:325-332 -/
noncomputable def effective (ls : List Layer) : Effective where
  Cv := (ls.map (·.w)).sum / (ls.map fun l => l.w / l.C).sum
  Cp := (ls.map fun l => l.w * l.C).sum / (ls.map (·.w)).sum
  Sv := (ls.map fun l => l.w / l.K * l.S).sum / (ls.map fun l => l.w / l.K).sum
  Sp := (ls.map fun l => l.w * l.C * l.S).sum / (ls.map fun l => l.w * l.C).sum
  Kv := (ls.map (·.w)).sum / (ls.map fun l => l.w / l.K).sum
  Kp := (ls.map fun l => l.w * l.K).sum / (ls.map (·.w)).sum

/-- `anilay(C_list, S_list, K_list, widths)`, anisotro.py:289-333, for one-dimensional arguments -/
noncomputable def anilay (C S K : List ℝ) (widths : Widths) : Except PyErr Effective := do
  let w ← widthsOr widths
  let n := commonLen [C, S, K, w]
  let C ← stretch n C
  let S ← stretch n S
  let K ← stretch n K
  let w ← stretch n w
  return effective ((w.zip (C.zip (S.zip K))).map fun p => ⟨p.1, p.2.1, p.2.2.1, p.2.2.2⟩)

end TEflow.Anisotro
