import Mathlib.Analysis.SpecialFunctions.Trigonometric.Basic
import Mathlib.LinearAlgebra.Matrix.Determinant.Basic
import Mathlib.Algebra.Order.Chebyshev
import Mathlib.Tactic
import Verif.Model.Anisotro

/-! # C38-C42: tensors and layered composites -/

namespace TEflow.Anisotro
open Matrix

/-! ## C38 -/

/-- **C38** Voigt → matrix → Voigt is the identity for each `use_upper` option. -/
theorem C38_seq_tens_seq (t : Voigt) (u : Option Bool) : tens2seq (seq2tens t) u = t := by
  rcases u with _ | _ | _ <;> ext <;> simp [tens2seq, seq2tens]

/-- **C38** Matrix → Voigt → matrix gives back exactly the symmetric matrices. -/
theorem C38_tens_seq_tens (m : Mat) (u : Option Bool) : seq2tens (tens2seq m u) = m ↔ mᵀ = m := by
  constructor
  · intro h
    rw [← h]
    ext i j
    fin_cases i <;> fin_cases j <;> rfl
  · intro h
    have e : ∀ i j, m j i = m i j := fun i j => congrFun (congrFun h i) j
    ext i j
    rcases u with _ | _ | _ <;> fin_cases i <;> fin_cases j <;> simp [tens2seq, seq2tens] <;>
      first
        | exact e _ _
        | (rw [e 1 0]; ring) | (rw [e 2 0]; ring) | (rw [e 2 1]; ring)
        | (have := e 0 1; have := e 0 2; have := e 1 2; linarith)

/-- **C38** The default option returns the symmetric part of any matrix. -/
theorem C38_symmetric_part (m : Mat) : seq2tens (tens2seq m none) = (1 / 2 : ℝ) • (m + mᵀ) := by
  ext i j
  fin_cases i <;> fin_cases j <;> simp [tens2seq, seq2tens] <;> ring

/-! ## C39 -/

theorem rotateBy_eq (R : Mat) (t : Voigt) (u : Option Bool) : rotateBy R t = tens2seq (R * seq2tens t * Rᵀ) u := by
  rcases u with _ | _ | _ <;> ext <;>
    simp [rotateBy, tens2seq, seq2tens, Matrix.mul_apply, Fin.sum_univ_three] <;> ring

theorem seq2tens_rotateBy (R : Mat) (t : Voigt) : seq2tens (rotateBy R t) = R * seq2tens t * Rᵀ := by
  rw [rotateBy_eq R t none, C38_tens_seq_tens]
  rw [Matrix.transpose_mul, Matrix.transpose_mul, Matrix.transpose_transpose,
    (C38_tens_seq_tens (seq2tens t) none).mp (by rw [C38_seq_tens_seq]), Matrix.mul_assoc]

/-- **C39** `rotate3d` with a matrix returns the Voigt form of `R C Rᵀ`. -/
theorem C39_RCRT (R : Mat) (t : Voigt) :
    ∃ t', rotate3d (.matrix R) t = .ok t' ∧ seq2tens t' = R * seq2tens t * Rᵀ :=
  ⟨rotateBy R t, rfl, seq2tens_rotateBy R t⟩

theorem seq2tens_injective : Function.Injective seq2tens := by
  intro a b h
  have := congrArg (tens2seq · none) h
  simpa [C38_seq_tens_seq] using this

theorem rotateBy_comp (R1 R2 : Mat) (t : Voigt) : rotateBy R2 (rotateBy R1 t) = rotateBy (R2 * R1) t := by
  apply seq2tens_injective
  simp only [seq2tens_rotateBy, Matrix.transpose_mul, Matrix.mul_assoc]

/-- **C39** Successive rotations compose: rotating by `r1`, then by `r2` is rotating by the product matrix. -/
theorem C39_compose (r1 r2 : Rotation) (R1 R2 : Mat) (h1 : rotationMatrix r1 = .ok R1) (h2 : rotationMatrix r2 = .ok R2)
    (t : Voigt) : (rotate3d r1 t).bind (rotate3d r2) = rotate3d (.matrix (R2 * R1)) t := by
  have h3 : rotationMatrix (.matrix (R2 * R1)) = .ok (R2 * R1) := rfl
  unfold rotate3d
  rw [h1, h3]
  simp only [Except.map, Except.bind, h2]
  rw [rotateBy_comp]

/-- **C39** An orthogonal rotation is undone by its transpose. -/
theorem C39_inverse (R : Mat) (hR : Rᵀ * R = 1) (t : Voigt) :
    (rotate3d (.matrix R) t).bind (rotate3d (.matrix Rᵀ)) = .ok t := by
  rw [C39_compose _ _ R Rᵀ rfl rfl, hR]
  unfold rotate3d rotationMatrix
  simp only [Except.map]
  congr 1
  apply seq2tens_injective
  rw [seq2tens_rotateBy]; simp

/-- trace, second invariant and determinant of a tensor -/
noncomputable def invariants (m : Mat) : ℝ × ℝ × ℝ := (m.trace, (m.trace ^ 2 - (m * m).trace) / 2, m.det)

/-- **C39** Orthogonal rotations preserve the three invariants of the tensor. -/
theorem C39_invariants (R : Mat) (hR : Rᵀ * R = 1) (t : Voigt) :
    ∃ t', rotate3d (.matrix R) t = .ok t' ∧ invariants (seq2tens t') = invariants (seq2tens t) := by
  refine ⟨rotateBy R t, rfl, ?_⟩
  rw [seq2tens_rotateBy]
  have e1 : (R * seq2tens t * Rᵀ).trace = (seq2tens t).trace := by
    rw [Matrix.trace_mul_comm, ← Matrix.mul_assoc, hR, Matrix.one_mul]
  have e2 : (R * seq2tens t * Rᵀ * (R * seq2tens t * Rᵀ)).trace = (seq2tens t * seq2tens t).trace := by
    have : R * seq2tens t * Rᵀ * (R * seq2tens t * Rᵀ) = R * (seq2tens t * seq2tens t) * Rᵀ := by
      calc R * seq2tens t * Rᵀ * (R * seq2tens t * Rᵀ) = R * seq2tens t * (Rᵀ * R) * (seq2tens t * Rᵀ) := by
            simp only [Matrix.mul_assoc]
        _ = _ := by rw [hR, Matrix.mul_one]; simp only [Matrix.mul_assoc]
    rw [this, Matrix.trace_mul_comm, ← Matrix.mul_assoc, hR, Matrix.one_mul]
  have e3 : (R * seq2tens t * Rᵀ).det = (seq2tens t).det := by
    have : (Rᵀ * R).det = 1 := by rw [hR, Matrix.det_one]
    rw [Matrix.det_mul] at this
    rw [Matrix.det_mul, Matrix.det_mul]
    linear_combination (seq2tens t).det * this
  simp only [invariants, e1, e2, e3]

/-- a quarter turn about z is orthogonal and is not the identity -/
example : (!![0, -1, 0; 1, 0, 0; 0, 0, 1] : Mat)ᵀ * !![0, -1, 0; 1, 0, 0; 0, 0, 1] = 1 := by
  ext i j; fin_cases i <;> fin_cases j <;> simp [Matrix.mul_apply, Fin.sum_univ_three]

/-! ## C40 -/

/-- **C40** The named axes agree with the corresponding vectors of any length. -/
theorem C40_named_axes (theta c : ℝ) (hc : 0 < c) (t : Voigt) (rest : List Char) :
    rotate3d (.named theta ('x' :: rest)) t = rotate3d (.about theta c 0 0) t ∧
    rotate3d (.named theta ('y' :: rest)) t = rotate3d (.about theta 0 c 0) t ∧
    rotate3d (.named theta ('z' :: rest)) t = rotate3d (.about theta 0 0 c) t ∧
    (∀ a ∈ [('x', 'X'), ('y', 'Y'), ('z', 'Z')],
      rotate3d (.named theta (a.2 :: rest)) t = rotate3d (.named theta (a.1 :: rest)) t) := by
  have hs : Real.sqrt (c ^ 2) = c := Real.sqrt_sq hc.le
  have hne := hc.ne'
  refine ⟨?_, ?_, ?_, ?_⟩
  · unfold rotate3d rotationMatrix
    simp [hs, hne]
  · unfold rotate3d rotationMatrix
    simp [hs, hne]
  · unfold rotate3d rotationMatrix
    simp [hs, hne]
  · intro a ha
    simp only [List.mem_cons, List.not_mem_nil, or_false] at ha
    rcases ha with rfl | rfl | rfl <;> simp [rotate3d, rotationMatrix]

/-- **C40** Rotating about y, then about z equals rotating by `comb_rotations`. -/
theorem C40_comb_rotations (ty tz : ℝ) (t : Voigt) (r1 r2 : List Char) :
    (rotate3d (.named ty ('y' :: r1)) t).bind (rotate3d (.named tz ('z' :: r2))) =
      rotate3d (.matrix (combRotations ty tz)) t := by
  have h1 : rotationMatrix (.named ty ('y' :: r1)) =
      .ok !![Real.cos ty, 0, Real.sin ty; 0, 1, 0; -Real.sin ty, 0, Real.cos ty] := by simp [rotationMatrix]
  have h2 : rotationMatrix (.named tz ('z' :: r2)) =
      .ok !![Real.cos tz, -Real.sin tz, 0; Real.sin tz, Real.cos tz, 0; 0, 0, 1] := by simp [rotationMatrix]
  rw [C39_compose _ _ _ _ h1 h2]
  rfl

/-- the matrix about a unit vector -/
noncomputable def rodrigues (c s ux uy uz : ℝ) : Mat :=
  !![c + ux ^ 2 * (1 - c), ux * uy * (1 - c) - uz * s, ux * uz * (1 - c) + uy * s;
      uy * ux * (1 - c) + uz * s, c + uy ^ 2 * (1 - c), uy * uz * (1 - c) - ux * s;
      uz * ux * (1 - c) - uy * s, uz * uy * (1 - c) + ux * s, c + uz ^ 2 * (1 - c)]

theorem unit_axis (vx vy vz : ℝ) (h : 0 < vx ^ 2 + vy ^ 2 + vz ^ 2) :
    (vx / Real.sqrt (vx ^ 2 + vy ^ 2 + vz ^ 2)) ^ 2 + (vy / Real.sqrt (vx ^ 2 + vy ^ 2 + vz ^ 2)) ^ 2 +
      (vz / Real.sqrt (vx ^ 2 + vy ^ 2 + vz ^ 2)) ^ 2 = 1 := by
  simp only [div_pow, Real.sq_sqrt h.le]
  field_simp

theorem rodrigues_mul (c s c' s' ux uy uz : ℝ) (h : ux ^ 2 + uy ^ 2 + uz ^ 2 = 1) :
    rodrigues c s ux uy uz * rodrigues c' s' ux uy uz = rodrigues (c * c' - s * s') (s * c' + c * s') ux uy uz := by
  have hz : uz ^ 2 = 1 - ux ^ 2 - uy ^ 2 := by linarith
  ext i j
  fin_cases i <;> fin_cases j <;> simp [rodrigues, Matrix.mul_apply, Fin.sum_univ_three] <;> grind

theorem rodrigues_orthogonal (theta ux uy uz : ℝ) (h : ux ^ 2 + uy ^ 2 + uz ^ 2 = 1) :
    (rodrigues (Real.cos theta) (Real.sin theta) ux uy uz)ᵀ * rodrigues (Real.cos theta) (Real.sin theta) ux uy uz = 1 := by
  have ht : (rodrigues (Real.cos theta) (Real.sin theta) ux uy uz)ᵀ = rodrigues (Real.cos theta) (-Real.sin theta) ux uy uz := by
    ext i j
    fin_cases i <;> fin_cases j <;> simp [rodrigues] <;> first | (left; ring) | ring
  rw [ht, rodrigues_mul _ _ _ _ _ _ _ h]
  have e1 : Real.cos theta * Real.cos theta - -Real.sin theta * Real.sin theta = 1 := by
    have := Real.sin_sq_add_cos_sq theta; nlinarith
  have e2 : -Real.sin theta * Real.cos theta + Real.cos theta * Real.sin theta = 0 := by ring
  rw [e1, e2]
  ext i j
  fin_cases i <;> fin_cases j <;> simp [rodrigues]

theorem rodrigues_det (theta ux uy uz : ℝ) (h : ux ^ 2 + uy ^ 2 + uz ^ 2 = 1) :
    (rodrigues (Real.cos theta) (Real.sin theta) ux uy uz).det = 1 := by
  have hs := Real.sin_sq_add_cos_sq theta
  rw [Matrix.det_fin_three]
  simp only [rodrigues, Matrix.of_apply, Matrix.cons_val', Matrix.cons_val_zero, Matrix.cons_val_one, Matrix.cons_val]
  generalize Real.cos theta = c at *
  generalize Real.sin theta = s at *
  grind

theorem about_eq (theta vx vy vz : ℝ) : rotationMatrix (.about theta vx vy vz) =
    .ok (rodrigues (Real.cos theta) (Real.sin theta) (vx / Real.sqrt (vx ^ 2 + vy ^ 2 + vz ^ 2))
      (vy / Real.sqrt (vx ^ 2 + vy ^ 2 + vz ^ 2)) (vz / Real.sqrt (vx ^ 2 + vy ^ 2 + vz ^ 2))) := rfl

/-- a rotation given by an angle (not by a matrix) about a proper axis -/
def ByAngle : Rotation → Prop
  | .matrix _ => False
  | .named _ o => ∃ c rest, o = c :: rest ∧ c ∈ ['x', 'X', 'y', 'Y', 'z', 'Z']
  | .about _ vx vy vz => 0 < vx ^ 2 + vy ^ 2 + vz ^ 2

theorem byAngle_rodrigues (r : Rotation) (h : ByAngle r) :
    ∃ theta ux uy uz, ux ^ 2 + uy ^ 2 + uz ^ 2 = 1 ∧
      rotationMatrix r = .ok (rodrigues (Real.cos theta) (Real.sin theta) ux uy uz) := by
  cases r with
  | matrix m => exact absurd h id
  | about theta vx vy vz => exact ⟨theta, _, _, _, unit_axis vx vy vz h, about_eq _ _ _ _⟩
  | named theta o =>
    obtain ⟨c, rest, rfl, hc⟩ := h
    simp only [List.mem_cons, List.not_mem_nil, or_false] at hc
    rcases hc with rfl | rfl | rfl | rfl | rfl | rfl
    · exact ⟨theta, 1, 0, 0, by norm_num, by simp [rotationMatrix, rodrigues]⟩
    · exact ⟨theta, 1, 0, 0, by norm_num, by simp [rotationMatrix, rodrigues]⟩
    · exact ⟨theta, 0, 1, 0, by norm_num, by simp [rotationMatrix, rodrigues]⟩
    · exact ⟨theta, 0, 1, 0, by norm_num, by simp [rotationMatrix, rodrigues]⟩
    · exact ⟨theta, 0, 0, 1, by norm_num, by simp [rotationMatrix, rodrigues]⟩
    · exact ⟨theta, 0, 0, 1, by norm_num, by simp [rotationMatrix, rodrigues]⟩

/-- **C40** Every rotation given by an angle uses an orthogonal matrix of determinant 1. -/
theorem C40_proper (r : Rotation) (h : ByAngle r) :
    ∃ R, rotationMatrix r = .ok R ∧ Rᵀ * R = 1 ∧ R.det = 1 ∧ ∀ t, rotate3d r t = rotate3d (.matrix R) t := by
  obtain ⟨theta, ux, uy, uz, hu, he⟩ := byAngle_rodrigues r h
  refine ⟨_, he, rodrigues_orthogonal theta ux uy uz hu, rodrigues_det theta ux uy uz hu, ?_⟩
  intro t
  unfold rotate3d; rw [he]; rfl

/-- **C40** Rotating about a fixed axis by `a`, then by `b` is rotating by `a + b`; a full turn changes nothing. -/
theorem C40_angles_add (a b vx vy vz : ℝ) (h : 0 < vx ^ 2 + vy ^ 2 + vz ^ 2) (t : Voigt) :
    (rotate3d (.about a vx vy vz) t).bind (rotate3d (.about b vx vy vz)) = rotate3d (.about (a + b) vx vy vz) t ∧
    rotate3d (.about (2 * Real.pi) vx vy vz) t = .ok t := by
  have hu := unit_axis vx vy vz h
  constructor
  · rw [C39_compose _ _ _ _ (about_eq a vx vy vz) (about_eq b vx vy vz), rodrigues_mul _ _ _ _ _ _ _ hu]
    unfold rotate3d
    rw [about_eq, Real.cos_add, Real.sin_add]
    simp only [rotationMatrix, Except.map]
    congr 3 <;> ring
  · unfold rotate3d
    rw [about_eq, Real.cos_two_pi, Real.sin_two_pi]
    simp only [Except.map]
    congr 1
    apply seq2tens_injective
    rw [seq2tens_rotateBy]
    have : ∀ ux uy uz, rodrigues 1 0 ux uy uz = 1 := by
      intro ux uy uz; ext i j; fin_cases i <;> fin_cases j <;> simp [rodrigues]
    rw [this]; simp

/-- the tensor `v vᵀ` of a direction -/
def dyad (v : Fin 3 → ℝ) : Voigt :=
  { C11 := v 0 * v 0, C22 := v 1 * v 1, C33 := v 2 * v 2, C23 := v 1 * v 2, C13 := v 0 * v 2, C12 := v 0 * v 1 }

/-- the vector `v` turned by the angle `theta` about the unit vector `n`, counter-clockwise as seen from the tip of `n`:
`v cos θ + (n × v) sin θ + n (n·v) (1 - cos θ)` -/
noncomputable def turned (theta : ℝ) (n v : Fin 3 → ℝ) : Fin 3 → ℝ :=
  ![v 0 * Real.cos theta + (n 1 * v 2 - n 2 * v 1) * Real.sin theta + n 0 * (n ⬝ᵥ v) * (1 - Real.cos theta),
    v 1 * Real.cos theta + (n 2 * v 0 - n 0 * v 2) * Real.sin theta + n 1 * (n ⬝ᵥ v) * (1 - Real.cos theta),
    v 2 * Real.cos theta + (n 0 * v 1 - n 1 * v 0) * Real.sin theta + n 2 * (n ⬝ᵥ v) * (1 - Real.cos theta)]

/-- **C40** The sense of the rotation: the tensor `v vᵀ` becomes `w wᵀ` with `w` the vector `v` turned counter-clockwise by the
angle about the axis (right-hand rule), for an axis of any length. -/
theorem C40_right_handed (theta c : ℝ) (hc : 0 < c) (n v : Fin 3 → ℝ) (hn : n ⬝ᵥ n = 1) :
    rotate3d (.about theta (c * n 0) (c * n 1) (c * n 2)) (dyad v) = .ok (dyad (turned theta n v)) := by
  have hn' : n 0 * n 0 + n 1 * n 1 + n 2 * n 2 = 1 := by
    simpa [dotProduct, Fin.sum_univ_three] using hn
  have hs : Real.sqrt ((c * n 0) ^ 2 + (c * n 1) ^ 2 + (c * n 2) ^ 2) = c := by
    rw [show (c * n 0) ^ 2 + (c * n 1) ^ 2 + (c * n 2) ^ 2 = c ^ 2 * (n 0 * n 0 + n 1 * n 1 + n 2 * n 2) by ring, hn', mul_one]
    exact Real.sqrt_sq hc.le
  unfold rotate3d
  rw [about_eq, hs]
  simp only [Except.map]
  congr 1
  rw [mul_div_cancel_left₀ _ hc.ne', mul_div_cancel_left₀ _ hc.ne', mul_div_cancel_left₀ _ hc.ne']
  simp only [rotateBy, dyad, turned, rodrigues, dotProduct, Fin.sum_univ_three, Matrix.cons_val_zero, Matrix.cons_val_one,
    Matrix.cons_val, Matrix.of_apply, Matrix.cons_val', Matrix.empty_val', Matrix.cons_val_fin_one, Voigt.mk.injEq]
  refine ⟨?_, ?_, ?_, ?_, ?_, ?_⟩ <;> ring

/-- a quarter turn about z takes x to y -/
example : turned (Real.pi / 2) ![0, 0, 1] ![1, 0, 0] = ![0, 1, 0] := by
  ext i; fin_cases i <;> simp [turned, dotProduct, Fin.sum_univ_three]

/-- **C40** Other axis names are a `ValueError`, an empty name an `IndexError`. -/
theorem C40_errors (theta : ℝ) (t : Voigt) :
    (∀ c rest, c ∉ ['x', 'X', 'y', 'Y', 'z', 'Z'] → rotate3d (.named theta (c :: rest)) t = .error .valueError) ∧
    rotate3d (.named theta []) t = .error .indexError := by
  constructor
  · intro c rest h
    simp only [List.mem_cons, List.not_mem_nil, or_false, not_or] at h
    obtain ⟨h1, h2, h3, h4, h5, h6⟩ := h
    simp [rotate3d, rotationMatrix, h1, h2, h3, h4, h5, h6, Except.map]
  · rfl

example : ByAngle (.about 1 1 2 2) := by simp [ByAngle]; norm_num
example : ByAngle (.named 1 "Y-axis".toList) := ⟨'Y', "-axis".toList, by decide, by simp⟩

/-! ## C41 -/

/-- the unit vector of azimuth `theta` and polar angle `phi` -/
noncomputable def direction (theta phi : ℝ) : Fin 3 → ℝ :=
  ![Real.sin phi * Real.cos theta, Real.sin phi * Real.sin theta, Real.cos phi]

theorem direction_unit (theta phi : ℝ) : direction theta phi ⬝ᵥ direction theta phi = 1 := by
  simp only [direction, dotProduct, Fin.sum_univ_three, Matrix.cons_val_zero, Matrix.cons_val_one, Matrix.cons_val]
  have h1 := Real.sin_sq_add_cos_sq theta
  have h2 := Real.sin_sq_add_cos_sq phi
  linear_combination (Real.sin phi) ^ 2 * h1 + h2

/-- **C41** `project3d` is `n·C·n` for the unit vector `n` of the given angles. -/
theorem C41_quadratic_form (theta phi : ℝ) (t : Voigt) :
    project3d theta phi t = direction theta phi ⬝ᵥ (seq2tens t *ᵥ direction theta phi) ∧
      direction theta phi ⬝ᵥ direction theta phi = 1 := by
  refine ⟨?_, direction_unit theta phi⟩
  simp only [project3d, direction, seq2tens, dotProduct, mulVec, Fin.sum_univ_three, Matrix.of_apply, Matrix.cons_val',
    Matrix.cons_val_zero, Matrix.cons_val_one, Matrix.cons_val]
  ring

/-- **C41** The projection lies between any bounds of the quadratic form on unit vectors; for a diagonal tensor it lies
between the smallest and the largest principal value. -/
theorem C41_bounds (theta phi : ℝ) (t : Voigt) (lo hi : ℝ) :
    ((∀ v : Fin 3 → ℝ, v ⬝ᵥ v = 1 → lo ≤ v ⬝ᵥ (seq2tens t *ᵥ v) ∧ v ⬝ᵥ (seq2tens t *ᵥ v) ≤ hi) →
      lo ≤ project3d theta phi t ∧ project3d theta phi t ≤ hi) ∧
    (t.C23 = 0 → t.C13 = 0 → t.C12 = 0 →
      min t.C11 (min t.C22 t.C33) ≤ project3d theta phi t ∧ project3d theta phi t ≤ max t.C11 (max t.C22 t.C33)) := by
  constructor
  · intro h
    rw [(C41_quadratic_form theta phi t).1]
    exact h _ (direction_unit theta phi)
  · intro h1 h2 h3
    have hu := direction_unit theta phi
    simp only [direction, dotProduct, Fin.sum_univ_three, Matrix.cons_val_zero, Matrix.cons_val_one, Matrix.cons_val] at hu
    simp only [project3d, h1, h2, h3]
    set a := Real.sin phi * Real.cos theta
    set b := Real.sin phi * Real.sin theta
    set c := Real.cos phi
    have ha := mul_self_nonneg a
    have hb := mul_self_nonneg b
    have hc := mul_self_nonneg c
    constructor
    · have l1 := min_le_left t.C11 (min t.C22 t.C33)
      have l2 := (min_le_right t.C11 (min t.C22 t.C33)).trans (min_le_left _ _)
      have l3 := (min_le_right t.C11 (min t.C22 t.C33)).trans (min_le_right _ _)
      set m := min t.C11 (min t.C22 t.C33)
      have hm : m = m * (a * a + b * b + c * c) := by rw [hu, mul_one]
      nlinarith [mul_nonneg ha (sub_nonneg.mpr l1), mul_nonneg hb (sub_nonneg.mpr l2), mul_nonneg hc (sub_nonneg.mpr l3)]
    · have l1 := le_max_left t.C11 (max t.C22 t.C33)
      have l2 := (le_max_left t.C22 t.C33).trans (le_max_right t.C11 _)
      have l3 := (le_max_right t.C22 t.C33).trans (le_max_right t.C11 _)
      set m := max t.C11 (max t.C22 t.C33)
      have hm : m = m * (a * a + b * b + c * c) := by rw [hu, mul_one]
      nlinarith [mul_nonneg ha (sub_nonneg.mpr l1), mul_nonneg hb (sub_nonneg.mpr l2), mul_nonneg hc (sub_nonneg.mpr l3)]

/-- **C41** The projection is linear in the tensor, equal along opposite directions, and equals the `zz` component of
the tensor after the rotation that turns the direction onto the z axis. -/
theorem C41_linear_and_zz (theta phi : ℝ) (t t' : Voigt) (k : ℝ) :
    project3d theta phi ⟨t.C11 + k * t'.C11, t.C22 + k * t'.C22, t.C33 + k * t'.C33, t.C23 + k * t'.C23,
      t.C13 + k * t'.C13, t.C12 + k * t'.C12⟩ = project3d theta phi t + k * project3d theta phi t' ∧
    project3d (theta + Real.pi) (Real.pi - phi) t = project3d theta phi t ∧
    ∃ R : Mat, Rᵀ * R = 1 ∧ R *ᵥ direction theta phi = ![0, 0, 1] ∧
      (rotate3d (.matrix R) t).map (·.C33) = .ok (project3d theta phi t) := by
  refine ⟨?_, ?_, (combRotations phi theta)ᵀ, ?_, ?_, ?_⟩
  · simp only [project3d]; ring
  · simp only [project3d, Real.cos_add_pi, Real.sin_add_pi, Real.sin_pi_sub, Real.cos_pi_sub]; ring
  · rw [Matrix.transpose_transpose]
    have h1 := Real.sin_sq_add_cos_sq theta
    have h2 := Real.sin_sq_add_cos_sq phi
    ext i j
    fin_cases i <;> fin_cases j <;> simp [combRotations, Matrix.mul_apply, Fin.sum_univ_three] <;> grind
  · have h1 := Real.sin_sq_add_cos_sq theta
    have h2 := Real.sin_sq_add_cos_sq phi
    ext i
    fin_cases i <;> simp [combRotations, direction, mulVec, dotProduct, Matrix.mul_apply, Fin.sum_univ_three] <;> grind
  · simp only [rotate3d, rotationMatrix, Except.map, project3d]
    congr 1
    simp [rotateBy, combRotations, Matrix.mul_apply, Fin.sum_univ_three]
    ring

/-! ## C42 -/

section layers

/-- physical layers: positive widths and conductivities -/
def Physical (ls : List Layer) : Prop := ls ≠ [] ∧ ∀ l ∈ ls, 0 < l.w ∧ 0 < l.C ∧ 0 < l.K

theorem sum_map_pos {ls : List Layer} (hne : ls ≠ []) (f : Layer → ℝ) (h : ∀ l ∈ ls, 0 < f l) : 0 < (ls.map f).sum := by
  induction ls with
  | nil => exact absurd rfl hne
  | cons a ls ih =>
    rw [List.map_cons, List.sum_cons]
    have ha := h a List.mem_cons_self
    by_cases hl : ls = []
    · subst hl; simpa using ha
    · have := ih hl (fun l hl => h l (List.mem_cons_of_mem _ hl)); linarith

theorem wmean_bounds (ls : List Layer) (hne : ls ≠ []) (g s : Layer → ℝ) (hg : ∀ l ∈ ls, 0 < g l) (lo hi : ℝ)
    (hlo : ∀ l ∈ ls, lo ≤ s l) (hhi : ∀ l ∈ ls, s l ≤ hi) :
    lo ≤ (ls.map fun l => g l * s l).sum / (ls.map g).sum ∧ (ls.map fun l => g l * s l).sum / (ls.map g).sum ≤ hi := by
  have hp := sum_map_pos hne g hg
  rw [le_div_iff₀ hp, div_le_iff₀ hp, ← List.sum_map_mul_left, ← List.sum_map_mul_left]
  constructor
  · apply List.sum_le_sum
    intro l hl
    have := mul_le_mul_of_nonneg_left (hlo l hl) (hg l hl).le
    linarith
  · apply List.sum_le_sum
    intro l hl
    have := mul_le_mul_of_nonneg_left (hhi l hl) (hg l hl).le
    linarith

theorem cauchy_layers (ls : List Layer) (g : Layer → ℝ) (h : ∀ l ∈ ls, 0 < l.w ∧ 0 < g l) :
    (ls.map (·.w)).sum ^ 2 ≤ (ls.map fun l => l.w / g l).sum * (ls.map fun l => l.w * g l).sum := by
  have e : ∀ f : Layer → ℝ, (ls.map f).sum = ∑ i : Fin ls.length, f ls[i] := fun f => (Fin.sum_univ_fun_getElem ls f).symm
  rw [e, e, e]
  apply Finset.sum_sq_le_sum_mul_sum_of_sq_eq_mul
  · intro i _; have := h ls[i] (List.getElem_mem _); exact (div_pos this.1 this.2).le
  · intro i _; have := h ls[i] (List.getElem_mem _); exact (mul_pos this.1 this.2).le
  · intro i _
    have := h ls[i] (List.getElem_mem _)
    have := this.2.ne'
    field_simp

/-- **C42** For physical layers the conductivities across the layers are at most those along the layers. -/
theorem C42_vertical_le_parallel (ls : List Layer) (h : Physical ls) :
    (effective ls).Cv ≤ (effective ls).Cp ∧ (effective ls).Kv ≤ (effective ls).Kp := by
  obtain ⟨hne, h⟩ := h
  have hw := sum_map_pos hne (·.w) (fun l hl => (h l hl).1)
  have hc := sum_map_pos hne (fun l => l.w / l.C) (fun l hl => div_pos (h l hl).1 (h l hl).2.1)
  have hk := sum_map_pos hne (fun l => l.w / l.K) (fun l hl => div_pos (h l hl).1 (h l hl).2.2)
  constructor
  · simp only [effective]
    rw [div_le_div_iff₀ hc hw, ← sq, mul_comm]
    exact cauchy_layers ls (·.C) (fun l hl => ⟨(h l hl).1, (h l hl).2.1⟩)
  · simp only [effective]
    rw [div_le_div_iff₀ hk hw, ← sq, mul_comm]
    exact cauchy_layers ls (·.K) (fun l hl => ⟨(h l hl).1, (h l hl).2.2⟩)

/-- **C42** All effective values lie between the extreme layer values. -/
theorem C42_bounds (ls : List Layer) (h : Physical ls) (lo hi : ℝ) :
    ((∀ l ∈ ls, lo ≤ l.C ∧ l.C ≤ hi) → 0 < lo →
      lo ≤ (effective ls).Cv ∧ (effective ls).Cv ≤ hi ∧ lo ≤ (effective ls).Cp ∧ (effective ls).Cp ≤ hi) ∧
    ((∀ l ∈ ls, lo ≤ l.K ∧ l.K ≤ hi) → 0 < lo →
      lo ≤ (effective ls).Kv ∧ (effective ls).Kv ≤ hi ∧ lo ≤ (effective ls).Kp ∧ (effective ls).Kp ≤ hi) ∧
    ((∀ l ∈ ls, lo ≤ l.S ∧ l.S ≤ hi) →
      lo ≤ (effective ls).Sv ∧ (effective ls).Sv ≤ hi ∧ lo ≤ (effective ls).Sp ∧ (effective ls).Sp ≤ hi) := by
  obtain ⟨hne, h⟩ := h
  have hw := sum_map_pos hne (·.w) (fun l hl => (h l hl).1)
  have harm : ∀ g : Layer → ℝ, (∀ l ∈ ls, 0 < g l) → (∀ l ∈ ls, lo ≤ g l ∧ g l ≤ hi) → 0 < lo →
      lo ≤ (ls.map (·.w)).sum / (ls.map fun l => l.w / g l).sum ∧
      (ls.map (·.w)).sum / (ls.map fun l => l.w / g l).sum ≤ hi := by
    intro g hg hb hlo
    have hp := sum_map_pos hne (fun l => l.w / g l) (fun l hl => div_pos (h l hl).1 (hg l hl))
    rw [le_div_iff₀ hp, div_le_iff₀ hp, ← List.sum_map_mul_left, ← List.sum_map_mul_left]
    constructor
    · apply List.sum_le_sum
      intro l hl
      have h1 := (h l hl).1
      have h2 := hg l hl
      rw [mul_div_assoc', div_le_iff₀ h2]
      nlinarith [(hb l hl).1]
    · apply List.sum_le_sum
      intro l hl
      have h1 := (h l hl).1
      have h2 := hg l hl
      rw [mul_div_assoc', le_div_iff₀ h2]
      nlinarith [(hb l hl).2]
  refine ⟨?_, ?_, ?_⟩
  · intro hb hlo
    have h1 := harm (·.C) (fun l hl => (h l hl).2.1) hb hlo
    have h2 := wmean_bounds ls hne (·.w) (·.C) (fun l hl => (h l hl).1) lo hi (fun l hl => (hb l hl).1) (fun l hl => (hb l hl).2)
    exact ⟨h1.1, h1.2, h2.1, h2.2⟩
  · intro hb hlo
    have h1 := harm (·.K) (fun l hl => (h l hl).2.2) hb hlo
    have h2 := wmean_bounds ls hne (·.w) (·.K) (fun l hl => (h l hl).1) lo hi (fun l hl => (hb l hl).1) (fun l hl => (hb l hl).2)
    exact ⟨h1.1, h1.2, h2.1, h2.2⟩
  · intro hb
    have h1 := wmean_bounds ls hne (fun l => l.w / l.K) (·.S) (fun l hl => div_pos (h l hl).1 (h l hl).2.2) lo hi
      (fun l hl => (hb l hl).1) (fun l hl => (hb l hl).2)
    have h2 := wmean_bounds ls hne (fun l => l.w * l.C) (·.S) (fun l hl => mul_pos (h l hl).1 (h l hl).2.1) lo hi
      (fun l hl => (hb l hl).1) (fun l hl => (hb l hl).2)
    exact ⟨h1.1, h1.2, h2.1, h2.2⟩

/-- **C42** The order of the layers is irrelevant; identical layers (any widths) give the values of the layer; a common
factor on the widths changes nothing. -/
theorem C42_order_identical_scale (ls : List Layer) :
    (∀ ls', ls.Perm ls' → effective ls = effective ls') ∧
    (Physical ls → ∀ C S K, (∀ l ∈ ls, l.C = C ∧ l.S = S ∧ l.K = K) → effective ls = ⟨C, C, S, S, K, K⟩) ∧
    (∀ k : ℝ, k ≠ 0 → effective (ls.map fun l => { l with w := k * l.w }) = effective ls) := by
  refine ⟨?_, ?_, ?_⟩
  · intro ls' hp
    have e : ∀ f : Layer → ℝ, (ls.map f).sum = (ls'.map f).sum := fun f => (hp.map f).sum_eq
    simp only [effective, e]
  · intro hph C S K hall
    have hlo := hph.1
    obtain ⟨l0, hl0⟩ := List.exists_mem_of_ne_nil ls hlo
    have hC : 0 < C := (hall l0 hl0).1 ▸ (hph.2 l0 hl0).2.1
    have hK : 0 < K := (hall l0 hl0).2.2 ▸ (hph.2 l0 hl0).2.2
    have b1 := (C42_bounds ls hph C C).1 (fun l hl => by rw [(hall l hl).1]; exact ⟨le_refl _, le_refl _⟩) hC
    have b2 := (C42_bounds ls hph K K).2.1 (fun l hl => by rw [(hall l hl).2.2]; exact ⟨le_refl _, le_refl _⟩) hK
    have b3 := (C42_bounds ls hph S S).2.2 (fun l hl => by rw [(hall l hl).2.1]; exact ⟨le_refl _, le_refl _⟩)
    have e : ∀ E : Effective, E = ⟨E.Cv, E.Cp, E.Sv, E.Sp, E.Kv, E.Kp⟩ := fun E => rfl
    rw [e (effective ls)]
    congr 1
    · exact le_antisymm b1.2.1 b1.1
    · exact le_antisymm b1.2.2.2 b1.2.2.1
    · exact le_antisymm b3.2.1 b3.1
    · exact le_antisymm b3.2.2.2 b3.2.2.1
    · exact le_antisymm b2.2.1 b2.1
    · exact le_antisymm b2.2.2.2 b2.2.2.1
  · intro k hk
    have e : ∀ (f : Layer → ℝ) (g : Layer → ℝ), (∀ l, g { l with w := k * l.w } = k * f l) →
        ((ls.map fun l => { l with w := k * l.w }).map g).sum = k * (ls.map f).sum := by
      intro f g hfg
      rw [List.map_map, ← List.sum_map_mul_left]
      congr 1
      apply List.map_congr_left
      intro l _
      exact hfg l
    simp only [effective]
    rw [e (·.w) (·.w) (fun l => rfl), e (fun l => l.w / l.C) (fun l => l.w / l.C) (fun l => by simp; ring),
      e (fun l => l.w * l.C) (fun l => l.w * l.C) (fun l => by simp; ring),
      e (fun l => l.w / l.K * l.S) (fun l => l.w / l.K * l.S) (fun l => by simp; ring),
      e (fun l => l.w / l.K) (fun l => l.w / l.K) (fun l => by simp; ring),
      e (fun l => l.w * l.C * l.S) (fun l => l.w * l.C * l.S) (fun l => by simp; ring),
      e (fun l => l.w * l.K) (fun l => l.w * l.K) (fun l => by simp; ring)]
    simp only [mul_div_mul_left _ _ hk]

/-- **C42 (across the layers).** The six values are those of the circuit.  A heat flux `q` through the stack drops
`q·w/K` over each layer and produces the thermovoltage `S` times that drop; a current density `j` drops `j·w/C`: the stack
behaves as one layer of the total width with `Kv`, `Sv` and `Cv`. -/
theorem C42_across (ls : List Layer) (h : Physical ls) (q j : ℝ) :
    (effective ls).Kv * (ls.map fun l => q * l.w / l.K).sum = q * (ls.map (·.w)).sum ∧
    (effective ls).Sv * (ls.map fun l => q * l.w / l.K).sum = (ls.map fun l => l.S * (q * l.w / l.K)).sum ∧
    (effective ls).Cv * (ls.map fun l => j * l.w / l.C).sum = j * (ls.map (·.w)).sum := by
  have hK := (sum_map_pos h.1 (fun l => l.w / l.K) (fun l hl => div_pos (h.2 l hl).1 (h.2 l hl).2.2)).ne'
  have hC := (sum_map_pos h.1 (fun l => l.w / l.C) (fun l hl => div_pos (h.2 l hl).1 (h.2 l hl).2.1)).ne'
  have e1 : (ls.map fun l => q * l.w / l.K).sum = q * (ls.map fun l => l.w / l.K).sum := by
    rw [← List.sum_map_mul_left]; congr 1; apply List.map_congr_left; intro l _; ring
  have e2 : (ls.map fun l => j * l.w / l.C).sum = j * (ls.map fun l => l.w / l.C).sum := by
    rw [← List.sum_map_mul_left]; congr 1; apply List.map_congr_left; intro l _; ring
  have e3 : (ls.map fun l => l.S * (q * l.w / l.K)).sum = q * (ls.map fun l => l.w / l.K * l.S).sum := by
    rw [← List.sum_map_mul_left]; congr 1; apply List.map_congr_left; intro l _; ring
  rw [e1, e2, e3]
  simp only [effective]
  refine ⟨?_, ?_, ?_⟩ <;> field_simp

/-- **C42 (along the layers).** Under a common temperature gradient `g` and field `E` every layer carries the heat `w·K·g`
and the current `w·C·(E - S·g)`: together that of one layer of the total width with `Kp`, `Cp` and `Sp`; so no net current
flows at the field `Sp·g`. -/
theorem C42_along (ls : List Layer) (h : Physical ls) (g E : ℝ) :
    (ls.map fun l => l.w * l.K * g).sum = (ls.map (·.w)).sum * (effective ls).Kp * g ∧
    (ls.map fun l => l.w * l.C * (E - l.S * g)).sum =
      (ls.map (·.w)).sum * (effective ls).Cp * (E - (effective ls).Sp * g) := by
  have hw := (sum_map_pos h.1 (·.w) (fun l hl => (h.2 l hl).1)).ne'
  have hC := (sum_map_pos h.1 (fun l => l.w * l.C) (fun l hl => mul_pos (h.2 l hl).1 (h.2 l hl).2.1)).ne'
  constructor
  · rw [List.sum_map_mul_right]
    simp only [effective]
    field_simp
  · have e : (ls.map fun l => l.w * l.C * (E - l.S * g)).sum =
        (ls.map fun l => l.w * l.C).sum * E - (ls.map fun l => l.w * l.C * l.S).sum * g := by
      clear h hw hC
      induction ls with
      | nil => simp
      | cons a ls ih => simp only [List.map_cons, List.sum_cons, ih]; ring
    rw [e]
    simp only [effective]
    field_simp

/-- the layers of equally long lists -/
def layersOf (w C S K : List ℝ) : List Layer := (w.zip (C.zip (S.zip K))).map fun p => ⟨p.1, p.2.1, p.2.2.1, p.2.2.2⟩

/-- **C42** `anilay` on lists of one common length `n` uses layer `i` = entry `i` of every list; without widths (or with
a falsy width) all widths are 1; a numpy array of two or more widths is a `ValueError` (finding), although the same
numbers in a list are accepted; a length mismatch is a `ValueError`. -/
theorem C42_anilay (C S K : List ℝ) (n : Nat) (hC : C.length = n) (hS : S.length = n) (hK : K.length = n) (hn : n ≠ 1) :
    (anilay C S K .none = .ok (effective (layersOf (List.replicate n 1) C S K))) ∧
    (∀ ws : List ℝ, ws.length = n → ws ≠ [] → anilay C S K (.list ws) = .ok (effective (layersOf ws C S K))) ∧
    (∀ ws : List ℝ, 2 ≤ ws.length → anilay C S K (.ndarray ws) = .error .valueError) ∧
    (∀ ws : List ℝ, 2 ≤ ws.length → ws.length ≠ n → anilay C S K (.list ws) = .error .valueError) := by
  have hcl : ∀ w, commonLen [C, S, K, w] = n := by
    intro w
    simp only [commonLen, List.map_cons, List.map_nil, hC, hS, hK]
    rw [List.find?_cons_of_pos (by simpa using hn)]; rfl
  have st : ∀ l : List ℝ, l.length = n → stretch n l = .ok l := fun l hl => by simp [stretch, hl]
  refine ⟨?_, ?_, ?_, ?_⟩
  · simp only [anilay, widthsOr, bind, Except.bind, hcl, st C hC, st S hS, st K hK]
    have : stretch n [(1 : ℝ)] = .ok (List.replicate n 1) := by
      simp [stretch, Ne.symm hn]
    rw [this]; rfl
  · intro ws hws hne
    have : widthsOr (.list ws) = .ok ws := by cases ws with
      | nil => exact absurd rfl hne
      | cons a l => rfl
    simp only [anilay, this, bind, Except.bind, hcl, st C hC, st S hS, st K hK, st ws hws]; rfl
  · intro ws hws
    match ws, hws with
    | a :: b :: l, _ => simp [anilay, widthsOr, bind, Except.bind]
  · intro ws hws hne
    match ws, hws with
    | a :: b :: l, _ =>
      simp only [anilay, widthsOr, bind, Except.bind, hcl, st C hC, st S hS, st K hK]
      have : stretch n (a :: b :: l) = .error .valueError := by
        unfold stretch; rw [if_neg hne]
      rw [this]

/-- **C42** No widths, a width 0, an empty list and an empty array all mean equal widths; so does any single nonzero width, given as a number, a list or
an array. -/
theorem C42_equal_widths (C S K : List ℝ) (n : Nat) (hC : C.length = n) (hS : S.length = n) (hK : K.length = n) (hn : n ≠ 1) :
    (∀ w ∈ [Widths.none, .number 0, .list [], .ndarray [], .ndarray [0]], anilay C S K w = .ok (effective (layersOf (List.replicate n 1) C S K))) ∧
    (∀ x ≠ 0, ∀ w ∈ [Widths.number x, .list [x], .ndarray [x]], anilay C S K w = .ok (effective (layersOf (List.replicate n x) C S K))) := by
  have hcl : ∀ w, commonLen [C, S, K, w] = n := by
    intro w
    simp only [commonLen, List.map_cons, List.map_nil, hC, hS, hK]
    rw [List.find?_cons_of_pos (by simpa using hn)]; rfl
  have st : ∀ l : List ℝ, l.length = n → stretch n l = .ok l := fun l hl => by simp [stretch, hl]
  have gen : ∀ (w : Widths) (x : ℝ), widthsOr w = .ok [x] → anilay C S K w = .ok (effective (layersOf (List.replicate n x) C S K)) := by
    intro w x hw
    simp only [anilay, hw, bind, Except.bind, hcl, st C hC, st S hS, st K hK]
    have : stretch n [x] = .ok (List.replicate n x) := by simp [stretch, Ne.symm hn]
    rw [this]; rfl
  constructor
  · intro w hw
    simp only [List.mem_cons, List.not_mem_nil, or_false] at hw
    rcases hw with rfl | rfl | rfl | rfl | rfl <;> exact gen _ _ (by simp [widthsOr])
  · intro x hx w hw
    simp only [List.mem_cons, List.not_mem_nil, or_false] at hw
    rcases hw with rfl | rfl | rfl <;> exact gen _ _ (by simp [widthsOr, hx])

example : Physical (layersOf [1, 2] [10, 40] [100, 200] [1, 4]) := by
  constructor
  · simp [layersOf]
  · intro l hl
    simp [layersOf] at hl
    rcases hl with rfl | rfl <;> norm_num

end layers
end TEflow.Anisotro
