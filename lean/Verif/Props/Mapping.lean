import Verif.Model.Mapping
import Verif.Props.Gpr
import Mathlib.Analysis.SpecialFunctions.Gaussian.GaussianIntegral
import Mathlib.MeasureTheory.Integral.Pi

/-! # C128: mapping of scattered data, and the regularisation of both kernel methods -/

namespace TEflow.Mathext
open Matrix MeasureTheory

/-! ## Specification -/

/-- the name chooses one of the two kernels -/
def Named (s : String) : Prop := s.toLower = "rbf" ∨ s.toLower = "dfx"

/-- no two data points at the same place -/
def Distinct {n : ℕ} (x y : Fin n → ℝ) : Prop := ∀ i j, x i = x j → y i = y j → i = j

/-! ## The kernels -/

theorem resolve_named {s : String} (h : Named s) : ∃ k, Kernel.resolve (.named s) = .ok k ∧ (k = kernelRbf ∨ k = kernelDfx) := by
  rcases h with h | h
  · exact ⟨_, by simp [Kernel.resolve, h], .inl rfl⟩
  · exact ⟨_, by simp [Kernel.resolve, h], .inr rfl⟩

theorem kernel_symm {k : Bool → ℝ → ℝ → ℝ → ℝ} (hk : k = kernelRbf ∨ k = kernelDfx) (u v s : ℝ) : k false u v s = k false v u s := by
  rcases hk with rfl | rfl
  · exact (C34_kernel_range u v s).1.1
  · exact (C34_kernel_range u v s).2.1

theorem gram_posDef {k : Bool → ℝ → ℝ → ℝ → ℝ} (hk : k = kernelRbf ∨ k = kernelDfx) {ι : Type} [Fintype ι] (a : ι → ℝ)
    (ha : Function.Injective a) (s : ℝ) (hs : s ≠ 0) : (Matrix.of fun i j => k false (a j) (a i) s).PosDef := by
  let e := Fintype.equivFin ι
  have h : (Matrix.of fun i j => k false ((a ∘ e.symm) j) ((a ∘ e.symm) i) s).PosDef := by
    rcases hk with rfl | rfl
    · exact rbf_posDef _ (ha.comp e.symm.injective) s hs
    · exact dfx_posDef _ (ha.comp e.symm.injective) s hs
  have := h.submatrix e.injective
  refine (congrArg Matrix.PosDef ?_).mp this
  ext i j
  simp

theorem prod_posDef {k : Bool → ℝ → ℝ → ℝ → ℝ} (hk : k = kernelRbf ∨ k = kernelDfx) {n : ℕ} (x y : Fin n → ℝ)
    (hd : Distinct x y) {xs ys : ℝ} (hxs : xs ≠ 0) (hys : ys ≠ 0) :
    (Matrix.of fun i j => k false (x j) (x i) xs * k false (y j) (y i) ys).PosDef := by
  classical
  haveI : Fintype (Set.range x) := Fintype.ofFinite _
  haveI : Fintype (Set.range y) := Fintype.ofFinite _
  have h1 := gram_posDef hk (fun a : Set.range x => (a : ℝ)) Subtype.val_injective xs hxs
  have h2 := gram_posDef hk (fun a : Set.range y => (a : ℝ)) Subtype.val_injective ys hys
  have h3 := (h1.kronecker h2).submatrix (e := fun i : Fin n => ((⟨x i, i, rfl⟩, ⟨y i, i, rfl⟩) : Set.range x × Set.range y))
    (by
      intro i j h
      have a := congrArg (fun p => ((p.1 : ℝ), (p.2 : ℝ))) h
      simp only [Prod.mk.injEq] at a
      exact hd i j a.1 a.2)
  refine (congrArg Matrix.PosDef ?_).mp h3
  ext i j
  simp [Matrix.kroneckerMap_apply]

theorem upper_symm {n : ℕ} {A : Matrix (Fin n) (Fin n) ℝ} (h : ∀ i j, A i j = A j i) : upper A = A := by
  ext i j
  simp only [upper, Matrix.of_apply]
  split
  · rfl
  · exact h j i

theorem ones_posSemidef {n : ℕ} {r : ℝ} (hr : 0 ≤ r) : (Matrix.of fun (_ _ : Fin n) => r).PosSemidef := by
  have := (posSemidef_vecMulVec_self_star (fun _ : Fin n => √r))
  refine (congrArg Matrix.PosSemidef ?_).mp this
  ext i j
  simp [vecMulVec_apply, Real.mul_self_sqrt hr]

theorem mapA_posDef {k : Bool → ℝ → ℝ → ℝ → ℝ} (hk : k = kernelRbf ∨ k = kernelDfx) {n : ℕ} (x y : Fin n → ℝ)
    (hd : Distinct x y) {xs ys r : ℝ} (hxs : xs ≠ 0) (hys : ys ≠ 0) (hr : 0 ≤ r) :
    upper (mapA k x y xs ys fun _ => r) = mapA k x y xs ys (fun _ => r) ∧ (mapA k x y xs ys fun _ => r).PosDef := by
  constructor
  · refine upper_symm fun i j => ?_
    simp only [mapA, Matrix.of_apply, kernel_symm hk (x j), kernel_symm hk (y j)]
  · have := (prod_posDef hk x y hd hxs hys).add_posSemidef (ones_posSemidef hr)
    exact this

theorem mapping_ok {n m : ℕ} {s : String} {k : Bool → ℝ → ℝ → ℝ → ℝ} (hs : Kernel.resolve (.named s) = .ok k) (x y z : Fin n → ℝ) (px py : Fin m → ℝ)
    (xs ys : ℝ) (reg : Fin n → ℝ) (hu : upper (mapA k x y xs ys reg) = mapA k x y xs ys reg) (hp : (mapA k x y xs ys reg).PosDef) :
    mapping x y z px py (.named s) xs ys reg = .ok (z ᵥ* ((mapA k x y xs ys reg)⁻¹ * mapB k x y px py xs ys),
      -(1 / 2) * (z ⬝ᵥ (mapA k x y xs ys reg)⁻¹ *ᵥ z) - 1 / 2 * Real.log |(mapA k x y xs ys reg).det| - 1 / 2 * n * Real.log (2 * Real.pi)) := by
  unfold mapping
  rw [hs]
  simp only [bind, Except.bind, solvePos, hu, hp, if_true, pure, Except.pure]
  rfl

/-! ## Exact at the data -/

/-- **C128** Without regularisation, data at distinct places (the same `x` or the same `y` may occur any number of times) are met exactly, for both kernels, also when the name is
given in capitals. -/
theorem C128_exact {n m : ℕ} (s : String) (h : Named s) (x y z : Fin n → ℝ) (hd : Distinct x y) (px py : Fin m → ℝ) (xs ys : ℝ) (hxs : xs ≠ 0) (hys : ys ≠ 0) :
    ∃ f lp, mapping x y z px py (.named s) xs ys (fun _ => 0) = .ok (f, lp) ∧ ∀ p i, px p = x i → py p = y i → f p = z i := by
  obtain ⟨k, hk, hk'⟩ := resolve_named h
  obtain ⟨h1, h2⟩ := mapA_posDef hk' x y hd hxs hys le_rfl
  refine ⟨_, _, mapping_ok hk x y z px py xs ys _ h1 h2, fun p i e1 e2 => ?_⟩
  have hdet := (Matrix.isUnit_iff_isUnit_det _).mp h2.isUnit
  set A := mapA k x y xs ys fun _ => 0 with hA
  have hcol : ∀ r, (A⁻¹ * mapB k x y px py xs ys) r p = (1 : Matrix (Fin n) (Fin n) ℝ) r i := by
    intro r
    rw [← Matrix.nonsing_inv_mul A hdet]
    simp only [Matrix.mul_apply, hA, mapA, mapB, Matrix.of_apply, e1, e2, add_zero]
  simp only [Matrix.vecMul, dotProduct, hcol, Matrix.one_apply]
  simp

/-- **C128 (finding).** `regular` does not smooth: a single number is added to all entries of the matrix, not to its diagonal, and all it does to the values at the data points is
to shift them by the same amount, however large it is. -/
theorem C128_regular {n : ℕ} (s : String) (h : Named s) (x y z : Fin n → ℝ) (hd : Distinct x y) (xs ys r : ℝ) (hxs : xs ≠ 0) (hys : ys ≠ 0) (hr : 0 ≤ r) :
    ∃ c, ∀ (m : ℕ) (px py : Fin m → ℝ), ∃ f lp, mapping x y z px py (.named s) xs ys (fun _ => r) = .ok (f, lp) ∧ ∀ p i, px p = x i → py p = y i → f p = z i - c := by
  obtain ⟨k, hk, hk'⟩ := resolve_named h
  obtain ⟨h1, h2⟩ := mapA_posDef hk' x y hd hxs hys hr
  have hdet := (Matrix.isUnit_iff_isUnit_det _).mp h2.isUnit
  set A := mapA k x y xs ys fun _ => r with hA
  refine ⟨r * ∑ i, (z ᵥ* A⁻¹) i, fun m px py => ⟨_, _, mapping_ok hk x y z px py xs ys _ h1 h2, fun p i e1 e2 => ?_⟩⟩
  have e : z ᵥ* A⁻¹ ᵥ* A = z := by rw [Matrix.vecMul_vecMul, Matrix.nonsing_inv_mul A hdet, Matrix.vecMul_one]
  have e' := congrFun e i
  rw [← Matrix.vecMul_vecMul]
  simp only [Matrix.vecMul, dotProduct] at e' ⊢
  rw [← e', Finset.mul_sum, ← Finset.sum_sub_distrib]
  refine Finset.sum_congr rfl fun j _ => ?_
  simp only [hA, mapA, mapB, Matrix.of_apply, e1, e2]
  ring

/-- **C128 (finding).** Two measurements at the same place make `mapping` fail, with any `regular` number: -/
theorem C128_duplicates {n m : ℕ} (s : String) (h : Named s) (x y z : Fin n → ℝ) (px py : Fin m → ℝ) (xs ys r : ℝ) (hn : ¬ Distinct x y) :
    mapping x y z px py (.named s) xs ys (fun _ => r) = .error .linAlg := by
  obtain ⟨k, hk, hk'⟩ := resolve_named h
  have hu : upper (mapA k x y xs ys fun _ => r) = mapA k x y xs ys fun _ => r := by
    refine upper_symm fun i j => ?_
    simp only [mapA, Matrix.of_apply, kernel_symm hk' (x j), kernel_symm hk' (y j)]
  have hp : ¬ (mapA k x y xs ys fun _ => r).PosDef := by
    intro hp
    unfold Distinct at hn
    push Not at hn
    obtain ⟨i, j, e1, e2, hij⟩ := hn
    refine hp.det_pos.ne' (Matrix.det_zero_of_row_eq hij ?_)
    funext l
    simp only [mapA, Matrix.of_apply, e1, e2]
  unfold mapping
  rw [hk]
  simp only [bind, Except.bind, solvePos, hu, hp, if_false]

/-- **C128 (finding).** With a number for each data point the result depends on the order of the data: two points with the numbers 0 and 2 fail in this order, whatever the points are,
and work in the other order. -/
theorem C128_vector_order {m : ℕ} (s : String) (h : Named s) (x y z : Fin 2 → ℝ) (hd : Distinct x y) (px py : Fin m → ℝ) (xs ys : ℝ) (hxs : xs ≠ 0) (hys : ys ≠ 0) :
    mapping x y z px py (.named s) xs ys ![0, 2] = .error .linAlg ∧
    ∃ out, mapping (x ∘ Fin.rev) (y ∘ Fin.rev) (z ∘ Fin.rev) px py (.named s) xs ys ![2, 0] = .ok out := by
  obtain ⟨k, hk, hk'⟩ := resolve_named h
  have hone : ∀ u s, k false u u s = 1 := by
    intro u s
    rcases hk' with rfl | rfl
    · exact (C34_kernel_range u u s).1.2.2.2
    · exact (C34_kernel_range u u s).2.2.2.2
  have hpos : ∀ u v s, 0 < k false u v s := by
    intro u v s
    rcases hk' with rfl | rfl
    · exact (C34_kernel_range u v s).1.2.1
    · exact (C34_kernel_range u v s).2.2.1
  constructor
  · have hp : ¬ (upper (mapA k x y xs ys ![0, 2])).PosDef := by
      intro hp
      have hdet := hp.det_pos
      rw [Matrix.det_fin_two] at hdet
      have := mul_pos (hpos (x 1) (x 0) xs) (hpos (y 1) (y 0) ys)
      simp [upper, mapA, hone] at hdet
      nlinarith
    unfold mapping
    rw [hk]
    simp only [bind, Except.bind, solvePos, hp, if_false]
  · have hp : (upper (mapA k (x ∘ Fin.rev) (y ∘ Fin.rev) xs ys ![2, 0])).PosDef := by
      have h1 := prod_posDef hk' (x ∘ Fin.rev) (y ∘ Fin.rev) (fun i j a b => Fin.rev_injective (hd _ _ a b)) hxs hys
      have h2 : (Matrix.diagonal ![(2 : ℝ), 0]).PosSemidef := by
        refine Matrix.PosSemidef.diagonal fun i => ?_
        fin_cases i <;> simp
      refine (congrArg Matrix.PosDef ?_).mp (h1.add_posSemidef h2)
      ext i j
      fin_cases i <;> fin_cases j <;> simp [upper, mapA, kernel_symm hk' (x 1), kernel_symm hk' (y 1)]
    unfold mapping
    rw [hk]
    simp only [bind, Except.bind, solvePos, hp, if_true]
    exact ⟨_, rfl⟩

/-! ## Symmetries -/

/-- **C128** The two coordinates play the same role. -/
theorem C128_swap {n m : ℕ} (x y z : Fin n → ℝ) (px py : Fin m → ℝ) (kernel : Kernel) (xs ys : ℝ) (reg : Fin n → ℝ) :
    mapping y x z py px kernel ys xs reg = mapping x y z px py kernel xs ys reg := by
  have hA : ∀ k, mapA k y x ys xs reg = mapA k x y xs ys reg := by
    intro k
    ext i j
    simp only [mapA, Matrix.of_apply, mul_comm]
  have hB : ∀ k, mapB k y x py px ys xs = mapB k x y px py xs ys := by
    intro k
    ext i j
    simp only [mapB, Matrix.of_apply, mul_comm]
  unfold mapping
  simp only [hA, hB]

/-- **C128** Another unit and another origin for `x`, with the scale in the same unit, change nothing. -/
theorem C128_units {n m : ℕ} (s : String) (h : Named s) (x y z : Fin n → ℝ) (px py : Fin m → ℝ) (xs ys : ℝ) (reg : Fin n → ℝ) (a b : ℝ) (ha : a ≠ 0) :
    mapping (fun i => a * x i + b) y z (fun p => a * px p + b) py (.named s) (a * xs) ys reg = mapping x y z px py (.named s) xs ys reg := by
  obtain ⟨k, hk, hk'⟩ := resolve_named h
  have hu : ∀ u v, k false (a * u + b) (a * v + b) (a * xs) = k false u v xs := by
    intro u v
    rcases hk' with rfl | rfl
    · simp only [kernelRbf, Bool.false_eq_true, if_false]
      congr 1
      rw [show a * u + b - (a * v + b) = a * (u - v) by ring, mul_pow, mul_pow, ← mul_neg, mul_div_assoc, mul_div_mul_left _ _ (pow_ne_zero 2 ha)]
    · simp only [kernelDfx, Bool.false_eq_true, if_false]
      rw [show a * u + b - (a * v + b) = a * (u - v) by ring, show 2 * (a * xs) = a * (2 * xs) by ring, mul_div_mul_left _ _ ha]
  unfold mapping
  simp only [hk, bind, Except.bind, mapA, mapB, hu]

/-- **C128** The predictions are linear in the data. -/
theorem C128_linear {n m : ℕ} (x y z₁ z₂ : Fin n → ℝ) (px py : Fin m → ℝ) (kernel : Kernel) (xs ys : ℝ) (reg : Fin n → ℝ) (a b : ℝ) (f₁ f₂ : Fin m → ℝ) (l₁ l₂ : ℝ)
    (h₁ : mapping x y z₁ px py kernel xs ys reg = .ok (f₁, l₁)) (h₂ : mapping x y z₂ px py kernel xs ys reg = .ok (f₂, l₂)) :
    ∃ l, mapping x y (fun i => a * z₁ i + b * z₂ i) px py kernel xs ys reg = .ok (fun p => a * f₁ p + b * f₂ p, l) := by
  unfold mapping at h₁ h₂ ⊢
  cases hk : kernel.resolve with
  | error e => rw [hk] at h₁; cases h₁
  | ok k =>
    rw [hk] at h₁ h₂
    by_cases hp : (upper (mapA k x y xs ys reg)).PosDef
    · simp only [bind, Except.bind, solvePos, hp, if_true, pure, Except.pure, Except.ok.injEq, Prod.mk.injEq] at h₁ h₂ ⊢
      refine ⟨_, ?_, rfl⟩
      rw [← h₁.1, ← h₂.1]
      funext p
      have : (fun i => a * z₁ i + b * z₂ i) = a • z₁ + b • z₂ := rfl
      rw [this, Matrix.add_vecMul, Matrix.smul_vecMul, Matrix.smul_vecMul]
      rfl
    · simp only [bind, Except.bind, solvePos, hp, if_false] at h₁
      cases h₁

/-- **C128** A place is predicted in the same way whatever other places are asked for, and `log_p` does not depend on these. -/
theorem C128_pointwise {n m m' : ℕ} (x y z : Fin n → ℝ) (px py : Fin m → ℝ) (px' py' : Fin m' → ℝ) (kernel : Kernel) (xs ys : ℝ) (reg : Fin n → ℝ) (f : Fin m → ℝ) (lp : ℝ)
    (h : mapping x y z px py kernel xs ys reg = .ok (f, lp)) :
    ∃ f', mapping x y z px' py' kernel xs ys reg = .ok (f', lp) ∧ ∀ p q, px p = px' q → py p = py' q → f p = f' q := by
  unfold mapping at h ⊢
  cases hk : kernel.resolve with
  | error e => rw [hk] at h; cases h
  | ok k =>
    rw [hk] at h
    by_cases hp : (upper (mapA k x y xs ys reg)).PosDef
    · simp only [bind, Except.bind, solvePos, hp, if_true, pure, Except.pure, Except.ok.injEq, Prod.mk.injEq] at h ⊢
      refine ⟨_, ⟨rfl, h.2⟩, fun p q e1 e2 => ?_⟩
      rw [← h.1]
      simp only [Matrix.vecMul, dotProduct, Matrix.mul_apply, mapB, Matrix.of_apply, e1, e2]
    · simp only [bind, Except.bind, solvePos, hp, if_false] at h
      cases h

/-- **C128** Every other name is refused. -/
theorem C128_unknown {n m : ℕ} (s : String) (h : ¬ Named s) (x y z : Fin n → ℝ) (px py : Fin m → ℝ) (xs ys : ℝ) (reg : Fin n → ℝ) :
    mapping x y z px py (.named s) xs ys reg = .error .unsupported := by
  unfold Named at h
  push Not at h
  unfold mapping Kernel.resolve
  simp only [h.1, h.2, if_false, bind, Except.bind]

/-! ## The likelihood -/

open scoped MatrixOrder in
theorem gauss_integral {n : ℕ} {A : Matrix (Fin n) (Fin n) ℝ} (hA : A.PosDef) :
    ∫ z : Fin n → ℝ, Real.exp (-(1 / 2) * (z ⬝ᵥ A⁻¹ *ᵥ z)) = √((2 * Real.pi) ^ n * A.det) := by
  have hdA := hA.det_pos
  set S := CFC.sqrt A with hS
  have hSS : S * S = A := CFC.sqrt_mul_sqrt_self A hA.posSemidef.nonneg
  have hdS : S.det = √A.det := by
    have := hA.posSemidef.det_sqrt
    rw [← hS] at this
    rw [this]
    exact RCLike.sqrt_real
  have hdpos : 0 < S.det := by rw [hdS]; exact Real.sqrt_pos.2 hdA
  have hST : Sᵀ = S := by
    have := (CFC.sqrt_nonneg A).posSemidef.isHermitian
    rw [← hS] at this
    have := this.eq
    rwa [Matrix.conjTranspose_eq_transpose_of_trivial] at this
  have hu : IsUnit S.det := hdpos.ne'.isUnit
  -- substitute z = S w
  have hq : ∀ w : Fin n → ℝ, (S *ᵥ w) ⬝ᵥ A⁻¹ *ᵥ (S *ᵥ w) = ∑ i, w i ^ 2 := by
    intro w
    have e : A⁻¹ * S = S⁻¹ := by
      rw [← hSS, Matrix.mul_inv_rev, Matrix.mul_assoc, Matrix.nonsing_inv_mul S hu, Matrix.mul_one]
    rw [Matrix.mulVec_mulVec, e, Matrix.dotProduct_mulVec, ← Matrix.mulVec_transpose, Matrix.transpose_nonsing_inv, hST, Matrix.mulVec_mulVec, Matrix.nonsing_inv_mul S hu, Matrix.one_mulVec]
    simp [dotProduct, sq]
  have hmap := Real.map_matrix_volume_pi_eq_smul_volume_pi hdpos.ne'
  have hcv : ∫ z : Fin n → ℝ, Real.exp (-(1 / 2) * (z ⬝ᵥ A⁻¹ *ᵥ z)) = S.det * ∫ w : Fin n → ℝ, Real.exp (-(1 / 2) * ∑ i, w i ^ 2) := by
    have h1 : ∫ w : Fin n → ℝ, Real.exp (-(1 / 2) * ((S *ᵥ w) ⬝ᵥ A⁻¹ *ᵥ (S *ᵥ w))) = S.det⁻¹ * ∫ z : Fin n → ℝ, Real.exp (-(1 / 2) * (z ⬝ᵥ A⁻¹ *ᵥ z)) := by
      have h2 := integral_map (μ := volume) (φ := fun w => toLin' S w) (f := fun z : Fin n → ℝ => Real.exp (-(1 / 2) * (z ⬝ᵥ A⁻¹ *ᵥ z)))
        (by
          have : Continuous (toLin' S) := LinearMap.continuous_of_finiteDimensional _
          exact this.aemeasurable)
        (by
          refine Continuous.aestronglyMeasurable ?_
          unfold dotProduct mulVec dotProduct
          fun_prop)
      rw [hmap] at h2
      rw [integral_smul_measure] at h2
      simp only [toLin'_apply] at h2
      rw [← h2, ENNReal.toReal_ofReal (abs_nonneg _), abs_of_pos (inv_pos.2 hdpos), smul_eq_mul]
    simp only [hq] at h1
    rw [h1, ← mul_assoc, mul_inv_cancel₀ hdpos.ne', one_mul]
  have hprod : ∫ w : Fin n → ℝ, Real.exp (-(1 / 2) * ∑ i, w i ^ 2) = √(2 * Real.pi) ^ n := by
    have e : ∀ w : Fin n → ℝ, Real.exp (-(1 / 2) * ∑ i, w i ^ 2) = ∏ i, Real.exp (-(1 / 2) * w i ^ 2) := by
      intro w
      rw [Finset.mul_sum, Real.exp_sum]
    simp only [e]
    rw [integral_fintype_prod_volume_eq_pow (fun t : ℝ => Real.exp (-(1 / 2) * t ^ 2)), integral_gaussian, Fintype.card_fin]
    congr 2
    ring
  have hpow : √((2 * Real.pi) ^ n) = √(2 * Real.pi) ^ n := by
    rw [show (2 * Real.pi) ^ n = (√(2 * Real.pi) ^ n) ^ 2 by rw [← pow_mul, mul_comm n 2, pow_mul, Real.sq_sqrt (by positivity)], Real.sqrt_sq (by positivity)]
  rw [hcv, hprod, hdS, Real.sqrt_mul (x := (2 * Real.pi) ^ n) (by positivity), hpow, mul_comm]

/-- **C128** `log_p` is the logarithm of a normal density: its exponential, over all possible values at the data points, is the bell of the matrix the predictions use and integrates
to one. -/
theorem C128_likelihood {n : ℕ} (s : String) (h : Named s) (x y : Fin n → ℝ) (hd : Distinct x y) (xs ys r : ℝ) (hxs : xs ≠ 0) (hys : ys ≠ 0) (hr : 0 ≤ r) {m : ℕ} (px py : Fin m → ℝ) :
    ∃ (C : Matrix (Fin n) (Fin n) ℝ) (lp : (Fin n → ℝ) → ℝ), C.PosDef ∧
      (∀ z, ∃ f, mapping x y z px py (.named s) xs ys (fun _ => r) = .ok (f, lp z)) ∧
      (∀ z, Real.exp (lp z) = Real.exp (-(z ⬝ᵥ C⁻¹ *ᵥ z) / 2) / √((2 * Real.pi) ^ n * C.det)) ∧
      (∀ k, Kernel.resolve (.named s) = .ok k → ∀ i j, C i j = k false (x i) (x j) xs * k false (y i) (y j) ys + r) ∧
      ∫ z, Real.exp (lp z) = 1 := by
  obtain ⟨k, hk, hk'⟩ := resolve_named h
  obtain ⟨h1, h2⟩ := mapA_posDef hk' x y hd hxs hys hr
  have hdA := h2.det_pos
  have hC : ∀ k', Kernel.resolve (.named s) = .ok k' → ∀ i j, mapA k x y xs ys (fun _ => r) i j = k' false (x i) (x j) xs * k' false (y i) (y j) ys + r := by
    intro k' e i j
    obtain rfl := Except.ok.inj (e.symm.trans hk)
    simp only [mapA, Matrix.of_apply]
    rw [kernel_symm hk' (x j), kernel_symm hk' (y j)]
  set A := mapA k x y xs ys fun _ => r with hA
  have hpi : 0 < (2 * Real.pi) ^ n := by positivity
  have hexp : ∀ z : Fin n → ℝ, Real.exp (-(1 / 2) * (z ⬝ᵥ A⁻¹ *ᵥ z) - 1 / 2 * Real.log |A.det| - 1 / 2 * n * Real.log (2 * Real.pi)) =
      Real.exp (-(z ⬝ᵥ A⁻¹ *ᵥ z) / 2) / √((2 * Real.pi) ^ n * A.det) := by
    intro z
    have hsq : √((2 * Real.pi) ^ n * A.det) = Real.exp (1 / 2 * Real.log |A.det| + 1 / 2 * n * Real.log (2 * Real.pi)) := by
      rw [← Real.exp_log (Real.sqrt_pos.2 (mul_pos hpi hdA)), Real.log_sqrt (mul_pos hpi hdA).le, Real.log_mul hpi.ne' hdA.ne', Real.log_pow, abs_of_pos hdA]
      congr 1
      ring
    rw [hsq, ← Real.exp_sub]
    congr 1
    ring
  refine ⟨A, _, h2, fun z => ⟨_, mapping_ok hk x y z px py xs ys _ h1 h2⟩, hexp, hC, ?_⟩
  · refine (integral_congr_ae (.of_forall hexp)).trans ?_
    rw [integral_div]
    have := gauss_integral h2
    rw [div_eq_one_iff_eq (Real.sqrt_pos.2 (mul_pos hpi hdA)).ne', ← this]
    refine integral_congr_ae (Filter.Eventually.of_forall fun z => ?_)
    dsimp only
    congr 1
    ring

/-! ## The regularisation of `interp_gpr` -/

/-- what a smoothing curve `∑ c_i k(·, x_i)` has to pay: distances to the data, weighted with `1/r`, and its own size -/
noncomputable def cost {n : ℕ} (k : Bool → ℝ → ℝ → ℝ → ℝ) (x y : Fin n → ℝ) (s : ℝ) (r : Fin n → ℝ) (c : Fin n → ℝ) : ℝ :=
  (∑ j, (y j - ∑ i, c i * k false (x j) (x i) s) ^ 2 / r j) + ∑ i, ∑ j, c i * c j * k false (x i) (x j) s

theorem gram_posSemidef {k : Bool → ℝ → ℝ → ℝ → ℝ} (hk : k = kernelRbf ∨ k = kernelDfx) {n : ℕ} (x : Fin n → ℝ) {s : ℝ} (hs : s ≠ 0) :
    (Matrix.of fun i j => k false (x j) (x i) s).PosSemidef := by
  classical
  haveI : Fintype (Set.range x) := Fintype.ofFinite _
  have h1 := (gram_posDef hk (fun a : Set.range x => (a : ℝ)) Subtype.val_injective s hs).posSemidef.submatrix (fun i : Fin n => (⟨x i, i, rfl⟩ : Set.range x))
  refine (congrArg Matrix.PosSemidef ?_).mp h1
  ext i j
  simp

/-- **C128** `interp_gpr` does smooth: its prediction with positive regularisation is the curve of least cost among all combinations of kernels at the data points;
the data may have repeated abscissae. -/
theorem C128_gpr_smooths {n m : ℕ} (name : String) (k : Bool → ℝ → ℝ → ℝ → ℝ) (hk : kernelOf name = .ok k) (x y : Fin n → ℝ) (s : ℝ) (hs : s ≠ 0) (r : Fin n → ℝ) (hr : ∀ i, 0 < r i)
    (xp : Fin m → ℝ) :
    ∃ α : Fin n → ℝ, (∀ p, gprPredict k x y xp s r false p = ∑ i, α i * k false (xp p) (x i) s) ∧
      (∀ j, y j - ∑ i, α i * k false (x j) (x i) s = r j * α j) ∧
      (∀ c, cost k x y s r α ≤ cost k x y s r c) := by
  have hk' : k = kernelRbf ∨ k = kernelDfx := by
    unfold kernelOf at hk
    split at hk
    · exact .inl (Except.ok.inj hk).symm
    · split at hk
      · exact .inr (Except.ok.inj hk).symm
      · cases hk
  have hps := gram_posSemidef hk' x hs
  have hdiag : (Matrix.diagonal r).PosDef := Matrix.PosDef.diagonal hr
  have hpd : (Matrix.of (fun i j => k false (x j) (x i) s) + Matrix.diagonal r).PosDef := hdiag.posSemidef_add hps
  set K : Matrix (Fin n) (Fin n) ℝ := Matrix.of fun i j => k false (x j) (x i) s with hK
  have hKs : ∀ i j, K i j = K j i := fun i j => by simp only [hK, Matrix.of_apply]; exact kernel_symm hk' _ _ _
  have hdet := (Matrix.isUnit_iff_isUnit_det _).mp hpd.isUnit
  have hres : ∀ j, y j - ∑ i, (y ᵥ* (K + Matrix.diagonal r)⁻¹) i * K i j = r j * (y ᵥ* (K + Matrix.diagonal r)⁻¹) j := by
    intro j
    have e : y ᵥ* (K + Matrix.diagonal r)⁻¹ ᵥ* (K + Matrix.diagonal r) = y := by
      rw [Matrix.vecMul_vecMul, Matrix.nonsing_inv_mul _ hdet, Matrix.vecMul_one]
    have e' := congrFun e j
    rw [Matrix.vecMul_add, Pi.add_apply, Matrix.vecMul_diagonal] at e'
    have : (y ᵥ* (K + Matrix.diagonal r)⁻¹ ᵥ* K) j = ∑ i, (y ᵥ* (K + Matrix.diagonal r)⁻¹) i * K i j := rfl
    rw [this] at e'
    linarith
  refine ⟨y ᵥ* (K + Matrix.diagonal r)⁻¹, fun p => ?_, hres, fun c => ?_⟩
  · unfold gprPredict
    simp only [← hK]
    rw [← Matrix.vecMul_vecMul]
    rfl
  · set α := y ᵥ* (K + Matrix.diagonal r)⁻¹ with hα
    have hc : ∀ c, cost k x y s r c = (∑ j, (y j - ∑ i, c i * K i j) ^ 2 / r j) + ∑ i, ∑ j, c i * c j * K i j := by
      intro c
      unfold cost
      congr 1
      refine Finset.sum_congr rfl fun i _ => Finset.sum_congr rfl fun j _ => ?_
      rw [hKs]
      rfl
    rw [hc, hc]
    -- the difference is a sum of squares and a form
    have hform : ∀ d : Fin n → ℝ, 0 ≤ ∑ i, ∑ j, d i * d j * K i j := by
      intro d
      have := hps.dotProduct_mulVec_nonneg d
      have e : star d ⬝ᵥ (K *ᵥ d) = ∑ i, ∑ j, d i * d j * K i j := by
        simp only [dotProduct, mulVec, star_trivial, Finset.mul_sum]
        refine Finset.sum_congr rfl fun i _ => Finset.sum_congr rfl fun j _ => ?_
        ring
      rwa [e] at this
    set d : Fin n → ℝ := fun i => c i - α i with hd
    have h1 : ∑ j, (y j - ∑ i, c i * K i j) ^ 2 / r j = (∑ j, (y j - ∑ i, α i * K i j) ^ 2 / r j) - 2 * (∑ j, ∑ i, α j * d i * K i j) + ∑ j, (∑ i, d i * K i j) ^ 2 / r j := by
      rw [Finset.mul_sum, ← Finset.sum_sub_distrib, ← Finset.sum_add_distrib]
      refine Finset.sum_congr rfl fun j _ => ?_
      have e : ∑ i, c i * K i j = (∑ i, α i * K i j) + ∑ i, d i * K i j := by
        rw [← Finset.sum_add_distrib]
        refine Finset.sum_congr rfl fun i _ => ?_
        simp only [hd]
        ring
      have e2 : ∑ i, α j * d i * K i j = α j * ∑ i, d i * K i j := by
        rw [Finset.mul_sum]
        exact Finset.sum_congr rfl fun i _ => mul_assoc _ _ _
      have hrj := (hr j).ne'
      rw [e, e2, ← sub_sub, hres j]
      field_simp
      ring
    have h2 : ∑ i, ∑ j, c i * c j * K i j = (∑ i, ∑ j, α i * α j * K i j) + 2 * (∑ j, ∑ i, α j * d i * K i j) + ∑ i, ∑ j, d i * d j * K i j := by
      have e : ∑ j, ∑ i, α j * d i * K i j = ∑ i, ∑ j, d i * α j * K i j := by
        rw [Finset.sum_comm]
        exact Finset.sum_congr rfl fun i _ => Finset.sum_congr rfl fun j _ => by ring
      have e' : ∑ j, ∑ i, α j * d i * K i j = ∑ i, ∑ j, α i * d j * K i j :=
        Finset.sum_congr rfl fun i _ => Finset.sum_congr rfl fun j _ => by rw [hKs]
      rw [two_mul]
      nth_rw 1 [e]
      rw [e', ← Finset.sum_add_distrib, ← Finset.sum_add_distrib, ← Finset.sum_add_distrib]
      refine Finset.sum_congr rfl fun i _ => ?_
      rw [← Finset.sum_add_distrib, ← Finset.sum_add_distrib, ← Finset.sum_add_distrib]
      refine Finset.sum_congr rfl fun j _ => ?_
      simp only [hd]
      ring
    rw [h1, h2]
    have h3 : 0 ≤ ∑ j, (∑ i, d i * K i j) ^ 2 / r j := Finset.sum_nonneg fun j _ => div_nonneg (sq_nonneg _) (hr j).le
    have h4 := hform d
    linarith

/-- three measurements, two of them at the same temperature: `mapping` meets them exactly -/
example : ∃ f lp, mapping ![1, 1, 2] ![300, 400, 300] ![5, 7, -2] ![1] ![400] (.named "RBF") 1 100 (fun _ => 0) = .ok (f, lp) ∧ f 0 = 7 := by
  obtain ⟨f, lp, h, hf⟩ := C128_exact "RBF" (.inl (by decide +kernel)) ![1, 1, 2] ![300, 400, 300] ![5, 7, -2]
    (by intro i j h1 h2; fin_cases i <;> fin_cases j <;> simp_all) ![1] ![400] 1 100 (by norm_num) (by norm_num)
  exact ⟨f, lp, h, by simpa using hf 0 1 (by simp) (by simp)⟩

end TEflow.Mathext
