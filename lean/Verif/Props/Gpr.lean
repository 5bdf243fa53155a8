import Mathlib.Analysis.SpecialFunctions.Gamma.Basic
import Mathlib.Analysis.Matrix.Order
import Mathlib.LinearAlgebra.Vandermonde
import Mathlib.MeasureTheory.Measure.Lebesgue.Basic
import Mathlib.Tactic
import Verif.Model.Gpr

/-! # C34: Gaussian-process interpolation -/

namespace TEflow.Mathext
open Matrix MeasureTheory

section kernels

/-- **C34** Both kernels are symmetric, lie in `(0, 1]`, equal 1 for equal arguments. -/
theorem C34_kernel_range (u v s : ℝ) :
    (kernelRbf false u v s = kernelRbf false v u s ∧ 0 < kernelRbf false u v s ∧ kernelRbf false u v s ≤ 1 ∧
      kernelRbf false u u s = 1) ∧
    (kernelDfx false u v s = kernelDfx false v u s ∧ 0 < kernelDfx false u v s ∧ kernelDfx false u v s ≤ 1 ∧
      kernelDfx false u u s = 1) := by
  refine ⟨⟨?_, ?_, ?_, ?_⟩, ⟨?_, ?_, ?_, ?_⟩⟩
  · simp only [kernelRbf, Bool.false_eq_true, if_false]; rw [show (u - v) ^ 2 = (v - u) ^ 2 by ring]
  · simp only [kernelRbf]; exact Real.exp_pos _
  · simp only [kernelRbf, Bool.false_eq_true, if_false]
    rw [Real.exp_le_one_iff]
    have : 0 ≤ (u - v) ^ 2 / 2 / s ^ 2 := by positivity
    have e : -(u - v) ^ 2 / 2 / s ^ 2 = -((u - v) ^ 2 / 2 / s ^ 2) := by ring
    rw [e]; linarith
  · simp [kernelRbf]
  · simp only [kernelDfx]
    rw [show (v - u) / (2 * s) = -((u - v) / (2 * s)) by ring, Real.tanh_neg]; simp
  · simp only [kernelDfx, Bool.false_eq_true, if_false]
    have := Real.abs_tanh_lt_one ((u - v) / (2 * s))
    have := (sq_lt_one_iff_abs_lt_one _).mpr this
    linarith
  · simp only [kernelDfx, Bool.false_eq_true, if_false]
    linarith [sq_nonneg (Real.tanh ((u - v) / (2 * s)))]
  · simp [kernelDfx]

/-- **C34** The `dfx` kernel is the documented `4 e^d/(1+e^d)^2` with `d=(u-v)/s`. -/
theorem C34_dfx_formula (u v s : ℝ) :
    kernelDfx false u v s = 4 * Real.exp ((u - v) / s) / (1 + Real.exp ((u - v) / s)) ^ 2 := by
  have e : (u - v) / s = (u - v) / (2 * s) + (u - v) / (2 * s) := by
    by_cases h : s = 0
    · simp [h]
    · field_simp; ring
  rw [e, Real.exp_add]
  simp only [kernelDfx, Bool.false_eq_true, if_false]
  rw [Real.tanh_eq_sinh_div_cosh, Real.sinh_eq, Real.cosh_eq, Real.exp_neg]
  have := Real.exp_pos ((u - v) / (2 * s))
  field_simp
  ring

/-- **C34** The gradient form of a kernel is its derivative in the first argument (the query point). -/
theorem C34_kernel_gradient (u v s : ℝ) (hs : s ≠ 0) :
    HasDerivAt (fun u => kernelRbf false u v s) (kernelRbf true u v s) u ∧
    HasDerivAt (fun u => kernelDfx false u v s) (kernelDfx true u v s) u := by
  constructor
  · simp only [kernelRbf, Bool.false_eq_true, if_false, if_true]
    have h1 : HasDerivAt (fun u => -(u - v) ^ 2 / 2 / s ^ 2) ((v - u) / s ^ 2) u := by
      have := ((((hasDerivAt_id u).sub_const v).pow 2).neg.div_const 2).div_const (s ^ 2)
      refine this.congr_deriv ?_
      simp; ring
    have := h1.exp
    refine this.congr_deriv ?_
    ring
  · simp only [kernelDfx, Bool.false_eq_true, if_false, if_true]
    have h0 : HasDerivAt (fun u : ℝ => (u - v) / (2 * s)) (1 / (2 * s)) u :=
      ((hasDerivAt_id u).sub_const v).div_const (2 * s)
    have h1 : HasDerivAt (fun u : ℝ => Real.tanh ((u - v) / (2 * s)))
        ((1 - Real.tanh ((u - v) / (2 * s)) ^ 2) * (1 / (2 * s))) u := by
      have hc := (Real.cosh_pos ((u - v) / (2 * s))).ne'
      have e1 : (fun u : ℝ => Real.tanh ((u - v) / (2 * s))) =
          fun u => Real.sinh ((u - v) / (2 * s)) / Real.cosh ((u - v) / (2 * s)) := by
        funext u; rw [Real.tanh_eq_sinh_div_cosh]
      rw [e1]
      have := (h0.sinh).div (h0.cosh) hc
      refine this.congr_deriv ?_
      rw [Real.tanh_eq_sinh_div_cosh]
      field_simp
    have := (h1.pow 2).const_sub 1
    refine this.congr_deriv ?_
    field_simp
    ring

end kernels

section posdef

variable {n : ℕ}

theorem posDef_real {M : Matrix (Fin n) (Fin n) ℝ} (hs : ∀ i j, M i j = M j i)
    (hp : ∀ c : Fin n → ℝ, c ≠ 0 → 0 < ∑ i, ∑ j, c i * c j * M i j) : M.PosDef := by
  rw [posDef_iff_dotProduct_mulVec]
  refine ⟨?_, ?_⟩
  · ext i j; simp [hs j i]
  · intro c hc
    have e : star c ⬝ᵥ (M *ᵥ c) = ∑ i, ∑ j, c i * c j * M i j := by
      simp only [dotProduct, mulVec, star_trivial, Finset.mul_sum]
      apply Finset.sum_congr rfl; intro i _
      apply Finset.sum_congr rfl; intro j _
      ring
    rw [e]
    exact hp c hc

/-- `exp(a_i a_j)` is positive definite for distinct `a_i` -/
theorem exp_form_pos (a : Fin n → ℝ) (ha : Function.Injective a) (c : Fin n → ℝ) (hc : c ≠ 0) :
    0 < ∑ i, ∑ j, c i * c j * Real.exp (a i * a j) := by
  have hsum : HasSum (fun k : ℕ => (∑ i, c i * a i ^ k) ^ 2 / k.factorial)
      (∑ i, ∑ j, c i * c j * Real.exp (a i * a j)) := by
    have h1 : ∀ i j, HasSum (fun k : ℕ => c i * c j * ((a i * a j) ^ k / k.factorial)) (c i * c j * Real.exp (a i * a j)) := by
      intro i j
      have := NormedSpace.expSeries_div_hasSum_exp (𝔸 := ℝ) (a i * a j)
      rw [← Real.exp_eq_exp_ℝ] at this
      exact this.mul_left _
    have h2 := hasSum_sum (s := Finset.univ) (fun i _ => hasSum_sum (s := Finset.univ) (fun j _ => h1 i j))
    refine h2.congr_fun ?_
    intro k
    rw [sq, Finset.sum_mul_sum, Finset.sum_div]
    apply Finset.sum_congr rfl; intro i _
    rw [Finset.sum_div]
    apply Finset.sum_congr rfl; intro j _
    rw [mul_pow]; ring
  have hnn : ∀ k : ℕ, 0 ≤ (∑ i, c i * a i ^ k) ^ 2 / (k.factorial : ℝ) := fun k => by positivity
  obtain ⟨k, hk⟩ : ∃ k : Fin n, (∑ i, c i * a i ^ (k : ℕ)) ≠ 0 := by
    by_contra h
    push Not at h
    exact hc (eq_zero_of_forall_pow_sum_mul_pow_eq_zero ha h)
  have hpos : 0 < (∑ i, c i * a i ^ (k : ℕ)) ^ 2 / ((k : ℕ).factorial : ℝ) := by positivity
  rw [← hsum.tsum_eq]
  exact hsum.summable.tsum_pos hnn k hpos

theorem rbf_posDef (x : Fin n → ℝ) (hx : Function.Injective x) (s : ℝ) (hs : s ≠ 0) :
    (Matrix.of fun i j => kernelRbf false (x j) (x i) s).PosDef := by
  apply posDef_real
  · intro i j; exact (C34_kernel_range (x j) (x i) s).1.1
  · intro c hc
    have hinj : Function.Injective (fun i => x i / s) := fun i j h => hx (by field_simp at h; exact h)
    let d : Fin n → ℝ := fun i => c i * Real.exp (-(x i / s) ^ 2 / 2)
    have hd : d ≠ 0 := by
      intro h
      apply hc
      funext i
      have := congrFun h i
      simp only [d, Pi.zero_apply, mul_eq_zero, (Real.exp_pos _).ne', or_false] at this
      simpa using this
    have := exp_form_pos (fun i => x i / s) hinj d hd
    convert this using 1
    refine Finset.sum_congr rfl fun i _ => Finset.sum_congr rfl fun j _ => ?_
    simp only [Matrix.of_apply, kernelRbf, Bool.false_eq_true, if_false, d]
    have : Real.exp (-(x j - x i) ^ 2 / 2 / s ^ 2) =
        Real.exp (-(x i / s) ^ 2 / 2) * Real.exp (-(x j / s) ^ 2 / 2) * Real.exp (x i / s * (x j / s)) := by
      rw [← Real.exp_add, ← Real.exp_add]
      congr 1
      field_simp
      ring
    rw [this]; ring

/-- `1/(a_i+a_j)^2` is positive definite for distinct positive `a_i` -/
theorem cauchy_sq_form_pos (a : Fin n → ℝ) (ha : Function.Injective a) (hpos : ∀ i, 0 < a i) (c : Fin n → ℝ)
    (hc : c ≠ 0) : 0 < ∑ i, ∑ j, c i * c j * (1 / (a i + a j)) ^ 2 := by
  have hint : ∀ r : ℝ, 0 < r → IntegrableOn (fun t : ℝ => t * Real.exp (-(r * t))) (Set.Ioi 0) ∧
      ∫ t in Set.Ioi (0 : ℝ), t * Real.exp (-(r * t)) = (1 / r) ^ 2 := by
    intro r hr
    have h := Real.integral_rpow_mul_exp_neg_mul_Ioi (a := 2) (by norm_num) hr
    have e : ∫ t in Set.Ioi (0 : ℝ), t * Real.exp (-(r * t)) = (1 / r) ^ 2 := by
      have h2 : Real.Gamma 2 = 1 := by
        have := Real.Gamma_nat_eq_factorial 1
        rwa [show ((1 : ℕ) : ℝ) + 1 = 2 by norm_num, Nat.factorial_one, Nat.cast_one] at this
      rw [h2] at h
      norm_num at h
      simpa using h
    refine ⟨?_, e⟩
    by_contra hni
    rw [integral_undef hni] at e
    have : 0 < (1 / r) ^ 2 := by positivity
    linarith
  let g : ℝ → ℝ := fun t => t * (∑ i, c i * Real.exp (-(a i * t))) ^ 2
  have hg : ∀ t, g t = ∑ i, ∑ j, c i * c j * (t * Real.exp (-((a i + a j) * t))) := by
    intro t
    simp only [g]
    rw [sq, Finset.sum_mul_sum, Finset.mul_sum]
    apply Finset.sum_congr rfl; intro i _
    rw [Finset.mul_sum]
    apply Finset.sum_congr rfl; intro j _
    rw [show -((a i + a j) * t) = -(a i * t) + -(a j * t) by ring, Real.exp_add]; ring
  have hi : ∀ i j, IntegrableOn (fun t : ℝ => c i * c j * (t * Real.exp (-((a i + a j) * t)))) (Set.Ioi 0) :=
    fun i j => (hint _ (add_pos (hpos i) (hpos j))).1.const_mul _
  have hgi : IntegrableOn g (Set.Ioi 0) := by
    rw [show g = fun t => ∑ i, ∑ j, c i * c j * (t * Real.exp (-((a i + a j) * t))) from funext hg]
    exact integrable_finset_sum _ (fun i _ => integrable_finset_sum _ (fun j _ => hi i j))
  have hval : ∫ t in Set.Ioi (0 : ℝ), g t = ∑ i, ∑ j, c i * c j * (1 / (a i + a j)) ^ 2 := by
    simp_rw [hg]
    rw [integral_finset_sum _ (fun i _ => integrable_finset_sum _ (fun j _ => hi i j))]
    apply Finset.sum_congr rfl; intro i _
    rw [integral_finset_sum _ (fun j _ => hi i j)]
    apply Finset.sum_congr rfl; intro j _
    rw [integral_const_mul, (hint _ (add_pos (hpos i) (hpos j))).2]
  have hnn : ∀ t ∈ Set.Ioi (0 : ℝ), 0 ≤ g t := fun t ht => mul_nonneg (le_of_lt ht) (sq_nonneg _)
  have h0 : 0 ≤ ∫ t in Set.Ioi (0 : ℝ), g t := setIntegral_nonneg measurableSet_Ioi hnn
  rw [← hval]
  refine lt_of_le_of_ne h0 ?_
  intro hz
  have hae : g =ᵐ[volume.restrict (Set.Ioi 0)] 0 := by
    rw [← integral_eq_zero_iff_of_nonneg_ae _ hgi]
    · exact hz.symm
    · exact (ae_restrict_iff' measurableSet_Ioi).mpr (Filter.Eventually.of_forall hnn)
  have hcont : Continuous g := by
    simp only [g]; fun_prop
  have hzero : Set.EqOn g 0 (Set.Ioi 0) :=
    Measure.eqOn_open_of_ae_eq hae isOpen_Ioi hcont.continuousOn continuousOn_const
  apply hc
  -- evaluate at t = k + 1
  have hv : ∀ k : Fin n, (∑ i, (c i * Real.exp (-a i)) * (Real.exp (-a i)) ^ (k : ℕ)) = 0 := by
    intro k
    have := hzero (show ((k : ℕ) + 1 : ℝ) ∈ Set.Ioi 0 from by simp only [Set.mem_Ioi]; positivity)
    simp only [g, Pi.zero_apply, mul_eq_zero] at this
    rcases this with h | h
    · have : (0 : ℝ) < (k : ℕ) + 1 := by positivity
      linarith
    · have h2 := pow_eq_zero_iff (two_ne_zero) |>.mp h
      rw [← h2]
      apply Finset.sum_congr rfl; intro i _
      rw [mul_assoc, ← pow_succ', ← Real.exp_nat_mul]
      congr 2; push_cast; ring
  have hinj : Function.Injective (fun i => Real.exp (-a i)) := by
    intro i j h
    have := Real.exp_injective h
    exact ha (by linarith)
  have := eq_zero_of_forall_pow_sum_mul_pow_eq_zero hinj hv
  funext i
  have h2 := congrFun this i
  simp only [Pi.zero_apply, mul_eq_zero, (Real.exp_pos _).ne', or_false] at h2
  simpa using h2

theorem dfx_posDef (x : Fin n → ℝ) (hx : Function.Injective x) (s : ℝ) (hs : s ≠ 0) :
    (Matrix.of fun i j => kernelDfx false (x j) (x i) s).PosDef := by
  apply posDef_real
  · intro i j; exact (C34_kernel_range (x j) (x i) s).2.1
  · intro c hc
    let a : Fin n → ℝ := fun i => Real.exp (x i / s)
    have ha : Function.Injective a := fun i j h => hx (by
      have := Real.exp_injective h; field_simp at this; exact this)
    have hap : ∀ i, 0 < a i := fun i => Real.exp_pos _
    let d : Fin n → ℝ := fun i => 2 * c i * a i
    have hd : d ≠ 0 := by
      intro h
      apply hc
      funext i
      have := congrFun h i
      simp only [d, Pi.zero_apply, mul_eq_zero, (hap i).ne', or_false, OfNat.ofNat_ne_zero, false_or] at this
      simpa using this
    have := cauchy_sq_form_pos a ha hap d hd
    convert this using 1
    refine Finset.sum_congr rfl fun i _ => Finset.sum_congr rfl fun j _ => ?_
    simp only [Matrix.of_apply]
    rw [C34_dfx_formula, sub_div, Real.exp_sub]
    have h1 := hap i
    have h2 := hap j
    simp only [d, a] at h1 h2 ⊢
    field_simp
    ring

end posdef

section interpolation
variable {n m : ℕ}

/-- **C34** With no regularisation and distinct data abscissae, the prediction at data point `i` is exactly `y i`, for
both named kernels and every non-zero scale. -/
theorem C34_exact_at_data (name : String) (k : Bool → ℝ → ℝ → ℝ → ℝ) (hk : kernelOf name = .ok k)
    (x y : Fin n → ℝ) (hx : Function.Injective x) (s : ℝ) (hs : s ≠ 0) (xp : Fin m → ℝ) (p : Fin m) (i : Fin n)
    (hp : xp p = x i) :
    gprPredict k x y xp s (fun _ => 0) false p = y i := by
  have hpd : (Matrix.of fun i j => k false (x j) (x i) s).PosDef := by
    unfold kernelOf at hk
    split at hk
    · injection hk with hk; subst hk; exact rbf_posDef x hx s hs
    · split at hk
      · injection hk with hk; subst hk; exact dfx_posDef x hx s hs
      · cases hk
  have hdet := (Matrix.isUnit_iff_isUnit_det _).mp hpd.isUnit
  unfold gprPredict
  simp only [Matrix.diagonal_zero, add_zero]
  set A : Matrix (Fin n) (Fin n) ℝ := Matrix.of fun i j => k false (x j) (x i) s with hA
  have hcol : ∀ r, (A⁻¹ * Matrix.of fun i (j : Fin m) => k false (xp j) (x i) s) r p = (1 : Matrix (Fin n) (Fin n) ℝ) r i := by
    intro r
    rw [← Matrix.nonsing_inv_mul A hdet]
    simp only [Matrix.mul_apply, hA, Matrix.of_apply, hp]
  simp only [Matrix.vecMul, dotProduct, hcol, Matrix.one_apply]
  simp

/-- **C34** With `gradient=True` every prediction is the derivative, in the query point, of the prediction with
`gradient=False` (any regularisation). -/
theorem C34_gradient (name : String) (k : Bool → ℝ → ℝ → ℝ → ℝ) (hk : kernelOf name = .ok k)
    (x y : Fin n → ℝ) (s : ℝ) (hs : s ≠ 0) (regular : Fin n → ℝ) (q : ℝ) :
    HasDerivAt (fun q => gprPredict k x y (fun _ : Fin 1 => q) s regular false 0)
      (gprPredict k x y (fun _ : Fin 1 => q) s regular true 0) q := by
  have hd : ∀ v, HasDerivAt (fun u => k false u v s) (k true q v s) q := by
    intro v
    unfold kernelOf at hk
    split at hk
    · injection hk with hk; subst hk; exact (C34_kernel_gradient q v s hs).1
    · split at hk
      · injection hk with hk; subst hk; exact (C34_kernel_gradient q v s hs).2
      · cases hk
  unfold gprPredict
  simp only [Matrix.vecMul, dotProduct, Matrix.mul_apply, Matrix.of_apply]
  refine HasDerivAt.fun_sum fun i _ => ?_
  refine HasDerivAt.const_mul _ ?_
  refine HasDerivAt.fun_sum fun j _ => ?_
  exact (hd _).const_mul _

/-- each query point is predicted independently of the others -/
theorem C34_pointwise (k : Bool → ℝ → ℝ → ℝ → ℝ) (x y : Fin n → ℝ) (s : ℝ) (regular : Fin n → ℝ) (g : Bool)
    (xp : Fin m → ℝ) (p : Fin m) :
    gprPredict k x y xp s regular g p = gprPredict k x y (fun _ : Fin 1 => xp p) s regular g 0 := by
  unfold gprPredict
  simp only [Matrix.vecMul, dotProduct, Matrix.mul_apply, Matrix.of_apply]

/-- **C34** Any other kernel name is a `ValueError`. -/
theorem C34_unknown_kernel (name : String) (h1 : name ≠ "rbf") (h2 : name ≠ "dfx") :
    kernelOf name = .error .valueError := by simp [kernelOf, h1, h2]

example : gprPredict kernelRbf ![0, 1, 3] ![5, 7, -2] ![2, 1] 2 (fun _ => 0) false 1 = 7 := by
  have h := C34_exact_at_data "rbf" kernelRbf (by simp [kernelOf]) ![0, 1, 3] ![5, 7, -2]
    (by intro i j h; fin_cases i <;> fin_cases j <;> simp_all) 2 (by norm_num) ![2, 1] 1 1 (by simp)
  simpa using h

end interpolation
end TEflow.Mathext
