import Mathlib.Tactic
import Mathlib.MeasureTheory.Function.JacobianOneDim
import Mathlib.Analysis.SpecialFunctions.Integrals.Basic
import Mathlib.Analysis.SpecialFunctions.Log.Deriv
import Mathlib.Algebra.Polynomial.Eval.Degree
import Verif.Props.BandQuad

/-! # C80: the substitution and the rule of `romb_dfx` -/

open Real MeasureTheory Set

namespace TEflow.Bandlib

/-- the Fermi function -/
noncomputable def fermi (EF T E : ℝ) : ℝ := 1 / (exp ((E - EF) / (kB * T)) + 1)

/-- the energy at the parameter `t` -/
noncomputable def energyOf (EF T t : ℝ) : ℝ := kB * T * xOf t + EF

theorem exp_xOf {t : ℝ} (h0 : 0 < t) (h1 : t < 1) : exp (xOf t) = (1 / t - 1) ^ 3 := by
  have : 0 < 1 / t - 1 := by
    rw [sub_pos, lt_div_iff₀ h0]; linarith
  unfold xOf
  rw [mul_comm, ← rpow_natCast (1 / t - 1) 3, rpow_def_of_pos this]
  norm_num

theorem fermi_energyOf (EF T : ℝ) (hT : 0 < T) {t : ℝ} (h0 : 0 < t) (h1 : t < 1) :
    fermi EF T (energyOf EF T t) = t ^ 3 / (t ^ 3 + (1 - t) ^ 3) := by
  have hk : kB * T ≠ 0 := (mul_pos kB_pos hT).ne'
  unfold fermi energyOf
  have : (kB * T * xOf t + EF - EF) / (kB * T) = xOf t := by
    rw [add_sub_cancel_right, mul_div_cancel_left₀ _ hk]
  rw [this, exp_xOf h0 h1]
  have h2 : 0 < 1 - t := by linarith
  have h3 : 0 < t ^ 3 + (1 - t) ^ 3 := by positivity
  have h4 : (1 / t - 1) ^ 3 = (1 - t) ^ 3 / t ^ 3 := by
    rw [← div_pow]; congr 1; field_simp
  rw [h4]
  field_simp
  ring

/-- **C80** The sampling points: the inner energies are those at the equidistant parameters `t = width·i/64`, all in
`(0, width)`, where the Fermi function is `t³/(t³+(1-t)³)`; the two end points sit at `10⁻¹⁰·kT` above the band edge; all
energies are positive. -/
theorem C80_points (EF T : ℝ) (hT : 0 < T) :
    (∀ i : ℕ, 0 < i → i < 64 → ∃ t, t = widthOf EF T * i / 64 ∧ 0 < t ∧ t < widthOf EF T ∧ energyAt EF T i = energyOf EF T t ∧
      fermi EF T (energyAt EF T i) = t ^ 3 / (t ^ 3 + (1 - t) ^ 3)) ∧
    (∀ i : ℕ, i = 0 ∨ i = 64 → energyAt EF T i = kB * T / 10 ^ 10) ∧ ∀ i ≤ 64, 0 < energyAt EF T i := by
  refine ⟨fun i h0 h1 => ?_, fun i hi => ?_, fun i hi => energyAt_pos EF T hT hi⟩
  · have e : energyAt EF T i = energyOf EF T (widthOf EF T * i / 64) := by
      unfold energyAt energyOf xpAt
      rw [if_neg (by omega)]
      rfl
    have hp : (0 : ℝ) < widthOf EF T * i / 64 := tpAt_pos EF T h0
    have hl : widthOf EF T * i / 64 < widthOf EF T := tpAt_lt EF T h1
    refine ⟨_, rfl, hp, hl, e, ?_⟩
    rw [e, fermi_energyOf EF T hT hp (hl.trans (widthOf_lt_one EF T))]
  · have hk := (kB_pos).ne'
    unfold energyAt xpAt
    rw [if_pos hi]
    field_simp
    ring

/-- **C80** The weight is the derivative of the Fermi function along the parametrisation. -/
theorem C80_weight (EF T : ℝ) (hT : 0 < T) (t : ℝ) (h0 : 0 < t) (h1 : t < 1) :
    HasDerivAt (fun t => fermi EF T (energyOf EF T t)) (wOf t) t := by
  have h2 : 0 < 1 - t := by linarith
  have h3 : t ^ 3 + (1 - t) ^ 3 ≠ 0 := by positivity
  have hd : HasDerivAt (fun t : ℝ => t ^ 3 / (t ^ 3 + (1 - t) ^ 3)) (wOf t) t := by
    have a : HasDerivAt (fun t : ℝ => t ^ 3) (3 * t ^ 2) t := by simpa using hasDerivAt_pow 3 t
    have b : HasDerivAt (fun t : ℝ => (1 - t) ^ 3) (-(3 * (1 - t) ^ 2)) t := by
      have h := ((hasDerivAt_id t).const_sub 1).pow 3
      refine HasDerivAt.congr_deriv (f := fun t : ℝ => (1 - t) ^ 3) h ?_
      simp
    have := a.div (a.add b) h3
    refine this.congr_deriv ?_
    unfold wOf
    congr 1
    simp only [Pi.add_apply]
    ring
  refine hd.congr_of_eventuallyEq ?_
  filter_upwards [Ioo_mem_nhds h0 h1] with s hs
  exact fermi_energyOf EF T hT hs.1 hs.2

theorem fermi_deriv (EF T E : ℝ) : HasDerivAt (fermi EF T)
    (-(exp ((E - EF) / (kB * T)) / (kB * T) / (exp ((E - EF) / (kB * T)) + 1) ^ 2)) E := by
  have h : HasDerivAt (fun E : ℝ => exp ((E - EF) / (kB * T)) + 1) (exp ((E - EF) / (kB * T)) * (1 / (kB * T))) E :=
    ((((hasDerivAt_id E).sub_const EF).div_const (kB * T)).exp).add_const 1
  have := h.inv (by positivity)
  unfold fermi
  simp only [one_div]
  refine this.congr_deriv ?_
  ring

theorem energyOf_deriv (EF T : ℝ) {t : ℝ} (h0 : 0 < t) (h1 : t < 1) :
    HasDerivAt (energyOf EF T) (-(3 * (kB * T) / (t * (1 - t)))) t := by
  have h2 : 0 < 1 - t := by linarith
  have h3 : 1 / t - 1 ≠ 0 := by
    have : 0 < 1 / t - 1 := by rw [sub_pos, lt_div_iff₀ h0]; linarith
    exact this.ne'
  have a : HasDerivAt (fun t : ℝ => 1 / t - 1) (-(1 / t ^ 2)) t := by
    have := (hasDerivAt_inv h0.ne').sub_const 1
    simpa [one_div] using this
  have b := (((a.log h3).const_mul 3).const_mul (kB * T)).add_const EF
  unfold energyOf xOf
  refine b.congr_deriv ?_
  have : 1 / t - 1 = (1 - t) / t := by field_simp
  rw [this]
  field_simp

/-- the image of `(0, width)` is the positive energies -/
theorem energyOf_image (EF T : ℝ) (hT : 0 < T) : energyOf EF T '' Ioo 0 (widthOf EF T) = Ioi 0 := by
  have hkT : 0 < kB * T := mul_pos kB_pos hT
  have hk := (kB_pos).ne'
  ext E
  simp only [mem_image, mem_Ioo, mem_Ioi]
  constructor
  · rintro ⟨t, ⟨h0, h1⟩, rfl⟩
    have h2 : exp (-(EF / (kB * T)) / 3) < 1 / t - 1 := by
      unfold widthOf at h1
      rw [lt_div_iff₀ (by positivity)] at h1
      rw [lt_sub_iff_add_lt, lt_div_iff₀ h0]
      linarith
    have h3 : -(EF / (kB * T)) / 3 < log (1 / t - 1) := by
      rw [lt_log_iff_exp_lt (lt_trans (exp_pos _) h2)]; exact h2
    unfold energyOf xOf
    have h4 : -(EF / (kB * T)) < 3 * log (1 / t - 1) := by linarith
    have h5 := mul_lt_mul_of_pos_left h4 hkT
    have h6 : kB * T * -(EF / (kB * T)) = -EF := by
      rw [mul_neg, mul_div_cancel₀ _ hkT.ne']
    linarith
  · intro hE
    refine ⟨1 / (1 + exp ((E - EF) / (kB * T) / 3)), ⟨by positivity, ?_⟩, ?_⟩
    · unfold widthOf
      apply one_div_lt_one_div_of_lt (by positivity)
      have : -(EF / (kB * T)) / 3 < (E - EF) / (kB * T) / 3 := by
        rw [sub_div]
        have : 0 < E / (kB * T) := by positivity
        linarith
      linarith [exp_lt_exp.2 this]
    · unfold energyOf xOf
      rw [one_div_one_div, add_sub_cancel_left, log_exp]
      field_simp
      ring

/-- **C80** The substitution is exact: for every function `g` the integral over all positive energies with the window
`-∂f/∂E` is the integral over `(0, width)` with the program's weight, at the program's energies. -/
theorem C80_substitution (g : ℝ → ℝ) (EF T : ℝ) (hT : 0 < T) :
    ∫ E in Ioi 0, g E * (-deriv (fermi EF T) E) = ∫ t in Ioo 0 (widthOf EF T), g (energyOf EF T t) * wOf t := by
  have hkT : 0 < kB * T := mul_pos kB_pos hT
  have hk := (kB_pos).ne'
  have hin : ∀ t ∈ Ioo 0 (widthOf EF T), 0 < t ∧ t < 1 := fun t ht => ⟨ht.1, ht.2.trans (widthOf_lt_one EF T)⟩
  rw [← energyOf_image EF T hT, integral_image_eq_integral_abs_deriv_smul (f' := fun t => -(3 * (kB * T) / (t * (1 - t))))
    measurableSet_Ioo (fun t ht => (energyOf_deriv EF T (hin t ht).1 (hin t ht).2).hasDerivWithinAt)]
  · refine setIntegral_congr_fun measurableSet_Ioo fun t ht => ?_
    obtain ⟨h0, h1⟩ := hin t ht
    have h2 : 0 < 1 - t := by linarith
    have h3 : 0 < t ^ 3 + (1 - t) ^ 3 := by positivity
    simp only [smul_eq_mul]
    rw [(fermi_deriv EF T _).deriv]
    have e1 : (energyOf EF T t - EF) / (kB * T) = xOf t := by
      unfold energyOf
      rw [add_sub_cancel_right, mul_div_cancel_left₀ _ hkT.ne']
    have h4 : (1 / t - 1) ^ 3 = (1 - t) ^ 3 / t ^ 3 := by
      rw [← div_pow]; congr 1; field_simp
    have h5 : 0 < (1 - t) ^ 3 / t ^ 3 + 1 := by positivity
    rw [e1, exp_xOf h0 h1, h4, abs_neg, abs_of_pos (by positivity)]
    unfold wOf
    have h6 : (1 - t) ^ 3 / t ^ 3 + 1 = (t ^ 3 + (1 - t) ^ 3) / t ^ 3 := by field_simp; ring
    rw [h6]
    field_simp
  · intro s hs t ht hst
    obtain ⟨s0, s1⟩ := hin s hs
    obtain ⟨t0, t1⟩ := hin t ht
    unfold energyOf xOf at hst
    have h1 : log (1 / s - 1) = log (1 / t - 1) := by
      have := add_right_cancel hst
      have := mul_left_cancel₀ hkT.ne' this
      linarith
    have p1 : 0 < 1 / s - 1 := by rw [sub_pos, lt_div_iff₀ s0]; linarith
    have p2 : 0 < 1 / t - 1 := by rw [sub_pos, lt_div_iff₀ t0]; linarith
    have h2 := log_injOn_pos p1 p2 h1
    have h3 : 1 / s = 1 / t := by linarith
    rw [one_div, one_div] at h3
    exact inv_injective h3

theorem romb_moments : ∀ d ∈ Finset.range 14, ∑ i ∈ Finset.range 65, rombW i * (i : ℚ) ^ d = 64 ^ (d + 1) / (d + 1) := by
  decide +kernel

/-- **C80** The rule that is applied to the transformed integrand on `[0, width]` integrates every polynomial of degree at
most 13 exactly. -/
theorem C80_romberg_exact (p : Polynomial ℝ) (hp : p.natDegree ≤ 13) (width : ℝ) :
    romb 6 (fun i => p.eval (tpAt width 64 i)) * width / 64 = ∫ t in (0 : ℝ)..width, p.eval t := by
  have hev : ∀ x : ℝ, p.eval x = ∑ d ∈ Finset.range 14, p.coeff d * x ^ d := fun x =>
    Polynomial.eval_eq_sum_range' (by omega) x
  simp only [hev]
  rw [romb_eq_sum, intervalIntegral.integral_finset_sum]
  · have h1 : ∀ d ∈ Finset.range 14, ∫ t in (0 : ℝ)..width, p.coeff d * t ^ d = p.coeff d * (width ^ (d + 1) / (d + 1)) := by
      intro d _
      rw [intervalIntegral.integral_const_mul, integral_pow]
      simp
    rw [Finset.sum_congr rfl h1]
    simp only [Finset.mul_sum]
    rw [Finset.sum_comm, mul_div_assoc, Finset.sum_mul]
    refine Finset.sum_congr rfl fun d hd => ?_
    have hm : ∑ i ∈ Finset.range 65, (rombW i : ℝ) * (i : ℝ) ^ d = 64 ^ (d + 1) / (d + 1) := by
      have := romb_moments d hd
      have h' := congrArg (Rat.cast (K := ℝ)) this
      push_cast at h'
      exact h'
    have h2 : ∑ i ∈ Finset.range 65, (rombW i : ℝ) * (p.coeff d * tpAt width 64 i ^ d) =
        p.coeff d * (width / 64) ^ d * ∑ i ∈ Finset.range 65, (rombW i : ℝ) * (i : ℝ) ^ d := by
      rw [Finset.mul_sum]
      refine Finset.sum_congr rfl fun i _ => ?_
      unfold tpAt
      have : width * (i : ℝ) / ((64 : ℕ) : ℝ) = width / 64 * i := by push_cast; ring
      rw [this, mul_pow]
      ring
    rw [h2, hm]
    have h3 : (d : ℝ) + 1 ≠ 0 := by positivity
    have h4 : (64 : ℝ) ^ d ≠ 0 := by positivity
    rw [div_pow, pow_succ, pow_succ]
    field_simp
  · intro d _
    apply Continuous.intervalIntegrable
    fun_prop

end TEflow.Bandlib
