import Mathlib.Tactic
import Mathlib.Analysis.SpecialFunctions.Trigonometric.Series
import Mathlib.Analysis.SpecialFunctions.Integrals.Basic
import Verif.Props.KappaHeat
import Verif.Props.KappaKlemens

/-! # C150: how far the Debye model is from its classical form, and Klemens' formula -/

open Real Filter

namespace TEflow.Kappa

/-! ## Specification -/

/-- the conductivity with the classical heat capacity for all frequencies -/
noncomputable def classical (d : Debye) (T : ℝ) : ℝ := ∫ w in eps..d.wd, classicalFactor d.vs w / allRates d w T

/-- phonon-phonon scattering without exponential term (coefficient `c`) and point defects with the disorder parameter `G` -/
noncomputable def alloyed (vs td c Va G : ℝ) (t₁ t₂ : Tag) : Debye := ⟨vs, td, [(t₁, (Ph.direct c 0).rate), (t₂, (Pd.formula vs Va G).rate)], []⟩

/-- the classical conductivity `kB wD/(2π² vs A' T)` of phonon-phonon scattering alone, from frequency 0 -/
noncomputable def pureValue (vs td c T : ℝ) : ℝ := 1380649 / 10 ^ 8 * (td / hbarKB) / (2 * π ^ 2 * vs * (10 ^ 12 * c) * T)

/-! ## The classical form -/

theorem sinh_le_mul_cosh {y : ℝ} (hy : 0 ≤ y) : sinh y ≤ y * cosh y := by
  have hd : ∀ x : ℝ, HasDerivAt (fun x => x * cosh x - sinh x) (x * sinh x) x := by
    intro x
    have := ((hasDerivAt_id' x).mul (hasDerivAt_cosh x)).sub (hasDerivAt_sinh x)
    have e : x * sinh x = 1 * cosh x + x * sinh x - cosh x := by ring
    rw [e]
    exact this
  have hm : MonotoneOn (fun x => x * cosh x - sinh x) (Set.Ici 0) := by
    refine monotoneOn_of_deriv_nonneg (convex_Ici 0) (fun x _ => (hd x).continuousAt.continuousWithinAt) (fun x _ => (hd x).differentiableAt.differentiableWithinAt) ?_
    intro x hx
    rw [interior_Ici] at hx
    rw [(hd x).deriv]
    exact mul_nonneg (le_of_lt hx) (sinh_nonneg_iff.2 (le_of_lt hx))
  have := hm (Set.mem_Ici.2 le_rfl) (Set.mem_Ici.2 hy) hy
  simp at this
  linarith

theorem bose_lower {y : ℝ} (hy : 0 < y) : exp (-y ^ 2) ≤ (y / sinh y) ^ 2 := by
  have hs := sinh_pos_iff.mpr hy
  have h1 : exp (-(y ^ 2 / 2)) ≤ y / sinh y := by
    rw [exp_neg, inv_eq_one_div, div_le_div_iff₀ (exp_pos _) hs, one_mul]
    exact (sinh_le_mul_cosh hy.le).trans (mul_le_mul_of_nonneg_left (cosh_le_exp_half_sq y) hy.le)
  have h2 : exp (-y ^ 2) = exp (-(y ^ 2 / 2)) ^ 2 := by
    rw [← exp_nat_mul]
    congr 1
    push_cast
    ring
  rw [h2]
  exact pow_le_pow_left₀ (exp_pos _).le h1 2

/-- **C150** For every set of positive continuous rates and every temperature the lattice conductivity lies between its classical form and that form times `exp (-(Θ/2T)²)`; so from the
Debye temperature on quantum effects take at most 23 per cent, and at the fourfold less than 2 per cent. -/
theorem C150_bounds (d : Debye) (h : d.Good) (hp : d.Positive) (hc : d.Continuous) (hv : 0 < d.vs) (hwd : eps ≤ d.wd) (T : ℝ) (hT : 0 < T) :
    exp (-(d.td / (2 * T)) ^ 2) * classical d T ≤ lattice d T ∧ lattice d T ≤ classical d T := by
  have hh := hbarKB_pos
  have hpi := pi_pos
  have i1 : IntervalIntegrable (fun w => spectralFactor d.vs w T / allRates d w T) MeasureTheory.volume eps d.wd := by
    apply ContinuousOn.intervalIntegrable
    rw [Set.uIcc_of_le hwd]
    exact integrand_cont d h hp hc hv hwd T hT
  have i2 : IntervalIntegrable (fun w => classicalFactor d.vs w / allRates d w T) MeasureTheory.volume eps d.wd := by
    apply ContinuousOn.intervalIntegrable
    rw [Set.uIcc_of_le hwd]
    exact classical_cont d h hp hc hv hwd T hT
  rw [lattice_eq]
  unfold classical
  constructor
  · rw [← intervalIntegral.integral_const_mul]
    refine intervalIntegral.integral_mono_on hwd (i2.const_mul _) i1 fun w hw => ?_
    have w0 : 0 < w := lt_of_lt_of_le eps_pos hw.1
    rw [← mul_div_assoc]
    refine div_le_div_of_nonneg_right ?_ (allRates_pos d h hp w T w0 hT).le
    have hy : 0 < w / T * hbarKB / 2 := by positivity
    have hyt : w / T * hbarKB / 2 ≤ d.td / (2 * T) := by
      have h1 : w * hbarKB ≤ d.td := by
        have := hw.2
        unfold Debye.wd at this
        rwa [le_div_iff₀ hh] at this
      rw [show w / T * hbarKB / 2 = w * hbarKB / (2 * T) by ring]
      gcongr
    have e : classicalFactor d.vs w = (w / π) ^ 2 / (2 * d.vs) * (1 * (1380649 / 10 ^ 8)) := by
      unfold classicalFactor
      field_simp
    rw [spectralFactor_sinh d.vs w T w0 hT, e, mul_left_comm]
    refine mul_le_mul_of_nonneg_left ?_ (by positivity)
    rw [one_mul]
    refine mul_le_mul_of_nonneg_right ?_ (by norm_num)
    refine le_trans (exp_le_exp.2 ?_) (bose_lower hy)
    exact neg_le_neg (pow_le_pow_left₀ hy.le hyt 2)
  · refine intervalIntegral.integral_mono_on hwd i1 i2 fun w hw => ?_
    have w0 : 0 < w := lt_of_lt_of_le eps_pos hw.1
    exact div_le_div_of_nonneg_right (C104_bounds d.vs w T T hv w0 hT le_rfl).2.2 (allRates_pos d h hp w T w0 hT).le

/-! ## Klemens' formula -/

theorem alloyed_ok (vs td c Va G : ℝ) (t₁ t₂ : Tag) (ht : t₁ ≠ t₂) (hv : 0 < vs) (hc : 0 < c) (hV : 0 < Va) (hG : 0 < G) :
    (alloyed vs td c Va G t₁ t₂).Good ∧ (alloyed vs td c Va G t₁ t₂).Positive ∧ (alloyed vs td c Va G t₁ t₂).Continuous := by
  have hpi := pi_pos
  refine ⟨⟨by simp [alloyed, PyDict.WF, PyDict.keys, ht], by simp [alloyed, PyDict.WF, PyDict.keys], by simp [alloyed]⟩, ?_, ?_⟩
  · intro p hp w T hw hT
    simp only [alloyed, List.mem_cons, List.not_mem_nil, or_false] at hp
    rcases hp with rfl | rfl
    · simp only [Ph.rate, Ph.coef, Ph.theta]
      positivity
    · simp only [Pd.rate, Pd.coef]
      positivity
  · intro p hp T hT
    simp only [alloyed, List.mem_cons, List.not_mem_nil, or_false] at hp
    rcases hp with rfl | rfl
    · simp only [Ph.rate]
      fun_prop
    · simp only [Pd.rate]
      fun_prop

/-- the share of the relative frequencies below `t` -/
theorem share_integrable (U a b : ℝ) (hU : 0 ≤ U) : IntervalIntegrable (fun t : ℝ => 1 / (1 + U * t ^ 2)) MeasureTheory.volume a b := by
  apply Continuous.intervalIntegrable
  refine continuous_const.div (by fun_prop) fun t => ?_
  positivity

/-- the classical conductivity of the alloyed crystal -/
theorem classical_alloyed (vs td c Va G T : ℝ) (t₁ t₂ : Tag) (hv : 0 < vs) (htd : 0 < td) (hc : 0 < c) (hT : 0 < T) (hV : 0 < Va) (hG : 0 < G) :
    classical (alloyed vs td c Va G t₁ t₂) T = pureValue vs td c T * ∫ t in eps * hbarKB / td..1,
      1 / (1 + π * Va * G * pureValue vs td c T * td / (2 * vs ^ 2) * (10 ^ 5 / (1380649 * hbarKB)) * t ^ 2) := by
  have hh := hbarKB_pos
  have hpi := pi_pos
  have he := eps_pos
  obtain ⟨W, hW⟩ : ∃ W, W = td / hbarKB := ⟨_, rfl⟩
  have W0 : 0 < W := by rw [hW]; positivity
  have htdW : td = W * hbarKB := by rw [hW]; field_simp
  obtain ⟨U, hU⟩ : ∃ U, U = π * Va * G * pureValue vs td c T * td / (2 * vs ^ 2) * (10 ^ 5 / (1380649 * hbarKB)) := ⟨_, rfl⟩
  have hUv : U = 10 ^ 24 * (1 / 10 ^ 39 * Va * G / (4 * π * vs ^ 3)) * W ^ 2 / (c * T) := by
    rw [hU]
    unfold pureValue
    rw [← hW, htdW]
    field_simp
    ring
  have U0 : 0 < U := by rw [hUv]; positivity
  rw [← hU]
  unfold classical
  have hwd : (alloyed vs td c Va G t₁ t₂).wd = W := by rw [hW]; rfl
  have e : Set.EqOn (fun w => classicalFactor (alloyed vs td c Va G t₁ t₂).vs w / allRates (alloyed vs td c Va G t₁ t₂) w T)
      (fun w => pureValue vs td c T / W * ((fun t => 1 / (1 + U * t ^ 2)) (w * W⁻¹))) {w | w ≠ 0} := by
    intro w hw
    have hw' : w ≠ 0 := hw
    simp only [classicalFactor, allRates, alloyed, List.map_cons, List.map_nil, List.sum_cons, List.sum_nil, add_zero, Ph.rate, Ph.coef, Ph.theta, Pd.rate, Pd.coef, neg_zero, zero_div,
      exp_zero, mul_one]
    unfold pureValue
    rw [← hW, hUv]
    have d1 : 10 ^ 12 * c * w ^ 2 * T + 10 ^ 36 * (1 / 10 ^ 39 * Va * G / (4 * π * vs ^ 3)) * w ^ 4 =
        10 ^ 12 * c * T * w ^ 2 * (1 + 10 ^ 24 * (1 / 10 ^ 39 * Va * G / (4 * π * vs ^ 3)) * W ^ 2 / (c * T) * (w * W⁻¹) ^ 2) := by
      field_simp
    rw [d1]
    have d2 : 0 < 1 + 10 ^ 24 * (1 / 10 ^ 39 * Va * G / (4 * π * vs ^ 3)) * W ^ 2 / (c * T) * (w * W⁻¹) ^ 2 := by positivity
    generalize 1 + 10 ^ 24 * (1 / 10 ^ 39 * Va * G / (4 * π * vs ^ 3)) * W ^ 2 / (c * T) * (w * W⁻¹) ^ 2 = D at d2
    field_simp
  rw [hwd]
  have hcongr : (∫ w in eps..W, classicalFactor (alloyed vs td c Va G t₁ t₂).vs w / allRates (alloyed vs td c Va G t₁ t₂) w T) =
      ∫ w in eps..W, pureValue vs td c T / W * ((fun t => 1 / (1 + U * t ^ 2)) (w * W⁻¹)) := by
    refine intervalIntegral.integral_congr_ae (MeasureTheory.ae_of_all _ fun w hw => ?_)
    refine e ?_
    have h1 := Set.uIoc_subset_uIcc hw
    rw [Set.mem_uIcc] at h1
    rcases h1 with h1 | h1
    · exact (lt_of_lt_of_le he h1.1).ne'
    · exact (lt_of_lt_of_le W0 h1.1).ne'
  rw [hcongr, intervalIntegral.integral_const_mul, intervalIntegral.integral_comp_mul_right (fun t : ℝ => 1 / (1 + U * t ^ 2)) (inv_ne_zero W0.ne'), smul_eq_mul, inv_inv,
    mul_inv_cancel₀ W0.ne', ← mul_assoc, div_mul_cancel₀ _ W0.ne', show eps * hbarKB / td = eps * W⁻¹ by rw [htdW]; field_simp]

/-- the constants of the two classes agree to nine digits -/
theorem constants_ratio : (1 - 1 / 10 ^ 9 : ℝ) ≤ 1054571817 / 10 ^ 7 * (10 ^ 5 / (1380649 * hbarKB)) ∧ 1054571817 / 10 ^ 7 * (10 ^ 5 / (1380649 * hbarKB)) ≤ 1 + 1 / 10 ^ 9 := by
  unfold hbarKB
  constructor <;> norm_num

/-- **C150** Klemens' formula is the classical form of the Debye model with phonon-phonon scattering and point defects: `KappaKlemens` with the conductivity of the pure crystal
`kB wD/(2π² vs A' T)` agrees with it to eight digits (the two classes have slightly different constants) up to the share `eps/wD` of the lower integration limit; so the Debye
conductivity of the alloy lies below its value and above that value times `exp (-(Θ/2T)²)`. -/
theorem C150_klemens (vs td c Va G0 X T : ℝ) (t₁ t₂ : Tag) (ht : t₁ ≠ t₂) (hv : 0 < vs) (hc : 0 < c) (hV : 0 < Va) (hG : 0 < G0 * X * (1 - X)) (hT : 0 < T)
    (hwd : eps ≤ td / hbarKB) (m : Klemens) (hm : m = ⟨pureValue vs td c T, vs, td, G0, Va⟩) (hu : 1 / 10 ^ 12 ≤ m.u2 X) :
    let d := alloyed vs td c Va (G0 * X * (1 - X)) t₁ t₂
    (1 - 1 / 10 ^ 8) * m.call X - m.Kpure * (eps / d.wd) ≤ classical d T ∧ classical d T ≤ (1 + 1 / 10 ^ 8) * m.call X ∧
    lattice d T ≤ (1 + 1 / 10 ^ 8) * m.call X ∧ exp (-(td / (2 * T)) ^ 2) * ((1 - 1 / 10 ^ 8) * m.call X - m.Kpure * (eps / d.wd)) ≤ lattice d T := by
  intro d
  have hh := hbarKB_pos
  have hpi := pi_pos
  have he := eps_pos
  have htd : 0 < td := by
    have := lt_of_lt_of_le he hwd
    by_contra hcon
    have : td / hbarKB ≤ 0 := div_nonpos_of_nonpos_of_nonneg (not_lt.1 hcon) hh.le
    linarith
  have P0 : 0 < pureValue vs td c T := by unfold pureValue; positivity
  obtain ⟨ρ, hρ⟩ : ∃ ρ, ρ = 1054571817 / 10 ^ 7 * (10 ^ 5 / (1380649 * hbarKB)) := ⟨_, rfl⟩
  obtain ⟨r1, r2⟩ := constants_ratio
  rw [← hρ] at r1 r2
  have hcl := classical_alloyed vs td c Va (G0 * X * (1 - X)) T t₁ t₂ hv htd hc hT hV hG
  have hK : m.Kpure = pureValue vs td c T := by rw [hm]
  have hU : π * Va * (G0 * X * (1 - X)) * pureValue vs td c T * td / (2 * vs ^ 2) * (10 ^ 5 / (1380649 * hbarKB)) = ρ * m.u2 X := by
    rw [hρ, hm]
    unfold Klemens.u2
    field_simp
  rw [hU] at hcl
  have u0 : 0 < m.u2 X := lt_of_lt_of_le (by norm_num) hu
  have ρ0 : 0 < ρ := lt_of_lt_of_le (by norm_num) r1
  have hcall := C90_klemens m X hu
  rw [hK] at hcall
  have x0 : 0 ≤ eps * hbarKB / td := by positivity
  have x1 : eps * hbarKB / td ≤ 1 := by
    rw [div_le_one htd]
    rwa [le_div_iff₀ hh] at hwd
  have hdw : eps / d.wd = eps * hbarKB / td := by
    simp only [d, alloyed, Debye.wd]
    field_simp
  obtain ⟨J, hJ⟩ : ∃ J, J = ∫ t in (0 : ℝ)..1, 1 / (1 + m.u2 X * t ^ 2) := ⟨_, rfl⟩
  rw [← hJ] at hcall
  have hpt : ∀ t : ℝ, (1 - 1 / 10 ^ 8) * (1 / (1 + m.u2 X * t ^ 2)) ≤ 1 / (1 + ρ * m.u2 X * t ^ 2) ∧ 1 / (1 + ρ * m.u2 X * t ^ 2) ≤ (1 + 1 / 10 ^ 8) * (1 / (1 + m.u2 X * t ^ 2)) := by
    intro t
    have a0 : 0 ≤ m.u2 X * t ^ 2 := by positivity
    rw [mul_assoc ρ]
    generalize m.u2 X * t ^ 2 = a at a0
    have b0 : 0 ≤ ρ * a := by positivity
    have c1 : ρ * a ≤ (1 + 1 / 10 ^ 9) * a := mul_le_mul_of_nonneg_right r2 a0
    have c2 : (1 - 1 / 10 ^ 9) * a ≤ ρ * a := mul_le_mul_of_nonneg_right r1 a0
    rw [mul_one_div, mul_one_div]
    constructor
    · rw [div_le_div_iff₀ (by positivity) (by positivity), one_mul]
      linarith
    · rw [div_le_div_iff₀ (by positivity) (by positivity), one_mul]
      linarith
  have g0 := share_integrable (m.u2 X) 0 1 u0.le
  have g1 := fun a b => share_integrable (ρ * m.u2 X) a b (by positivity)
  obtain ⟨JU, hJU⟩ : ∃ JU, JU = ∫ t in (0 : ℝ)..1, 1 / (1 + ρ * m.u2 X * t ^ 2) := ⟨_, rfl⟩
  have lo : (1 - 1 / 10 ^ 8) * J ≤ JU := by
    rw [hJ, hJU, ← intervalIntegral.integral_const_mul]
    exact intervalIntegral.integral_mono_on zero_le_one (g0.const_mul _) (g1 0 1) fun t _ => (hpt t).1
  have hi : JU ≤ (1 + 1 / 10 ^ 8) * J := by
    rw [hJ, hJU, ← intervalIntegral.integral_const_mul]
    exact intervalIntegral.integral_mono_on zero_le_one (g1 0 1) (g0.const_mul _) fun t _ => (hpt t).2
  have add := intervalIntegral.integral_add_adjacent_intervals (g1 0 (eps * hbarKB / td)) (g1 (eps * hbarKB / td) 1)
  have k0 : 0 ≤ ∫ t in (0 : ℝ)..eps * hbarKB / td, 1 / (1 + ρ * m.u2 X * t ^ 2) := intervalIntegral.integral_nonneg x0 fun t _ => by positivity
  have k1 : ∫ t in (0 : ℝ)..eps * hbarKB / td, 1 / (1 + ρ * m.u2 X * t ^ 2) ≤ eps * hbarKB / td := by
    have := intervalIntegral.integral_mono_on x0 (g1 0 (eps * hbarKB / td)) (intervalIntegrable_const (c := (1 : ℝ))) fun t _ => by
      rw [div_le_one (by positivity)]
      have : 0 ≤ ρ * m.u2 X * t ^ 2 := by positivity
      linarith
    refine this.trans (le_of_eq ?_)
    simp
  rw [← hJU] at add
  have low : (1 - 1 / 10 ^ 8) * m.call X - m.Kpure * (eps / d.wd) ≤ classical d T := by
    rw [hcl, hcall, hK, hdw]
    have : (1 - 1 / 10 ^ 8) * J - eps * hbarKB / td ≤ ∫ t in eps * hbarKB / td..1, 1 / (1 + ρ * m.u2 X * t ^ 2) := by linarith
    have := mul_le_mul_of_nonneg_left this P0.le
    linarith
  have high : classical d T ≤ (1 + 1 / 10 ^ 8) * m.call X := by
    rw [hcl, hcall]
    have : ∫ t in eps * hbarKB / td..1, 1 / (1 + ρ * m.u2 X * t ^ 2) ≤ (1 + 1 / 10 ^ 8) * J := by linarith
    have := mul_le_mul_of_nonneg_left this P0.le
    linarith
  obtain ⟨o1, o2, o3⟩ := alloyed_ok vs td c Va (G0 * X * (1 - X)) t₁ t₂ ht hv hc hV hG
  obtain ⟨b1, b2⟩ := C150_bounds d o1 o2 o3 hv hwd T hT
  exact ⟨low, high, b2.trans high, (mul_le_mul_of_nonneg_left low (exp_pos _).le).trans b1⟩

/-! ## Non-vacuity -/

/-- the hypotheses of `C150_klemens`: a half-and-half alloy at 600 K -/
example : ∃ m : Klemens, m = ⟨pureValue 3 200 (1 / 10 ^ 18) 600, 3, 200, 1 / 10, 27⟩ ∧ 1 / 10 ^ 12 ≤ m.u2 (1 / 2) ∧ (0 : ℝ) < 1 / 10 * (1 / 2) * (1 - 1 / 2) ∧ eps ≤ 200 / hbarKB := by
  refine ⟨_, rfl, ?_, by norm_num, by unfold eps hbarKB; norm_num⟩
  have h3 := pi_gt_three
  have h4 := pi_le_four
  have hpi := pi_pos
  have e : (⟨pureValue 3 200 (1 / 10 ^ 18) 600, 3, 200, 1 / 10, 27⟩ : Klemens).u2 (1 / 2) =
      200 * 27 / (2 * (1054571817 / 10 ^ 7) * 3 ^ 2) * (1380649 / 10 ^ 8 * (200 / hbarKB) / (2 * 3 * (10 ^ 12 * (1 / 10 ^ 18)) * 600)) * (1 / 10) * (1 / 2) * (1 - 1 / 2) / π := by
    unfold Klemens.u2 pureValue
    field_simp
  rw [e, le_div_iff₀ hpi]
  unfold hbarKB
  refine (mul_le_mul_of_nonneg_left h4 (by norm_num)).trans ?_
  norm_num

end TEflow.Kappa
