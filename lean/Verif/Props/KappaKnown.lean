import Mathlib.Tactic
import Mathlib.Analysis.SpecialFunctions.Integrals.Basic
import Verif.Props.KappaHeat

/-! # C149: known results recovered by the Debye model -/

open Real Filter

namespace TEflow.Kappa

/-! ## Specification: formulas of the literature, in SI units -/

/-- the minimum thermal conductivity of Cahill, Watson and Pohl for three branches of sound velocity `v`, `n` atoms per volume and Debye temperature `Θ`, where only the reduced
frequencies above `x₀` count (`x₀ = 0` in the literature) -/
noncomputable def cahillPohl (n v Θ T x₀ : ℝ) : ℝ :=
  (π / 6) ^ (1 / 3 : ℝ) * KappaSpec.kB * n ^ (2 / 3 : ℝ) * (3 * v * (T / Θ) ^ 2 * ∫ x in x₀..Θ / T, x ^ 3 * exp x / (exp x - 1) ^ 2)

/-- the high-temperature conductivity `M v³ (6π²)^{1/3} / (2π² A γ² V^{2/3} T)` of phonons that scatter one another, times `T` (`M`: mass, `V`: volume per atom) -/
noncomputable def umklappLimit (M v A γ V : ℝ) : ℝ := M * v ^ 3 * (6 * π ^ 2) ^ (1 / 3 : ℝ) / (2 * π ^ 2 * A * γ ^ 2 * V ^ (2 / 3 : ℝ))

/-! ## Cahill's minimum -/

/-- the model with Cahill scattering alone and the Debye temperature of its sound velocity -/
noncomputable def cahillModel (vs Va alpha : ℝ) (tag : Tag) : Debye := ⟨vs, vsToTd vs Va, [(tag, cahillRate alpha)], []⟩

theorem third_cubed {a : ℝ} (ha : 0 ≤ a) : (a ^ (1 / 3 : ℝ)) ^ 3 = a := by
  rw [← rpow_natCast, ← rpow_mul ha]
  norm_num

theorem two_thirds {a : ℝ} (ha : 0 ≤ a) : a ^ (2 / 3 : ℝ) = (a ^ (1 / 3 : ℝ)) ^ 2 := by
  rw [← rpow_natCast, ← rpow_mul ha]
  norm_num

theorem wd_vs (vs Va : ℝ) (s : List (Tag × Rate)) (a : List (Tag × (ℝ → ℝ))) : (⟨vs, vsToTd vs Va, s, a⟩ : Debye).wd = 10 * (6 * π ^ 2 / Va) ^ (1 / 3 : ℝ) * vs := by
  unfold Debye.wd vsToTd
  have h0 : hbarKB ≠ 0 := by unfold hbarKB; norm_num
  rw [show 6 * π * π = 6 * π ^ 2 by ring]
  field_simp

/-- the two ways to write the prefactor -/
theorem prefactor (Va : ℝ) (hV : 0 < Va) : (π / 6) ^ (1 / 3 : ℝ) * (10 ^ 30 / Va) ^ (2 / 3 : ℝ) = 10 ^ 20 / (6 * π) * ((6 * π ^ 2 / Va) ^ (1 / 3 : ℝ)) ^ 2 := by
  have hpi := pi_pos
  have p1 : 0 < (π / 6) ^ (1 / 3 : ℝ) := by positivity
  have p2 : 0 < (10 ^ 30 / Va) ^ (1 / 3 : ℝ) := by positivity
  have p3 : 0 < (6 * π ^ 2 / Va) ^ (1 / 3 : ℝ) := by positivity
  rw [two_thirds (by positivity)]
  refine (pow_left_inj₀ (by positivity) (by positivity) three_ne_zero).1 ?_
  rw [mul_pow, mul_pow, ← pow_mul, ← pow_mul, mul_comm 2 3, pow_mul, pow_mul, third_cubed (by positivity), third_cubed (by positivity), third_cubed (by positivity)]
  field_simp

theorem cahill_eq (vs Va alpha T : ℝ) (tag : Tag) (hv : 0 < vs) (hV : 0 < Va) (ha : 0 < alpha) (hT : 0 < T) (lo : ℝ) :
    ∫ w in lo..(cahillModel vs Va alpha tag).wd, spectralFactor vs w T / cahillRate alpha w T =
      cahillPohl (10 ^ 30 / Va) (10 ^ 3 * vs) (vsToTd vs Va) T (lo * hbarKB / T) / alpha := by
  have hpi := pi_pos
  have hh := hbarKB_pos
  have p3 : 0 < (6 * π ^ 2 / Va) ^ (1 / 3 : ℝ) := by positivity
  obtain ⟨W, hW⟩ : ∃ W, W = (cahillModel vs Va alpha tag).wd := ⟨_, rfl⟩
  have hW' : W = 10 * (6 * π ^ 2 / Va) ^ (1 / 3 : ℝ) * vs := by rw [hW]; exact wd_vs vs Va _ _
  have hTd : vsToTd vs Va = W * hbarKB := by
    rw [hW]
    unfold cahillModel Debye.wd
    simp only
    field_simp
  have W0 : 0 < W := by rw [hW']; positivity
  rw [← hW]
  have e : (fun w => spectralFactor vs w T / cahillRate alpha w T) = fun w =>
      1380649 / 10 ^ 8 / (2 * π * vs * alpha) * (T / hbarKB) * ((fun x => x ^ 3 * exp x / (exp x - 1) ^ 2) (w * (hbarKB / T))) := by
    funext w
    unfold spectralFactor cahillRate
    simp only
    rw [show w / T * hbarKB = w * (hbarKB / T) by ring]
    by_cases hw : w = 0
    · simp [hw]
    · by_cases hx : exp (w * (hbarKB / T)) - 1 = 0
      · simp [hx]
      · field_simp
  simp only [e]
  rw [intervalIntegral.integral_const_mul, intervalIntegral.integral_comp_mul_right (fun x : ℝ => x ^ 3 * exp x / (exp x - 1) ^ 2) (by positivity : hbarKB / T ≠ 0), smul_eq_mul]
  unfold cahillPohl
  rw [hTd, show W * hbarKB / T = W * (hbarKB / T) by ring, show lo * hbarKB / T = lo * (hbarKB / T) by ring]
  generalize (∫ x in lo * (hbarKB / T)..W * (hbarKB / T), x ^ 3 * exp x / (exp x - 1) ^ 2) = J
  rw [mul_right_comm ((π / 6) ^ (1 / 3 : ℝ)), prefactor Va hV, hW']
  unfold KappaSpec.kB
  field_simp
  ring

theorem cahillModel_ok (vs Va alpha : ℝ) (tag : Tag) (ha : 0 < alpha) :
    (cahillModel vs Va alpha tag).Good ∧ (cahillModel vs Va alpha tag).Positive ∧ (cahillModel vs Va alpha tag).Continuous ∧ ∀ p ∈ (cahillModel vs Va alpha tag).scat, Frozen p.2 := by
  have hpi := pi_pos
  refine ⟨⟨by simp [cahillModel, PyDict.WF, PyDict.keys], by simp [cahillModel, PyDict.WF, PyDict.keys], by simp [cahillModel]⟩, ?_, ?_, ?_⟩
  · intro p hp w T hw hT
    simp only [cahillModel, List.mem_singleton] at hp
    subst hp
    simp only [cahillRate]
    positivity
  · intro p hp T hT
    simp only [cahillModel, List.mem_singleton] at hp
    subst hp
    simp only [cahillRate]
    fun_prop
  · intro p hp
    simp only [cahillModel, List.mem_singleton] at hp
    subst hp
    exact C148_kinds.2.2.2.2.2.1 _

/-- the reduced integrand lies between 0 and `x` -/
theorem reduced_bounds (x : ℝ) (hx : 0 ≤ x) : 0 ≤ x ^ 3 * exp x / (exp x - 1) ^ 2 ∧ x ^ 3 * exp x / (exp x - 1) ^ 2 ≤ x := by
  rcases hx.eq_or_lt with rfl | hx
  · simp
  · have hp : 0 < x / 2 := by positivity
    have hs := sinh_pos_iff.mpr hp
    have h1 : (x / 2 / sinh (x / 2)) ^ 2 ≤ 1 := by
      apply pow_le_one₀ (by positivity)
      rw [div_le_one hs]
      exact self_le_sinh_iff.mpr hp.le
    have e : x ^ 3 * exp x / (exp x - 1) ^ 2 = x * (x / 2 / sinh (x / 2)) ^ 2 := by
      rw [← bose_sinh hx]
      ring
    rw [e]
    exact ⟨by positivity, by nlinarith⟩

theorem reduced_integrable (a b : ℝ) (ha : 0 ≤ a) (hb : 0 ≤ b) : IntervalIntegrable (fun x : ℝ => x ^ 3 * exp x / (exp x - 1) ^ 2) MeasureTheory.volume a b := by
  refine IntervalIntegrable.mono_fun (continuous_id.intervalIntegrable a b) ?_ ?_
  · exact (by fun_prop : Measurable fun x : ℝ => x ^ 3 * exp x / (exp x - 1) ^ 2).aestronglyMeasurable
  · refine (MeasureTheory.ae_restrict_iff' measurableSet_uIoc).2 (MeasureTheory.ae_of_all _ fun x hx => ?_)
    have hx0 : 0 ≤ x := by
      have := (Set.uIoc_subset_uIcc hx)
      rw [Set.mem_uIcc] at this
      rcases this with h | h <;> linarith
    obtain ⟨h1, h2⟩ := reduced_bounds x hx0
    simp only
    rw [Real.norm_of_nonneg h1, id, Real.norm_of_nonneg hx0]
    exact h2

/-- **C149** Cahill scattering alone gives the minimum thermal conductivity of Cahill, Watson and Pohl (divided by `alpha`), in SI units, with the Debye temperature of the sound
velocity, for reduced frequencies from that of the lower integration limit; what is missing below it is less than `kB eps²/(4π vs alpha)`, some 1e-16 W/(m K), at every temperature. -/
theorem C149_cahill (vs Va alpha T : ℝ) (tag : Tag) (hv : 0 < vs) (hV : 0 < Va) (ha : 0 < alpha) (hT : 0 < T) :
    let full := cahillPohl (10 ^ 30 / Va) (10 ^ 3 * vs) (vsToTd vs Va) T 0 / alpha
    lattice (cahillModel vs Va alpha tag) T = cahillPohl (10 ^ 30 / Va) (10 ^ 3 * vs) (vsToTd vs Va) T (eps * hbarKB / T) / alpha ∧
    lattice (cahillModel vs Va alpha tag) T ≤ full ∧ full - lattice (cahillModel vs Va alpha tag) T ≤ 1380649 / 10 ^ 8 * eps ^ 2 / (4 * π * vs * alpha) := by
  intro full
  have hpi := pi_pos
  have hh := hbarKB_pos
  have he := eps_pos
  have hl : lattice (cahillModel vs Va alpha tag) T = ∫ w in eps..(cahillModel vs Va alpha tag).wd, spectralFactor vs w T / cahillRate alpha w T := by
    rw [lattice_eq]
    simp [allRates, cahillModel]
  have hfull := cahill_eq vs Va alpha T tag hv hV ha hT 0
  have heps := cahill_eq vs Va alpha T tag hv hV ha hT eps
  rw [zero_mul, zero_div] at hfull
  have hTd : 0 ≤ vsToTd vs Va / T := by unfold vsToTd; positivity
  have hx0 : 0 ≤ eps * hbarKB / T := by positivity
  refine ⟨by rw [hl, heps], ?_⟩
  obtain ⟨C, hC⟩ : ∃ C, C = (π / 6) ^ (1 / 3 : ℝ) * KappaSpec.kB * (10 ^ 30 / Va) ^ (2 / 3 : ℝ) * (3 * (10 ^ 3 * vs) * (T / vsToTd vs Va) ^ 2) / alpha := ⟨_, rfl⟩
  have hCv : C = 1380649 / 10 ^ 8 / (2 * π * vs * alpha) * (T / hbarKB) ^ 2 := by
    have p3 : 0 < (6 * π ^ 2 / Va) ^ (1 / 3 : ℝ) := by positivity
    rw [hC, mul_right_comm ((π / 6) ^ (1 / 3 : ℝ)), prefactor Va hV]
    unfold vsToTd KappaSpec.kB
    rw [show 6 * π * π = 6 * π ^ 2 by ring]
    field_simp
    ring
  have hC0 : 0 ≤ C := by rw [hCv]; positivity
  have diff : full - lattice (cahillModel vs Va alpha tag) T = C * ∫ x in (0 : ℝ)..eps * hbarKB / T, x ^ 3 * exp x / (exp x - 1) ^ 2 := by
    have add := intervalIntegral.integral_add_adjacent_intervals (reduced_integrable 0 (eps * hbarKB / T) le_rfl hx0) (reduced_integrable (eps * hbarKB / T) (vsToTd vs Va / T) hx0 hTd)
    rw [hl, heps]
    simp only [full]
    unfold cahillPohl
    rw [← add, hC]
    ring
  have i0 : 0 ≤ ∫ x in (0 : ℝ)..eps * hbarKB / T, x ^ 3 * exp x / (exp x - 1) ^ 2 := intervalIntegral.integral_nonneg hx0 fun x hx => (reduced_bounds x hx.1).1
  have i1 : ∫ x in (0 : ℝ)..eps * hbarKB / T, x ^ 3 * exp x / (exp x - 1) ^ 2 ≤ (eps * hbarKB / T) ^ 2 / 2 := by
    have := intervalIntegral.integral_mono_on hx0 (reduced_integrable 0 (eps * hbarKB / T) le_rfl hx0) (continuous_id.intervalIntegrable _ _) fun x hx => (reduced_bounds x hx.1).2
    refine this.trans (le_of_eq ?_)
    simp
  constructor
  · have : 0 ≤ full - lattice (cahillModel vs Va alpha tag) T := by rw [diff]; positivity
    linarith
  · rw [diff]
    refine (mul_le_mul_of_nonneg_left i1 hC0).trans (le_of_eq ?_)
    rw [hCv]
    field_simp
    ring

/-- **C149** Cahill's minimum rises strictly with the temperature to `kB (wD² - eps²)/(4π vs alpha)`, the equipartition value. -/
theorem C149_cahill_limit (vs Va alpha : ℝ) (tag : Tag) (hv : 0 < vs) (ha : 0 < alpha) (hlt : eps < (cahillModel vs Va alpha tag).wd) :
    (∀ T T', 0 < T → T < T' → lattice (cahillModel vs Va alpha tag) T < lattice (cahillModel vs Va alpha tag) T') ∧
    Tendsto (lattice (cahillModel vs Va alpha tag)) atTop (nhds (1380649 / 10 ^ 8 * ((cahillModel vs Va alpha tag).wd ^ 2 - eps ^ 2) / (4 * π * vs * alpha))) := by
  have hpi := pi_pos
  obtain ⟨g1, g2, g3, g4⟩ := cahillModel_ok vs Va alpha tag ha
  obtain ⟨h1, -, h3, -⟩ := C148_frozen (cahillModel vs Va alpha tag) g1 g2 g3 hv hlt.le hlt g4
  refine ⟨h1, ?_⟩
  have e : ∀ w, classicalFactor (cahillModel vs Va alpha tag).vs w / allRates (cahillModel vs Va alpha tag) w 300 = 1380649 / 10 ^ 8 / (2 * π * vs * alpha) * w := by
    intro w
    simp only [allRates, cahillModel, List.map_cons, List.map_nil, List.sum_cons, List.sum_nil, add_zero, classicalFactor, cahillRate]
    by_cases hw : w = 0
    · simp [hw]
    · field_simp
  simp only [e] at h3
  rw [intervalIntegral.integral_const_mul, integral_id] at h3
  convert h3 using 2
  field_simp
  ring

/-! ## Phonon-phonon scattering -/

/-- **C149** Phonon-phonon scattering with its documented parameters: in the heat the conductivity is `M v³ (6π²)^{1/3}/(2π² A γ² V^{2/3} T)` with the mass `Ma` in units of the
constant of the code (the mass of the neutron), whatever other mechanisms with constant rates are present; the lower integration limit takes the share `eps/wD` away. -/
theorem C149_threephonon (gm vs Va Ma A Theta : ℝ) (tag : Tag) (l r : List (Tag × Rate)) (adds : List (Tag × (ℝ → ℝ))) (hg : gm ≠ 0) (hv : 0 < vs) (hV : 0 < Va) (hM : 0 < Ma)
    (hA : 0 < A) (hth : 0 ≤ Theta) (d : Debye) (hd : d = ⟨vs, vsToTd vs Va, l ++ (tag, (Ph.formula gm vs Va Ma A Theta).rate) :: r, adds⟩) (hgood : d.Good) (hp : d.Positive)
    (hc : d.Continuous) (hf : ∀ p ∈ l ++ r, Frozen p.2) (hwd : eps ≤ d.wd) :
    Tendsto (fun T => T * lattice d T) atTop
      (nhds (umklappLimit (KappaSpec.neutron * Ma) (10 ^ 3 * vs) A gm ((1 / 10) ^ 30 * Va) * (1 - eps / d.wd))) := by
  have hpi := pi_pos
  have hm : 0 < (Ph.formula gm vs Va Ma A Theta).coef := by
    have : 0 < gm ^ 2 := by positivity
    unfold Ph.coef
    positivity
  have hvd : d.vs = vs := by rw [hd]
  have := (C148_limit d hgood hp hc (by rw [hvd]; exact hv) hwd (Ph.formula gm vs Va Ma A Theta) hm hth tag l r (by rw [hd]) hf).1
  convert this using 2
  have hW : d.wd = 10 * (6 * π ^ 2 / Va) ^ (1 / 3 : ℝ) * vs := by rw [hd]; exact wd_vs vs Va _ _
  have W0 : 0 < d.wd := lt_of_lt_of_le eps_pos hwd
  rw [hvd, show (1 : ℝ) - eps / d.wd = (d.wd - eps) / d.wd by field_simp]
  generalize d.wd - eps = D
  rw [hW]
  unfold umklappLimit Ph.coef KappaSpec.neutron
  have e1 : ((1 / 10 : ℝ) ^ 30 * Va) ^ (2 / 3 : ℝ) = (1 / 10) ^ 20 * (Va ^ (1 / 3 : ℝ)) ^ 2 := by
    rw [mul_rpow (by positivity) hV.le, two_thirds hV.le]
    congr 1
    rw [← rpow_natCast, ← rpow_mul (by norm_num), ← rpow_natCast]
    norm_num
  have e2 : (6 * π ^ 2 / Va) ^ (1 / 3 : ℝ) = (6 * π ^ 2) ^ (1 / 3 : ℝ) / Va ^ (1 / 3 : ℝ) := div_rpow (by positivity) hV.le _
  have q1 : 0 < Va ^ (1 / 3 : ℝ) := by positivity
  have q2 : 0 < (6 * π ^ 2) ^ (1 / 3 : ℝ) := by positivity
  rw [e1, e2]
  simp only
  field_simp
  ring

/-! ## Non-vacuity -/

/-- a model with phonon-phonon scattering alone -/
example : ∃ d : Debye, d = ⟨3, vsToTd 3 27, [] ++ (['P', 'H'], (Ph.formula 2 3 27 100 1 100).rate) :: [], []⟩ ∧ d.Good ∧ d.Positive ∧ d.Continuous ∧ eps ≤ d.wd := by
  refine ⟨_, rfl, ⟨by decide, by decide, by simp⟩, ?_, ?_, ?_⟩
  · intro p hp w T hw hT
    simp only [List.nil_append, List.mem_singleton] at hp
    subst hp
    simp only [Ph.rate, Ph.coef]
    positivity
  · intro p hp T hT
    simp only [List.nil_append, List.mem_singleton] at hp
    subst hp
    simp only [Ph.rate]
    fun_prop
  · rw [wd_vs]
    have h3 := pi_gt_three
    have : (1 : ℝ) ≤ (6 * π ^ 2 / 27) ^ (1 / 3 : ℝ) := one_le_rpow (by rw [le_div_iff₀ (by norm_num)]; nlinarith) (by norm_num)
    unfold eps
    linarith

end TEflow.Kappa
