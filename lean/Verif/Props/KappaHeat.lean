import Mathlib.Tactic
import Mathlib.MeasureTheory.Integral.DominatedConvergence
import Verif.Props.KappaDebye
import Verif.Props.KappaScat

/-! # C148: the Debye thermal conductivity as a function of the temperature -/

open Real Filter
open TEflow.PyDict

namespace TEflow.Kappa

/-! ## Specification -/

/-- the lattice part of the conductivity at `T`, with the integral computed exactly -/
noncomputable def lattice (d : Debye) (T : ℝ) : ℝ := d.call exactQuad T (some 0)

/-- the rate does not depend on the temperature -/
def Frozen (r : Rate) : Prop := ∀ w T T', 0 < T → 0 < T' → r w T = r w T'

/-- the rate grows at most in proportion to the temperature -/
def AtMostLinear (r : Rate) : Prop := ∀ w T T', 0 < w → 0 < T → T ≤ T' → r w T' / T' ≤ r w T / T

/-- the heat capacity factor of the classical limit (Dulong–Petit), kB w²/(2π² vs) -/
noncomputable def classicalFactor (vs w : ℝ) : ℝ := 1380649 / 10 ^ 8 * w ^ 2 / (2 * π ^ 2 * vs)

/-- the sum of all rates -/
noncomputable def allRates (d : Debye) (w T : ℝ) : ℝ := (d.scat.map fun p => p.2 w T).sum

/-! ## Preparations -/

theorem lattice_eq (d : Debye) (T : ℝ) : lattice d T = ∫ w in eps..d.wd, spectralFactor d.vs w T / allRates d w T := by
  unfold lattice Debye.call exactQuad Debye.spectralSum allRates
  simp only [ne_eq, not_true_eq_false, if_false, List.map_map]
  rfl

theorem allRates_upTo (d : Debye) (w T : ℝ) : allRates d w T = rateUpTo d d.scat.length w T := by
  unfold allRates rateUpTo
  rw [List.take_of_length_le (by simp)]

theorem allRates_pos (d : Debye) (h : d.Good) (hp : d.Positive) (w T : ℝ) (hw : 0 < w) (hT : 0 < T) : 0 < allRates d w T := by
  rw [allRates_upTo]
  exact rateUpTo_pos d h hp w T hw hT (by simpa using h.2.2)

theorem allRates_cont (d : Debye) (hc : d.Continuous) (T : ℝ) (hT : 0 < T) : ContinuousOn (fun w => allRates d w T) (Set.Ioi 0) := by
  simp only [allRates_upTo]
  exact rateUpTo_cont d hc T hT _

theorem allRates_frozen (d : Debye) (hf : ∀ p ∈ d.scat, Frozen p.2) (w T T' : ℝ) (hT : 0 < T) (hT' : 0 < T') : allRates d w T = allRates d w T' := by
  unfold allRates
  congr 1
  exact List.map_congr_left fun p hp => hf p hp w T T' hT hT'

theorem allRates_linear (d : Debye) (hf : ∀ p ∈ d.scat, AtMostLinear p.2) (w T T' : ℝ) (hw : 0 < w) (hT : 0 < T) (hTT : T ≤ T') :
    allRates d w T' / T' ≤ allRates d w T / T := by
  unfold allRates
  obtain ⟨l, hl⟩ : ∃ l, l = d.scat := ⟨_, rfl⟩
  rw [← hl] at hf ⊢
  clear hl
  induction l with
  | nil => simp
  | cons p l ih =>
    simp only [List.map_cons, List.sum_cons, add_div]
    exact add_le_add (hf p (by simp) w T T' hw hT hTT) (ih fun q hq => hf q (List.mem_cons_of_mem _ hq))

theorem sinh_ratio_lt {a b : ℝ} (ha : 0 < a) (hab : a < b) : b / sinh b < a / sinh a := by
  have hb : 0 < b := ha.trans hab
  have hc : StrictConvexOn ℝ (Set.Ici 0) sinh := by
    apply StrictMonoOn.strictConvexOn_of_deriv (convex_Ici 0) continuous_sinh.continuousOn
    rw [Real.deriv_sinh, interior_Ici]
    intro x hx y hy hxy
    exact cosh_lt_cosh.mpr (by rw [abs_of_pos hx, abs_of_pos hy]; exact hxy)
  have w1 : 0 < 1 - a / b := by rw [sub_pos, div_lt_one hb]; exact hab
  have w2 : 0 < a / b := by positivity
  have := hc.2 (Set.mem_Ici.mpr (le_refl (0 : ℝ))) (Set.mem_Ici.mpr hb.le) hb.ne w1 w2 (by ring)
  simp only [smul_eq_mul, mul_zero, zero_add, sinh_zero] at this
  rw [div_mul_cancel₀ _ hb.ne'] at this
  have hsa := sinh_pos_iff.mpr ha
  have hsb := sinh_pos_iff.mpr hb
  rw [div_lt_div_iff₀ hsb hsa]
  have h2 := mul_lt_mul_of_pos_left this hb
  have e : b * (a / b * sinh b) = a * sinh b := by field_simp
  linarith

theorem spectralFactor_sinh (vs w T : ℝ) (hw : 0 < w) (hT : 0 < T) :
    spectralFactor vs w T = (w / π) ^ 2 / (2 * vs) * ((w / T * hbarKB / 2 / sinh (w / T * hbarKB / 2)) ^ 2 * (1380649 / 10 ^ 8)) := by
  have hh := hbarKB_pos
  unfold spectralFactor
  simp only
  rw [bose_sinh (by positivity)]

theorem spectralFactor_lt (vs w T T' : ℝ) (hv : 0 < vs) (hw : 0 < w) (hT : 0 < T) (hTT : T < T') : spectralFactor vs w T < spectralFactor vs w T' := by
  have hh := hbarKB_pos
  have hpi := pi_pos
  have hT' : 0 < T' := hT.trans hTT
  rw [spectralFactor_sinh vs w T hw hT, spectralFactor_sinh vs w T' hw hT']
  have hr : w / T' * hbarKB / 2 < w / T * hbarKB / 2 := by gcongr
  have h1 := sinh_ratio_lt (by positivity : 0 < w / T' * hbarKB / 2) hr
  have h0 : 0 ≤ w / T * hbarKB / 2 / sinh (w / T * hbarKB / 2) := by
    have := sinh_pos_iff.mpr (by positivity : 0 < w / T * hbarKB / 2)
    positivity
  have h2 := pow_lt_pow_left₀ h1 h0 two_ne_zero
  apply mul_lt_mul_of_pos_left _ (by positivity)
  exact mul_lt_mul_of_pos_right h2 (by norm_num)

/-- the factor vanishes in the cold -/
theorem spectralFactor_cold (vs w : ℝ) (hw : 0 < w) : Tendsto (spectralFactor vs w) (nhdsWithin 0 (Set.Ioi 0)) (nhds 0) := by
  have hh := hbarKB_pos
  have hx : Tendsto (fun T : ℝ => w / T * hbarKB / 2) (nhdsWithin 0 (Set.Ioi 0)) atTop := by
    have := (tendsto_inv_nhdsGT_zero (𝕜 := ℝ)).const_mul_atTop (by positivity : 0 < w * hbarKB / 2)
    refine this.congr fun T => ?_
    ring
  have hr : Tendsto (fun x : ℝ => x / sinh x) atTop (nhds 0) := by
    have h1 : Tendsto (fun x : ℝ => 4 / x) atTop (nhds 0) := by
      have := (tendsto_inv_atTop_zero (𝕜 := ℝ)).const_mul 4
      rw [mul_zero] at this
      exact this.congr fun x => by rw [div_eq_mul_inv]
    refine squeeze_zero' ?_ ?_ h1
    · filter_upwards [eventually_gt_atTop 0] with x hx
      have := sinh_pos_iff.mpr hx
      positivity
    · filter_upwards [eventually_gt_atTop 0] with x hx
      have hs := sinh_pos_iff.mpr hx
      rw [div_le_div_iff₀ hs hx]
      have e := Real.quadratic_le_exp_of_nonneg hx.le
      have hn : exp (-x) ≤ 1 := by rw [exp_le_one_iff]; linarith
      rw [sinh_eq]
      nlinarith
  have h1 := (((hr.comp hx).pow 2).mul_const (1380649 / 10 ^ 8)).const_mul ((w / π) ^ 2 / (2 * vs))
  simp only [ne_eq, OfNat.ofNat_ne_zero, not_false_eq_true, zero_pow, zero_mul, mul_zero] at h1
  refine h1.congr' ?_
  filter_upwards [self_mem_nhdsWithin] with T hT
  rw [spectralFactor_sinh vs w T hw hT]
  rfl

theorem classicalFactor_nonneg (vs w : ℝ) (hv : 0 < vs) : 0 ≤ classicalFactor vs w := by
  unfold classicalFactor
  positivity

section

variable (d : Debye) (h : d.Good) (hp : d.Positive) (hc : d.Continuous) (hv : 0 < d.vs) (hwd : eps ≤ d.wd)
include h hp hc hv hwd

theorem window : Set.uIcc eps d.wd ⊆ Set.Ioi 0 := by
  rw [Set.uIcc_of_le hwd]
  intro w hw
  exact lt_of_lt_of_le eps_pos hw.1

theorem integrand_cont (T : ℝ) (hT : 0 < T) : ContinuousOn (fun w => spectralFactor d.vs w T / allRates d w T) (Set.Icc eps d.wd) := by
  have sub := window d h hp hc hv hwd
  rw [Set.uIcc_of_le hwd] at sub
  exact ContinuousOn.div ((spectralFactor_cont _ T hv hT).mono sub) ((allRates_cont d hc T hT).mono sub) fun w hw => (allRates_pos d h hp w T (sub hw) hT).ne'

theorem classical_cont (T : ℝ) (hT : 0 < T) : ContinuousOn (fun w => classicalFactor d.vs w / allRates d w T) (Set.Icc eps d.wd) := by
  have sub := window d h hp hc hv hwd
  rw [Set.uIcc_of_le hwd] at sub
  refine ContinuousOn.div ?_ ((allRates_cont d hc T hT).mono sub) fun w hw => (allRates_pos d h hp w T (sub hw) hT).ne'
  unfold classicalFactor
  fun_prop

/-- **C148** With rates that do not depend on the temperature the lattice conductivity rises strictly with the temperature, from 0 in the cold, and stays below the value it tends to,
in which every mode has its classical heat capacity. -/
theorem C148_frozen (hlt : eps < d.wd) (hf : ∀ p ∈ d.scat, Frozen p.2) :
    let limit := ∫ w in eps..d.wd, classicalFactor d.vs w / allRates d w 300
    (∀ T T', 0 < T → T < T' → lattice d T < lattice d T') ∧ (∀ T, 0 < T → lattice d T ≤ limit) ∧
    Tendsto (lattice d) atTop (nhds limit) ∧ Tendsto (lattice d) (nhdsWithin 0 (Set.Ioi 0)) (nhds 0) := by
  intro limit
  have h300 : (0 : ℝ) < 300 := by norm_num
  have hw0 : ∀ w ∈ Set.Icc eps d.wd, 0 < w := fun w hw => lt_of_lt_of_le eps_pos hw.1
  have hint : IntervalIntegrable (fun w => classicalFactor d.vs w / allRates d w 300) MeasureTheory.volume eps d.wd := by
    apply ContinuousOn.intervalIntegrable
    rw [Set.uIcc_of_le hwd]
    exact classical_cont d h hp hc hv hwd 300 h300
  have meas : ∀ T, 0 < T → MeasureTheory.AEStronglyMeasurable (fun w => spectralFactor d.vs w T / allRates d w T) (MeasureTheory.volume.restrict (Set.uIoc eps d.wd)) := by
    intro T hT
    refine ContinuousOn.aestronglyMeasurable ?_ measurableSet_uIoc
    rw [Set.uIoc_of_le hwd]
    exact (integrand_cont d h hp hc hv hwd T hT).mono Set.Ioc_subset_Icc_self
  have bound : ∀ T, 0 < T → ∀ w ∈ Set.uIoc eps d.wd, ‖spectralFactor d.vs w T / allRates d w T‖ ≤ classicalFactor d.vs w / allRates d w 300 := by
    intro T hT w hw
    rw [Set.uIoc_of_le hwd] at hw
    have w0 := hw0 w ⟨hw.1.le, hw.2⟩
    obtain ⟨b1, -, b3⟩ := C104_bounds d.vs w T T hv w0 hT le_rfl
    have r0 := allRates_pos d h hp w 300 w0 h300
    rw [allRates_frozen d hf w T 300 hT h300, Real.norm_of_nonneg (by positivity)]
    exact div_le_div_of_nonneg_right b3 r0.le
  refine ⟨fun T T' hT hTT => ?_, fun T hT => ?_, ?_, ?_⟩
  · have hT' := hT.trans hTT
    rw [lattice_eq, lattice_eq]
    refine intervalIntegral.integral_lt_integral_of_continuousOn_of_le_of_exists_lt hlt (integrand_cont d h hp hc hv hwd T hT) (integrand_cont d h hp hc hv hwd T' hT') ?_ ?_
    · intro w hw
      have w0 := hw0 w ⟨hw.1.le, hw.2⟩
      rw [allRates_frozen d hf w T T' hT hT']
      exact div_le_div_of_nonneg_right (C104_bounds d.vs w T T' hv w0 hT hTT.le).2.1 (allRates_pos d h hp w T' w0 hT').le
    · refine ⟨d.wd, ⟨hwd, le_rfl⟩, ?_⟩
      have w0 := hw0 d.wd ⟨hwd, le_rfl⟩
      rw [allRates_frozen d hf d.wd T T' hT hT']
      exact div_lt_div_of_pos_right (spectralFactor_lt d.vs d.wd T T' hv w0 hT hTT) (allRates_pos d h hp d.wd T' w0 hT')
  · rw [lattice_eq]
    refine intervalIntegral.integral_mono_on hwd ?_ hint fun w hw => ?_
    · apply ContinuousOn.intervalIntegrable
      rw [Set.uIcc_of_le hwd]
      exact integrand_cont d h hp hc hv hwd T hT
    · have w0 := hw0 w hw
      rw [allRates_frozen d hf w T 300 hT h300]
      exact div_le_div_of_nonneg_right (C104_bounds d.vs w T T hv w0 hT le_rfl).2.2 (allRates_pos d h hp w 300 w0 h300).le
  · simp only [funext (lattice_eq d)]
    refine intervalIntegral.tendsto_integral_filter_of_dominated_convergence _ ?_ ?_ hint ?_
    · filter_upwards [eventually_gt_atTop 0] with T hT using meas T hT
    · filter_upwards [eventually_gt_atTop 0] with T hT
      exact MeasureTheory.ae_of_all _ (bound T hT)
    · refine MeasureTheory.ae_of_all _ fun w hw => ?_
      rw [Set.uIoc_of_le hwd] at hw
      have w0 := hw0 w ⟨hw.1.le, hw.2⟩
      have := (C104_classical d.vs w hv w0).div_const (allRates d w 300)
      refine this.congr' ?_
      filter_upwards [eventually_gt_atTop 0] with T hT
      rw [allRates_frozen d hf w T 300 hT h300]
  · simp only [funext (lattice_eq d)]
    have e : Tendsto (fun T => ∫ w in eps..d.wd, spectralFactor d.vs w T / allRates d w T) (nhdsWithin 0 (Set.Ioi 0)) (nhds (∫ _ in eps..d.wd, (0 : ℝ))) := ?_
    · simpa using e
    refine intervalIntegral.tendsto_integral_filter_of_dominated_convergence _ ?_ ?_ hint ?_
    · filter_upwards [self_mem_nhdsWithin] with T hT using meas T hT
    · filter_upwards [self_mem_nhdsWithin] with T hT
      exact MeasureTheory.ae_of_all _ (bound T hT)
    · refine MeasureTheory.ae_of_all _ fun w hw => ?_
      rw [Set.uIoc_of_le hwd] at hw
      have w0 := hw0 w ⟨hw.1.le, hw.2⟩
      have := (spectralFactor_cold d.vs w w0).div_const (allRates d w 300)
      rw [zero_div] at this
      refine this.congr' ?_
      filter_upwards [self_mem_nhdsWithin] with T hT
      rw [allRates_frozen d hf w T 300 hT h300]

/-- **C148** If no rate grows faster than in proportion to the temperature, the product of temperature and lattice conductivity rises strictly: the conductivity never falls faster than
`1/T`. -/
theorem C148_product (hlt : eps < d.wd) (hf : ∀ p ∈ d.scat, AtMostLinear p.2) (T T' : ℝ) (hT : 0 < T) (hTT : T < T') : T * lattice d T < T' * lattice d T' := by
  have hT' := hT.trans hTT
  have hw0 : ∀ w ∈ Set.Icc eps d.wd, 0 < w := fun w hw => lt_of_lt_of_le eps_pos hw.1
  rw [lattice_eq, lattice_eq, ← intervalIntegral.integral_const_mul, ← intervalIntegral.integral_const_mul]
  have e : ∀ w T : ℝ, 0 < T → T * (spectralFactor d.vs w T / allRates d w T) = spectralFactor d.vs w T / (allRates d w T / T) := by
    intro w T hT
    rw [div_div_eq_mul_div]
    ring
  refine intervalIntegral.integral_lt_integral_of_continuousOn_of_le_of_exists_lt hlt (continuousOn_const.mul (integrand_cont d h hp hc hv hwd T hT))
    (continuousOn_const.mul (integrand_cont d h hp hc hv hwd T' hT')) ?_ ?_
  · intro w hw
    have w0 := hw0 w ⟨hw.1.le, hw.2⟩
    rw [e w T hT, e w T' hT']
    exact div_le_div₀ (spectralFactor_pos _ _ _ hv w0 hT').le (C104_bounds d.vs w T T' hv w0 hT hTT.le).2.1 (div_pos (allRates_pos d h hp w T' w0 hT') hT')
      (allRates_linear d hf w T T' w0 hT hTT.le)
  · refine ⟨d.wd, ⟨hwd, le_rfl⟩, ?_⟩
    have w0 := hw0 d.wd ⟨hwd, le_rfl⟩
    rw [e d.wd T hT, e d.wd T' hT']
    exact div_lt_div₀ (spectralFactor_lt d.vs d.wd T T' hv w0 hT hTT) (allRates_linear d hf d.wd T T' w0 hT hTT.le) (spectralFactor_pos _ _ _ hv w0 hT').le
      (div_pos (allRates_pos d h hp d.wd T' w0 hT') hT')

/-- **C148** With phonon-phonon scattering and otherwise only rates that do not depend on the temperature, the conductivity falls like `1/T` in the heat: its product with the
temperature tends to a value that depends on the phonon-phonon coefficient, the cut-off and the sound velocity alone. Without the exponential term (`Theta = 0`) the product stays
below that value. -/
theorem C148_limit (m : Ph) (hm : 0 < m.coef) (hth : 0 ≤ m.theta) (tag : Tag) (l r : List (Tag × Rate)) (hs : d.scat = l ++ (tag, m.rate) :: r) (hf : ∀ p ∈ l ++ r, Frozen p.2) :
    let limit := 1380649 / 10 ^ 8 * (d.wd - eps) / (2 * π ^ 2 * d.vs * (10 ^ 12 * m.coef))
    Tendsto (fun T => T * lattice d T) atTop (nhds limit) ∧ (m.theta = 0 → ∀ T, 0 < T → T * lattice d T ≤ limit) ∧ Tendsto (lattice d) atTop (nhds 0) := by
  intro limit
  have hpi := pi_pos
  have h300 : (0 : ℝ) < 300 := by norm_num
  have hw0 : ∀ w ∈ Set.Icc eps d.wd, 0 < w := fun w hw => lt_of_lt_of_le eps_pos hw.1
  obtain ⟨c, hcc⟩ : ∃ c, c = 1380649 / 10 ^ 8 / (2 * π ^ 2 * d.vs * (10 ^ 12 * m.coef)) := ⟨_, rfl⟩
  have c0 : 0 < c := by rw [hcc]; positivity
  have hlim : limit = ∫ _ in eps..d.wd, c := by
    rw [intervalIntegral.integral_const, smul_eq_mul, hcc]
    simp only [limit]
    ring
  obtain ⟨F, hF⟩ : ∃ F : ℝ → ℝ, F = fun w => ((l ++ r).map fun p => p.2 w 300).sum := ⟨_, rfl⟩
  have hsplit : ∀ w T, 0 < T → allRates d w T = m.rate w T + F w := by
    intro w T hT
    have e : ((l ++ r).map fun p => p.2 w T) = (l ++ r).map fun p => p.2 w 300 := List.map_congr_left fun p hp => hf p hp w T 300 hT h300
    rw [hF]
    simp only
    rw [← e]
    unfold allRates
    rw [hs]
    simp only [List.map_append, List.map_cons, List.sum_append, List.sum_cons]
    ring
  have hF0 : ∀ w, 0 < w → 0 ≤ F w := by
    intro w hw
    rw [hF]
    refine List.sum_nonneg fun x hx => ?_
    obtain ⟨p, hp', rfl⟩ := List.mem_map.1 hx
    refine (hp p ?_ w 300 hw h300).le
    rw [hs]
    rcases List.mem_append.1 hp' with h1 | h1
    · exact List.mem_append_left _ h1
    · exact List.mem_append_right _ (List.mem_cons_of_mem _ h1)
  have hcl : ∀ w, 0 < w → classicalFactor d.vs w / (10 ^ 12 * m.coef * w ^ 2) = c := by
    intro w hw
    rw [hcc]
    unfold classicalFactor
    field_simp
  have key : ∀ T, T * lattice d T = ∫ w in eps..d.wd, T * (spectralFactor d.vs w T / allRates d w T) := by
    intro T
    rw [lattice_eq, intervalIntegral.integral_const_mul]
  have hle : ∀ w T, 0 < w → 0 < T → T * (spectralFactor d.vs w T / allRates d w T) ≤ c * exp (m.theta / (3 * T)) := by
    intro w T hw hT
    have hr : m.rate w T ≤ allRates d w T := by rw [hsplit w T hT]; linarith [hF0 w hw]
    have hr0 : 0 < m.rate w T := by unfold Ph.rate; positivity
    have b := (C104_bounds d.vs w T T hv hw hT le_rfl).2.2
    calc T * (spectralFactor d.vs w T / allRates d w T) ≤ T * (classicalFactor d.vs w / m.rate w T) :=
          mul_le_mul_of_nonneg_left (div_le_div₀ (classicalFactor_nonneg _ _ hv) b hr0 hr) hT.le
      _ = c * exp (m.theta / (3 * T)) := by
          rw [← hcl w hw]
          unfold Ph.rate
          rw [neg_div, exp_neg]
          field_simp
  have hlimT : Tendsto (fun T => T * lattice d T) atTop (nhds limit) := by
    simp only [key]
    rw [hlim]
    refine intervalIntegral.tendsto_integral_filter_of_dominated_convergence (fun _ => c * exp (m.theta / 3)) ?_ ?_ intervalIntegrable_const ?_
    · filter_upwards [eventually_gt_atTop 0] with T hT
      refine ContinuousOn.aestronglyMeasurable ?_ measurableSet_uIoc
      rw [Set.uIoc_of_le hwd]
      exact continuousOn_const.mul ((integrand_cont d h hp hc hv hwd T hT).mono Set.Ioc_subset_Icc_self)
    · filter_upwards [eventually_ge_atTop 1] with T hT
      have hT0 : 0 < T := by linarith
      refine MeasureTheory.ae_of_all _ fun w hw => ?_
      rw [Set.uIoc_of_le hwd] at hw
      have w0 := hw0 w ⟨hw.1.le, hw.2⟩
      have p1 := spectralFactor_pos d.vs w T hv w0 hT0
      have p2 := allRates_pos d h hp w T w0 hT0
      rw [Real.norm_of_nonneg (by positivity)]
      refine (hle w T w0 hT0).trans (mul_le_mul_of_nonneg_left (exp_le_exp.2 ?_) c0.le)
      exact div_le_div_of_nonneg_left hth (by norm_num) (by linarith)
    · refine MeasureTheory.ae_of_all _ fun w hw => ?_
      rw [Set.uIoc_of_le hwd] at hw
      have w0 := hw0 w ⟨hw.1.le, hw.2⟩
      have l1 : Tendsto (fun T : ℝ => exp (-m.theta / (3 * T))) atTop (nhds 1) := by
        have : Tendsto (fun T : ℝ => -m.theta / (3 * T)) atTop (nhds 0) := by
          have := (tendsto_inv_atTop_zero (𝕜 := ℝ)).const_mul (-m.theta / 3)
          rw [mul_zero] at this
          refine this.congr fun T => ?_
          rw [← div_eq_mul_inv, div_div]
        have := (continuous_exp.tendsto 0).comp this
        rw [exp_zero] at this
        exact this
      have l2 : Tendsto (fun T : ℝ => F w * T⁻¹) atTop (nhds 0) := by
        have := (tendsto_inv_atTop_zero (𝕜 := ℝ)).const_mul (F w)
        rwa [mul_zero] at this
      have l3 := ((l1.const_mul (10 ^ 12 * m.coef * w ^ 2)).add l2)
      rw [mul_one, add_zero] at l3
      have l4 := (C104_classical d.vs w hv w0).div l3 (by positivity)
      have e : 1380649 / 10 ^ 8 * w ^ 2 / (2 * π ^ 2 * d.vs) / (10 ^ 12 * m.coef * w ^ 2) = c := hcl w w0
      rw [e] at l4
      refine l4.congr' ?_
      filter_upwards [eventually_gt_atTop 0] with T hT
      simp only [Pi.div_apply]
      rw [hsplit w T hT]
      unfold Ph.rate
      have e2 : 10 ^ 12 * m.coef * w ^ 2 * T * exp (-m.theta / (3 * T)) + F w = T * (10 ^ 12 * m.coef * w ^ 2 * exp (-m.theta / (3 * T)) + F w * T⁻¹) := by
        field_simp
      rw [e2, ← mul_div_assoc, mul_div_mul_left _ _ hT.ne']
  refine ⟨hlimT, fun h0 T hT => ?_, ?_⟩
  · rw [key, hlim]
    refine intervalIntegral.integral_mono_on hwd ?_ intervalIntegrable_const fun w hw => ?_
    · apply ContinuousOn.intervalIntegrable
      rw [Set.uIcc_of_le hwd]
      exact continuousOn_const.mul (integrand_cont d h hp hc hv hwd T hT)
    · have := hle w T (hw0 w hw) hT
      rwa [h0, zero_div, exp_zero, mul_one] at this
  · have := hlimT.mul (tendsto_inv_atTop_zero (𝕜 := ℝ))
    rw [mul_zero] at this
    refine this.congr' ?_
    filter_upwards [eventually_gt_atTop 0] with T hT
    field_simp

end

/-! ## Which rates are of these kinds -/

/-- **C148** The rates of grain boundaries, point defects, nanoparticles, dislocations, stacking faults and the Cahill limit do not depend on the temperature; they and phonon-phonon
scattering without exponential term grow at most in proportion to it. -/
theorem C148_kinds :
    (∀ m : Gb, Frozen m.rate) ∧ (∀ m : Pd, Frozen m.rate) ∧ (∀ m : Np, Frozen m.rate) ∧ (∀ m : Dl, Frozen m.rate) ∧ (∀ m : Sf, Frozen m.rate) ∧ (∀ a, Frozen (cahillRate a)) ∧
    (∀ r, Frozen r → (∀ w T, 0 < w → 0 < T → 0 ≤ r w T) → AtMostLinear r) ∧ ∀ m : Ph, m.theta = 0 → AtMostLinear m.rate := by
  refine ⟨fun m w T T' _ _ => rfl, fun m w T T' _ _ => rfl, fun m w T T' _ _ => rfl, fun m w T T' _ _ => rfl, fun m w T T' _ _ => rfl, fun m w T T' _ _ => rfl, ?_, ?_⟩
  · intro r hr h0 w T T' hw hT hTT
    have hT' := lt_of_lt_of_le hT hTT
    rw [hr w T' T hT' hT]
    exact div_le_div_of_nonneg_left (h0 w T hw hT) hT hTT
  · intro m hm w T T' hw hT hTT
    have hT' := lt_of_lt_of_le hT hTT
    unfold Ph.rate
    rw [hm, neg_zero, zero_div, zero_div, exp_zero, mul_one, mul_one, mul_div_cancel_right₀ _ hT'.ne', mul_div_cancel_right₀ _ hT.ne']

/-! ## Non-vacuity -/

/-- a Debye model with grain boundaries, phonon-phonon scattering and point defects -/
noncomputable def heated : Debye :=
  ⟨3, 200, [(['G', 'B'], (⟨3, 1, 1⟩ : Gb).rate), (['P', 'H'], (Ph.direct (1 / 10 ^ 18) 0).rate), (['P', 'D'], (Pd.direct (1 / 10 ^ 41)).rate)], []⟩

theorem heated_ok : heated.Good ∧ heated.Positive ∧ heated.Continuous ∧ 0 < heated.vs ∧ eps < heated.wd ∧ ∀ p ∈ heated.scat, AtMostLinear p.2 := by
  have hpos : heated.Positive := by
    intro p hp w T hw hT
    simp only [heated, List.mem_cons, List.not_mem_nil, or_false] at hp
    rcases hp with rfl | rfl | rfl
    · simp [Gb.rate]
    · simp only [Ph.rate, Ph.coef, Ph.theta]
      positivity
    · simp only [Pd.rate, Pd.coef]
      positivity
  refine ⟨⟨by decide, by decide, by simp [heated]⟩, hpos, ?_, by simp [heated], ?_, ?_⟩
  · intro p hp T hT
    simp only [heated, List.mem_cons, List.not_mem_nil, or_false] at hp
    rcases hp with rfl | rfl | rfl
    · exact continuousOn_const
    · simp only [Ph.rate]
      fun_prop
    · simp only [Pd.rate]
      fun_prop
  · simp only [heated, Debye.wd, eps, hbarKB]
    norm_num
  · obtain ⟨k1, k2, -, -, -, -, k7, k8⟩ := C148_kinds
    intro p hp
    have h0 := fun w T hw hT => (hpos p hp w T hw hT).le
    simp only [heated, List.mem_cons, List.not_mem_nil, or_false] at hp
    rcases hp with rfl | rfl | rfl
    · exact k7 _ (k1 _) h0
    · exact k8 _ rfl
    · exact k7 _ (k2 _) h0

example : 300 * lattice heated 300 < 600 * lattice heated 600 := by
  obtain ⟨a, b, c, e, f, g⟩ := heated_ok
  exact C148_product heated a b c e f.le f g 300 600 (by norm_num) (by norm_num)

/-- the hypotheses of `C148_limit` -/
example : ∃ (m : Ph) (tag : Tag) (l r : List (Tag × Rate)), 0 < m.coef ∧ 0 ≤ m.theta ∧ heated.scat = l ++ (tag, m.rate) :: r ∧ ∀ p ∈ l ++ r, Frozen p.2 := by
  refine ⟨.direct (1 / 10 ^ 18) 0, ['P', 'H'], [(['G', 'B'], (⟨3, 1, 1⟩ : Gb).rate)], [(['P', 'D'], (Pd.direct (1 / 10 ^ 41)).rate)], by simp [Ph.coef], by simp [Ph.theta], rfl, ?_⟩
  intro p hp
  simp only [List.cons_append, List.nil_append, List.mem_cons, List.not_mem_nil, or_false] at hp
  rcases hp with rfl | rfl
  · exact C148_kinds.1 _
  · exact C148_kinds.2.1 _

/-- the hypotheses of `C148_frozen` are met by the model of `C85` -/
example : eps < demo.wd ∧ ∀ p ∈ demo.scat, Frozen p.2 := by
  refine ⟨by simp only [demo, Debye.wd, eps, hbarKB]; norm_num, fun p hp => ?_⟩
  simp only [demo, List.mem_cons, List.not_mem_nil, or_false] at hp
  rcases hp with rfl | rfl
  · exact C148_kinds.1 _
  · exact C148_kinds.2.2.2.2.2.1 _

end TEflow.Kappa
