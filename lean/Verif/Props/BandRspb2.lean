import Mathlib.Tactic
import Mathlib.Analysis.SpecialFunctions.Pow.Real
import Mathlib.Analysis.SpecialFunctions.Pow.Deriv
import Mathlib.Analysis.SpecialFunctions.Log.Deriv
import Mathlib.Analysis.Complex.ExponentialBounds
import Mathlib.Analysis.Calculus.Deriv.MeanValue
import Verif.Model.BandFuncs
import Verif.Spec.Kappa

/-! # C74, C76-C78 continued: sign of the Fermi velocity, Kane Lorenz number, optimum of the power factor, constants -/

open Real Filter Topology

namespace TEflow.Bandlib

/-- **C74** Only the absolute value of the Fermi velocity of a linear band matters. -/
theorem C74_lin_sign (v s E : ℝ) : Lin.make (-v) s = Lin.make v s ∧ (0 ≤ E → 0 ≤ (Lin.make v s).dos E ∧ 0 ≤ (Lin.make v s).idos E) := by
  constructor
  · unfold Lin.make
    rw [abs_neg]
  · intro hE
    have h1 : (0 : ℝ) ≤ qe := by unfold qe; norm_num
    have h2 : (0 : ℝ) ≤ hbar := by unfold hbar; norm_num
    unfold Lin.make Lin.dos Lin.idos
    constructor <;> positivity

/-! ## The Kane form of `LxS` -/

/-- **C76** With a gap parameter `dt` the Lorenz number starts at the degenerate limit `π²/3` for a vanishing Seebeck
coefficient and tends to `1 + (2dt/(2dt+3))²` for a large one: 1 for a vanishing gap and 2, the parabolic value, for a large one. -/
theorem C76_LxS_kane (Sf Lf dt delta : ℝ) (hS : 0 < Sf) (hdt : 0 ≤ dt) :
    Rspb.LxS 0 Sf Lf (some dt) delta = π ^ 2 / 3 * Lf ∧
    Tendsto (fun s => Rspb.LxS s Sf Lf (some dt) delta) atTop (𝓝 ((1 + (2 * dt / (2 * dt + 3)) ^ 2) * Lf)) ∧
    1 ≤ 1 + (2 * dt / (2 * dt + 3)) ^ 2 ∧ 1 + (2 * dt / (2 * dt + 3)) ^ 2 < 2 := by
  refine ⟨?_, ?_, ?_, ?_⟩
  · simp only [Rspb.LxS, zero_div]
    ring
  · simp only [Rspb.LxS]
    set ksi := 1 / (2 / 3 * dt + 1) with hk
    set p := -33 / 100 + 69 / 10 * ksi - 778 / 100 * ksi ^ 2 + 275 / 100 * ksi ^ 3
    set q := -14 / 100 + 408 / 100 * ksi - 213 / 100 * ksi ^ 2
    have el : 2 - 2 * ksi + ksi ^ 2 = 1 + (2 * dt / (2 * dt + 3)) ^ 2 := by
      have h3 : 2 * dt + 3 ≠ 0 := by positivity
      have : ksi = 3 / (2 * dt + 3) := by rw [hk]; field_simp
      rw [this]
      field_simp
      ring
    rw [← el]
    apply Tendsto.mul_const
    have hs : Tendsto (fun s : ℝ => s / Sf) atTop atTop := tendsto_id.atTop_div_const hS
    have hi : Tendsto (fun s : ℝ => (s / Sf)⁻¹) atTop (𝓝 0) := tendsto_inv_atTop_zero.comp hs
    have hlim : Tendsto (fun s : ℝ => (π * π / 3 * (s / Sf)⁻¹ ^ 2 + p * (s / Sf)⁻¹ + (2 - 2 * ksi + ksi ^ 2)) /
        ((s / Sf)⁻¹ ^ 2 + q * (s / Sf)⁻¹ + 1)) atTop
        (𝓝 ((π * π / 3 * 0 ^ 2 + p * 0 + (2 - 2 * ksi + ksi ^ 2)) / (0 ^ 2 + q * 0 + 1))) := by
      apply Tendsto.div
      · exact (((hi.pow 2).const_mul _).add (hi.const_mul _)).add_const _
      · exact ((hi.pow 2).add (hi.const_mul _)).add_const _
      · norm_num
    have e0 : (π * π / 3 * 0 ^ 2 + p * 0 + (2 - 2 * ksi + ksi ^ 2)) / (0 ^ 2 + q * 0 + 1) = 2 - 2 * ksi + ksi ^ 2 := by ring
    rw [e0] at hlim
    refine hlim.congr' ?_
    filter_upwards [eventually_gt_atTop 0] with s hs
    have hx : s / Sf ≠ 0 := by positivity
    set x := s / Sf
    rw [← mul_div_mul_right _ _ (pow_ne_zero 2 hx)]
    congr 1
    · field_simp
    · field_simp
  · nlinarith [sq_nonneg (2 * dt / (2 * dt + 3))]
  · have h0 : 0 ≤ 2 * dt / (2 * dt + 3) := by positivity
    have h1 : 2 * dt / (2 * dt + 3) < 1 := by rw [div_lt_one (by positivity)]; linarith
    nlinarith

/-! ## The power factor -/

/-- the reduced power factor with the default `delta = 0.075` -/
noncomputable abbrev pf (x : ℝ) : ℝ := Rspb.PFr x 1 1 (75 / 1000)

/-- `ln(1.075 + e²/x)` -/
noncomputable def lg (x : ℝ) : ℝ := log (1 + 75 / 1000 + exp 2 / x)

theorem exp_two_bounds : (7389056 : ℝ) / 10 ^ 6 < exp 2 ∧ exp 2 < 7389057 / 10 ^ 6 := by
  have e : exp 2 = exp 1 ^ 2 := by rw [← exp_nat_mul]; norm_num
  have h1 := exp_one_gt_d9
  have h2 := exp_one_lt_d9
  rw [e]
  constructor
  · have : (2.7182818283 : ℝ) ^ 2 < exp 1 ^ 2 := by gcongr
    refine lt_trans ?_ this
    norm_num
  · have : exp 1 ^ 2 < (2.7182818286 : ℝ) ^ 2 := by gcongr
    refine lt_trans this ?_
    norm_num

theorem pf_eq (x : ℝ) : pf x = x * (1 + x / 2) ^ (-1 / 3 : ℝ) * lg x ^ 2 := by
  unfold pf Rspb.PFr Rspb.Cr Rspb.Ur Rspb.Sr lg
  ring

/-- the right-hand side of the condition for a maximum -/
noncomputable def rh (x : ℝ) : ℝ := 2 * exp 2 * (1 + x / 2) / ((1 + x / 3) * (1075 / 1000 * x + exp 2))

theorem hasDerivAt_lg {x : ℝ} (hx : 0 < x) : HasDerivAt lg (-(exp 2 / (x * (1075 / 1000 * x + exp 2)))) x := by
  have hE := exp_pos (2 : ℝ)
  have h1 : HasDerivAt (fun x : ℝ => 1 + 75 / 1000 + exp 2 / x) (exp 2 * (-(x ^ 2)⁻¹)) x := by
    have := ((hasDerivAt_inv hx.ne').const_mul (exp 2)).const_add (1 + 75 / 1000)
    simpa only [div_eq_mul_inv] using this
  have hp : (1 + 75 / 1000 + exp 2 / x) ≠ 0 := by positivity
  have := h1.log hp
  refine this.congr_deriv ?_
  have : 1075 / 1000 * x + exp 2 ≠ 0 := by positivity
  field_simp
  ring

theorem hasDerivAt_rh {x : ℝ} (hx : 0 < x) : HasDerivAt rh
    (2 * exp 2 * ((exp 2 / 6 - 1075 / 1000) - 2 * (1075 / 1000) / 3 * x - 1075 / 1000 / 6 * x ^ 2) /
      ((1 + x / 3) * (1075 / 1000 * x + exp 2)) ^ 2) x := by
  have hE := exp_pos (2 : ℝ)
  have hn : HasDerivAt (fun x : ℝ => 2 * exp 2 * (1 + x / 2)) (2 * exp 2 * (1 / 2)) x :=
    ((((hasDerivAt_id x).div_const 2).const_add 1).const_mul _).congr_deriv (by ring)
  have hd1 : HasDerivAt (fun x : ℝ => 1 + x / 3) (1 / 3) x :=
    (((hasDerivAt_id x).div_const 3).const_add 1).congr_deriv (by ring)
  have hd2 : HasDerivAt (fun x : ℝ => 1075 / 1000 * x + exp 2) (1075 / 1000) x :=
    (((hasDerivAt_id x).const_mul (1075 / 1000)).add_const _).congr_deriv (by ring)
  have := hn.div (hd1.mul hd2) (by simp only [Pi.mul_apply]; positivity)
  refine HasDerivAt.congr_deriv (f := rh) this ?_
  simp only [Pi.mul_apply]
  congr 1
  ring

/-- the difference whose sign is that of the slope of the power factor falls on `(0, 5]` -/
theorem psi_anti : StrictAntiOn (fun x => lg x - rh x) (Set.Ioc 0 5) := by
  have hE := exp_two_bounds
  apply strictAntiOn_of_deriv_neg (convex_Ioc 0 5)
  · intro x hx
    exact ((hasDerivAt_lg hx.1).sub (hasDerivAt_rh hx.1)).continuousAt.continuousWithinAt
  · intro x hx
    rw [interior_Ioc] at hx
    obtain ⟨h0, h5⟩ := hx
    have hd : deriv (fun x => lg x - rh x) x = _ := ((hasDerivAt_lg h0).sub (hasDerivAt_rh h0)).deriv
    rw [hd]
    have hE0 := exp_pos (2 : ℝ)
    set E := exp 2
    have hA : 0 < 1075 / 1000 * x + E := by positivity
    have hB : 0 < 1 + x / 3 := by positivity
    have key : -(E / (x * (1075 / 1000 * x + E))) -
        2 * E * ((E / 6 - 1075 / 1000) - 2 * (1075 / 1000) / 3 * x - 1075 / 1000 / 6 * x ^ 2) /
          ((1 + x / 3) * (1075 / 1000 * x + E)) ^ 2 =
        -(E * (E + (E - 1075 / 1000) * x + (E / 9 - 2 * (1075 / 1000) / 3) * x ^ 2 - 2 * (1075 / 1000) / 9 * x ^ 3)) /
          (x * ((1 + x / 3) * (1075 / 1000 * x + E)) ^ 2) := by
      field_simp
      ring
    rw [key]
    apply div_neg_of_neg_of_pos _ (by positivity)
    rw [neg_lt_zero]
    apply mul_pos hE0
    have h3 : x ^ 3 ≤ 25 * x := by nlinarith [mul_nonneg h0.le (sub_nonneg.mpr h5.le), sq_nonneg x]
    have h2 : 0 ≤ (E / 9 - 2 * (1075 / 1000) / 3) * x ^ 2 := mul_nonneg (by linarith [hE.1]) (sq_nonneg x)
    nlinarith [hE.1]

theorem lg_pos {x : ℝ} (h0 : 0 < x) : 0 < lg x := by
  apply log_pos
  have : 0 < exp 2 / x := div_pos (exp_pos _) h0
  linarith

/-- the logarithm of the power factor -/
theorem hasDerivAt_logpf {x : ℝ} (hx : 0 < x) : HasDerivAt (fun x => log x - 1 / 3 * log (1 + x / 2) + 2 * log (lg x))
    ((lg x - rh x) * ((1 + x / 3) / (x * (1 + x / 2) * lg x))) x := by
  have hE := exp_pos (2 : ℝ)
  have hL := lg_pos hx
  have h1 : HasDerivAt (fun x : ℝ => 1 + x / 2) (1 / 2) x :=
    (((hasDerivAt_id x).div_const 2).const_add 1).congr_deriv (by ring)
  have h2 := h1.log (by positivity)
  have h3 := (hasDerivAt_lg hx).log hL.ne'
  have h4 := (((hasDerivAt_log hx.ne').sub (h2.const_mul (1 / 3))).add (h3.const_mul 2))
  refine HasDerivAt.congr_deriv h4 ?_
  unfold rh
  set E := exp 2
  have : 1075 / 1000 * x + E ≠ 0 := by positivity
  have : 1 + x / 2 ≠ 0 := by positivity
  have : 1 + x / 3 ≠ 0 := by positivity
  field_simp
  ring

theorem pf_exp {x : ℝ} (hx : 0 < x) : pf x = exp (log x - 1 / 3 * log (1 + x / 2) + 2 * log (lg x)) := by
  have hL := lg_pos hx
  have h1 : 0 < 1 + x / 2 := by positivity
  rw [pf_eq, exp_add, exp_sub, exp_log hx, rpow_def_of_pos h1, two_mul, exp_add, exp_log hL, div_eq_mul_inv x (exp _), ← exp_neg]
  have : log (1 + x / 2) * (-1 / 3) = -(1 / 3 * log (1 + x / 2)) := by ring
  rw [this, sq]

theorem psi_left : 0 < lg (125 / 100) - rh (125 / 100) := by
  obtain ⟨h1, h2⟩ := exp_two_bounds
  have hE0 := exp_pos (2 : ℝ)
  have a : 19425 / 10000 < lg (125 / 100) := by
    unfold lg
    rw [lt_log_iff_exp_lt (by positivity)]
    have e : exp (19425 / 10000 : ℝ) = exp 2 / exp (575 / 20000) ^ 2 := by
      rw [← exp_nat_mul, ← exp_sub]
      norm_num
    have hb : 1 + 575 / 20000 ≤ exp (575 / 20000 : ℝ) := by
      have := add_one_le_exp (575 / 20000 : ℝ)
      linarith
    rw [e, div_lt_iff₀ (by positivity)]
    have h3 : (1 + 575 / 20000 : ℝ) ^ 2 ≤ exp (575 / 20000) ^ 2 := by gcongr
    nlinarith
  have b : rh (125 / 100) ≤ 19425 / 10000 := by
    unfold rh
    rw [div_le_iff₀ (by positivity)]
    nlinarith
  linarith

theorem psi_right : lg (126 / 100) - rh (126 / 100) < 0 := by
  obtain ⟨h1, h2⟩ := exp_two_bounds
  have hE0 := exp_pos (2 : ℝ)
  have a : lg (126 / 100) < 19385 / 10000 := by
    unfold lg
    rw [log_lt_iff_lt_exp (by positivity)]
    have e : exp (19385 / 10000 : ℝ) = exp 2 * exp (-(615 / 20000)) ^ 2 := by
      rw [← exp_nat_mul, ← exp_add]
      norm_num
    have hb : 1 - 615 / 20000 ≤ exp (-(615 / 20000) : ℝ) := by
      have := add_one_le_exp (-(615 / 20000) : ℝ)
      linarith
    rw [e]
    have h3 : (1 - 615 / 20000 : ℝ) ^ 2 ≤ exp (-(615 / 20000)) ^ 2 := by gcongr
    nlinarith
  have b : 19385 / 10000 ≤ rh (126 / 100) := by
    unfold rh
    rw [le_div_iff₀ (by positivity)]
    nlinarith
  linarith

/-- **C77** The optimal reduced concentration 1.255 behind `Nopt` is right to ±0.005 for concentrations up to 5: the power factor
rises up to 1.25 and falls from 1.26 on. -/
theorem C77_optimum : StrictMonoOn pf (Set.Ioc 0 (125 / 100)) ∧ StrictAntiOn pf (Set.Icc (126 / 100) 5) ∧
    125 / 100 < Rspb.NrOpt ∧ Rspb.NrOpt < 126 / 100 := by
  refine ⟨?_, ?_, by unfold Rspb.NrOpt; norm_num, by unfold Rspb.NrOpt; norm_num⟩
  · have hm : StrictMonoOn (fun x => log x - 1 / 3 * log (1 + x / 2) + 2 * log (lg x)) (Set.Ioc 0 (125 / 100)) := by
      apply strictMonoOn_of_deriv_pos (convex_Ioc _ _)
      · intro x hx
        exact (hasDerivAt_logpf hx.1).continuousAt.continuousWithinAt
      · intro x hx
        rw [interior_Ioc] at hx
        rw [(hasDerivAt_logpf hx.1).deriv]
        have hL := lg_pos hx.1
        have h0 := hx.1
        have hp := psi_anti ⟨hx.1, by linarith [hx.2]⟩ ⟨by norm_num, by norm_num⟩ hx.2
        have := psi_left
        apply mul_pos
        · simp only at hp; linarith
        · positivity
    intro x hx y hy hxy
    rw [pf_exp hx.1, pf_exp hy.1]
    exact exp_lt_exp.mpr (hm hx hy hxy)
  · have hm : StrictAntiOn (fun x => log x - 1 / 3 * log (1 + x / 2) + 2 * log (lg x)) (Set.Icc (126 / 100) 5) := by
      apply strictAntiOn_of_deriv_neg (convex_Icc _ _)
      · intro x hx
        have h0 : 0 < x := lt_of_lt_of_le (by norm_num) hx.1
        exact (hasDerivAt_logpf h0).continuousAt.continuousWithinAt
      · intro x hx
        rw [interior_Icc] at hx
        have h0 : 0 < x := lt_trans (by norm_num) hx.1
        rw [(hasDerivAt_logpf h0).deriv]
        have hL := lg_pos h0
        have hp := psi_anti ⟨by norm_num, by norm_num⟩ ⟨h0, hx.2.le⟩ hx.1
        have := psi_right
        apply mul_neg_of_neg_of_pos
        · simp only at hp; linarith
        · positivity
    intro x hx y hy hxy
    rw [pf_exp (lt_of_lt_of_le (by norm_num) hx.1), pf_exp (lt_of_lt_of_le (by norm_num) hy.1)]
    exact exp_lt_exp.mpr (hm hx hy hxy)

theorem pf_middle {x : ℝ} (h1 : 125 / 100 ≤ x) (h2 : x ≤ 126 / 100) : pf x ≤ 4057 / 1000 := by
  obtain ⟨e1, e2⟩ := exp_two_bounds
  have h0 : 0 < x := lt_of_lt_of_le (by norm_num) h1
  have hE0 := exp_pos (2 : ℝ)
  have hL := lg_pos h0
  have a : lg x ≤ 1945 / 1000 := by
    unfold lg
    rw [log_le_iff_le_exp (by positivity)]
    have e : exp (1945 / 1000 : ℝ) = exp 2 * exp (-(55 / 2000)) ^ 2 := by
      rw [← exp_nat_mul, ← exp_add]
      norm_num
    have hb : 1 - 55 / 2000 ≤ exp (-(55 / 2000) : ℝ) := by
      have := add_one_le_exp (-(55 / 2000) : ℝ)
      linarith
    have h3 : (1 - 55 / 2000 : ℝ) ^ 2 ≤ exp (-(55 / 2000)) ^ 2 := by gcongr
    have h4 : exp 2 / x ≤ exp 2 / (125 / 100) := by gcongr
    rw [e]
    nlinarith
  have b : (1 + x / 2) ^ (-1 / 3 : ℝ) ≤ 851 / 1000 := by
    have hpos : (0 : ℝ) < 1 + x / 2 := by positivity
    have hle : ((1000 / 851 : ℝ) ^ (3 : ℕ)) ≤ 1 + x / 2 := by norm_num; linarith
    have e : (851 / 1000 : ℝ) = ((1000 / 851 : ℝ) ^ (3 : ℕ)) ^ (-1 / 3 : ℝ) := by
      rw [← rpow_natCast, ← rpow_mul (by norm_num)]
      norm_num
    rw [e]
    exact rpow_le_rpow_of_nonpos (by norm_num) hle (by norm_num)
  have hb0 : 0 ≤ (1 + x / 2) ^ (-1 / 3 : ℝ) := by positivity
  rw [pf_eq]
  calc x * (1 + x / 2) ^ (-1 / 3 : ℝ) * lg x ^ 2 ≤ 126 / 100 * (851 / 1000) * (1945 / 1000) ^ 2 := by gcongr
    _ ≤ 4057 / 1000 := by norm_num

/-- `RSPB.PF0`, bandlib.py:1299, and `RSPB._PFr_max`, bandlib.py:1301 -/
noncomputable def PF0 : ℝ := 29855763500282857 / 10 ^ 18
noncomputable def PFrMax : ℝ := 4017850558247082 / 10 ^ 15

/-- **C77** `PFmax` is 1 % close to an upper bound of the power factor of the material at any reduced concentration up to 5; -/
theorem C77_PFmax (S c T N delta UWT x : ℝ) (K : Option ℝ) (hU : 0 < UWT) (h0 : 0 < x) (h5 : x ≤ 5) (v : ℝ)
    (hv : ("PFmax", v) ∈ Rspb.valuate S (some c) (some T) (some N) K delta)
    (hu : ("UWT", UWT) ∈ Rspb.valuate S (some c) (some T) (some N) K delta) :
    Rspb.PFr x PF0 UWT (75 / 1000) ≤ 1.01 * v ∧ |v - PF0 * PFrMax * UWT| ≤ 1 / 10 ^ 15 * UWT := by
  have e1 : v = c / Rspb.Cr (Rspb.iSr S Rspb.S0 delta) Rspb.C0 1 * Rspb.uwtToPFmax := by
    cases K <;> simpa [Rspb.valuate, Rspb.valuateC, Rspb.valuateRest, Rspb.valuateFull] using hv
  have e2 : UWT = c / Rspb.Cr (Rspb.iSr S Rspb.S0 delta) Rspb.C0 1 := by
    cases K <;> simpa [Rspb.valuate, Rspb.valuateC, Rspb.valuateRest, Rspb.valuateFull] using hu
  rw [← e2] at e1
  have hpf : pf x ≤ 4057 / 1000 := by
    rcases le_or_gt x (125 / 100) with h | h
    · exact (C77_optimum.1.monotoneOn ⟨h0, h⟩ ⟨by norm_num, le_refl _⟩ h).trans (pf_middle (le_refl _) (by norm_num))
    · rcases le_or_gt x (126 / 100) with h' | h'
      · exact pf_middle h.le h'
      · exact (C77_optimum.2.1.antitoneOn ⟨le_refl _, by norm_num⟩ ⟨h'.le, h5⟩ h'.le).trans (pf_middle (by norm_num) (le_refl _))
  have e3 : Rspb.PFr x PF0 UWT (75 / 1000) = PF0 * UWT * pf x := by
    unfold pf Rspb.PFr Rspb.Cr
    ring
  have hP : (0 : ℝ) < PF0 := by unfold PF0; norm_num
  constructor
  · rw [e3, e1]
    have : PF0 * UWT * pf x ≤ PF0 * UWT * (4057 / 1000) := by gcongr
    refine this.trans ?_
    have : PF0 * (4057 / 1000) ≤ 1.01 * Rspb.uwtToPFmax := by
      unfold PF0 Rspb.uwtToPFmax
      norm_num
    nlinarith
  · have : |Rspb.uwtToPFmax - PF0 * PFrMax| ≤ 1 / 10 ^ 15 := by
      unfold Rspb.uwtToPFmax PF0 PFrMax
      rw [abs_le]
      constructor <;> norm_num
    have e : v - PF0 * PFrMax * UWT = UWT * (Rspb.uwtToPFmax - PF0 * PFrMax) := by rw [e1]; ring
    rw [e, abs_mul, abs_of_pos hU, mul_comm]
    gcongr

/-- **C77** (finding) but it is not a maximum over all concentrations: with any positive `delta` the model's power factor grows
without bound in the far degenerate range. -/
theorem C77_no_maximum (delta : ℝ) (hd : 0 < delta) : Tendsto (fun x => Rspb.PFr x 1 1 delta) atTop atTop := by
  have hc : 0 < log (1 + delta) ^ 2 := by
    have := log_pos (show 1 < 1 + delta by linarith)
    positivity
  have h1 : Tendsto (fun x : ℝ => x ^ (2 / 3 : ℝ) * log (1 + delta) ^ 2) atTop atTop :=
    (tendsto_rpow_atTop (by norm_num)).atTop_mul_const hc
  refine tendsto_atTop_mono' _ ?_ h1
  filter_upwards [eventually_ge_atTop 2] with x hx
  have hx0 : 0 < x := by linarith
  have e : Rspb.PFr x 1 1 delta = x * (1 + x / 2) ^ (-1 / 3 : ℝ) * log (1 + delta + exp 2 / x) ^ 2 := by
    unfold Rspb.PFr Rspb.Cr Rspb.Ur Rspb.Sr
    ring
  rw [e]
  have hl : log (1 + delta) ≤ log (1 + delta + exp 2 / x) := by
    apply log_le_log (by linarith)
    have : 0 < exp 2 / x := div_pos (exp_pos _) hx0
    linarith
  have hl0 : 0 ≤ log (1 + delta) := log_nonneg (by linarith)
  have hr : x ^ (2 / 3 : ℝ) ≤ x * (1 + x / 2) ^ (-1 / 3 : ℝ) := by
    have : x ^ (2 / 3 : ℝ) = x * x ^ (-1 / 3 : ℝ) := by
      conv_rhs => rw [← rpow_one_add' hx0.le (by norm_num)]
      norm_num
    rw [this]
    apply mul_le_mul_of_nonneg_left _ hx0.le
    exact rpow_le_rpow_of_nonpos (by positivity) (by linarith) (by norm_num)
  gcongr

/-! ## `bandline` -/

/-- **C78** Without a gap the dispersion is `E0 + ħ²(k-k0)²/(2 m_b m_e)` in eV for `k` in 1/Å, to 14 digits. -/
theorem C78_parabola (k m_b k0 E0 : ℝ) (hm : m_b ≠ 0) :
    |bandline k m_b k0 E0 none - (E0 + KappaSpec.hbar ^ 2 * (10 ^ 10 * (k - k0)) ^ 2 / (2 * (m_b * KappaSpec.me)) / KappaSpec.qe)| ≤
      1 / 10 ^ 13 * ((k - k0) ^ 2 / |m_b|) := by
  have e : bandline k m_b k0 E0 none -
      (E0 + KappaSpec.hbar ^ 2 * (10 ^ 10 * (k - k0)) ^ 2 / (2 * (m_b * KappaSpec.me)) / KappaSpec.qe) =
      (coefBand - KappaSpec.hbar ^ 2 * 10 ^ 20 / KappaSpec.me / KappaSpec.qe) / 2 * ((k - k0) ^ 2 / m_b) := by
    unfold bandline parabolic
    simp only
    have h1 : KappaSpec.me ≠ 0 := by unfold KappaSpec.me; norm_num
    have h2 : KappaSpec.qe ≠ 0 := by unfold KappaSpec.qe; norm_num
    field_simp
    ring
  rw [e, abs_mul, abs_div ((k - k0) ^ 2), abs_of_nonneg (sq_nonneg (k - k0))]
  apply mul_le_mul_of_nonneg_right _ (by positivity)
  unfold coefBand KappaSpec.hbar KappaSpec.me KappaSpec.qe
  rw [abs_le]
  constructor <;> norm_num

end TEflow.Bandlib
