import Mathlib.Tactic
import Mathlib.MeasureTheory.Integral.ExpDecay
import Mathlib.MeasureTheory.Integral.IntegralEqImproper
import Verif.Props.BandModels
import Verif.Props.BandSubst

/-! # C103: both forms of the carrier concentration agree -/

open Real MeasureTheory Set Filter Asymptotics Topology

namespace TEflow.Bandlib

theorem fermi_isBigO (EF T : ℝ) (hT : 0 < T) :
    (fermi EF T) =O[atTop] (fun E => exp (-(1 / (kB * T)) * E)) ∧
    (deriv (fermi EF T)) =O[atTop] (fun E => exp (-(1 / (kB * T)) * E)) := by
  have hkT : 0 < kB * T := mul_pos kB_pos hT
  have e : ∀ E, exp (-((E - EF) / (kB * T))) = exp (EF / (kB * T)) * exp (-(1 / (kB * T)) * E) := by
    intro E
    rw [← exp_add]
    congr 1
    ring
  constructor
  · refine IsBigO.of_bound (exp (EF / (kB * T))) (Eventually.of_forall fun E => ?_)
    rw [norm_of_nonneg (by unfold fermi; positivity), norm_of_nonneg (exp_pos _).le, ← e, exp_neg, ← one_div]
    unfold fermi
    exact one_div_le_one_div_of_le (exp_pos _) (by linarith)
  · refine IsBigO.of_bound (1 / (kB * T) * exp (EF / (kB * T))) (Eventually.of_forall fun E => ?_)
    rw [(fermi_deriv EF T E).deriv, norm_neg, norm_of_nonneg (by positivity), norm_of_nonneg (exp_pos _).le, mul_assoc, ← e]
    set y := exp ((E - EF) / (kB * T)) with hy
    have hy0 : 0 < y := exp_pos _
    rw [exp_neg, ← hy]
    have : y / (kB * T) / (y + 1) ^ 2 = 1 / (kB * T) * (y / (y + 1) ^ 2) := by ring
    rw [this]
    apply mul_le_mul_of_nonneg_left _ (by positivity)
    rw [div_le_iff₀ (by positivity), inv_mul_eq_div, le_div_iff₀ hy0]
    nlinarith

theorem poly_exp_isBigO (g φ : ℝ → ℝ) (b : ℝ) (hb : 0 < b) (n : Nat) (hg : g =O[atTop] fun E => E ^ n)
    (hφ : φ =O[atTop] fun E => exp (-b * E)) : (fun E => g E * φ E) =O[atTop] fun E => exp (-(b / 2) * E) := by
  have h1 : (fun E : ℝ => E ^ n) =O[atTop] fun E => exp (b / 2 * E) :=
    (isLittleO_pow_exp_pos_mul_atTop n (by linarith)).isBigO
  have h2 := (hg.trans h1).mul hφ
  refine h2.congr_right fun E => ?_
  rw [← exp_add]
  congr 1
  ring

theorem fermi_cont (EF T : ℝ) : Continuous (fermi EF T) := by
  unfold fermi
  refine continuous_const.div (by fun_prop) fun E => ?_
  positivity

theorem fermi_deriv_cont (EF T : ℝ) : Continuous (deriv (fermi EF T)) := by
  have : deriv (fermi EF T) = fun E => -(exp ((E - EF) / (kB * T)) / (kB * T) / (exp ((E - EF) / (kB * T)) + 1) ^ 2) := by
    funext E
    exact (fermi_deriv EF T E).deriv
  rw [this]
  refine (Continuous.div (by fun_prop) (by fun_prop) fun E => ?_).neg
  positivity

/-- integration by parts for a density of states with polynomial growth -/
theorem parts (dos idos : ℝ → ℝ) (n : Nat) (hd : Continuous dos) (hi : Continuous idos) (h0 : idos 0 = 0)
    (hderiv : ∀ E, 0 < E → HasDerivAt idos (dos E) E) (gd : dos =O[atTop] fun E => E ^ n)
    (gi : idos =O[atTop] fun E => E ^ n) (EF T : ℝ) (hT : 0 < T) :
    IntegrableOn (fun E => dos E * fermi EF T E) (Ioi 0) ∧ IntegrableOn (fun E => idos E * -deriv (fermi EF T) E) (Ioi 0) ∧
    ∫ E in Ioi 0, dos E * fermi EF T E = ∫ E in Ioi 0, idos E * -deriv (fermi EF T) E := by
  have hkT : 0 < kB * T := mul_pos kB_pos hT
  have hb : 0 < 1 / (kB * T) := by positivity
  obtain ⟨f1, f2⟩ := fermi_isBigO EF T hT
  have c1 := fermi_cont EF T
  have c2 := fermi_deriv_cont EF T
  have i1 : IntegrableOn (fun E => dos E * fermi EF T E) (Ioi 0) :=
    integrable_of_isBigO_exp_neg (by linarith) (hd.mul c1).continuousOn (poly_exp_isBigO _ _ _ hb n gd f1)
  have i2 : IntegrableOn (fun E => idos E * deriv (fermi EF T) E) (Ioi 0) :=
    integrable_of_isBigO_exp_neg (by linarith) (hi.mul c2).continuousOn (poly_exp_isBigO _ _ _ hb n gi f2)
  have hz : Tendsto (fun E => idos E * fermi EF T E) atTop (𝓝 0) := by
    refine (poly_exp_isBigO _ _ _ hb n gi f1).trans_tendsto ?_
    have : Tendsto (fun E : ℝ => -(1 / (kB * T) / 2) * E) atTop atBot :=
      tendsto_id.const_mul_atTop_of_neg (by linarith)
    exact tendsto_exp_atBot.comp this
  have key := integral_Ioi_of_hasDerivAt_of_tendsto (f := fun E => idos E * fermi EF T E) (a := 0) (m := 0)
    (f' := fun E => dos E * fermi EF T E + idos E * deriv (fermi EF T) E)
    (hi.mul c1).continuousAt.continuousWithinAt
    (fun E hE => (hderiv E hE).mul (by
      have := fermi_deriv EF T E
      rw [this.deriv]
      exact this)) (i1.add i2) hz
  rw [integral_add i1 i2, h0, zero_mul, sub_zero] at key
  refine ⟨i1, ?_, ?_⟩
  · have := i2.neg
    refine this.congr (Eventually.of_forall fun E => ?_)
    simp
  · have h3 : ∫ E in Ioi 0, idos E * -deriv (fermi EF T) E = -∫ E in Ioi 0, idos E * deriv (fermi EF T) E := by
      rw [← integral_neg]
      congr 1
      funext E
      ring
    rw [h3]
    linarith

/-- the growth of a power product -/
theorem growth {f : ℝ → ℝ} (c : ℝ) (n : Nat) (h : ∀ E, 1 ≤ E → |f E| ≤ c * E ^ n) : f =O[atTop] fun E => E ^ n := by
  refine IsBigO.of_bound c ?_
  filter_upwards [eventually_ge_atTop 1] with E hE
  rw [norm_eq_abs, norm_of_nonneg (by positivity)]
  exact h E hE

theorem sqrt_le_one_add {x : ℝ} (hx : 0 ≤ x) : √x ≤ 1 + x := by
  rw [sqrt_le_left (by positivity)]
  nlinarith

/-- **C103** For the parabolic, the Kane and the linear band the two forms of the carrier concentration agree: the integral of
`dos` with the Fermi function equals the integral of `idos` with the window `-∂f/∂E`, and hence the integral over `(0, width)`
to which the quadrature is applied. -/
theorem C103_concentration (a : Spb) (ha : 0 < a.m_d) (b : Skb) (hb : 0 < b.m_d) (hg : 0 < b.Eg) (c : Lin) (hc : 0 < c.vF)
    (EF T : ℝ) (hT : 0 < T) :
    ∀ f ∈ [a.fns, b.fns, c.fns],
      ∫ E in Ioi 0, f.dos E * fermi EF T E = ∫ E in Ioi 0, f.idos E * -deriv (fermi EF T) E ∧
      ∫ E in Ioi 0, f.dos E * fermi EF T E = ∫ t in Ioo 0 (widthOf EF T), f.idos (energyOf EF T t) * wOf t := by
  have h1 := me_pos
  have h2 := qe_pos
  have h4 := hbar_pos
  have h5 := pi_pos
  have main : ∀ f : BandFns, (∫ E in Ioi 0, f.dos E * fermi EF T E = ∫ E in Ioi 0, f.idos E * -deriv (fermi EF T) E) →
      ∫ E in Ioi 0, f.dos E * fermi EF T E = ∫ E in Ioi 0, f.idos E * -deriv (fermi EF T) E ∧
      ∫ E in Ioi 0, f.dos E * fermi EF T E = ∫ t in Ioo 0 (widthOf EF T), f.idos (energyOf EF T t) * wOf t :=
    fun f h => ⟨h, h.trans (C80_substitution f.idos EF T hT)⟩
  have pw : ∀ E : ℝ, 1 ≤ E → E ≤ E ^ 2 ∧ E ^ 2 ≤ E ^ 4 := by
    intro E hE
    exact ⟨by nlinarith, by nlinarith [pow_le_pow_right₀ hE (show 2 ≤ 4 by norm_num)]⟩
  intro f hf
  simp only [List.mem_cons, List.not_mem_nil, or_false] at hf
  rcases hf with rfl | rfl | rfl
  · refine main _ (parts a.dos a.idos 4 ?_ ?_ (C74_spb a ha).1 (C74_spb a ha).2 ?_ ?_ EF T hT).2.2
    · unfold Spb.dos; fun_prop
    · unfold Spb.idos
      refine continuous_const.mul (Continuous.div_const ?_ _)
      exact (continuous_const.mul continuous_id).rpow_const fun _ => .inr (by norm_num)
    · set k := 1 / 10 ^ 25 * ((2 * a.m_d * me * qe) ^ (3 / 2 : ℝ) / (2 * π * π * hbar ^ 3)) with hk
      have hk0 : 0 ≤ k := by positivity
      refine growth (k * 2) 4 fun E hE => ?_
      have : a.dos E = k * √E := rfl
      rw [this, abs_of_nonneg (by positivity), mul_assoc k _ (E ^ 4)]
      apply mul_le_mul_of_nonneg_left _ hk0
      have := sqrt_le_one_add (x := E) (by linarith)
      obtain ⟨p1, p2⟩ := pw E hE
      linarith
    · set A := 2 * a.m_d * me * qe with hA
      have hA0 : 0 < A := by positivity
      set k := 1 / 10 ^ 25 / (3 * π * π * hbar ^ 3) with hk
      have hk0 : 0 ≤ k := by positivity
      refine growth (k * (A * (1 + A))) 4 fun E hE => ?_
      have : a.idos E = k * (A * E * √(A * E)) := by
        unfold Spb.idos
        rw [← hA, rpow_three_half (by positivity)]
        ring
      rw [this, abs_of_nonneg (by positivity), mul_assoc k _ (E ^ 4)]
      apply mul_le_mul_of_nonneg_left _ hk0
      have h := sqrt_le_one_add (x := A * E) (by positivity)
      obtain ⟨p1, p2⟩ := pw E hE
      have h6 : 1 + A * E ≤ (1 + A) * E := by nlinarith
      calc A * E * √(A * E) ≤ A * E * ((1 + A) * E) := mul_le_mul_of_nonneg_left (h.trans h6) (by positivity)
        _ = A * (1 + A) * E ^ 2 := by ring
        _ ≤ A * (1 + A) * E ^ 4 := mul_le_mul_of_nonneg_left p2 (by positivity)
  · refine main _ (parts b.dos b.idos 4 ?_ ?_ (C74_skb b hb hg).1 (C74_skb b hb hg).2 ?_ ?_ EF T hT).2.2
    · unfold Skb.dos; fun_prop
    · unfold Skb.idos
      refine Continuous.div_const (continuous_const.mul ?_) _
      exact ((continuous_const.mul continuous_id).mul (continuous_const.add (continuous_id.div_const _))).rpow_const
        fun _ => .inr (by norm_num)
    · set k := 1 / 10 ^ 25 * ((2 * b.m_d * me * qe) ^ (3 / 2 : ℝ) / (2 * π * π * hbar ^ 3)) with hk
      have hk0 : 0 ≤ k := by positivity
      set r := 1 / b.Eg with hr
      have hr0 : 0 < r := by positivity
      refine growth (k * (2 * ((2 + r) * (1 + 2 * r)))) 4 fun E hE => ?_
      have : b.dos E = k * (√E * (√(1 + r * E) * (1 + 2 * r * E))) := by
        show k * √E * (√(1 + E / b.Eg) * (1 + 2 * E / b.Eg)) = _
        have e1 : E / b.Eg = r * E := by rw [hr]; ring
        have e2 : 2 * E / b.Eg = 2 * r * E := by rw [hr]; ring
        rw [e1, e2]
        ring
      have hE0 : 0 < E := by linarith
      rw [this, abs_of_nonneg (by positivity), mul_assoc k _ (E ^ 4)]
      apply mul_le_mul_of_nonneg_left _ hk0
      have q1 : √E ≤ 2 * E := by have := sqrt_le_one_add hE0.le; linarith
      have q2 : √(1 + r * E) ≤ (2 + r) * E := by
        have := sqrt_le_one_add (x := 1 + r * E) (by positivity)
        nlinarith
      have q3 : 1 + 2 * r * E ≤ (1 + 2 * r) * E := by nlinarith
      have p3 : E ^ 3 ≤ E ^ 4 := pow_le_pow_right₀ hE (by norm_num)
      calc √E * (√(1 + r * E) * (1 + 2 * r * E)) ≤ 2 * E * ((2 + r) * E * ((1 + 2 * r) * E)) := by gcongr
        _ = 2 * ((2 + r) * (1 + 2 * r)) * E ^ 3 := by ring
        _ ≤ 2 * ((2 + r) * (1 + 2 * r)) * E ^ 4 := mul_le_mul_of_nonneg_left p3 (by positivity)
    · set A := 2 * b.m_d * me * qe with hA
      have hA0 : 0 < A := by positivity
      set r := 1 / b.Eg with hr
      have hr0 : 0 < r := by positivity
      set k := 1 / 10 ^ 25 / (3 * π * π * hbar ^ 3) with hk
      have hk0 : 0 ≤ k := by positivity
      set B := A * (1 + r) with hB
      have hB0 : 0 < B := by positivity
      refine growth (k * (B * (1 + B))) 4 fun E hE => ?_
      have hE0 : 0 < E := by linarith
      have : b.idos E = k * (A * E * (1 + r * E) * √(A * E * (1 + r * E))) := by
        have e1 : E / b.Eg = r * E := by rw [hr]; ring
        unfold Skb.idos
        rw [← hA, e1, rpow_three_half (by positivity)]
        ring
      rw [this, abs_of_nonneg (by positivity), mul_assoc k _ (E ^ 4)]
      apply mul_le_mul_of_nonneg_left _ hk0
      have hu : A * E * (1 + r * E) ≤ B * E ^ 2 := by
        have : 1 + r * E ≤ (1 + r) * E := by nlinarith
        calc A * E * (1 + r * E) ≤ A * E * ((1 + r) * E) := by gcongr
          _ = B * E ^ 2 := by rw [hB]; ring
      have hs : √(A * E * (1 + r * E)) ≤ (1 + B) * E ^ 2 := by
        have h := sqrt_le_one_add (x := A * E * (1 + r * E)) (by positivity)
        have : 1 ≤ E ^ 2 := by nlinarith
        nlinarith
      calc A * E * (1 + r * E) * √(A * E * (1 + r * E)) ≤ B * E ^ 2 * ((1 + B) * E ^ 2) := by gcongr
        _ = B * (1 + B) * E ^ 4 := by ring
  · refine main _ (parts c.dos c.idos 4 ?_ ?_ (C74_lin c hc).1 (fun E _ => (C74_lin c hc).2 E) ?_ ?_ EF T hT).2.2
    · unfold Lin.dos; fun_prop
    · unfold Lin.idos; fun_prop
    · set k := 1 / 10 ^ 25 * ((1 / π) ^ 2 * (qe / (c.vF * 10 ^ 5 * hbar)) ^ 3) with hk
      have hk0 : 0 ≤ k := by positivity
      refine growth k 4 fun E hE => ?_
      have : c.dos E = k * E ^ 2 := rfl
      rw [this, abs_of_nonneg (by positivity)]
      exact mul_le_mul_of_nonneg_left (pw E hE).2 hk0
    · set k := (qe / (c.vF * hbar)) ^ 3 / (3 * 10 ^ 40 * π ^ 2) with hk
      have hk0 : 0 ≤ k := by positivity
      refine growth k 4 fun E hE => ?_
      have : c.idos E = k * E ^ 3 := by
        unfold Lin.idos
        rw [hk]
        ring
      have hE0 : 0 < E := by linarith
      rw [this, abs_of_nonneg (by positivity)]
      exact mul_le_mul_of_nonneg_left (pow_le_pow_right₀ hE (by norm_num)) hk0

/-- non-vacuity: a parabolic band of two electron masses, a Kane band with a gap of 1/4 eV and a linear band, at 300 K -/
example : (0 : ℝ) < (⟨2, 3, 1⟩ : Spb).m_d ∧ (0 : ℝ) < (⟨1, 3, 1 / 4, 1⟩ : Skb).m_d ∧ (0 : ℝ) < (⟨1, 3, 1 / 4, 1⟩ : Skb).Eg ∧
    (0 : ℝ) < (⟨2, 1⟩ : Lin).vF ∧ (0 : ℝ) < 300 := by norm_num

end TEflow.Bandlib
