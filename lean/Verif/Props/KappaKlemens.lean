import Mathlib.Tactic
import Mathlib.Analysis.SpecialFunctions.Trigonometric.ArctanDeriv
import Mathlib.Analysis.SpecialFunctions.Trigonometric.Bounds
import Mathlib.Analysis.Convex.Deriv
import Mathlib.Analysis.MeanInequalitiesPow
import Mathlib.Analysis.SpecialFunctions.Integrals.Basic
import Verif.Model.KappaModels
import Verif.Spec.Kappa

/-! # C90-C92, C105: Klemens model, disorder parameter, sound velocities, simple models -/

open Real

namespace TEflow.Kappa

/-! ## C90 -/

theorem arctan_le_self {u : ℝ} (hu : 0 ≤ u) : arctan u ≤ u := by
  have := le_tan (arctan_nonneg.mpr hu) (arctan_lt_pi_div_two u)
  rwa [tan_arctan] at this

theorem le_arctan {u : ℝ} (hu : 0 ≤ u) : u / (1 + u ^ 2) ≤ arctan u := by
  have h1 : sin (2 * arctan u) ≤ 2 * arctan u := sin_le (by have := arctan_nonneg.mpr hu; linarith)
  rw [sin_two_mul, sin_arctan, cos_arctan] at h1
  have hs : √(1 + u ^ 2) * √(1 + u ^ 2) = 1 + u ^ 2 := mul_self_sqrt (by positivity)
  have e : 2 * (u / √(1 + u ^ 2)) * (1 / √(1 + u ^ 2)) = 2 * (u / (1 + u ^ 2)) := by
    calc 2 * (u / √(1 + u ^ 2)) * (1 / √(1 + u ^ 2)) = 2 * (u / (√(1 + u ^ 2) * √(1 + u ^ 2))) := by
          rw [mul_assoc, div_mul_div_comm, mul_one]
      _ = _ := by rw [hs]
  linarith

theorem arctan_ratio {a b : ℝ} (ha : 0 < a) (hab : a ≤ b) : arctan b / b ≤ arctan a / a := by
  have hb : 0 < b := lt_of_lt_of_le ha hab
  have hc : ConcaveOn ℝ (Set.Ici 0) arctan := by
    apply AntitoneOn.concaveOn_of_deriv (convex_Ici 0) continuous_arctan.continuousOn differentiable_arctan.differentiableOn
    rw [Real.deriv_arctan, interior_Ici]
    intro x hx y hy hxy
    have hx0 : (0 : ℝ) < x := hx
    simp only
    gcongr
  have w1 : 0 ≤ 1 - a / b := by rw [sub_nonneg, div_le_one hb]; exact hab
  have w2 : 0 ≤ a / b := by positivity
  have := hc.2 (Set.mem_Ici.mpr (le_refl (0 : ℝ))) (Set.mem_Ici.mpr hb.le) w1 w2 (by ring)
  simp only [smul_eq_mul, mul_zero, zero_add, arctan_zero] at this
  rw [div_mul_cancel₀ _ hb.ne'] at this
  rw [div_le_div_iff₀ hb ha]
  have h2 := mul_le_mul_of_nonneg_left this hb.le
  have e : b * (a / b * arctan b) = a * arctan b := by field_simp
  linarith

/-- the factor by which disorder lowers the conductivity, as a function of `u²` -/
noncomputable def reduction (u2 : ℝ) : ℝ := arctan (√(max u2 (1 / 10 ^ 12))) / √(max u2 (1 / 10 ^ 12))

theorem klemens_call (m : Klemens) (X : ℝ) : m.call X = m.Kpure * reduction (m.u2 X) := by
  unfold Klemens.call reduction
  simp only
  rw [mul_div_assoc]

theorem clip_pos (v : ℝ) : 0 < √(max v (1 / 10 ^ 12)) := sqrt_pos.mpr (lt_of_lt_of_le (by norm_num) (le_max_right _ _))

theorem reduction_range (v : ℝ) : 0 < reduction v ∧ reduction v ≤ 1 ∧ 1 / (1 + max v (1 / 10 ^ 12)) ≤ reduction v := by
  have h := clip_pos v
  have hm : (0 : ℝ) < max v (1 / 10 ^ 12) := lt_of_lt_of_le (by norm_num) (le_max_right _ _)
  unfold reduction
  refine ⟨div_pos (arctan_pos.mpr h) h, (div_le_one h).mpr (arctan_le_self h.le), ?_⟩
  rw [le_div_iff₀ h]
  have := le_arctan h.le
  rw [sq_sqrt hm.le] at this
  rw [one_div_mul_eq_div]
  exact this

theorem reduction_anti {v v' : ℝ} (h : v ≤ v') : reduction v' ≤ reduction v :=
  arctan_ratio (clip_pos v) (sqrt_le_sqrt (max_le_max_right _ h))

/-- **C90** The alloy conductivity is positive and at most that of the pure crystal; more precisely it is at least
`Kpure / (1 + u²)` (with `u²` clipped at `10^-12`), so that it returns `Kpure` up to a factor `1 - 10^-12` at the ends. -/
theorem C90_range (m : Klemens) (hK : 0 < m.Kpure) (X : ℝ) :
    0 < m.call X ∧ m.call X ≤ m.Kpure ∧ m.Kpure / (1 + max (m.u2 X) (1 / 10 ^ 12)) ≤ m.call X := by
  obtain ⟨h1, h2, h3⟩ := reduction_range (m.u2 X)
  rw [klemens_call]
  refine ⟨mul_pos hK h1, ?_, ?_⟩
  · nlinarith
  · rw [div_eq_mul_one_div]
    exact mul_le_mul_of_nonneg_left h3 hK.le

/-- **C90** The pure ends of the composition range -/
theorem C90_ends (m : Klemens) (hK : 0 < m.Kpure) :
    m.Kpure * (1 - 1 / 10 ^ 12) ≤ m.call 0 ∧ m.Kpure * (1 - 1 / 10 ^ 12) ≤ m.call 1 := by
  have h0 : m.u2 0 = 0 := by unfold Klemens.u2; ring
  have h1 : m.u2 1 = 0 := by unfold Klemens.u2; ring
  have key : m.Kpure * (1 - 1 / 10 ^ 12) ≤ m.Kpure / (1 + max 0 (1 / 10 ^ 12)) := by
    rw [max_eq_right (by norm_num), div_eq_mul_one_div]
    apply mul_le_mul_of_nonneg_left _ hK.le
    norm_num
  constructor
  · have := (C90_range m hK 0).2.2
    rw [h0] at this
    exact key.trans this
  · have := (C90_range m hK 1).2.2
    rw [h1] at this
    exact key.trans this

/-- **C90** Symmetric in the composition, and lowest in the middle. -/
theorem C90_symmetric (m : Klemens) (X : ℝ) (hK : 0 < m.Kpure) (hv : 0 < m.vs) (ht : 0 ≤ m.td) (hV : 0 ≤ m.Va) (hG : 0 ≤ m.G0) :
    m.call (1 - X) = m.call X ∧ m.call (1 / 2) ≤ m.call X := by
  have e : m.u2 (1 - X) = m.u2 X := by unfold Klemens.u2; ring
  refine ⟨by rw [klemens_call, klemens_call, e], ?_⟩
  rw [klemens_call, klemens_call]
  apply mul_le_mul_of_nonneg_left (reduction_anti _) hK.le
  have hpi := pi_pos
  unfold Klemens.u2
  set k := π * m.td * m.Va / (2 * (1054571817 / 10 ^ 7) * m.vs ^ 2) * m.Kpure * m.G0
  have hk : 0 ≤ k := by positivity
  have : X * (1 - X) ≤ 1 / 2 * (1 - 1 / 2) := by nlinarith [sq_nonneg (X - 1 / 2)]
  calc k * X * (1 - X) = k * (X * (1 - X)) := by ring
    _ ≤ k * (1 / 2 * (1 - 1 / 2)) := mul_le_mul_of_nonneg_left this hk
    _ = k * (1 / 2) * (1 - 1 / 2) := by ring

/-- **C90** More disorder means a lower conductivity. -/
theorem C90_disorder (m : Klemens) (G' X : ℝ) (hK : 0 < m.Kpure) (hv : 0 < m.vs) (ht : 0 ≤ m.td) (hV : 0 ≤ m.Va) (hG : m.G0 ≤ G')
    (h0 : 0 ≤ X) (h1 : X ≤ 1) : ({ m with G0 := G' } : Klemens).call X ≤ m.call X := by
  rw [klemens_call, klemens_call]
  apply mul_le_mul_of_nonneg_left (reduction_anti _) hK.le
  have hpi := pi_pos
  have hX : 0 ≤ 1 - X := by linarith
  unfold Klemens.u2
  simp only
  gcongr

/-- **C90** The parameter `u²` is the documented one in SI units. -/
theorem C90_u2 (m : Klemens) (X : ℝ) (hv : m.vs ≠ 0) :
    m.u2 X = π * m.td * ((1 / 10) ^ 30 * m.Va) / (2 * KappaSpec.hbar * (10 ^ 3 * m.vs) ^ 2) * m.Kpure * m.G0 * (X * (1 - X)) := by
  unfold Klemens.u2 KappaSpec.hbar
  field_simp

/-- **C90** Where the model comes from: the pure conductivity is spread evenly over the phonon frequencies up to the Debye frequency, and scattering by
point defects cuts the share of the relative frequency `t` by `1 + u²t²`. -/
theorem C90_klemens (m : Klemens) (X : ℝ) (hu : 1 / 10 ^ 12 ≤ m.u2 X) :
    m.call X = m.Kpure * ∫ t in (0 : ℝ)..1, 1 / (1 + m.u2 X * t ^ 2) := by
  have h0 : 0 < m.u2 X := lt_of_lt_of_le (by norm_num) hu
  have hs : 0 < √(m.u2 X) := sqrt_pos.2 h0
  have hc : m.call X = m.Kpure * arctan √(m.u2 X) / √(m.u2 X) := by
    unfold Klemens.call
    rw [max_eq_left hu]
  have e : (fun t : ℝ => 1 / (1 + m.u2 X * t ^ 2)) = fun t => (fun x : ℝ => 1 / (1 + x ^ 2)) (t * √(m.u2 X)) := by
    funext t
    simp only
    rw [mul_pow, sq_sqrt h0.le, mul_comm]
  rw [hc, e, intervalIntegral.integral_comp_mul_right (fun x : ℝ => 1 / (1 + x ^ 2)) hs.ne', zero_mul, one_mul, integral_one_div_one_add_sq, arctan_zero, sub_zero, smul_eq_mul]
  field_simp

/-! ## C92 -/

/-- **C92** `vs_to_gm` is the documented Grüneisen parameter of the Poisson ratio `μ` for which the velocities have the
documented ratio. -/
theorem C92_gruneisen (v1 v2 mu : ℝ) (hmu : mu < 1 / 2) (h : (v1 / v2) ^ 2 = (2 - 2 * mu) / (1 - 2 * mu)) :
    vsToGm v1 v2 = 3 / 2 * ((1 + mu) / (2 - 3 * mu)) := by
  have h1 : 1 - 2 * mu ≠ 0 := by linarith
  have h2 : 2 - 3 * mu ≠ 0 := by linarith
  unfold vsToGm
  rw [h]
  have e1 : 3 * ((2 - 2 * mu) / (1 - 2 * mu)) - 4 = 2 * (1 + mu) / (1 - 2 * mu) := by field_simp; ring
  have e2 : (2 - 2 * mu) / (1 - 2 * mu) + 2 = 2 * (2 - 3 * mu) / (1 - 2 * mu) := by field_simp; ring
  rw [e1, e2]
  field_simp

/-- **C92** The mean sound velocity of one pair of positive velocities lies between them, for every exponent. -/
theorem C92_mean (v1 v2 : ℝ) (p : ℤ) (h1 : 0 < v1) (h2 : 0 < v2) :
    min v1 v2 ≤ vsMean [(v1, v2)] p ∧ vsMean [(v1, v2)] p ≤ max v1 v2 := by
  have hmin : 0 < min v1 v2 := lt_min h1 h2
  have hmax : 0 < max v1 v2 := lt_of_lt_of_le h1 (le_max_left _ _)
  have a1 := min_le_left v1 v2
  have a2 := min_le_right v1 v2
  have b1 := le_max_left v1 v2
  have b2 := le_max_right v1 v2
  unfold vsMean
  by_cases hp : p = 0
  · rw [if_pos hp]
    simp only [List.map_cons, List.map_nil, List.prod_cons, List.prod_nil, mul_one]
    have cube : ∀ x : ℝ, 0 ≤ x → x = (x * x * x) ^ (1 / 3 : ℝ) := by
      intro x hx
      have : x * x * x = x ^ (3 : ℕ) := by ring
      rw [this, ← rpow_natCast, ← rpow_mul hx]
      norm_num
    constructor
    · rw [cube _ hmin.le]
      exact rpow_le_rpow (by positivity) (by gcongr) (by norm_num)
    · rw [cube _ hmax.le]
      exact rpow_le_rpow (by positivity) (by gcongr) (by norm_num)
  · rw [if_neg hp]
    simp only [List.map_cons, List.map_nil, List.sum_cons, List.sum_nil, add_zero, List.length_cons, List.length_nil]
    have root : ∀ x : ℝ, 0 < x → x = (x ^ p) ^ (1 / (p : ℝ)) := by
      intro x hx
      rw [← rpow_intCast, ← rpow_mul hx.le, mul_one_div_cancel (by exact_mod_cast hp), rpow_one]
    have hz : ∀ x : ℝ, 0 < x → 0 < x ^ p := fun x hx => zpow_pos hx p
    have z1 := hz v1 h1
    have z2 := hz v2 h2
    set s := (v1 ^ p + v2 ^ p + v2 ^ p) / (3 * ((0 + 1 : ℕ) : ℝ)) with hs
    have es : s = (v1 ^ p + v2 ^ p + v2 ^ p) / 3 := by rw [hs]; norm_num
    have hs0 : 0 < s := by rw [es]; positivity
    rcases lt_or_gt_of_ne hp with hneg | hpos
    · have anti : ∀ x y : ℝ, 0 < x → x ≤ y → y ^ p ≤ x ^ p := by
        intro x y hx hxy
        rw [← rpow_intCast, ← rpow_intCast]
        exact rpow_le_rpow_of_nonpos hx hxy (by exact_mod_cast hneg.le)
      have hle : (max v1 v2) ^ p ≤ s := by
        rw [es]
        have := anti v1 _ h1 b1
        have := anti v2 _ h2 b2
        linarith
      have hge : s ≤ (min v1 v2) ^ p := by
        rw [es]
        have := anti _ v1 hmin a1
        have := anti _ v2 hmin a2
        linarith
      have hq : 1 / (p : ℝ) ≤ 0 := by
        have : (p : ℝ) < 0 := by exact_mod_cast hneg
        exact div_nonpos_of_nonneg_of_nonpos zero_le_one this.le
      constructor
      · rw [root _ hmin]
        exact rpow_le_rpow_of_nonpos hs0 hge hq
      · conv_rhs => rw [root _ hmax]
        exact rpow_le_rpow_of_nonpos (hz _ hmax) hle hq
    · have mono : ∀ x y : ℝ, 0 < x → x ≤ y → x ^ p ≤ y ^ p := by
        intro x y hx hxy
        rw [← rpow_intCast, ← rpow_intCast]
        exact rpow_le_rpow hx.le hxy (by exact_mod_cast hpos.le)
      have hge : s ≤ (max v1 v2) ^ p := by
        rw [es]
        have := mono v1 _ h1 b1
        have := mono v2 _ h2 b2
        linarith
      have hle : (min v1 v2) ^ p ≤ s := by
        rw [es]
        have := mono _ v1 hmin a1
        have := mono _ v2 hmin a2
        linarith
      have hq : 0 ≤ 1 / (p : ℝ) := by
        have : (0 : ℝ) < p := by exact_mod_cast hpos
        positivity
      constructor
      · rw [root _ hmin]
        exact rpow_le_rpow (hz _ hmin).le hle hq
      · conv_rhs => rw [root _ hmax]
        exact rpow_le_rpow hs0.le hge hq

/-- **C92** It is the documented generalised mean with weights 1 (longitudinal) and 2 (transverse); the exponent 0 means the
geometric mean. -/
theorem C92_formula (v1 v2 : ℝ) (p : ℤ) (h1 : 0 < v1) (h2 : 0 < v2) :
    (p ≠ 0 → vsMean [(v1, v2)] p ^ p = (v1 ^ p + 2 * v2 ^ p) / 3) ∧ vsMean [(v1, v2)] 0 ^ 3 = v1 * v2 ^ 2 := by
  constructor
  · intro hp
    have q1 : 0 < v1 ^ p := zpow_pos h1 p
    have q2 : 0 < v2 ^ p := zpow_pos h2 p
    unfold vsMean
    rw [if_neg hp]
    simp only [List.map_cons, List.map_nil, List.sum_cons, List.sum_nil, List.length_cons, List.length_nil]
    have hp' : (p : ℝ) ≠ 0 := by exact_mod_cast hp
    rw [← rpow_intCast, ← rpow_mul (by positivity), one_div_mul_cancel hp', rpow_one]
    norm_num
    ring
  · unfold vsMean
    rw [if_pos rfl]
    simp only [List.map_cons, List.map_nil, List.prod_cons, List.prod_nil, mul_one]
    rw [← rpow_natCast, ← rpow_mul (by positivity)]
    norm_num
    ring

/-- **C92** One common velocity is returned as it is. -/
theorem C92_common (v : ℝ) (p : ℤ) (hv : 0 < v) : vsMean [(v, v)] p = v := by
  have := C92_mean v v p hv hv
  rw [min_self, max_self] at this
  exact le_antisymm this.2 this.1

/-- **C92** (finding) For arrays the mean runs over the whole array as well instead of elementwise, and the geometric mean
(`p = 0`) is not a mean at all: for two equal pairs of velocities it returns the square. -/
theorem C92_arrays (v : ℝ) (hv : 0 < v) : vsMean [(v, v), (v, v)] 0 = v ^ 2 ∧
    ∀ a b c d, vsMean [(a, b), (c, d)] 1 = (vsMean [(a, b)] 1 + vsMean [(c, d)] 1) / 2 := by
  constructor
  · unfold vsMean
    rw [if_pos rfl]
    simp only [List.map_cons, List.map_nil, List.prod_cons, List.prod_nil, mul_one]
    have : v * v * v * (v * v * v) = (v ^ 2) ^ (3 : ℕ) := by ring
    rw [this, ← rpow_natCast, ← rpow_mul (by positivity)]
    norm_num
  · intro a b c d
    unfold vsMean
    norm_num
    ring

/-- **C92** The Debye temperature is the documented one: `k_B Θ = ħ v_s (6π²/V_a)^{1/3}` (SI units, rounded `hbar/kB`). -/
theorem C92_debye_temperature (vs Va : ℝ) (hV : 0 < Va) :
    vsToTd vs Va = hbarKB / 10 ^ 12 * ((6 * π ^ 2 / ((1 / 10) ^ 30 * Va)) ^ (1 / 3 : ℝ) * (10 ^ 3 * vs)) := by
  have hpi := pi_pos
  have e : 6 * π ^ 2 / ((1 / 10) ^ 30 * Va) = (10 : ℝ) ^ 30 * (6 * π * π / Va) := by
    field_simp
  have e2 : ((10 : ℝ) ^ 30) ^ (1 / 3 : ℝ) = 10 ^ 10 := by
    rw [← rpow_natCast, ← rpow_natCast, ← rpow_mul (by norm_num)]
    norm_num
  rw [e, mul_rpow (by positivity) (by positivity), e2]
  unfold vsToTd
  ring

/-! ## C105 -/

/-- **C105** Slack's model: known coefficient models give a conductivity proportional to `1/T`; an unknown name is noticed only
when the model is evaluated. -/
theorem C105_slack (m : Slack) :
    (∀ T, T ≠ 0 → ∀ k k', m.call T = .ok k → m.call 1 = .ok k' → k * T = k') ∧
    (∀ s T, m.A = .name s → s ≠ "Julian" → s ≠ "Qin" → s ≠ "Constant" → m.call T = .error .attributeError) ∧
    (∀ A T, m.A = .number A → ∃ k, m.call T = .ok k) := by
  refine ⟨fun T hT k k' hk hk' => ?_, fun s T hA h1 h2 h3 => ?_, fun A T hA => ?_⟩
  · unfold Slack.call at hk hk'
    cases hc : m.coef with
    | error e => rw [hc] at hk; cases hk
    | ok c =>
      rw [hc] at hk hk'
      have ek := Except.ok.inj hk
      have ek' := Except.ok.inj hk'
      rw [← ek, ← ek']
      field_simp
  · unfold Slack.call Slack.coef
    rw [hA]
    simp only [if_neg h1, if_neg h2, if_neg h3]
    rfl
  · unfold Slack.call Slack.coef
    rw [hA]
    exact ⟨_, rfl⟩

/-- **C105** Slack's formula, for a given coefficient and for the two named models of it -/
theorem C105_slack_formula (m : Slack) (T k : ℝ) (hT : T ≠ 0) (hg : 0 < m.gm) (hN : 0 < m.N) (h : m.call T = .ok k) :
    (∀ A, m.A = .number A → k * (m.gm ^ 2 * m.N ^ (2 / 3 : ℝ) * T) = A * (m.Ma * m.Va ^ (1 / 3 : ℝ) * m.td ^ 3)) ∧
    (m.A = .name "Julian" → k * (m.gm ^ 2 * m.N ^ (2 / 3 : ℝ) * T) * (1 - 0.514 / m.gm + 0.228 / m.gm ^ 2) =
      2.43 / 10 ^ 6 * (m.Ma * m.Va ^ (1 / 3 : ℝ) * m.td ^ 3)) ∧
    (m.A = .name "Qin" → k * (m.gm ^ 2 * m.N ^ (2 / 3 : ℝ) * T) * (1 + 1 / m.gm + 8.3 * 10 ^ 5 / m.gm ^ (2.4 : ℝ)) =
      m.Ma * m.Va ^ (1 / 3 : ℝ) * m.td ^ 3) := by
  have hN' : 0 < m.N ^ (2 / 3 : ℝ) := rpow_pos_of_pos hN _
  have hg' : 0 < m.gm ^ (24 / 10 : ℝ) := rpow_pos_of_pos hg _
  have key : ∀ c, m.coef = .ok c → k * (m.gm ^ 2 * m.N ^ (2 / 3 : ℝ) * T) = c * (m.Ma * m.Va ^ (1 / 3 : ℝ) * m.td ^ 3) := by
    intro c hc
    unfold Slack.call at h
    rw [hc] at h
    rw [← Except.ok.inj h]
    field_simp
  refine ⟨fun A hA => key A (by unfold Slack.coef; rw [hA]), fun hA => ?_, fun hA => ?_⟩
  · rw [key (coefJulian m.gm) (by unfold Slack.coef; rw [hA]; rfl)]
    have e : 1 - 0.514 / m.gm + 0.228 / m.gm ^ 2 = 1 - 514 / 1000 / m.gm + 228 / 1000 / m.gm / m.gm := by
      rw [div_div _ m.gm m.gm, ← pow_two]; norm_num
    have hpos : 0 < 1 - 514 / 1000 / m.gm + 228 / 1000 / m.gm / m.gm := by
      have e : 1 - 514 / 1000 / m.gm + 228 / 1000 / m.gm / m.gm = (1 / m.gm) ^ 2 * (228 / 1000) - 514 / 1000 * (1 / m.gm) + 1 := by
        field_simp
        ring
      rw [e]
      nlinarith [sq_nonneg (1 / m.gm - 514 / 456)]
    rw [e]
    unfold coefJulian
    generalize 1 - 514 / 1000 / m.gm + 228 / 1000 / m.gm / m.gm = d at hpos
    have : 243 / 10 ^ 8 / d * (m.Ma * m.Va ^ (1 / 3 : ℝ) * m.td ^ 3) * d = 243 / 10 ^ 8 * (m.Ma * m.Va ^ (1 / 3 : ℝ) * m.td ^ 3) := by
      field_simp
    rw [this]
    norm_num
  · rw [key (coefQin m.gm) (by unfold Slack.coef; rw [hA]; rfl)]
    have e : 1 + 1 / m.gm + 8.3 * 10 ^ 5 / m.gm ^ (2.4 : ℝ) = 1 + 1 / m.gm + 830000 / m.gm ^ (24 / 10 : ℝ) := by norm_num
    have hpos : 0 < 1 + 1 / m.gm + 830000 / m.gm ^ (24 / 10 : ℝ) := by positivity
    rw [e]
    unfold coefQin
    generalize 1 + 1 / m.gm + 830000 / m.gm ^ (24 / 10 : ℝ) = d at hpos
    field_simp

/-- **C105** The coefficient of Julian's model is positive for every Grüneisen parameter different from zero, Qin's for every
positive one (and below 1). -/
theorem C105_slack_coef (gm : ℝ) : (gm ≠ 0 → 0 < coefJulian gm) ∧ (0 < gm → 0 < coefQin gm ∧ coefQin gm < 1) := by
  constructor
  · intro h
    unfold coefJulian
    have e : 1 - 514 / 1000 / gm + 228 / 1000 / gm / gm = (1 / gm) ^ 2 * (228 / 1000) - 514 / 1000 * (1 / gm) + 1 := by
      field_simp
      ring
    rw [e]
    have : 0 < (1 / gm) ^ 2 * (228 / 1000) - 514 / 1000 * (1 / gm) + 1 := by nlinarith [sq_nonneg (1 / gm - 514 / 456)]
    positivity
  · intro h
    have hp : 0 < gm ^ (24 / 10 : ℝ) := rpow_pos_of_pos h _
    unfold coefQin
    have h1 : 0 < 1 / gm := by positivity
    have h2 : 0 < 830000 / gm ^ (24 / 10 : ℝ) := by positivity
    refine ⟨by positivity, ?_⟩
    rw [div_lt_one (by positivity)]
    linarith

/-- **C105** The power law and the bipolar term in full: multiplying the temperature by `a` multiplies the power law (without its offset) by `aⁿ`; at a gap
of `y` times `2·kB·T` the bipolar term is the power law times `exp(-y)`. -/
theorem C105_scaling (K n K0 T : ℝ) (hT : 0 < T) :
    (∀ a, 0 < a → powerLaw K n K0 (a * T) - K0 = a ^ n * (powerLaw K n K0 T - K0)) ∧ powerLaw K n K0 300 - K0 = K ∧
    ∀ y, bipolar K (y * (2 * kBeV * T)) n T = powerLaw K n 0 T * exp (-y) := by
  refine ⟨fun a ha => ?_, by unfold powerLaw; norm_num, fun y => ?_⟩
  · unfold powerLaw
    rw [mul_div_assoc, mul_rpow ha.le (by positivity)]
    ring
  · unfold powerLaw bipolar
    have hk : (0 : ℝ) < kBeV := by unfold kBeV; norm_num
    have e : -(y * (2 * kBeV * T)) / (2 * kBeV * T) = -y := by field_simp
    rw [e, add_zero]

/-- **C105** The bipolar term rises with the temperature and the power law passes through its ambient value at 300 K. -/
theorem C105_simple (Kbp Eg p : ℝ) (hK : 0 ≤ Kbp) (hE : 0 ≤ Eg) (hp : 0 ≤ p) (T T' : ℝ) (hT : 0 < T) (hTT : T ≤ T') :
    0 ≤ bipolar Kbp Eg p T ∧ bipolar Kbp Eg p T ≤ bipolar Kbp Eg p T' ∧
    (∀ Kamb n K0, powerLaw Kamb n K0 300 = Kamb + K0) ∧
    (∀ Kamb n K0, 0 ≤ Kamb → n ≤ 0 → powerLaw Kamb n K0 T' ≤ powerLaw Kamb n K0 T) := by
  have hk : 0 < kBeV := by unfold kBeV; norm_num
  have hT' : 0 < T' := lt_of_lt_of_le hT hTT
  refine ⟨by unfold bipolar; positivity, ?_, fun Kamb n K0 => ?_, fun Kamb n K0 hKa hn => ?_⟩
  · unfold bipolar
    have h1 : (T / 300) ^ p ≤ (T' / 300) ^ p := rpow_le_rpow (by positivity) (by gcongr) hp
    have h2 : exp (-Eg / (2 * kBeV * T)) ≤ exp (-Eg / (2 * kBeV * T')) := by
      apply exp_le_exp.mpr
      rw [neg_div, neg_div]
      apply neg_le_neg
      gcongr
    gcongr
  · unfold powerLaw
    norm_num
  · unfold powerLaw
    have := rpow_le_rpow_of_nonpos (by positivity : 0 < T / 300) (by gcongr : T / 300 ≤ T' / 300) hn
    have := mul_le_mul_of_nonneg_left this hKa
    linarith

/-- non-vacuity: Poisson ratio 1/4, i.e. squared velocity ratio 3, and a Klemens model -/
example : (√3 / 1) ^ 2 = (2 - 2 * (1 / 4 : ℝ)) / (1 - 2 * (1 / 4)) := by
  rw [div_one, sq_sqrt (by norm_num)]
  norm_num

example : 0 < (⟨5, 3, 200, 1 / 10, 30⟩ : Klemens).Kpure ∧ 0 < (⟨5, 3, 200, 1 / 10, 30⟩ : Klemens).vs := by norm_num

end TEflow.Kappa
