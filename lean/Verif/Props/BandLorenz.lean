import Verif.Props.BandOpt
import Mathlib.Analysis.SpecialFunctions.Trigonometric.DerivHyp

/-! # C140: the Lorenz number of a parabolic band -/

open Real MeasureTheory Set Filter Topology

namespace TEflow.Bandlib

noncomputable section

/-! ## The complete Fermi integral of order 2 -/

/-- `F₂(η)`, as the integral of `F₁` -/
def fd2 (y : ℝ) : ℝ := ∫ x in Iic y, fd1 x

theorem fd1_cont : Continuous fd1 := continuous_iff_continuousAt.2 fun y => (fd1_deriv y).continuousAt

theorem fd1_int (y : ℝ) : IntegrableOn fd1 (Iic y) := by
  refine Integrable.mono' (integrableOn_exp_Iic y) fd1_cont.aestronglyMeasurable (Eventually.of_forall fun x => ?_)
  rw [norm_of_nonneg (fd1_pos x).le]
  exact fd1_le x

theorem fd2_deriv (y : ℝ) : HasDerivAt fd2 (fd1 y) y := by
  have h : fd2 = fun z => fd2 0 + ∫ x in (0 : ℝ)..z, fd1 x := by
    funext z
    have := intervalIntegral.integral_Iic_sub_Iic (fd1_int 0) (fd1_int z)
    unfold fd2
    linarith
  rw [h]
  exact (fd1_cont.integral_hasStrictDerivAt 0 y).hasDerivAt.const_add _

theorem fd2_pos (y : ℝ) : 0 < fd2 y := by
  have h0 : 0 ≤ fd2 (y - 1) := setIntegral_nonneg measurableSet_Iic fun x _ => (fd1_pos x).le
  have hm : StrictMono fd2 := strictMono_of_hasDerivAt_pos fd2_deriv fd1_pos
  exact h0.trans_lt (hm (by linarith))

theorem fd2_le (y : ℝ) : fd2 y ≤ exp y := by
  unfold fd2
  rw [← integral_exp_Iic y]
  exact setIntegral_mono (fd1_int y) (integrableOn_exp_Iic y) fun x => fd1_le x

theorem fd2_bot : Tendsto fd2 atBot (𝓝 0) :=
  tendsto_of_tendsto_of_tendsto_of_le_of_le tendsto_const_nhds tendsto_exp_atBot (fun y => (fd2_pos y).le) fd2_le

theorem fd2_reflect (y : ℝ) : fd2 y = y ^ 3 / 6 + π ^ 2 / 6 * y + fd2 (-y) := by
  have hd : ∀ y, HasDerivAt (fun y => fd2 y - fd2 (-y) - y ^ 3 / 6 - π ^ 2 / 6 * y) 0 y := by
    intro y
    have h := (((fd2_deriv y).sub ((fd2_deriv (-y)).comp y (hasDerivAt_neg y))).sub (((hasDerivAt_id y).pow 3).div_const 6)).sub
      ((hasDerivAt_id y).const_mul (π ^ 2 / 6))
    refine h.congr_deriv ?_
    have := fd1_reflect y
    simp only [id]
    push_cast
    rw [this]
    ring
  have hc := is_const_of_deriv_eq_zero (f := fun y => fd2 y - fd2 (-y) - y ^ 3 / 6 - π ^ 2 / 6 * y) (fun y => (hd y).differentiableAt) (fun y => (hd y).deriv) y 0
  simp only [neg_zero] at hc
  linarith

/-! ## Growth at the lower end -/

theorem fd0_ge (y : ℝ) : exp y / (1 + exp y) < fd0 y := by
  have h := one_sub_inv_le_log_of_pos (x := 1 + exp y) (by positivity)
  have he := exp_pos y
  have hs := log_lt_sub_one_of_pos (x := (1 + exp y)⁻¹) (by positivity) (by
    intro h1
    rw [inv_eq_one] at h1
    linarith)
  rw [log_inv] at hs
  have e : exp y / (1 + exp y) = 1 - (1 + exp y)⁻¹ := by field_simp; ring
  unfold fd0
  rw [e]
  linarith

theorem fd0_lt_fd1 (y : ℝ) : fd0 y < fd1 y := by
  have h := pos_of_deriv (f := fun y => fd1 y - fd0 y) (f' := fun y => fd0 y - exp y / (1 + exp y)) (fun y => (fd1_deriv y).sub (fd0_deriv y))
    (fun y => sub_pos.2 (fd0_ge y)) (by simpa using fd1_bot.sub fd0_bot) y
  exact sub_pos.1 h

theorem fd1_lt_fd2 (y : ℝ) : fd1 y < fd2 y := by
  have h := pos_of_deriv (f := fun y => fd2 y - fd1 y) (f' := fun y => fd1 y - fd0 y) (fun y => (fd2_deriv y).sub (fd1_deriv y))
    (fun y => sub_pos.2 (fd0_lt_fd1 y)) (by simpa using fd2_bot.sub fd1_bot) y
  exact sub_pos.1 h

/-- `(2+u)ln(1+u) > 2u` -/
theorem log_pade (y : ℝ) : 2 * (exp y / (1 + exp y)) < fd0 y * (2 - exp y / (1 + exp y)) := by
  have h := pos_of_deriv (f := fun y => fd0 y * (2 + exp y) - 2 * exp y) (f' := fun y => exp y * (fd0 y - exp y / (1 + exp y))) (fun y => ?_)
    (fun y => mul_pos (exp_pos y) (sub_pos.2 (fd0_ge y))) ?_ y
  · have he := exp_pos y
    have e : fd0 y * (2 - exp y / (1 + exp y)) - 2 * (exp y / (1 + exp y)) = (fd0 y * (2 + exp y) - 2 * exp y) / (1 + exp y) := by
      field_simp
      ring
    have := div_pos h (by positivity : 0 < 1 + exp y)
    linarith
  · have h := ((fd0_deriv y).mul ((hasDerivAt_exp y).const_add 2)).sub ((hasDerivAt_exp y).const_mul 2)
    refine h.congr_deriv ?_
    have he := exp_pos y
    field_simp
    ring
  · have := (fd0_bot.mul (tendsto_exp_atBot.const_add 2)).sub (tendsto_exp_atBot.const_mul 2)
    simpa using this

/-- `F₁ ≥ F₀ + F₀²/4` -/
theorem fd1_quad (y : ℝ) : fd0 y + fd0 y ^ 2 / 4 < fd1 y := by
  have h := pos_of_deriv (f := fun y => fd1 y - fd0 y - fd0 y ^ 2 / 4) (f' := fun y => fd0 y - exp y / (1 + exp y) - 2 * fd0 y * (exp y / (1 + exp y)) / 4) (fun y => ?_)
    (fun y => ?_) ?_ y
  · linarith
  · have h := ((fd1_deriv y).sub (fd0_deriv y)).sub (((fd0_deriv y).pow 2).div_const 4)
    refine h.congr_deriv ?_
    norm_num
  · have := log_pade y
    nlinarith
  · have := (fd1_bot.sub fd0_bot).sub ((fd0_bot.pow 2).div_const 4)
    simpa using this

/-! ## `e^x + e^{-x} < 2 + x² + x³/4` for `0 < x ≤ 2.4` -/

def coshQ (x : ℝ) : ℝ := 2 + x ^ 2 + x ^ 4 / 12 + 31 / 9000 * x ^ 6

theorem cosh_quad {x : ℝ} (h0 : 0 ≤ x) (h1 : x ≤ 2.4) : exp x + exp (-x) ≤ coshQ x := by
  have e1 : ∀ x, HasDerivAt (fun x => exp x + exp (-x)) (exp x - exp (-x)) x := fun x => by
    have := (hasDerivAt_exp x).add ((hasDerivAt_neg x).exp)
    exact this.congr_deriv (by ring)
  have e2 : ∀ x, HasDerivAt (fun x => exp x - exp (-x)) (exp x + exp (-x)) x := fun x => by
    have := (hasDerivAt_exp x).sub ((hasDerivAt_neg x).exp)
    exact this.congr_deriv (by ring)
  have q1 : ∀ x, HasDerivAt coshQ (2 * x + x ^ 3 / 3 + 31 / 1500 * x ^ 5) x := fun x => by
    have := ((((hasDerivAt_id x).pow 2).const_add 2).add (((hasDerivAt_id x).pow 4).div_const 12)).add (((hasDerivAt_id x).pow 6).const_mul (31 / 9000))
    refine this.congr_deriv ?_
    simp only [id]
    push_cast
    ring
  have q2 : ∀ x : ℝ, HasDerivAt (fun x : ℝ => 2 * x + x ^ 3 / 3 + 31 / 1500 * x ^ 5) (2 + x ^ 2 + 31 / 300 * x ^ 4) x := fun x => by
    have := (((hasDerivAt_id x).const_mul 2).add (((hasDerivAt_id x).pow 3).div_const 3)).add (((hasDerivAt_id x).pow 5).const_mul (31 / 1500))
    refine this.congr_deriv ?_
    simp only [id]
    push_cast
    ring
  -- D'' - D is not negative
  set D : ℝ → ℝ := fun x => coshQ x - (exp x + exp (-x)) with hD
  set D1 : ℝ → ℝ := fun x => (2 * x + x ^ 3 / 3 + 31 / 1500 * x ^ 5) - (exp x - exp (-x)) with hD1
  have d1 : ∀ x, HasDerivAt D (D1 x) x := fun x => (q1 x).sub (e1 x)
  have d2 : ∀ x, HasDerivAt D1 ((2 + x ^ 2 + 31 / 300 * x ^ 4) - (exp x + exp (-x))) x := fun x => (q2 x).sub (e2 x)
  have dE : ∀ x, HasDerivAt (fun x => (D1 x + D x) * exp (-x)) (((2 + x ^ 2 + 31 / 300 * x ^ 4) - coshQ x) * exp (-x)) x := fun x => by
    have := ((d2 x).add (d1 x)).mul ((hasDerivAt_neg x).exp)
    refine this.congr_deriv ?_
    simp only [hD, hD1, Pi.add_apply]
    ring
  have hE : ∀ x ∈ Icc (0 : ℝ) 2.4, 0 ≤ D1 x + D x := by
    intro x hx
    have hm : MonotoneOn (fun x => (D1 x + D x) * exp (-x)) (Icc 0 2.4) := by
      refine monotoneOn_of_deriv_nonneg (convex_Icc _ _) (fun x _ => (dE x).continuousAt.continuousWithinAt) (fun x _ => (dE x).differentiableAt.differentiableWithinAt) ?_
      intro x hx
      rw [interior_Icc] at hx
      rw [(dE x).deriv]
      refine mul_nonneg ?_ (exp_pos _).le
      unfold coshQ
      have h5 : x ^ 2 ≤ 5.76 := by nlinarith [hx.1, hx.2]
      have e : 2 + x ^ 2 + 31 / 300 * x ^ 4 - (2 + x ^ 2 + x ^ 4 / 12 + 31 / 9000 * x ^ 6) = x ^ 4 * (1 / 50 - 31 / 9000 * x ^ 2) := by ring
      rw [e]
      refine mul_nonneg (by positivity) ?_
      linarith
    have h := hm (left_mem_Icc.2 (by norm_num)) hx hx.1
    simp only [hD, hD1, coshQ] at h
    norm_num at h
    have := exp_pos (-x)
    have h' := (mul_nonneg_iff_of_pos_right this).1 h
    simpa [hD, hD1, coshQ] using h'
  have dF : ∀ x, HasDerivAt (fun x => D x * exp x) ((D1 x + D x) * exp x) x := fun x => by
    have := (d1 x).mul (hasDerivAt_exp x)
    exact this.congr_deriv (by ring)
  have hm : MonotoneOn (fun x => D x * exp x) (Icc 0 2.4) := by
    refine monotoneOn_of_deriv_nonneg (convex_Icc _ _) (fun x _ => (dF x).continuousAt.continuousWithinAt) (fun x _ => (dF x).differentiableAt.differentiableWithinAt) ?_
    intro x hx
    rw [interior_Icc] at hx
    rw [(dF x).deriv]
    exact mul_nonneg (hE x ⟨hx.1.le, hx.2.le⟩) (exp_pos _).le
  have h := hm (left_mem_Icc.2 (by norm_num)) ⟨h0, h1⟩ h0
  have h' : 0 ≤ D x * exp x := by
    refine le_trans (le_of_eq ?_) h
    simp [hD, coshQ]
    norm_num
  have := (mul_nonneg_iff_of_pos_right (exp_pos x)).1 h'
  simp only [hD] at this
  linarith

theorem cosh_cubic {x : ℝ} (h0 : 0 < x) (h1 : x ≤ 2.4) : (exp x - 1) ^ 2 < exp x * (x ^ 2 * (1 + x / 4)) := by
  have h := cosh_quad h0.le h1
  have h2 : coshQ x < 2 + x ^ 2 + x ^ 3 / 4 := by
    unfold coshQ
    have e : 2 + x ^ 2 + x ^ 3 / 4 - (2 + x ^ 2 + x ^ 4 / 12 + 31 / 9000 * x ^ 6) = x ^ 3 * (1 / 4 - x / 12 - 31 / 9000 * x ^ 3) := by ring
    have h3 : x ^ 3 ≤ 13.824 := by
      have := pow_le_pow_left₀ h0.le h1 3
      norm_num at this ⊢
      exact this
    have h4 : 0 < 1 / 4 - x / 12 - 31 / 9000 * x ^ 3 := by
      norm_num at h1 h3 ⊢
      linarith
    have := mul_pos (pow_pos h0 3) h4
    linarith
  have he := exp_pos x
  have e : (exp x - 1) ^ 2 = exp x * (exp x + exp (-x) - 2) := by
    have : exp x * exp (-x) = 1 := by rw [← exp_add]; simp
    linear_combination (-1 : ℝ) * this
  rw [e]
  refine mul_lt_mul_of_pos_left ?_ he
  nlinarith

/-! ## The sign of the slope of the Lorenz number -/

/-- `F₀² (1+u) < u²` -/
theorem fd0_sqrt (y : ℝ) : fd0 y ^ 2 * (1 + exp y) < exp y ^ 2 := by
  have hp := fd0_pos y
  have h := self_lt_sinh_iff.2 (half_pos hp)
  rw [sinh_eq] at h
  have e : exp (fd0 y) = 1 + exp y := exp_log (by positivity)
  have e2 : exp (fd0 y / 2) ^ 2 = 1 + exp y := by rw [← e, ← exp_nat_mul]; congr 1; push_cast; ring
  have e3 : exp (fd0 y / 2) * exp (-(fd0 y / 2)) = 1 := by rw [← exp_add]; simp
  have h4 := exp_pos (fd0 y / 2)
  have h5 : fd0 y * exp (fd0 y / 2) < exp y := by
    have h6 : fd0 y < exp (fd0 y / 2) - exp (-(fd0 y / 2)) := by linarith
    have h7 := mul_lt_mul_of_pos_right h6 h4
    nlinarith
  calc fd0 y ^ 2 * (1 + exp y) = (fd0 y * exp (fd0 y / 2)) ^ 2 := by rw [mul_pow, e2]
    _ < exp y ^ 2 := pow_lt_pow_left₀ h5 (by positivity) (by norm_num)

/-- `2F₁ - F₀²(1+u)/u` -/
def thin (y : ℝ) : ℝ := 2 * fd1 y - fd0 y ^ 2 * (1 + exp (-y))

theorem thin_deriv (y : ℝ) : HasDerivAt thin (fd0 y ^ 2 * exp (-y)) y := by
  have h1 := (((fd0_deriv y).pow 2).mul (((hasDerivAt_neg y).exp).const_add 1))
  have h2 := ((fd1_deriv y).const_mul 2).sub h1
  refine h2.congr_deriv ?_
  rw [exp_neg]
  have := exp_pos y
  simp only [Pi.pow_apply]
  field_simp
  ring

theorem thin_bot : Tendsto thin atBot (𝓝 0) := by
  have h := fd1_bot.const_mul 2
  rw [mul_zero] at h
  refine tendsto_of_tendsto_of_tendsto_of_le_of_le tendsto_const_nhds h (fun y => (thin_pos y).le) fun y => ?_
  have := fd0_pos y
  have : 0 < fd0 y ^ 2 * (1 + exp (-y)) := by positivity
  simp only [thin]
  linarith

theorem thin_lt (y : ℝ) : thin y < fd0 y := by
  have h := pos_of_deriv (f := fun y => fd0 y - thin y) (f' := fun y => exp y / (1 + exp y) - fd0 y ^ 2 * exp (-y)) (fun y => (fd0_deriv y).sub (thin_deriv y))
    (fun y => ?_) (by simpa using fd0_bot.sub thin_bot) y
  · linarith
  · have h := fd0_sqrt y
    have he := exp_pos y
    have e : exp y / (1 + exp y) - fd0 y ^ 2 * exp (-y) = (exp y ^ 2 - fd0 y ^ 2 * (1 + exp y)) / (exp y * (1 + exp y)) := by
      rw [exp_neg]
      field_simp
    rw [e]
    exact div_pos (by linarith) (by positivity)

/-- the slope of the Lorenz number has the sign of this -/
def lift (y : ℝ) : ℝ := 4 * fd1 y ^ 2 / fd0 y - fd1 y * fd0 y * (1 + exp (-y)) - 3 * fd2 y

theorem lift_deriv (y : ℝ) : HasDerivAt lift (fd1 y * fd0 y * exp (-y) - exp y / (1 + exp y) / fd0 y ^ 2 * thin y ^ 2) y := by
  have h1 := (((fd1_deriv y).pow 2).const_mul 4).div (fd0_deriv y) (fd0_pos y).ne'
  have h2 := ((fd1_deriv y).mul (fd0_deriv y)).mul (((hasDerivAt_neg y).exp).const_add 1)
  have h3 := (h1.sub h2).sub ((fd2_deriv y).const_mul 3)
  refine h3.congr_deriv ?_
  have he := exp_pos y
  have h0 := (fd0_pos y).ne'
  simp only [thin, exp_neg, Pi.mul_apply, Pi.pow_apply]
  field_simp
  ring

theorem lift_bot : Tendsto lift atBot (𝓝 0) := by
  have h1 : Tendsto (fun y => 4 * fd1 y ^ 2 / fd0 y) atBot (𝓝 0) := by
    have hb : Tendsto (fun y : ℝ => 4 * (exp y * (1 + exp y))) atBot (𝓝 (4 * (0 * (1 + 0)))) := (tendsto_exp_atBot.mul (tendsto_exp_atBot.const_add 1)).const_mul 4
    rw [zero_mul, mul_zero] at hb
    refine tendsto_of_tendsto_of_tendsto_of_le_of_le tendsto_const_nhds hb (fun y => ?_) fun y => ?_
    · have := fd0_pos y
      have := fd1_pos y
      positivity
    · have h2 := fd1_le y
      have h3 := fd0_pos y
      have h4 := fd1_pos y
      have h5 := fd0_ge y
      have he := exp_pos y
      rw [div_le_iff₀ h3]
      rw [div_lt_iff₀ (by positivity)] at h5
      have h6 : fd1 y ^ 2 ≤ exp y ^ 2 := pow_le_pow_left₀ h4.le h2 2
      nlinarith
  have h2 : Tendsto (fun y => fd1 y * fd0 y * (1 + exp (-y))) atBot (𝓝 0) := by
    have hb : Tendsto (fun y => fd1 y * fd0 y + fd1 y) atBot (𝓝 0) := by simpa using (fd1_bot.mul fd0_bot).add fd1_bot
    refine tendsto_of_tendsto_of_tendsto_of_le_of_le tendsto_const_nhds hb (fun y => ?_) fun y => ?_
    · have := fd0_pos y
      have := fd1_pos y
      positivity
    · have h4 := fd1_pos y
      have h7 : fd0 y * exp (-y) ≤ 1 := by
        rw [exp_neg, ← div_eq_mul_inv, div_le_one (exp_pos y)]
        exact (fd0_lt y).le
      simp only
      nlinarith [mul_le_mul_of_nonneg_left h7 h4.le]
  have := (h1.sub h2).sub (fd2_bot.const_mul 3)
  simp only [sub_zero, mul_zero] at this
  exact this

theorem exp23 : (9.97 : ℝ) ≤ exp 2.3 := by
  have h5 : (2.3 : ℝ) = 2 + 0.3 := by norm_num
  rw [h5, exp_add]
  have h6 := sum_le_exp_of_nonneg (show (0 : ℝ) ≤ 0.3 by norm_num) 5
  simp only [Finset.sum_range_succ, Finset.sum_range_zero, Nat.factorial] at h6
  have h7 : exp (2 : ℝ) = exp 1 * exp 1 := by rw [← exp_add]; norm_num
  have h8 := exp_one_gt_d9
  rw [h7]
  have h9 : (7.389 : ℝ) ≤ exp 1 * exp 1 := by
    norm_num at h8 ⊢
    nlinarith
  have h10 : (1.3498 : ℝ) ≤ exp 0.3 := by
    norm_num at h6 ⊢
    linarith
  have := mul_le_mul h9 h10 (by norm_num) (by positivity)
  norm_num at this ⊢
  linarith

theorem lift_slope {y : ℝ} (hy : y ≤ 2.3) : 0 < fd1 y * fd0 y * exp (-y) - exp y / (1 + exp y) / fd0 y ^ 2 * thin y ^ 2 := by
  have he := exp_pos y
  have hp := fd0_pos y
  have hl : fd0 y ≤ 2.4 := by
    unfold fd0
    rw [log_le_iff_le_exp (by positivity)]
    have h2 : (2.4 : ℝ) = 2.3 + 0.1 := by norm_num
    rw [h2, exp_add]
    have h3 := quadratic_le_exp_of_nonneg (show (0 : ℝ) ≤ 0.1 by norm_num)
    have h4 := exp23
    have h5 : exp 2.3 * 1.105 ≤ exp 2.3 * exp 0.1 := mul_le_mul_of_nonneg_left (by norm_num at h3 ⊢; linarith) (exp_pos _).le
    norm_num at h4 h5 ⊢
    have h1 : exp y ≤ exp (23 / 10) := exp_le_exp.2 (by norm_num at hy ⊢; exact hy)
    linarith
  have hc := cosh_cubic hp hl
  rw [show exp (fd0 y) = 1 + exp y from exp_log (by positivity), add_sub_cancel_left] at hc
  have hq := fd1_quad y
  have ht := thin_lt y
  have ht0 : 0 < thin y := thin_pos y
  have h1 : thin y ^ 2 < fd0 y ^ 2 := pow_lt_pow_left₀ ht ht0.le (by norm_num)
  have h2 : exp y / (1 + exp y) / fd0 y ^ 2 * thin y ^ 2 < exp y / (1 + exp y) := by
    have : exp y / (1 + exp y) / fd0 y ^ 2 * thin y ^ 2 < exp y / (1 + exp y) / fd0 y ^ 2 * fd0 y ^ 2 := mul_lt_mul_of_pos_left h1 (by positivity)
    rwa [div_mul_cancel₀ _ (by positivity)] at this
  have h3 : exp y / (1 + exp y) < fd1 y * fd0 y * exp (-y) := by
    rw [exp_neg, ← div_eq_mul_inv, div_lt_div_iff₀ (by positivity) he]
    have h4 : (fd0 y + fd0 y ^ 2 / 4) * fd0 y * (1 + exp y) < fd1 y * fd0 y * (1 + exp y) :=
      mul_lt_mul_of_pos_right (mul_lt_mul_of_pos_right hq hp) (by positivity)
    nlinarith
  linarith

theorem lift_low {y : ℝ} (hy : y ≤ 2.3) : 0 < lift y := by
  have hm : StrictMonoOn lift (Iic 2.3) := by
    refine strictMonoOn_of_deriv_pos (convex_Iic _) (fun x _ => (lift_deriv x).continuousAt.continuousWithinAt) fun x hx => ?_
    rw [interior_Iic] at hx
    rw [(lift_deriv x).deriv]
    exact lift_slope (le_of_lt hx)
  have : 0 ≤ lift (y - 1) := le_of_tendsto lift_bot ((eventually_le_atBot (y - 1)).mono fun x hx =>
    hm.monotoneOn (show x ∈ Iic 2.3 from hx.trans (by linarith)) (show y - 1 ∈ Iic 2.3 from by simp only [mem_Iic]; linarith) hx)
  exact this.trans_lt (hm (show y - 1 ∈ Iic 2.3 from by simp only [mem_Iic]; linarith) hy (by linarith))

theorem exp_growth {y : ℝ} (hy : 2.3 ≤ y) : exp (-y) * (9.97 * (1 + (y - 2.3) + (y - 2.3) ^ 2 / 2 + (y - 2.3) ^ 3 / 6 + (y - 2.3) ^ 4 / 24)) ≤ 1 := by
  have hz : 0 ≤ y - 2.3 := by linarith
  have h1 := sum_le_exp_of_nonneg hz 5
  simp only [Finset.sum_range_succ, Finset.sum_range_zero, Nat.factorial] at h1
  norm_num at h1
  have h2 := exp23
  have e : exp y = exp 2.3 * exp (y - 2.3) := by rw [← exp_add]; congr 1; ring
  have h3 : 9.97 * (1 + (y - 2.3) + (y - 2.3) ^ 2 / 2 + (y - 2.3) ^ 3 / 6 + (y - 2.3) ^ 4 / 24) ≤ exp y := by
    rw [e]
    refine mul_le_mul h2 ?_ (by positivity) (exp_pos _).le
    norm_num
    linarith
  rw [exp_neg, ← div_eq_inv_mul, div_le_one (exp_pos y)]
  exact h3

/-- the polynomial in the last step -/
theorem poly_bound {z a : ℝ} (hz : 0 ≤ z) (ha : 1.6449 < a) (ha2 : a < 1.645) :
    8 * (a + (2.3 + z) ^ 2 / 2) - (2.3 + z) ^ 2 + (a + (2.3 + z) ^ 2 / 2) * (2 * (2.3 + z) + (2.3 + z) ^ 2) + 3 * ((2.3 + z) ^ 3 / 6 + a * (2.3 + z)) + 3 * (2.3 + z)
      + 0.1004 * ((a + (2.3 + z) ^ 2 / 2) * (1 + 2 * (2.3 + z))) + 0.0101 * (a + (2.3 + z) ^ 2 / 2) <
    10.82 * (9.97 * (1 + z + z ^ 2 / 2 + z ^ 3 / 6 + z ^ 4 / 24)) := by
  have h1 : 0 ≤ (1.645 - a) * z := mul_nonneg (by linarith) hz
  have h2 : 0 ≤ (1.645 - a) * z ^ 2 := mul_nonneg (by linarith) (by positivity)
  have h3 : 0 ≤ z ^ 2 := by positivity
  have h4 : 0 ≤ z ^ 3 := by positivity
  have h5 : 0 ≤ z ^ 4 := by positivity
  norm_num at *
  nlinarith

theorem core_pos {y a e : ℝ} (hy : 2.3 ≤ y) (he : 0 < e) (hE : e ≤ 0.1004) (ha1 : 1.6449 < a) (ha2 : a < 1.645)
    (hb : 8 * (a + y ^ 2 / 2) - y ^ 2 + (a + y ^ 2 / 2) * (2 * y + y ^ 2) + 3 * (y ^ 3 / 6 + a * y) + 3 * y
      + 0.1004 * ((a + y ^ 2 / 2) * (1 + 2 * y)) + 0.0101 * (a + y ^ 2 / 2) <
      10.82 * (9.97 * (1 + (y - 2.3) + (y - 2.3) ^ 2 / 2 + (y - 2.3) ^ 3 / 6 + (y - 2.3) ^ 4 / 24)))
    (hg : e * (9.97 * (1 + (y - 2.3) + (y - 2.3) ^ 2 / 2 + (y - 2.3) ^ 3 / 6 + (y - 2.3) ^ 4 / 24)) ≤ 1) :
    0 < 4 * (a + y ^ 2 / 2 - e) ^ 2 - (a + y ^ 2 / 2 - e) * (y + e) ^ 2 * (1 + e) - 3 * (y ^ 3 / 6 + a * y + e) * (y + e) := by
  obtain ⟨A, hA⟩ : ∃ A, A = a + y ^ 2 / 2 := ⟨_, rfl⟩
  rw [← hA] at hb ⊢
  generalize 9.97 * (1 + (y - 2.3) + (y - 2.3) ^ 2 / 2 + (y - 2.3) ^ 3 / 6 + (y - 2.3) ^ 4 / 24) = G at hb hg
  have hAp : 0 < A := by rw [hA]; positivity
  have hy0 : 0 < y := by linarith
  have k1 := mul_lt_mul_of_pos_left hb he
  have k2 : e * (10.82 * G) ≤ 10.82 := by
    have := mul_le_mul_of_nonneg_left hg (show (0 : ℝ) ≤ 10.82 by norm_num)
    linarith
  have k3 : e ^ 2 * (A * (1 + 2 * y)) ≤ e * (0.1004 * (A * (1 + 2 * y))) := by
    have : 0 ≤ e * (0.1004 - e) * (A * (1 + 2 * y)) := by
      have : 0 ≤ 0.1004 - e := by linarith
      positivity
    linarith
  have k4 : e ^ 3 * A ≤ e * (0.0101 * A) := by
    have h6 : e ^ 2 ≤ 0.0101 := by nlinarith only [he, hE]
    have : 0 ≤ e * (0.0101 - e ^ 2) * A := by
      have : 0 ≤ 0.0101 - e ^ 2 := by linarith
      positivity
    linarith
  have k5 : 10.82 < 4 * a ^ 2 := by nlinarith only [ha1]
  have k6 : 0 ≤ e ^ 2 * (1 + 2 * y + y ^ 2) := by positivity
  have k7 : 0 ≤ e ^ 3 * (1 + 2 * y) := by positivity
  have k8 : 0 ≤ e ^ 4 := by positivity
  have ex : 4 * (A - e) ^ 2 - (A - e) * (y + e) ^ 2 * (1 + e) - 3 * (y ^ 3 / 6 + a * y + e) * (y + e) =
      4 * a ^ 2 - e * (8 * A - y ^ 2 + A * (2 * y + y ^ 2) + 3 * (y ^ 3 / 6 + a * y) + 3 * y) + e ^ 2 * (1 + 2 * y + y ^ 2) - e ^ 2 * (A * (1 + 2 * y))
        - e ^ 3 * A + e ^ 3 * (1 + 2 * y) + e ^ 4 := by
    rw [hA]
    ring
  rw [ex]
  linarith

theorem lift_high {y : ℝ} (hy : 2.3 ≤ y) : 0 < lift y := by
  have hg := exp_growth hy
  have h0 := fd0_reflect y
  have h1 := fd1_reflect y
  have h2 := fd2_reflect y
  have p0 := fd0_pos (-y)
  have q0 := (fd0_lt (-y)).le
  have p1 := fd1_pos (-y)
  have q1 := fd1_le (-y)
  have p2 := fd2_pos (-y)
  have q2 := fd2_le (-y)
  have l0 := fd0_pos y
  have l1 := fd1_pos y
  have hpi := pi_sq
  have he := exp_pos (-y)
  have ha1 : 1.6449 < π ^ 2 / 6 := by linarith [hpi.1]
  have ha2 : π ^ 2 / 6 < 1.645 := by linarith [hpi.2]
  have hb := poly_bound (z := y - 2.3) (by linarith) ha1 ha2
  rw [show (2.3 : ℝ) + (y - 2.3) = y by ring] at hb
  generalize π ^ 2 / 6 = a at *
  obtain ⟨e, hee⟩ : ∃ e, exp (-y) = e := ⟨_, rfl⟩
  rw [hee] at hg q0 q1 q2 he
  have hE : e ≤ 0.1004 := by
    have : 0 ≤ y - 2.3 := by linarith
    have h5 : 9.97 ≤ 9.97 * (1 + (y - 2.3) + (y - 2.3) ^ 2 / 2 + (y - 2.3) ^ 3 / 6 + (y - 2.3) ^ 4 / 24) := by
      have : 0 ≤ (y - 2.3) + (y - 2.3) ^ 2 / 2 + (y - 2.3) ^ 3 / 6 + (y - 2.3) ^ 4 / 24 := by positivity
      linarith
    have := mul_le_mul_of_nonneg_left h5 he.le
    norm_num at this hg ⊢
    linarith
  have hcore : 0 < 4 * (a + y ^ 2 / 2 - e) ^ 2 - (a + y ^ 2 / 2 - e) * (y + e) ^ 2 * (1 + e) - 3 * (y ^ 3 / 6 + a * y + e) * (y + e) := core_pos hy he hE ha1 ha2 hb hg
  have hd : a + y ^ 2 / 2 - e ≤ fd1 y := by linarith
  have hl : fd0 y ≤ y + e := by linarith
  have hf : fd2 y ≤ y ^ 3 / 6 + a * y + e := by linarith
  have hd0 : 0 < a + y ^ 2 / 2 - e := by linarith [sq_nonneg y]
  have hm : 4 * (a + y ^ 2 / 2 - e) ^ 2 - (a + y ^ 2 / 2 - e) * ((y + e) ^ 2 * (1 + e)) ≤ 4 * fd1 y ^ 2 - fd1 y * ((y + e) ^ 2 * (1 + e)) := by
    have h8 : (y + e) ^ 2 * (1 + e) ≤ 8 * (a + y ^ 2 / 2 - e) := by
      have : (y + e) ^ 2 * (1 + e) ≤ (y + 0.1004) ^ 2 * (1 + 0.1004) := by gcongr
      have : (y + 0.1004) ^ 2 * (1 + 0.1004) ≤ 8 * (a + y ^ 2 / 2 - 0.1004) := by nlinarith only [ha1, hy]
      linarith
    have : 0 ≤ (fd1 y - (a + y ^ 2 / 2 - e)) * (4 * (fd1 y + (a + y ^ 2 / 2 - e)) - (y + e) ^ 2 * (1 + e)) := mul_nonneg (by linarith) (by linarith)
    linarith
  have hm2 : fd1 y * (fd0 y ^ 2 * (1 + e)) ≤ fd1 y * ((y + e) ^ 2 * (1 + e)) := by gcongr
  have hm3 : fd2 y * fd0 y ≤ (y ^ 3 / 6 + a * y + e) * (y + e) := by
    have := fd2_pos y
    have : 0 < y ^ 3 / 6 + a * y + e := by linarith
    gcongr
  have hfin : 0 < 4 * fd1 y ^ 2 - fd1 y * (fd0 y ^ 2 * (1 + e)) - 3 * (fd2 y * fd0 y) := by linarith
  have hL : lift y = (4 * fd1 y ^ 2 - fd1 y * (fd0 y ^ 2 * (1 + exp (-y))) - 3 * (fd2 y * fd0 y)) / fd0 y := by
    unfold lift
    field_simp
  rw [hL, hee]
  exact div_pos hfin l0

/-! ## The reduced Lorenz number -/

/-- `(6F₂F₀ - 4F₁²)/F₀²` -/
def lor (y : ℝ) : ℝ := (6 * fd2 y * fd0 y - 4 * fd1 y ^ 2) / fd0 y ^ 2

theorem lor_deriv (y : ℝ) : HasDerivAt lor (2 * (exp y / (1 + exp y)) * lift y / fd0 y ^ 2) y := by
  have h := ((((fd2_deriv y).const_mul 6).mul (fd0_deriv y)).sub (((fd1_deriv y).pow 2).const_mul 4)).div ((fd0_deriv y).pow 2) (pow_ne_zero 2 (fd0_pos y).ne')
  refine h.congr_deriv ?_
  have he := exp_pos y
  have h0 := (fd0_pos y).ne'
  simp only [lift, exp_neg, Pi.mul_apply, Pi.pow_apply, Pi.sub_apply]
  field_simp
  ring

theorem lor_mono : StrictMono lor := by
  refine strictMono_of_hasDerivAt_pos lor_deriv fun y => ?_
  have h1 : 0 < lift y := (le_total y 2.3).elim lift_low lift_high
  have h2 := (occ_lt y).1
  have h3 := fd0_pos y
  positivity

theorem ratio_bot {f : ℝ → ℝ} (h1 : ∀ y, fd0 y ≤ f y) (h2 : ∀ y, f y ≤ exp y) : Tendsto (fun y => f y / fd0 y) atBot (𝓝 1) := by
  have hb : Tendsto (fun y : ℝ => 1 + exp y) atBot (𝓝 1) := by simpa using tendsto_exp_atBot.const_add 1
  refine tendsto_of_tendsto_of_tendsto_of_le_of_le tendsto_const_nhds hb (fun y => ?_) fun y => ?_
  · exact (one_le_div (fd0_pos y)).2 (h1 y)
  · have h3 := fd0_ge y
    have he := exp_pos y
    rw [div_lt_iff₀ (by positivity)] at h3
    show f y / fd0 y ≤ 1 + exp y
    rw [div_le_iff₀ (fd0_pos y)]
    linarith [h2 y]

theorem lor_bot : Tendsto lor atBot (𝓝 2) := by
  have h1 := ratio_bot (f := fd1) (fun y => (fd0_lt_fd1 y).le) fd1_le
  have h2 := ratio_bot (f := fd2) (fun y => ((fd0_lt_fd1 y).trans (fd1_lt_fd2 y)).le) fd2_le
  have h3 := (h2.const_mul 6).sub ((h1.pow 2).const_mul 4)
  norm_num at h3
  refine h3.congr fun y => ?_
  have := (fd0_pos y).ne'
  unfold lor
  field_simp

theorem lor_top : Tendsto lor atTop (𝓝 (π ^ 2 / 3)) := by
  have hsq : Tendsto (fun y : ℝ => 400 / y ^ 2) atTop (𝓝 0) := tendsto_const_nhds.div_atTop (tendsto_pow_atTop (by norm_num))
  rw [tendsto_iff_norm_sub_tendsto_zero]
  refine tendsto_of_tendsto_of_tendsto_of_le_of_le' tendsto_const_nhds hsq (Eventually.of_forall fun y => norm_nonneg _) ?_
  filter_upwards [eventually_ge_atTop (1 : ℝ)] with y hy
  have h0 := fd0_reflect y
  have h1 := fd1_reflect y
  have h2 := fd2_reflect y
  have p0 := fd0_pos (-y)
  have q0 := (fd0_lt (-y)).le
  have p1 := fd1_pos (-y)
  have q1 := fd1_le (-y)
  have p2 := fd2_pos (-y)
  have q2 := fd2_le (-y)
  have l0 := fd0_pos y
  have hpi := pi_sq
  have ha1 : 0 < π ^ 2 / 6 := by linarith [hpi.1]
  have ha2 : π ^ 2 / 6 < 2 := by linarith [hpi.2]
  have ha : π ^ 2 / 3 = 2 * (π ^ 2 / 6) := by ring
  have he : exp (-y) * y ^ 3 ≤ 6 := by
    have h3 := sum_le_exp_of_nonneg (show (0 : ℝ) ≤ y by linarith) 4
    simp only [Finset.sum_range_succ, Finset.sum_range_zero, Nat.factorial] at h3
    norm_num at h3
    have h4 : y ^ 3 ≤ 6 * exp y := by nlinarith
    rw [exp_neg, ← div_eq_inv_mul, div_le_iff₀ (exp_pos y)]
    exact h4
  have he1 : exp (-y) ≤ 1 := exp_le_one_iff.2 (by linarith)
  have hep := exp_pos (-y)
  have hyp : 0 < y := by linarith
  unfold lor
  rw [ha]
  generalize π ^ 2 / 6 = a at *
  generalize exp (-y) = e at *
  generalize fd0 (-y) = u at *
  generalize fd1 (-y) = v at *
  generalize fd2 (-y) = w at *
  have hl : y ≤ fd0 y := by linarith
  have ex : (6 * fd2 y * fd0 y - 4 * fd1 y ^ 2) / fd0 y ^ 2 - 2 * a = (6 * fd2 y * fd0 y - 4 * fd1 y ^ 2 - 2 * a * fd0 y ^ 2) / fd0 y ^ 2 := by
    field_simp
  have hN : |6 * fd2 y * fd0 y - 4 * fd1 y ^ 2 - 2 * a * fd0 y ^ 2| ≤ 400 := by
    have e1 : 6 * fd2 y * fd0 y - 4 * fd1 y ^ 2 - 2 * a * fd0 y ^ 2 = -(4 * a ^ 2) + u * (y ^ 3 + 6 * a * y) + 6 * w * (y + u) + 8 * v * (a + y ^ 2 / 2) - 4 * v ^ 2 - 4 * a * y * u - 2 * a * u ^ 2 := by
      rw [h0, h1, h2]
      ring
    have y1 : y ≤ y ^ 3 := by nlinarith [mul_pos hyp hyp]
    have y2 : y ^ 2 ≤ y ^ 3 := by nlinarith [mul_pos hyp hyp]
    have y3 : 1 ≤ y ^ 3 := by linarith
    have ey1 : e * y ≤ 6 := (mul_le_mul_of_nonneg_left y1 hep.le).trans he
    have ey2 : e * y ^ 2 ≤ 6 := (mul_le_mul_of_nonneg_left y2 hep.le).trans he
    have u3 : u * y ^ 3 ≤ 6 := (mul_le_mul_of_nonneg_right q0 (by positivity)).trans he
    have u1 : u * y ≤ 6 := (mul_le_mul_of_nonneg_right q0 (by positivity)).trans ey1
    have w1 : w * y ≤ 6 := (mul_le_mul_of_nonneg_right q2 (by positivity)).trans ey1
    have v2 : v * y ^ 2 ≤ 6 := (mul_le_mul_of_nonneg_right q1 (by positivity)).trans ey2
    have u1' : u ≤ 1 := q0.trans he1
    have v1' : v ≤ 1 := q1.trans he1
    have w1' : w ≤ 1 := q2.trans he1
    have b1 : a * (u * y) ≤ 2 * 6 := mul_le_mul ha2.le u1 (by positivity) (by norm_num)
    have b2 : v * a ≤ 1 * 2 := mul_le_mul v1' ha2.le ha1.le (by norm_num)
    have b3 : w * u ≤ 1 * 1 := mul_le_mul w1' u1' p0.le (by norm_num)
    have b4 : a ^ 2 ≤ 2 ^ 2 := pow_le_pow_left₀ ha1.le ha2.le 2
    have b5 : v ^ 2 ≤ 1 ^ 2 := pow_le_pow_left₀ p1.le v1' 2
    have b6 : a * u ^ 2 ≤ 2 * 1 ^ 2 := mul_le_mul ha2.le (pow_le_pow_left₀ p0.le u1' 2) (by positivity) (by norm_num)
    have c1 : 0 < u * y ^ 3 := by positivity
    have c2 : 0 < a * (u * y) := by positivity
    have c3 : 0 < w * y := by positivity
    have c4 : 0 < w * u := by positivity
    have c5 : 0 < v * a := by positivity
    have c6 : 0 < v * y ^ 2 := by positivity
    have c7 : 0 < v ^ 2 := by positivity
    have c8 : 0 < a * u ^ 2 := by positivity
    rw [e1, abs_le]
    constructor <;> linarith only [b1, b2, b3, b4, b5, b6, c1, c2, c3, c4, c5, c6, c7, c8, u3, w1, v2, sq_nonneg a]
  rw [ex, norm_eq_abs, abs_div, abs_of_pos (by positivity : 0 < fd0 y ^ 2)]
  have h5 : y ^ 2 ≤ fd0 y ^ 2 := pow_le_pow_left₀ hyp.le hl 2
  exact div_le_div₀ (by norm_num) hN (by positivity) h5

theorem lor_range (y : ℝ) : 2 < lor y ∧ lor y < π ^ 2 / 3 := by
  constructor
  · have h := le_of_tendsto lor_bot ((eventually_le_atBot (y - 1)).mono fun x hx => lor_mono.monotone hx)
    exact h.trans_lt (lor_mono (by linarith))
  · have h := ge_of_tendsto lor_top ((eventually_ge_atTop (y + 1)).mono fun x hx => lor_mono.monotone hx)
    exact (lor_mono (by linarith : y < y + 1)).trans_le h

/-! ## The third transport integral of the parabolic band -/

theorem moment2 (EF : ℝ) {T : ℝ} (hT : 0 < T) : ∫ E in Ioi 0, E ^ 2 * fermi EF T E = 2 * (kB * T) ^ 3 * fd2 (EF / (kB * T)) := by
  have hkT : 0 < kB * T := mul_pos kB_pos hT
  have hkB : (kB : ℝ) ≠ 0 := kB_pos.ne'
  have hexp : ∀ n : ℕ, Tendsto (fun E : ℝ => E ^ n * exp ((EF - E) / (kB * T))) atTop (𝓝 0) := by
    intro n
    have h2 := (tendsto_pow_mul_exp_neg_atTop_nhds_zero n).comp (tendsto_id.const_mul_atTop (show (0 : ℝ) < 1 / (kB * T) by positivity))
    have h3 := h2.const_mul ((kB * T) ^ n * exp (EF / (kB * T)))
    rw [mul_zero] at h3
    refine h3.congr fun E => ?_
    simp only [Function.comp, id]
    rw [show (EF - E) / (kB * T) = EF / (kB * T) + -(1 / (kB * T) * E) by ring, exp_add]
    rw [show ∀ p q r : ℝ, p * q * (r * exp (-(1 / (kB * T) * E))) = p * r * (q * exp (-(1 / (kB * T) * E))) by intros; ring, ← mul_pow]
    congr 2
    field_simp
  have hE : ∀ (n : ℕ) (f : ℝ → ℝ), (∀ y, 0 < f y) → (∀ y, f y ≤ exp y) → Tendsto (fun E => E ^ n * f ((EF - E) / (kB * T))) atTop (𝓝 0) := by
    intro n f hp hl
    refine tendsto_of_tendsto_of_tendsto_of_le_of_le' tendsto_const_nhds (hexp n) ?_ ?_
    · filter_upwards [eventually_ge_atTop (0 : ℝ)] with E hE
      exact mul_nonneg (by positivity) (hp _).le
    · filter_upwards [eventually_ge_atTop (0 : ℝ)] with E hE
      exact mul_le_mul_of_nonneg_left (hl _) (by positivity)
  have hlim : Tendsto (fun E => -(kB * T) * (E ^ 2 * fd0 ((EF - E) / (kB * T))) - 2 * (kB * T) ^ 2 * (E ^ 1 * fd1 ((EF - E) / (kB * T)))
      - 2 * (kB * T) ^ 3 * (E ^ 0 * fd2 ((EF - E) / (kB * T)))) atTop (𝓝 0) := by
    have := (((hE 2 fd0 fd0_pos fun y => (fd0_lt y).le).const_mul (-(kB * T))).sub ((hE 1 fd1 fd1_pos fd1_le).const_mul (2 * (kB * T) ^ 2))).sub
      ((hE 0 fd2 fd2_pos fd2_le).const_mul (2 * (kB * T) ^ 3))
    rwa [mul_zero, mul_zero, mul_zero, sub_zero, sub_zero] at this
  have h := integral_Ioi_of_hasDerivAt_of_nonneg' (g := fun E => -(kB * T) * (E ^ 2 * fd0 ((EF - E) / (kB * T))) - 2 * (kB * T) ^ 2 * (E ^ 1 * fd1 ((EF - E) / (kB * T)))
      - 2 * (kB * T) ^ 3 * (E ^ 0 * fd2 ((EF - E) / (kB * T))))
    (g' := fun E => E ^ 2 * fermi EF T E) (a := 0) (l := 0) (fun E _ => ?_) (fun E hE => ?_) hlim
  · rw [h]
    simp
  · have h0 := (fd0_deriv ((EF - E) / (kB * T))).comp E (arg_deriv EF T E)
    have h1 := (fd1_deriv ((EF - E) / (kB * T))).comp E (arg_deriv EF T E)
    have h2 := (fd2_deriv ((EF - E) / (kB * T))).comp E (arg_deriv EF T E)
    have := (((((hasDerivAt_id E).pow 2).mul h0).const_mul (-(kB * T))).sub ((((hasDerivAt_id E).pow 1).mul h1).const_mul (2 * (kB * T) ^ 2))).sub
      ((((hasDerivAt_id E).pow 0).mul h2).const_mul (2 * (kB * T) ^ 3))
    refine this.congr_deriv ?_
    rw [fermi_flip EF hT]
    simp only [id, Function.comp, Pi.pow_apply]
    have := exp_pos ((EF - E) / (kB * T))
    push_cast
    field_simp
    ring
  · have : 0 < E := hE
    unfold fermi
    positivity

/-- the third transport integral -/
theorem spb_K2 (b : Spb) (s d EF : ℝ) {T : ℝ} (hT : 0 < T) : (Placed.exact ⟨b.fns, s, d⟩).k 2 EF T =
    b.sigma0 * (6 * fd2 (EF / (kB * T)) - 4 * (EF / (kB * T)) * fd1 (EF / (kB * T)) + (EF / (kB * T)) ^ 2 * fd0 (EF / (kB * T))) := by
  have hkT : 0 < kB * T := mul_pos kB_pos hT
  have hkB : (kB : ℝ) ≠ 0 := kB_pos.ne'
  have i2 : IntegrableOn (fun E => E ^ 2 * fermi EF T E) (Ioi 0) := dos_integrable (fun E => E ^ 2) 2 (by fun_prop) (growth 1 2 fun E hE => by rw [abs_of_nonneg (by positivity), one_mul]) T hT EF
  have i1 : IntegrableOn (fun E => E * fermi EF T E) (Ioi 0) := dos_integrable (fun E => E) 1 continuous_id (growth 1 1 fun E hE => by rw [abs_of_nonneg (by linarith), pow_one, one_mul]) T hT EF
  have i0 : IntegrableOn (fun E => fermi EF T E) (Ioi 0) := by
    simpa using dos_integrable (fun _ => 1) 0 continuous_const (growth 1 0 fun E hE => by simp) T hT EF
  have e : (fun E => b.trs E T * reduced EF T E ^ 2) = fun E => b.sigma0 / (kB * T) ^ 3 * (E * (E - EF) ^ 2) := by
    funext E
    unfold Spb.trs reduced
    field_simp
  have h := (parts (fun E => b.sigma0 / (kB * T) ^ 3 * (3 * E ^ 2 - 4 * EF * E + EF ^ 2)) (fun E => b.trs E T * reduced EF T E ^ 2) 3 (by fun_prop)
      (by rw [e]; fun_prop) (by simp [Spb.trs])
      (fun E _ => by
        have h1 := ((hasDerivAt_id E).mul (((hasDerivAt_id E).sub_const EF).pow 2)).const_mul (b.sigma0 / (kB * T) ^ 3)
        rw [e]
        refine h1.congr_deriv ?_
        simp only [id, Pi.pow_apply]
        push_cast
        ring)
      (growth (|b.sigma0 / (kB * T) ^ 3| * (3 + 4 * |EF| + |EF| ^ 2)) 3 fun E hE => by
        rw [abs_mul, mul_assoc |b.sigma0 / (kB * T) ^ 3|]
        refine mul_le_mul_of_nonneg_left (a := |b.sigma0 / (kB * T) ^ 3|) ?_ (abs_nonneg (b.sigma0 / (kB * T) ^ 3))
        have h2 := abs_nonneg EF
        have h3 : E ^ 2 ≤ E ^ 3 := pow_le_pow_right₀ hE (by norm_num)
        have h4 : E ≤ E ^ 3 := by nlinarith
        have h5 : 1 ≤ E ^ 3 := one_le_pow₀ hE
        have h6 : |3 * E ^ 2 - 4 * EF * E + EF ^ 2| ≤ 3 * E ^ 2 + 4 * |EF| * E + |EF| ^ 2 := by
          have := abs_add_le (3 * E ^ 2 - 4 * EF * E) (EF ^ 2)
          have h7 : |3 * E ^ 2 - 4 * EF * E| ≤ |3 * E ^ 2| + |4 * EF * E| := abs_sub _ _
          rw [abs_of_nonneg (by positivity : 0 ≤ 3 * E ^ 2), abs_mul, abs_mul, abs_of_nonneg (by linarith : 0 ≤ E), abs_of_pos (by norm_num : (0 : ℝ) < 4)] at h7
          rw [abs_pow] at this
          linarith
        have h8 := mul_le_mul_of_nonneg_left h4 h2
        have h9 := mul_le_mul_of_nonneg_left h5 (sq_nonneg |EF|)
        linarith)
      (growth (|b.sigma0 / (kB * T) ^ 3| * (1 + |EF|) ^ 2) 3 fun E hE => by
        rw [congrFun e E, abs_mul, mul_assoc, abs_mul E, abs_of_nonneg (by linarith : 0 ≤ E), abs_pow]
        refine mul_le_mul_of_nonneg_left (a := |b.sigma0 / (kB * T) ^ 3|) ?_ (abs_nonneg (b.sigma0 / (kB * T) ^ 3))
        have h1 := abs_sub E EF
        rw [abs_of_nonneg (by linarith : 0 ≤ E)] at h1
        have h2 := abs_nonneg EF
        have h3 : |E - EF| ≤ (1 + |EF|) * E := by nlinarith
        have h4 := pow_le_pow_left₀ (abs_nonneg _) h3 2
        have h5 := mul_le_mul_of_nonneg_left h4 (by linarith : 0 ≤ E)
        calc E * |E - EF| ^ 2 ≤ E * ((1 + |EF|) * E) ^ 2 := h5
          _ = (1 + |EF|) ^ 2 * E ^ 3 := by ring) EF T hT).2.2
  simp only [Placed.exact, window, ← mul_assoc]
  change ∫ E in Ioi 0, b.trs E T * reduced EF T E ^ 2 * -deriv (fermi EF T) E = _
  rw [← h]
  have e2 : ∀ E, b.sigma0 / (kB * T) ^ 3 * (3 * E ^ 2 - 4 * EF * E + EF ^ 2) * fermi EF T E =
      b.sigma0 / (kB * T) ^ 3 * (3 * (E ^ 2 * fermi EF T E) - 4 * EF * (E * fermi EF T E) + EF ^ 2 * fermi EF T E) := by
    intro E
    ring
  simp only [e2]
  have i21 : IntegrableOn (fun E => 3 * (E ^ 2 * fermi EF T E) - 4 * EF * (E * fermi EF T E)) (Ioi 0) := (i2.const_mul 3).sub (i1.const_mul (4 * EF))
  rw [integral_const_mul, integral_add i21 (i0.const_mul (EF ^ 2)), integral_sub (i2.const_mul 3) (i1.const_mul (4 * EF)),
    integral_const_mul, integral_const_mul, integral_const_mul, moment0 EF hT, moment1 EF hT, moment2 EF hT]
  field_simp
  ring

/-! ## The properties of the band -/

theorem spb_lorenz (b : Spb) (s d EF : ℝ) {T : ℝ} (hb : 0 < b.sigma0) (hT : 0 < T) :
    (Placed.exact ⟨b.fns, s, d⟩).prop .L (some (EF, T)) = .ok (some (L0 * lor (EF / (kB * T)))) ∧
    (Placed.exact ⟨b.fns, s, d⟩).prop .Ke (some (EF, T)) = .ok (some (100 * kB * kB * (b.sigma0 * fd0 (EF / (kB * T)) * lor (EF / (kB * T))) * T)) := by
  obtain ⟨h0, h1⟩ := spb_K b s d EF hT
  have h2 := spb_K2 b s d EF hT
  have hf := (fd0_pos (EF / (kB * T))).ne'
  have hb' := hb.ne'
  have e1 : ∀ x y z : ℝ, (Placed.exact ⟨b.fns, s, d⟩).k 0 EF T = x → (Placed.exact ⟨b.fns, s, d⟩).k 1 EF T = y → (Placed.exact ⟨b.fns, s, d⟩).k 2 EF T = z →
      (Placed.exact ⟨b.fns, s, d⟩).prop .L (some (EF, T)) = .ok (some (L0 * (z / x - (y / x) ^ 2))) ∧
      (Placed.exact ⟨b.fns, s, d⟩).prop .Ke (some (EF, T)) = .ok (some (100 * kB * kB * (z - y ^ 2 / x) * T)) := by
    intro x y z hx hy hz
    simp only [Leaf.prop, exact_src, Src.prop, hx, hy, hz]
    exact ⟨rfl, rfl⟩
  obtain ⟨e2, e3⟩ := e1 _ _ _ h0 h1 h2
  rw [e2, e3]
  generalize EF / (kB * T) = y at *
  constructor
  · congr 3
    unfold lor seeb
    field_simp
    ring
  · congr 4
    unfold lor seeb
    field_simp
    ring

/-- **C140** The Lorenz number of a parabolic band with acoustic-phonon scattering rises strictly with the Fermi level, from `2(kB/e)²` deep
in the gap to the Sommerfeld value `(π²/3)(kB/e)²` deep in the band; it lies strictly between the two at every Fermi level and temperature,
and takes every value between them at exactly one Fermi level. (`L0` is `(kB/e)²` in the unit of the code, `1E-8 W.Ohm/K^2`.) -/
theorem C140_lorenz (b : Spb) (s d T : ℝ) (hb : 0 < b.sigma0) (hT : 0 < T) : ∃ L : ℝ → ℝ,
    (∀ EF, (Placed.exact ⟨b.fns, s, d⟩).prop .L (some (EF, T)) = .ok (some (L EF))) ∧ StrictMono L ∧
    Tendsto L atBot (𝓝 (2 * L0)) ∧ Tendsto L atTop (𝓝 (π ^ 2 / 3 * L0)) ∧
    (∀ EF, 2 * L0 < L EF ∧ L EF < π ^ 2 / 3 * L0) ∧
    ∀ v, 2 * L0 < v → v < π ^ 2 / 3 * L0 → ∃! EF, (Placed.exact ⟨b.fns, s, d⟩).prop .L (some (EF, T)) = .ok (some v) := by
  have hkT : 0 < kB * T := mul_pos kB_pos hT
  have hkB : (kB : ℝ) ≠ 0 := kB_pos.ne'
  have hL : (0 : ℝ) < L0 := by unfold L0; norm_num
  have hm : StrictMono (fun EF => L0 * lor (EF / (kB * T))) := fun x y hxy =>
    mul_lt_mul_of_pos_left (lor_mono (div_lt_div_of_pos_right hxy hkT)) hL
  have h : ∀ EF, (Placed.exact ⟨b.fns, s, d⟩).prop .L (some (EF, T)) = .ok (some (L0 * lor (EF / (kB * T)))) := fun EF => (spb_lorenz b s d EF hb hT).1
  refine ⟨_, h, hm, ?_, ?_, fun EF => ?_, fun v h1 h2 => ?_⟩
  · have := (lor_bot.comp (tendsto_id.atBot_div_const hkT)).const_mul L0
    rw [mul_comm L0] at this
    exact this
  · have := (lor_top.comp (tendsto_id.atTop_div_const hkT)).const_mul L0
    rw [mul_comm L0] at this
    exact this
  · have := lor_range (EF / (kB * T))
    constructor <;> nlinarith
  · have hcont : Continuous lor := continuous_iff_continuousAt.2 fun y => (lor_deriv y).continuousAt
    have h3 : 2 < v / L0 := by rwa [lt_div_iff₀ hL]
    have h4 : v / L0 < π ^ 2 / 3 := by rwa [div_lt_iff₀ hL]
    obtain ⟨y1, hy1⟩ := (lor_bot.eventually (gt_mem_nhds h3)).exists
    obtain ⟨y2, hy2⟩ := (lor_top.eventually (lt_mem_nhds h4)).exists
    obtain ⟨y, hy⟩ := mem_range_of_exists_le_of_exists_ge hcont ⟨y1, hy1.le⟩ ⟨y2, hy2.le⟩
    have hyv : L0 * lor (kB * T * y / (kB * T)) = v := by
      rw [mul_div_cancel_left₀ _ hkT.ne', hy]
      field_simp
    refine ⟨kB * T * y, ?_, fun EF he => ?_⟩
    · simp only [h, hyv]
    · simp only [h, Except.ok.injEq, Option.some.injEq] at he
      exact hm.injective (he.trans hyv.symm)

/-- **C140** In numbers: the Lorenz number the band reports is always above 1.485 and below 2.4431 (in `1E-8 W.Ohm/K^2`). -/
theorem C140_numbers (b : Spb) (s d T : ℝ) (hb : 0 < b.sigma0) (hT : 0 < T) (EF v : ℝ)
    (h : (Placed.exact ⟨b.fns, s, d⟩).prop .L (some (EF, T)) = .ok (some v)) : 1.485 < v ∧ v < 2.4431 := by
  obtain ⟨L, h1, _, _, _, h2, _⟩ := C140_lorenz b s d T hb hT
  rw [h1, Except.ok.injEq, Option.some.injEq] at h
  obtain ⟨h3, h4⟩ := h2 EF
  rw [h] at h3 h4
  have hp := pi_sq
  have e : (L0 : ℝ) = 7425843255087367 / 10000000000000000 := rfl
  rw [e] at h3 h4
  constructor
  · norm_num at h3 ⊢
    linarith
  · have := mul_lt_mul_of_pos_right hp.2 (show (0 : ℝ) < 7425843255087367 / 10000000000000000 by norm_num)
    norm_num at this h4 ⊢
    linarith

/-- **C140** The Lorenz number is a function of the size of the Seebeck coefficient alone: two parabolic bands, each at its own temperature and
Fermi level, of either kind of carrier, with Seebeck coefficients of the same size have the same Lorenz number, and the one with the larger
Seebeck coefficient has the smaller Lorenz number. -/
theorem C140_seebeck (b c : Spb) (s t d e T U EF FE : ℝ) (hb : 0 < b.sigma0) (hc : 0 < c.sigma0) (hs : s = 1 ∨ s = -1) (ht : t = 1 ∨ t = -1) (hT : 0 < T) (hU : 0 < U)
    (S1 S2 L1 L2 : ℝ) (h1 : (Placed.exact ⟨b.fns, s, d⟩).prop .S (some (EF, T)) = .ok (some S1)) (h2 : (Placed.exact ⟨c.fns, t, e⟩).prop .S (some (FE, U)) = .ok (some S2))
    (h3 : (Placed.exact ⟨b.fns, s, d⟩).prop .L (some (EF, T)) = .ok (some L1)) (h4 : (Placed.exact ⟨c.fns, t, e⟩).prop .L (some (FE, U)) = .ok (some L2)) :
    (|S1| = |S2| ↔ L1 = L2) ∧ (|S1| < |S2| ↔ L2 < L1) := by
  have hL : (0 : ℝ) < L0 := by unfold L0; norm_num
  have hS : (0 : ℝ) < S0 := by unfold S0; norm_num
  have key : ∀ (b : Spb) (s d T EF S L : ℝ), 0 < b.sigma0 → (s = 1 ∨ s = -1) → 0 < T → (Placed.exact ⟨b.fns, s, d⟩).prop .S (some (EF, T)) = .ok (some S) →
      (Placed.exact ⟨b.fns, s, d⟩).prop .L (some (EF, T)) = .ok (some L) → ∃ y, |S| = S0 * (seeb y / fd0 y) ∧ L = L0 * lor y := by
    intro b s d T EF S L hb hs hT h1 h2
    rw [(spb_prop b s d EF hT).2.1, Except.ok.injEq, Option.some.injEq] at h1
    rw [(spb_lorenz b s d EF hb hT).1, Except.ok.injEq, Option.some.injEq] at h2
    refine ⟨EF / (kB * T), ?_, h2.symm⟩
    have hf := fd0_pos (EF / (kB * T))
    have hse := seeb_pos (EF / (kB * T))
    have e1 : s * S0 * (b.sigma0 * seeb (EF / (kB * T))) / (b.sigma0 * fd0 (EF / (kB * T))) = s * (S0 * (seeb (EF / (kB * T)) / fd0 (EF / (kB * T)))) := by
      field_simp
    rw [← h1, e1, abs_mul, abs_of_pos (mul_pos hS (div_pos hse hf))]
    rcases hs with h | h <;> simp [h]
  obtain ⟨y, a1, a2⟩ := key b s d T EF S1 L1 hb hs hT h1 h3
  obtain ⟨z, b1, b2⟩ := key c t e U FE S2 L2 hc ht hU h2 h4
  rw [a1, a2, b1, b2, mul_right_inj' hS.ne', mul_right_inj' hL.ne', mul_lt_mul_iff_right₀ hS, mul_lt_mul_iff_right₀ hL, lor_mono.injective.eq_iff, lor_mono.lt_iff_lt]
  exact ⟨seeb_ratio_anti.injective.eq_iff, seeb_ratio_anti.lt_iff_gt⟩

/-- **C140** The electronic thermal conductivity rises strictly with the Fermi level, and lies strictly between the Wiedemann-Franz values of
the non-degenerate and of the degenerate limit at the conductivity of the band (in S/cm, hence the factor 100). -/
theorem C140_thermal (b : Spb) (s d T : ℝ) (hb : 0 < b.sigma0) (hT : 0 < T) : ∃ k C : ℝ → ℝ,
    (∀ EF, (Placed.exact ⟨b.fns, s, d⟩).prop .Ke (some (EF, T)) = .ok (some (k EF))) ∧
    (∀ EF, (Placed.exact ⟨b.fns, s, d⟩).prop .C (some (EF, T)) = .ok (some (C EF))) ∧
    StrictMono k ∧ ∀ EF, 2 * kB ^ 2 * (100 * C EF) * T < k EF ∧ k EF < π ^ 2 / 3 * kB ^ 2 * (100 * C EF) * T := by
  have hkT : 0 < kB * T := mul_pos kB_pos hT
  have hk : (0 : ℝ) < kB := kB_pos
  refine ⟨_, _, fun EF => (spb_lorenz b s d EF hb hT).2, fun EF => (spb_prop b s d EF hT).1, fun x y hxy => ?_, fun EF => ?_⟩
  · have hxy' : x / (kB * T) < y / (kB * T) := div_lt_div_of_pos_right hxy hkT
    have h0 : fd0 (x / (kB * T)) < fd0 (y / (kB * T)) := strictMono_of_hasDerivAt_pos fd0_deriv (fun y => (occ_lt y).1) hxy'
    have h1 := lor_mono hxy'
    have h2 := fd0_pos (x / (kB * T))
    have h3 := (lor_range (x / (kB * T))).1
    have h4 : b.sigma0 * fd0 (x / (kB * T)) * lor (x / (kB * T)) < b.sigma0 * fd0 (y / (kB * T)) * lor (y / (kB * T)) :=
      mul_lt_mul'' (mul_lt_mul_of_pos_left h0 hb) h1 (by positivity) (by linarith)
    exact mul_lt_mul_of_pos_right (mul_lt_mul_of_pos_left h4 (by positivity)) hT
  · obtain ⟨h1, h2⟩ := lor_range (EF / (kB * T))
    have h3 := fd0_pos (EF / (kB * T))
    have h4 : 0 < 100 * kB * kB * (b.sigma0 * fd0 (EF / (kB * T))) * T := by positivity
    constructor <;> nlinarith [mul_lt_mul_of_pos_left h1 h4, mul_lt_mul_of_pos_left h2 h4]

/-- beside the theorems: at the band edge, 300 K, a valence band and a conduction band with other parameters -/
example : ∃ S1 S2 L1 L2, (Placed.exact ⟨(⟨1, 1, 1⟩ : Spb).fns, -1, 0⟩).prop .S (some (0, 300)) = .ok (some S1) ∧
    (Placed.exact ⟨(⟨2, 5, 1⟩ : Spb).fns, 1, 0⟩).prop .S (some (1, 600)) = .ok (some S2) ∧
    (Placed.exact ⟨(⟨1, 1, 1⟩ : Spb).fns, -1, 0⟩).prop .L (some (0, 300)) = .ok (some L1) ∧
    (Placed.exact ⟨(⟨2, 5, 1⟩ : Spb).fns, 1, 0⟩).prop .L (some (1, 600)) = .ok (some L2) ∧ L1 < L2 := by
  have hk : (0 : ℝ) < kB := kB_pos
  refine ⟨_, _, _, _, (spb_prop _ _ _ _ (by norm_num)).2.1, (spb_prop _ _ _ _ (by norm_num)).2.1, (spb_lorenz _ _ _ _ (by norm_num) (by norm_num)).1,
    (spb_lorenz _ _ _ _ (by norm_num) (by norm_num)).1, mul_lt_mul_of_pos_left (lor_mono ?_) (by unfold L0; norm_num)⟩
  rw [zero_div]
  positivity

end

end TEflow.Bandlib
