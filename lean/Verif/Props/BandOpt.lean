import Verif.Props.BandTotal
import Mathlib.Analysis.SpecialFunctions.ImproperIntegrals
import Mathlib.NumberTheory.ZetaValues
import Mathlib.Analysis.Real.Pi.Bounds
import Mathlib.Analysis.Complex.ExponentialBounds
import Mathlib.Analysis.SpecialFunctions.Log.Deriv

/-! # C129: the optimum of a parabolic band -/

open Real MeasureTheory Set Filter Topology

namespace TEflow.Bandlib

noncomputable section

/-! ## The complete Fermi integrals of order 0 and 1 -/

/-- `F₀(η) = ln(1 + e^η)` -/
def fd0 (y : ℝ) : ℝ := log (1 + exp y)

/-- `F₁(η)`, as the integral of `F₀` -/
def fd1 (y : ℝ) : ℝ := ∫ x in Iic y, fd0 x

theorem fd0_pos (y : ℝ) : 0 < fd0 y := log_pos (by linarith [exp_pos y])

theorem fd0_lt (y : ℝ) : fd0 y < exp y := by
  have := log_lt_sub_one_of_pos (x := 1 + exp y) (by positivity) (by linarith [exp_pos y])
  unfold fd0
  linarith

theorem fd0_gt (y : ℝ) : y < fd0 y := by
  unfold fd0
  rw [lt_log_iff_exp_lt (by positivity)]
  linarith

theorem fd0_deriv (y : ℝ) : HasDerivAt fd0 (exp y / (1 + exp y)) y :=
  ((hasDerivAt_exp y).const_add 1).log (by positivity)

theorem fd0_cont : Continuous fd0 := continuous_iff_continuousAt.2 fun y => (fd0_deriv y).continuousAt

theorem fd0_int (y : ℝ) : IntegrableOn fd0 (Iic y) := by
  refine Integrable.mono' (integrableOn_exp_Iic y) fd0_cont.aestronglyMeasurable (Eventually.of_forall fun x => ?_)
  rw [norm_of_nonneg (fd0_pos x).le]
  exact (fd0_lt x).le

theorem fd1_deriv (y : ℝ) : HasDerivAt fd1 (fd0 y) y := by
  have h : fd1 = fun z => fd1 0 + ∫ x in (0 : ℝ)..z, fd0 x := by
    funext z
    have := intervalIntegral.integral_Iic_sub_Iic (fd0_int 0) (fd0_int z)
    unfold fd1
    linarith
  rw [h]
  exact (fd0_cont.integral_hasStrictDerivAt 0 y).hasDerivAt.const_add _

theorem fd1_pos (y : ℝ) : 0 < fd1 y := by
  have h0 : 0 ≤ fd1 (y - 1) := setIntegral_nonneg measurableSet_Iic fun x _ => (fd0_pos x).le
  have hm : StrictMono fd1 := strictMono_of_hasDerivAt_pos fd1_deriv fd0_pos
  exact h0.trans_lt (hm (by linarith))

theorem fd1_le (y : ℝ) : fd1 y ≤ exp y := by
  unfold fd1
  rw [← integral_exp_Iic y]
  exact setIntegral_mono (fd0_int y) (integrableOn_exp_Iic y) fun x => (fd0_lt x).le

theorem fd1_bot : Tendsto fd1 atBot (𝓝 0) :=
  tendsto_of_tendsto_of_tendsto_of_le_of_le tendsto_const_nhds tendsto_exp_atBot (fun y => (fd1_pos y).le) fd1_le

theorem fd0_bot : Tendsto fd0 atBot (𝓝 0) :=
  tendsto_of_tendsto_of_tendsto_of_le_of_le tendsto_const_nhds tendsto_exp_atBot (fun y => (fd0_pos y).le) fun y => (fd0_lt y).le

/-- a function with positive derivative that vanishes at minus infinity is positive -/
theorem pos_of_deriv {f f' : ℝ → ℝ} (hd : ∀ y, HasDerivAt f (f' y) y) (hp : ∀ y, 0 < f' y) (h0 : Tendsto f atBot (𝓝 0)) (y : ℝ) : 0 < f y := by
  have hm : StrictMono f := strictMono_of_hasDerivAt_pos hd hp
  have : 0 ≤ f (y - 1) := le_of_tendsto h0 ((eventually_le_atBot (y - 1)).mono fun x hx => hm.monotone hx)
  exact this.trans_lt (hm (by linarith))

/-! ## The shape of the power factor -/

/-- the Seebeck integral `2F₁ - ηF₀` -/
def seeb (y : ℝ) : ℝ := 2 * fd1 y - y * fd0 y

/-- the reduced power factor -/
def rpf (y : ℝ) : ℝ := seeb y ^ 2 / fd0 y

/-- the sign of its derivative -/
def slope (y : ℝ) : ℝ := 2 * fd0 y ^ 2 * (1 + exp y) / exp y - y * fd0 y - 2 * fd1 y

theorem seeb_deriv (y : ℝ) : HasDerivAt seeb (fd0 y - y * (exp y / (1 + exp y))) y := by
  have := ((fd1_deriv y).const_mul 2).sub ((hasDerivAt_id y).mul (fd0_deriv y))
  refine this.congr_deriv ?_
  simp only [id]
  ring

theorem occ_lt (y : ℝ) : 0 < exp y / (1 + exp y) ∧ exp y / (1 + exp y) < 1 := by
  have := exp_pos y
  exact ⟨by positivity, by rw [div_lt_one (by positivity)]; linarith⟩

theorem seeb_deriv_pos (y : ℝ) : 0 < fd0 y - y * (exp y / (1 + exp y)) := by
  obtain ⟨h1, h2⟩ := occ_lt y
  rcases le_total y 0 with h | h
  · have := fd0_pos y
    nlinarith
  · have := fd0_gt y
    nlinarith

theorem seeb_pos (y : ℝ) : 0 < seeb y := by
  have hm : StrictMono seeb := strictMono_of_hasDerivAt_pos seeb_deriv seeb_deriv_pos
  have h : ∀ x ≤ (0 : ℝ), 0 < seeb x := by
    intro x hx
    unfold seeb
    have h1 := fd1_pos x
    have h2 := fd0_pos x
    nlinarith
  rcases le_total y 0 with hy | hy
  · exact h y hy
  · exact (h 0 le_rfl).trans_le (hm.monotone hy)

theorem rpf_deriv (y : ℝ) : HasDerivAt rpf (seeb y * (exp y / (1 + exp y)) * slope y / fd0 y ^ 2) y := by
  have h := ((seeb_deriv y).pow 2).div (fd0_deriv y) (fd0_pos y).ne'
  refine h.congr_deriv ?_
  have hp := (fd0_pos y).ne'
  have he := (exp_pos y).ne'
  have h1 : 1 + exp y ≠ 0 := by positivity
  unfold slope
  simp only [Pi.pow_apply, seeb]
  field_simp
  ring

/-- `F₀²(1+e^y)/e^y` is above `F₁` -/
theorem gap_pos (y : ℝ) : 0 < fd0 y ^ 2 * (1 + exp y) / exp y - fd1 y := by
  refine pos_of_deriv (f := fun y => fd0 y ^ 2 * (1 + exp y) / exp y - fd1 y) (f' := fun y => fd0 y * (1 - fd0 y / exp y)) ?_ ?_ ?_ y
  · intro y
    have h := ((((fd0_deriv y).pow 2).mul ((hasDerivAt_exp y).const_add 1)).div (hasDerivAt_exp y) (exp_pos y).ne').sub (fd1_deriv y)
    refine h.congr_deriv ?_
    have he := (exp_pos y).ne'
    have h1 : 1 + exp y ≠ 0 := by positivity
    simp only [Pi.mul_apply, Pi.pow_apply]
    field_simp
    ring
  · intro y
    refine mul_pos (fd0_pos y) (sub_pos.2 ?_)
    rw [div_lt_one (exp_pos y)]
    exact fd0_lt y
  · have h1 : Tendsto (fun y => fd0 y ^ 2 * (1 + exp y) / exp y) atBot (𝓝 0) := by
      have hb : Tendsto (fun y : ℝ => exp y * (1 + exp y)) atBot (𝓝 (0 * (1 + 0))) := tendsto_exp_atBot.mul (tendsto_exp_atBot.const_add 1)
      rw [zero_mul] at hb
      refine tendsto_of_tendsto_of_tendsto_of_le_of_le tendsto_const_nhds hb (fun y => ?_) fun y => ?_
      · have := fd0_pos y
        positivity
      · have h2 := fd0_lt y
        have h3 := fd0_pos y
        have he := exp_pos y
        rw [div_le_iff₀ he, show exp y * (1 + exp y) * exp y = exp y ^ 2 * (1 + exp y) by ring]
        exact mul_le_mul_of_nonneg_right (pow_le_pow_left₀ h3.le h2.le 2) (by positivity)
    have := h1.sub fd1_bot
    rwa [sub_zero] at this

theorem slope_pos {y : ℝ} (hy : y ≤ 0) : 0 < slope y := by
  have h1 := gap_pos y
  have h2 := fd0_pos y
  unfold slope
  have e : 2 * fd0 y ^ 2 * (1 + exp y) / exp y = 2 * (fd0 y ^ 2 * (1 + exp y) / exp y) := by ring
  rw [e]
  nlinarith

theorem slope_deriv (y : ℝ) : HasDerivAt slope (fd0 y - y * (exp y / (1 + exp y)) - 2 * fd0 y ^ 2 / exp y) y := by
  have h := ((((((fd0_deriv y).pow 2).const_mul 2).mul ((hasDerivAt_exp y).const_add 1)).div (hasDerivAt_exp y) (exp_pos y).ne').sub
    ((hasDerivAt_id y).mul (fd0_deriv y))).sub ((fd1_deriv y).const_mul 2)
  refine h.congr_deriv ?_
  have he := (exp_pos y).ne'
  have h1 : 1 + exp y ≠ 0 := by positivity
  simp only [Pi.mul_apply, Pi.pow_apply, id]
  field_simp
  ring

theorem slope_deriv_neg {y : ℝ} (hy : 0 ≤ y) : fd0 y - y * (exp y / (1 + exp y)) - 2 * fd0 y ^ 2 / exp y < 0 := by
  set t := exp y with ht
  have ht1 : 1 ≤ t := one_le_exp hy
  have ht0 : 0 < t := by linarith
  set L := fd0 y with hL
  have hLp : 0 < L := fd0_pos y
  -- y is at least L - 1/t
  have hy' : L - 1 / t ≤ y := by
    have h1 : L = y + log (1 + 1 / t) := by
      rw [hL, fd0, ← ht, ← log_exp y, ← ht, ← log_mul ht0.ne' (by positivity)]
      congr 1
      field_simp
      ring
    have h2 := log_le_sub_one_of_pos (x := 1 + 1 / t) (by positivity)
    linarith
  -- a lower bound for L
  have hlow : log 2 + (1 - 2 / (1 + t)) ≤ L := by
    have h2 := one_sub_inv_le_log_of_pos (x := (1 + t) / 2) (by positivity)
    have h3 : L = log 2 + log ((1 + t) / 2) := by
      rw [← log_mul (by norm_num) (by positivity), hL, fd0, ← ht]
      congr 1
      ring
    rw [h3]
    have : ((1 + t) / 2)⁻¹ = 2 / (1 + t) := by rw [inv_div]
    linarith
  have hl2 := log_two_gt_d9
  have key : t * (L + 1) < 2 * L ^ 2 * (1 + t) := by
    rcases le_total 1 L with h | h
    · have h1 : 0 ≤ (L - 1) * (2 * L + 1) := mul_nonneg (by linarith) (by linarith)
      have h2 : t * (L + 1) ≤ t * (2 * L ^ 2) := mul_le_mul_of_nonneg_left (by nlinarith) ht0.le
      have h3 : 0 < L ^ 2 := by positivity
      nlinarith
    · -- then t is small
      have hlt : t < 1.72 := by
        have : exp L ≤ exp 1 := exp_le_exp.2 h
        have e1 : exp L = 1 + t := by rw [hL, fd0, exp_log (by positivity)]
        have := exp_one_lt_d9
        linarith
      have hm : 0.693 + (t - 1) * 0.367 ≤ L := by
        have : 1 - 2 / (1 + t) = (t - 1) / (1 + t) := by field_simp; ring
        have h5 : (t - 1) * 0.367 ≤ (t - 1) / (1 + t) := by
          rw [le_div_iff₀ (by positivity)]
          nlinarith
        linarith
      have hm0 : 0 < 0.693 + (t - 1) * 0.367 := by nlinarith
      have h6 : 2 * (0.693 + (t - 1) * 0.367) ^ 2 * (1 + t) - t * ((0.693 + (t - 1) * 0.367) + 1) ≤ 2 * L ^ 2 * (1 + t) - t * (L + 1) := by
        have : 0 ≤ (L - (0.693 + (t - 1) * 0.367)) * (2 * (L + (0.693 + (t - 1) * 0.367)) * (1 + t) - t) := by
          refine mul_nonneg (by linarith) ?_
          nlinarith
        nlinarith
      have h7 : 0 < 2 * (0.693 + (t - 1) * 0.367) ^ 2 * (1 + t) - t * ((0.693 + (t - 1) * 0.367) + 1) := by
        nlinarith [mul_nonneg (sub_nonneg.2 ht1) (sub_nonneg.2 hlt.le), mul_nonneg (mul_nonneg (sub_nonneg.2 ht1) (sub_nonneg.2 hlt.le)) ht0.le]
      linarith
  have h8 : L - y * (t / (1 + t)) - 2 * L ^ 2 / t ≤ (t * (L + 1) - 2 * L ^ 2 * (1 + t)) / (t * (1 + t)) := by
    have : (t * (L + 1) - 2 * L ^ 2 * (1 + t)) / (t * (1 + t)) = L - (L - 1 / t) * (t / (1 + t)) - 2 * L ^ 2 / t := by
      field_simp
      ring
    rw [this]
    have h9 : (L - 1 / t) * (t / (1 + t)) ≤ y * (t / (1 + t)) := mul_le_mul_of_nonneg_right hy' (by positivity)
    linarith
  refine h8.trans_lt (div_neg_of_neg_of_pos (by linarith) (by positivity))

/-! ## Numbers -/

/-- the alternating sums `e^y - e^{2y}/2^p + …` -/
def altSum (p n : ℕ) (w : ℝ) : ℝ := ∑ k ∈ Finset.range n, (-1) ^ k * w ^ (k + 1) / (k + 1 : ℝ) ^ p

theorem altSum_deriv (p n : ℕ) (y : ℝ) : HasDerivAt (fun y => altSum (p + 1) n (exp y)) (altSum p n (exp y)) y := by
  unfold altSum
  refine HasDerivAt.fun_sum fun k _ => ?_
  have h := (((hasDerivAt_exp y).pow (k + 1)).const_mul ((-1) ^ k)).div_const ((k + 1 : ℝ) ^ (p + 1))
  refine h.congr_deriv ?_
  have : (k + 1 : ℝ) ≠ 0 := by positivity
  simp only [Nat.add_sub_cancel, Nat.cast_add, Nat.cast_one]
  rw [pow_succ (k + 1 : ℝ) p, pow_succ (exp y) k]
  field_simp

theorem altSum_zero (n : ℕ) {w : ℝ} (hw : 0 < w) : altSum 0 n w - w / (1 + w) = (-1) ^ (n + 1) * (w ^ (n + 1) / (1 + w)) := by
  have h1 : 1 + w ≠ 0 := by positivity
  induction n with
  | zero => simp [altSum]
  | succ n ih =>
    have : altSum 0 (n + 1) w = altSum 0 n w + (-1) ^ n * w ^ (n + 1) := by
      unfold altSum
      rw [Finset.sum_range_succ]
      simp
    rw [this, add_sub_right_comm, ih]
    field_simp
    ring

theorem altSum_bot (p n : ℕ) : Tendsto (fun y => altSum p n (exp y)) atBot (𝓝 0) := by
  unfold altSum
  have : Tendsto (fun y : ℝ => ∑ k ∈ Finset.range n, (-1) ^ k * exp y ^ (k + 1) / (k + 1 : ℝ) ^ p) atBot
      (𝓝 (∑ k ∈ Finset.range n, (-1) ^ k * 0 ^ (k + 1) / (k + 1 : ℝ) ^ p)) := by
    refine tendsto_finset_sum _ fun k _ => ?_
    exact ((tendsto_exp_atBot.pow (k + 1)).const_mul _).div_const _
  simpa using this

theorem fd0_alt (n : ℕ) (y : ℝ) : 0 < (-1) ^ (n + 1) * (altSum 1 n (exp y) - fd0 y) := by
  have h2 : ((-1 : ℝ) ^ (n + 1)) * (-1) ^ (n + 1) = 1 := by rw [← mul_pow]; norm_num
  refine pos_of_deriv (f := fun y => (-1) ^ (n + 1) * (altSum 1 n (exp y) - fd0 y)) (f' := fun y => exp y ^ (n + 1) / (1 + exp y)) (fun y => ?_) (fun y => by positivity) ?_ y
  · have h := ((altSum_deriv 0 n y).sub (fd0_deriv y)).const_mul ((-1) ^ (n + 1))
    refine h.congr_deriv ?_
    rw [altSum_zero n (exp_pos y), ← mul_assoc, h2, one_mul]
  · have := ((altSum_bot 1 n).sub fd0_bot).const_mul ((-1) ^ (n + 1))
    rwa [sub_zero, mul_zero] at this

theorem fd1_alt (n : ℕ) (y : ℝ) : 0 < (-1) ^ (n + 1) * (altSum 2 n (exp y) - fd1 y) := by
  refine pos_of_deriv (f := fun y => (-1) ^ (n + 1) * (altSum 2 n (exp y) - fd1 y)) (f' := fun y => (-1) ^ (n + 1) * (altSum 1 n (exp y) - fd0 y)) (fun y => ?_) (fd0_alt n) ?_ y
  · exact ((altSum_deriv 1 n y).sub (fd1_deriv y)).const_mul ((-1) ^ (n + 1))
  · have := ((altSum_bot 2 n).sub fd1_bot).const_mul ((-1) ^ (n + 1))
    rwa [sub_zero, mul_zero] at this

theorem even_le (m : ℕ) (y : ℝ) : altSum 1 (2 * m) (exp y) < fd0 y ∧ altSum 2 (2 * m) (exp y) < fd1 y := by
  have h0 := fd0_alt (2 * m) y
  have h1 := fd1_alt (2 * m) y
  rw [pow_succ, pow_mul] at h0 h1
  norm_num at h0 h1
  exact ⟨by linarith, by linarith⟩

theorem odd_le (m : ℕ) (y : ℝ) : fd0 y < altSum 1 (2 * m + 1) (exp y) ∧ fd1 y < altSum 2 (2 * m + 1) (exp y) := by
  have h0 := fd0_alt (2 * m + 1) y
  have h1 := fd1_alt (2 * m + 1) y
  rw [show 2 * m + 1 + 1 = 2 * (m + 1) by ring, pow_mul] at h0 h1
  norm_num at h0 h1
  exact ⟨by linarith, by linarith⟩

theorem fd1_zero : fd1 0 = π ^ 2 / 12 := by
  have hz : HasSum (fun n : ℕ => 1 / ((n : ℝ) + 1) ^ 2) (π ^ 2 / 6) := by
    have h := (hasSum_nat_add_iff' 1).mpr hasSum_zeta_two
    simpa using h
  have ht := hz.tendsto_sum_nat
  have hsum : ∀ m : ℕ, altSum 2 (2 * m) 1 = (∑ k ∈ Finset.range (2 * m), 1 / ((k : ℝ) + 1) ^ 2) - 1 / 2 * ∑ k ∈ Finset.range m, 1 / ((k : ℝ) + 1) ^ 2 := by
    intro m
    induction m with
    | zero => simp [altSum]
    | succ m ih =>
      have e : altSum 2 (2 * (m + 1)) 1 = altSum 2 (2 * m) 1 + 1 / (2 * (m : ℝ) + 1) ^ 2 - 1 / (2 * (m : ℝ) + 2) ^ 2 := by
        have hp : (-1 : ℝ) ^ (2 * m) = 1 := by rw [pow_mul]; norm_num
        unfold altSum
        rw [show 2 * (m + 1) = 2 * m + 1 + 1 by ring, Finset.sum_range_succ, Finset.sum_range_succ]
        simp only [pow_succ (-1 : ℝ) (2 * m), hp, one_pow]
        push_cast
        ring
      rw [e, ih, show 2 * (m + 1) = 2 * m + 1 + 1 by ring, Finset.sum_range_succ, Finset.sum_range_succ, Finset.sum_range_succ]
      have hm : (m : ℝ) + 1 ≠ 0 := by positivity
      have hm2 : 2 * (m : ℝ) + 1 ≠ 0 := by positivity
      push_cast
      rw [show 2 * (m : ℝ) + 2 = 2 * (m + 1) by ring, show 2 * (m : ℝ) + 1 + 1 = 2 * (m + 1) by ring]
      field_simp
      ring
  have h2 : Tendsto (fun m : ℕ => 2 * m) atTop atTop := tendsto_id.const_mul_atTop' (by norm_num)
  have hlim : Tendsto (fun m : ℕ => altSum 2 (2 * m) 1) atTop (𝓝 (π ^ 2 / 12)) := by
    simp only [hsum]
    have := (ht.comp h2).sub (ht.const_mul (1 / 2))
    rw [show π ^ 2 / 6 - 1 / 2 * (π ^ 2 / 6) = π ^ 2 / 12 by ring] at this
    exact this
  have hlim' : Tendsto (fun m : ℕ => altSum 2 (2 * m + 1) 1) atTop (𝓝 (π ^ 2 / 12)) := by
    have e : ∀ m : ℕ, altSum 2 (2 * m + 1) 1 = altSum 2 (2 * m) 1 + 1 / (((2 * m : ℕ) : ℝ) + 1) ^ 2 := by
      intro m
      unfold altSum
      rw [Finset.sum_range_succ, pow_mul]
      norm_num
    simp only [e]
    have := hlim.add (hz.summable.tendsto_atTop_zero.comp h2)
    rwa [add_zero] at this
  refine le_antisymm ?_ ?_
  · refine ge_of_tendsto' hlim' fun m => ?_
    have := (odd_le m 0).2
    rw [exp_zero] at this
    exact this.le
  · refine le_of_tendsto' hlim fun m => ?_
    have := (even_le m 0).2
    rw [exp_zero] at this
    exact this.le

theorem fd0_reflect (y : ℝ) : fd0 y = fd0 (-y) + y := by
  unfold fd0
  have h : 1 + exp y = (1 + exp (-y)) * exp y := by
    rw [add_mul, ← exp_add]
    simp
    ring
  rw [h, log_mul (by positivity) (exp_pos y).ne', log_exp]

theorem fd1_reflect (y : ℝ) : fd1 y = π ^ 2 / 6 + y ^ 2 / 2 - fd1 (-y) := by
  have hd : ∀ y, HasDerivAt (fun y => fd1 y + fd1 (-y) - y ^ 2 / 2) 0 y := by
    intro y
    have h := ((fd1_deriv y).add ((fd1_deriv (-y)).comp y (hasDerivAt_neg y))).sub (((hasDerivAt_id y).pow 2).div_const 2)
    refine h.congr_deriv ?_
    have := fd0_reflect y
    simp only [id]
    push_cast
    rw [this]
    ring
  have hc := is_const_of_deriv_eq_zero (f := fun y => fd1 y + fd1 (-y) - y ^ 2 / 2) (fun y => (hd y).differentiableAt) (fun y => (hd y).deriv) y 0
  simp only [neg_zero, fd1_zero] at hc
  linarith

theorem alt_log {w : ℝ} (hw : 0 < w) (m : ℕ) : altSum 1 (2 * m) w < log (1 + w) ∧ log (1 + w) < altSum 1 (2 * m + 1) w := by
  have h1 := (even_le m (log w)).1
  have h2 := (odd_le m (log w)).1
  unfold fd0 at h1 h2
  rw [exp_log hw] at h1 h2
  exact ⟨h1, h2⟩

theorem alt_fd1 {w : ℝ} (hw : 0 < w) (m : ℕ) : altSum 2 (2 * m) w < fd1 (log w) ∧ fd1 (log w) < altSum 2 (2 * m + 1) w := by
  have h1 := (even_le m (log w)).2
  have h2 := (odd_le m (log w)).2
  rw [exp_log hw] at h1 h2
  exact ⟨h1, h2⟩

/-- the values at `e^{-η} = s` -/
theorem at_ratio {s : ℝ} (hs : 0 < s) : fd0 (-log s) = log (1 + s) - log s ∧ fd1 (-log s) = π ^ 2 / 6 + log s ^ 2 / 2 - fd1 (log s) ∧ exp (-log s) = 1 / s := by
  refine ⟨?_, ?_, ?_⟩
  · rw [fd0_reflect, neg_neg, fd0, exp_log hs]
    ring
  · rw [fd1_reflect, neg_neg, neg_sq]
  · rw [exp_neg, exp_log hs, one_div]

theorem pi_sq : 9.8696044010 < π ^ 2 ∧ π ^ 2 < 9.8696044012 := by
  have h1 := pi_gt_d20
  have h2 := pi_lt_d20
  constructor <;> nlinarith

structure Bounds (y a b c d e f : ℝ) : Prop where
  y1 : a < y
  y2 : y < b
  f01 : c < fd0 y
  f02 : fd0 y < d
  f11 : e < fd1 y
  f12 : fd1 y < f

theorem bounds_of {s : ℝ} (hs : 1 / 2 < s) {a b l1 l2 p1 p2 e f : ℝ} (ha : a < 0.6931471803 - altSum 1 5 (2 * s - 1)) (hb : 0.6931471808 - altSum 1 6 (2 * s - 1) < b)
    (hl1 : l1 < altSum 1 30 s) (hl2 : altSum 1 29 s < l2) (hp1 : p1 < altSum 2 26 s) (hp2 : altSum 2 25 s < p2) (ha0 : 0 < a)
    (he : e < 9.8696044010 / 6 + a ^ 2 / 2 - p2) (hf : 9.8696044012 / 6 + b ^ 2 / 2 - p1 < f) : Bounds (-log s) a b (l1 + a) (l2 + b) e f := by
  have hs0 : 0 < s := by linarith
  have h1 := alt_log (w := 2 * s - 1) (by linarith) 2
  rw [show 1 + (2 * s - 1) = 2 * s by ring, log_mul (by norm_num) hs0.ne'] at h1
  have h1' := alt_log (w := 2 * s - 1) (by linarith) 3
  rw [show 1 + (2 * s - 1) = 2 * s by ring, log_mul (by norm_num) hs0.ne'] at h1'
  have h2 := log_two_gt_d9
  have h3 := log_two_lt_d9
  have h4 := (alt_log hs0 15).1
  have h5 := (alt_log hs0 14).2
  have h6 := (alt_fd1 hs0 13).1
  have h7 := (alt_fd1 hs0 12).2
  have hpi := pi_sq
  obtain ⟨e1, e2, -⟩ := at_ratio hs0
  norm_num only at h1 h1' h4 h5 h6 h7
  have hy1 : a < -log s := by linarith [h1.2]
  have hy2 : -log s < b := by linarith [h1'.1]
  have hsq : a ^ 2 < log s ^ 2 ∧ log s ^ 2 < b ^ 2 := by
    rw [← neg_sq (log s)]
    exact ⟨pow_lt_pow_left₀ hy1 ha0.le (by norm_num), pow_lt_pow_left₀ hy2 (by linarith) (by norm_num)⟩
  refine ⟨hy1, hy2, ?_, ?_, ?_, ?_⟩
  · rw [e1]; linarith
  · rw [e1]; linarith
  · rw [e2]; linarith [hpi.1, hsq.1]
  · rw [e2]; linarith [hpi.2, hsq.2]

theorem left_bounds : Bounds (-log (512675 / 1000000)) 0.6681131625 0.6681131631 (0.4138796066 + 0.6681131625) (0.4138796068 + 0.6681131631) 1.4094520052 1.4094520064 := by
  refine bounds_of (p1 := 0.4586696602) (p2 := 0.4586696603) (by norm_num) ?_ ?_ ?_ ?_ ?_ ?_ (by norm_num) (by norm_num) (by norm_num) <;>
    norm_num [altSum, Finset.sum_range_succ]

theorem right_bounds : Bounds (-log (512665 / 1000000)) 0.6681326682 0.6681326689 (0.4138729958 + 0.6681326682) (0.4138729960 + 0.6681326689) 1.4094731103 1.4094731117 := by
  refine bounds_of (p1 := 0.4586615872) (p2 := 0.4586615874) (by norm_num) ?_ ?_ ?_ ?_ ?_ ?_ (by norm_num) (by norm_num) (by norm_num) <;>
    norm_num [altSum, Finset.sum_range_succ]

theorem slope_bounds : 0 < slope (-log (512675 / 1000000)) ∧ slope (-log (512675 / 1000000)) < 0.00001 ∧ slope (-log (512665 / 1000000)) < 0 := by
  have L := left_bounds
  have R := right_bounds
  have e : ∀ s : ℝ, 0 < s → slope (-log s) = 2 * fd0 (-log s) ^ 2 * (1 + s) - -log s * fd0 (-log s) - 2 * fd1 (-log s) := by
    intro s hs
    unfold slope
    rw [(at_ratio hs).2.2]
    have := hs.ne'
    field_simp
    ring
  rw [e _ (by norm_num), e _ (by norm_num)]
  obtain ⟨a1, a2, b1, b2, c1, c2⟩ := L
  obtain ⟨a1', a2', b1', b2', c1', c2'⟩ := R
  generalize fd0 (-log (512675 / 1000000)) = F at *
  generalize fd1 (-log (512675 / 1000000)) = G at *
  generalize fd0 (-log (512665 / 1000000)) = F' at *
  generalize fd1 (-log (512665 / 1000000)) = G' at *
  generalize -log (512675 / 1000000) = y at *
  generalize -log (512665 / 1000000) = y' at *
  norm_num only at b1 b2 b1' b2'
  have hF0 : 0 < F := by linarith
  have hF0' : 0 < F' := by linarith
  refine ⟨?_, ?_, ?_⟩
  · have h1 := pow_lt_pow_left₀ b1 (by norm_num) two_ne_zero
    have h2 := mul_lt_mul'' a2 b2 (by linarith) hF0.le
    norm_num only at h1 h2 ⊢
    linarith
  · have h1 := pow_lt_pow_left₀ b2 hF0.le two_ne_zero
    have h2 := mul_lt_mul'' a1 b1 (by norm_num) (by norm_num)
    norm_num only at h1 h2 ⊢
    linarith
  · have h1 := pow_lt_pow_left₀ b2' hF0'.le two_ne_zero
    have h2 := mul_lt_mul'' a1' b1' (by norm_num) (by norm_num)
    norm_num only at h1 h2 ⊢
    linarith

theorem rpf_bounds : 4.06034098 < rpf (-log (512675 / 1000000)) ∧ rpf (-log (512675 / 1000000)) < 4.06034101 ∧ 4.06034098 < rpf (-log (512665 / 1000000)) := by
  have L := left_bounds
  have R := right_bounds
  unfold rpf seeb
  obtain ⟨a1, a2, b1, b2, c1, c2⟩ := L
  obtain ⟨a1', a2', b1', b2', c1', c2'⟩ := R
  generalize fd0 (-log (512675 / 1000000)) = F at *
  generalize fd1 (-log (512675 / 1000000)) = G at *
  generalize fd0 (-log (512665 / 1000000)) = F' at *
  generalize fd1 (-log (512665 / 1000000)) = G' at *
  generalize -log (512675 / 1000000) = y at *
  generalize -log (512665 / 1000000) = y' at *
  norm_num only at b1 b2 b1' b2'
  have hF0 : 0 < F := by linarith
  have hF0' : 0 < F' := by linarith
  have h1 := mul_lt_mul'' a2 b2 (by linarith) hF0.le
  have h2 := mul_lt_mul'' a1 b1 (by norm_num) (by norm_num)
  have h1' := mul_lt_mul'' a2' b2' (by linarith) hF0'.le
  norm_num only at h1 h2 h1'
  have g1 : 2.0960103975 < 2 * G - y * F := by norm_num only at *; linarith
  have g2 : 2 * G - y * F < 2.0960104025 := by norm_num only at *; linarith
  have g1' : 2.0960228870 < 2 * G' - y' * F' := by norm_num only at *; linarith
  have s1 := pow_lt_pow_left₀ g1 (by norm_num) two_ne_zero
  have s2 := pow_lt_pow_left₀ g2 (by linarith) two_ne_zero
  have s1' := pow_lt_pow_left₀ g1' (by norm_num) two_ne_zero
  refine ⟨?_, ?_, ?_⟩
  · rw [lt_div_iff₀ hF0]
    norm_num only at *
    linarith
  · rw [div_lt_iff₀ hF0]
    norm_num only at *
    linarith
  · rw [lt_div_iff₀ hF0']
    norm_num only at *
    linarith

/-- the reduced power factor has one maximum, near 0.66812 -/
theorem rpf_shape : ∃ m : ℝ, |m - 0.66812| < 0.000013 ∧ StrictMonoOn rpf (Iic m) ∧ StrictAntiOn rpf (Ici m) ∧ 4.06034098 < rpf m ∧ rpf m < 4.06034102 ∧ 4.06034098 < rpf 0.66812 := by
  obtain ⟨s1, s2, s3⟩ := slope_bounds
  have L := left_bounds
  have R := right_bounds
  obtain ⟨r1, r2, r3⟩ := rpf_bounds
  set p := -log (512675 / 1000000) with hp
  set q := -log (512665 / 1000000) with hq
  have hpq : p < q := by linarith [L.y2, R.y1]
  have hp0 : 0 < p := by linarith [L.y1]
  have hcont : Continuous slope := continuous_iff_continuousAt.2 fun y => (slope_deriv y).continuousAt
  have hanti : StrictAntiOn slope (Ici 0) := by
    refine strictAntiOn_of_deriv_neg (convex_Ici 0) hcont.continuousOn fun y hy => ?_
    rw [interior_Ici] at hy
    rw [(slope_deriv y).deriv]
    exact slope_deriv_neg (le_of_lt hy)
  obtain ⟨m, ⟨hm1, hm2⟩, hm⟩ := intermediate_value_Ioo' hpq.le hcont.continuousOn (show (0 : ℝ) ∈ Ioo (slope q) (slope p) from ⟨s3, s1⟩)
  have hm0 : 0 < m := by linarith
  have hleft : ∀ y < m, 0 < slope y := by
    intro y hy
    rcases le_total y 0 with h | h
    · exact slope_pos h
    · rw [← hm]
      exact hanti h hm0.le hy
  have hright : ∀ y, m < y → slope y < 0 := fun y hy => by
    rw [← hm]
    exact hanti hm0.le (show (0 : ℝ) ≤ y by linarith) hy
  have hrc : Continuous rpf := continuous_iff_continuousAt.2 fun y => (rpf_deriv y).continuousAt
  have hmono : StrictMonoOn rpf (Iic m) := by
    refine strictMonoOn_of_deriv_pos (convex_Iic m) hrc.continuousOn fun y hy => ?_
    rw [interior_Iic] at hy
    rw [(rpf_deriv y).deriv]
    exact div_pos (mul_pos (mul_pos (seeb_pos y) (occ_lt y).1) (hleft y hy)) (pow_pos (fd0_pos y) 2)
  have hant : StrictAntiOn rpf (Ici m) := by
    refine strictAntiOn_of_deriv_neg (convex_Ici m) hrc.continuousOn fun y hy => ?_
    rw [interior_Ici] at hy
    rw [(rpf_deriv y).deriv]
    exact div_neg_of_neg_of_pos (mul_neg_of_pos_of_neg (mul_pos (seeb_pos y) (occ_lt y).1) (hright y hy)) (pow_pos (fd0_pos y) 2)
  have hpm : rpf p < rpf m := hmono hm1.le (show m ∈ Iic m from le_refl m) hm1
  refine ⟨m, ?_, hmono, hant, r1.trans hpm, ?_, ?_⟩
  · rw [abs_lt]
    have h1 := L.y1
    have h2 := R.y2
    norm_num only at h1 h2 ⊢
    constructor <;> linarith
  · -- the derivative is small on the way
    obtain ⟨c, hc, hcd⟩ := exists_hasDerivAt_eq_slope rpf (fun y => seeb y * (exp y / (1 + exp y)) * slope y / fd0 y ^ 2) hm1 hrc.continuousOn fun y _ => rpf_deriv y
    have hc0 : 0 < c := hp0.trans hc.1
    have h1 : slope c ≤ 0.00001 := (hanti hp0.le hc0.le hc.1).le.trans s2.le
    have h2 : 0 < slope c := hleft c hc.2
    have hseeb : seeb c < 3 := by
      have hG : fd1 c < fd1 q := strictMono_of_hasDerivAt_pos fd1_deriv fd0_pos (hc.2.trans hm2)
      have := R.f12
      unfold seeb
      have h3 : 0 < c * fd0 c := mul_pos hc0 (fd0_pos c)
      norm_num only at *
      linarith
    have hf0 : 1 < fd0 c := by
      have : StrictMono fd0 := strictMono_of_hasDerivAt_pos fd0_deriv fun y => (occ_lt y).1
      have h3 := this hc.1
      have h4 := L.f01
      norm_num only at *
      linarith
    have hd : seeb c * (exp c / (1 + exp c)) * slope c / fd0 c ^ 2 ≤ 0.00003 := by
      rw [div_le_iff₀ (by positivity)]
      have h5 : seeb c * (exp c / (1 + exp c)) ≤ 3 := by
        have := mul_le_mul hseeb.le (occ_lt c).2.le (occ_lt c).1.le (by norm_num)
        linarith
      have h6 := mul_le_mul h5 h1 h2.le (by norm_num)
      have h7 : 1 ≤ fd0 c ^ 2 := one_le_pow₀ hf0.le
      norm_num only at *
      linarith
    rw [hcd, div_le_iff₀ (by linarith)] at hd
    have hw : m - p < 0.0001 := by
      have h1 := L.y1
      have h2 := R.y2
      norm_num only at *
      linarith
    norm_num only at *
    linarith
  · rcases le_total 0.66812 m with h | h
    · have hp' : p < 0.66812 := by
        have := L.y2
        norm_num only at *
        linarith
      exact r1.trans (hmono hm1.le h hp')
    · have hq' : 0.66812 < q := by
        have := R.y1
        norm_num only at *
        linarith
      exact r3.trans (hant h hm2.le hq')

/-! ## The integrals of the parabolic band -/

theorem fermi_flip (EF : ℝ) {T : ℝ} (hT : 0 < T) (E : ℝ) : fermi EF T E = exp ((EF - E) / (kB * T)) / (1 + exp ((EF - E) / (kB * T))) := by
  have : (E - EF) / (kB * T) = -((EF - E) / (kB * T)) := by ring
  unfold fermi
  rw [this, exp_neg]
  have := exp_pos ((EF - E) / (kB * T))
  field_simp

theorem arg_deriv (EF T E : ℝ) : HasDerivAt (fun E => (EF - E) / (kB * T)) (-1 / (kB * T)) E := by
  have := ((hasDerivAt_id E).const_sub EF).div_const (kB * T)
  exact this

theorem arg_bot (EF : ℝ) {T : ℝ} (hT : 0 < T) : Tendsto (fun E => (EF - E) / (kB * T)) atTop atBot := by
  have hkT : 0 < kB * T := mul_pos kB_pos hT
  have hkB : (kB : ℝ) ≠ 0 := kB_pos.ne'
  have e : ∀ E, (EF - E) / (kB * T) = -(1 / (kB * T)) * E + EF / (kB * T) := by intro E; ring
  simp only [e]
  refine tendsto_atBot_add_const_right _ _ (tendsto_id.const_mul_atTop_of_neg ?_)
  have : 0 < 1 / (kB * T) := by positivity
  linarith

theorem moment0 (EF : ℝ) {T : ℝ} (hT : 0 < T) : ∫ E in Ioi 0, fermi EF T E = kB * T * fd0 (EF / (kB * T)) := by
  have hkT : 0 < kB * T := mul_pos kB_pos hT
  have hkB : (kB : ℝ) ≠ 0 := kB_pos.ne'
  have hlim : Tendsto (fun E => -(kB * T) * fd0 ((EF - E) / (kB * T))) atTop (𝓝 0) := by
    have := (fd0_bot.comp (arg_bot EF hT)).const_mul (-(kB * T))
    rwa [mul_zero] at this
  have h := integral_Ioi_of_hasDerivAt_of_nonneg' (g := fun E => -(kB * T) * fd0 ((EF - E) / (kB * T))) (g' := fermi EF T) (a := 0) (l := 0) (fun E _ => ?_) (fun E _ => ?_) hlim
  · rw [h]
    simp
  · have := ((fd0_deriv ((EF - E) / (kB * T))).comp E (arg_deriv EF T E)).const_mul (-(kB * T))
    refine this.congr_deriv ?_
    rw [fermi_flip EF hT]
    field_simp
  · unfold fermi
    positivity

theorem moment1 (EF : ℝ) {T : ℝ} (hT : 0 < T) : ∫ E in Ioi 0, E * fermi EF T E = (kB * T) ^ 2 * fd1 (EF / (kB * T)) := by
  have hkT : 0 < kB * T := mul_pos kB_pos hT
  have hkB : (kB : ℝ) ≠ 0 := kB_pos.ne'
  have hE : Tendsto (fun E => E * fd0 ((EF - E) / (kB * T))) atTop (𝓝 0) := by
    have h1 : Tendsto (fun E : ℝ => E * exp ((EF - E) / (kB * T))) atTop (𝓝 0) := by
      have h2 := (tendsto_pow_mul_exp_neg_atTop_nhds_zero 1).comp (tendsto_id.const_mul_atTop (show (0 : ℝ) < 1 / (kB * T) by positivity))
      have h3 := h2.const_mul (kB * T * exp (EF / (kB * T)))
      rw [mul_zero] at h3
      refine h3.congr fun E => ?_
      simp only [Function.comp, id, pow_one]
      rw [show (EF - E) / (kB * T) = EF / (kB * T) + -(1 / (kB * T) * E) by ring, exp_add]
      field_simp
    refine tendsto_of_tendsto_of_tendsto_of_le_of_le' tendsto_const_nhds h1 ?_ ?_
    · filter_upwards [eventually_ge_atTop (0 : ℝ)] with E hE
      exact mul_nonneg hE (fd0_pos _).le
    · filter_upwards [eventually_ge_atTop (0 : ℝ)] with E hE
      exact mul_le_mul_of_nonneg_left (fd0_lt _).le hE
  have hlim : Tendsto (fun E => -(kB * T) * (E * fd0 ((EF - E) / (kB * T))) - (kB * T) ^ 2 * fd1 ((EF - E) / (kB * T))) atTop (𝓝 0) := by
    have := (hE.const_mul (-(kB * T))).sub ((fd1_bot.comp (arg_bot EF hT)).const_mul ((kB * T) ^ 2))
    rwa [mul_zero, mul_zero, sub_zero] at this
  have h := integral_Ioi_of_hasDerivAt_of_nonneg' (g := fun E => -(kB * T) * (E * fd0 ((EF - E) / (kB * T))) - (kB * T) ^ 2 * fd1 ((EF - E) / (kB * T)))
    (g' := fun E => E * fermi EF T E) (a := 0) (l := 0) (fun E _ => ?_) (fun E hE => ?_) hlim
  · rw [h]
    simp
  · have h0 := (fd0_deriv ((EF - E) / (kB * T))).comp E (arg_deriv EF T E)
    have h1 := (fd1_deriv ((EF - E) / (kB * T))).comp E (arg_deriv EF T E)
    have := (((hasDerivAt_id E).mul h0).const_mul (-(kB * T))).sub (h1.const_mul ((kB * T) ^ 2))
    refine this.congr_deriv ?_
    rw [fermi_flip EF hT]
    simp only [id, Function.comp]
    have := exp_pos ((EF - E) / (kB * T))
    field_simp
    ring
  · have : 0 < E := hE
    unfold fermi
    positivity

/-- the transport integrals of the parabolic band in closed form -/
theorem spb_K (b : Spb) (s d EF : ℝ) {T : ℝ} (hT : 0 < T) :
    (Placed.exact ⟨b.fns, s, d⟩).k 0 EF T = b.sigma0 * fd0 (EF / (kB * T)) ∧ (Placed.exact ⟨b.fns, s, d⟩).k 1 EF T = b.sigma0 * seeb (EF / (kB * T)) := by
  have hkT : 0 < kB * T := mul_pos kB_pos hT
  have hkB : (kB : ℝ) ≠ 0 := kB_pos.ne'
  have i1 : IntegrableOn (fun E => E * fermi EF T E) (Ioi 0) := dos_integrable (fun E => E) 1 continuous_id (growth 1 1 fun E hE => by rw [abs_of_nonneg (by linarith), pow_one, one_mul]) T hT EF
  have i0 : IntegrableOn (fun E => fermi EF T E) (Ioi 0) := by
    simpa using dos_integrable (fun _ => 1) 0 continuous_const (growth 1 0 fun E hE => by simp) T hT EF
  constructor
  · have h := (parts (fun _ => b.sigma0 / (kB * T)) (fun E => b.trs E T) 1 continuous_const (by unfold Spb.trs; fun_prop) (by simp [Spb.trs])
      (fun E _ => by
        have := ((hasDerivAt_id E).const_mul b.sigma0).div_const (kB * T)
        exact this.congr_deriv (by simp))
      (growth |b.sigma0 / (kB * T)| 1 fun E hE => by
        rw [pow_one]
        nlinarith [abs_nonneg (b.sigma0 / (kB * T))])
      (growth |b.sigma0 / (kB * T)| 1 fun E hE => by
        have : b.trs E T = b.sigma0 / (kB * T) * E := by unfold Spb.trs; ring
        rw [this, abs_mul, abs_of_nonneg (by linarith : (0 : ℝ) ≤ E), pow_one]) EF T hT).2.2
    simp only [Placed.exact, pow_zero, one_mul, window]
    change ∫ E in Ioi 0, b.trs E T * -deriv (fermi EF T) E = _
    rw [← h, integral_const_mul, moment0 EF hT]
    field_simp
  · have h := (parts (fun E => b.sigma0 / (kB * T) ^ 2 * (2 * E - EF)) (fun E => b.trs E T * reduced EF T E) 2 (by fun_prop) (by unfold Spb.trs reduced; fun_prop)
      (by simp [Spb.trs])
      (fun E _ => by
        have h1 := ((hasDerivAt_id E).mul ((hasDerivAt_id E).sub_const EF)).const_mul (b.sigma0 / (kB * T) ^ 2)
        have e : (fun E => b.trs E T * reduced EF T E) = fun E => b.sigma0 / (kB * T) ^ 2 * (E * (E - EF)) := by
          funext E
          unfold Spb.trs reduced
          field_simp
        rw [e]
        refine h1.congr_deriv ?_
        simp only [id]
        ring)
      (growth (|b.sigma0 / (kB * T) ^ 2| * (2 + |EF|)) 2 fun E hE => by
        rw [abs_mul, mul_assoc]
        refine mul_le_mul_of_nonneg_left ?_ (abs_nonneg _)
        have h1 := abs_sub (2 * E) EF
        rw [abs_of_nonneg (by linarith : 0 ≤ 2 * E)] at h1
        have h2 := abs_nonneg EF
        have h3 : E ≤ E ^ 2 := by nlinarith
        have h4 : |EF| * 1 ≤ |EF| * E ^ 2 := mul_le_mul_of_nonneg_left (by linarith) h2
        linarith)
      (growth (|b.sigma0 / (kB * T) ^ 2| * (1 + |EF|)) 2 fun E hE => by
        have e : b.trs E T * reduced EF T E = b.sigma0 / (kB * T) ^ 2 * (E * (E - EF)) := by
          unfold Spb.trs reduced
          field_simp
        rw [e, abs_mul, mul_assoc, abs_mul E, abs_of_nonneg (by linarith : 0 ≤ E)]
        refine mul_le_mul_of_nonneg_left ?_ (abs_nonneg _)
        have h1 := abs_sub E EF
        rw [abs_of_nonneg (by linarith : 0 ≤ E)] at h1
        have h2 := abs_nonneg EF
        have h3 := mul_le_mul_of_nonneg_left h1 (by linarith : 0 ≤ E)
        have h4 : E * |EF| ≤ E ^ 2 * |EF| := mul_le_mul_of_nonneg_right (by nlinarith) h2
        nlinarith) EF T hT).2.2
    simp only [Placed.exact, pow_one, window, ← mul_assoc]
    change ∫ E in Ioi 0, b.trs E T * reduced EF T E * -deriv (fermi EF T) E = _
    rw [← h]
    have e : ∀ E, b.sigma0 / (kB * T) ^ 2 * (2 * E - EF) * fermi EF T E = b.sigma0 / (kB * T) ^ 2 * (2 * (E * fermi EF T E) - EF * fermi EF T E) := by
      intro E
      ring
    simp only [e]
    rw [integral_const_mul, integral_sub (i1.const_mul 2) (i0.const_mul EF), integral_const_mul, integral_const_mul, moment0 EF hT, moment1 EF hT]
    unfold seeb
    field_simp

/-! ## The properties of the band -/

theorem spb_prop (b : Spb) (s d EF : ℝ) {T : ℝ} (hT : 0 < T) :
    (Placed.exact ⟨b.fns, s, d⟩).prop .C (some (EF, T)) = .ok (some (b.sigma0 * fd0 (EF / (kB * T)))) ∧
    (Placed.exact ⟨b.fns, s, d⟩).prop .S (some (EF, T)) = .ok (some (s * S0 * (b.sigma0 * seeb (EF / (kB * T))) / (b.sigma0 * fd0 (EF / (kB * T))))) ∧
    (Placed.exact ⟨b.fns, s, d⟩).prop .PF (some (EF, T)) = .ok (some (1000000 * kB * kB * ((b.sigma0 * seeb (EF / (kB * T))) ^ 2 / (b.sigma0 * fd0 (EF / (kB * T)))))) := by
  obtain ⟨h0, h1⟩ := spb_K b s d EF hT
  simp only [Leaf.prop, exact_src, Src.prop, h0, h1]
  refine ⟨rfl, ?_, ?_⟩ <;> rfl

/-- **C129** The power factor of a parabolic band with acoustic-phonon scattering, as a function of the Fermi level, rises strictly up
to one level and falls strictly after it; that level is, in units of `kB*T`, one number for all bands and temperatures, within 1.3e-5 of the
constant 0.66812 of the code; so `EFopt(T)` is within `1.3e-5*kB*T` of the only maximum, and `PFmax` is below the true maximum by no
more than 2.7 parts in a million (it is even below the power factor at `EFopt(T)`). -/
theorem C129_optimum : ∃ m : ℝ, |m - 0.66812| < 0.000013 ∧ ∀ (b : Spb) (s d T : ℝ), 0 < b.sigma0 → 0 < T → ∃ pf : ℝ → ℝ,
    (∀ EF, (Placed.exact ⟨b.fns, s, d⟩).prop .PF (some (EF, T)) = .ok (some (pf EF))) ∧
    StrictMonoOn pf (Iic (m * (kB * T))) ∧ StrictAntiOn pf (Ici (m * (kB * T))) ∧
    (∀ EF, EF ≠ m * (kB * T) → pf EF < pf (m * (kB * T))) ∧
    |b.EFopt T - m * (kB * T)| < 0.000013 * (kB * T) ∧
    b.PFmax < pf (b.EFopt T) ∧ pf (m * (kB * T)) < 1.0000027 * b.PFmax := by
  obtain ⟨m, hm, hinc, hdec, hlo, hhi, hat⟩ := rpf_shape
  refine ⟨m, hm, fun b s d T hs hT => ?_⟩
  have hkT : 0 < kB * T := mul_pos kB_pos hT
  have hkB : (kB : ℝ) ≠ 0 := kB_pos.ne'
  have hk2 : (0 : ℝ) < 1000000 * kB * kB := by have := kB_pos; positivity
  have hc : 0 < 1000000 * kB * kB * b.sigma0 := mul_pos hk2 hs
  have hmm : m * (kB * T) / (kB * T) = m := by field_simp
  have i1 : StrictMonoOn (fun EF => 1000000 * kB * kB * b.sigma0 * rpf (EF / (kB * T))) (Iic (m * (kB * T))) := by
    intro x hx y hy hxy
    refine mul_lt_mul_of_pos_left (hinc ?_ ?_ ?_) hc
    · exact (div_le_iff₀ hkT).2 hx
    · exact (div_le_iff₀ hkT).2 hy
    · exact div_lt_div_of_pos_right hxy hkT
  have i2 : StrictAntiOn (fun EF => 1000000 * kB * kB * b.sigma0 * rpf (EF / (kB * T))) (Ici (m * (kB * T))) := by
    intro x hx y hy hxy
    refine mul_lt_mul_of_pos_left (hdec ?_ ?_ ?_) hc
    · exact (le_div_iff₀ hkT).2 hx
    · exact (le_div_iff₀ hkT).2 hy
    · exact div_lt_div_of_pos_right hxy hkT
  refine ⟨fun EF => 1000000 * kB * kB * b.sigma0 * rpf (EF / (kB * T)), fun EF => ?_, i1, i2, fun EF hne => ?_, ?_, ?_, ?_⟩
  · rw [(spb_prop b s d EF hT).2.2]
    have := fd0_pos (EF / (kB * T))
    simp only [rpf]
    congr 2
    field_simp
  · rcases lt_or_gt_of_ne hne with h | h
    · exact i1 h.le (le_refl (m * (kB * T))) h
    · exact i2 (le_refl (m * (kB * T))) h.le h
  · have e : b.EFopt T - m * (kB * T) = (0.66812 - m) * (kB * T) := by
      unfold Spb.EFopt yitaOpt
      ring
    rw [e, abs_mul, abs_of_pos hkT, abs_sub_comm]
    exact mul_lt_mul_of_pos_right hm hkT
  · have e : b.EFopt T / (kB * T) = 0.66812 := by
      unfold Spb.EFopt yitaOpt
      field_simp
      norm_num
    have h1 : sigma0ToPFmax < 1000000 * kB * kB * 4.06034098 := by
      unfold sigma0ToPFmax kB
      norm_num
    simp only [e]
    have h2 := mul_lt_mul_of_pos_left hat hk2
    have h3 := mul_lt_mul_of_pos_left (h1.trans h2) hs
    unfold Spb.PFmax
    linarith
  · have h1 : 1000000 * kB * kB * 4.06034102 < 1.0000027 * sigma0ToPFmax := by
      unfold sigma0ToPFmax kB
      norm_num
    simp only [hmm]
    have h2 := mul_lt_mul_of_pos_left hhi hk2
    have h3 := mul_lt_mul_of_pos_left (h2.trans h1) hs
    unfold Spb.PFmax
    linarith

/-- **C129** The conductivity of the band is `sigma0*ln(1+exp(EF/(kB*T)))`; every positive conductivity is reached at exactly one Fermi
level. -/
theorem C129_conductivity (b : Spb) (s d T : ℝ) (hs : 0 < b.sigma0) (hT : 0 < T) :
    (∀ EF, (Placed.exact ⟨b.fns, s, d⟩).prop .C (some (EF, T)) = .ok (some (b.sigma0 * log (1 + exp (EF / (kB * T)))))) ∧
    ∀ c, 0 < c → ∃! EF, (Placed.exact ⟨b.fns, s, d⟩).prop .C (some (EF, T)) = .ok (some c) := by
  have hkT : 0 < kB * T := mul_pos kB_pos hT
  have h : ∀ EF, (Placed.exact ⟨b.fns, s, d⟩).prop .C (some (EF, T)) = .ok (some (b.sigma0 * log (1 + exp (EF / (kB * T))))) :=
    fun EF => (spb_prop b s d EF hT).1
  refine ⟨h, fun c hc => ⟨kB * T * log (exp (c / b.sigma0) - 1), ?_, ?_⟩⟩
  · have h1 : 1 < exp (c / b.sigma0) := one_lt_exp_iff.2 (by positivity)
    simp only [h]
    rw [mul_div_cancel_left₀ _ hkT.ne', exp_log (by linarith), add_sub_cancel, log_exp]
    congr 2
    field_simp
  · intro EF he
    simp only [h, Except.ok.injEq, Option.some.injEq] at he
    have h2 : log (1 + exp (EF / (kB * T))) = c / b.sigma0 := by
      rw [← he]
      field_simp
    rw [← h2, exp_log (by positivity), add_sub_cancel_left, log_exp, mul_div_cancel₀ _ hkT.ne']

theorem seeb_ratio_deriv (y : ℝ) : HasDerivAt (fun y => seeb y / fd0 y) (((fd0 y - y * (exp y / (1 + exp y))) * fd0 y - seeb y * (exp y / (1 + exp y))) / fd0 y ^ 2) y :=
  (seeb_deriv y).div (fd0_deriv y) (fd0_pos y).ne'

theorem thin_pos (y : ℝ) : 0 < 2 * fd1 y - fd0 y ^ 2 * (1 + exp (-y)) := by
  refine pos_of_deriv (f := fun y => 2 * fd1 y - fd0 y ^ 2 * (1 + exp (-y))) (f' := fun y => fd0 y ^ 2 * exp (-y)) (fun y => ?_) (fun y => ?_) ?_ y
  · have h1 := (((fd0_deriv y).pow 2).mul (((hasDerivAt_neg y).exp).const_add 1))
    have h2 := ((fd1_deriv y).const_mul 2).sub h1
    refine h2.congr_deriv ?_
    rw [exp_neg]
    have := exp_pos y
    simp only [Pi.pow_apply]
    field_simp
    ring
  · have := fd0_pos y
    positivity
  · have h3 : Tendsto (fun y => fd0 y ^ 2 * (1 + exp (-y))) atBot (𝓝 0) := by
      have h4 : Tendsto (fun y => fd0 y ^ 2 + fd0 y) atBot (𝓝 0) := by
        have := (fd0_bot.pow 2).add fd0_bot
        simpa using this
      refine tendsto_of_tendsto_of_tendsto_of_le_of_le tendsto_const_nhds h4 (fun y => ?_) (fun y => ?_)
      · have := fd0_pos y
        positivity
      · have h5 := fd0_pos y
        have h6 := fd0_lt y
        have h7 : fd0 y * exp (-y) ≤ 1 := by
          rw [exp_neg, ← div_eq_mul_inv, div_le_one (exp_pos y)]
          exact h6.le
        simp only
        nlinarith
    have := (fd1_bot.const_mul 2).sub h3
    simpa using this

theorem seeb_ratio_anti : StrictAnti (fun y => seeb y / fd0 y) := by
  refine strictAnti_of_deriv_neg fun y => ?_
  rw [(seeb_ratio_deriv y).deriv]
  have h0 := fd0_pos y
  have ht := thin_pos y
  have he := exp_pos y
  refine div_neg_of_neg_of_pos ?_ (by positivity)
  have e : (fd0 y - y * (exp y / (1 + exp y))) * fd0 y - seeb y * (exp y / (1 + exp y)) = -(2 * fd1 y - fd0 y ^ 2 * (1 + exp (-y))) * (exp y / (1 + exp y)) := by
    unfold seeb
    rw [exp_neg]
    field_simp
    ring
  rw [e]
  have := (occ_lt y).1
  nlinarith [mul_pos ht this]

/-- **C129** The Seebeck coefficient of the band has the sign of its carriers; its size falls strictly as the Fermi level rises into the
band, and every non-zero value with that sign is reached at exactly one Fermi level: the equation `solve_EF('S', value, T)` has one solution. -/
theorem C129_seebeck (b : Spb) (s d T : ℝ) (hb : 0 < b.sigma0) (hs : s = 1 ∨ s = -1) (hT : 0 < T) : ∃ a : ℝ → ℝ,
    (∀ EF, (Placed.exact ⟨b.fns, s, d⟩).prop .S (some (EF, T)) = .ok (some (s * a EF))) ∧ (∀ EF, 0 < a EF) ∧ StrictAnti a ∧
    ∀ v, 0 < v → ∃! EF, (Placed.exact ⟨b.fns, s, d⟩).prop .S (some (EF, T)) = .ok (some (s * v)) := by
  have hkT : 0 < kB * T := mul_pos kB_pos hT
  have hkB : (kB : ℝ) ≠ 0 := kB_pos.ne'
  have hS : (0 : ℝ) < S0 := by unfold S0; norm_num
  have hs0 : s ≠ 0 := by rcases hs with h | h <;> rw [h] <;> norm_num
  have h : ∀ EF, (Placed.exact ⟨b.fns, s, d⟩).prop .S (some (EF, T)) = .ok (some (s * (S0 * (seeb (EF / (kB * T)) / fd0 (EF / (kB * T)))))) := by
    intro EF
    rw [(spb_prop b s d EF hT).2.1]
    have := fd0_pos (EF / (kB * T))
    congr 2
    field_simp
  have hanti : StrictAnti (fun EF => S0 * (seeb (EF / (kB * T)) / fd0 (EF / (kB * T)))) := fun x y hxy =>
    mul_lt_mul_of_pos_left (seeb_ratio_anti (div_lt_div_of_pos_right hxy hkT)) hS
  refine ⟨_, h, fun EF => mul_pos hS (div_pos (seeb_pos _) (fd0_pos _)), hanti, fun v hv => ?_⟩
  have hcont : Continuous (fun y => seeb y / fd0 y) := continuous_iff_continuousAt.2 fun y => (seeb_ratio_deriv y).continuousAt
  have hw : 0 < v / S0 := by positivity
  have hex : ∃ y, seeb y / fd0 y = v / S0 := by
    have hlow : v / S0 ≤ seeb (-(v / S0)) / fd0 (-(v / S0)) := by
      have h0 := fd0_pos (-(v / S0))
      have h1 := fd1_pos (-(v / S0))
      rw [le_div_iff₀ h0]
      unfold seeb
      linarith
    have hhigh : seeb (π ^ 2 / 3 / (v / S0)) / fd0 (π ^ 2 / 3 / (v / S0)) ≤ v / S0 := by
      generalize hz : v / S0 = w at *
      generalize hy : π ^ 2 / 3 / w = y
      have hy0 : 0 < y := by rw [← hy]; positivity
      have h0 := fd0_pos y
      have h1 := fd0_gt y
      have h2 := fd1_reflect y
      have h3 := fd1_pos (-y)
      have h4 : y * w = π ^ 2 / 3 := by rw [← hy]; field_simp
      rw [div_le_iff₀ h0]
      unfold seeb
      nlinarith
    have := mem_range_of_exists_le_of_exists_ge hcont ⟨_, hhigh⟩ ⟨_, hlow⟩
    exact this
  obtain ⟨y, hy⟩ := hex
  have hyv : S0 * (seeb (kB * T * y / (kB * T)) / fd0 (kB * T * y / (kB * T))) = v := by
    rw [mul_div_cancel_left₀ _ hkT.ne', hy]
    field_simp
  refine ⟨kB * T * y, ?_, fun EF he => ?_⟩
  · simp only [h, hyv]
  · simp only [h, Except.ok.injEq, Option.some.injEq] at he
    exact hanti.injective ((mul_left_cancel₀ hs0 he).trans hyv.symm)

/-- beside the theorems: the default band at 300 K, as a conduction band -/
example : ∃ a, (Placed.exact ⟨(⟨1, 1, 1⟩ : Spb).fns, -1, 0⟩).prop .C (some (0, 300)) = .ok (some a) ∧ a = log 2 := by
  refine ⟨_, (C129_conductivity ⟨1, 1, 1⟩ (-1) 0 300 one_pos (by norm_num)).1 0, ?_⟩
  norm_num

end

end TEflow.Bandlib
