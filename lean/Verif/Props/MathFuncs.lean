import Mathlib.Algebra.Order.Chebyshev
import Mathlib.Tactic.LinearCombination
import Mathlib.Tactic.NormNum
import Verif.Model.Mathext

/-! # Properties C28, C32, C33: metrics, Fermi–Dirac function, smoothstep -/

set_option linter.unusedSimpArgs false
set_option linter.unusedSectionVars false

namespace TEflow
open Mathext

section C28
variable {n : ℕ}

theorem mean_nonneg {f : Fin n → ℝ} (h : ∀ i, 0 ≤ f i) : 0 ≤ mean f :=
  div_nonneg (Finset.sum_nonneg (fun i _ => h i)) (Nat.cast_nonneg n)

theorem mean_eq_zero {f : Fin n → ℝ} (h : ∀ i, 0 ≤ f i) : mean f = 0 ↔ ∀ i, f i = 0 := by
  unfold mean
  rcases Nat.eq_zero_or_pos n with rfl | hn
  · simp
  · have hn' : (n : ℝ) ≠ 0 := by positivity
    rw [div_eq_zero_iff, or_iff_left hn', Finset.sum_eq_zero_iff_of_nonneg (fun i _ => h i)]
    simp

/-- **C28 (non-negative).** All metrics are non-negative. -/
theorem C28_nonneg (y y2 : Fin n → ℝ) :
    0 ≤ MSE y y2 ∧ 0 ≤ RMSE y y2 ∧ 0 ≤ MAE y y2 ∧ 0 ≤ MAPE y y2 ∧ 0 ≤ SMAPE y y2 := by
  refine ⟨mean_nonneg fun i => sq_nonneg _, Real.sqrt_nonneg _, mean_nonneg fun i => abs_nonneg _,
    mean_nonneg fun i => abs_nonneg _, mul_nonneg (by norm_num) (mean_nonneg fun i => by positivity)⟩

/-- **C28 (zero).** MSE, RMSE, MAE and SMAPE vanish exactly for equal data; so does MAPE when no entry of `y` is zero. -/
theorem C28_zero (y y2 : Fin n → ℝ) :
    (MSE y y2 = 0 ↔ y = y2) ∧ (RMSE y y2 = 0 ↔ y = y2) ∧ (MAE y y2 = 0 ↔ y = y2) ∧ (SMAPE y y2 = 0 ↔ y = y2) ∧
    ((∀ i, y i ≠ 0) → (MAPE y y2 = 0 ↔ y = y2)) := by
  have hMSE : MSE y y2 = 0 ↔ y = y2 := by
    unfold MSE; rw [mean_eq_zero (fun i => sq_nonneg _), funext_iff]
    refine forall_congr' fun i => ?_
    rw [pow_eq_zero_iff two_ne_zero, sub_eq_zero, eq_comm]
  refine ⟨hMSE, ?_, ?_, ?_, ?_⟩
  · rw [← hMSE]; unfold RMSE MSE
    exact Real.sqrt_eq_zero (mean_nonneg fun i => sq_nonneg _)
  · unfold MAE; rw [mean_eq_zero (fun i => abs_nonneg _), funext_iff]
    refine forall_congr' fun i => ?_
    rw [abs_eq_zero, sub_eq_zero, eq_comm]
  · unfold SMAPE
    rw [mul_eq_zero, or_iff_right two_ne_zero, mean_eq_zero (fun i => by positivity), funext_iff]
    refine forall_congr' fun i => ?_
    rw [div_eq_zero_iff, abs_eq_zero, sub_eq_zero]
    constructor
    · rintro (h | h)
      · exact h.symm
      · have h1 := abs_nonneg (y i); have h2 := abs_nonneg (y2 i)
        rw [abs_eq_zero.mp (by linarith : |y i| = 0), abs_eq_zero.mp (by linarith : |y2 i| = 0)]
    · intro h; exact Or.inl h.symm
  · intro hy
    unfold MAPE; rw [mean_eq_zero (fun i => abs_nonneg _), funext_iff]
    refine forall_congr' fun i => ?_
    rw [abs_eq_zero, sub_eq_zero, div_eq_one_iff_eq (hy i), eq_comm]

/-- **C28 (symmetry).** -/
theorem C28_symm (y y2 : Fin n → ℝ) :
    MSE y y2 = MSE y2 y ∧ RMSE y y2 = RMSE y2 y ∧ MAE y y2 = MAE y2 y ∧ SMAPE y y2 = SMAPE y2 y := by
  have h : ∀ i, (y2 i - y i) ^ 2 = (y i - y2 i) ^ 2 := fun i => by ring
  refine ⟨by simp only [MSE, h], by simp only [RMSE, h], by simp only [MAE, abs_sub_comm], ?_⟩
  simp only [SMAPE]
  congr 2; funext i; rw [abs_sub_comm, add_comm]

/-- **C28 (order).** `RMSE² = MSE`, `MAE ≤ RMSE`, `SMAPE ≤ 2`. -/
theorem C28_order (y y2 : Fin n → ℝ) : RMSE y y2 ^ 2 = MSE y y2 ∧ MAE y y2 ≤ RMSE y y2 ∧ SMAPE y y2 ≤ 2 := by
  have h0 : 0 ≤ MSE y y2 := (C28_nonneg y y2).1
  refine ⟨Real.sq_sqrt h0, ?_, ?_⟩
  · apply Real.le_sqrt_of_sq_le
    unfold MAE mean
    rcases Nat.eq_zero_or_pos n with rfl | hn
    · simp
    have hn' : (0 : ℝ) < n := by exact_mod_cast hn
    rw [div_pow, div_le_div_iff₀ (by positivity) hn']
    have := sq_sum_le_card_mul_sum_sq (s := Finset.univ) (f := fun i => |y2 i - y i|)
    simp only [Finset.card_univ, Fintype.card_fin, sq_abs] at this
    nlinarith
  · unfold SMAPE mean
    rcases Nat.eq_zero_or_pos n with rfl | hn
    · simp
    have hn' : (0 : ℝ) < n := by exact_mod_cast hn
    have : ∑ i : Fin n, |y2 i - y i| / (|y2 i| + |y i|) ≤ n := by
      calc ∑ i : Fin n, |y2 i - y i| / (|y2 i| + |y i|) ≤ ∑ i : Fin n, (1 : ℝ) :=
            Finset.sum_le_sum fun i _ => div_le_one_of_le₀ (abs_sub _ _) (by positivity)
        _ = n := by simp
    have : (∑ i : Fin n, |y2 i - y i| / (|y2 i| + |y i|)) / n ≤ 1 := (div_le_one hn').mpr this
    linarith

/-- **C28 (scale).** MAPE does not change when both data sets are multiplied by the same non-zero factor. -/
theorem C28_scale (y y2 : Fin n → ℝ) (c : ℝ) (hc : c ≠ 0) :
    MAPE (fun i => c * y i) (fun i => c * y2 i) = MAPE y y2 := by
  unfold MAPE; congr 1; funext i; rw [mul_div_mul_left _ _ hc]

/-- **C28 (documented).** The values are those of the formulas in the documentation; MAPE is relative to the first data set. -/
theorem C28_documented (y y2 : Fin n → ℝ) :
    MSE y y2 = 1 / n * ∑ i, (y2 i - y i) ^ 2 ∧ RMSE y y2 = Real.sqrt (1 / n * ∑ i, (y2 i - y i) ^ 2) ∧
    MAE y y2 = 1 / n * ∑ i, |y2 i - y i| ∧
    ((∀ i, y i ≠ 0) → MAPE y y2 = 1 / n * ∑ i, |(y2 i - y i) / y i|) ∧
    SMAPE y y2 = 2 / n * ∑ i, |y2 i - y i| / (|y2 i| + |y i|) := by
  refine ⟨?_, ?_, ?_, ?_, ?_⟩
  · unfold MSE mean; ring
  · unfold RMSE mean; congr 1; ring
  · unfold MAE mean; ring
  · intro h
    unfold MAPE mean
    rw [show (fun i => |(y2 i - y i) / y i|) = fun i => |y2 i / y i - 1| from by
      funext i; rw [sub_div, div_self (h i)]]
    ring
  · unfold SMAPE mean; ring

/-- **C28 (dispatch).** `Metric(kind)` computes the metric of that name; any other name raises `ValueError`. -/
theorem C28_dispatch (y y2 : Fin n → ℝ) :
    (metricKind "MSE").map (fun k => callMetric k y y2) = .ok (MSE y y2) ∧
    (metricKind "RMSE").map (fun k => callMetric k y y2) = .ok (RMSE y y2) ∧
    (metricKind "MAE").map (fun k => callMetric k y y2) = .ok (MAE y y2) ∧
    (metricKind "MAPE").map (fun k => callMetric k y y2) = .ok (MAPE y y2) ∧
    (metricKind "SMAPE").map (fun k => callMetric k y y2) = .ok (SMAPE y y2) ∧
    ∀ kind, kind ∉ ["MSE", "RMSE", "MAE", "MAPE", "SMAPE"] → metricKind kind = .error .valueError := by
  refine ⟨rfl, rfl, rfl, rfl, rfl, fun kind h => ?_⟩
  simp only [List.mem_cons, List.not_mem_nil, or_false, not_or] at h
  simp [metricKind, h]

/-- the values of the documentation: y = 1,2,3 and y2 = 2,4,5 give MSE = 3 -/
example : MSE ![1, 2, 3] ![2, 4, 5] = 3 ∧ MAPE ![1, 2, 4] ![2, 4, 8] = 1 := by
  constructor
  · simp [MSE, mean, Fin.sum_univ_three]; norm_num
  · simp [MAPE, mean, Fin.sum_univ_three]; norm_num

end C28

section C32

theorem fd_eq (x : ℝ) : fermidirac x false = 1 / (1 + Real.exp x) := by simp [fermidirac, expit]

/-- **C32 (shape).** Values strictly between 0 and 1, strictly decreasing, `f(-x) = 1 - f(x)`. -/
theorem C32_shape :
    (∀ x, fermidirac x false = 1 / (1 + Real.exp x)) ∧
    (∀ x, 0 < fermidirac x false ∧ fermidirac x false < 1) ∧ StrictAnti (fun x => fermidirac x false) ∧
    ∀ x, fermidirac (-x) false = 1 - fermidirac x false := by
  refine ⟨fd_eq, fun x => ?_, fun a b hab => ?_, fun x => ?_⟩
  · rw [fd_eq]
    have := Real.exp_pos x
    exact ⟨by positivity, by rw [div_lt_one (by positivity)]; linarith⟩
  · simp only [fd_eq]
    have := Real.exp_pos a
    exact one_div_lt_one_div_of_lt (by positivity) (by have := Real.exp_lt_exp.mpr hab; linarith)
  · rw [fd_eq, fd_eq, Real.exp_neg]
    have := Real.exp_pos x
    field_simp
    ring

/-- **C32 (inverse).** `fermidirac(·, inverse=True)` undoes `fermidirac` for every real number, and conversely on (0,1). -/
theorem C32_inverse : (∀ x, fermidirac (fermidirac x false) true = x) ∧
    (∀ y, 0 < y → y < 1 → fermidirac (fermidirac y true) false = y) ∧
    (∀ y, 0 < y → y < 1 → fermidirac y true = Real.log (1 / y - 1)) := by
  have hinv : ∀ y, 0 < y → y < 1 → fermidirac y true = Real.log (1 / y - 1) := by
    intro y h0 h1
    have hc : clip y 0 1 = y := by simp [clip, h0.le, h1.le]
    have h2 : 0 < 1 - y := by linarith
    simp only [fermidirac, if_true, hc, logit]
    rw [show (1 : ℝ) / y - 1 = (y / (1 - y))⁻¹ by field_simp, Real.log_inv]; ring
  refine ⟨fun x => ?_, fun y h0 h1 => ?_, hinv⟩
  · obtain ⟨h0, h1⟩ := C32_shape.2.1 x
    rw [hinv _ h0 h1, fd_eq, one_div_one_div, add_sub_cancel_left, Real.log_exp]
  · rw [hinv y h0 h1, fd_eq, Real.exp_log]
    · field_simp; ring
    · rw [sub_pos, lt_div_iff₀ h0]; linarith

example : fermidirac 0 false = 1 / 2 := by rw [fd_eq]; norm_num

end C32

section C33

theorem clip_mem (x : ℝ) {lo hi : ℝ} (h : lo ≤ hi) : lo ≤ clip x lo hi ∧ clip x lo hi ≤ hi := by
  unfold clip; exact ⟨le_min (le_max_right _ _) h, min_le_right _ _⟩

theorem clip_of_mem {x lo hi : ℝ} (h1 : lo ≤ x) (h2 : x ≤ hi) : clip x lo hi = x := by
  simp [clip, h1, h2]

theorem clip_mono {lo hi : ℝ} : Monotone (fun x => clip x lo hi) := fun a b hab => by
  unfold clip; exact min_le_min_right _ (max_le_max_right _ hab)

/-- **C33 (plain).** `smoothstep(·, shift=False)` is the cubic `3x²-2x³` between 0 and 1, 0 before, 1 after, never leaves
[0,1] and never decreases. -/
theorem C33_plain :
    (∀ x, 0 ≤ x → x ≤ 1 → smoothstep x false false = 3 * x ^ 2 - 2 * x ^ 3) ∧ (∀ x, x ≤ 0 → smoothstep x false false = 0) ∧
    (∀ x, 1 ≤ x → smoothstep x false false = 1) ∧ (∀ x, 0 ≤ smoothstep x false false ∧ smoothstep x false false ≤ 1) ∧
    Monotone (fun x => smoothstep x false false) := by
  have hval : ∀ t : ℝ, 0 ≤ t → t ≤ 1 → 0 ≤ t * t * (3 - 2 * t) ∧ t * t * (3 - 2 * t) ≤ 1 := by
    intro t h0 h1
    refine ⟨mul_nonneg (mul_nonneg h0 h0) (by linarith), ?_⟩
    nlinarith [mul_nonneg (sq_nonneg (1 - t)) (by linarith : (0 : ℝ) ≤ 1 + 2 * t)]
  refine ⟨fun x h0 h1 => ?_, fun x h => ?_, fun x h => ?_, fun x => ?_, fun a b hab => ?_⟩
  · simp [smoothstep, clip_of_mem h0 h1]; ring
  · simp [smoothstep, clip, h]
  · simp [smoothstep, clip, h, (by linarith : (0 : ℝ) ≤ x)]; norm_num
  · obtain ⟨h0, h1⟩ := clip_mem x (zero_le_one' ℝ)
    simpa [smoothstep] using hval _ h0 h1
  · have h := clip_mono (lo := 0) (hi := 1) hab
    obtain ⟨a0, a1⟩ := clip_mem a (zero_le_one' ℝ)
    obtain ⟨b0, b1⟩ := clip_mem b (zero_le_one' ℝ)
    simp only [smoothstep, Bool.false_eq_true, if_false] at h ⊢
    generalize clip a 0 1 = s at *
    generalize clip b 0 1 = t at *
    nlinarith [mul_nonneg (sub_nonneg.mpr h) (mul_nonneg a0 (sub_nonneg.mpr a1)), mul_nonneg (sub_nonneg.mpr h) (mul_nonneg b0 (sub_nonneg.mpr b1)),
      mul_nonneg (sub_nonneg.mpr h) (mul_nonneg a0 (sub_nonneg.mpr b1)), mul_nonneg (sub_nonneg.mpr h) (mul_nonneg b0 (sub_nonneg.mpr a1))]

/-- **C33 (shifted).** The shifted function is the plain one at `(1-x)/2`: it falls from 1 (x ≤ -1) to 0 (x ≥ 1). -/
theorem C33_shift (x : ℝ) :
    smoothstep x false true = smoothstep ((1 - x) / 2) false false ∧
    (x ≤ -1 → smoothstep x false true = 1) ∧ (1 ≤ x → smoothstep x false true = 0) ∧
    (0 ≤ smoothstep x false true ∧ smoothstep x false true ≤ 1) ∧ Antitone (fun x => smoothstep x false true) := by
  have key : ∀ x : ℝ, smoothstep x false true = smoothstep ((1 - x) / 2) false false := by
    intro x
    have : clip ((1 - x) / 2) 0 1 = (1 - clip x (-1) 1) / 2 := by
      unfold clip
      rcases le_total x (-1) with h | h
      · rw [max_eq_right h, max_eq_left (by linarith : (0 : ℝ) ≤ (1 - x) / 2), min_eq_right (by linarith : (1 : ℝ) ≤ (1 - x) / 2),
          min_eq_left (by norm_num : (-1 : ℝ) ≤ 1)]; norm_num
      · rcases le_total x 1 with h' | h'
        · rw [max_eq_left h, min_eq_left h', max_eq_left (by linarith), min_eq_left (by linarith)]
        · rw [max_eq_left h, min_eq_right h', max_eq_right (by linarith), min_eq_left (by norm_num)]; norm_num
    simp only [smoothstep, if_true, Bool.false_eq_true, if_false, this]
    ring
  obtain ⟨_, p2, p3, p4, p5⟩ := C33_plain
  refine ⟨key x, fun h => ?_, fun h => ?_, ?_, fun a b hab => ?_⟩
  · rw [key]; exact p3 _ (by linarith)
  · rw [key]; exact p2 _ (by linarith)
  · rw [key]; exact p4 _
  · simp only [key]; exact p5 (by linarith)

/-- sin(θ/3) solves 3s - 4s³ = sin θ -/
theorem sin_third (θ : ℝ) : 3 * Real.sin (θ / 3) - 4 * Real.sin (θ / 3) ^ 3 = Real.sin θ := by
  have := Real.sin_three_mul (θ / 3)
  rw [show 3 * (θ / 3) = θ by ring] at this
  linarith

theorem third_range {u : ℝ} : -(1 / 2) ≤ Real.sin (Real.arcsin u / 3) ∧ Real.sin (Real.arcsin u / 3) ≤ 1 / 2 := by
  have h1 := Real.neg_pi_div_two_le_arcsin u
  have h2 := Real.arcsin_le_pi_div_two u
  have hp := Real.pi_pos
  have hs : Real.sin (Real.pi / 6) = 1 / 2 := Real.sin_pi_div_six
  constructor
  · rw [← hs, ← Real.sin_neg]
    apply Real.sin_le_sin_of_le_of_le_pi_div_two <;> linarith
  · rw [← hs]
    apply Real.sin_le_sin_of_le_of_le_pi_div_two <;> linarith

/-- **C33 (inverse, plain).** With `shift=False`: `inverse=True` maps [0,1] into [0,1] and is a two-sided inverse there. -/
theorem C33_inverse_plain :
    (∀ y, 0 ≤ y → y ≤ 1 → (0 ≤ smoothstep y true false ∧ smoothstep y true false ≤ 1) ∧
      smoothstep (smoothstep y true false) false false = y) ∧
    (∀ x, 0 ≤ x → x ≤ 1 → smoothstep (smoothstep x false false) true false = x) := by
  have hr : ∀ y : ℝ, 0 ≤ smoothstep y true false ∧ smoothstep y true false ≤ 1 := by
    intro y
    have := third_range (u := 1 - 2 * y)
    simp only [smoothstep, Bool.false_eq_true, if_false, if_true]
    constructor <;> linarith [this.1, this.2]
  have hleft : ∀ y, 0 ≤ y → y ≤ 1 → smoothstep (smoothstep y true false) false false = y := by
    intro y h0 h1
    rw [C33_plain.1 _ (hr y).1 (hr y).2]
    simp only [smoothstep, Bool.false_eq_true, if_false, if_true]
    have h3 := sin_third (Real.arcsin (1 - 2 * y))
    rw [Real.sin_arcsin (by linarith) (by linarith)] at h3
    generalize Real.sin (Real.arcsin (1 - 2 * y) / 3) = s at *
    linear_combination (-1 / 2) * h3
  refine ⟨fun y h0 h1 => ⟨hr y, hleft y h0 h1⟩, fun x h0 h1 => ?_⟩
  -- strict monotonicity on [0,1]
  have hv := C33_plain.2.2.2.1 x
  have h2 := hleft _ hv.1 hv.2
  have h3 := hr (smoothstep x false false)
  rw [C33_plain.1 _ h3.1 h3.2] at h2
  rw [C33_plain.1 x h0 h1] at h2 ⊢
  rw [C33_plain.1 x h0 h1] at h3
  generalize smoothstep (3 * x ^ 2 - 2 * x ^ 3) true false = t at *
  by_contra hne
  have hfac : (t - x) * (3 * (t + x) - 2 * (t ^ 2 + t * x + x ^ 2)) = 0 := by linear_combination h2
  rcases mul_eq_zero.mp hfac with h | h
  · exact hne (by linarith)
  · -- 3(t+x) = 2(t²+tx+x²) on the unit square only at (0,0), (1,1)
    have e1 : 0 ≤ t * (1 - t) := mul_nonneg h3.1 (by linarith [h3.2])
    have e2 : 0 ≤ x * (1 - x) := mul_nonneg h0 (by linarith)
    have e3 : (t - x) ^ 2 ≤ t + x - 2 * t * x - 0 := by nlinarith
    have e4 : t * (1 - t) * 2 + x * (1 - x) * 2 + (t * (1 - x) + x * (1 - t)) = 0 := by nlinarith
    have e5 : 0 ≤ t * (1 - x) := mul_nonneg h3.1 (by linarith)
    have e6 : 0 ≤ x * (1 - t) := mul_nonneg h0 (by linarith [h3.2])
    apply hne
    have e7 : t * (1 - x) = 0 := by linarith
    have e8 : x * (1 - t) = 0 := by linarith
    nlinarith

/-- **C33 (inverse, shifted).** With `shift=True` the inverse maps [0,1] into [-1,1] and is a two-sided inverse. -/
theorem C33_inverse_shift :
    (∀ y, 0 ≤ y → y ≤ 1 → (-1 ≤ smoothstep y true true ∧ smoothstep y true true ≤ 1) ∧
      smoothstep (smoothstep y true true) false true = y) ∧
    (∀ x, -1 ≤ x → x ≤ 1 → smoothstep (smoothstep x false true) true true = x) := by
  have hrel : ∀ y, smoothstep y true true = 1 - 2 * smoothstep y true false := by
    intro y; simp only [smoothstep, if_true, Bool.false_eq_true, if_false]; ring
  obtain ⟨h1, h2⟩ := C33_inverse_plain
  refine ⟨fun y h0 h1' => ?_, fun x h0 h1' => ?_⟩
  · obtain ⟨⟨a, b⟩, c⟩ := h1 y h0 h1'
    refine ⟨by rw [hrel]; constructor <;> linarith, ?_⟩
    rw [(C33_shift _).1, hrel, show (1 - (1 - 2 * smoothstep y true false)) / 2 = smoothstep y true false by ring]
    exact c
  · rw [(C33_shift x).1, hrel, h2 _ (by linarith) (by linarith)]; ring

example : smoothstep (1 / 2) false false = 1 / 2 ∧ smoothstep 0 false true = 1 / 2 := by
  constructor
  · rw [C33_plain.1 _ (by norm_num) (by norm_num)]; norm_num
  · rw [(C33_shift 0).1, C33_plain.1 _ (by norm_num) (by norm_num)]; norm_num

end C33
end TEflow
