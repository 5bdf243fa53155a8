import Verif.Props.BandLorenz

/-! # C141: the transport properties of a linear band -/

open Real MeasureTheory Set Filter Topology

namespace TEflow.Bandlib

noncomputable section

/-! ## The reduced properties -/

/-- the mean energy above the edge, `F₀/f` -/
def mu (y : ℝ) : ℝ := fd0 y * (1 + exp (-y))

/-- the reduced Seebeck coefficient -/
def sLin (y : ℝ) : ℝ := mu y - y

/-- the reduced Lorenz number -/
def lorLin (y : ℝ) : ℝ := 2 * fd1 y * (1 + exp (-y)) - mu y ^ 2

/-- the filling of the edge -/
def occ (y : ℝ) : ℝ := exp y / (1 + exp y)

/-- the reduced power factor -/
def rpfLin (y : ℝ) : ℝ := sLin y ^ 2 * occ y

theorem occ_mul (y : ℝ) : occ y * (1 + exp (-y)) = 1 := by
  unfold occ
  rw [exp_neg]
  have := exp_pos y
  field_simp
  ring

theorem occ_deriv (y : ℝ) : HasDerivAt occ (occ y * (1 - occ y)) y := by
  have h := (hasDerivAt_exp y).div ((hasDerivAt_exp y).const_add 1) (by positivity)
  refine h.congr_deriv ?_
  have := exp_pos y
  unfold occ
  field_simp

theorem occ_range (y : ℝ) : 0 < occ y ∧ occ y < 1 := occ_lt y

theorem occ_mono : StrictMono occ := strictMono_of_hasDerivAt_pos occ_deriv fun y => mul_pos (occ_range y).1 (sub_pos.2 (occ_range y).2)

theorem mu_deriv (y : ℝ) : HasDerivAt mu (1 - fd0 y * exp (-y)) y := by
  have h := (fd0_deriv y).mul (((hasDerivAt_neg y).exp).const_add 1)
  refine h.congr_deriv ?_
  rw [exp_neg]
  have := exp_pos y
  field_simp
  ring

theorem fd0_exp (y : ℝ) : fd0 y * exp (-y) < 1 := by
  rw [exp_neg, ← div_eq_mul_inv, div_lt_one (exp_pos y)]
  exact fd0_lt y

theorem sLin_deriv (y : ℝ) : HasDerivAt sLin (-(fd0 y * exp (-y))) y := by
  have h := (mu_deriv y).sub (hasDerivAt_id y)
  exact h.congr_deriv (by ring)

theorem sLin_anti : StrictAnti sLin := by
  refine strictAnti_of_deriv_neg fun y => ?_
  rw [(sLin_deriv y).deriv]
  have := mul_pos (fd0_pos y) (exp_pos (-y))
  linarith

theorem sLin_pos (y : ℝ) : 0 < sLin y := by
  have h1 := fd0_gt y
  have h2 := mul_pos (fd0_pos y) (exp_pos (-y))
  unfold sLin mu
  linarith

theorem lorLin_deriv (y : ℝ) : HasDerivAt lorLin (2 * exp (-y) * (fd0 y ^ 2 * (1 + exp y) / exp y - fd1 y)) y := by
  have h := (((fd1_deriv y).const_mul 2).mul (((hasDerivAt_neg y).exp).const_add 1)).sub ((mu_deriv y).pow 2)
  refine h.congr_deriv ?_
  rw [exp_neg]
  have := exp_pos y
  simp only [mu, exp_neg]
  push_cast
  field_simp
  ring

theorem lorLin_mono : StrictMono lorLin :=
  strictMono_of_hasDerivAt_pos lorLin_deriv fun y => mul_pos (mul_pos (by norm_num) (exp_pos _)) (gap_pos y)

theorem edge_bot {f : ℝ → ℝ} (h1 : ∀ y, fd0 y ≤ f y) (h2 : ∀ y, f y ≤ exp y) : Tendsto (fun y => f y * (1 + exp (-y))) atBot (𝓝 1) := by
  have hb : Tendsto (fun y : ℝ => 1 + exp y) atBot (𝓝 1) := by simpa using tendsto_exp_atBot.const_add 1
  refine tendsto_of_tendsto_of_tendsto_of_le_of_le tendsto_const_nhds hb (fun y => ?_) fun y => ?_
  · have h3 := fd0_ge y
    have he := exp_pos y
    rw [div_lt_iff₀ (by positivity)] at h3
    have h4 : exp y * exp (-y) = 1 := by rw [← exp_add]; simp
    have h5 := mul_lt_mul_of_pos_right h3 (exp_pos (-y))
    have h6 := mul_le_mul_of_nonneg_right (h1 y) (by positivity : 0 ≤ 1 + exp (-y))
    show 1 ≤ f y * (1 + exp (-y))
    nlinarith
  · have h4 : exp y * exp (-y) = 1 := by rw [← exp_add]; simp
    have h6 := mul_le_mul_of_nonneg_right (h2 y) (by positivity : 0 ≤ 1 + exp (-y))
    show f y * (1 + exp (-y)) ≤ 1 + exp y
    linarith

theorem lorLin_bot : Tendsto lorLin atBot (𝓝 1) := by
  have h1 := edge_bot (f := fd1) (fun y => (fd0_lt_fd1 y).le) fd1_le
  have h2 := edge_bot (f := fd0) (fun y => le_rfl) fun y => (fd0_lt y).le
  have h3 := (h1.const_mul 2).sub (h2.pow 2)
  norm_num at h3
  refine h3.congr fun y => ?_
  unfold lorLin mu
  ring

theorem cube_exp {y : ℝ} (hy : 1 ≤ y) : exp (-y) * y ^ 3 ≤ 6 := by
  have h3 := sum_le_exp_of_nonneg (show (0 : ℝ) ≤ y by linarith) 4
  simp only [Finset.sum_range_succ, Finset.sum_range_zero, Nat.factorial] at h3
  norm_num at h3
  have h4 : y ^ 3 ≤ 6 * exp y := by nlinarith
  rw [exp_neg, ← div_eq_inv_mul, div_le_iff₀ (exp_pos y)]
  exact h4

theorem lorLin_top : Tendsto lorLin atTop (𝓝 (π ^ 2 / 3)) := by
  have hsq : Tendsto (fun y : ℝ => 200 / y) atTop (𝓝 0) := tendsto_const_nhds.div_atTop tendsto_id
  rw [tendsto_iff_norm_sub_tendsto_zero]
  refine tendsto_of_tendsto_of_tendsto_of_le_of_le' tendsto_const_nhds hsq (Eventually.of_forall fun y => norm_nonneg _) ?_
  filter_upwards [eventually_ge_atTop (1 : ℝ)] with y hy
  have h0 := fd0_reflect y
  have h1 := fd1_reflect y
  have p0 := fd0_pos (-y)
  have q0 := (fd0_lt (-y)).le
  have p1 := fd1_pos (-y)
  have q1 := fd1_le (-y)
  have hpi := pi_sq
  have ha1 : 0 < π ^ 2 / 6 := by linarith [hpi.1]
  have ha2 : π ^ 2 / 6 < 2 := by linarith [hpi.2]
  have ha : π ^ 2 / 3 = 2 * (π ^ 2 / 6) := by ring
  have he := cube_exp hy
  have he1 : exp (-y) ≤ 1 := exp_le_one_iff.2 (by linarith)
  have hep := exp_pos (-y)
  have hyp : 0 < y := by linarith
  unfold lorLin mu
  rw [ha, norm_eq_abs, le_div_iff₀ hyp]
  generalize π ^ 2 / 6 = a at *
  generalize exp (-y) = e at *
  rw [h0, h1]
  generalize fd0 (-y) = u at *
  generalize fd1 (-y) = v at *
  have hN : |2 * (a + y ^ 2 / 2 - v) * (1 + e) - ((u + y) * (1 + e)) ^ 2 - 2 * a| ≤ e * (33 * y ^ 2) := by
    have e1 : 2 * (a + y ^ 2 / 2 - v) * (1 + e) - ((u + y) * (1 + e)) ^ 2 - 2 * a =
        -(2 * v) - u * (2 * y + u) + e * (2 * a + y ^ 2 - 2 * v) - (2 * e + e ^ 2) * (u + y) ^ 2 := by ring
    have y1 : y ≤ y ^ 2 := by nlinarith
    have y2 : 1 ≤ y ^ 2 := by linarith
    have b1 : v ≤ e * y ^ 2 := q1.trans (le_mul_of_one_le_right hep.le y2)
    have b2 : u * (2 * y + u) ≤ e * (3 * y ^ 2) := mul_le_mul q0 (by linarith) (by positivity) hep.le
    have b3 : e * (2 * a + y ^ 2 - 2 * v) ≤ e * (5 * y ^ 2) := mul_le_mul_of_nonneg_left (by linarith) hep.le
    have b3' : -(e * (2 * y ^ 2)) ≤ e * (2 * a + y ^ 2 - 2 * v) := by
      rw [← mul_neg]
      exact mul_le_mul_of_nonneg_left (by linarith) hep.le
    have b4 : (u + y) ^ 2 ≤ 4 * y ^ 2 := by
      have : u + y ≤ 2 * y := by linarith
      have := pow_le_pow_left₀ (by positivity) this 2
      linarith
    have b5 : (2 * e + e ^ 2) * (u + y) ^ 2 ≤ (3 * e) * (4 * y ^ 2) := mul_le_mul (by nlinarith) b4 (by positivity) (by positivity)
    have c5 : 0 ≤ (2 * e + e ^ 2) * (u + y) ^ 2 := by positivity
    have c2 : 0 ≤ u * (2 * y + u) := by positivity
    have c6 : 0 < e * y ^ 2 := by positivity
    rw [e1, abs_le]
    constructor <;> linarith
  have h5 := mul_le_mul_of_nonneg_right hN hyp.le
  have h6 : e * (33 * y ^ 2) * y = 33 * (e * y ^ 3) := by ring
  rw [h6] at h5
  linarith

theorem lorLin_range (y : ℝ) : 1 < lorLin y ∧ lorLin y < π ^ 2 / 3 := by
  constructor
  · have h := le_of_tendsto lorLin_bot ((eventually_le_atBot (y - 1)).mono fun x hx => lorLin_mono.monotone hx)
    exact h.trans_lt (lorLin_mono (by linarith))
  · have h := ge_of_tendsto lorLin_top ((eventually_ge_atTop (y + 1)).mono fun x hx => lorLin_mono.monotone hx)
    exact (lorLin_mono (by linarith : y < y + 1)).trans_le h

/-! ## The optimum -/

theorem rpfLin_deriv (y : ℝ) : HasDerivAt rpfLin (-(sLin y * occ y * (1 - occ y) * (mu y + y))) y := by
  have h := ((sLin_deriv y).pow 2).mul (occ_deriv y)
  refine h.congr_deriv ?_
  have := exp_pos y
  simp only [sLin, mu, occ, exp_neg, Pi.pow_apply]
  push_cast
  field_simp
  ring

theorem crit_mono : StrictMono (fun y => mu y + y) :=
  strictMono_of_hasDerivAt_pos (fun y => (mu_deriv y).add (hasDerivAt_id y)) fun y => by
    have := fd0_exp y
    linarith

theorem exp_114 : 0.3198 < exp (-1.14) ∧ exp (-1.15) < 0.3167 := by
  have h1 := exp_one_gt_d9
  have h2 := exp_one_lt_d9
  constructor
  · have h3 := exp_bound' (show (0 : ℝ) ≤ 0.14 by norm_num) (by norm_num) (n := 4) (by norm_num)
    simp only [Finset.sum_range_succ, Finset.sum_range_zero, Nat.factorial] at h3
    norm_num at h3
    have e : exp (-1.14) = (exp 1 * exp (7 / 50))⁻¹ := by
      rw [← exp_add, ← exp_neg]
      norm_num
    rw [e, lt_inv_comm₀ (by norm_num) (by positivity)]
    have : exp 1 * exp (7 / 50) ≤ 2.7182818286 * 1.1503 := mul_le_mul h2.le (by norm_num; linarith) (exp_pos _).le (by norm_num)
    norm_num at this ⊢
    linarith
  · have h3 := sum_le_exp_of_nonneg (show (0 : ℝ) ≤ 0.15 by norm_num) 4
    simp only [Finset.sum_range_succ, Finset.sum_range_zero, Nat.factorial] at h3
    norm_num at h3
    have e : exp (-1.15) = (exp 1 * exp (3 / 20))⁻¹ := by
      rw [← exp_add, ← exp_neg]
      norm_num
    rw [e, inv_lt_comm₀ (by positivity) (by norm_num)]
    have : 2.7182818283 * 1.1618 ≤ exp 1 * exp (3 / 20) := mul_le_mul h1.le (by norm_num; linarith) (by norm_num) (exp_pos _).le
    norm_num at this ⊢
    linarith

theorem mu_low : mu (-1.15) + -1.15 < 0 := by
  obtain ⟨_, h⟩ := exp_114
  have h2 := (odd_le 2 (-1.15)).1
  have he := exp_pos (-1.15)
  have e : mu (-1.15) = fd0 (-1.15) * (1 + exp (-1.15)) / exp (-1.15) := by
    unfold mu
    rw [exp_neg (-1.15)]
    field_simp
    ring
  simp only [altSum, Finset.sum_range_succ, Finset.sum_range_zero] at h2
  norm_num at h2
  rw [e, ← lt_neg_iff_add_neg, neg_neg, div_lt_iff₀ he]
  norm_num at h he h2 ⊢
  generalize fd0 (-(23 / 20)) = f at *
  generalize exp (-(23 / 20)) = u at *
  have h4 := mul_lt_mul_of_pos_right h2 (by linarith : 0 < 1 + u)
  refine h4.trans ?_
  have : u * (23 / 20) - (u + -u ^ 2 / 2 + u ^ 3 / 3 + -u ^ 4 / 4 + u ^ 5 / 5) * (1 + u) = u * (3 / 20 - u / 2 + u ^ 2 / 6 - u ^ 3 / 12 + u ^ 4 / 20 - u ^ 5 / 5) := by ring
  have h5 : 0 < 3 / 20 - u / 2 + u ^ 2 / 6 - u ^ 3 / 12 + u ^ 4 / 20 - u ^ 5 / 5 := by
    have h6 : 0.0083 ≤ 3 / 20 - u / 2 + u ^ 2 / 6 := by nlinarith
    have h7 : u ^ 3 ≤ 0.3167 ^ 3 := pow_le_pow_left₀ he.le (by norm_num; linarith) 3
    have h8 : u ^ 5 ≤ 0.3167 ^ 5 := pow_le_pow_left₀ he.le (by norm_num; linarith) 5
    have h9 : 0 < u ^ 4 := by positivity
    norm_num at h6 h7 h8
    linarith
  have h6 := mul_pos he h5
  rw [← this] at h6
  linarith

theorem mu_high : 0 < mu (-1.14) + -1.14 := by
  obtain ⟨h, _⟩ := exp_114
  have h2 := (even_le 2 (-1.14)).1
  have he := exp_pos (-1.14)
  have h3 : exp (-1.14) ≤ 1 / 3 := by
    have h1 := exp_one_gt_d9
    have h4 := add_one_le_exp (0.14 : ℝ)
    have e : exp (-1.14) = (exp 1 * exp (7 / 50))⁻¹ := by
      rw [← exp_add, ← exp_neg]
      norm_num
    rw [e, one_div]
    refine inv_anti₀ (by norm_num) ?_
    have : 2.7182818283 * 1.14 ≤ exp 1 * exp (7 / 50) := mul_le_mul h1.le (by norm_num at h4 ⊢; linarith) (by norm_num) (exp_pos _).le
    norm_num at this ⊢
    linarith
  have e : mu (-1.14) = fd0 (-1.14) * (1 + exp (-1.14)) / exp (-1.14) := by
    unfold mu
    rw [exp_neg (-1.14)]
    field_simp
    ring
  simp only [altSum, Finset.sum_range_succ, Finset.sum_range_zero] at h2
  norm_num at h2
  have h5 : 1.14 < fd0 (-1.14) * (1 + exp (-1.14)) / exp (-1.14) := by
    rw [lt_div_iff₀ he]
    norm_num at h he h2 h3 ⊢
    generalize fd0 (-(57 / 50)) = f at *
    generalize exp (-(57 / 50)) = u at *
    have h4 := mul_lt_mul_of_pos_right h2 (by linarith : 0 < 1 + u)
    refine lt_trans ?_ h4
    have h6 : 0.1428 ≤ u / 2 - u ^ 2 / 6 := by nlinarith
    have h7 : 0 ≤ u ^ 3 * (1 / 12 - u / 4) := mul_nonneg (by positivity) (by linarith)
    have h8 : 0 < u * (u / 2 - u ^ 2 / 6 + u ^ 3 * (1 / 12 - u / 4) - 7 / 50) := mul_pos he (by norm_num at h6; linarith)
    nlinarith
  rw [e]
  linarith

theorem rpfLin_shape : ∃ m : ℝ, -1.15 < m ∧ m < -1.14 ∧ mu m = -m ∧ StrictMonoOn rpfLin (Iic m) ∧ StrictAntiOn rpfLin (Ici m) := by
  have hc : Continuous (fun y => mu y + y) := continuous_iff_continuousAt.2 fun y => ((mu_deriv y).add (hasDerivAt_id y)).continuousAt
  obtain ⟨m, hm⟩ := mem_range_of_exists_le_of_exists_ge (c := 0) hc ⟨-1.15, mu_low.le⟩ ⟨-1.14, mu_high.le⟩
  have hm : mu m + m = 0 := hm
  have h1 : -1.15 < m := crit_mono.lt_iff_lt.1 (show mu (-1.15) + -1.15 < mu m + m by rw [hm]; exact mu_low)
  have h2 : m < -1.14 := crit_mono.lt_iff_lt.1 (show mu m + m < mu (-1.14) + -1.14 by rw [hm]; exact mu_high)
  have hpos : ∀ y, 0 < sLin y * occ y * (1 - occ y) := fun y => mul_pos (mul_pos (sLin_pos y) (occ_range y).1) (sub_pos.2 (occ_range y).2)
  refine ⟨m, h1, h2, by linarith, ?_, ?_⟩
  · refine strictMonoOn_of_deriv_pos (convex_Iic _) (fun x _ => (rpfLin_deriv x).continuousAt.continuousWithinAt) fun x hx => ?_
    rw [interior_Iic] at hx
    have h := crit_mono hx
    simp only [hm] at h
    rw [(rpfLin_deriv x).deriv]
    nlinarith [mul_pos (hpos x) (neg_pos.2 h)]
  · refine strictAntiOn_of_deriv_neg (convex_Ici _) (fun x _ => (rpfLin_deriv x).continuousAt.continuousWithinAt) fun x hx => ?_
    rw [interior_Ici] at hx
    have h := crit_mono hx
    simp only [hm] at h
    rw [(rpfLin_deriv x).deriv]
    nlinarith [mul_pos (hpos x) h]

/-! ## The integrals of the linear band -/

theorem lin_K (b : Lin) (s d EF : ℝ) {T : ℝ} (hT : 0 < T) :
    (Placed.exact ⟨b.fns, s, d⟩).k 0 EF T = b.sigma0 * occ (EF / (kB * T)) ∧
    (Placed.exact ⟨b.fns, s, d⟩).k 1 EF T = b.sigma0 * (fd0 (EF / (kB * T)) - EF / (kB * T) * occ (EF / (kB * T))) ∧
    (Placed.exact ⟨b.fns, s, d⟩).k 2 EF T = b.sigma0 * (2 * fd1 (EF / (kB * T)) - 2 * (EF / (kB * T)) * fd0 (EF / (kB * T)) + (EF / (kB * T)) ^ 2 * occ (EF / (kB * T))) := by
  have hkT : 0 < kB * T := mul_pos kB_pos hT
  have hkB : (kB : ℝ) ≠ 0 := kB_pos.ne'
  obtain ⟨w0, v0⟩ := window_Ioi EF 0 hT
  have hv : fermi EF T 0 = occ (EF / (kB * T)) := by
    rw [fermi_flip EF hT, sub_zero]
    rfl
  rw [hv] at v0
  -- the first moment of the window
  obtain ⟨_, w1, v1⟩ := parts (fun _ => 1) (fun E => E) 1 continuous_const continuous_id rfl (fun E _ => hasDerivAt_id E)
    (growth 1 1 fun E hE => by simpa using hE) (growth 1 1 fun E hE => by rw [abs_of_nonneg (by linarith), pow_one, one_mul]) EF T hT
  simp only [one_mul, moment0 EF hT] at v1
  -- and the second
  obtain ⟨_, w2, v2⟩ := parts (fun E => 2 * E) (fun E => E ^ 2) 2 (by fun_prop) (by fun_prop) (by norm_num)
    (fun E _ => by simpa using hasDerivAt_pow 2 E)
    (growth 2 2 fun E hE => by rw [abs_of_nonneg (by linarith)]; nlinarith) (growth 1 2 fun E hE => by rw [abs_of_nonneg (by positivity), one_mul]) EF T hT
  simp only [mul_assoc, integral_const_mul, moment1 EF hT] at v2
  change IntegrableOn (fun E => E * window EF T E) (Ioi 0) at w1
  change IntegrableOn (fun E => E ^ 2 * window EF T E) (Ioi 0) at w2
  change _ = ∫ E in Ioi 0, E * window EF T E at v1
  change _ = ∫ E in Ioi 0, E ^ 2 * window EF T E at v2
  simp only [Placed.exact, Lin.fns, Lin.trs, integral_const_mul]
  refine ⟨?_, ?_, ?_⟩
  · simp only [pow_zero, one_mul]
    rw [v0]
  · have e : ∀ E, reduced EF T E ^ 1 * window EF T E = 1 / (kB * T) * (E * window EF T E) - EF / (kB * T) * window EF T E := by
      intro E
      unfold reduced
      field_simp
    simp only [e]
    rw [integral_sub (w1.const_mul _) (w0.const_mul _), integral_const_mul, integral_const_mul, ← v1, v0]
    congr 1
    field_simp
  · have e : ∀ E, reduced EF T E ^ 2 * window EF T E = 1 / (kB * T) ^ 2 * (E ^ 2 * window EF T E) - 2 * EF / (kB * T) ^ 2 * (E * window EF T E)
        + (EF / (kB * T)) ^ 2 * window EF T E := by
      intro E
      unfold reduced
      field_simp
      ring
    simp only [e]
    have w12 : IntegrableOn (fun E => 1 / (kB * T) ^ 2 * (E ^ 2 * window EF T E) - 2 * EF / (kB * T) ^ 2 * (E * window EF T E)) (Ioi 0) := (w2.const_mul _).sub (w1.const_mul _)
    rw [integral_add w12 (w0.const_mul _), integral_sub (w2.const_mul _) (w1.const_mul _), integral_const_mul, integral_const_mul, integral_const_mul, ← v1, ← v2, v0]
    congr 1
    field_simp

theorem lin_prop (b : Lin) (s d EF : ℝ) {T : ℝ} (hb : 0 < b.sigma0) (hT : 0 < T) :
    (Placed.exact ⟨b.fns, s, d⟩).prop .C (some (EF, T)) = .ok (some (b.sigma0 * occ (EF / (kB * T)))) ∧
    (Placed.exact ⟨b.fns, s, d⟩).prop .S (some (EF, T)) = .ok (some (s * (S0 * sLin (EF / (kB * T))))) ∧
    (Placed.exact ⟨b.fns, s, d⟩).prop .PF (some (EF, T)) = .ok (some (1000000 * kB * kB * b.sigma0 * rpfLin (EF / (kB * T)))) ∧
    (Placed.exact ⟨b.fns, s, d⟩).prop .L (some (EF, T)) = .ok (some (L0 * lorLin (EF / (kB * T)))) := by
  obtain ⟨h0, h1, h2⟩ := lin_K b s d EF hT
  have hb' := hb.ne'
  have e1 : ∀ x y z : ℝ, (Placed.exact ⟨b.fns, s, d⟩).k 0 EF T = x → (Placed.exact ⟨b.fns, s, d⟩).k 1 EF T = y → (Placed.exact ⟨b.fns, s, d⟩).k 2 EF T = z →
      (Placed.exact ⟨b.fns, s, d⟩).prop .C (some (EF, T)) = .ok (some x) ∧
      (Placed.exact ⟨b.fns, s, d⟩).prop .S (some (EF, T)) = .ok (some (s * S0 * y / x)) ∧
      (Placed.exact ⟨b.fns, s, d⟩).prop .PF (some (EF, T)) = .ok (some (1000000 * kB * kB * (y ^ 2 / x))) ∧
      (Placed.exact ⟨b.fns, s, d⟩).prop .L (some (EF, T)) = .ok (some (L0 * (z / x - (y / x) ^ 2))) := by
    intro x y z hx hy hz
    simp only [Leaf.prop, exact_src, Src.prop, hx, hy, hz]
    exact ⟨rfl, rfl, rfl, rfl⟩
  obtain ⟨e2, e3, e4, e5⟩ := e1 _ _ _ h0 h1 h2
  rw [e2, e3, e4, e5]
  generalize EF / (kB * T) = y at *
  have ho := (occ_range y).1.ne'
  have hw : 1 + exp (-y) = (occ y)⁻¹ := eq_inv_of_mul_eq_one_right (occ_mul y)
  refine ⟨rfl, ?_, ?_, ?_⟩
  · congr 2
    unfold sLin mu
    rw [hw]
    field_simp
  · congr 2
    unfold rpfLin sLin mu
    rw [hw]
    field_simp
  · congr 3
    unfold lorLin mu
    rw [hw]
    field_simp
    ring

/-! ## The properties of the band -/

/-- **C141** The conductivity of a linear band is `sigma0` times the Fermi function at its edge: it rises strictly with the Fermi level, stays below
`sigma0` at every level, and takes each value between 0 and `sigma0` at exactly one; so `solve_EF('C', value, T)` has no solution from
`sigma0` on. -/
theorem C141_conductivity (b : Lin) (s d T : ℝ) (hb : 0 < b.sigma0) (hT : 0 < T) :
    (∀ EF, (Placed.exact ⟨b.fns, s, d⟩).prop .C (some (EF, T)) = .ok (some (b.sigma0 / (1 + exp (-(EF / (kB * T))))))) ∧
    (∀ EF FE x y, (Placed.exact ⟨b.fns, s, d⟩).prop .C (some (EF, T)) = .ok (some x) → (Placed.exact ⟨b.fns, s, d⟩).prop .C (some (FE, T)) = .ok (some y) → EF < FE → x < y) ∧
    (∀ c, (∃ EF, (Placed.exact ⟨b.fns, s, d⟩).prop .C (some (EF, T)) = .ok (some c)) ↔ 0 < c ∧ c < b.sigma0) ∧
    ∀ c, 0 < c → c < b.sigma0 → ∃! EF, (Placed.exact ⟨b.fns, s, d⟩).prop .C (some (EF, T)) = .ok (some c) := by
  have hkT : 0 < kB * T := mul_pos kB_pos hT
  have h : ∀ EF, (Placed.exact ⟨b.fns, s, d⟩).prop .C (some (EF, T)) = .ok (some (b.sigma0 * occ (EF / (kB * T)))) := fun EF => (lin_prop b s d EF hb hT).1
  have hm : StrictMono (fun EF => b.sigma0 * occ (EF / (kB * T))) := fun x y hxy => mul_lt_mul_of_pos_left (occ_mono (div_lt_div_of_pos_right hxy hkT)) hb
  have hex : ∀ c, 0 < c → c < b.sigma0 → ∃ EF, b.sigma0 * occ (EF / (kB * T)) = c := by
    intro c h0 h1
    have h2 : 0 < c / (b.sigma0 - c) := div_pos h0 (by linarith)
    refine ⟨kB * T * log (c / (b.sigma0 - c)), ?_⟩
    rw [mul_div_cancel_left₀ _ hkT.ne', occ, exp_log h2]
    have h3 : b.sigma0 - c ≠ 0 := by linarith
    have h4 : 1 + c / (b.sigma0 - c) = b.sigma0 / (b.sigma0 - c) := by
      field_simp
      ring
    rw [h4]
    field_simp
  refine ⟨fun EF => ?_, fun EF FE x y h1 h2 hlt => ?_, fun c => ⟨?_, fun hc => ?_⟩, fun c h0 h1 => ?_⟩
  · rw [h]
    congr 2
    rw [eq_div_iff (by positivity), mul_assoc, occ_mul, mul_one]
  · rw [h, Except.ok.injEq, Option.some.injEq] at h1 h2
    rw [← h1, ← h2]
    exact hm hlt
  · rintro ⟨EF, he⟩
    rw [h, Except.ok.injEq, Option.some.injEq] at he
    obtain ⟨h1, h2⟩ := occ_range (EF / (kB * T))
    rw [← he]
    exact ⟨mul_pos hb h1, mul_lt_of_lt_one_right hb h2⟩
  · obtain ⟨EF, he⟩ := hex c hc.1 hc.2
    exact ⟨EF, by rw [h, he]⟩
  · obtain ⟨EF, he⟩ := hex c h0 h1
    refine ⟨EF, by simp only [h, he], fun FE hf => ?_⟩
    simp only [h, Except.ok.injEq, Option.some.injEq] at hf
    exact hm.injective (hf.trans he.symm)

/-- **C141** The Seebeck coefficient of a linear band has the sign of its carriers; its size falls strictly as the Fermi level rises, and every
non-zero value of that sign is reached at exactly one level. -/
theorem C141_seebeck (b : Lin) (s d T : ℝ) (hb : 0 < b.sigma0) (hs : s = 1 ∨ s = -1) (hT : 0 < T) : ∃ a : ℝ → ℝ,
    (∀ EF, (Placed.exact ⟨b.fns, s, d⟩).prop .S (some (EF, T)) = .ok (some (s * a EF))) ∧ (∀ EF, 0 < a EF) ∧ StrictAnti a ∧
    ∀ v, 0 < v → ∃! EF, (Placed.exact ⟨b.fns, s, d⟩).prop .S (some (EF, T)) = .ok (some (s * v)) := by
  have hkT : 0 < kB * T := mul_pos kB_pos hT
  have hS : (0 : ℝ) < S0 := by unfold S0; norm_num
  have hs0 : s ≠ 0 := by rcases hs with h | h <;> rw [h] <;> norm_num
  have h : ∀ EF, (Placed.exact ⟨b.fns, s, d⟩).prop .S (some (EF, T)) = .ok (some (s * (S0 * sLin (EF / (kB * T))))) := fun EF => (lin_prop b s d EF hb hT).2.1
  have hanti : StrictAnti (fun EF => S0 * sLin (EF / (kB * T))) := fun x y hxy => mul_lt_mul_of_pos_left (sLin_anti (div_lt_div_of_pos_right hxy hkT)) hS
  refine ⟨_, h, fun EF => mul_pos hS (sLin_pos _), hanti, fun v hv => ?_⟩
  have hcont : Continuous sLin := continuous_iff_continuousAt.2 fun y => (sLin_deriv y).continuousAt
  have hw : 0 < v / S0 := by positivity
  obtain ⟨y, hy⟩ : ∃ y, sLin y = v / S0 := by
    generalize v / S0 = w at hw
    refine mem_range_of_exists_le_of_exists_ge hcont ⟨1 + 32 / w, ?_⟩ ⟨-w, ?_⟩
    · have hq : 0 < 32 / w := by positivity
      generalize hy : 1 + 32 / w = y
      have hy1 : 1 ≤ y := by linarith
      have hyw : 32 ≤ y * w := by
        rw [← hy, add_mul, div_mul_cancel₀ _ hw.ne']
        linarith
      have h0 := fd0_reflect y
      have h1 := (fd0_lt (-y)).le
      have h2 := fd0_pos (-y)
      have h3 := cube_exp hy1
      have h4 : exp (-y) ≤ 1 := exp_le_one_iff.2 (by linarith)
      have h5 := exp_pos (-y)
      unfold sLin mu
      rw [h0]
      generalize exp (-y) = e at *
      generalize fd0 (-y) = u at *
      have h6 : (u + y) * (1 + e) - y ≤ e * (3 * y) := by nlinarith
      have h7 : e * (3 * y) * y ≤ w * y := by
        have : e * y ^ 2 ≤ e * y ^ 3 := mul_le_mul_of_nonneg_left (pow_le_pow_right₀ hy1 (by norm_num)) h5.le
        nlinarith
      exact h6.trans (le_of_mul_le_mul_right h7 (by linarith))
    · have h1 := mul_pos (fd0_pos (-w)) (show 0 < 1 + exp (-(-w)) by positivity)
      unfold sLin mu
      linarith
  have hyv : S0 * sLin (kB * T * y / (kB * T)) = v := by
    rw [mul_div_cancel_left₀ _ hkT.ne', hy]
    field_simp
  refine ⟨kB * T * y, ?_, fun EF he => ?_⟩
  · simp only [h, hyv]
  · simp only [h, Except.ok.injEq, Option.some.injEq] at he
    exact hanti.injective ((mul_left_cancel₀ hs0 he).trans hyv.symm)

/-- **C141** The Lorenz number of a linear band rises strictly with the Fermi level from `(kB/e)²` to the Sommerfeld value and lies strictly between
them at every level; every value between is taken at exactly one level. -/
theorem C141_lorenz (b : Lin) (s d T : ℝ) (hb : 0 < b.sigma0) (hT : 0 < T) : ∃ L : ℝ → ℝ,
    (∀ EF, (Placed.exact ⟨b.fns, s, d⟩).prop .L (some (EF, T)) = .ok (some (L EF))) ∧ StrictMono L ∧
    Tendsto L atBot (𝓝 (1 * L0)) ∧ Tendsto L atTop (𝓝 (π ^ 2 / 3 * L0)) ∧
    (∀ EF, 1 * L0 < L EF ∧ L EF < π ^ 2 / 3 * L0) ∧
    ∀ v, 1 * L0 < v → v < π ^ 2 / 3 * L0 → ∃! EF, (Placed.exact ⟨b.fns, s, d⟩).prop .L (some (EF, T)) = .ok (some v) := by
  have hkT : 0 < kB * T := mul_pos kB_pos hT
  have hL : (0 : ℝ) < L0 := by unfold L0; norm_num
  have hm : StrictMono (fun EF => L0 * lorLin (EF / (kB * T))) := fun x y hxy =>
    mul_lt_mul_of_pos_left (lorLin_mono (div_lt_div_of_pos_right hxy hkT)) hL
  have h : ∀ EF, (Placed.exact ⟨b.fns, s, d⟩).prop .L (some (EF, T)) = .ok (some (L0 * lorLin (EF / (kB * T)))) := fun EF => (lin_prop b s d EF hb hT).2.2.2
  refine ⟨_, h, hm, ?_, ?_, fun EF => ?_, fun v h1 h2 => ?_⟩
  · have := (lorLin_bot.comp (tendsto_id.atBot_div_const hkT)).const_mul L0
    rw [mul_comm L0] at this
    exact this
  · have := (lorLin_top.comp (tendsto_id.atTop_div_const hkT)).const_mul L0
    rw [mul_comm L0] at this
    exact this
  · have := lorLin_range (EF / (kB * T))
    constructor <;> nlinarith
  · have hcont : Continuous lorLin := continuous_iff_continuousAt.2 fun y => (lorLin_deriv y).continuousAt
    have h3 : 1 < v / L0 := by rwa [lt_div_iff₀ hL]
    have h4 : v / L0 < π ^ 2 / 3 := by rwa [div_lt_iff₀ hL]
    obtain ⟨y1, hy1⟩ := (lorLin_bot.eventually (gt_mem_nhds h3)).exists
    obtain ⟨y2, hy2⟩ := (lorLin_top.eventually (lt_mem_nhds h4)).exists
    obtain ⟨y, hy⟩ := mem_range_of_exists_le_of_exists_ge hcont ⟨y1, hy1.le⟩ ⟨y2, hy2.le⟩
    have hyv : L0 * lorLin (kB * T * y / (kB * T)) = v := by
      rw [mul_div_cancel_left₀ _ hkT.ne', hy]
      field_simp
    refine ⟨kB * T * y, ?_, fun EF he => ?_⟩
    · simp only [h, hyv]
    · simp only [h, Except.ok.injEq, Option.some.injEq] at he
      exact hm.injective (he.trans hyv.symm)

/-- **C141** The power factor of a linear band has exactly one maximum as a function of the Fermi level. It lies between 1.14 and 1.15 `kB*T` outside
the band, at one reduced level for all linear bands and temperatures, where the Seebeck coefficient is between 196 and 199 µV/K. -/
theorem C141_optimum : ∃ m : ℝ, -1.15 < m ∧ m < -1.14 ∧ ∀ (b : Lin) (s d T : ℝ), 0 < b.sigma0 → (s = 1 ∨ s = -1) → 0 < T → ∃ pf : ℝ → ℝ,
    (∀ EF, (Placed.exact ⟨b.fns, s, d⟩).prop .PF (some (EF, T)) = .ok (some (pf EF))) ∧
    StrictMonoOn pf (Iic (m * (kB * T))) ∧ StrictAntiOn pf (Ici (m * (kB * T))) ∧
    (∀ EF, EF ≠ m * (kB * T) → pf EF < pf (m * (kB * T))) ∧
    ∃ a, (Placed.exact ⟨b.fns, s, d⟩).prop .S (some (m * (kB * T), T)) = .ok (some (s * a)) ∧ 196 < a ∧ a < 199 := by
  obtain ⟨m, h1, h2, h3, hinc, hdec⟩ := rpfLin_shape
  refine ⟨m, h1, h2, fun b s d T hb hs hT => ?_⟩
  have hkT : 0 < kB * T := mul_pos kB_pos hT
  have hc : 0 < 1000000 * kB * kB * b.sigma0 := by have := kB_pos; positivity
  have hmm : m * (kB * T) / (kB * T) = m := by rw [mul_div_cancel_right₀ _ hkT.ne']
  have i1 : StrictMonoOn (fun EF => 1000000 * kB * kB * b.sigma0 * rpfLin (EF / (kB * T))) (Iic (m * (kB * T))) := by
    intro x hx y hy hxy
    refine mul_lt_mul_of_pos_left (hinc ?_ ?_ ?_) hc
    · exact (div_le_iff₀ hkT).2 hx
    · exact (div_le_iff₀ hkT).2 hy
    · exact div_lt_div_of_pos_right hxy hkT
  have i2 : StrictAntiOn (fun EF => 1000000 * kB * kB * b.sigma0 * rpfLin (EF / (kB * T))) (Ici (m * (kB * T))) := by
    intro x hx y hy hxy
    refine mul_lt_mul_of_pos_left (hdec ?_ ?_ ?_) hc
    · exact (le_div_iff₀ hkT).2 hx
    · exact (le_div_iff₀ hkT).2 hy
    · exact div_lt_div_of_pos_right hxy hkT
  refine ⟨_, fun EF => (lin_prop b s d EF hb hT).2.2.1, i1, i2, fun EF hne => ?_, _, (lin_prop b s d _ hb hT).2.1, ?_, ?_⟩
  · rcases lt_or_gt_of_ne hne with h | h
    · exact i1 h.le (le_refl (m * (kB * T))) h
    · exact i2 (le_refl (m * (kB * T))) h.le h
  · rw [hmm, sLin, h3]
    have : (S0 : ℝ) * 2.28 ≤ S0 * (-m - m) := mul_le_mul_of_nonneg_left (by norm_num at h2 ⊢; linarith) (by unfold S0; norm_num)
    refine lt_of_lt_of_le ?_ this
    unfold S0
    norm_num
  · rw [hmm, sLin, h3]
    have : (S0 : ℝ) * (-m - m) ≤ S0 * 2.3 := mul_le_mul_of_nonneg_left (by norm_num at h1 ⊢; linarith) (by unfold S0; norm_num)
    refine lt_of_le_of_lt this ?_
    unfold S0
    norm_num

/-- beside the theorems: the default linear band at its edge, 300 K, conducts with half of `sigma0` -/
example : (Placed.exact ⟨(⟨1, 1⟩ : Lin).fns, -1, 0⟩).prop .C (some (0, 300)) = .ok (some (1 / 2)) := by
  rw [(C141_conductivity ⟨1, 1⟩ (-1) 0 300 one_pos (by norm_num)).1 0]
  norm_num

end

end TEflow.Bandlib
