import Verif.Props.BandLevel

/-! # C143: the transport properties of a Kane band as functions of the Fermi level -/

open Real MeasureTheory Set Filter Topology

namespace TEflow.Bandlib

noncomputable section

/-! ## Transport functions that saturate -/

/-- rises from 0 at the edge towards `B`, relatively ever more slowly -/
structure Saturates (φ : ℝ → ℝ) (B : ℝ) : Prop where
  cont : Continuous φ
  zero : φ 0 = 0
  mono : StrictMonoOn φ (Ici 0)
  lim : Tendsto φ atTop (𝓝 B)
  cross : ∀ E E' d, 0 < E → E < E' → 0 < d → φ E * φ (E' + d) < φ (E + d) * φ E'

/-- the function above the edge, 0 in the gap -/
def above (φ : ℝ → ℝ) (e : ℝ) : ℝ := φ (max e 0)

theorem window_pos' {T : ℝ} (hT : 0 < T) (x : ℝ) : 0 < window 0 T x := by
  rw [window_eq]
  have := mul_pos kB_pos hT
  positivity

theorem window_even (T x : ℝ) : window 0 T (-x) = window 0 T x := by
  rw [window_eq, window_eq, show reduced 0 T (-x) = -reduced 0 T x by unfold reduced; ring, even_window]

theorem window_line_integrable {T : ℝ} (hT : 0 < T) : Integrable (window 0 T) := by
  have h := window_line 0 hT
  by_contra hn
  rw [integral_undef hn] at h
  norm_num at h

theorem moment_integrable {T : ℝ} (hT : 0 < T) : Integrable fun x => x * window 0 T x := by
  have h1 : IntegrableOn (fun x => x * window 0 T x) (Ioi 0) := window_integrable (fun x => x) 1 continuous_id (by simpa using Asymptotics.isBigO_refl _ _) 0 T hT
  have h2 := h1.integrable_indicator measurableSet_Ioi
  refine (h2.sub h2.comp_neg).congr (Eventually.of_forall fun x => ?_)
  simp only [Pi.sub_apply, indicator, mem_Ioi, window_even]
  rcases lt_trichotomy x 0 with hx | rfl | hx
  · rw [if_neg (by linarith), if_pos (by linarith)]
    ring
  · simp
  · rw [if_pos hx, if_neg (by linarith)]
    ring

theorem moment_zero {T : ℝ} : ∫ x, x * window 0 T x = 0 := by
  have h := integral_neg_eq_self (μ := volume) (fun x => x * window 0 T x)
  simp only [window_even] at h
  have h2 : ∫ x, -x * window 0 T x = -∫ x, x * window 0 T x := by
    rw [← integral_neg]
    congr 1
    funext x
    ring
  linarith

theorem positive_of {g : ℝ → ℝ} (c : ℝ) (hi : Integrable g) (h0 : ∀ x, 0 ≤ g x) (hc : ∀ x, c < x → 0 < g x) : 0 < ∫ x, g x := by
  rw [integral_pos_iff_support_of_nonneg h0 hi]
  refine lt_of_lt_of_le ?_ (measure_mono (s := Ioi c) fun x hx => (hc x hx).ne')
  simp

namespace Saturates

variable {φ : ℝ → ℝ} {B : ℝ} (h : Saturates φ B)
include h

theorem above_cont : Continuous (above φ) := h.cont.comp (continuous_id.max continuous_const)

theorem above_mono : Monotone (above φ) := fun _ _ hxy =>
  h.mono.monotoneOn (mem_Ici.2 (le_max_right _ _)) (mem_Ici.2 (le_max_right _ _)) (max_le_max_right 0 hxy)

theorem above_gap {e : ℝ} (he : e ≤ 0) : above φ e = 0 := by
  unfold above
  rw [max_eq_right he, h.zero]

theorem above_pos {e : ℝ} (he : 0 < e) : 0 < above φ e := by
  unfold above
  rw [max_eq_left he.le, ← h.zero]
  exact h.mono (mem_Ici.2 le_rfl) (mem_Ici.2 he.le) he

theorem above_strict {x y : ℝ} (hy : 0 < y) (hxy : x < y) : above φ x < above φ y := by
  rcases le_or_gt x 0 with hx | hx
  · rw [h.above_gap hx]
    exact h.above_pos hy
  · unfold above
    rw [max_eq_left hx.le, max_eq_left hy.le]
    exact h.mono (mem_Ici.2 hx.le) (mem_Ici.2 hy.le) hxy

theorem above_nonneg (e : ℝ) : 0 ≤ above φ e := by
  rcases le_or_gt e 0 with he | he
  · rw [h.above_gap he]
  · exact (h.above_pos he).le

theorem above_lim : Tendsto (above φ) atTop (𝓝 B) := by
  refine h.lim.congr' ?_
  filter_upwards [eventually_ge_atTop 0] with e he
  unfold above
  rw [max_eq_left he]

theorem above_le (e : ℝ) : above φ e ≤ B := h.above_mono.ge_of_tendsto h.above_lim e

theorem B_pos : 0 < B := (h.above_pos one_pos).trans_le (h.above_le 1)

theorem above_cross {x c y d : ℝ} (hd : 0 < d) : 0 ≤ (x - c) * (above φ (x + y) * above φ (c + y + d) - above φ (c + y) * above φ (x + y + d)) := by
  have key : ∀ a b, a < b → above φ a * above φ (b + d) ≤ above φ (a + d) * above φ b := by
    intro a b hab
    rcases le_or_gt a 0 with ha | ha
    · rw [h.above_gap ha, zero_mul]
      exact mul_nonneg (h.above_nonneg _) (h.above_nonneg _)
    · unfold above
      rw [max_eq_left ha.le, max_eq_left (by linarith), max_eq_left (by linarith), max_eq_left (by linarith)]
      exact (h.cross a b d ha hab hd).le
  rcases lt_trichotomy x c with hx | rfl | hx
  · refine mul_nonneg_of_nonpos_of_nonpos (by linarith) ?_
    have := key (x + y) (c + y) (by linarith)
    linarith
  · simp
  · refine mul_nonneg (by linarith) ?_
    have := key (c + y) (x + y) (by linarith)
    linarith

theorem above_cross_strict {x c y d : ℝ} (hd : 0 < d) (hxc : c < x) (hxy : -y < x) (hc : 0 < c + y + d) :
    0 < (x - c) * (above φ (x + y) * above φ (c + y + d) - above φ (c + y) * above φ (x + y + d)) := by
  refine mul_pos (by linarith) ?_
  rcases le_or_gt (c + y) 0 with ha | ha
  · rw [h.above_gap ha, zero_mul, sub_zero]
    exact mul_pos (h.above_pos (by linarith)) (h.above_pos hc)
  · have := h.cross (c + y) (x + y) d ha (by linarith) hd
    unfold above
    rw [max_eq_left ha.le, max_eq_left (by linarith), max_eq_left (by linarith), max_eq_left (by linarith)]
    linarith

/-! ### The coefficients -/

variable {T : ℝ} (hT : 0 < T)
include hT

theorem int0 (y : ℝ) : Integrable fun x => above φ (x + y) * window 0 T x := by
  refine ((window_line_integrable hT).const_mul B).mono ((h.above_cont.comp (continuous_id.add continuous_const)).mul (fermi_deriv_cont 0 T).neg).aestronglyMeasurable
    (Eventually.of_forall fun x => ?_)
  rw [norm_of_nonneg (mul_nonneg (h.above_nonneg _) (window_pos' hT x).le), norm_of_nonneg (mul_nonneg h.B_pos.le (window_pos' hT x).le)]
  exact mul_le_mul_of_nonneg_right (h.above_le _) (window_pos' hT x).le

theorem bound1 (y x : ℝ) : ‖above φ (x + y) * (x * window 0 T x)‖ ≤ B * ‖x * window 0 T x‖ := by
  rw [norm_mul, norm_of_nonneg (h.above_nonneg _)]
  exact mul_le_mul_of_nonneg_right (h.above_le _) (norm_nonneg _)

theorem meas1 (y : ℝ) : AEStronglyMeasurable (fun x => above φ (x + y) * (x * window 0 T x)) volume :=
  ((h.above_cont.comp (continuous_id.add continuous_const)).mul (continuous_id.mul (fermi_deriv_cont 0 T).neg)).aestronglyMeasurable

theorem int1 (y : ℝ) : Integrable fun x => above φ (x + y) * (x * window 0 T x) := by
  refine (((moment_integrable hT).norm).const_mul B).mono (h.meas1 hT y) (Eventually.of_forall fun x => ?_)
  refine (h.bound1 hT y x).trans (le_abs_self _)

theorem k0_pos (y : ℝ) : 0 < ∫ x, above φ (x + y) * window 0 T x :=
  positive_of (-y) (h.int0 hT y) (fun x => mul_nonneg (h.above_nonneg _) (window_pos' hT x).le) fun x hx => mul_pos (h.above_pos (by linarith)) (window_pos' hT x)

theorem k0_mono : StrictMono fun y => ∫ x, above φ (x + y) * window 0 T x := by
  intro a b hab
  have := positive_of (-a) ((h.int0 hT b).sub (h.int0 hT a)) (fun x => by
    simp only [Pi.sub_apply, ← sub_mul]
    exact mul_nonneg (sub_nonneg.2 (h.above_mono (by linarith))) (window_pos' hT x).le) (fun x hx => by
    simp only [Pi.sub_apply, ← sub_mul]
    exact mul_pos (sub_pos.2 (h.above_strict (by linarith) (by linarith))) (window_pos' hT x))
  simp only [Pi.sub_apply] at this
  rw [integral_sub (h.int0 hT b) (h.int0 hT a)] at this
  exact sub_pos.1 this

theorem k0_cont : Continuous fun y => ∫ x, above φ (x + y) * window 0 T x := by
  refine continuous_of_dominated (bound := fun x => B * window 0 T x) (fun y => (h.int0 hT y).1) (fun y => Eventually.of_forall fun x => ?_)
    ((window_line_integrable hT).const_mul B) (Eventually.of_forall fun x => ?_)
  · rw [norm_of_nonneg (mul_nonneg (h.above_nonneg _) (window_pos' hT x).le)]
    exact mul_le_mul_of_nonneg_right (h.above_le _) (window_pos' hT x).le
  · exact (h.above_cont.comp (continuous_const.add continuous_id)).mul continuous_const

theorem k1_cont : Continuous fun y => ∫ x, above φ (x + y) * (x * window 0 T x) := by
  refine continuous_of_dominated (bound := fun x => B * ‖x * window 0 T x‖) (fun y => h.meas1 hT y) (fun y => Eventually.of_forall fun x => h.bound1 hT y x)
    (((moment_integrable hT).norm).const_mul B) (Eventually.of_forall fun x => ?_)
  exact (h.above_cont.comp (continuous_const.add continuous_id)).mul continuous_const

theorem k0_bot : Tendsto (fun y => ∫ x, above φ (x + y) * window 0 T x) atBot (𝓝 0) := by
  rw [show (𝓝 (0 : ℝ)) = 𝓝 (∫ _x : ℝ, (0 : ℝ)) by simp]
  refine tendsto_integral_filter_of_dominated_convergence (fun x => B * window 0 T x) (Eventually.of_forall fun y => (h.int0 hT y).1)
    (Eventually.of_forall fun y => Eventually.of_forall fun x => ?_) ((window_line_integrable hT).const_mul B) (Eventually.of_forall fun x => ?_)
  · rw [norm_of_nonneg (mul_nonneg (h.above_nonneg _) (window_pos' hT x).le)]
    exact mul_le_mul_of_nonneg_right (h.above_le _) (window_pos' hT x).le
  · refine tendsto_const_nhds.congr' ?_
    filter_upwards [eventually_le_atBot (-x)] with y hy
    rw [h.above_gap (by linarith), zero_mul]

theorem k0_top : Tendsto (fun y => ∫ x, above φ (x + y) * window 0 T x) atTop (𝓝 B) := by
  have e : ∫ x, B * window 0 T x = B := by rw [integral_const_mul, window_line 0 hT, mul_one]
  rw [show (𝓝 B) = 𝓝 (∫ x, B * window 0 T x) by rw [e]]
  refine tendsto_integral_filter_of_dominated_convergence (fun x => B * window 0 T x) (Eventually.of_forall fun y => (h.int0 hT y).1)
    (Eventually.of_forall fun y => Eventually.of_forall fun x => ?_) ((window_line_integrable hT).const_mul B) (Eventually.of_forall fun x => ?_)
  · rw [norm_of_nonneg (mul_nonneg (h.above_nonneg _) (window_pos' hT x).le)]
    exact mul_le_mul_of_nonneg_right (h.above_le _) (window_pos' hT x).le
  · exact (h.above_lim.comp (tendsto_atTop_add_const_left _ x tendsto_id)).mul_const _

theorem k1_top : Tendsto (fun y => ∫ x, above φ (x + y) * (x * window 0 T x)) atTop (𝓝 0) := by
  have e : ∫ x, B * (x * window 0 T x) = 0 := by rw [integral_const_mul, moment_zero, mul_zero]
  rw [show (𝓝 (0 : ℝ)) = 𝓝 (∫ x, B * (x * window 0 T x)) by rw [e]]
  refine tendsto_integral_filter_of_dominated_convergence (fun x => B * ‖x * window 0 T x‖) (Eventually.of_forall fun y => h.meas1 hT y)
    (Eventually.of_forall fun y => Eventually.of_forall fun x => h.bound1 hT y x) (((moment_integrable hT).norm).const_mul B) (Eventually.of_forall fun x => ?_)
  exact (h.above_lim.comp (tendsto_atTop_add_const_left _ x tendsto_id)).mul_const _

theorem k1_pos (y : ℝ) : 0 < ∫ x, above φ (x + y) * (x * window 0 T x) := by
  have hi : Integrable fun x => above φ (x + y) * (x * window 0 T x) - above φ (0 + y) * (x * window 0 T x) := (h.int1 hT y).sub ((moment_integrable hT).const_mul _)
  have e : ∀ x, above φ (x + y) * (x * window 0 T x) - above φ (0 + y) * (x * window 0 T x) = (above φ (x + y) - above φ (0 + y)) * x * window 0 T x := fun x => by ring
  have := positive_of (max 0 (-y)) hi (fun x => by
    rw [e]
    refine mul_nonneg ?_ (window_pos' hT x).le
    rcases le_total 0 x with hx | hx
    · exact mul_nonneg (sub_nonneg.2 (h.above_mono (by linarith))) hx
    · exact mul_nonneg_of_nonpos_of_nonpos (sub_nonpos.2 (h.above_mono (by linarith))) hx) (fun x hx => by
    obtain ⟨h1, h2⟩ := max_lt_iff.1 hx
    rw [e]
    exact mul_pos (mul_pos (sub_pos.2 (h.above_strict (by linarith) (by linarith))) h1) (window_pos' hT x))
  rw [integral_sub (h.int1 hT y) ((moment_integrable hT).const_mul _), integral_const_mul, moment_zero, mul_zero, sub_zero] at this
  exact this

theorem edge_lt (y : ℝ) : -y * (∫ x, above φ (x + y) * window 0 T x) < ∫ x, above φ (x + y) * (x * window 0 T x) := by
  have hi : Integrable fun x => above φ (x + y) * (x * window 0 T x) - -y * (above φ (x + y) * window 0 T x) := (h.int1 hT y).sub ((h.int0 hT y).const_mul _)
  have e : ∀ x, above φ (x + y) * (x * window 0 T x) - -y * (above φ (x + y) * window 0 T x) = (above φ (x + y) * (x + y)) * window 0 T x := fun x => by ring
  have := positive_of (-y) hi (fun x => by
    rw [e]
    refine mul_nonneg ?_ (window_pos' hT x).le
    rcases le_or_gt (x + y) 0 with hx | hx
    · rw [h.above_gap hx, zero_mul]
    · exact mul_nonneg (h.above_nonneg _) hx.le) (fun x hx => by
    rw [e]
    exact mul_pos (mul_pos (h.above_pos (by linarith)) (by linarith)) (window_pos' hT x))
  rw [integral_sub (h.int1 hT y) ((h.int0 hT y).const_mul _), integral_const_mul] at this
  linarith

/-- the mean energy above the Fermi level falls -/
theorem mean_anti : StrictAnti fun y => (∫ x, above φ (x + y) * (x * window 0 T x)) / ∫ x, above φ (x + y) * window 0 T x := by
  intro y y' hyy
  obtain ⟨d, rfl⟩ : ∃ d, y' = y + d := ⟨y' - y, by ring⟩
  have hd : 0 < d := by linarith
  have p := h.k0_pos hT y
  have p' := h.k0_pos hT (y + d)
  show (∫ x, above φ (x + (y + d)) * (x * window 0 T x)) / (∫ x, above φ (x + (y + d)) * window 0 T x) < _
  set c := (∫ x, above φ (x + (y + d)) * (x * window 0 T x)) / ∫ x, above φ (x + (y + d)) * window 0 T x with hc
  have hc1 : ∫ x, above φ (x + (y + d)) * (x * window 0 T x) = c * ∫ x, above φ (x + (y + d)) * window 0 T x := by
    rw [hc, div_mul_cancel₀ _ p'.ne']
  have hc0 : 0 < c + y + d := by
    have := h.edge_lt hT (y + d)
    rw [hc1] at this
    have := lt_of_mul_lt_mul_right this p'.le
    linarith
  have hA : 0 < above φ (c + y + d) := h.above_pos hc0
  have i1 : Integrable fun x => above φ (x + y) * (x * window 0 T x) - c * (above φ (x + y) * window 0 T x) := (h.int1 hT y).sub ((h.int0 hT y).const_mul _)
  have i2 : Integrable fun x => above φ (x + (y + d)) * (x * window 0 T x) - c * (above φ (x + (y + d)) * window 0 T x) :=
    (h.int1 hT _).sub ((h.int0 hT _).const_mul _)
  have i3 : Integrable fun x => above φ (c + y + d) * (above φ (x + y) * (x * window 0 T x) - c * (above φ (x + y) * window 0 T x)) -
      above φ (c + y) * (above φ (x + (y + d)) * (x * window 0 T x) - c * (above φ (x + (y + d)) * window 0 T x)) := (i1.const_mul _).sub (i2.const_mul _)
  have e : ∀ x, above φ (c + y + d) * (above φ (x + y) * (x * window 0 T x) - c * (above φ (x + y) * window 0 T x)) -
      above φ (c + y) * (above φ (x + (y + d)) * (x * window 0 T x) - c * (above φ (x + (y + d)) * window 0 T x)) =
      (x - c) * (above φ (x + y) * above φ (c + y + d) - above φ (c + y) * above φ (x + y + d)) * window 0 T x := by
    intro x
    rw [← add_assoc x y d]
    ring
  have := positive_of (max c (-y)) i3 (fun x => by
    rw [e]
    exact mul_nonneg (h.above_cross hd) (window_pos' hT x).le) (fun x hx => by
    obtain ⟨h1, h2⟩ := max_lt_iff.1 hx
    rw [e]
    exact mul_pos (h.above_cross_strict hd h1 h2 hc0) (window_pos' hT x))
  rw [integral_sub (i1.const_mul _) (i2.const_mul _), integral_const_mul, integral_const_mul, integral_sub (h.int1 hT _) ((h.int0 hT _).const_mul _),
    integral_sub (h.int1 hT _) ((h.int0 hT _).const_mul _), integral_const_mul, integral_const_mul, hc1, sub_self, mul_zero, sub_zero] at this
  rw [lt_div_iff₀ p]
  have := (mul_pos_iff_of_pos_left hA).1 this
  linarith

end Saturates

/-! ## The Kane band -/

theorem kane_cross {a h d : ℝ} (ha : 0 < a) (hh : 0 < h) (hd : 0 < d) :
    a * (1 + a) * ((a + h + d) * (1 + (a + h + d))) * ((4 * ((a + d) * (1 + (a + d))) + 3) * (4 * ((a + h) * (1 + (a + h))) + 3)) <
    (a + d) * (1 + (a + d)) * ((a + h) * (1 + (a + h))) * ((4 * (a * (1 + a)) + 3) * (4 * ((a + h + d) * (1 + (a + h + d))) + 3)) := by
  rw [← sub_pos]
  ring_nf
  positivity

/-- the transport function of the band in `u = (E/Eg)(1+E/Eg)` -/
theorem skb_trs_level (b : Skb) (hg : 0 < b.Eg) (E T : ℝ) :
    b.trs E T = b.sigma0 * b.Eg / (kB * T) * (3 * (E / b.Eg * (1 + E / b.Eg)) / (4 * (E / b.Eg * (1 + E / b.Eg)) + 3)) := by
  have e : b.sigma0 * E / (kB * T) = b.sigma0 * b.Eg / (kB * T) * (E / b.Eg) := by
    field_simp
  unfold Skb.trs
  rw [e, show 2 * E / b.Eg = 2 * (E / b.Eg) by ring, show (1 + 2 * (E / b.Eg)) ^ 2 + 2 = 4 * (E / b.Eg * (1 + E / b.Eg)) + 3 by ring]
  ring

theorem saturates_skb (b : Skb) (hs : 0 < b.sigma0) (hg : 0 < b.Eg) (T : ℝ) (hT : 0 < T) :
    Saturates (fun E => b.trs E T) (b.sigma0 * b.Eg / (kB * T) * (3 / 4)) := by
  have hkT : 0 < kB * T := mul_pos kB_pos hT
  have hk : 0 < b.sigma0 * b.Eg / (kB * T) := by positivity
  have hden : ∀ z : ℝ, 0 < 4 * (z * (1 + z)) + 3 := fun z => by nlinarith [sq_nonneg (2 * z + 1)]
  have hu : ∀ E, 0 ≤ E → 0 ≤ E / b.Eg := fun E hE => by positivity
  simp only [skb_trs_level b hg]
  refine ⟨?_, by simp, ?_, ?_, ?_⟩
  · refine continuous_const.mul (Continuous.div (by fun_prop) (by fun_prop) fun E => (hden _).ne')
  · intro x hx y hy hxy
    refine mul_lt_mul_of_pos_left ?_ hk
    rw [div_lt_div_iff₀ (hden _) (hden _)]
    have h1 := hu x hx
    have h2 : x / b.Eg < y / b.Eg := div_lt_div_of_pos_right hxy hg
    have h3 : x / b.Eg * (1 + x / b.Eg) < y / b.Eg * (1 + y / b.Eg) := mul_lt_mul'' h2 (by linarith) h1 (by linarith)
    linarith
  · refine Tendsto.const_mul _ ?_
    have e : ∀ z : ℝ, 3 * (z * (1 + z)) / (4 * (z * (1 + z)) + 3) = 3 / 4 - 9 / 4 * (1 / (4 * (z * (1 + z)) + 3)) := by
      intro z
      have hd := hden z
      generalize z * (1 + z) = u at hd
      rw [div_eq_iff hd.ne', sub_mul, mul_assoc (9 / 4), one_div, inv_mul_cancel₀ hd.ne']
      ring
    have ht : Tendsto (fun E => 4 * (E / b.Eg * (1 + E / b.Eg)) + 3) atTop atTop := by
      refine tendsto_atTop_mono' atTop (f₁ := fun E => E / b.Eg) ?_ (tendsto_id.atTop_div_const hg)
      filter_upwards [eventually_ge_atTop 0] with E hE
      have := hu E hE
      show E / b.Eg ≤ _
      nlinarith
    have h1 := ((tendsto_const_nhds (x := (1 : ℝ))).div_atTop ht).const_mul (9 / 4)
    have h2 := (tendsto_const_nhds (x := (3 / 4 : ℝ))).sub h1
    rw [mul_zero, sub_zero] at h2
    exact h2.congr fun E => (e _).symm
  · intro E E' d hE hEE hd
    have h1 : 0 < E / b.Eg := by positivity
    have h2 : 0 < (E' - E) / b.Eg := div_pos (by linarith) hg
    have h3 : 0 < d / b.Eg := by positivity
    have key := kane_cross h1 h2 h3
    rw [show E / b.Eg + (E' - E) / b.Eg + d / b.Eg = (E' + d) / b.Eg by ring, show E / b.Eg + d / b.Eg = (E + d) / b.Eg by ring,
      show E / b.Eg + (E' - E) / b.Eg = E' / b.Eg by ring] at key
    have gen : ∀ k u1 u2 : ℝ, k * (3 * u1 / (4 * u1 + 3)) * (k * (3 * u2 / (4 * u2 + 3))) = 9 * k ^ 2 * (u1 * u2 / ((4 * u1 + 3) * (4 * u2 + 3))) := by
      intro k u1 u2
      rw [mul_div_mul_comm]
      ring
    rw [gen, gen]
    refine mul_lt_mul_of_pos_left ?_ (by positivity)
    rw [div_lt_div_iff₀ (mul_pos (hden _) (hden _)) (mul_pos (hden _) (hden _))]
    linarith

/-- the coefficients of the band as integrals over the window -/
theorem skb_K (b : Skb) (hs : 0 < b.sigma0) (hg : 0 < b.Eg) (s d y T : ℝ) (hT : 0 < T) (n : Nat) : (Placed.exact ⟨b.fns, s, d⟩).k n y T =
    ∫ x, above (fun E => b.trs E T) (x + y) * ((x / (kB * T)) ^ n * window 0 T x) := by
  have hw : ∀ x, window y T (x + y) = window 0 T x := by
    intro x
    rw [window_eq, window_eq]
    unfold reduced
    simp
  have h0 : (fun E => b.trs E T) 0 = 0 := (saturates_skb b hs hg T hT).zero
  have h5 := integral_add_right_eq_self (μ := volume) (fun E => above (fun E => b.trs E T) E * (reduced y T E ^ n * window y T E)) y
  simp only [hw, show ∀ x, reduced y T (x + y) = x / (kB * T) from fun x => by unfold reduced; rw [add_sub_cancel_right]] at h5
  rw [h5]
  unfold above
  rw [edge (fun E => b.trs E T) (fun E => reduced y T E ^ n * window y T E) h0, integral_indicator measurableSet_Ioi]
  rfl

theorem skb_C (b : Skb) (hs : 0 < b.sigma0) (hg : 0 < b.Eg) (s d y T : ℝ) (hT : 0 < T) :
    (Placed.exact ⟨b.fns, s, d⟩).prop .C (some (y, T)) = .ok (some (∫ x, above (fun E => b.trs E T) (x + y) * window 0 T x)) := by
  show Except.map some (.ok _) = _
  rw [skb_K b hs hg s d y T hT 0]
  simp only [pow_zero, one_mul]
  rfl

theorem skb_S (b : Skb) (hs : 0 < b.sigma0) (hg : 0 < b.Eg) (s d y T : ℝ) (hT : 0 < T) :
    (Placed.exact ⟨b.fns, s, d⟩).prop .S (some (y, T)) = .ok (some (s * (S0 / (kB * T) *
      ((∫ x, above (fun E => b.trs E T) (x + y) * (x * window 0 T x)) / ∫ x, above (fun E => b.trs E T) (x + y) * window 0 T x)))) := by
  have h0 := skb_K b hs hg s d y T hT 0
  have h1 := skb_K b hs hg s d y T hT 1
  simp only [pow_zero, one_mul] at h0
  have e : ∀ x, above (fun E => b.trs E T) (x + y) * ((x / (kB * T)) ^ 1 * window 0 T x) = 1 / (kB * T) * (above (fun E => b.trs E T) (x + y) * (x * window 0 T x)) := fun x => by ring
  simp only [e] at h1
  rw [integral_const_mul] at h1
  show Except.ok (some (s * S0 * (Placed.exact ⟨b.fns, s, d⟩).k 1 y T / (Placed.exact ⟨b.fns, s, d⟩).k 0 y T)) = _
  rw [h0, h1]
  congr 2
  ring

/-! ## Theorems -/

/-- **C143 (finding).** The conductivity of a Kane band rises strictly with the Fermi level, from 0, but stays below `3*sigma0*Eg/(4*kB*T)`: it takes every value below this limit
at exactly one level, and none from it on. -/
theorem C143_conductivity (b : Skb) (s d T : ℝ) (hs : 0 < b.sigma0) (hg : 0 < b.Eg) (hT : 0 < T) : ∃ C : ℝ → ℝ,
    (∀ EF, (Placed.exact ⟨b.fns, s, d⟩).prop .C (some (EF, T)) = .ok (some (C EF))) ∧ StrictMono C ∧ Tendsto C atBot (𝓝 0) ∧
    Tendsto C atTop (𝓝 (3 * b.sigma0 * b.Eg / (4 * kB * T))) ∧ (∀ EF, 0 < C EF ∧ C EF < 3 * b.sigma0 * b.Eg / (4 * kB * T)) ∧
    ∀ v, 0 < v → v < 3 * b.sigma0 * b.Eg / (4 * kB * T) → ∃! EF, C EF = v := by
  have h := saturates_skb b hs hg T hT
  have hB : b.sigma0 * b.Eg / (kB * T) * (3 / 4) = 3 * b.sigma0 * b.Eg / (4 * kB * T) := by
    have := kB_pos.ne'
    field_simp
  rw [hB] at h
  have hm := h.k0_mono hT
  refine ⟨_, fun EF => skb_C b hs hg s d EF T hT, hm, h.k0_bot hT, h.k0_top hT, fun EF => ⟨h.k0_pos hT EF, ?_⟩, fun v hv hv' => ?_⟩
  · exact (hm (lt_add_one EF)).trans_le (hm.monotone.ge_of_tendsto (h.k0_top hT) (EF + 1))
  · obtain ⟨p, hp⟩ := ((h.k0_bot hT).eventually (gt_mem_nhds hv)).exists
    obtain ⟨q, hq⟩ := ((h.k0_top hT).eventually (lt_mem_nhds hv')).exists
    obtain ⟨x, hx⟩ := mem_range_of_exists_le_of_exists_ge (h.k0_cont hT) ⟨p, hp.le⟩ ⟨q, hq.le⟩
    exact ⟨x, hx, fun y hy => hm.injective (hy.trans hx.symm)⟩

/-- **C143** The Seebeck coefficient of a Kane band has the sign of its carriers; its size falls strictly as the Fermi level rises, without bound in the gap and to 0 in the band, and
takes every non-zero value of that sign at exactly one level: `solve_EF('S', value, T)` has one solution, the level `APSSKB.valuate` works with.  In the gap it exceeds the distance
to the edge over `e*T`. -/
theorem C143_seebeck (b : Skb) (s d T : ℝ) (hb : 0 < b.sigma0) (hg : 0 < b.Eg) (hs : s = 1 ∨ s = -1) (hT : 0 < T) : ∃ a : ℝ → ℝ,
    (∀ EF, (Placed.exact ⟨b.fns, s, d⟩).prop .S (some (EF, T)) = .ok (some (s * a EF))) ∧ (∀ EF, 0 < a EF) ∧ StrictAnti a ∧ Tendsto a atBot atTop ∧ Tendsto a atTop (𝓝 0) ∧
    (∀ EF, S0 * (-EF / (kB * T)) < a EF) ∧
    ∀ v, 0 < v → ∃! EF, (Placed.exact ⟨b.fns, s, d⟩).prop .S (some (EF, T)) = .ok (some (s * v)) := by
  have h := saturates_skb b hb hg T hT
  have hkT : 0 < kB * T := mul_pos kB_pos hT
  have hS : (0 : ℝ) < S0 := by unfold S0; norm_num
  have hs0 : s ≠ 0 := by rcases hs with h | h <;> rw [h] <;> norm_num
  have hk : 0 < S0 / (kB * T) := by positivity
  obtain ⟨m, hp, hpos, hgap, hanti, hcont, htop⟩ : ∃ m : ℝ → ℝ, (∀ EF, (Placed.exact ⟨b.fns, s, d⟩).prop .S (some (EF, T)) = .ok (some (s * (S0 / (kB * T) * m EF)))) ∧
      (∀ EF, 0 < m EF) ∧ (∀ EF, -EF < m EF) ∧ StrictAnti m ∧ Continuous m ∧ Tendsto m atTop (𝓝 0) := by
    refine ⟨_, fun EF => skb_S b hb hg s d EF T hT, fun EF => div_pos (h.k1_pos hT EF) (h.k0_pos hT EF), fun EF => ?_, h.mean_anti hT,
      (h.k1_cont hT).div (h.k0_cont hT) fun y => (h.k0_pos hT y).ne', ?_⟩
    · rw [lt_div_iff₀ (h.k0_pos hT EF)]
      exact h.edge_lt hT EF
    · have := (h.k1_top hT).div (h.k0_top hT) h.B_pos.ne'
      rwa [zero_div] at this
  have hbot : Tendsto m atBot atTop := tendsto_atTop_mono (fun y => (hgap y).le) tendsto_neg_atBot_atTop
  refine ⟨_, hp, fun EF => mul_pos hk (hpos EF), fun x y hxy => mul_lt_mul_of_pos_left (hanti hxy) hk, hbot.const_mul_atTop hk, ?_, fun EF => ?_, fun v hv => ?_⟩
  · have := htop.const_mul (S0 / (kB * T))
    rwa [mul_zero] at this
  · have := mul_lt_mul_of_pos_left (hgap EF) hk
    rw [show S0 * (-EF / (kB * T)) = S0 / (kB * T) * -EF by ring]
    exact this
  · have hv' : 0 < v / (S0 / (kB * T)) := by positivity
    obtain ⟨p, hp1⟩ := (hbot.eventually (eventually_gt_atTop (v / (S0 / (kB * T))))).exists
    obtain ⟨q, hq1⟩ := (htop.eventually (gt_mem_nhds hv')).exists
    obtain ⟨x, hx⟩ := mem_range_of_exists_le_of_exists_ge hcont ⟨q, hq1.le⟩ ⟨p, hp1.le⟩
    have e : S0 / (kB * T) * m x = v := by rw [hx, mul_div_cancel₀ _ hk.ne']
    refine ⟨x, ?_, fun y hy => ?_⟩
    · simp only [hp, e]
    · simp only [hp, Except.ok.injEq, Option.some.injEq] at hy
      have h1 := mul_left_cancel₀ hs0 hy
      rw [← e] at h1
      exact hanti.injective (mul_left_cancel₀ hk.ne' h1)

/-- a Kane band with a gap of 1/4 eV at room temperature -/
example : (0 : ℝ) < (⟨1, 3, 1 / 4, 1⟩ : Skb).sigma0 ∧ (0 : ℝ) < (⟨1, 3, 1 / 4, 1⟩ : Skb).Eg ∧ (0 : ℝ) < 300 := by norm_num

end

end TEflow.Bandlib
