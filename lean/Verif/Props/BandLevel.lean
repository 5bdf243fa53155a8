import Verif.Props.BandLinear
import Mathlib.Analysis.Convex.Deriv
import Mathlib.Analysis.Convex.Continuous

/-! # C142: the Fermi level of a given carrier concentration -/

open Real MeasureTheory Set Filter Topology

namespace TEflow.Bandlib

noncomputable section

/-! ## Functions that rise from zero without bound -/

/-- rises strictly and strictly convexly from 0 to infinity -/
structure Rises (f : ℝ → ℝ) : Prop where
  convex : StrictConvexOn ℝ univ f
  mono : StrictMono f
  bot : Tendsto f atBot (𝓝 0)
  top : Tendsto f atTop atTop

theorem strictConvex_cont {f : ℝ → ℝ} (h : StrictConvexOn ℝ univ f) : Continuous f :=
  continuousOn_univ.1 (ConvexOn.continuousOn isOpen_univ h.convexOn)

theorem Rises.pos {f : ℝ → ℝ} (h : Rises f) (x : ℝ) : 0 < f x := by
  have h1 : 0 ≤ f (x - 1) := h.mono.monotone.le_of_tendsto h.bot (x - 1)
  exact h1.trans_lt (h.mono (by linarith))

theorem Rises.add {f g : ℝ → ℝ} (hf : Rises f) (hg : Rises g) : Rises fun x => f x + g x where
  convex := hf.convex.add hg.convex
  mono := hf.mono.add hg.mono
  bot := by simpa using hf.bot.add hg.bot
  top := hf.top.atTop_add_nonneg fun x => (hg.pos x).le

theorem Rises.shift {f : ℝ → ℝ} (h : Rises f) (c : ℝ) : Rises fun x => f (x + c) where
  convex := by
    refine ⟨convex_univ, fun x _ y _ hxy a b ha hb hab => ?_⟩
    have := h.convex.2 (mem_univ (x + c)) (mem_univ (y + c)) (fun e => hxy (by linarith)) ha hb hab
    simp only [smul_eq_mul] at this ⊢
    rw [show a * (x + c) + b * (y + c) = a * x + b * y + (a + b) * c by ring, hab, one_mul] at this
    exact this
  mono := fun x y hxy => h.mono (by linarith)
  bot := h.bot.comp (tendsto_atBot_add_const_right _ _ tendsto_id)
  top := h.top.comp (tendsto_atTop_add_const_right _ _ tendsto_id)

theorem Rises.sum {ι : Type} (f : ι → ℝ → ℝ) : ∀ l : List ι, l ≠ [] → (∀ i ∈ l, Rises (f i)) → Rises fun x => (l.map fun i => f i x).sum
  | [i], _, h => by simpa using h i (by simp)
  | i :: j :: l, _, h => by
    have ih := Rises.sum f (j :: l) (by simp) fun k hk => h k (by simp [List.mem_cons.1 hk])
    have := (h i (by simp)).add ih
    simpa only [List.map_cons, List.sum_cons] using this

theorem Rises.takes {f : ℝ → ℝ} (h : Rises f) {v : ℝ} (hv : 0 < v) : ∃! x, f x = v := by
  obtain ⟨a, ha⟩ := (h.bot.eventually (gt_mem_nhds hv)).exists
  obtain ⟨b, hb⟩ := (h.top.eventually (eventually_gt_atTop v)).exists
  obtain ⟨x, hx⟩ := mem_range_of_exists_le_of_exists_ge (strictConvex_cont h.convex) ⟨a, ha.le⟩ ⟨b, hb.le⟩
  exact ⟨x, hx, fun y hy => h.mono.injective (hy.trans hx.symm)⟩

/-- a strictly convex function that is unbounded on both sides -/
theorem valley {f : ℝ → ℝ} (h : StrictConvexOn ℝ univ f) (hb : Tendsto f atBot atTop) (ht : Tendsto f atTop atTop) :
    ∃ e, StrictAntiOn f (Iic e) ∧ StrictMonoOn f (Ici e) ∧ ∀ v, f e < v → ∃ a b, a < e ∧ e < b ∧ ∀ x, f x = v ↔ x = a ∨ x = b := by
  have hc := strictConvex_cont h
  obtain ⟨e, he⟩ := hc.exists_forall_le (by rw [cocompact_eq_atBot_atTop]; exact hb.sup ht)
  have between : ∀ x y z, x < y → y < z → f y < max (f x) (f z) := fun x y z h1 h2 =>
    h.lt_on_openSegment (mem_univ x) (mem_univ z) (by linarith : x < z).ne (by rw [openSegment_eq_Ioo (by linarith)]; exact ⟨h1, h2⟩)
  have right : StrictMonoOn f (Ici e) := by
    intro x hx y hy hxy
    rcases eq_or_lt_of_le (mem_Ici.1 hx) with rfl | hx
    · have := between e ((e + y) / 2) y (by linarith) (by linarith)
      rw [max_eq_right (he y)] at this
      exact (he _).trans_lt this
    · have := between e x y hx hxy
      rwa [max_eq_right (he y)] at this
  have left : StrictAntiOn f (Iic e) := by
    intro x hx y hy hxy
    rcases eq_or_lt_of_le (mem_Iic.1 hy) with rfl | hy
    · have := between x ((x + y) / 2) y (by linarith) (by linarith)
      rw [max_eq_left (he x)] at this
      exact (he _).trans_lt this
    · have := between x y e hxy hy
      rwa [max_eq_left (he x)] at this
  refine ⟨e, left, right, fun v hv => ?_⟩
  obtain ⟨p, hp, hp'⟩ := ((hb.eventually (eventually_gt_atTop v)).and (eventually_lt_atBot e)).exists
  obtain ⟨q, hq, hq'⟩ := ((ht.eventually (eventually_gt_atTop v)).and (eventually_gt_atTop e)).exists
  obtain ⟨a, ⟨ha1, ha2⟩, ha⟩ := intermediate_value_Icc' hp'.le hc.continuousOn ⟨hv.le, hp.le⟩
  obtain ⟨b, ⟨hb1, hb2⟩, hb⟩ := intermediate_value_Icc hq'.le hc.continuousOn ⟨hv.le, hq.le⟩
  have hae : a < e := lt_of_le_of_ne ha2 fun h' => by rw [h'] at ha; linarith
  have hbe : e < b := lt_of_le_of_ne hb1 fun h' => by rw [← h'] at hb; linarith
  refine ⟨a, b, hae, hbe, fun x => ⟨fun hx => ?_, ?_⟩⟩
  · rcases le_total x e with hxe | hxe
    · exact .inl (left.injOn hxe hae.le (hx.trans ha.symm))
    · exact .inr (right.injOn hxe hbe.le (hx.trans hb.symm))
  · rintro (rfl | rfl)
    · exact ha
    · exact hb

/-! ## The concentration of one band -/

/-- the states of a band from its edge: none at the edge, more and more above -/
structure Filling (f : BandFns) : Prop where
  dos0 : f.dos 0 = 0
  rises : StrictMonoOn f.dos (Ici 0)
  idos0 : f.idos 0 = 0
  cont : Continuous f.idos
  deriv : ∀ E, 0 < E → HasDerivAt f.idos (f.dos E) E
  grows : f.idos =O[atTop] fun E => E ^ 4
  parts : ∀ EF T, 0 < T → ∫ E in Ioi 0, f.dos E * fermi EF T E = ∫ E in Ioi 0, f.idos E * -_root_.deriv (fermi EF T) E

/-- the states up to an energy, none in the gap -/
def upTo (f : BandFns) (e : ℝ) : ℝ := f.idos (max e 0)

namespace Filling

variable {f : BandFns} (h : Filling f)
include h

theorem mono : StrictMonoOn f.idos (Ici 0) := by
  refine strictMonoOn_of_deriv_pos (convex_Ici 0) h.cont.continuousOn fun x hx => ?_
  rw [interior_Ici] at hx
  rw [(h.deriv x hx).deriv, ← h.dos0]
  exact h.rises (mem_Ici.2 le_rfl) (mem_Ici.2 (mem_Ioi.1 hx).le) hx

theorem convex : StrictConvexOn ℝ (Ici 0) f.idos := by
  refine StrictMonoOn.strictConvexOn_of_deriv (convex_Ici 0) h.cont.continuousOn fun x hx y hy hxy => ?_
  rw [interior_Ici] at hx hy
  rw [(h.deriv x hx).deriv, (h.deriv y hy).deriv]
  exact h.rises (mem_Ici.2 (mem_Ioi.1 hx).le) (mem_Ici.2 (mem_Ioi.1 hy).le) hxy

theorem upTo_mono : Monotone (upTo f) := fun _ _ hxy =>
  h.mono.monotoneOn (mem_Ici.2 (le_max_right _ _)) (mem_Ici.2 (le_max_right _ _)) (max_le_max_right 0 hxy)

theorem upTo_gap {e : ℝ} (he : e ≤ 0) : upTo f e = 0 := by
  unfold upTo
  rw [max_eq_right he, h.idos0]

theorem upTo_nonneg (e : ℝ) : 0 ≤ upTo f e := by
  rw [← h.upTo_gap (e := min e 0) (min_le_right _ _)]
  exact h.upTo_mono (min_le_left _ _)

theorem upTo_convex {x y a b : ℝ} (ha : 0 ≤ a) (hb : 0 ≤ b) (hab : a + b = 1) : upTo f (a * x + b * y) ≤ a * upTo f x + b * upTo f y := by
  have h1 := h.convex.convexOn.2 (mem_Ici.2 (le_max_right x 0)) (mem_Ici.2 (le_max_right y 0)) ha hb hab
  simp only [smul_eq_mul] at h1
  refine le_trans ?_ h1
  refine h.mono.monotoneOn (mem_Ici.2 (le_max_right _ _)) (mem_Ici.2 (by positivity)) (max_le ?_ (by positivity))
  have h2 := mul_le_mul_of_nonneg_left (le_max_left x 0) ha
  have h3 := mul_le_mul_of_nonneg_left (le_max_left y 0) hb
  linarith

theorem upTo_cont : Continuous (upTo f) := h.cont.comp (continuous_id.max continuous_const)

/-- the concentration is the mean of the filled states over the width of the window -/
theorem mean (y T : ℝ) (hT : 0 < T) : Integrable (fun x => upTo f (x + y) * window 0 T x) ∧
    ∫ E in Ioi 0, f.dos E * fermi y T E = ∫ x, upTo f (x + y) * window 0 T x := by
  have hw : ∀ x, window y T (x + y) = window 0 T x := by
    intro x
    rw [window_eq, window_eq]
    unfold reduced
    simp
  have h1 : IntegrableOn (fun E => f.idos E * window y T E) (Ioi 0) := window_integrable f.idos 4 h.cont h.grows y T hT
  have h2 : Integrable (fun E => upTo f E * window y T E) := by
    unfold upTo
    rw [edge f.idos (window y T) h.idos0]
    exact h1.integrable_indicator measurableSet_Ioi
  have h3 : ∫ E, upTo f E * window y T E = ∫ E in Ioi 0, f.idos E * window y T E := by
    unfold upTo
    rw [edge f.idos (window y T) h.idos0, integral_indicator measurableSet_Ioi]
  have h4 := h2.comp_add_right y
  have h5 := integral_add_right_eq_self (μ := volume) (fun E => upTo f E * window y T E) y
  simp only [hw] at h4 h5
  exact ⟨h4, by rw [h.parts y T hT, h5, h3]; rfl⟩

theorem window_pos {T : ℝ} (hT : 0 < T) (x : ℝ) : 0 < window 0 T x := by
  rw [window_eq]
  have := mul_pos kB_pos hT
  positivity

theorem positive {g : ℝ → ℝ} (c : ℝ) (hi : Integrable g) (h0 : ∀ x, 0 ≤ g x) (hc : ∀ x, c < x → 0 < g x) : 0 < ∫ x, g x := by
  rw [integral_pos_iff_support_of_nonneg h0 hi]
  refine lt_of_lt_of_le ?_ (measure_mono (s := Ioi c) fun x hx => (hc x hx).ne')
  simp

theorem concentration (T : ℝ) (hT : 0 < T) : Rises fun y => ∫ E in Ioi 0, f.dos E * fermi y T E := by
  have hn : (fun y => ∫ E in Ioi 0, f.dos E * fermi y T E) = fun y => ∫ x, upTo f (x + y) * window 0 T x := funext fun y => (h.mean y T hT).2
  have hi : ∀ y, Integrable fun x => upTo f (x + y) * window 0 T x := fun y => (h.mean y T hT).1
  rw [hn]
  have hmono : StrictMono fun y => ∫ x, upTo f (x + y) * window 0 T x := by
    intro a b hab
    have := h.positive (-a) ((hi b).sub (hi a)) (fun x => by
      simp only [Pi.sub_apply, ← sub_mul]
      exact mul_nonneg (sub_nonneg.2 (h.upTo_mono (by linarith))) (h.window_pos hT x).le) (fun x hx => by
      simp only [Pi.sub_apply, ← sub_mul]
      refine mul_pos (sub_pos.2 ?_) (h.window_pos hT x)
      unfold upTo
      rw [max_eq_left (by linarith), max_eq_left (by linarith)]
      exact h.mono (mem_Ici.2 (by linarith)) (mem_Ici.2 (by linarith)) (by linarith))
    simp only [Pi.sub_apply] at this
    rw [integral_sub (hi b) (hi a)] at this
    exact sub_pos.1 this
  have hconv : StrictConvexOn ℝ univ fun y => ∫ x, upTo f (x + y) * window 0 T x := by
    refine ⟨convex_univ, fun a _ b _ hab s t hs ht hst => ?_⟩
    simp only [smul_eq_mul]
    have e : ∀ x, x + (s * a + t * b) = s * (x + a) + t * (x + b) := by
      intro x
      rw [show s * (x + a) + t * (x + b) = (s + t) * x + (s * a + t * b) by ring, hst, one_mul]
    have hj : Integrable fun x => s * (upTo f (x + a) * window 0 T x) + t * (upTo f (x + b) * window 0 T x) - upTo f (x + (s * a + t * b)) * window 0 T x :=
      (((hi a).const_mul s).add ((hi b).const_mul t)).sub (hi _)
    have := h.positive (max (-a) (-b)) hj (fun x => by
      have := mul_le_mul_of_nonneg_right (h.upTo_convex (x := x + a) (y := x + b) hs.le ht.le hst) (h.window_pos hT x).le
      rw [e]
      linarith) (fun x hx => by
      have hxa : 0 ≤ x + a := by have := (max_lt_iff.1 hx).1; linarith
      have hxb : 0 ≤ x + b := by have := (max_lt_iff.1 hx).2; linarith
      have h1 := h.convex.2 (mem_Ici.2 hxa) (mem_Ici.2 hxb) (fun e => hab (by linarith)) hs ht hst
      simp only [smul_eq_mul] at h1
      have := mul_lt_mul_of_pos_right h1 (h.window_pos hT x)
      rw [e]
      unfold upTo
      rw [max_eq_left hxa, max_eq_left hxb, max_eq_left (by positivity)]
      linarith)
    have hadd : Integrable fun x => s * (upTo f (x + a) * window 0 T x) + t * (upTo f (x + b) * window 0 T x) := ((hi a).const_mul s).add ((hi b).const_mul t)
    rw [integral_sub hadd (hi _), integral_add ((hi a).const_mul s) ((hi b).const_mul t), integral_const_mul,
      integral_const_mul] at this
    linarith
  refine ⟨hconv, hmono, ?_, ?_⟩
  · rw [show (𝓝 (0 : ℝ)) = 𝓝 (∫ _x : ℝ, (0 : ℝ)) by simp]
    refine tendsto_integral_filter_of_dominated_convergence (fun x => upTo f (x + 0) * window 0 T x) (Eventually.of_forall fun y => (hi y).1) ?_ (hi 0) ?_
    · filter_upwards [eventually_le_atBot 0] with y hy
      refine Eventually.of_forall fun x => ?_
      rw [norm_of_nonneg (mul_nonneg (h.upTo_nonneg _) (h.window_pos hT x).le)]
      exact mul_le_mul_of_nonneg_right (h.upTo_mono (by linarith)) (h.window_pos hT x).le
    · refine Eventually.of_forall fun x => ?_
      refine tendsto_const_nhds.congr' ?_
      filter_upwards [eventually_le_atBot (-x)] with y hy
      rw [h.upTo_gap (by linarith), zero_mul]
  · generalize (fun y => ∫ x, upTo f (x + y) * window 0 T x) = n at hconv hmono
    have hs : 0 < n 1 - n 0 := sub_pos.2 (hmono one_pos)
    refine tendsto_atTop_mono' atTop (f₁ := fun y => n 0 + y * (n 1 - n 0)) ?_ (tendsto_atTop_add_const_left _ _ (tendsto_id.atTop_mul_const hs))
    filter_upwards [eventually_gt_atTop 1] with y hy
    have hy0 : 0 < y := by linarith
    have h1 : 0 ≤ 1 - 1 / y := by
      rw [sub_nonneg, div_le_one hy0]
      exact hy.le
    have h2 : 0 ≤ 1 / y := by positivity
    have := hconv.convexOn.2 (mem_univ 0) (mem_univ y) h1 h2 (by ring)
    simp only [smul_eq_mul, mul_zero, zero_add, one_div, inv_mul_cancel₀ hy0.ne'] at this
    have h3 := mul_le_mul_of_nonneg_left this hy0.le
    rw [show y * ((1 - y⁻¹) * n 0 + y⁻¹ * n y) = y * n 0 - (y * y⁻¹) * n 0 + (y * y⁻¹) * n y by ring, mul_inv_cancel₀ hy0.ne'] at h3
    linarith

end Filling

/-! ## The band models -/

theorem pow_four {E : ℝ} (hE : 1 ≤ E) : E ^ 2 ≤ E ^ 4 := pow_le_pow_right₀ hE (by norm_num)

theorem filling_spb (a : Spb) (ha : 0 < a.m_d) : Filling a.fns := by
  have h1 := me_pos
  have h2 := qe_pos
  have h4 := hbar_pos
  have h5 := pi_pos
  refine ⟨by simp [Spb.fns, Spb.dos], ?_, (C74_spb a ha).1, ?_, (C74_spb a ha).2, ?_, fun EF T hT =>
    (C103_concentration a ha {} (by norm_num) (by norm_num) {} (by norm_num) EF T hT a.fns (by simp)).1⟩
  · intro x hx y hy hxy
    show a.dos x < a.dos y
    unfold Spb.dos
    exact mul_lt_mul_of_pos_left (sqrt_lt_sqrt hx hxy) (by positivity)
  · show Continuous a.idos
    unfold Spb.idos
    refine continuous_const.mul (Continuous.div_const ?_ _)
    exact (continuous_const.mul continuous_id).rpow_const fun _ => .inr (by norm_num)
  · set A := 2 * a.m_d * me * qe with hA
    have hA0 : 0 < A := by positivity
    set k := 1 / 10 ^ 25 / (3 * π * π * hbar ^ 3) with hk
    have hk0 : 0 ≤ k := by positivity
    refine growth (k * (A * (1 + A))) 4 fun E hE => ?_
    have : a.fns.idos E = k * (A * E * √(A * E)) := by
      show a.idos E = _
      unfold Spb.idos
      rw [← hA, rpow_three_half (by positivity)]
      ring
    rw [this, abs_of_nonneg (by positivity), mul_assoc k _ (E ^ 4)]
    apply mul_le_mul_of_nonneg_left _ hk0
    have h := sqrt_le_one_add (x := A * E) (by positivity)
    have h6 : 1 + A * E ≤ (1 + A) * E := by nlinarith
    calc A * E * √(A * E) ≤ A * E * ((1 + A) * E) := mul_le_mul_of_nonneg_left (h.trans h6) (by positivity)
      _ = A * (1 + A) * E ^ 2 := by ring
      _ ≤ A * (1 + A) * E ^ 4 := mul_le_mul_of_nonneg_left (pow_four hE) (by positivity)

theorem filling_skb (b : Skb) (hb : 0 < b.m_d) (hg : 0 < b.Eg) : Filling b.fns := by
  have h1 := me_pos
  have h2 := qe_pos
  have h4 := hbar_pos
  have h5 := pi_pos
  refine ⟨by simp [Skb.fns, Skb.dos], ?_, (C74_skb b hb hg).1, ?_, (C74_skb b hb hg).2, ?_, fun EF T hT =>
    (C103_concentration {} (by norm_num) b hb hg {} (by norm_num) EF T hT b.fns (by simp)).1⟩
  · intro x hx y hy hxy
    have hx0 : 0 ≤ x := hx
    have hy0 : 0 < y := lt_of_le_of_lt hx0 hxy
    show b.dos x < b.dos y
    unfold Skb.dos
    have e1 : x / b.Eg < y / b.Eg := div_lt_div_of_pos_right hxy hg
    have e2 : 2 * x / b.Eg < 2 * y / b.Eg := div_lt_div_of_pos_right (by linarith) hg
    have e3 : √(1 + x / b.Eg) ≤ √(1 + y / b.Eg) := sqrt_le_sqrt (by linarith)
    have e4 : 0 < √(1 + y / b.Eg) := sqrt_pos.2 (by positivity)
    have hk : 0 < 1 / 10 ^ 25 * ((2 * b.m_d * me * qe) ^ (3 / 2 : ℝ) / (2 * π * π * hbar ^ 3)) := by positivity
    rw [mul_assoc, mul_assoc (1 / 10 ^ 25 * _) (√y)]
    refine mul_lt_mul_of_pos_left ?_ hk
    have q1 : √(1 + x / b.Eg) * (1 + 2 * x / b.Eg) < √(1 + y / b.Eg) * (1 + 2 * y / b.Eg) :=
      mul_lt_mul' e3 (by linarith) (by positivity) e4
    exact mul_lt_mul' (sqrt_le_sqrt hxy.le) q1 (by positivity) (sqrt_pos.2 hy0)
  · show Continuous b.idos
    unfold Skb.idos
    refine Continuous.div_const (continuous_const.mul ?_) _
    exact ((continuous_const.mul continuous_id).mul (continuous_const.add (continuous_id.div_const _))).rpow_const
      fun _ => .inr (by norm_num)
  · set A := 2 * b.m_d * me * qe with hA
    have hA0 : 0 < A := by positivity
    set r := 1 / b.Eg with hr
    have hr0 : 0 < r := by positivity
    set k := 1 / 10 ^ 25 / (3 * π * π * hbar ^ 3) with hk
    have hk0 : 0 ≤ k := by positivity
    set B := A * (1 + r) with hB
    have hB0 : 0 < B := by positivity
    refine growth (k * (B * (1 + B))) 4 fun E hE => ?_
    have hE0 : 0 < E := by linarith
    have : b.fns.idos E = k * (A * E * (1 + r * E) * √(A * E * (1 + r * E))) := by
      have e1 : E / b.Eg = r * E := by rw [hr]; ring
      show b.idos E = _
      unfold Skb.idos
      rw [← hA, e1, rpow_three_half (by positivity)]
      ring
    rw [this, abs_of_nonneg (by positivity), mul_assoc k _ (E ^ 4)]
    apply mul_le_mul_of_nonneg_left _ hk0
    have hu : A * E * (1 + r * E) ≤ B * E ^ 2 := by
      have : 1 + r * E ≤ (1 + r) * E := by nlinarith
      calc A * E * (1 + r * E) ≤ A * E * ((1 + r) * E) := by gcongr
        _ = B * E ^ 2 := by rw [hB]; ring
    have hs : √(A * E * (1 + r * E)) ≤ (1 + B) * E ^ 2 := by
      have h := sqrt_le_one_add (x := A * E * (1 + r * E)) (by positivity)
      have : 1 ≤ E ^ 2 := by nlinarith
      nlinarith
    calc A * E * (1 + r * E) * √(A * E * (1 + r * E)) ≤ B * E ^ 2 * ((1 + B) * E ^ 2) := by gcongr
      _ = B * (1 + B) * E ^ 4 := by ring

theorem filling_lin (c : Lin) (hc : 0 < c.vF) : Filling c.fns := by
  have h2 := qe_pos
  have h4 := hbar_pos
  have h5 := pi_pos
  refine ⟨by simp [Lin.fns, Lin.dos], ?_, (C74_lin c hc).1, ?_, fun E _ => (C74_lin c hc).2 E, ?_, fun EF T hT =>
    (C103_concentration {} (by norm_num) {} (by norm_num) (by norm_num) c hc EF T hT c.fns (by simp)).1⟩
  · intro x hx y hy hxy
    show c.dos x < c.dos y
    unfold Lin.dos
    exact mul_lt_mul_of_pos_left (pow_lt_pow_left₀ hxy hx (by norm_num)) (by positivity)
  · show Continuous c.idos
    unfold Lin.idos; fun_prop
  · set k := (qe / (c.vF * hbar)) ^ 3 / (3 * 10 ^ 40 * π ^ 2) with hk
    have hk0 : 0 ≤ k := by positivity
    refine growth k 4 fun E hE => ?_
    have : c.fns.idos E = k * E ^ 3 := by
      show c.idos E = _
      unfold Lin.idos
      rw [hk]
      ring
    have hE0 : 0 < E := by linarith
    rw [this, abs_of_nonneg (by positivity)]
    exact mul_le_mul_of_nonneg_left (pow_le_pow_right₀ hE (by norm_num)) hk0

/-! ## Specification -/

/-- a parabolic band with positive mass, a Kane band with positive mass and gap or a linear band with positive velocity, for holes or electrons, at any offset -/
inductive Known : Placed → Prop
  | spb (a : Spb) (s d : ℝ) : 0 < a.m_d → s = 1 ∨ s = -1 → Known ⟨a.fns, s, d⟩
  | skb (a : Skb) (s d : ℝ) : 0 < a.m_d → 0 < a.Eg → s = 1 ∨ s = -1 → Known ⟨a.fns, s, d⟩
  | lin (a : Lin) (s d : ℝ) : 0 < a.vF → s = 1 ∨ s = -1 → Known ⟨a.fns, s, d⟩

theorem Known.filling {b : Placed} (h : Known b) : Filling b.fns := by
  cases h with
  | spb a s d h => exact filling_spb a h
  | skb a s d h h' => exact filling_skb a h h'
  | lin a s d h => exact filling_lin a h

theorem Known.sign {b : Placed} (h : Known b) : b.sign = 1 ∨ b.sign = -1 := by
  cases h <;> assumption

theorem multi_N {m : Multi ℝ} {w : Heap ℝ} {bs : List Placed} (h : Holds m w bs) (EF T : ℝ) :
    m.prop w .N (some (EF, T)) = .ok (some (bs.map fun b => b.exact.n (b.level EF) T).sum) := by
  have hsrc : m.src w (some (EF, T)) = ⟨1, m.totN w EF T, fun i => m.totK w i EF T, (m.totH w EF T).map some, .ok T⟩ := by
    unfold Multi.src
    rw [h.1]
  unfold Multi.prop
  rw [hsrc]
  simp only [Src.prop, holds_N h]
  rfl

theorem rises_electron {b : Placed} (h : Known b) (T : ℝ) (hT : 0 < T) (hs : b.sign = -1) : Rises fun EF => b.exact.n (b.level EF) T := by
  have := (h.filling.concentration T hT).shift (-b.delta)
  refine cast (congrArg Rises (funext fun EF => ?_)) this
  unfold Placed.level Placed.exact
  rw [hs]
  congr 2
  ring

theorem rises_hole {b : Placed} (h : Known b) (T : ℝ) (hT : 0 < T) (hs : b.sign = 1) : Rises fun z => b.exact.n (b.level (-z)) T := by
  have := (h.filling.concentration T hT).shift b.delta
  refine cast (congrArg Rises (funext fun EF => ?_)) this
  unfold Placed.level Placed.exact
  rw [hs]
  congr 2
  ring

/-! ## Theorems -/

/-- **C142** The concentration of one band is positive and rises strictly with its Fermi level, and every positive concentration belongs to exactly one level: the equation
`solve_EF('N', value, T)` has one solution. -/
theorem C142_single (b : Placed) (hb : Known b) (T : ℝ) (hT : 0 < T) : ∃ N : ℝ → ℝ, (∀ EF, b.exact.prop .N (some (EF, T)) = .ok (some (N EF))) ∧
    (∀ EF, 0 < N EF) ∧ StrictMono N ∧ ∀ v, 0 < v → ∃! EF, N EF = v := by
  have h := hb.filling.concentration T hT
  exact ⟨_, fun EF => rfl, h.pos, h.mono, fun v hv => h.takes hv⟩

/-- **C142** The same holds for a model of several bands that all carry electrons; when they all carry holes the concentration falls with the level. -/
theorem C142_onekind (m : Multi ℝ) (w : Heap ℝ) (bs : List Placed) (h : Holds m w bs) (hne : bs ≠ []) (hk : ∀ b ∈ bs, Known b) (T : ℝ) (hT : 0 < T)
    (s : ℝ) (hs : ∀ b ∈ bs, b.sign = s) : ∃ N : ℝ → ℝ, (∀ EF, m.prop w .N (some (EF, T)) = .ok (some (N EF))) ∧ (∀ EF, 0 < N EF) ∧
    (s = -1 ∧ StrictMono N ∨ s = 1 ∧ StrictAnti N) ∧ ∀ v, 0 < v → ∃! EF, N EF = v := by
  refine ⟨_, fun EF => multi_N h EF T, ?_⟩
  obtain ⟨b0, hb0⟩ := List.exists_mem_of_ne_nil bs hne
  rcases (hk b0 hb0).sign with e | e <;> rw [hs b0 hb0] at e
  · have hr := Rises.sum (fun b z => b.exact.n (b.level (-z)) T) bs hne fun b hb => rises_hole (hk b hb) T hT ((hs b hb).trans e)
    refine ⟨fun EF => ?_, .inr ⟨e, fun x y hxy => ?_⟩, fun v hv => ?_⟩
    · have := hr.pos (-EF)
      simpa only [neg_neg] using this
    · have := hr.mono (neg_lt_neg hxy)
      simpa only [neg_neg] using this
    · obtain ⟨z, hz, hu⟩ := hr.takes hv
      refine ⟨-z, hz, fun x hx => ?_⟩
      have := hu (-x) (by simpa only [neg_neg] using hx)
      linarith
  · have hr := Rises.sum (fun b z => b.exact.n (b.level z) T) bs hne fun b hb => rises_electron (hk b hb) T hT ((hs b hb).trans e)
    exact ⟨hr.pos, .inl ⟨e, hr.mono⟩, fun v hv => hr.takes hv⟩

/-- **C142 (finding).** With bands of both kinds `N` counts electrons and holes together: it has one positive minimum, falls strictly below and rises strictly above it.  So
`solve_EF('N', value, T)` has no solution for a value below the minimum and exactly two, on either side, for every value above: which one is found depends on the initial level. -/
theorem C142_twokinds (m : Multi ℝ) (w : Heap ℝ) (bs : List Placed) (h : Holds m w bs) (hk : ∀ b ∈ bs, Known b) (T : ℝ) (hT : 0 < T)
    (hc : ∃ b ∈ bs, b.sign = -1) (hv : ∃ b ∈ bs, b.sign = 1) : ∃ (N : ℝ → ℝ) (e : ℝ), (∀ EF, m.prop w .N (some (EF, T)) = .ok (some (N EF))) ∧ 0 < N e ∧
    StrictAntiOn N (Iic e) ∧ StrictMonoOn N (Ici e) ∧ (∀ v, v < N e → ¬∃ EF, N EF = v) ∧
    ∀ v, N e < v → ∃ p q, p < e ∧ e < q ∧ ∀ EF, N EF = v ↔ EF = p ∨ EF = q := by
  obtain ⟨c, hc, hcs⟩ := hc
  obtain ⟨v, hv, hvs⟩ := hv
  set F := bs.filter fun b => b.sign = -1 with hF
  set G := bs.filter fun b => b.sign = 1 with hG
  have hFn : F ≠ [] := List.ne_nil_of_mem (List.mem_filter.2 ⟨hc, by simp [hcs]⟩)
  have hGn : G ≠ [] := List.ne_nil_of_mem (List.mem_filter.2 ⟨hv, by simp [hvs]⟩)
  have rF := Rises.sum (fun b z => b.exact.n (b.level z) T) F hFn fun b hb => by
    rw [List.mem_filter] at hb
    exact rises_electron (hk b hb.1) T hT (by simpa using hb.2)
  have rG := Rises.sum (fun b z => b.exact.n (b.level (-z)) T) G hGn fun b hb => by
    rw [List.mem_filter] at hb
    exact rises_hole (hk b hb.1) T hT (by simpa using hb.2)
  have split : ∀ EF, (bs.map fun b => b.exact.n (b.level EF) T).sum = (F.map fun b => b.exact.n (b.level EF) T).sum + (G.map fun b => b.exact.n (b.level EF) T).sum := by
    intro EF
    have hsg : ∀ b ∈ bs, b.sign = 1 ∨ b.sign = -1 := fun b hb => (hk b hb).sign
    rw [hF, hG]
    clear * - hsg
    induction bs with
    | nil => simp
    | cons b bs ih =>
      have ih := ih fun b hb => hsg b (by simp [hb])
      rcases hsg b (by simp) with e | e
      · rw [List.filter_cons_of_neg (by rw [e]; norm_num), List.filter_cons_of_pos (by simp [e]), List.map_cons, List.map_cons, List.sum_cons, List.sum_cons, ih]
        ring
      · rw [List.filter_cons_of_pos (by simp [e]), List.filter_cons_of_neg (by rw [e]; norm_num), List.map_cons, List.map_cons, List.sum_cons, List.sum_cons, ih]
        ring
  set N := fun EF => (bs.map fun b => b.exact.n (b.level EF) T).sum with hN
  set P := fun EF => (F.map fun b => b.exact.n (b.level EF) T).sum with hP
  set Q := fun z => (G.map fun b => b.exact.n (b.level (-z)) T).sum with hQ
  have hNPQ : N = fun EF => P EF + Q (-EF) := by
    funext EF
    rw [hN, hP, hQ]
    simp only [neg_neg]
    exact split EF
  have hconv : StrictConvexOn ℝ univ N := by
    rw [hNPQ]
    refine rF.convex.add ⟨convex_univ, fun x _ y _ hxy a b ha hb hab => ?_⟩
    have := rG.convex.2 (mem_univ (-x)) (mem_univ (-y)) (fun e => hxy (by linarith)) ha hb hab
    simp only [smul_eq_mul] at this ⊢
    rw [show -(a * x + b * y) = a * -x + b * -y by ring]
    exact this
  have hbot : Tendsto N atBot atTop := by
    rw [hNPQ]
    exact tendsto_atTop_mono (fun x => le_add_of_nonneg_left (rF.pos x).le) (rG.top.comp tendsto_neg_atBot_atTop)
  have htop : Tendsto N atTop atTop := by
    rw [hNPQ]
    exact tendsto_atTop_mono (fun x => le_add_of_nonneg_right (rG.pos (-x)).le) rF.top
  obtain ⟨e, h1, h2, h3⟩ := valley hconv hbot htop
  refine ⟨N, e, fun EF => multi_N h EF T, ?_, h1, h2, ?_, h3⟩
  · rw [hNPQ]
    exact add_pos (rF.pos e) (rG.pos (-e))
  · rintro u hu ⟨EF, rfl⟩
    rcases le_total EF e with hle | hle
    · have := h1.antitoneOn (mem_Iic.2 hle) (mem_Iic.2 le_rfl) hle
      linarith
    · have := h2.monotoneOn (mem_Ici.2 le_rfl) (mem_Ici.2 hle) hle
      linarith

/-- **C142** For a pair of mirrored bands (the same functions, electrons above and holes below) the concentration is symmetric about the middle of their edges: its minimum is
there, and so the Seebeck coefficient vanishes there. -/
theorem C142_midgap (m : Multi ℝ) (w : Heap ℝ) (f : BandFns) (dc dv : ℝ) (h : Holds m w [⟨f, -1, dc⟩, ⟨f, 1, dv⟩]) (hk : Known ⟨f, 1, dv⟩) (T : ℝ) (hT : 0 < T) :
    (∀ x, m.prop w .N (some ((dc + dv) / 2 - x, T)) = m.prop w .N (some ((dc + dv) / 2 + x, T))) ∧
    (∀ EF u v, EF ≠ (dc + dv) / 2 → m.prop w .N (some ((dc + dv) / 2, T)) = .ok (some u) → m.prop w .N (some (EF, T)) = .ok (some v) → u < v) ∧
    m.prop w .S (some ((dc + dv) / 2, T)) = .ok (some 0) := by
  have r := hk.filling.concentration T hT
  set n := fun y => ∫ E in Ioi 0, f.dos E * fermi y T E with hn
  have hN : ∀ EF, m.prop w .N (some (EF, T)) = .ok (some (n (EF - dc) + n (dv - EF))) := by
    intro EF
    rw [multi_N h]
    simp only [List.map_cons, List.map_nil, List.sum_cons, List.sum_nil, add_zero, Placed.exact, Placed.level]
    rw [show -1 * -1 * (EF - dc) = EF - dc by ring, show -1 * 1 * (EF - dv) = dv - EF by ring]
  refine ⟨fun x => ?_, fun EF u v hne hu hv => ?_, ?_⟩
  · rw [hN, hN, add_comm (n _), show dv - ((dc + dv) / 2 - x) = (dc + dv) / 2 + x - dc by ring, show (dc + dv) / 2 - x - dc = dv - ((dc + dv) / 2 + x) by ring]
  · rw [hN] at hu hv
    have hu := Option.some.inj (Except.ok.inj hu)
    have hv := Option.some.inj (Except.ok.inj hv)
    rw [← hu, ← hv, show dv - (dc + dv) / 2 = 1 / 2 * (EF - dc) + 1 / 2 * (dv - EF) by ring, show (dc + dv) / 2 - dc = 1 / 2 * (EF - dc) + 1 / 2 * (dv - EF) by ring]
    have := r.convex.2 (mem_univ (EF - dc)) (mem_univ (dv - EF)) (fun e => hne (by linarith)) (by norm_num : (0 : ℝ) < 1 / 2) (by norm_num : (0 : ℝ) < 1 / 2) (by norm_num)
    simp only [smul_eq_mul] at this
    linarith
  · have hsrc : m.src w (some ((dc + dv) / 2, T)) = ⟨1, m.totN w ((dc + dv) / 2) T, fun i => m.totK w i ((dc + dv) / 2) T, (m.totH w ((dc + dv) / 2) T).map some, .ok T⟩ := by
      unfold Multi.src
      rw [h.1]
    unfold Multi.prop
    rw [hsrc]
    simp only [Src.prop, holds_K h, Bind.bind, Except.bind, Pure.pure, Except.pure]
    simp only [List.map_cons, List.map_nil, List.sum_cons, List.sum_nil, add_zero, Placed.exact, Placed.level, pow_one]
    rw [show -1 * -1 * ((dc + dv) / 2 - dc) = -1 * 1 * ((dc + dv) / 2 - dv) by ring]
    simp

/-- a parabolic conduction band and two valence bands -/
example : ∃ (m : Multi ℝ) (w : Heap ℝ) (bs : List Placed), Holds m w bs ∧ bs.length = 3 ∧ (∀ b ∈ bs, Known b) ∧ (∃ b ∈ bs, b.sign = -1) ∧ ∃ b ∈ bs, b.sign = 1 := by
  refine ⟨⟨[0, 1, 2], [1 / 2, 0, -1 / 5], none⟩, fun i => if i = 0 then (⟨(Spb.fns {}), -1, 1 / 2⟩ : Placed).exact else
    if i = 1 then (⟨(Skb.fns {}), 1, 0⟩ : Placed).exact else (⟨(Lin.fns {}), 1, -1 / 5⟩ : Placed).exact,
    [⟨(Spb.fns {}), -1, 1 / 2⟩, ⟨(Skb.fns {}), 1, 0⟩, ⟨(Lin.fns {}), 1, -1 / 5⟩], ⟨rfl, ?_⟩, rfl, ?_, ⟨_, List.mem_cons_self, rfl⟩, ⟨_, List.mem_cons_of_mem _ List.mem_cons_self, rfl⟩⟩
  · exact .cons ⟨rfl, rfl⟩ (.cons ⟨rfl, rfl⟩ (.cons ⟨rfl, rfl⟩ .nil))
  · simp only [List.mem_cons, List.not_mem_nil, or_false, forall_eq_or_imp, forall_eq]
    exact ⟨.spb _ _ _ (by norm_num) (.inr rfl), .skb _ _ _ (by norm_num) (by norm_num) (.inl rfl), .lin _ _ _ (by norm_num) (.inl rfl)⟩

end

end TEflow.Bandlib
