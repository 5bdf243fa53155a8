import Verif.Props.BandKaneLevel

/-! # C145: the Seebeck coefficient of a model of several bands -/

open Real MeasureTheory Set Filter Topology

namespace TEflow.Bandlib

noncomputable section

/-! ## Specification -/

/-- a parabolic band, a Kane band with a positive gap or a linear band that conducts, for holes or electrons, at any offset -/
inductive Conducts : Placed → Prop
  | spb (a : Spb) (s d : ℝ) : 0 < a.sigma0 → s = 1 ∨ s = -1 → Conducts ⟨a.fns, s, d⟩
  | skb (a : Skb) (s d : ℝ) : 0 < a.sigma0 → 0 < a.Eg → s = 1 ∨ s = -1 → Conducts ⟨a.fns, s, d⟩
  | lin (a : Lin) (s d : ℝ) : 0 < a.sigma0 → s = 1 ∨ s = -1 → Conducts ⟨a.fns, s, d⟩

/-! ## One band -/

/-- the first two coefficients of a band as functions of its level -/
structure Carries (k0 k1 : ℝ → ℝ) : Prop where
  pos0 : ∀ y, 0 < k0 y
  pos1 : ∀ y, 0 < k1 y
  mono : Monotone k0
  cont0 : Continuous k0
  cont1 : Continuous k1
  anti : Antitone fun y => k1 y / k0 y
  gone : Tendsto k1 atBot (𝓝 0)
  top : Tendsto (fun y => k1 y / k0 y) atTop (𝓝 0)
  bot : Tendsto (fun y => k1 y / k0 y) atBot atTop

theorem falls_to {a : ℝ → ℝ} (hp : ∀ y, 0 < a y) (ha : StrictAnti a) (ht : ∀ v, 0 < v → ∃ y, a y = v) : Tendsto a atTop (𝓝 0) ∧ Tendsto a atBot atTop := by
  constructor
  · refine tendsto_order.2 ⟨fun v hv => Eventually.of_forall fun y => hv.trans (hp y), fun v hv => ?_⟩
    obtain ⟨y, hy⟩ := ht v hv
    filter_upwards [eventually_gt_atTop y] with z hz
    rw [← hy]
    exact ha hz
  · refine tendsto_atTop.2 fun v => ?_
    obtain ⟨y, hy⟩ := ht (max v 1) (by positivity)
    filter_upwards [eventually_le_atBot y] with z hz
    exact (le_max_left v 1).trans (hy ▸ ha.antitone hz)

/-- the ratio of the coefficients from the Seebeck coefficient -/
theorem ratio_of {b : Placed} {T : ℝ} (hs : b.sign = 1 ∨ b.sign = -1) (hk : ∀ y, 0 < b.exact.k 0 y T)
    (h : ∃ a : ℝ → ℝ, (∀ EF, b.exact.prop .S (some (EF, T)) = .ok (some (b.sign * a EF))) ∧ (∀ EF, 0 < a EF) ∧ StrictAnti a ∧
      ∀ v, 0 < v → ∃! EF, b.exact.prop .S (some (EF, T)) = .ok (some (b.sign * v))) :
    (∀ y, 0 < b.exact.k 1 y T) ∧ (Antitone fun y => b.exact.k 1 y T / b.exact.k 0 y T) ∧ Tendsto (fun y => b.exact.k 1 y T / b.exact.k 0 y T) atTop (𝓝 0) ∧
    Tendsto (fun y => b.exact.k 1 y T / b.exact.k 0 y T) atBot atTop := by
  obtain ⟨a, h1, h2, h3, h4⟩ := h
  have hS : (0 : ℝ) < S0 := by unfold S0; norm_num
  have hs0 : b.sign ≠ 0 := by rcases hs with h | h <;> rw [h] <;> norm_num
  have e : ∀ y, b.exact.k 1 y T / b.exact.k 0 y T = a y / S0 := by
    intro y
    have h5 : b.exact.prop .S (some (y, T)) = .ok (some (b.sign * S0 * b.exact.k 1 y T / b.exact.k 0 y T)) := rfl
    rw [h1] at h5
    simp only [Except.ok.injEq, Option.some.injEq] at h5
    have : a y = S0 * b.exact.k 1 y T / b.exact.k 0 y T := mul_left_cancel₀ hs0 (by rw [h5]; ring)
    rw [this]
    field_simp
  have hex : ∀ v, 0 < v → ∃ y, a y / S0 = v := by
    intro v hv
    obtain ⟨y, hy, _⟩ := h4 (v * S0) (by positivity)
    simp only [h1, Except.ok.injEq, Option.some.injEq] at hy
    exact ⟨y, by rw [mul_left_cancel₀ hs0 hy]; field_simp⟩
  have ha : StrictAnti fun y => a y / S0 := fun x y hxy => div_lt_div_of_pos_right (h3 hxy) hS
  obtain ⟨f1, f2⟩ := falls_to (a := fun y => a y / S0) (fun y => div_pos (h2 y) hS) ha hex
  simp only [e]
  refine ⟨fun y => ?_, ha.antitone, f1, f2⟩
  have := div_pos (h2 y) hS
  rw [← e, div_pos_iff_of_pos_right (hk y)] at this
  exact this

theorem fd0_mono : StrictMono fd0 := strictMono_of_hasDerivAt_pos fd0_deriv fun y => (occ_lt y).1

theorem mul_fd0_bot : Tendsto (fun y => y * fd0 y) atBot (𝓝 0) := by
  have h1 : Tendsto (fun y : ℝ => y * exp y) atBot (𝓝 0) := by
    have := (tendsto_pow_mul_exp_neg_atTop_nhds_zero 1).comp tendsto_neg_atBot_atTop
    have h2 := this.neg
    rw [neg_zero] at h2
    refine h2.congr fun y => ?_
    simp
  refine tendsto_of_tendsto_of_tendsto_of_le_of_le' h1 tendsto_const_nhds ?_ ?_
  · filter_upwards [eventually_le_atBot 0] with y hy
    exact mul_le_mul_of_nonpos_left (fd0_lt y).le hy
  · filter_upwards [eventually_le_atBot 0] with y hy
    exact mul_nonpos_of_nonpos_of_nonneg hy (fd0_pos y).le

theorem seeb_bot : Tendsto seeb atBot (𝓝 0) := by
  have := (fd1_bot.const_mul 2).sub mul_fd0_bot
  rwa [mul_zero, sub_zero] at this

theorem lin_bot : Tendsto (fun y => fd0 y - y * occ y) atBot (𝓝 0) := by
  have h1 : Tendsto (fun y : ℝ => y * occ y) atBot (𝓝 0) := by
    have h2 : Tendsto (fun y : ℝ => y * exp y) atBot (𝓝 0) := by
      have := ((tendsto_pow_mul_exp_neg_atTop_nhds_zero 1).comp tendsto_neg_atBot_atTop).neg
      rw [neg_zero] at this
      refine this.congr fun y => ?_
      simp
    refine tendsto_of_tendsto_of_tendsto_of_le_of_le' h2 tendsto_const_nhds ?_ ?_
    · filter_upwards [eventually_le_atBot 0] with y hy
      refine mul_le_mul_of_nonpos_left ?_ hy
      unfold occ
      have := exp_pos y
      rw [div_le_iff₀ (by positivity)]
      nlinarith
    · filter_upwards [eventually_le_atBot 0] with y hy
      exact mul_nonpos_of_nonpos_of_nonneg hy (occ_range y).1.le
  have := fd0_bot.sub h1
  rwa [sub_zero] at this

theorem div_atBot {c : ℝ} (hc : 0 < c) : Tendsto (fun y : ℝ => y / c) atBot atBot := tendsto_id.atBot_div_const hc

theorem Saturates.k1_bot {φ : ℝ → ℝ} {B : ℝ} (h : Saturates φ B) {T : ℝ} (hT : 0 < T) : Tendsto (fun y => ∫ x, above φ (x + y) * (x * window 0 T x)) atBot (𝓝 0) := by
  rw [show (𝓝 (0 : ℝ)) = 𝓝 (∫ _x : ℝ, (0 : ℝ)) by simp]
  refine tendsto_integral_filter_of_dominated_convergence (fun x => B * ‖x * window 0 T x‖) (Eventually.of_forall fun y => h.meas1 hT y)
    (Eventually.of_forall fun y => Eventually.of_forall fun x => h.bound1 hT y x) (((moment_integrable hT).norm).const_mul B) (Eventually.of_forall fun x => ?_)
  refine tendsto_const_nhds.congr' ?_
  filter_upwards [eventually_le_atBot (-x)] with y hy
  rw [h.above_gap (by linarith), zero_mul]

theorem Conducts.sign {b : Placed} (h : Conducts b) : b.sign = 1 ∨ b.sign = -1 := by
  cases h <;> assumption

theorem Conducts.carries {b : Placed} (h : Conducts b) {T : ℝ} (hT : 0 < T) : Carries (fun y => b.exact.k 0 y T) fun y => b.exact.k 1 y T := by
  have hkT : 0 < kB * T := mul_pos kB_pos hT
  cases h with
  | spb a s d ha hs =>
    have hp : ∀ y, 0 < (Placed.exact ⟨a.fns, s, d⟩).k 0 y T := fun y => by
      rw [(spb_K a s d y hT).1]
      exact mul_pos ha (fd0_pos _)
    obtain ⟨r1, r2, r3, r4⟩ := ratio_of (b := ⟨a.fns, s, d⟩) hs hp (C129_seebeck a s d T ha hs hT)
    refine ⟨hp, r1, ?_, ?_, ?_, r2, ?_, r3, r4⟩
    · simp only [fun y => (spb_K a s d y hT).1]
      exact fun x y hxy => mul_le_mul_of_nonneg_left (fd0_mono.monotone (div_le_div_of_nonneg_right hxy hkT.le)) ha.le
    · simp only [fun y => (spb_K a s d y hT).1]
      exact continuous_const.mul (fd0_cont.comp (continuous_id.div_const _))
    · simp only [fun y => (spb_K a s d y hT).2]
      exact continuous_const.mul ((continuous_iff_continuousAt.2 fun y => (seeb_deriv y).continuousAt).comp (continuous_id.div_const _))
    · simp only [fun y => (spb_K a s d y hT).2]
      have := (seeb_bot.comp (div_atBot hkT)).const_mul a.sigma0
      rwa [mul_zero] at this
  | skb a s d ha hg hs =>
    have hsat := saturates_skb a ha hg T hT
    have e0 : ∀ y, (Placed.exact ⟨a.fns, s, d⟩).k 0 y T = ∫ x, above (fun E => a.trs E T) (x + y) * window 0 T x := fun y => by
      rw [skb_K a ha hg s d y T hT 0]
      simp only [pow_zero, one_mul]
    have e1 : ∀ y, (Placed.exact ⟨a.fns, s, d⟩).k 1 y T = 1 / (kB * T) * ∫ x, above (fun E => a.trs E T) (x + y) * (x * window 0 T x) := fun y => by
      rw [skb_K a ha hg s d y T hT 1, ← integral_const_mul]
      congr 1
      funext x
      ring
    have hp : ∀ y, 0 < (Placed.exact ⟨a.fns, s, d⟩).k 0 y T := fun y => by
      rw [e0]
      exact hsat.k0_pos hT y
    obtain ⟨f, h1, h2, h3, _, _, _, h4⟩ := C143_seebeck a s d T ha hg hs hT
    obtain ⟨r1, r2, r3, r4⟩ := ratio_of (b := ⟨a.fns, s, d⟩) hs hp ⟨f, h1, h2, h3, h4⟩
    refine ⟨hp, r1, ?_, ?_, ?_, r2, ?_, r3, r4⟩
    · simp only [e0]
      exact (hsat.k0_mono hT).monotone
    · simp only [e0]
      exact hsat.k0_cont hT
    · simp only [e1]
      exact continuous_const.mul (hsat.k1_cont hT)
    · simp only [e1]
      have := (hsat.k1_bot hT).const_mul (1 / (kB * T))
      rwa [mul_zero] at this
  | lin a s d ha hs =>
    have hp : ∀ y, 0 < (Placed.exact ⟨a.fns, s, d⟩).k 0 y T := fun y => by
      rw [(lin_K a s d y hT).1]
      exact mul_pos ha (occ_range _).1
    obtain ⟨r1, r2, r3, r4⟩ := ratio_of (b := ⟨a.fns, s, d⟩) hs hp (C141_seebeck a s d T ha hs hT)
    have oc : Continuous occ := continuous_iff_continuousAt.2 fun y => (occ_deriv y).continuousAt
    refine ⟨hp, r1, ?_, ?_, ?_, r2, ?_, r3, r4⟩
    · simp only [fun y => (lin_K a s d y hT).1]
      exact fun x y hxy => mul_le_mul_of_nonneg_left (occ_mono.monotone (div_le_div_of_nonneg_right hxy hkT.le)) ha.le
    · simp only [fun y => (lin_K a s d y hT).1]
      exact continuous_const.mul (oc.comp (continuous_id.div_const _))
    · simp only [fun y => (lin_K a s d y hT).2.1]
      have hd : Continuous fun y : ℝ => y / (kB * T) := continuous_id.div_const _
      exact continuous_const.mul ((fd0_cont.comp hd).sub (hd.mul (oc.comp hd)))
    · simp only [fun y => (lin_K a s d y hT).2.1]
      have := (lin_bot.comp (div_atBot hkT)).const_mul a.sigma0
      rwa [mul_zero] at this

/-! ## Several bands -/

theorem multi_S {m : Multi ℝ} {w : Heap ℝ} {bs : List Placed} (h : Holds m w bs) (EF T : ℝ) :
    m.prop w .S (some (EF, T)) = .ok (some (S0 * ((bs.map fun b => b.sign * b.exact.k 1 (b.level EF) T).sum / (bs.map fun b => b.exact.k 0 (b.level EF) T).sum))) := by
  have hsrc : m.src w (some (EF, T)) = ⟨1, m.totN w EF T, fun i => m.totK w i EF T, (m.totH w EF T).map some, .ok T⟩ := by
    unfold Multi.src
    rw [h.1]
  unfold Multi.prop
  rw [hsrc]
  simp only [Src.prop, holds_K h, Bind.bind, Except.bind, Pure.pure, Except.pure, pow_one, pow_zero, one_mul]
  congr 2
  ring

theorem level_cont (b : Placed) : Continuous b.level := by
  unfold Placed.level
  fun_prop

theorem level_electron {b : Placed} (h : b.sign = -1) : Tendsto b.level atTop atTop ∧ Tendsto b.level atBot atBot := by
  have e : b.level = fun EF => EF + -b.delta := by
    funext EF
    unfold Placed.level
    rw [h]
    ring
  rw [e]
  exact ⟨tendsto_atTop_add_const_right _ _ tendsto_id, tendsto_atBot_add_const_right _ _ tendsto_id⟩

theorem level_hole {b : Placed} (h : b.sign = 1) : Tendsto b.level atTop atBot ∧ Tendsto b.level atBot atTop := by
  have e : b.level = fun EF => -EF + b.delta := by
    funext EF
    unfold Placed.level
    rw [h]
    ring
  rw [e]
  exact ⟨tendsto_atBot_add_const_right _ _ tendsto_neg_atTop_atBot, tendsto_atTop_add_const_right _ _ tendsto_neg_atBot_atTop⟩

section
variable {bs : List Placed} {T : ℝ} (hk : ∀ b ∈ bs, Conducts b) (hT : 0 < T)
include hk hT

theorem total_ge {c : Placed} (hc : c ∈ bs) (EF : ℝ) : c.exact.k 0 (c.level EF) T ≤ (bs.map fun b => b.exact.k 0 (b.level EF) T).sum := by
  refine List.single_le_sum (fun x hx => ?_) _ (List.mem_map.2 ⟨c, hc, rfl⟩)
  obtain ⟨b, hb, rfl⟩ := List.mem_map.1 hx
  exact (((hk b hb).carries hT).pos0 _).le

theorem total_pos (hne : bs ≠ []) (EF : ℝ) : 0 < (bs.map fun b => b.exact.k 0 (b.level EF) T).sum := by
  obtain ⟨c, hc⟩ := List.exists_mem_of_ne_nil bs hne
  exact (((hk c hc).carries hT).pos0 _).trans_le (total_ge hk hT hc EF)

theorem ratio_cont (hne : bs ≠ []) :
    Continuous fun EF => (bs.map fun b => b.sign * b.exact.k 1 (b.level EF) T).sum / (bs.map fun b => b.exact.k 0 (b.level EF) T).sum := by
  refine Continuous.div ?_ ?_ fun EF => (total_pos hk hT hne EF).ne'
  · exact continuous_list_sum bs fun b hb => continuous_const.mul ((((hk b hb).carries hT).cont1).comp (level_cont b))
  · exact continuous_list_sum bs fun b hb => (((hk b hb).carries hT).cont0).comp (level_cont b)

theorem ratio_gone {l : Filter ℝ} (hl : ∀ b ∈ bs, Tendsto b.level l atTop ∨ Tendsto b.level l atBot) (hc : ∃ c ∈ bs, Tendsto c.level l atTop) :
    Tendsto (fun EF => (bs.map fun b => b.sign * b.exact.k 1 (b.level EF) T).sum / (bs.map fun b => b.exact.k 0 (b.level EF) T).sum) l (𝓝 0) := by
  obtain ⟨c, hc, hct⟩ := hc
  have hc' := (hk c hc).carries hT
  have hne : bs ≠ [] := List.ne_nil_of_mem hc
  have one : ∀ b ∈ bs, Tendsto (fun EF => b.sign * (b.exact.k 1 (b.level EF) T / (bs.map fun b => b.exact.k 0 (b.level EF) T).sum)) l (𝓝 0) := by
    intro b hb
    have hb' := (hk b hb).carries hT
    rw [← mul_zero b.sign]
    refine Tendsto.const_mul _ ?_
    rcases hl b hb with ht | ht
    · refine tendsto_of_tendsto_of_tendsto_of_le_of_le tendsto_const_nhds (hb'.top.comp ht) (fun EF => ?_) fun EF => ?_
      · exact (div_pos (hb'.pos1 _) (total_pos hk hT hne EF)).le
      · exact div_le_div_of_nonneg_left (hb'.pos1 _).le (hb'.pos0 _) (total_ge hk hT hb EF)
    · have h0 := (hb'.gone.comp ht).div_const (c.exact.k 0 0 T)
      rw [zero_div] at h0
      refine tendsto_of_tendsto_of_tendsto_of_le_of_le' tendsto_const_nhds h0 (Eventually.of_forall fun EF => (div_pos (hb'.pos1 _) (total_pos hk hT hne EF)).le) ?_
      filter_upwards [hct.eventually (eventually_ge_atTop 0)] with EF hEF
      exact div_le_div_of_nonneg_left (hb'.pos1 _).le (hc'.pos0 0) ((hc'.mono hEF).trans (total_ge hk hT hc EF))
  have := tendsto_list_sum bs one
  simp only [List.map_const', List.sum_replicate, smul_zero] at this
  refine this.congr fun EF => ?_
  rw [div_eq_mul_inv, ← List.sum_map_mul_right]
  congr 1
  refine List.map_congr_left fun b _ => ?_
  ring

end

/-! ## Theorems -/

/-- **C145 (finding).** The Seebeck coefficient of a model with bands of both kinds is bounded and vanishes far on either side: there is a largest size, beyond which
`solve_EF('S', value, T)` has no solution, and whenever a non-zero value is reached, every value of the same sign and smaller size is reached at two levels at least, one on either
side. -/
theorem C145_twokinds (m : Multi ℝ) (w : Heap ℝ) (bs : List Placed) (h : Holds m w bs) (hk : ∀ b ∈ bs, Conducts b) (T : ℝ) (hT : 0 < T)
    (hc : ∃ b ∈ bs, b.sign = -1) (hv : ∃ b ∈ bs, b.sign = 1) : ∃ S : ℝ → ℝ, (∀ EF, m.prop w .S (some (EF, T)) = .ok (some (S EF))) ∧ Continuous S ∧
    Tendsto S atBot (𝓝 0) ∧ Tendsto S atTop (𝓝 0) ∧ (∃ e, ∀ EF, |S EF| ≤ |S e|) ∧
    ∀ e v, (0 < v ∧ v < S e ∨ S e < v ∧ v < 0) → ∃ p q, p < e ∧ e < q ∧ S p = v ∧ S q = v := by
  have hne : bs ≠ [] := by
    obtain ⟨b, hb, _⟩ := hc
    exact List.ne_nil_of_mem hb
  obtain ⟨c, hc, hcs⟩ := hc
  obtain ⟨d, hd, hds⟩ := hv
  have hcont := (ratio_cont hk hT hne).const_mul S0
  have htop := (ratio_gone hk hT (l := atTop) (fun b hb => (hk b hb).sign.symm.imp (fun e => (level_electron e).1) fun e => (level_hole e).1) ⟨c, hc, (level_electron hcs).1⟩).const_mul S0
  have hbot := (ratio_gone hk hT (l := atBot) (fun b hb => (hk b hb).sign.imp (fun e => (level_hole e).2) fun e => (level_electron e).2) ⟨d, hd, (level_hole hds).2⟩).const_mul S0
  rw [mul_zero] at htop hbot
  have hprop := fun EF => multi_S h EF T
  obtain ⟨S, hS⟩ : ∃ S : ℝ → ℝ, S = fun EF => S0 * ((bs.map fun b => b.sign * b.exact.k 1 (b.level EF) T).sum / (bs.map fun b => b.exact.k 0 (b.level EF) T).sum) := ⟨_, rfl⟩
  rw [← hS] at hcont htop hbot
  refine ⟨S, fun EF => by rw [hprop, hS], hcont, hbot, htop, ?_, fun e v hv => ?_⟩
  · by_cases h0 : ∀ x, S x = 0
    · exact ⟨0, fun EF => by simp [h0]⟩
    · push Not at h0
      obtain ⟨x0, hx0⟩ := h0
      have hp : 0 < |S x0| := abs_pos.2 hx0
      have ht : Tendsto (fun x => |S x|) (cocompact ℝ) (𝓝 0) := by
        rw [cocompact_eq_atBot_atTop]
        have h1 := hbot.abs
        have h2 := htop.abs
        rw [abs_zero] at h1 h2
        exact h1.sup h2
      obtain ⟨e, he⟩ := hcont.abs.exists_forall_ge' (x₀ := x0) ((ht.eventually (gt_mem_nhds hp)).mono fun x hx => hx.le)
      exact ⟨e, he⟩
  · have key : ∀ f : ℝ → ℝ, Continuous f → Tendsto f atBot (𝓝 0) → Tendsto f atTop (𝓝 0) → ∀ u, 0 < u → u < f e → ∃ p q, p < e ∧ e < q ∧ f p = u ∧ f q = u := by
      intro f hf hb ht u hu hue
      obtain ⟨p, hp1, hp2⟩ := ((hb.eventually (gt_mem_nhds hu)).and (eventually_lt_atBot e)).exists
      obtain ⟨q, hq1, hq2⟩ := ((ht.eventually (gt_mem_nhds hu)).and (eventually_gt_atTop e)).exists
      obtain ⟨x, hx, hxu⟩ := intermediate_value_Ioo hp2.le hf.continuousOn ⟨hp1, hue⟩
      obtain ⟨y, hy, hyu⟩ := intermediate_value_Ioo' hq2.le hf.continuousOn ⟨hq1, hue⟩
      exact ⟨x, y, hx.2, hy.1, hxu, hyu⟩
    rcases hv with ⟨h1, h2⟩ | ⟨h1, h2⟩
    · exact key S hcont hbot htop v h1 h2
    · have hb := hbot.neg
      have ht := htop.neg
      rw [neg_zero] at hb ht
      obtain ⟨p, q, hp, hq, e1, e2⟩ := key (fun x => -S x) hcont.neg hb ht (-v) (by linarith) (by simpa using h1)
      exact ⟨p, q, hp, hq, by linarith, by linarith⟩

/-- **C145** With bands of one kind only the Seebeck coefficient has the sign of the carriers, grows without bound in the gap and vanishes far in the bands: every non-zero value of that
sign is reached. -/
theorem C145_onekind (m : Multi ℝ) (w : Heap ℝ) (bs : List Placed) (h : Holds m w bs) (hne : bs ≠ []) (hk : ∀ b ∈ bs, Conducts b) (T : ℝ) (hT : 0 < T)
    (s : ℝ) (hs : ∀ b ∈ bs, b.sign = s) : ∃ a : ℝ → ℝ, (∀ EF, m.prop w .S (some (EF, T)) = .ok (some (s * a EF))) ∧ (∀ EF, 0 < a EF) ∧ Continuous a ∧
    (s = -1 ∧ Tendsto a atBot atTop ∧ Tendsto a atTop (𝓝 0) ∨ s = 1 ∧ Tendsto a atTop atTop ∧ Tendsto a atBot (𝓝 0)) ∧ ∀ v, 0 < v → ∃ EF, a EF = v := by
  have hS : (0 : ℝ) < S0 := by unfold S0; norm_num
  obtain ⟨c, hc⟩ := List.exists_mem_of_ne_nil bs hne
  have hs1 : s = 1 ∨ s = -1 := hs c hc ▸ (hk c hc).sign
  have hss : s * s = 1 := by rcases hs1 with e | e <;> rw [e] <;> norm_num
  set r := fun EF => (bs.map fun b => b.sign * b.exact.k 1 (b.level EF) T).sum / (bs.map fun b => b.exact.k 0 (b.level EF) T).sum with hr
  have hq : ∀ EF, s * r EF = (bs.map fun b => b.exact.k 1 (b.level EF) T).sum / (bs.map fun b => b.exact.k 0 (b.level EF) T).sum := by
    intro EF
    have : (bs.map fun b => b.sign * b.exact.k 1 (b.level EF) T).sum = s * (bs.map fun b => b.exact.k 1 (b.level EF) T).sum := by
      rw [← List.sum_map_mul_left]
      congr 1
      exact List.map_congr_left fun b hb => by rw [hs b hb]
    rw [hr]
    simp only [this]
    rw [← mul_div_assoc, ← mul_assoc, hss, one_mul]
  have hcont : Continuous fun EF => S0 * (s * r EF) := ((ratio_cont hk hT hne).const_mul s).const_mul S0
  have hpos : ∀ EF, 0 < S0 * (s * r EF) := by
    intro EF
    rw [hq]
    refine mul_pos hS (div_pos (List.sum_pos _ (fun x hx => ?_) (by simpa using hne)) (total_pos hk hT hne EF))
    obtain ⟨b, hb, rfl⟩ := List.mem_map.1 hx
    exact ((hk b hb).carries hT).pos1 _
  have grow : ∀ l : Filter ℝ, (∀ b ∈ bs, Tendsto b.level l atBot) → Tendsto (fun EF => S0 * (s * r EF)) l atTop := by
    intro l hl
    refine Tendsto.const_mul_atTop hS (tendsto_atTop.2 fun v => ?_)
    have hall : ∀ᶠ EF in l, ∀ b ∈ bs, v ≤ b.exact.k 1 (b.level EF) T / b.exact.k 0 (b.level EF) T := by
      clear * - hl hk hT
      induction bs with
      | nil => simp
      | cons b bs ih =>
        have h1 := ((((hk b (by simp)).carries hT).bot.comp (hl b (by simp))).eventually (eventually_ge_atTop v))
        filter_upwards [h1, ih (fun b hb => hk b (by simp [hb])) fun b hb => hl b (by simp [hb])] with EF e1 e2
        intro x hx
        rcases List.mem_cons.1 hx with rfl | hx
        · exact e1
        · exact e2 x hx
    filter_upwards [hall] with EF hEF
    rw [hq, le_div_iff₀ (total_pos hk hT hne EF), ← List.sum_map_mul_left]
    refine List.sum_le_sum fun b hb => ?_
    have := hEF b hb
    rwa [le_div_iff₀ (((hk b hb).carries hT).pos0 _)] at this
  have fall : ∀ l : Filter ℝ, (∀ b ∈ bs, Tendsto b.level l atTop) → Tendsto (fun EF => S0 * (s * r EF)) l (𝓝 0) := by
    intro l hl
    have := ((ratio_gone hk hT (l := l) (fun b hb => .inl (hl b hb)) ⟨c, hc, hl c hc⟩).const_mul s).const_mul S0
    rwa [mul_zero, mul_zero] at this
  have takes : ∀ l1 l2 : Filter ℝ, l1.NeBot → l2.NeBot → Tendsto (fun EF => S0 * (s * r EF)) l1 atTop → Tendsto (fun EF => S0 * (s * r EF)) l2 (𝓝 0) →
      ∀ v, 0 < v → ∃ EF, S0 * (s * r EF) = v := by
    intro l1 l2 _ _ h1 h2 v hv
    obtain ⟨p, hp⟩ := (h1.eventually (eventually_gt_atTop v)).exists
    obtain ⟨q, hq⟩ := (h2.eventually (gt_mem_nhds hv)).exists
    exact mem_range_of_exists_le_of_exists_ge hcont ⟨q, hq.le⟩ ⟨p, hp.le⟩
  refine ⟨fun EF => S0 * (s * r EF), fun EF => ?_, hpos, hcont, ?_⟩
  · rw [multi_S h EF T]
    show _ = Except.ok (some (s * (S0 * (s * r EF))))
    rw [show s * (S0 * (s * r EF)) = s * s * (S0 * r EF) by ring, hss, one_mul]
  · rcases hs1 with e | e
    · have g := grow atTop fun b hb => (level_hole ((hs b hb).trans e)).1
      have f := fall atBot fun b hb => (level_hole ((hs b hb).trans e)).2
      exact ⟨.inr ⟨e, g, f⟩, takes _ _ inferInstance inferInstance g f⟩
    · have g := grow atBot fun b hb => (level_electron ((hs b hb).trans e)).2
      have f := fall atTop fun b hb => (level_electron ((hs b hb).trans e)).1
      exact ⟨.inl ⟨e, g, f⟩, takes _ _ inferInstance inferInstance g f⟩

/-- a parabolic conduction band and two valence bands -/
example : ∃ (m : Multi ℝ) (w : Heap ℝ) (bs : List Placed), Holds m w bs ∧ bs.length = 3 ∧ (∀ b ∈ bs, Conducts b) ∧ (∃ b ∈ bs, b.sign = -1) ∧ ∃ b ∈ bs, b.sign = 1 := by
  refine ⟨⟨[0, 1, 2], [1 / 2, 0, -1 / 5], none⟩, fun i => if i = 0 then (⟨(Spb.fns {}), -1, 1 / 2⟩ : Placed).exact else
    if i = 1 then (⟨(Skb.fns {}), 1, 0⟩ : Placed).exact else (⟨(Lin.fns {}), 1, -1 / 5⟩ : Placed).exact,
    [⟨(Spb.fns {}), -1, 1 / 2⟩, ⟨(Skb.fns {}), 1, 0⟩, ⟨(Lin.fns {}), 1, -1 / 5⟩], ⟨rfl, ?_⟩, rfl, ?_, ⟨_, List.mem_cons_self, rfl⟩, ⟨_, List.mem_cons_of_mem _ List.mem_cons_self, rfl⟩⟩
  · exact .cons ⟨rfl, rfl⟩ (.cons ⟨rfl, rfl⟩ (.cons ⟨rfl, rfl⟩ .nil))
  · simp only [List.mem_cons, List.not_mem_nil, or_false, forall_eq_or_imp, forall_eq]
    exact ⟨.spb _ _ _ (by norm_num) (.inr rfl), .skb _ _ _ (by norm_num) (by norm_num) (.inl rfl), .lin _ _ _ (by norm_num) (.inl rfl)⟩

end

end TEflow.Bandlib
