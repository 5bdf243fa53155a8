import Verif.Props.BandMixed

/-! # C146: the conductivity of a model of several bands -/

open Real MeasureTheory Set Filter Topology

namespace TEflow.Bandlib

noncomputable section

/-! ## Specification -/

/-- a parabolic band that conducts, for holes or electrons, at any offset -/
inductive Parabolic : Placed → Prop
  | spb (a : Spb) (s d : ℝ) : 0 < a.sigma0 → s = 1 ∨ s = -1 → Parabolic ⟨a.fns, s, d⟩

theorem Parabolic.conducts {b : Placed} (h : Parabolic b) : Conducts b := by
  cases h with
  | spb a s d ha hs => exact .spb a s d ha hs

/-! ## One band -/

theorem occ_bot : Tendsto occ atBot (𝓝 0) := by
  refine tendsto_of_tendsto_of_tendsto_of_le_of_le tendsto_const_nhds tendsto_exp_atBot (fun y => (occ_range y).1.le) fun y => ?_
  unfold occ
  have := exp_pos y
  rw [div_le_iff₀ (by positivity)]
  nlinarith

theorem Conducts.rising {b : Placed} (h : Conducts b) {T : ℝ} (hT : 0 < T) :
    StrictMono (fun y => b.exact.k 0 y T) ∧ Tendsto (fun y => b.exact.k 0 y T) atBot (𝓝 0) := by
  have hkT : 0 < kB * T := mul_pos kB_pos hT
  cases h with
  | spb a s d ha hs =>
    simp only [fun y => (spb_K a s d y hT).1]
    refine ⟨fun x y hxy => mul_lt_mul_of_pos_left (fd0_mono (div_lt_div_of_pos_right hxy hkT)) ha, ?_⟩
    have := (fd0_bot.comp (div_atBot hkT)).const_mul a.sigma0
    rwa [mul_zero] at this
  | skb a s d ha hg hs =>
    have hsat := saturates_skb a ha hg T hT
    have e0 : ∀ y, (Placed.exact ⟨a.fns, s, d⟩).k 0 y T = ∫ x, above (fun E => a.trs E T) (x + y) * window 0 T x := fun y => by
      rw [skb_K a ha hg s d y T hT 0]
      simp only [pow_zero, one_mul]
    simp only [e0]
    exact ⟨hsat.k0_mono hT, hsat.k0_bot hT⟩
  | lin a s d ha hs =>
    simp only [fun y => (lin_K a s d y hT).1]
    refine ⟨fun x y hxy => mul_lt_mul_of_pos_left (occ_mono (div_lt_div_of_pos_right hxy hkT)) ha, ?_⟩
    have := (occ_bot.comp (div_atBot hkT)).const_mul a.sigma0
    rwa [mul_zero] at this

theorem fd0_convex : StrictConvexOn ℝ univ fd0 := by
  refine StrictMonoOn.strictConvexOn_of_deriv convex_univ fd0_cont.continuousOn fun x _ y _ hxy => ?_
  rw [(fd0_deriv x).deriv, (fd0_deriv y).deriv]
  exact occ_mono hxy

theorem fd0_top : Tendsto fd0 atTop atTop := tendsto_atTop_mono (fun y => (fd0_gt y).le) tendsto_id

theorem Parabolic.rises {b : Placed} (h : Parabolic b) {T : ℝ} (hT : 0 < T) : Rises fun y => b.exact.k 0 y T := by
  have hkT : 0 < kB * T := mul_pos kB_pos hT
  obtain ⟨h1, h2⟩ := h.conducts.rising hT
  cases h with
  | spb a s d ha hs =>
    refine ⟨?_, h1, h2, ?_⟩
    · simp only [fun y => (spb_K a s d y hT).1]
      refine ⟨convex_univ, fun x _ y _ hxy p q hp hq hpq => ?_⟩
      have := fd0_convex.2 (mem_univ (x / (kB * T))) (mem_univ (y / (kB * T))) (fun e => hxy (by rwa [div_left_inj' hkT.ne'] at e)) hp hq hpq
      simp only [smul_eq_mul] at this ⊢
      rw [show p * (x / (kB * T)) + q * (y / (kB * T)) = (p * x + q * y) / (kB * T) by ring] at this
      have := mul_lt_mul_of_pos_left this ha
      linarith
    · simp only [fun y => (spb_K a s d y hT).1]
      exact (fd0_top.comp (tendsto_id.atTop_div_const hkT)).const_mul_atTop ha

/-! ## Several bands -/

theorem multi_C {m : Multi ℝ} {w : Heap ℝ} {bs : List Placed} (h : Holds m w bs) (EF T : ℝ) :
    m.prop w .C (some (EF, T)) = .ok (some (bs.map fun b => b.exact.k 0 (b.level EF) T).sum) := by
  have hsrc : m.src w (some (EF, T)) = ⟨1, m.totN w EF T, fun i => m.totK w i EF T, (m.totH w EF T).map some, .ok T⟩ := by
    unfold Multi.src
    rw [h.1]
  unfold Multi.prop
  rw [hsrc]
  simp only [Src.prop, holds_K h, pow_zero, one_mul]
  rfl

theorem level_rise {b : Placed} (h : b.sign = -1) {x y : ℝ} (hxy : x < y) : b.level x < b.level y := by
  unfold Placed.level
  rw [h]
  linarith

theorem level_fall {b : Placed} (h : b.sign = 1) {x y : ℝ} (hxy : x < y) : b.level y < b.level x := by
  unfold Placed.level
  rw [h]
  linarith

theorem sum_strict {bs : List Placed} (hne : bs ≠ []) (f g : Placed → ℝ) (h : ∀ b ∈ bs, f b < g b) : (bs.map f).sum < (bs.map g).sum := by
  induction bs with
  | nil => exact absurd rfl hne
  | cons b bs ih =>
    rw [List.map_cons, List.map_cons, List.sum_cons, List.sum_cons]
    have h1 := h b (by simp)
    rcases eq_or_ne bs [] with rfl | hn
    · simpa using h1
    · exact add_lt_add h1 (ih hn fun x hx => h x (by simp [hx]))

/-! ## Theorems -/

/-- **C146** With bands of one kind the conductivity is positive, rises strictly with the Fermi level for electrons and falls strictly for holes, and takes every value between 0 and
one it takes at exactly one level; with a parabolic band among them it takes every positive value. -/
theorem C146_onekind (m : Multi ℝ) (w : Heap ℝ) (bs : List Placed) (h : Holds m w bs) (hne : bs ≠ []) (hk : ∀ b ∈ bs, Conducts b) (T : ℝ) (hT : 0 < T)
    (s : ℝ) (hs : ∀ b ∈ bs, b.sign = s) : ∃ C : ℝ → ℝ, (∀ EF, m.prop w .C (some (EF, T)) = .ok (some (C EF))) ∧ (∀ EF, 0 < C EF) ∧
    (s = -1 ∧ StrictMono C ∨ s = 1 ∧ StrictAnti C) ∧ (∀ v e, 0 < v → v ≤ C e → ∃! EF, C EF = v) ∧
    ((∃ b ∈ bs, Parabolic b) → ∀ v, 0 < v → ∃! EF, C EF = v) := by
  obtain ⟨c, hc⟩ := List.exists_mem_of_ne_nil bs hne
  obtain ⟨C, hC⟩ : ∃ C : ℝ → ℝ, C = fun EF => (bs.map fun b => b.exact.k 0 (b.level EF) T).sum := ⟨_, rfl⟩
  have hcont : Continuous C := by
    rw [hC]
    exact continuous_list_sum bs fun b hb => (((hk b hb).carries hT).cont0).comp (level_cont b)
  have gone : ∀ l : Filter ℝ, (∀ b ∈ bs, Tendsto b.level l atBot) → Tendsto C l (𝓝 0) := by
    intro l hl
    have := tendsto_list_sum bs fun b hb => (((hk b hb).rising hT).2).comp (hl b hb)
    simp only [List.map_const', List.sum_replicate, smul_zero] at this
    rw [hC]
    exact this
  obtain ⟨hmono, l, hlb, l', hl'b, hgone, htop⟩ : (s = -1 ∧ StrictMono C ∨ s = 1 ∧ StrictAnti C) ∧ ∃ l : Filter ℝ, l.NeBot ∧ ∃ l' : Filter ℝ, l'.NeBot ∧ Tendsto C l (𝓝 0) ∧
      ∀ b ∈ bs, Tendsto b.level l' atTop := by
    rcases hs c hc ▸ (hk c hc).sign with e | e
    · refine ⟨.inr ⟨e, fun x y hxy => ?_⟩, atTop, inferInstance, atBot, inferInstance, gone _ fun b hb => (level_hole ((hs b hb).trans e)).1, fun b hb => (level_hole ((hs b hb).trans e)).2⟩
      rw [hC]
      exact sum_strict hne _ _ fun b hb => ((hk b hb).rising hT).1 (level_fall ((hs b hb).trans e) hxy)
    · refine ⟨.inl ⟨e, fun x y hxy => ?_⟩, atBot, inferInstance, atTop, inferInstance, gone _ fun b hb => (level_electron ((hs b hb).trans e)).2,
        fun b hb => (level_electron ((hs b hb).trans e)).1⟩
      rw [hC]
      exact sum_strict hne _ _ fun b hb => ((hk b hb).rising hT).1 (level_rise ((hs b hb).trans e) hxy)
  have hinj : Function.Injective C := by
    rcases hmono with ⟨_, h'⟩ | ⟨_, h'⟩
    · exact h'.injective
    · exact h'.injective
  have takes : ∀ v e, 0 < v → v ≤ C e → ∃! EF, C EF = v := by
    intro v e hv hve
    obtain ⟨p, hp⟩ := (hgone.eventually (gt_mem_nhds hv)).exists
    obtain ⟨x, hx⟩ := mem_range_of_exists_le_of_exists_ge hcont ⟨p, hp.le⟩ ⟨e, hve⟩
    exact ⟨x, hx, fun y hy => hinj (hy.trans hx.symm)⟩
  refine ⟨C, fun EF => by rw [multi_C h, hC], fun EF => ?_, hmono, takes, fun ⟨b, hb, hp⟩ v hv => ?_⟩
  · rw [hC]
    exact total_pos hk hT hne EF
  · obtain ⟨e, he⟩ := (((hp.rises hT).top.comp (htop b hb)).eventually (eventually_ge_atTop v)).exists
    refine takes v e hv (he.trans ?_)
    rw [hC]
    exact total_ge hk hT hb e

/-- **C146 (finding).** With bands of both kinds the model is never insulating: the conductivity stays above a positive value, and `solve_EF('C', value, T)` has no solution below. -/
theorem C146_twokinds (m : Multi ℝ) (w : Heap ℝ) (bs : List Placed) (h : Holds m w bs) (hk : ∀ b ∈ bs, Conducts b) (T : ℝ) (hT : 0 < T)
    (hc : ∃ b ∈ bs, b.sign = -1) (hv : ∃ b ∈ bs, b.sign = 1) : ∃ C : ℝ → ℝ, (∀ EF, m.prop w .C (some (EF, T)) = .ok (some (C EF))) ∧ Continuous C ∧
    ∃ low, 0 < low ∧ ∀ v, v < low → ¬∃ EF, C EF = v := by
  obtain ⟨c, hc, hcs⟩ := hc
  obtain ⟨d, hd, hds⟩ := hv
  have hc' := (hk c hc).carries hT
  have hd' := (hk d hd).carries hT
  refine ⟨_, fun EF => multi_C h EF T, continuous_list_sum bs fun b hb => (((hk b hb).carries hT).cont0).comp (level_cont b),
    min (c.exact.k 0 (c.level 0) T) (d.exact.k 0 (d.level 0) T), lt_min (hc'.pos0 _) (hd'.pos0 _), ?_⟩
  rintro v hv ⟨EF, rfl⟩
  obtain ⟨h1, h2⟩ := lt_min_iff.1 hv
  rcases le_total 0 EF with hE | hE
  · have : c.level 0 ≤ c.level EF := by
      unfold Placed.level
      rw [hcs]
      linarith
    exact absurd ((hc'.mono this).trans (total_ge hk hT hc EF)) (not_le.2 h1)
  · have : d.level 0 ≤ d.level EF := by
      unfold Placed.level
      rw [hds]
      linarith
    exact absurd ((hd'.mono this).trans (total_ge hk hT hd EF)) (not_le.2 h2)

/-- **C146** When all bands are parabolic there is one level of least conductivity; below it the conductivity falls strictly, above it rises strictly, and every larger value belongs to
exactly two levels. -/
theorem C146_parabolic (m : Multi ℝ) (w : Heap ℝ) (bs : List Placed) (h : Holds m w bs) (hk : ∀ b ∈ bs, Parabolic b) (T : ℝ) (hT : 0 < T)
    (hc : ∃ b ∈ bs, b.sign = -1) (hv : ∃ b ∈ bs, b.sign = 1) : ∃ (C : ℝ → ℝ) (e : ℝ), (∀ EF, m.prop w .C (some (EF, T)) = .ok (some (C EF))) ∧ 0 < C e ∧
    StrictAntiOn C (Iic e) ∧ StrictMonoOn C (Ici e) ∧ ∀ v, C e < v → ∃ p q, p < e ∧ e < q ∧ ∀ EF, C EF = v ↔ EF = p ∨ EF = q := by
  obtain ⟨c, hc, hcs⟩ := hc
  obtain ⟨d, hd, hds⟩ := hv
  have hk' : ∀ b ∈ bs, Conducts b := fun b hb => (hk b hb).conducts
  have hne := List.ne_nil_of_mem hc
  obtain ⟨C, hC⟩ : ∃ C : ℝ → ℝ, C = fun EF => (bs.map fun b => b.exact.k 0 (b.level EF) T).sum := ⟨_, rfl⟩
  have hconv : StrictConvexOn ℝ univ C := by
    refine ⟨convex_univ, fun x _ y _ hxy p q hp hq hpq => ?_⟩
    rw [hC]
    simp only [smul_eq_mul]
    rw [← List.sum_map_mul_left, ← List.sum_map_mul_left, ← List.sum_map_add]
    refine sum_strict hne _ _ fun b hb => ?_
    have hl : b.level x ≠ b.level y := by
      unfold Placed.level
      rcases (hk' b hb).sign with e | e <;> rw [e] <;> intro h' <;> exact hxy (by linarith)
    have := ((hk b hb).rises hT).convex.2 (mem_univ (b.level x)) (mem_univ (b.level y)) hl hp hq hpq
    simp only [smul_eq_mul] at this
    have e : p * b.level x + q * b.level y = b.level (p * x + q * y) := by
      unfold Placed.level
      have : b.delta = (p + q) * b.delta := by rw [hpq, one_mul]
      linear_combination (-b.sign) * this
    rwa [e] at this
  have grow : ∀ (l : Filter ℝ) (b : Placed), b ∈ bs → Tendsto b.level l atTop → Tendsto C l atTop := by
    intro l b hb hl
    rw [hC]
    exact tendsto_atTop_mono (fun EF => total_ge hk' hT hb EF) (((hk b hb).rises hT).top.comp hl)
  obtain ⟨e, h1, h2, h3⟩ := valley hconv (grow atBot d hd (level_hole hds).2) (grow atTop c hc (level_electron hcs).1)
  refine ⟨C, e, fun EF => by rw [multi_C h, hC], ?_, h1, h2, h3⟩
  rw [hC]
  exact total_pos hk' hT hne e

/-- an electron and a hole band -/
example : ∃ (m : Multi ℝ) (w : Heap ℝ) (bs : List Placed), Holds m w bs ∧ bs.length = 2 ∧ (∀ b ∈ bs, Parabolic b) ∧ (∃ b ∈ bs, b.sign = -1) ∧ ∃ b ∈ bs, b.sign = 1 := by
  refine ⟨⟨[0, 1], [1 / 2, 0], none⟩, fun i => if i = 0 then (⟨(Spb.fns {}), -1, 1 / 2⟩ : Placed).exact else (⟨(Spb.fns {}), 1, 0⟩ : Placed).exact,
    [⟨(Spb.fns {}), -1, 1 / 2⟩, ⟨(Spb.fns {}), 1, 0⟩], ⟨rfl, ?_⟩, rfl, ?_, ⟨_, List.mem_cons_self, rfl⟩, ⟨_, List.mem_cons_of_mem _ List.mem_cons_self, rfl⟩⟩
  · exact .cons ⟨rfl, rfl⟩ (.cons ⟨rfl, rfl⟩ .nil)
  · simp only [List.mem_cons, List.not_mem_nil, or_false, forall_eq_or_imp, forall_eq]
    exact ⟨.spb _ _ _ (by norm_num) (.inr rfl), .spb _ _ _ (by norm_num) (.inl rfl)⟩

end

end TEflow.Bandlib
