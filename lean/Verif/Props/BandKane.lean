import Mathlib.Tactic
import Mathlib.Topology.Algebra.Order.Field
import Verif.Props.BandModels

/-! # C131: the Kane band against the parabolic band -/

set_option linter.unusedSimpArgs false

open Real Filter Topology

namespace TEflow.Bandlib

/-! ## Comparing quadratures -/

theorem rombDfx_lt (f g : ℝ → ℝ → ℝ) (EF T : ℝ) (hT : 0 < T) (h : ∀ E, 0 < E → f E T < g E T) :
    rombDfx f 0 EF T < rombDfx g 0 EF T := by
  rw [rombDfx_sum, rombDfx_sum]
  refine Finset.sum_lt_sum (fun i hi => ?_) ⟨1, by simp, ?_⟩
  · have h1 := h _ (energyAt_pos EF T hT (i := i) (by have := Finset.mem_range.1 hi; omega))
    have h2 := cw_nonneg EF T i
    simp only [pow_zero, mul_one]
    exact mul_le_mul_of_nonneg_left h1.le h2
  · have h1 := h _ (energyAt_pos EF T hT (i := 1) (by norm_num))
    have h2 := cw_pos EF T (i := 1) one_pos (by norm_num)
    simp only [pow_zero, mul_one]
    exact mul_lt_mul_of_pos_left h1 h2

theorem xOf_lt {s t : ℝ} (h0 : 0 < s) (h : s < t) (h1 : t < 1) : xOf t < xOf s := by
  unfold xOf
  have : 1 / t < 1 / s := one_div_lt_one_div_of_lt h0 h
  have h2 : 1 < 1 / t := by rw [lt_div_iff₀ (h0.trans h)]; linarith
  have := log_lt_log (by linarith) (show 1 / t - 1 < 1 / s - 1 by linarith)
  linarith

/-- if `f/g` decreases with the energy then the mean reduced energy under `f` is smaller (Chebyshev) -/
theorem mean_lt (f g : ℝ → ℝ → ℝ) (EF T : ℝ) (hT : 0 < T)
    (h : ∀ E E', 0 < E → E < E' → f E' T * g E T < f E T * g E' T) :
    rombDfx f 1 EF T * rombDfx g 0 EF T < rombDfx g 1 EF T * rombDfx f 0 EF T := by
  have hk : 0 < kB * T := mul_pos kB_pos hT
  set c := cw EF T with hc
  set x := xpAt EF T 64 with hx
  set F := fun i => f (energyAt EF T i) T with hF
  set G := fun i => g (energyAt EF T i) T with hG
  have hE : ∀ i, energyAt EF T i = kB * T * x i + EF := fun i => rfl
  have key : ∀ i j, i ≤ 64 → j ≤ 64 → 0 ≤ (x i - x j) * (G i * F j - F i * G j) ∧
      (x i ≠ x j → 0 < (x i - x j) * (G i * F j - F i * G j)) := by
    intro i j hi hj
    rcases lt_trichotomy (x i) (x j) with hlt | heq | hgt
    · have h1 : energyAt EF T i < energyAt EF T j := by
        rw [hE, hE]
        linarith [mul_lt_mul_of_pos_left hlt hk]
      have h2 := h _ _ (energyAt_pos EF T hT hi) h1
      have : 0 < (x i - x j) * (G i * F j - F i * G j) := by
        apply mul_pos_of_neg_of_neg (by linarith)
        simp only [hF, hG]
        linarith
      exact ⟨this.le, fun _ => this⟩
    · rw [heq]
      simp
    · have h1 : energyAt EF T j < energyAt EF T i := by
        rw [hE, hE]
        linarith [mul_lt_mul_of_pos_left hgt hk]
      have h2 := h _ _ (energyAt_pos EF T hT hj) h1
      have : 0 < (x i - x j) * (G i * F j - F i * G j) := by
        apply mul_pos (by linarith)
        simp only [hF, hG]
        linarith
      exact ⟨this.le, fun _ => this⟩
  have hne : x 1 ≠ x 2 := by
    have h1 : x 1 = xOf (tpAt (widthOf EF T) 64 1) := by
      simp [hx, xpAt]
    have h2 : x 2 = xOf (tpAt (widthOf EF T) 64 2) := by
      simp [hx, xpAt]
    rw [h1, h2]
    refine (xOf_lt (tpAt_pos EF T one_pos) ?_ ((tpAt_lt EF T (by norm_num)).trans (widthOf_lt_one EF T))).ne'
    have := widthOf_pos EF T
    unfold tpAt
    push_cast
    linarith
  have hpos : 0 < ∑ i ∈ Finset.range 65, ∑ j ∈ Finset.range 65, c i * c j * ((x i - x j) * (G i * F j - F i * G j)) := by
    have hnn : ∀ i ∈ Finset.range 65, ∀ j ∈ Finset.range 65, 0 ≤ c i * c j * ((x i - x j) * (G i * F j - F i * G j)) := by
      intro i hi j hj
      have := Finset.mem_range.1 hi
      have := Finset.mem_range.1 hj
      exact mul_nonneg (mul_nonneg (cw_nonneg _ _ _) (cw_nonneg _ _ _)) (key i j (by omega) (by omega)).1
    refine Finset.sum_pos' (fun i hi => Finset.sum_nonneg (hnn i hi)) ⟨1, by simp, ?_⟩
    refine Finset.sum_pos' (hnn 1 (by simp)) ⟨2, by simp, ?_⟩
    exact mul_pos (mul_pos (cw_pos _ _ one_pos (by norm_num)) (cw_pos _ _ (by norm_num) (by norm_num)))
      ((key 1 2 (by norm_num) (by norm_num)).2 hne)
  have hsum : ∑ i ∈ Finset.range 65, ∑ j ∈ Finset.range 65, c i * c j * ((x i - x j) * (G i * F j - F i * G j)) =
      2 * (rombDfx g 1 EF T * rombDfx f 0 EF T - rombDfx f 1 EF T * rombDfx g 0 EF T) := by
    have e : ∀ i j, c i * c j * ((x i - x j) * (G i * F j - F i * G j)) =
        (c i * G i * x i) * (c j * F j) - (c i * F i * x i) * (c j * G j) +
        ((c i * F i) * (c j * G j * x j) - (c i * G i) * (c j * F j * x j)) := by
      intro i j; ring
    simp only [e, Finset.sum_add_distrib, Finset.sum_sub_distrib, ← Finset.mul_sum, ← Finset.sum_mul]
    simp only [rombDfx_sum, pow_zero, pow_one, mul_one]
    ring
  rw [hsum] at hpos
  linarith

/-! ## The band functions as functions of the gap -/

/-- the denominator of the Kane correction -/
noncomputable def kaneQ (e : ℝ) : ℝ := (1 + 2 * e) ^ 2 + 2
/-- the Kane correction of the transport distribution, `e` being the energy over the gap -/
noncomputable def kaneF (e : ℝ) : ℝ := 3 * (1 + e) / kaneQ e

theorem kaneQ_pos (e : ℝ) : 0 < kaneQ e := by unfold kaneQ; positivity

theorem kaneF_lt {a b : ℝ} (hb : 0 ≤ b) (h : b < a) : kaneF a < kaneF b := by
  unfold kaneF
  rw [div_lt_div_iff₀ (kaneQ_pos a) (kaneQ_pos b)]
  unfold kaneQ
  obtain ⟨d, rfl⟩ : ∃ d, a = b + d := ⟨a - b, by ring⟩
  have hd : 0 < d := by linarith
  have : 3 * (1 + b) * ((1 + 2 * (b + d)) ^ 2 + 2) - 3 * (1 + (b + d)) * ((1 + 2 * b) ^ 2 + 2) =
    3 * d * (4 * b ^ 2 + 8 * b + 4 * b * d + 4 * d + 1) := by ring
  have : 0 < 3 * d * (4 * b ^ 2 + 8 * b + 4 * b * d + 4 * d + 1) := by positivity
  linarith

/-- the smaller gap weights low energies more -/
theorem kaneF_ratio {E E' g g' : ℝ} (hE : 0 < E) (hEE : E < E') (hg : 0 < g) (hgg : g < g') :
    kaneF (E' / g) * kaneF (E / g') < kaneF (E / g) * kaneF (E' / g') := by
  unfold kaneF
  rw [div_mul_div_comm, div_mul_div_comm, div_lt_div_iff₀ (mul_pos (kaneQ_pos _) (kaneQ_pos _))
    (mul_pos (kaneQ_pos _) (kaneQ_pos _))]
  have hg' : 0 < g' := hg.trans hgg
  obtain ⟨b, hb, eb⟩ : ∃ b, 0 < b ∧ E / g' = b := ⟨_, by positivity, rfl⟩
  obtain ⟨p, hp, ep⟩ : ∃ p, 0 < p ∧ g' / g = 1 + p := ⟨g' / g - 1, by rw [sub_pos, lt_div_iff₀ hg]; linarith, by ring⟩
  obtain ⟨q, hq, eq⟩ : ∃ q, 0 < q ∧ E' / E = 1 + q := ⟨E' / E - 1, by rw [sub_pos, lt_div_iff₀ hE]; linarith, by ring⟩
  have e1 : E / g = b * (1 + p) := by rw [← eb, ← ep]; field_simp
  have e2 : E' / g' = b * (1 + q) := by rw [← eb, ← eq]; field_simp
  have e3 : E' / g = b * (1 + p) * (1 + q) := by rw [← eb, ← ep, ← eq]; field_simp
  rw [e1, e2, e3, eb]
  unfold kaneQ
  rw [← sub_pos]
  ring_nf
  positivity

/-- the Hall correction -/
noncomputable def kaneH (e : ℝ) : ℝ := 9 * √(1 + e) / kaneQ e ^ 2

theorem kaneH_lt {a b : ℝ} (hb : 0 ≤ b) (h : b < a) : kaneH a < kaneH b := by
  have e : ∀ x, 0 ≤ x → kaneH x = 3 * kaneF x / (√(1 + x) * kaneQ x) := by
    intro x hx
    have h1 : 0 < √(1 + x) := sqrt_pos.2 (by linarith)
    have h2 := kaneQ_pos x
    have h3 : √(1 + x) * √(1 + x) = 1 + x := mul_self_sqrt (by linarith)
    unfold kaneH kaneF
    rw [div_eq_div_iff (by positivity) (by positivity)]
    field_simp
    rw [sq, h3]
    ring
  rw [e a (hb.trans h.le), e b hb]
  have hq := kaneQ_pos b
  have h1 : 0 < √(1 + b) := sqrt_pos.2 (by linarith)
  have h2 := kaneF_lt hb h
  have h3 : 0 < kaneF a := by unfold kaneF; have := kaneQ_pos a; have : 0 < a := by linarith
                              positivity
  apply div_lt_div₀ (by linarith) _ (by linarith) (by positivity)
  apply mul_le_mul (sqrt_le_sqrt (by linarith)) _ hq.le (sqrt_nonneg _)
  unfold kaneQ
  nlinarith

theorem skb_trs (m s g K E T : ℝ) : (⟨m, s, g, K⟩ : Skb).trs E T = s * E / (kB * T) * kaneF (E / g) := by
  unfold Skb.trs kaneF kaneQ
  ring_nf

theorem skb_hall (m s g K E T : ℝ) :
    (⟨m, s, g, K⟩ : Skb).hall E T = (⟨m, s, K⟩ : Spb).hall E T * kaneH (E / g) := by
  unfold Skb.hall Spb.hall kaneH kaneQ
  ring_nf

theorem skb_idos (m s g K E : ℝ) (hm : 0 < m) (hE : 0 < E) (hg : 0 < g) :
    (⟨m, s, g, K⟩ : Skb).idos E = (⟨m, s, K⟩ : Spb).idos E * (1 + E / g) ^ (3 / 2 : ℝ) := by
  have := me_pos
  have := qe_pos
  unfold Skb.idos Spb.idos
  simp only
  rw [mul_rpow (by positivity) (by positivity)]
  ring

theorem kaneF_zero : kaneF 0 = 1 := by unfold kaneF kaneQ; norm_num
theorem kaneH_zero : kaneH 0 = 1 := by unfold kaneH kaneQ; norm_num

theorem spb_pos (m s K : ℝ) (hm : 0 < m) (hs : 0 < s) (hK : 0 < K) (E T : ℝ) (hE : 0 < E) (hT : 0 < T) :
    0 < (⟨m, s, K⟩ : Spb).idos E ∧ 0 < (⟨m, s, K⟩ : Spb).hall E T ∧ 0 < (⟨m, s, K⟩ : Spb).trs E T := by
  obtain ⟨⟨-, h1, h2, h3, h4⟩, -⟩ := hallModels ⟨m, s, K⟩ hm hs hK ⟨1, 1, 1, 1⟩ one_pos one_pos one_pos one_pos
  have h5 := h3 E hE
  have h6 := h2 E T hE hT
  have hq := qe_pos
  refine ⟨h5, ?_, h6⟩
  rw [h4 E T hE hT]
  have : 0 < (⟨m, s, K⟩ : Spb).fns.idos E := h5
  positivity

/-! ## The comparison -/

/-- `p` is smaller for `f` than for `g`, for carriers of either sign -/
def Less (f g : BandFns) (EF T : ℝ) : Prop :=
  ∀ q : ℝ, q = 1 ∨ q = -1 →
    (f.leaf q).val .C EF T < (g.leaf q).val .C EF T ∧
    (g.leaf q).val .N EF T < (f.leaf q).val .N EF T ∧
    q * (f.leaf q).val .U EF T < q * (g.leaf q).val .U EF T ∧
    q * (f.leaf q).val .S EF T < q * (g.leaf q).val .S EF T ∧
    q * (f.leaf q).val .CCRH EF T < q * (g.leaf q).val .CCRH EF T

theorem less_of (f g : BandFns) (hf hg : ℝ → ℝ → ℝ) (ef : f.hall = some hf) (eg : g.hall = some hg) (EF T : ℝ) (hT : 0 < T)
    (h1 : ∀ E, 0 < E → 0 < f.trs E T ∧ f.trs E T < g.trs E T) (h2 : ∀ E, 0 < E → 0 < g.idos E ∧ g.idos E < f.idos E)
    (h3 : ∀ E, 0 < E → hf E T < hg E T)
    (h4 : ∀ E E', 0 < E → E < E' → f.trs E' T * g.trs E T < f.trs E T * g.trs E' T) : Less f g EF T := by
  have a1 := rombDfx_lt f.trs g.trs EF T hT fun E hE => (h1 E hE).2
  have a2 := rombDfx_lt (fun E _ => g.idos E) (fun E _ => f.idos E) EF T hT fun E hE => (h2 E hE).2
  have a3 := rombDfx_lt hf hg EF T hT h3
  have a4 := mean_lt f.trs g.trs EF T hT h4
  have z : ∀ u : ℝ → ℝ → ℝ, (∀ E, 0 < E → 0 < u E T) → 0 < rombDfx u 0 EF T := by
    intro u hu
    have := rombDfx_lt (fun _ _ => 0) u EF T hT hu
    rwa [rombDfx_sum, Finset.sum_eq_zero (by intros; simp)] at this
  have p1 := z f.trs fun E hE => (h1 E hE).1
  have p2 := z (fun E _ => g.idos E) fun E hE => (h2 E hE).1
  have hq := qe_pos
  have hS : (0 : ℝ) < S0 := by unfold S0; norm_num
  intro q hqs
  have hq2 : q * q = 1 := by rcases hqs with rfl | rfl <;> norm_num
  have hq0 : q ≠ 0 := by rcases hqs with rfl | rfl <;> norm_num
  have U : ∀ v : BandFns, q * (v.leaf q).val .U EF T =
      rombDfx v.trs 0 EF T / (qe * rombDfx (fun E _ => v.idos E) 0 EF T * 10 ^ 19) := by
    intro v
    show q * (rombDfx v.trs 0 EF T / (q * qe * rombDfx (fun E _ => v.idos E) 0 EF T * 10 ^ 19)) = _
    rw [← mul_div_assoc, mul_assoc q, mul_assoc q, mul_div_mul_left _ _ hq0]
  have S : ∀ v : BandFns, q * (v.leaf q).val .S EF T = S0 * (rombDfx v.trs 1 EF T / rombDfx v.trs 0 EF T) := by
    intro v
    show q * (q * S0 * rombDfx v.trs 1 EF T / rombDfx v.trs 0 EF T) = _
    rw [← mul_div_assoc, ← mul_assoc q, ← mul_assoc q, hq2, one_mul, mul_div_assoc]
  have H : ∀ (v : BandFns) (hv : ℝ → ℝ → ℝ), v.hall = some hv → q * (v.leaf q).val .CCRH EF T = rombDfx hv 0 EF T := by
    intro v hv e
    have : (v.leaf q).val .CCRH EF T = q * rombDfx hv 0 EF T := by
      unfold Leaf.val Leaf.prop Leaf.src BandFns.leaf Src.prop Leaf.ccrh
      simp [e]
    rw [this, ← mul_assoc, hq2, one_mul]
  refine ⟨a1, a2, ?_, ?_, ?_⟩
  · rw [U, U]
    apply div_lt_div₀ a1 _ (p1.trans a1).le (by positivity)
    gcongr
  · rw [S, S]
    apply mul_lt_mul_of_pos_left _ hS
    rw [div_lt_div_iff₀ p1 (p1.trans a1)]
    exact a4
  · rw [H f hf ef, H g hg eg]
    exact a3

/-- **C131** A smaller gap lowers conductivity, mobility, thermopower and Hall term and raises the concentration, at every Fermi
level and temperature, for either sign of the carriers. -/
theorem C131_gap (m s K g g' EF T : ℝ) (hm : 0 < m) (hs : 0 < s) (hK : 0 < K) (hg : 0 < g) (hgg : g < g') (hT : 0 < T) :
    Less (Skb.fns ⟨m, s, g, K⟩) (Skb.fns ⟨m, s, g', K⟩) EF T := by
  have hg' : 0 < g' := hg.trans hgg
  have hk : 0 < kB * T := mul_pos kB_pos hT
  have hd : ∀ E, 0 < E → 0 ≤ E / g' ∧ E / g' < E / g := fun E hE => ⟨by positivity, by gcongr⟩
  refine less_of _ _ _ _ rfl rfl EF T hT (fun E hE => ⟨?_, ?_⟩) (fun E hE => ⟨?_, ?_⟩) (fun E hE => ?_) fun E E' hE hEE => ?_
  · exact (C70_models ⟨1, 1, 1⟩ one_pos ⟨m, s, g, K⟩ hs hg ⟨1, 1⟩ one_pos).2.1 E T hE hT
  · show (⟨m, s, g, K⟩ : Skb).trs E T < (⟨m, s, g', K⟩ : Skb).trs E T
    rw [skb_trs, skb_trs]
    exact mul_lt_mul_of_pos_left (kaneF_lt (hd E hE).1 (hd E hE).2) (by positivity)
  · show 0 < (⟨m, s, g', K⟩ : Skb).idos E
    rw [skb_idos m s g' K E hm hE hg']
    exact mul_pos (spb_pos m s K hm hs hK E T hE hT).1 (by positivity)
  · show (⟨m, s, g', K⟩ : Skb).idos E < (⟨m, s, g, K⟩ : Skb).idos E
    rw [skb_idos m s g K E hm hE hg, skb_idos m s g' K E hm hE hg']
    refine mul_lt_mul_of_pos_left (rpow_lt_rpow (by positivity) ?_ (by norm_num)) (spb_pos m s K hm hs hK E T hE hT).1
    linarith [(hd E hE).2]
  · rw [skb_hall, skb_hall]
    exact mul_lt_mul_of_pos_left (kaneH_lt (hd E hE).1 (hd E hE).2) (spb_pos m s K hm hs hK E T hE hT).2.1
  · show (⟨m, s, g, K⟩ : Skb).trs E' T * (⟨m, s, g', K⟩ : Skb).trs E T < (⟨m, s, g, K⟩ : Skb).trs E T * (⟨m, s, g', K⟩ : Skb).trs E' T
    rw [skb_trs, skb_trs, skb_trs, skb_trs]
    have hE' := hE.trans hEE
    have := mul_lt_mul_of_pos_left (kaneF_ratio hE hEE hg hgg) (show 0 < (s * E / (kB * T)) * (s * E' / (kB * T)) by positivity)
    linarith

/-- **C131** The parabolic band of the same mass is above (for the concentration: below) every Kane band. -/
theorem C131_parabolic (m s K g EF T : ℝ) (hm : 0 < m) (hs : 0 < s) (hK : 0 < K) (hg : 0 < g) (hT : 0 < T) :
    Less (Skb.fns ⟨m, s, g, K⟩) (Spb.fns ⟨m, s, K⟩) EF T := by
  have hk : 0 < kB * T := mul_pos kB_pos hT
  refine less_of _ _ _ _ rfl rfl EF T hT (fun E hE => ⟨?_, ?_⟩) (fun E hE => ⟨(spb_pos m s K hm hs hK E T hE hT).1, ?_⟩)
    (fun E hE => ?_) fun E E' hE hEE => ?_
  · exact (C70_models ⟨1, 1, 1⟩ one_pos ⟨m, s, g, K⟩ hs hg ⟨1, 1⟩ one_pos).2.1 E T hE hT
  · show (⟨m, s, g, K⟩ : Skb).trs E T < s * E / (kB * T)
    rw [skb_trs]
    have := kaneF_lt le_rfl (show 0 < E / g by positivity)
    rw [kaneF_zero] at this
    exact mul_lt_of_lt_one_right (by positivity) this
  · show (⟨m, s, K⟩ : Spb).idos E < (⟨m, s, g, K⟩ : Skb).idos E
    rw [skb_idos m s g K E hm hE hg]
    refine lt_mul_of_one_lt_right (spb_pos m s K hm hs hK E T hE hT).1 (one_lt_rpow ?_ (by norm_num))
    have : 0 < E / g := by positivity
    linarith
  · rw [skb_hall]
    have := kaneH_lt le_rfl (show 0 < E / g by positivity)
    rw [kaneH_zero] at this
    exact mul_lt_of_lt_one_right (spb_pos m s K hm hs hK E T hE hT).2.1 this
  · show (⟨m, s, g, K⟩ : Skb).trs E' T * (s * E / (kB * T)) < (⟨m, s, g, K⟩ : Skb).trs E T * (s * E' / (kB * T))
    rw [skb_trs, skb_trs]
    have hE' := hE.trans hEE
    have := mul_lt_mul_of_pos_left (kaneF_lt (a := E' / g) (b := E / g) (by positivity) (by gcongr))
      (show 0 < (s * E / (kB * T)) * (s * E' / (kB * T)) by positivity)
    linarith

/-! ## The limit of a wide gap -/

theorem rombDfx_tendsto (F : ℝ → ℝ → ℝ → ℝ) (f : ℝ → ℝ → ℝ) (k : Nat) (EF T : ℝ) (hT : 0 < T)
    (h : ∀ E, 0 < E → Tendsto (fun g => F g E T) atTop (𝓝 (f E T))) :
    Tendsto (fun g => rombDfx (F g) k EF T) atTop (𝓝 (rombDfx f k EF T)) := by
  simp only [rombDfx_sum]
  refine tendsto_finsetSum _ fun i hi => ?_
  exact ((h _ (energyAt_pos EF T hT (by have := Finset.mem_range.1 hi; omega))).const_mul _).mul_const _

/-- **C131** In the limit of a wide gap every property of the Kane band is that of the parabolic band. -/
theorem C131_limit (m s K q EF T : ℝ) (hm : 0 < m) (hs : 0 < s) (hK : 0 < K) (hT : 0 < T) (hq : q = 1 ∨ q = -1) (p : TProp) :
    Tendsto (fun g => ((Skb.fns ⟨m, s, g, K⟩).leaf q).val p EF T) atTop (𝓝 (((Spb.fns ⟨m, s, K⟩).leaf q).val p EF T)) := by
  have hk : 0 < kB * T := mul_pos kB_pos hT
  have hE0 : ∀ E : ℝ, Tendsto (fun g : ℝ => E / g) atTop (𝓝 0) := fun E => tendsto_const_nhds.div_atTop tendsto_id
  have hQ : Continuous kaneQ := by unfold kaneQ; fun_prop
  have hF : Continuous kaneF := by
    unfold kaneF
    exact Continuous.div (by fun_prop) hQ fun e => (kaneQ_pos e).ne'
  have hH : Continuous kaneH := by
    unfold kaneH
    exact Continuous.div (by fun_prop) (hQ.pow 2) fun e => (pow_pos (kaneQ_pos e) 2).ne'
  have tk : ∀ n, Tendsto (fun g => rombDfx (Skb.trs ⟨m, s, g, K⟩) n EF T) atTop (𝓝 (rombDfx (Spb.trs ⟨m, s, K⟩) n EF T)) := by
    intro n
    refine rombDfx_tendsto (fun g => Skb.trs ⟨m, s, g, K⟩) _ n EF T hT fun E hE => ?_
    simp only [skb_trs]
    have := ((hF.tendsto 0).comp (hE0 E)).const_mul (s * E / (kB * T))
    rw [kaneF_zero, mul_one] at this
    exact this
  have th : Tendsto (fun g => rombDfx (Skb.hall ⟨m, s, g, K⟩) 0 EF T) atTop (𝓝 (rombDfx (Spb.hall ⟨m, s, K⟩) 0 EF T)) := by
    refine rombDfx_tendsto (fun g => Skb.hall ⟨m, s, g, K⟩) _ 0 EF T hT fun E hE => ?_
    simp only [skb_hall]
    have := ((hH.tendsto 0).comp (hE0 E)).const_mul ((⟨m, s, K⟩ : Spb).hall E T)
    rw [kaneH_zero, mul_one] at this
    exact this
  have tn : Tendsto (fun g => rombDfx (fun E _ => Skb.idos ⟨m, s, g, K⟩ E) 0 EF T) atTop
      (𝓝 (rombDfx (fun E _ => Spb.idos ⟨m, s, K⟩ E) 0 EF T)) := by
    refine rombDfx_tendsto (fun g => fun E _ => Skb.idos ⟨m, s, g, K⟩ E) (fun E _ => Spb.idos ⟨m, s, K⟩ E) 0 EF T hT fun E hE => ?_
    have h1 : Tendsto (fun g : ℝ => (1 + E / g) ^ (3 / 2 : ℝ)) atTop (𝓝 ((1 + 0) ^ (3 / 2 : ℝ))) :=
      ((hE0 E).const_add 1).rpow_const (.inr (by norm_num))
    have h2 := h1.const_mul ((⟨m, s, K⟩ : Spb).idos E)
    rw [add_zero, one_rpow, mul_one] at h2
    refine h2.congr' ?_
    filter_upwards [eventually_gt_atTop 0] with g hg
    exact (skb_idos m s g K E hm hE hg).symm
  obtain ⟨-, i2, i3, i4⟩ := hall_integrals _ _ _ (hallModels ⟨m, s, K⟩ hm hs hK ⟨1, 1, 1, 1⟩ one_pos one_pos one_pos one_pos).1
    EF T hT
  have j2 : rombDfx (Spb.hall ⟨m, s, K⟩) 0 EF T ≠ 0 := i2.ne'
  have j3 : rombDfx (fun E _ => Spb.idos ⟨m, s, K⟩ E) 0 EF T ≠ 0 := i3.ne'
  have j4 : rombDfx (Spb.trs ⟨m, s, K⟩) 0 EF T ≠ 0 := i4.ne'
  have hq0 : q ≠ 0 := by rcases hq with rfl | rfl <;> norm_num
  have he := (qe_pos).ne'
  cases p
  · exact tn
  · exact tk 0
  · exact tk 1
  · exact tk 2
  · exact th.const_mul q
  · exact tk 0
  · exact (tk 1).const_mul _
  · exact ((tk 1).const_mul _).div (tk 0) j4
  · exact (((tk 1).pow 2).div (tk 0) j4).const_mul _
  · exact ((tk 2).sub (((tk 1).pow 2).div (tk 0) j4)).const_mul _
  · exact (((tk 2).div (tk 0) j4).sub (((tk 1).div (tk 0) j4).pow 2)).const_mul _
  · exact (((tk 2).sub (((tk 1).pow 2).div (tk 0) j4)).const_mul _).mul_const _
  · exact (tk 0).div ((tn.const_mul _).mul_const _) (by positivity)
  · exact (th.const_mul q).div ((tk 0).pow 2) (pow_ne_zero _ j4)
  · exact (th.const_mul q).div (tk 0) j4
  · exact ((((tk 0).pow 2).const_mul _).div (th.const_mul q) (mul_ne_zero hq0 j2)).div_const _

/-- lead telluride against a parabolic band -/
example : Less (Skb.fns ⟨1 / 4, 5, 31 / 100, 3 / 2⟩) (Spb.fns ⟨1 / 4, 5, 3 / 2⟩) (1 / 10) 300 :=
  C131_parabolic _ _ _ _ _ _ (by norm_num) (by norm_num) (by norm_num) (by norm_num) (by norm_num)

end TEflow.Bandlib
