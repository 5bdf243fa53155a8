import Verif.Props.EngoutSim
import Verif.Props.EngoutPair

/-! # C151: Carnot's limit of the simulated generator with properties that depend on the temperature

`C52_constant` settles constant properties.  Here: for general integrals the exact condition, a class of tables on
which the limit always holds (a Seebeck coefficient whose size does not fall with the temperature), and a table on
which the reported efficiency lies above it. -/

set_option linter.unusedSimpArgs false
set_option linter.unusedVariables false

namespace TEflow.Engout
open TEflow.Ztdev (TEPoint)
open TEflow.Mathext (npInterp npScan)

/-- Carnot's efficiency in percent -/
noncomputable def carnotPct (Tc Th : ℝ) : ℝ := 100 * (1 - Tc / Th)

/-- the condition on the integrals under which the efficiency stays below Carnot's limit -/
theorem carnot_at (i : Itgs) (L A : ℝ) (hL : 0 < L) (hA : 0 < A) (h0 : 0 < i.Tc) (hlt : i.Tc < i.Th) (hd : i.deltaT = i.Th - i.Tc)
    (hS : i.S ≠ 0) (hR : 0 < i.Rho) (hK : 0 < i.K) (w : Bool) (x : ℝ) (hq : 0 < (simulate1 (prfs L A w i) x).Qhot) :
    (simulate1 (prfs L A w i) x).Yita ≤ carnotPct i.Tc i.Th ↔
      0 ≤ 1 / (prfs L A w i).Zeng + (2 * (i.ST / i.S) - i.Tc - i.Th) * x + (i.Th - (i.RhoT / i.Rho - i.Tc)) * x ^ 2 := by
  have hP : 0 < 1 / 1000000 * i.S * i.S / i.Rho := by
    apply div_pos _ hR
    have := mul_self_pos.mpr hS
    nlinarith
  have hdT : 0 < i.deltaT := by rw [hd]; linarith
  have hQ : 0 < (prfs L A w i).Qx := by simp only [prfs]; positivity
  have e1 : (prfs L A w i).mdfs.ST = 2 * (i.ST / i.S) - i.Tc := rfl
  have e2 : (prfs L A w i).mdfs.RhoT = i.RhoT / i.Rho - i.Tc := rfl
  have e3 : (prfs L A w i).deltaT = i.deltaT := rfl
  have hTh : 0 < i.Th := h0.trans hlt
  simp only [simulate1, e1, e2, e3] at hq ⊢
  have hqx := (mul_pos_iff_of_pos_left hQ).mp ((div_pos_iff_of_pos_right hdT).mp hq)
  have e : 100 * ((prfs L A w i).Qx * (x * (1 - x))) / ((prfs L A w i).Qx *
      (1 / (prfs L A w i).Zeng + (2 * (i.ST / i.S) - i.Tc) * x - (i.RhoT / i.Rho - i.Tc) * x * x) / i.deltaT) =
      100 * i.deltaT * (x * (1 - x) / (1 / (prfs L A w i).Zeng + (2 * (i.ST / i.S) - i.Tc) * x - (i.RhoT / i.Rho - i.Tc) * x * x)) := by
    generalize 1 / (prfs L A w i).Zeng + (2 * (i.ST / i.S) - i.Tc) * x - (i.RhoT / i.Rho - i.Tc) * x * x = qq at *
    field_simp
  have ec : carnotPct i.Tc i.Th = 100 * i.deltaT * (1 / i.Th) := by
    unfold carnotPct; rw [hd]; field_simp
  rw [e, ec, mul_le_mul_iff_right₀ (by positivity), div_le_div_iff₀ hqx hTh]
  constructor <;> intro h <;> nlinarith

/-- **C151** The exact condition. With positive resistivity and conductance integrals, a Seebeck integral different
from zero, mean temperatures within the range (weighted by the resistivity, and at least `Tc` weighted by the Seebeck
coefficient) and `Th ≤ 2 Tc`: the efficiency at every reduced current with positive heat input respects Carnot's limit
exactly if the Seebeck-weighted mean temperature `Ts = <T*S>/<S>` is at least `(Tc+Th)/2`, or if the engineering figure
of merit is small enough, `Zeng (Tc+Th-2Ts)² ≤ 4 (Th+Tc-Tr)` with `Tr` the resistivity-weighted mean temperature. -/
theorem C151_exact (i : Itgs) (L A : ℝ) (hL : 0 < L) (hA : 0 < A) (h0 : 0 < i.Tc) (hlt : i.Tc < i.Th) (h2 : i.Th ≤ 2 * i.Tc)
    (hd : i.deltaT = i.Th - i.Tc) (hS : i.S ≠ 0) (hR : 0 < i.Rho) (hK : 0 < i.K)
    (hr : i.Tc ≤ i.RhoT / i.Rho ∧ i.RhoT / i.Rho ≤ i.Th) (hs : i.Tc ≤ i.ST / i.S) (w : Bool) :
    (∀ x, 0 < (simulate1 (prfs L A w i) x).Qhot → (simulate1 (prfs L A w i) x).Yita ≤ carnotPct i.Tc i.Th) ↔
      ((i.Tc + i.Th) / 2 ≤ i.ST / i.S ∨
        (prfs L A w i).Zeng * (i.Tc + i.Th - 2 * (i.ST / i.S)) ^ 2 ≤ 4 * (i.Th + i.Tc - i.RhoT / i.Rho)) := by
  have hP : 0 < 1 / 1000000 * i.S * i.S / i.Rho := by
    apply div_pos _ hR
    have := mul_self_pos.mpr hS
    nlinarith
  have hZ : 0 < (prfs L A w i).Zeng := by simp only [prfs]; exact div_pos hP hK
  have hdT : 0 < i.deltaT := by rw [hd]; linarith
  have hQ : 0 < (prfs L A w i).Qx := by simp only [prfs]; positivity
  have key := carnot_at i L A hL hA h0 hlt hd hS hR hK w
  have hheat : ∀ x, 0 < (simulate1 (prfs L A w i) x).Qhot ↔
      0 < 1 / (prfs L A w i).Zeng + (2 * (i.ST / i.S) - i.Tc) * x - (i.RhoT / i.Rho - i.Tc) * x * x := by
    intro x
    show 0 < (prfs L A w i).Qx * (1 / (prfs L A w i).Zeng + (2 * (i.ST / i.S) - i.Tc) * x - (i.RhoT / i.Rho - i.Tc) * x * x) / i.deltaT ↔ _
    rw [div_pos_iff_of_pos_right hdT, mul_pos_iff_of_pos_left hQ]
  generalize (prfs L A w i).Zeng = Z at *
  generalize i.ST / i.S = s at *
  generalize i.RhoT / i.Rho = r at *
  have hk : 0 < 1 / Z := by positivity
  have hc : 0 < i.Th - (r - i.Tc) := by linarith
  constructor
  · intro h
    by_cases ha : (i.Tc + i.Th) / 2 ≤ s
    · exact Or.inl ha
    right
    push Not at ha
    by_contra hcon
    push Not at hcon
    set x := (i.Tc + i.Th - 2 * s) / (2 * (i.Th - (r - i.Tc))) with hx
    have hx0 : 0 < x := by rw [hx]; apply div_pos <;> linarith
    have hx1 : x ≤ 1 / 2 := by
      rw [hx, div_le_iff₀ (by linarith)]; linarith
    have hq : 0 < 1 / Z + (2 * s - i.Tc) * x - (r - i.Tc) * x * x := by
      have u1 : i.Tc * x ≤ (2 * s - i.Tc) * x := mul_le_mul_of_nonneg_right (by linarith) hx0.le
      have u2 : (r - i.Tc) * x * x ≤ i.Tc * x := by
        apply mul_le_mul_of_nonneg_right _ hx0.le
        have : (r - i.Tc) * x ≤ (r - i.Tc) * 1 := mul_le_mul_of_nonneg_left (by linarith) (by linarith)
        linarith
      linarith
    have := (key x ((hheat x).mpr hq)).mp (h x ((hheat x).mpr hq))
    have e : 1 / Z + (2 * s - i.Tc - i.Th) * x + (i.Th - (r - i.Tc)) * x ^ 2 =
        (4 * (i.Th + i.Tc - r) - Z * (i.Tc + i.Th - 2 * s) ^ 2) / (4 * Z * (i.Th - (r - i.Tc))) := by
      rw [hx]
      have := hc.ne'
      field_simp
      ring
    rw [e] at this
    have : (4 * (i.Th + i.Tc - r) - Z * (i.Tc + i.Th - 2 * s) ^ 2) / (4 * Z * (i.Th - (r - i.Tc))) < 0 :=
      div_neg_of_neg_of_pos (by linarith) (by positivity)
    linarith
  · intro h x hq
    rw [key x hq]
    rcases h with h | h
    · by_cases hx : 0 ≤ x
      · have := mul_nonneg (by linarith : 0 ≤ 2 * s - i.Tc - i.Th) hx
        have := mul_nonneg hc.le (sq_nonneg x)
        linarith
      · push Not at hx
        have hq' := (hheat x).mp hq
        have : 0 < -x * (1 - x) * i.Th := by
          have : 0 < 1 - x := by linarith
          have : 0 < -x := by linarith
          have : 0 < i.Th := by linarith
          positivity
        nlinarith
    · have e : 1 / Z + (2 * s - i.Tc - i.Th) * x + (i.Th - (r - i.Tc)) * x ^ 2 =
          (i.Th - (r - i.Tc)) * (x - (i.Tc + i.Th - 2 * s) / (2 * (i.Th - (r - i.Tc)))) ^ 2 +
          (4 * (i.Th + i.Tc - r) - Z * (i.Tc + i.Th - 2 * s) ^ 2) / (4 * Z * (i.Th - (r - i.Tc))) := by
        have := hc.ne'
        field_simp
        ring
      rw [e]
      have : 0 ≤ (4 * (i.Th + i.Tc - r) - Z * (i.Tc + i.Th - 2 * s) ^ 2) / (4 * Z * (i.Th - (r - i.Tc))) :=
        div_nonneg (by linarith) (by positivity)
      positivity

/-- a threshold that separates the values below `m` from those above it -/
theorem split_value (d : List TEPoint) (f : TEPoint → ℝ) (hmono : ∀ a ∈ d, ∀ b ∈ d, a.T ≤ b.T → f a ≤ f b) (m : ℝ) (p : TEPoint) (hp : p ∈ d)
    (hpm : p.T ≤ m) : ∃ s, ∀ r ∈ d, (r.T ≤ m → f r ≤ s) ∧ (m < r.T → s ≤ f r) := by
  classical
  obtain ⟨a, ha, hmax⟩ := Finset.exists_max_image (d.toFinset.filter fun r => r.T ≤ m) f ⟨p, by simp [hp, hpm]⟩
  simp only [Finset.mem_filter, List.mem_toFinset] at ha hmax
  exact ⟨f a, fun r hr => ⟨fun h => hmax r ⟨hr, h⟩, fun h => hmono a ha.1 r hr (by linarith [ha.2])⟩⟩

/-- Chebyshev's inequality for the trapezoidal integrals of the table: a column that does not fall with the temperature
has a weighted mean temperature in the upper half -/
theorem chebyshev_table (d : List TEPoint) (hd : Rising d) (f : TEPoint → ℝ) (hmono : ∀ a ∈ d, ∀ b ∈ d, a.T ≤ b.T → f a ≤ f b)
    (p q : TEPoint) (hp : p ∈ d) (hq : q ∈ d) (hlt : p.T < q.T) :
    (p.T + q.T) / 2 * tabItg (col f d) p.T q.T ≤ tabItg (col (fun t => t.T * f t) d) p.T q.T := by
  set m := (p.T + q.T) / 2 with hm
  obtain ⟨s, hs⟩ := split_value d f hmono m p hp (by rw [hm]; linarith)
  have mem : ∀ (g : TEPoint → ℝ) (r : TEPoint), r ∈ d → Inside (col g d) r.T := fun g r hr =>
    inside_of_mem (col g d) (col_inc hd g) (r.T, g r) (List.mem_map.mpr ⟨r, hr, rfl⟩)
  have hnn : ∀ r ∈ d, 0 ≤ (r.T - m) * (f r - s) := by
    intro r hr
    by_cases h : r.T ≤ m
    · exact mul_nonneg_of_nonpos_of_nonpos (by linarith) (by linarith [(hs r hr).1 h])
    · push Not at h
      exact mul_nonneg (by linarith) (by linarith [(hs r hr).2 h])
  obtain ⟨lo, hi, hlo, hb⟩ := list_bounds (fun r => (r.T - m) * (f r - s) + 1) d (fun r hr => by linarith [hnn r hr])
  have hbd := (tabItg_bounds 0 hi (col (fun t => (t.T - m) * (f t - s)) d) p.T q.T (col_inc hd _) (mem _ p hp) (mem _ q hq) hlt.le (by
    intro x y hxy _ _
    obtain ⟨k, a, b, ha, hb', rfl, rfl⟩ := col_consec hxy
    have := hnn a (List.mem_of_getElem? ha)
    have := hnn b (List.mem_of_getElem? hb')
    have := (hb a (List.mem_of_getElem? ha)).2
    have := (hb b (List.mem_of_getElem? hb')).2
    simp only at *
    constructor <;> linarith)).1
  have hT : tabItg (col (fun t => t.T - m) d) p.T q.T = 0 := by
    rw [tabItg_exact (fun t => t ^ 2 / 2 - m * t) _ (col_inc hd _) (by
      intro x y hxy
      obtain ⟨k, a, b, ha, hb', rfl, rfl⟩ := col_consec hxy
      simp only
      ring) p.T q.T (by simp only [col, List.map_map, List.mem_map]; exact ⟨p, hp, rfl⟩) (by simp only [col, List.map_map, List.mem_map]; exact ⟨q, hq, rfl⟩)]
    rw [hm]; ring
  have l1 := tabItg_linear (fun t : TEPoint => t.T) (fun t => (t.T - m) * f t) (fun t => t.T - m) (fun t => (t.T - m) * (f t - s)) (-s)
    (by intro t; ring) d p.T q.T
  have l2 := tabItg_linear (fun t : TEPoint => t.T) (fun t => t.T * f t) f (fun t => (t.T - m) * f t) (-m)
    (by intro t; ring) d p.T q.T
  simp only [col] at *
  rw [l1, hT, l2] at hbd
  linarith

/-- what the proof needs of the integrals: one sign of the Seebeck coefficient, its weighted mean temperature in the
upper half, that of the resistivity within the range -/
structure Upper (σ : ℝ) (i : Itgs) : Prop where
  Tc : 0 < i.Tc
  lt : i.Tc < i.Th
  dT : i.deltaT = i.Th - i.Tc
  R : 0 < i.Rho
  K : 0 < i.K
  S : 0 < σ * i.S
  ST : (i.Tc + i.Th) / 2 * (σ * i.S) ≤ σ * i.ST
  RT : i.Tc * i.Rho ≤ i.RhoT ∧ i.RhoT ≤ i.Th * i.Rho

theorem upper_carnot (σ : ℝ) (hσ : σ = 1 ∨ σ = -1) (i : Itgs) (h : Upper σ i) (L A : ℝ) (hL : 0 < L) (hA : 0 < A) (w : Bool) :
    (∀ x, 0 < (simulate1 (prfs L A w i) x).Qhot → (simulate1 (prfs L A w i) x).Yita ≤ carnotPct i.Tc i.Th) ∧
    (∀ x, 0 ≤ x → x ≤ 1 → 0 < (simulate1 (prfs L A w i) x).Qhot ∧ 0 ≤ (simulate1 (prfs L A w i) x).Yita) := by
  obtain ⟨h0, hlt, e7, pR, pK, pS, cS, wR⟩ := h
  have hS : i.S ≠ 0 := by rintro h; rw [h] at pS; simp at pS
  have cr : (i.Tc + i.Th) / 2 ≤ i.ST / i.S := by
    have : i.ST / i.S = (σ * i.ST) / (σ * i.S) := by
      rcases hσ with rfl | rfl <;> field_simp
    rw [this, le_div_iff₀ pS]
    linarith
  have hP : 0 < 1 / 1000000 * i.S * i.S / i.Rho := by
    apply div_pos _ pR
    have := mul_self_pos.mpr hS
    nlinarith
  have hdT : 0 < i.deltaT := by rw [e7]; linarith
  have hZ : 0 < (prfs L A w i).Zeng := by simp only [prfs]; exact div_pos hP pK
  have hQ : 0 < (prfs L A w i).Qx := by simp only [prfs]; positivity
  have hk : 0 < 1 / (prfs L A w i).Zeng := by positivity
  have hc : i.RhoT / i.Rho ≤ i.Th := by rw [div_le_iff₀ pR]; exact wR.2
  have hc' : i.Tc ≤ i.RhoT / i.Rho := by rw [le_div_iff₀ pR]; exact wR.1
  have heat : ∀ x, 0 ≤ x → x ≤ 1 → 0 < (simulate1 (prfs L A w i) x).Qhot := by
    intro x x0 x1
    show 0 < (prfs L A w i).Qx * (1 / (prfs L A w i).Zeng + (2 * (i.ST / i.S) - i.Tc) * x - (i.RhoT / i.Rho - i.Tc) * x * x) / i.deltaT
    rw [div_pos_iff_of_pos_right hdT, mul_pos_iff_of_pos_left hQ]
    have u1 : (i.RhoT / i.Rho - i.Tc) * x * x ≤ (i.RhoT / i.Rho - i.Tc) * x * 1 :=
      mul_le_mul_of_nonneg_left x1 (mul_nonneg (by linarith) x0)
    have u2 : (i.RhoT / i.Rho - i.Tc) * x ≤ (2 * (i.ST / i.S) - i.Tc) * x := mul_le_mul_of_nonneg_right (by linarith) x0
    linarith
  refine ⟨?_, fun x x0 x1 => ⟨heat x x0 x1, ?_⟩⟩
  swap
  · show 0 ≤ 100 * ((prfs L A w i).Qx * (x * (1 - x))) / (simulate1 (prfs L A w i) x).Qhot
    apply div_nonneg _ (heat x x0 x1).le
    have : 0 ≤ 1 - x := by linarith
    positivity
  intro x hqx
  have key := carnot_at i L A hL hA h0 hlt e7 hS pR pK w x hqx
  rw [key]
  have hheat : 0 < 1 / (prfs L A w i).Zeng + (2 * (i.ST / i.S) - i.Tc) * x - (i.RhoT / i.Rho - i.Tc) * x * x := by
    have h : 0 < (prfs L A w i).Qx * (1 / (prfs L A w i).Zeng + (2 * (i.ST / i.S) - i.Tc) * x - (i.RhoT / i.Rho - i.Tc) * x * x) / i.deltaT := hqx
    rw [div_pos_iff_of_pos_right hdT, mul_pos_iff_of_pos_left hQ] at h
    exact h
  by_cases hx : 0 ≤ x
  · have := mul_nonneg (by linarith : 0 ≤ 2 * (i.ST / i.S) - i.Tc - i.Th) hx
    have := mul_nonneg (by linarith : 0 ≤ i.Th - (i.RhoT / i.Rho - i.Tc)) (sq_nonneg x)
    linarith
  · push Not at hx
    have : 0 < -x * (1 - x) * i.Th := by
      have : 0 < 1 - x := by linarith
      have : 0 < -x := by linarith
      have : 0 < i.Th := by linarith
      positivity
    nlinarith

/-- the integrals of such a table -/
theorem rising_upper (d : List TEPoint) (hd : Rising d) (σ : ℝ)
    (hpos : ∀ r ∈ d, 0 < r.C ∧ 0 < σ * r.S ∧ 0 < r.K) (hmono : ∀ a ∈ d, ∀ b ∈ d, a.T ≤ b.T → σ * a.S ≤ σ * b.S)
    (p q : TEPoint) (hp : p ∈ d) (hq : q ∈ d) (h0 : 0 < p.T) (hlt : p.T < q.T) : Upper σ (tableItgs d p.T q.T) := by
  have cov : ∀ r ∈ d, Covers d r.T := by
    intro r hr
    have h := inside_of_mem (col (·.S) d) (col_inc hd _) (r.T, r.S) (List.mem_map.mpr ⟨r, hr, rfl⟩)
    obtain ⟨⟨f, hf, hf'⟩, ⟨l, hl, hl'⟩⟩ := h
    simp only [col, List.head?_map, List.getLast?_map, Option.mem_def, Option.map_eq_some_iff] at hf hl
    obtain ⟨f, hf, rfl⟩ := hf
    obtain ⟨l, hl, rfl⟩ := hl
    exact ⟨⟨f, hf, hf'⟩, ⟨l, hl, hl'⟩⟩
  have hRf : ∀ r ∈ d, (0 : ℝ) < 10000 / r.C := fun r hr => div_pos (by norm_num) (hpos r hr).1
  have pR := tabItg_pos d hd (fun r => 10000 / r.C) hRf p.T q.T (cov p hp) (cov q hq) hlt
  have pS := tabItg_pos d hd (fun r => σ * r.S) (fun r hr => (hpos r hr).2.1) p.T q.T (cov p hp) (cov q hq) hlt
  have pK := tabItg_pos d hd (·.K) (fun r hr => (hpos r hr).2.2) p.T q.T (cov p hp) (cov q hq) hlt
  have wR := weighted_nonneg d hd (fun r => 10000 / r.C) hRf p q hp hq hlt
  have cS := chebyshev_table d hd (fun r => σ * r.S) hmono p q hp hq hlt
  have z0 : tabItg (d.map fun p => (p.T, (0 : ℝ))) p.T q.T = 0 := by
    have := tabItg_linear (fun p : TEPoint => p.T) (fun _ => (0 : ℝ)) (fun _ => 0) (fun _ => 0) (-1)
      (by intro t; ring) d p.T q.T
    linarith
  have s1 := tabItg_linear (fun t : TEPoint => t.T) (fun _ => 0) (·.S) (fun t => σ * t.S) σ (by intro t; ring) d p.T q.T
  have s2 := tabItg_linear (fun t : TEPoint => t.T) (fun _ => 0) (fun t => t.T * t.S) (fun t => t.T * (σ * t.S)) σ (by intro t; ring) d p.T q.T
  rw [z0, zero_add] at s1 s2
  change tabItg (col (fun t => σ * t.S) d) p.T q.T = σ * tabItg (col (·.S) d) p.T q.T at s1
  change tabItg (col (fun t => t.T * (σ * t.S)) d) p.T q.T = σ * tabItg (col (fun t => t.T * t.S) d) p.T q.T at s2
  rw [s1] at pS
  rw [s1, s2] at cS
  exact ⟨h0, hlt, rfl, pR, pK, pS, cS, wR⟩

theorem rising_itgs (d : List TEPoint) (hd : Rising d) (σ : ℝ) (hσ : σ = 1 ∨ σ = -1)
    (hpos : ∀ r ∈ d, 0 < r.C ∧ 0 < σ * r.S ∧ 0 < r.K) (hmono : ∀ a ∈ d, ∀ b ∈ d, a.T ≤ b.T → σ * a.S ≤ σ * b.S)
    (p q : TEPoint) (hp : p ∈ d) (hq : q ∈ d) (h0 : 0 < p.T) (hlt : p.T < q.T) (L A : ℝ) (hL : 0 < L) (hA : 0 < A) (w : Bool) :
    (∀ x, 0 < (simulate1 (prfs L A w (tableItgs d p.T q.T)) x).Qhot →
      (simulate1 (prfs L A w (tableItgs d p.T q.T)) x).Yita ≤ carnotPct p.T q.T) ∧
    ∀ x, 0 ≤ x → x ≤ 1 → 0 < (simulate1 (prfs L A w (tableItgs d p.T q.T)) x).Qhot ∧
      0 ≤ (simulate1 (prfs L A w (tableItgs d p.T q.T)) x).Yita :=
  upper_carnot σ hσ _ (rising_upper d hd σ hpos hmono p q hp hq h0 hlt) L A hL hA w

/-- **C151** A table of rising temperatures whose Seebeck coefficient has one sign and does not fall in size with the
temperature: between any two of its (positive) temperatures, whatever the size of the leg, the efficiency simulated at
every reduced current with positive heat input respects Carnot's limit; the heat input is positive at all reduced
currents from 0 (open circuit) to 1 (short circuit). -/
theorem C151_rising (d : List TEPoint) (hd : Rising d) (σ : ℝ) (hσ : σ = 1 ∨ σ = -1)
    (hpos : ∀ r ∈ d, 0 < r.C ∧ 0 < σ * r.S ∧ 0 < r.K) (hmono : ∀ a ∈ d, ∀ b ∈ d, a.T ≤ b.T → σ * a.S ≤ σ * b.S)
    (p q : TEPoint) (hp : p ∈ d) (hq : q ∈ d) (h0 : 0 < p.T) (hlt : p.T < q.T) (L A : ℝ) (hL : 0 < L) (hA : 0 < A) (w : Bool) (x : ℝ) :
    ∃ ps g' o, Leg.build ⟨.table d, [p.T], [q.T], L, A, none⟩ w = (.ok ps, g') ∧
      g'.simulate (.values [x]) = .ok [o] ∧ (0 ≤ x → x ≤ 1 → 0 < o.Qhot ∧ 0 ≤ o.Yita) ∧ (0 < o.Qhot → o.Yita ≤ carnotPct p.T q.T) := by
  have hne : d ≠ [] := List.ne_nil_of_mem hp
  have hcomp : Leg.compute ⟨.table d, [p.T], [q.T], L, A, none⟩ w = .ok [prfs L A w (tableItgs d p.T q.T)] := by
    simp only [Leg.compute, bcast, List.length_singleton, if_true]
    show (([(p.T, q.T)].mapM fun t => coreItgs (.table d) t.1 t.2).map _) = _
    rw [mapM_ok _ (fun t : ℝ × ℝ => tableItgs d t.1 t.2) _ (fun t _ => coreItgs_tableItgs d hne t.1 t.2)]
    rfl
  exact ⟨_, _, _, build_ok hcomp, simulate_value _ x,
    (rising_itgs d hd σ hσ hpos hmono p q hp hq h0 hlt L A hL hA w).2 x,
    (rising_itgs d hd σ hσ hpos hmono p q hp hq h0 hlt L A hL hA w).1 x⟩

/-- **C151** The same for the efficiency column of `GenLeg.valuate`: every entry respects the limit of its temperatures. -/
theorem C151_valuate (p : TEPoint) (rest : List TEPoint) (hd : Rising (p :: rest)) (σ : ℝ) (hσ : σ = 1 ∨ σ = -1)
    (hpos : ∀ r ∈ p :: rest, 0 < r.C ∧ 0 < σ * r.S ∧ 0 < r.K)
    (hmono : ∀ a ∈ p :: rest, ∀ b ∈ p :: rest, a.T ≤ b.T → σ * a.S ≤ σ * b.S)
    (h0 : 0 < p.T) (hne : rest ≠ []) (L : ℝ) (hL : 0 < L) :
    ∃ v, Leg.valuate (p :: rest) L = .ok v ∧ ∀ (j : Nat) (t : TEPoint), rest[j]? = some t →
      ∃ y, v.Yita[j]? = some y ∧ 0 ≤ y ∧ y ≤ carnotPct p.T t.T := by
  refine ⟨_, leg_valuate_eq p rest hne L, ?_⟩
  intro j t ht
  have htm := List.mem_of_getElem? ht
  have hlt : p.T < t.T := (List.pairwise_cons.mp hd).1 t htm
  have main := rising_itgs (p :: rest) hd σ hσ hpos hmono p t (by simp) (by simp [htm]) h0 hlt L 100 hL (by norm_num) false
  set P := prfs L 100 false (tableItgs (p :: rest) p.T t.T) with hP
  have hm : 0 ≤ P.m_opt := Real.sqrt_nonneg _
  have x0 : 0 ≤ 1 / (1 + P.m_opt) := by positivity
  have x1 : 1 / (1 + P.m_opt) ≤ 1 := by rw [div_le_one (by positivity)]; linarith
  obtain ⟨hQ, hY⟩ := main.2 _ x0 x1
  exact ⟨(simulate1 P (1 / (1 + P.m_opt))).Yita, by simp [legResult, ht, hP], hY, main.1 _ hQ⟩

/-! ## Pairs -/

/-- a p-type and an n-type leg in series -/
theorem pair_upper (p n : Itgs) (hp : Upper 1 p) (hn : Upper (-1) n) (hT : n.Tc = p.Tc ∧ n.Th = p.Th) (rL rA : ℝ) (hL : 0 < rL) (hA : 0 < rA) :
    Upper 1 (pairItgs p n rL rA) ∧ (pairItgs p n rL rA).Tc = p.Tc ∧ (pairItgs p n rL rA).Th = p.Th := by
  have eT : (pairItgs p n rL rA).Tc = p.Tc := by simp only [pairItgs, hT.1]; ring
  have eH : (pairItgs p n rL rA).Th = p.Th := by simp only [pairItgs, hT.2]; ring
  obtain ⟨h0, hlt, pd, pR, pK, pS, cS, wR⟩ := hp
  obtain ⟨_, _, nd, nR, nK, nS, ncS, nwR⟩ := hn
  rw [hT.1, hT.2] at nd ncS nwR
  refine ⟨⟨by rw [eT]; exact h0, by rw [eT, eH]; exact hlt, ?_, ?_, ?_, ?_, ?_, ?_, ?_⟩, eT, eH⟩
  · rw [eT, eH]; simp only [pairItgs, pd, nd]; ring
  · simp only [pairItgs]; positivity
  · simp only [pairItgs]; positivity
  · simp only [pairItgs]; linarith
  · rw [eT, eH]; simp only [pairItgs]; linarith
  · rw [eT]; simp only [pairItgs]
    have u1 := mul_le_mul_of_nonneg_right wR.1 (by linarith : 0 ≤ 1 + rA)
    have u2 := mul_le_mul_of_nonneg_right nwR.1 (by positivity : 0 ≤ rL / rA * (1 + rA))
    have e1 : n.Rho * rL / rA * (1 + rA) = n.Rho * (rL / rA * (1 + rA)) := by ring
    have e2 : n.RhoT * rL / rA * (1 + rA) = n.RhoT * (rL / rA * (1 + rA)) := by ring
    rw [e1, e2]; linarith
  · rw [eH]; simp only [pairItgs]
    have u1 := mul_le_mul_of_nonneg_right wR.2 (by linarith : 0 ≤ 1 + rA)
    have u2 := mul_le_mul_of_nonneg_right nwR.2 (by positivity : 0 ≤ rL / rA * (1 + rA))
    have e1 : n.Rho * rL / rA * (1 + rA) = n.Rho * (rL / rA * (1 + rA)) := by ring
    have e2 : n.RhoT * rL / rA * (1 + rA) = n.RhoT * (rL / rA * (1 + rA)) := by ring
    rw [e1, e2]; linarith

/-- the n-type and p-type tables of the pair: the size of either Seebeck coefficient does not fall -/
structure GoodPair (dp dn : List TEPoint) : Prop where
  rp : Rising dp
  rn : Rising dn
  pos : ∀ r ∈ dp, 0 < r.C ∧ 0 < r.S ∧ 0 < r.K
  neg : ∀ r ∈ dn, 0 < r.C ∧ r.S < 0 ∧ 0 < r.K
  mp : ∀ a ∈ dp, ∀ b ∈ dp, a.T ≤ b.T → a.S ≤ b.S
  mn : ∀ a ∈ dn, ∀ b ∈ dn, a.T ≤ b.T → b.S ≤ a.S

theorem goodPair_upper (dp dn : List TEPoint) (h : GoodPair dp dn) (p q p' q' : TEPoint) (hp : p ∈ dp) (hq : q ∈ dp) (hp' : p' ∈ dn)
    (hq' : q' ∈ dn) (e1 : p'.T = p.T) (e2 : q'.T = q.T) (h0 : 0 < p.T) (hlt : p.T < q.T) (rL rA : ℝ) (hL : 0 < rL) (hA : 0 < rA) :
    Upper 1 (pairItgs (tableItgs dp p.T q.T) (tableItgs dn p.T q.T) rL rA) ∧
    (pairItgs (tableItgs dp p.T q.T) (tableItgs dn p.T q.T) rL rA).Tc = p.T ∧
    (pairItgs (tableItgs dp p.T q.T) (tableItgs dn p.T q.T) rL rA).Th = q.T := by
  have u1 := rising_upper dp h.rp 1 (fun r hr => by simpa using h.pos r hr) (fun a ha b hb hab => by simpa using h.mp a ha b hb hab) p q hp hq h0 hlt
  have u2 := rising_upper dn h.rn (-1) (fun r hr => by simpa using h.neg r hr) (fun a ha b hb hab => by simpa using h.mn a ha b hb hab) p' q' hp' hq'
    (by rw [e1]; exact h0) (by rw [e1, e2]; exact hlt)
  rw [e1, e2] at u2
  exact pair_upper _ _ u1 u2 ⟨rfl, rfl⟩ rL rA hL hA

/-- **C151** Pairs of legs. If the size of neither Seebeck coefficient falls with the temperature, then for every
positive length ratio and area ratio, every size and every reduced current with positive heat input, the efficiency
simulated for the pair respects Carnot's limit. -/
theorem C151_pair (dp dn : List TEPoint) (h : GoodPair dp dn) (p q p' q' : TEPoint) (hp : p ∈ dp) (hq : q ∈ dp) (hp' : p' ∈ dn)
    (hq' : q' ∈ dn) (e1 : p'.T = p.T) (e2 : q'.T = q.T) (h0 : 0 < p.T) (hlt : p.T < q.T) (rL rA : ℝ) (hrL : 0 < rL) (hrA : 0 < rA)
    (L A : ℝ) (hL : 0 < L) (hA : 0 < A) (w : Bool) (x : ℝ) :
    ∃ ps g' o, Pair.build ⟨.table dp, .table dn, [p.T], [q.T], L, A, none⟩ rL (.value rA) w = (.ok ps, g') ∧
      g'.simulate (.values [x]) = .ok [o] ∧ (0 ≤ x → x ≤ 1 → 0 < o.Qhot ∧ 0 ≤ o.Yita) ∧ (0 < o.Qhot → o.Yita ≤ carnotPct p.T q.T) := by
  obtain ⟨hu, hT, hH⟩ := goodPair_upper dp dn h p q p' q' hp hq hp' hq' e1 e2 h0 hlt rL rA hrL hrA
  have hcomp : Pair.compute ⟨.table dp, .table dn, [p.T], [q.T], L, A, none⟩ rL (.value rA) w =
      .ok ([prfs L A true (pairItgs (tableItgs dp p.T q.T) (tableItgs dn p.T q.T) rL rA)], [rA]) := by
    simp only [Pair.compute, bcast, List.length_singleton, if_true]
    show (([(p.T, q.T)].mapM fun t => Pair.itgs1 _ rL (.value rA) t.1 t.2).map _) = _
    rw [mapM_ok _ (fun t : ℝ × ℝ => (pairItgs (tableItgs dp t.1 t.2) (tableItgs dn t.1 t.2) rL rA, rA)) _ (by
      intro t ht
      simp only [Pair.itgs1, coreItgs_tableItgs dp (List.ne_nil_of_mem hp), coreItgs_tableItgs dn (List.ne_nil_of_mem hp'), bind,
        Except.bind, areaRatio, pure, Except.pure])]
    rfl
  have main := upper_carnot 1 (Or.inl rfl) _ hu L A hL hA true
  rw [hT, hH] at main
  have hb : Pair.build ⟨.table dp, .table dn, [p.T], [q.T], L, A, none⟩ rL (.value rA) w =
      (.ok ([prfs L A true (pairItgs (tableItgs dp p.T q.T) (tableItgs dn p.T q.T) rL rA)], [rA]),
        ⟨.table dp, .table dn, [p.T], [q.T], L, A, some [prfs L A true (pairItgs (tableItgs dp p.T q.T) (tableItgs dn p.T q.T) rL rA)]⟩) := by
    simp only [Pair.build, hcomp]
  exact ⟨_, _, _, hb, simulate_value _ x, main.2 x, main.1 x⟩

/-- **C151** and every efficiency listed by `GenPair.valuate` for two such tables with common temperatures -/
theorem C151_pair_valuate (p : TEPoint) (rest dn : List TEPoint) (h : GoodPair (p :: rest) dn)
    (hcom : ∀ t ∈ p :: rest, ∃ t' ∈ dn, t'.T = t.T) (h0 : 0 < p.T) (hne : rest ≠ []) (L : ℝ) (hL : 0 < L) :
    ∃ v, Pair.valuate (p :: rest) dn L = .ok v ∧ ∀ (j : Nat) (t : TEPoint), rest[j]? = some t →
      ∃ y, v.Yita[j]? = some y ∧ 0 ≤ y ∧ y ≤ carnotPct p.T t.T := by
  obtain ⟨p', hp', e1⟩ := hcom p (by simp)
  refine ⟨_, pair_valuate_eq p rest dn hne (List.ne_nil_of_mem hp') L, ?_⟩
  intro j t ht
  have htm := List.mem_of_getElem? ht
  obtain ⟨t', ht', e2⟩ := hcom t (by simp [htm])
  have hlt : p.T < t.T := (List.pairwise_cons.mp h.rp).1 t htm
  have u1 := rising_upper (p :: rest) h.rp 1 (fun r hr => by simpa using h.pos r hr) (fun a ha b hb hab => by simpa using h.mp a ha b hb hab) p t (by simp) (by simp [htm]) h0 hlt
  have u2 := rising_upper dn h.rn (-1) (fun r hr => by simpa using h.neg r hr) (fun a ha b hb hab => by simpa using h.mn a ha b hb hab) p' t' hp' ht'
    (by rw [e1]; exact h0) (by rw [e1, e2]; exact hlt)
  rw [e1, e2] at u2
  set ip := tableItgs (p :: rest) p.T t.T with hip
  set jn := tableItgs dn p.T t.T with hjn
  have hrz : 0 < ratioZ ip jn := by
    unfold ratioZ
    rw [one_mul]
    apply Real.sqrt_pos.mpr
    have := u1.R; have := u1.K; have := u2.R; have := u2.K
    positivity
  obtain ⟨hu, hT, hH⟩ := pair_upper ip jn u1 u2 ⟨rfl, rfl⟩ 1 (ratioZ ip jn) one_pos hrz
  have main := upper_carnot 1 (Or.inl rfl) _ hu L 100 hL (by norm_num) true
  rw [hT, hH] at main
  set P := prfs L 100 true (pairItgs ip jn 1 (ratioZ ip jn)) with hP
  have hm : 0 ≤ P.m_opt := Real.sqrt_nonneg _
  have x0 : 0 ≤ 1 / (1 + P.m_opt) := by positivity
  have x1 : 1 / (1 + P.m_opt) ≤ 1 := by rw [div_le_one (by positivity)]; linarith
  obtain ⟨hQ, hY⟩ := main.2 _ x0 x1
  exact ⟨(simulate1 P (1 / (1 + P.m_opt))).Yita, by simp [pairResult, ht, hP, hip, hjn], hY, main.1 _ hQ⟩

/-! ## A table above the limit -/

/-- a strongly falling Seebeck coefficient: 900 µV/K at 300 K, 100 µV/K at 600 K -/
noncomputable def falling : List TEPoint := [⟨300, 20000, 900, 3⟩, ⟨600, 20000, 100, 3⟩]

theorem tab_pair (a b y z : ℝ) (hab : a < b) : tabItg [(a, y), (b, z)] a b = (b - a) * (z + y) / 2 := by
  rw [tabItg_exact (fun t => (z + y) / 2 * t) [(a, y), (b, z)] (by simp [Inc, hab]) (by
    rintro p q ⟨k, h1, h2⟩
    match k with
    | 0 =>
      simp at h1 h2
      subst h1 h2
      simp only
      ring
    | 1 => simp at h2
    | k + 2 => simp at h1) a b (by simp) (by simp)]
  ring

/-- **C151** For the two-point table with `S` falling from 900 to 100 µV/K between 300 K and 600 K, `GenLeg.valuate`
reports an efficiency above 67 %, although Carnot's limit is 50 %. -/
theorem C151_breaks : ∃ v y, Leg.valuate falling 1 = .ok v ∧ v.Yita = [y] ∧ y = 2500 / 37 ∧ carnotPct 300 600 = 50 ∧ carnotPct 300 600 < y := by
  refine ⟨_, 2500 / 37, leg_valuate_eq _ _ (by simp) 1, ?_, rfl, by unfold carnotPct; norm_num, by unfold carnotPct; norm_num⟩
  have iR : (tableItgs falling 300 600).Rho = 150 := by
    show tabItg [((300 : ℝ), (10000 : ℝ) / 20000), (600, 10000 / 20000)] 300 600 = 150
    rw [tab_pair _ _ _ _ (by norm_num)]; norm_num
  have iS : (tableItgs falling 300 600).S = 150000 := by
    show tabItg [((300 : ℝ), (900 : ℝ)), (600, 100)] 300 600 = 150000
    rw [tab_pair _ _ _ _ (by norm_num)]; norm_num
  have iK : (tableItgs falling 300 600).K = 900 := by
    show tabItg [((300 : ℝ), (3 : ℝ)), (600, 3)] 300 600 = 900
    rw [tab_pair _ _ _ _ (by norm_num)]; norm_num
  have iRT : (tableItgs falling 300 600).RhoT = 67500 := by
    show tabItg [((300 : ℝ), (300 : ℝ) * (10000 / 20000)), (600, 600 * (10000 / 20000))] 300 600 = 67500
    rw [tab_pair _ _ _ _ (by norm_num)]; norm_num
  have iST : (tableItgs falling 300 600).ST = 49500000 := by
    show tabItg [((300 : ℝ), (300 : ℝ) * 900), (600, 600 * 100)] 300 600 = 49500000
    rw [tab_pair _ _ _ _ (by norm_num)]; norm_num
  have iT : (tableItgs falling 300 600).Tc = 300 ∧ (tableItgs falling 300 600).deltaT = 300 := ⟨rfl, by simp only [tableItgs]; norm_num⟩
  have hm : Real.sqrt 36 = 6 := by
    rw [show (36 : ℝ) = 6 ^ 2 by norm_num, Real.sqrt_sq (by norm_num)]
  show [(simulate1 (prfs 1 100 false (tableItgs falling 300 600)) (1 / (1 + (prfs 1 100 false (tableItgs falling 300 600)).m_opt))).Yita] = _
  have em : (prfs 1 100 false (tableItgs falling 300 600)).m_opt = 6 := by
    simp only [prfs, mdfs, iR, iS, iK, iRT, iST, iT.1]
    rw [← hm]; congr 1; norm_num
  rw [em]
  simp only [simulate1, prfs, mdfs, iR, iS, iK, iRT, iST, iT.1, iT.2]
  norm_num

/-! ## Non-vacuity -/

/-- an n-type table with a growing Seebeck coefficient, a falling conductivity and a varying thermal conductivity -/
noncomputable def growing : List TEPoint := [⟨300, 1500, -120, 2⟩, ⟨400, 1200, -150, 3 / 2⟩, ⟨700, 800, -200, 5 / 2⟩]

/-- the hypotheses of `C151_rising` and `C151_valuate` with `σ = -1` -/
example : Rising growing ∧ (∀ r ∈ growing, 0 < r.C ∧ 0 < (-1) * r.S ∧ 0 < r.K) ∧
    ∀ a ∈ growing, ∀ b ∈ growing, a.T ≤ b.T → (-1) * a.S ≤ (-1) * b.S := by
  refine ⟨?_, ?_, ?_⟩
  · unfold growing Rising; norm_num
  · simp only [growing, List.mem_cons, List.not_mem_nil, or_false]
    rintro r (rfl | rfl | rfl) <;> norm_num
  · simp only [growing, List.mem_cons, List.not_mem_nil, or_false]
    rintro a (rfl | rfl | rfl) b (rfl | rfl | rfl) <;> norm_num

/-- the hypotheses of `C151_pair` and `C151_pair_valuate` -/
example : GoodPair [⟨300, 1500, 120, 2⟩, ⟨400, 1200, 150, 3 / 2⟩, ⟨700, 800, 150, 5 / 2⟩] growing ∧
    ∀ t ∈ ([⟨300, 1500, 120, 2⟩, ⟨400, 1200, 150, 3 / 2⟩, ⟨700, 800, 150, 5 / 2⟩] : List TEPoint), ∃ t' ∈ growing, t'.T = t.T := by
  refine ⟨⟨?_, ?_, ?_, ?_, ?_, ?_⟩, ?_⟩
  · unfold Rising; norm_num
  · unfold growing Rising; norm_num
  · simp only [List.mem_cons, List.not_mem_nil, or_false]
    rintro r (rfl | rfl | rfl) <;> norm_num
  · simp only [growing, List.mem_cons, List.not_mem_nil, or_false]
    rintro r (rfl | rfl | rfl) <;> norm_num
  · simp only [List.mem_cons, List.not_mem_nil, or_false]
    rintro a (rfl | rfl | rfl) b (rfl | rfl | rfl) <;> norm_num
  · simp only [growing, List.mem_cons, List.not_mem_nil, or_false]
    rintro a (rfl | rfl | rfl) b (rfl | rfl | rfl) <;> norm_num
  · simp only [growing, List.mem_cons, List.not_mem_nil, or_false]
    rintro a (rfl | rfl | rfl) <;> simp

/-- the hypotheses of `C151_exact`, with the condition met and with the condition violated -/
example : ∃ i j : Itgs, (∀ k ∈ [i, j], 0 < k.Tc ∧ k.Tc < k.Th ∧ k.Th ≤ 2 * k.Tc ∧ k.deltaT = k.Th - k.Tc ∧ k.S ≠ 0 ∧ 0 < k.Rho ∧ 0 < k.K ∧
      (k.Tc ≤ k.RhoT / k.Rho ∧ k.RhoT / k.Rho ≤ k.Th) ∧ k.Tc ≤ k.ST / k.S) ∧
    (j.Tc + j.Th) / 2 ≤ j.ST / j.S ∧
    ¬ ((i.Tc + i.Th) / 2 ≤ i.ST / i.S ∨ (prfs 1 100 false i).Zeng * (i.Tc + i.Th - 2 * (i.ST / i.S)) ^ 2 ≤ 4 * (i.Th + i.Tc - i.RhoT / i.Rho)) := by
  refine ⟨⟨300, 600, 300, 900, 100, 150, 150000, 900, 67500, 49500000⟩, ⟨300, 600, 300, 100, 900, 150, 150000, 900, 67500, 72000000⟩, ?_, ?_, ?_⟩
  · simp only [List.mem_cons, List.not_mem_nil, or_false]
    rintro k (rfl | rfl) <;> norm_num
  · norm_num
  · simp only [prfs]; norm_num

end TEflow.Engout
