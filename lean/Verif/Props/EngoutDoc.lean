import Mathlib.Tactic
import Mathlib.MeasureTheory.Integral.IntervalIntegral.IntegrationByParts
import Mathlib.Analysis.SpecialFunctions.Integrals.Basic
import Verif.Props.EngoutPair

/-! # C138: the formulas of the documentation (docs/usage/engineering_output.rst) and what `GenLeg` reports -/

set_option linter.unusedSimpArgs false
set_option linter.unusedVariables false

namespace TEflow.Engout

/-! ## Specification: the documented quantities, from the integrals -/

/-- Carnot efficiency -/
noncomputable def carnot (Tc Th : ℝ) : ℝ := (Th - Tc) / Th

/-- mean of `T - Tc` weighted by the resistivity -/
noncomputable def meanDrop (i : Itgs) : ℝ := (i.RhoT - i.Tc * i.Rho) / i.Rho

/-- mean of `2T - Tc` weighted by the Seebeck coefficient, less `k` times `meanDrop`: `Th`, the mean temperature and `Tc` for constant properties -/
noncomputable def modTemp (i : Itgs) (k : ℕ) : ℝ := (2 * i.ST - i.Tc * i.S) / i.S - k * meanDrop i

/-- the dimensionless coefficients `alpha_k` with which the documented efficiency holds -/
noncomputable def alphaDoc (i : Itgs) (k : ℕ) : ℝ := modTemp i k / i.Th

/-- the documented efficiency (in per cent) for coefficients `a0 a1 a2` -/
noncomputable def yitaDoc (Tc Th ZTeng a0 a1 a2 : ℝ) : ℝ :=
  100 * (carnot Tc Th * ((Real.sqrt (1 + ZTeng * a1 / carnot Tc Th) - 1) / (a0 * Real.sqrt (1 + ZTeng * a1 / carnot Tc Th) + a2)))

/-- the resistance of the leg in Ohm: lengths in mm, resistivity in 1e-6 Ohm m -/
noncomputable def resistance (i : Itgs) (L A : ℝ) : ℝ := 1 / 1000 * (1 / i.deltaT * (L / A) * i.Rho)

/-- the integral of the Thomson coefficient `T dS/dT`, in 1e-6 V, by parts -/
noncomputable def thomson (i : Itgs) : ℝ := i.Th * i.Sh - i.Tc * i.Sc - i.S

/-- the documented weight of the Joule heat -/
noncomputable def jouleDoc (i : Itgs) : ℝ := meanDrop i / i.deltaT

/-- integrals of a material between two temperatures -/
structure Between (i : Itgs) : Prop where
  dT : i.deltaT = i.Th - i.Tc
  rise : i.Tc < i.Th
  rho : i.Rho ≠ 0
  s : i.S ≠ 0
  k : i.K ≠ 0

/-! ## Efficiency -/

theorem mdfs_temps (i : Itgs) (h : Between i) : (mdfs i).ST_RhoT_0 = modTemp i 0 ∧ (mdfs i).ST_RhoT_1 = modTemp i 1 ∧ (mdfs i).ST_RhoT_2 = modTemp i 2 ∧
    (mdfs i).ST = modTemp i 0 ∧ (mdfs i).RhoT = meanDrop i := by
  have h1 := h.rho
  have h2 := h.s
  simp only [mdfs, modTemp, meanDrop]
  refine ⟨?_, ?_, ?_, ?_, ?_⟩ <;> (push_cast; field_simp) <;> ring

/-- **C138** The best efficiency reported is the documented one, for any material, with the coefficients `alpha_k` = modified temperature over `Th`. -/
theorem C138_efficiency (i : Itgs) (h : Between i) (L A : ℝ) (hL : L ≠ 0) (hA : A ≠ 0) (w : Bool) (hTh : 0 < i.Th) (hZ : 0 < (prfs L A w i).Zeng)
    (h1 : 0 < modTemp i 1) (hd : 0 < modTemp i 0 * Real.sqrt (1 + (prfs L A w i).Zeng * modTemp i 1) + modTemp i 2) :
    (simulate1 (prfs L A w i) (1 / (1 + (prfs L A w i).m_opt))).Yita =
      yitaDoc i.Tc i.Th (prfs L A w i).ZTeng (alphaDoc i 0) (alphaDoc i 1) (alphaDoc i 2) := by
  obtain ⟨t0, t1, t2, t3, t4⟩ := mdfs_temps i h
  have hdT : 0 < i.Th - i.Tc := sub_pos.2 h.rise
  set q := prfs L A w i with hq
  have eM : q.m_opt = Real.sqrt (1 + q.Zeng * modTemp i 1) := by rw [← t1]; rfl
  have eZT : q.ZTeng = q.Zeng * (i.Th - i.Tc) := by rw [← h.dT]; rfl
  have eD : q.deltaT = i.Th - i.Tc := h.dT
  have eST : q.mdfs.ST = modTemp i 0 := t3
  have eRT : q.mdfs.RhoT = meanDrop i := t4
  have eQ : q.Qx ≠ 0 := by
    show 1 / 1000 * (1 / 1000000 * i.S * i.S / i.Rho) * i.deltaT / L * A ≠ 0
    have a1 := h.s
    have a2 := h.rho
    have a3 : i.deltaT ≠ 0 := by rw [h.dT]; exact hdT.ne'
    positivity
  have harg : q.ZTeng * alphaDoc i 1 / carnot i.Tc i.Th = q.Zeng * modTemp i 1 := by
    rw [eZT]; unfold alphaDoc carnot; field_simp
  unfold yitaDoc
  rw [harg]
  rw [eM]
  have hX : 0 < q.Zeng * modTemp i 1 := mul_pos hZ h1
  have hm2 : Real.sqrt (1 + q.Zeng * modTemp i 1) ^ 2 = 1 + q.Zeng * modTemp i 1 := Real.sq_sqrt (by linarith)
  have hm1 : 1 < Real.sqrt (1 + q.Zeng * modTemp i 1) := by
    rw [Real.lt_sqrt (by norm_num)]; linarith
  set m := Real.sqrt (1 + q.Zeng * modTemp i 1) with hmdef
  have e1 : modTemp i 1 = modTemp i 0 - meanDrop i := by unfold modTemp; push_cast; ring
  have e2 : modTemp i 2 = modTemp i 0 - 2 * meanDrop i := by unfold modTemp; push_cast; ring
  have hzm : 1 / q.Zeng = modTemp i 1 / (m ^ 2 - 1) := by
    rw [hm2]; field_simp; ring
  have hY : (simulate1 q (1 / (1 + m))).Yita = 100 * (i.Th - i.Tc) * ((1 / (1 + m)) * (1 - 1 / (1 + m)) /
      (1 / q.Zeng + modTemp i 0 * (1 / (1 + m)) - meanDrop i * (1 / (1 + m)) * (1 / (1 + m)))) := by
    simp only [simulate1, eST, eRT, eD]
    generalize 1 / q.Zeng + modTemp i 0 * (1 / (1 + m)) - meanDrop i * (1 / (1 + m)) * (1 / (1 + m)) = z
    have : (i.Th - i.Tc) ≠ 0 := hdT.ne'
    rcases eq_or_ne z 0 with hz | hz
    · simp [hz]
    · field_simp
  rw [hY, hzm]
  unfold alphaDoc carnot
  rw [e2] at hd
  rw [e1, e2]
  generalize modTemp i 0 = T0 at *
  generalize meanDrop i = D at *
  have hm3 : m ^ 2 - 1 ≠ 0 := by nlinarith
  have hm4 : m - 1 ≠ 0 := by linarith
  have hm5 : 1 + m ≠ 0 := by linarith
  have hden : (T0 - D) / (m ^ 2 - 1) + T0 * (1 / (1 + m)) - D * (1 / (1 + m)) * (1 / (1 + m)) = m * (T0 * m + (T0 - 2 * D)) / ((m - 1) * (1 + m) ^ 2) := by
    have : m ^ 2 - 1 = (m - 1) * (1 + m) := by ring
    rw [this]
    field_simp
    ring
  rw [hden]
  have hm0 : m ≠ 0 := by linarith
  have hd' := hd.ne'
  have h7 : T0 / i.Th * m + (T0 - 2 * D) / i.Th = (T0 * m + (T0 - 2 * D)) / i.Th := by ring
  rw [h7]
  generalize T0 * m + (T0 - 2 * D) = X at *
  have hTh' := hTh.ne'
  field_simp
  ring

/-- **C138** The coefficients reported are these multiplied by `Th / S(Th)` — a number of the unit of the temperature over the Seebeck coefficient. -/
theorem C138_alpha (i : Itgs) (h : Between i) (hTh : i.Th ≠ 0) :
    (wgts i).alpha_0 = i.Th / i.Sh * alphaDoc i 0 ∧ (wgts i).alpha_1 = i.Th / i.Sh * alphaDoc i 1 ∧ (wgts i).alpha_2 = i.Th / i.Sh * alphaDoc i 2 := by
  obtain ⟨t0, t1, t2, -, -⟩ := mdfs_temps i h
  simp only [wgts, t0, t1, t2, alphaDoc]
  refine ⟨?_, ?_, ?_⟩ <;> field_simp

theorem yitaDoc_anti {Tc Th Z a0 a1 a2 c d : ℝ} (hT : 0 < carnot Tc Th) (hZ : 0 < Z) (h0 : 0 < a0) (h1 : 0 < a1) (h2 : 0 ≤ a2) (hc : 0 < c) (hcd : c < d) :
    yitaDoc Tc Th Z (d * a0) (d * a1) (d * a2) < yitaDoc Tc Th Z (c * a0) (c * a1) (c * a2) := by
  have form : ∀ x, 0 < x → yitaDoc Tc Th Z (x * a0) (x * a1) (x * a2) = 100 * (carnot Tc Th * (Z * a1 / carnot Tc Th /
      ((Real.sqrt (1 + Z * a1 / carnot Tc Th * x) + 1) * (a0 * Real.sqrt (1 + Z * a1 / carnot Tc Th * x) + a2)))) := by
    intro x hx
    unfold yitaDoc
    have e : 1 + Z * (x * a1) / carnot Tc Th = 1 + Z * a1 / carnot Tc Th * x := by ring
    rw [e]
    have hX : 0 < Z * a1 / carnot Tc Th := by positivity
    have hs2 : Real.sqrt (1 + Z * a1 / carnot Tc Th * x) ^ 2 = 1 + Z * a1 / carnot Tc Th * x := Real.sq_sqrt (by positivity)
    have hs0 : 0 < Real.sqrt (1 + Z * a1 / carnot Tc Th * x) := Real.sqrt_pos.2 (by positivity)
    generalize Z * a1 / carnot Tc Th = X at *
    generalize Real.sqrt (1 + X * x) = s at *
    congr 2
    have hp : 0 < a0 * s + a2 := by positivity
    have e3 : x * a0 * s + x * a2 = x * (a0 * s + a2) := by ring
    rw [e3, div_eq_div_iff (by positivity) (by positivity)]
    have : (s - 1) * (s + 1) = X * x := by nlinarith
    calc (s - 1) * ((s + 1) * (a0 * s + a2)) = ((s - 1) * (s + 1)) * (a0 * s + a2) := by ring
      _ = X * (x * (a0 * s + a2)) := by rw [this]; ring
  rw [form c hc, form d (hc.trans hcd)]
  have hX : 0 < Z * a1 / carnot Tc Th := by positivity
  generalize Z * a1 / carnot Tc Th = X at *
  have hs : Real.sqrt (1 + X * c) < Real.sqrt (1 + X * d) := Real.sqrt_lt_sqrt (by positivity) (by nlinarith)
  have hs0 : 0 < Real.sqrt (1 + X * c) := Real.sqrt_pos.2 (by positivity)
  generalize Real.sqrt (1 + X * c) = s at *
  generalize Real.sqrt (1 + X * d) = t at *
  have h3 : 0 < a0 * s + a2 := by positivity
  have h4 : a0 * s + a2 < a0 * t + a2 := by nlinarith
  have h5 : (s + 1) * (a0 * s + a2) < (t + 1) * (a0 * t + a2) := by nlinarith
  have h6 : 0 < (s + 1) * (a0 * s + a2) := by positivity
  have h7 : X / ((t + 1) * (a0 * t + a2)) < X / ((s + 1) * (a0 * s + a2)) := div_lt_div_of_pos_left hX h6 h5
  have := mul_lt_mul_of_pos_left h7 hT
  linarith

/-- **C138** So the documented formula evaluated with the coefficients reported gives the efficiency reported only if `S(Th)` happens to be the number
`Th`; for `0 < S(Th) < Th` it gives less. -/
theorem C138_alpha_formula (i : Itgs) (h : Between i) (L A : ℝ) (hL : L ≠ 0) (hA : A ≠ 0) (w : Bool) (hTh : 0 < i.Th) (hZ : 0 < (prfs L A w i).Zeng)
    (hSh : 0 < i.Sh) (h0 : 0 < modTemp i 0) (h1 : 0 < modTemp i 1) (h2 : 0 ≤ modTemp i 2) :
    let reported := (simulate1 (prfs L A w i) (1 / (1 + (prfs L A w i).m_opt))).Yita
    let formula := yitaDoc i.Tc i.Th (prfs L A w i).ZTeng (wgts i).alpha_0 (wgts i).alpha_1 (wgts i).alpha_2
    (formula = reported ↔ i.Sh = i.Th) ∧ (i.Sh < i.Th → formula < reported) := by
  intro reported formula
  have hdT : 0 < i.Th - i.Tc := sub_pos.2 h.rise
  have hm0 : 0 ≤ Real.sqrt (1 + (prfs L A w i).Zeng * modTemp i 1) := Real.sqrt_nonneg _
  have hm1 : 0 < Real.sqrt (1 + (prfs L A w i).Zeng * modTemp i 1) := Real.sqrt_pos.2 (by positivity)
  have hrep : reported = yitaDoc i.Tc i.Th (prfs L A w i).ZTeng (1 * alphaDoc i 0) (1 * alphaDoc i 1) (1 * alphaDoc i 2) := by
    rw [one_mul, one_mul, one_mul]
    exact C138_efficiency i h L A hL hA w hTh hZ h1 (by positivity)
  obtain ⟨a0, a1, a2⟩ := C138_alpha i h hTh.ne'
  have hfor : formula = yitaDoc i.Tc i.Th (prfs L A w i).ZTeng (i.Th / i.Sh * alphaDoc i 0) (i.Th / i.Sh * alphaDoc i 1) (i.Th / i.Sh * alphaDoc i 2) := by
    show yitaDoc _ _ _ _ _ _ = _
    rw [a0, a1, a2]
  have hc : 0 < carnot i.Tc i.Th := by unfold carnot; positivity
  have hZT : 0 < (prfs L A w i).ZTeng := by
    show 0 < (prfs L A w i).Zeng * i.deltaT
    rw [h.dT]; positivity
  have b0 : 0 < alphaDoc i 0 := by unfold alphaDoc; positivity
  have b1 : 0 < alphaDoc i 1 := by unfold alphaDoc; positivity
  have b2 : 0 ≤ alphaDoc i 2 := by unfold alphaDoc; positivity
  have hlt : i.Sh < i.Th → formula < reported := by
    intro hs
    rw [hfor, hrep]
    exact yitaDoc_anti hc hZT b0 b1 b2 one_pos ((one_lt_div hSh).2 hs)
  refine ⟨⟨fun e => ?_, fun e => ?_⟩, hlt⟩
  · rcases lt_trichotomy i.Sh i.Th with hs | hs | hs
    · exact absurd e (hlt hs).ne
    · exact hs
    · have : reported < formula := by
        rw [hfor, hrep]
        exact yitaDoc_anti hc hZT b0 b1 b2 (div_pos hTh hSh) ((div_lt_one hSh).2 hs)
      exact absurd e this.ne'
  · rw [hfor, hrep, e, div_self hTh.ne']

/-! ## Heat flow -/

/-- **C138** The heat flow reported is the documented one, with the Thomson weight `W_T` reported and the Joule weight of the documentation. -/
theorem C138_heat (i : Itgs) (h : Between i) (L A : ℝ) (hL : L ≠ 0) (hA : A ≠ 0) (w : Bool) (x : ℝ) (ht : thomson i ≠ 0) :
    let out := simulate1 (prfs L A w i) x
    out.Qhot = 1 / 1000 * (A / L * i.K) + 1 / 1000000 * (out.I * i.Th * i.Sh) - jouleDoc i * out.I ^ 2 * resistance i L A -
      (wgts i).W_T * out.I * (1 / 1000000 * thomson i) := by
  intro out
  have h1 := h.rho
  have h2 := h.s
  have h3 := h.k
  have h4 : i.deltaT ≠ 0 := by rw [h.dT]; exact (sub_pos.2 h.rise).ne'
  have hW : (wgts i).W_T * thomson i = (i.Th * i.Sh * i.deltaT - (2 * i.ST - i.Tc * i.S)) / i.deltaT := by
    show (i.Th * i.Sh * i.deltaT - (2 * i.ST - i.Tc * i.S)) / (i.Th * i.Sh - i.Tc * i.Sc - i.S) / i.deltaT * thomson i = _
    unfold thomson at *
    field_simp
  have e : (wgts i).W_T * out.I * (1 / 1000000 * thomson i) = 1 / 1000000 * out.I * ((wgts i).W_T * thomson i) := by ring
  rw [e, hW]
  simp only [out, simulate1, prfs, mdfs, jouleDoc, meanDrop, resistance]
  field_simp
  ring

/-- **C138** The Joule weight reported exceeds the documented one by `Tc / (Th - Tc)` (at constant resistivity the documented one is 1/2). -/
theorem C138_joule (i : Itgs) (h : Between i) : (wgts i).W_J = jouleDoc i + i.Tc / (i.Th - i.Tc) := by
  have h1 := h.rho
  have h4 : i.Th - i.Tc ≠ 0 := (sub_pos.2 h.rise).ne'
  simp only [wgts, mdfs, jouleDoc, meanDrop, h.dT]
  field_simp
  ring

/-- **C138** The documented power: `Voc² / R` times `m / (1 + m)²` at the load `m R`, where the current is `Voc / (R (1 + m))`; at `m = 1` the power per area
is `PFeng ΔT / (4 L)`. -/
theorem C138_power (i : Itgs) (h : Between i) (L A : ℝ) (hL : L ≠ 0) (hA : A ≠ 0) (w : Bool) (m : ℝ) (hm : 1 + m ≠ 0) :
    let q := prfs L A w i
    let out := simulate1 q (1 / (1 + m))
    out.Pout = (1 / 1000 * q.Voc) ^ 2 / resistance i L A * (m / (1 + m) ^ 2) ∧ out.I = 1 / 1000 * q.Voc / (resistance i L A * (1 + m)) ∧
    out.Vout = q.Voc * (m / (1 + m)) ∧ (m = 1 → out.Pout / A = 1 / 1000 * (q.PFeng * q.deltaT / (4 * L))) := by
  intro q out
  have h1 := h.rho
  have h2 := h.s
  have h4 : i.deltaT ≠ 0 := by rw [h.dT]; exact (sub_pos.2 h.rise).ne'
  refine ⟨?_, ?_, ?_, ?_⟩
  · simp only [out, q, simulate1, prfs, resistance]
    field_simp
    ring
  · simp only [out, q, simulate1, prfs, resistance]
    field_simp
    try ring
  · simp only [out, q, simulate1, prfs]
    field_simp
    try ring
  · rintro rfl
    simp only [out, q, simulate1, prfs]
    field_simp
    try ring

/-! ## The weights as double integrals -/

/-- `i` holds the integrals of the resistivity `ρ` and of the Seebeck coefficient `S` -/
structure Exact (i : Itgs) (ρ S : ℝ → ℝ) : Prop where
  dT : i.deltaT = i.Th - i.Tc
  sc : i.Sc = S i.Tc
  sh : i.Sh = S i.Th
  rho : i.Rho = ∫ t in i.Tc..i.Th, ρ t
  rhoT : i.RhoT = ∫ t in i.Tc..i.Th, t * ρ t
  s : i.S = ∫ t in i.Tc..i.Th, S t
  sT : i.ST = ∫ t in i.Tc..i.Th, t * S t

theorem double_integral (f : ℝ → ℝ) (hf : Continuous f) (a b : ℝ) : ∫ t in a..b, (∫ u in t..b, f u) = (∫ t in a..b, t * f t) - a * ∫ t in a..b, f t := by
  have hu : ∀ t ∈ Set.uIcc a b, HasDerivAt (fun t => ∫ u in t..b, f u) (-f t) t := fun t _ =>
    intervalIntegral.integral_hasDerivAt_left (hf.intervalIntegrable _ _) (hf.stronglyMeasurableAtFilter _ _) hf.continuousAt
  have hv : ∀ t ∈ Set.uIcc a b, HasDerivAt (fun t => t - a) 1 t := fun t _ => (hasDerivAt_id t).sub_const a
  have key := intervalIntegral.integral_mul_deriv_eq_deriv_mul hu hv (hf.neg.intervalIntegrable _ _) (continuous_const.intervalIntegrable _ _)
  simp only [mul_one, intervalIntegral.integral_same, zero_mul, sub_self, mul_zero, sub_zero, zero_sub] at key
  rw [key, ← intervalIntegral.integral_neg]
  have e1 : ∀ t, -(-f t * (t - a)) = t * f t - a * f t := fun t => by ring
  simp only [e1]
  rw [intervalIntegral.integral_sub ((by fun_prop : Continuous fun t : ℝ => t * f t).intervalIntegrable _ _) ((by fun_prop : Continuous fun t : ℝ => a * f t).intervalIntegrable _ _),
    intervalIntegral.integral_const_mul]

/-- **C138** For integrals that are exact, the documented weights: the Thomson weight reported is the double integral of the Thomson coefficient over `ΔT` times
its integral, and `jouleDoc` is the same with the resistivity. -/
theorem C138_weights (i : Itgs) (ρ S S' : ℝ → ℝ) (hE : Exact i ρ S) (hρ : Continuous ρ) (hS : ∀ t, HasDerivAt S (S' t) t) (hS' : Continuous S') (hR : i.Rho ≠ 0) :
    (wgts i).W_T = (∫ t in i.Tc..i.Th, ∫ u in t..i.Th, u * S' u) / ((i.Th - i.Tc) * ∫ t in i.Tc..i.Th, t * S' t) ∧
    jouleDoc i = (∫ t in i.Tc..i.Th, ∫ u in t..i.Th, ρ u) / ((i.Th - i.Tc) * ∫ t in i.Tc..i.Th, ρ t) ∧
    thomson i = ∫ t in i.Tc..i.Th, t * S' t := by
  have hSc : Continuous S := continuous_iff_continuousAt.2 fun t => (hS t).continuousAt
  have hthom : thomson i = ∫ t in i.Tc..i.Th, t * S' t := by
    have key := intervalIntegral.integral_mul_deriv_eq_deriv_mul (a := i.Tc) (b := i.Th) (u := fun t => t) (u' := fun _ => 1) (v := S) (v' := S')
      (fun t _ => hasDerivAt_id t) (fun t _ => hS t) (continuous_const.intervalIntegrable _ _) (hS'.intervalIntegrable _ _)
    rw [key]
    simp only [one_mul]
    unfold thomson
    rw [hE.sc, hE.sh, hE.s]
  have hthom2 : (∫ t in i.Tc..i.Th, t * (t * S' t)) = i.Th * i.Th * i.Sh - i.Tc * i.Tc * i.Sc - 2 * i.ST := by
    have key := intervalIntegral.integral_mul_deriv_eq_deriv_mul (a := i.Tc) (b := i.Th) (u := fun t => t * t) (u' := fun t => 1 * t + t * 1) (v := S) (v' := S')
      (fun t _ => (hasDerivAt_id t).mul (hasDerivAt_id t)) (fun t _ => hS t) ((by fun_prop : Continuous fun t : ℝ => 1 * t + t * 1).intervalIntegrable _ _) (hS'.intervalIntegrable _ _)
    have e : ∀ t, t * (t * S' t) = t * t * S' t := fun t => by ring
    simp only [e]
    rw [key, hE.sc, hE.sh, hE.sT, ← intervalIntegral.integral_const_mul]
    congr 2
    funext t
    ring
  refine ⟨?_, ?_, hthom⟩
  · rw [double_integral (fun u => u * S' u) (by fun_prop) i.Tc i.Th]
    show (i.Th * i.Sh * i.deltaT - (2 * i.ST - i.Tc * i.S)) / (i.Th * i.Sh - i.Tc * i.Sc - i.S) / i.deltaT = _
    rw [hthom2, ← hthom, hE.dT, div_div, mul_comm (i.Th - i.Tc)]
    unfold thomson
    congr 1
    ring
  · rw [double_integral ρ hρ]
    unfold jouleDoc meanDrop
    rw [← hE.rho, ← hE.rhoT, hE.dT, div_div]
    rw [mul_comm (i.Th - i.Tc)]

/-! ## Constant properties -/

/-- the integrals of a leg with constant resistivity `r`, Seebeck coefficient `s` and thermal conductivity `k` -/
noncomputable def constItgs (Tc Th r s k : ℝ) : Itgs :=
  { Tc := Tc, Th := Th, deltaT := Th - Tc, Sc := s, Sh := s, Rho := r * (Th - Tc), S := s * (Th - Tc), K := k * (Th - Tc)
    RhoT := r * (Th ^ 2 - Tc ^ 2) / 2, ST := s * (Th ^ 2 - Tc ^ 2) / 2 }

/-- **C138** Constant properties: the modified temperatures are `Th`, the mean temperature and `Tc`; the Joule weight of the documentation is 1/2, there is no
Thomson heat, and the documented efficiency is the textbook one. -/
theorem C138_constant (Tc Th r s k : ℝ) (hT : Tc < Th) (hr : r ≠ 0) (hs : s ≠ 0) (hk : k ≠ 0) :
    let i := constItgs Tc Th r s k
    Between i ∧ Exact i (fun _ => r) (fun _ => s) ∧ modTemp i 0 = Th ∧ modTemp i 1 = (Tc + Th) / 2 ∧ modTemp i 2 = Tc ∧ jouleDoc i = 1 / 2 ∧ thomson i = 0 ∧
    (mdfs i).Rho = (Tc + Th) / 2 ∧ (mdfs i).S = (Tc + Th) / 2 ∧ (mdfs i).RhoW = r * (Th - Tc) ^ 2 / 2 ∧ (mdfs i).SW = s * (Th - Tc) * Th ∧
    (wgts i).alpha_0 = Th / s ∧ (wgts i).alpha_1 = (Tc + Th) / 2 / s ∧ (wgts i).alpha_2 = Tc / s := by
  intro i
  have hd : Th - Tc ≠ 0 := (sub_pos.2 hT).ne'
  have hB : Between i := ⟨rfl, hT, mul_ne_zero hr hd, mul_ne_zero hs hd, mul_ne_zero hk hd⟩
  obtain ⟨t0, t1, t2, -, -⟩ := mdfs_temps i hB
  have e0 : modTemp i 0 = Th := by simp only [modTemp, meanDrop, i, constItgs]; push_cast; field_simp; ring
  have e1 : modTemp i 1 = (Tc + Th) / 2 := by simp only [modTemp, meanDrop, i, constItgs]; push_cast; field_simp; ring
  have e2 : modTemp i 2 = Tc := by simp only [modTemp, meanDrop, i, constItgs]; push_cast; field_simp; ring
  refine ⟨hB, ?_, e0, e1, e2, ?_, ?_, ?_, ?_, ?_, ?_, ?_, ?_, ?_⟩
  · refine ⟨rfl, rfl, rfl, ?_, ?_, ?_, ?_⟩
    · simp [i, constItgs]; ring
    · simp [i, constItgs]; ring
    · simp [i, constItgs]; ring
    · simp [i, constItgs]; ring
  · simp only [jouleDoc, meanDrop, i, constItgs]; field_simp; ring
  · simp only [thomson, i, constItgs]; ring
  · simp only [mdfs, i, constItgs]; field_simp; ring
  · simp only [mdfs, i, constItgs]; field_simp; ring
  · simp only [mdfs, i, constItgs]; ring
  · simp only [mdfs, i, constItgs]; ring
  · show (mdfs i).ST_RhoT_0 / s = _
    rw [t0, e0]
  · show (mdfs i).ST_RhoT_1 / s = _
    rw [t1, e1]
  · show (mdfs i).ST_RhoT_2 / s = _
    rw [t2, e2]

/-- a leg with 200 uV/K, 1000 S/cm (10 uOhm m), 1.5 W/(m K) between 300 K and 600 K: the assumptions hold, so the documented formula with the reported
coefficients gives less than the efficiency reported (200 < 600), and `W_J` is 3/2 instead of 1/2 -/
example : let i := constItgs 300 600 10 200 (3 / 2)
    (yitaDoc 300 600 (prfs 1 100 true i).ZTeng (wgts i).alpha_0 (wgts i).alpha_1 (wgts i).alpha_2 < (simulate1 (prfs 1 100 true i) (1 / (1 + (prfs 1 100 true i).m_opt))).Yita) ∧
      (wgts i).W_J = 3 / 2 := by
  intro i
  obtain ⟨hB, -, e0, e1, e2, ej, -⟩ := C138_constant 300 600 10 200 (3 / 2) (by norm_num) (by norm_num) (by norm_num) (by norm_num)
  have hZ : 0 < (prfs 1 100 true i).Zeng := by
    simp only [prfs, i, constItgs]; norm_num
  refine ⟨(C138_alpha_formula i hB 1 100 (by norm_num) (by norm_num) true (by norm_num [i, constItgs]) hZ (by norm_num [i, constItgs]) ?_ ?_ ?_).2 (by norm_num [i, constItgs]), ?_⟩
  · rw [e0]; norm_num
  · rw [e1]; norm_num
  · rw [e2]; norm_num
  · rw [C138_joule i hB, ej]; norm_num [i, constItgs]

/-- a Seebeck coefficient rising with the temperature has Thomson heat -/
example : thomson { constItgs 300 600 10 200 (3 / 2) with Sc := 150, Sh := 250, ST := 200 * (600 ^ 2 - 300 ^ 2) / 2 + 750000 } ≠ 0 := by
  norm_num [thomson, constItgs]

end TEflow.Engout
