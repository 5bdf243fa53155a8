import Mathlib.Tactic
import Mathlib.Analysis.SpecialFunctions.Pow.Deriv
import Mathlib.Analysis.SpecialFunctions.Pow.Continuity
import Mathlib.Algebra.Order.BigOperators.Ring.Finset
import Mathlib.MeasureTheory.Integral.IntervalIntegral.FundThmCalculus
import Verif.Props.BandQuad
import Verif.Props.BandRspb

/-! # C74, C75, C81, C100–C102: the parabolic, Kane and linear band models -/

set_option linter.unusedSimpArgs false

open Real

namespace TEflow.Bandlib

theorem me_pos : 0 < me := by unfold me; norm_num
theorem qe_pos : (0 : ℝ) < qe := by unfold qe; norm_num
theorem hbar_pos : 0 < hbar := by unfold hbar; norm_num

/-! ## C74 -/

theorem rpow_three_half {x : ℝ} (hx : 0 ≤ x) : x ^ (3 / 2 : ℝ) = x * √x := by
  rcases hx.eq_or_lt with rfl | h
  · simp
  · rw [sqrt_eq_rpow, show (3 / 2 : ℝ) = 1 + 1 / 2 by norm_num, rpow_add h, rpow_one]

theorem deriv_three_half {u : ℝ → ℝ} {u' x a : ℝ} (hu : HasDerivAt u u' x) :
    HasDerivAt (fun E => (a * u E) ^ (3 / 2 : ℝ)) (3 / 2 * (a * u') * √(a * u x)) x := by
  have := (hu.const_mul a).rpow_const (p := 3 / 2) (.inr (by norm_num))
  refine this.congr_deriv ?_
  rw [sqrt_eq_rpow, show (3 / 2 - 1 : ℝ) = 1 / 2 by norm_num]
  ring

/-- **C74** parabolic band -/
theorem C74_spb (b : Spb) (hm : 0 < b.m_d) : b.idos 0 = 0 ∧ ∀ E, 0 < E → HasDerivAt b.idos (b.dos E) E := by
  refine ⟨by unfold Spb.idos; norm_num, fun E hE => ?_⟩
  have h1 := me_pos
  have h2 := qe_pos
  have h3 := hbar_pos
  have h4 := pi_pos
  have := ((deriv_three_half (a := 2 * b.m_d * me * qe) (hasDerivAt_id E)).div_const (3 * π * π * hbar ^ 3)).const_mul
    ((1 : ℝ) / 10 ^ 25)
  refine this.congr_deriv ?_
  unfold Spb.dos
  rw [rpow_three_half (by positivity), id, sqrt_mul (by positivity)]
  field_simp

/-- **C74** Kane band -/
theorem C74_skb (b : Skb) (hm : 0 < b.m_d) (hg : 0 < b.Eg) :
    b.idos 0 = 0 ∧ ∀ E, 0 < E → HasDerivAt b.idos (b.dos E) E := by
  refine ⟨by unfold Skb.idos; norm_num, fun E hE => ?_⟩
  have h1 := me_pos
  have h2 := qe_pos
  have h3 := hbar_pos
  have h4 := pi_pos
  have hu : HasDerivAt (fun E => E * (1 + E / b.Eg)) (1 + 2 * E / b.Eg) E := by
    have := (hasDerivAt_id E).mul (((hasDerivAt_id E).div_const b.Eg).const_add 1)
    refine this.congr_deriv ?_
    simp only [id]
    field_simp
    ring
  have := ((deriv_three_half (a := 2 * b.m_d * me * qe) hu).const_mul ((1 : ℝ) / 10 ^ 25)).div_const (3 * π * π * hbar ^ 3)
  have h5 : b.idos = fun E => 1 / 10 ^ 25 * (2 * b.m_d * me * qe * (E * (1 + E / b.Eg))) ^ (3 / 2 : ℝ) /
      (3 * π * π * hbar ^ 3) := by
    funext E
    unfold Skb.idos
    rw [mul_assoc (2 * b.m_d * me * qe)]
  rw [h5]
  refine this.congr_deriv ?_
  unfold Skb.dos
  have h6 : 0 < 1 + E / b.Eg := by positivity
  rw [rpow_three_half (by positivity), sqrt_mul (by positivity), sqrt_mul hE.le]
  field_simp

/-- **C74** linear band -/
theorem C74_lin (b : Lin) (hv : 0 < b.vF) : b.idos 0 = 0 ∧ ∀ E, HasDerivAt b.idos (b.dos E) E := by
  refine ⟨by unfold Lin.idos; norm_num, fun E => ?_⟩
  have h2 := qe_pos
  have h3 := hbar_pos
  have h4 := pi_pos
  have h := ((((hasDerivAt_id E).const_mul qe).div_const (b.vF * hbar)).pow 3).div_const (3 * 10 ^ 40 * π ^ 2)
  refine HasDerivAt.congr_deriv (f := b.idos) h ?_
  unfold Lin.dos
  simp only [id, Nat.reduceSub, div_pow]
  field_simp
  norm_num
  ring

/-- **C74** So `idos` is the integral of `dos` from the band edge. -/
theorem C74_integral (a : Spb) (ha : 0 < a.m_d) (b : Skb) (hb : 0 < b.m_d) (hg : 0 < b.Eg) (c : Lin) (hc : 0 < c.vF)
    (E : ℝ) (hE : 0 ≤ E) :
    (∫ x in (0 : ℝ)..E, a.dos x) = a.idos E ∧ (∫ x in (0 : ℝ)..E, b.dos x) = b.idos E ∧
    (∫ x in (0 : ℝ)..E, c.dos x) = c.idos E := by
  have h4 := pi_pos
  refine ⟨?_, ?_, ?_⟩
  · have hcont : Continuous a.idos := by
      unfold Spb.idos
      refine continuous_const.mul (Continuous.div_const ?_ _)
      exact (continuous_const.mul continuous_id).rpow_const fun _ => .inr (by norm_num)
    have hd : Continuous a.dos := by unfold Spb.dos; fun_prop
    rw [intervalIntegral.integral_eq_sub_of_hasDerivAt_of_le hE hcont.continuousOn
      (fun x hx => (C74_spb a ha).2 x hx.1) (hd.intervalIntegrable _ _), (C74_spb a ha).1, sub_zero]
  · have hcont : Continuous b.idos := by
      unfold Skb.idos
      refine Continuous.div_const (continuous_const.mul ?_) _
      exact ((continuous_const.mul continuous_id).mul (continuous_const.add (continuous_id.div_const _))).rpow_const
        fun _ => .inr (by norm_num)
    have hd : Continuous b.dos := by unfold Skb.dos; fun_prop
    rw [intervalIntegral.integral_eq_sub_of_hasDerivAt_of_le hE hcont.continuousOn
      (fun x hx => (C74_skb b hb hg).2 x hx.1) (hd.intervalIntegrable _ _), (C74_skb b hb hg).1, sub_zero]
  · have hd : Continuous c.dos := by unfold Lin.dos; fun_prop
    rw [intervalIntegral.integral_eq_sub_of_hasDerivAt (fun x _ => (C74_lin c hc).2 x) (hd.intervalIntegrable _ _),
      (C74_lin c hc).1, sub_zero]

/-! ## C75 -/

/-- **C75** The anisotropy factor is positive and at most 1, and 1 only for equal masses. -/
theorem C75_kstar (K : ℝ) (hK : 0 < K) : 0 < kstar K ∧ kstar K ≤ 1 ∧ (kstar K = 1 ↔ K = 1) := by
  have h : 0 < (2 * K + 1) ^ 2 := by positivity
  unfold kstar
  refine ⟨by positivity, ?_, ?_⟩
  · rw [div_le_one h]
    nlinarith [sq_nonneg (K - 1)]
  · rw [div_eq_one_iff_eq h.ne']
    constructor
    · intro e
      have : (K - 1) ^ 2 = 0 := by nlinarith
      have := pow_eq_zero_iff (two_ne_zero) |>.1 this
      linarith
    · rintro rfl
      norm_num

/-- **C75** The Hall factor in terms of the two masses `m1` (along) and `m2` (across, twice): the mean of the pairwise products of the inverse masses
over the square of their mean. -/
theorem C75_kstar_masses (m1 m2 : ℝ) (h1 : 0 < m1) (h2 : 0 < m2) :
    kstar (m1 / m2) = ((1 / m1 * (1 / m2) + 1 / m1 * (1 / m2) + 1 / m2 * (1 / m2)) / 3) / ((1 / m1 + 1 / m2 + 1 / m2) / 3) ^ 2 := by
  have h3 : 2 * m1 + m2 ≠ 0 := by positivity
  have h4 : 2 * (m1 / m2) + 1 ≠ 0 := by positivity
  unfold kstar
  have e : 1 / m1 + 1 / m2 + 1 / m2 = (2 * m1 + m2) / (m1 * m2) := by field_simp; ring
  have e2 : 2 * (m1 / m2) + 1 = (2 * m1 + m2) / m2 := by field_simp
  rw [e, e2]
  field_simp
  ring

/-- **C75** `from_UWT` and the weighted mobility are inverse. -/
theorem C75_uwt (m_d UWT Kmass s : ℝ) :
    uwtOf (Spb.fromUWT m_d UWT Kmass).sigma0 = UWT ∧ (Spb.fromUWT m_d (uwtOf s) Kmass).sigma0 = s ∧
    (Spb.fromUWT m_d UWT Kmass).m_d = m_d ∧ (Spb.fromUWT m_d UWT Kmass).Kmass = Kmass ∧
    ∀ Eg, 0 < Eg → ∃ b, Skb.fromUWT m_d UWT Eg Kmass = .ok b ∧ uwtOf b.sigma0 = UWT ∧ b.m_d = m_d ∧ b.Eg = Eg ∧
      b.Kmass = Kmass := by
  have h : uwtToSigma0 ≠ 0 := by unfold uwtToSigma0; norm_num
  have h1 : ∀ u, uwtOf (uwtToSigma0 * u) = u := fun u => mul_div_cancel_left₀ u h
  refine ⟨h1 UWT, mul_div_cancel₀ s h, rfl, rfl, fun Eg hE => ⟨_, by unfold Skb.fromUWT Skb.make; rw [if_pos hE], h1 UWT, rfl,
    rfl, rfl⟩⟩

/-- **C75** Deformation potential theory: with `m2` omitted (or 0, which counts as omitted) the band is isotropic, the
density-of-states mass is `Nv^(2/3)·m1` and the conductivity mass `m1`. -/
theorem C75_isotropic (m1 Nv Cii Ed : ℝ) (hm : 0 < m1) (hN : 0 < Nv) (m2 : Option ℝ) (h2 : m2 = none ∨ m2 = some 0) :
    let b := Spb.fromDP m1 m2 Nv Cii Ed
    b.Kmass = 1 ∧ kstar b.Kmass = 1 ∧ b.m_d = Nv ^ (2 / 3 : ℝ) * m1 ∧
    b.sigma0 = 24566655370009886 / 10 ^ 14 * (Nv * Cii) / (m1 * Ed ^ 2) := by
  have ho : orMass m2 m1 = m1 := by rcases h2 with rfl | rfl <;> simp [orMass]
  have hk : m1 / m1 = 1 := div_self hm.ne'
  intro b
  have e1 : b.Kmass = 1 := by
    show m1 / orMass m2 m1 = 1
    rw [ho, hk]
  refine ⟨e1, by rw [e1]; exact (C75_kstar 1 one_pos).2.2.2 rfl, ?_, ?_⟩
  · show (Nv * Nv * (m1 * orMass m2 m1 * orMass m2 m1)) ^ (1 / 3 : ℝ) = _
    rw [ho, show Nv * Nv * (m1 * m1 * m1) = Nv ^ 2 * m1 ^ 3 by ring, mul_rpow (by positivity) (by positivity),
      ← rpow_natCast, ← rpow_natCast, ← rpow_mul hN.le, ← rpow_mul hm.le]
    norm_num
  · show 24566655370009886 / 10 ^ 14 * (Nv * Cii) / (3 / (1 / m1 + 2 / orMass m2 m1) * Ed * Ed) = _
    rw [ho]
    have : 3 / (1 / m1 + 2 / m1) = m1 := by field_simp; norm_num
    rw [this]
    ring

/-- **C75** In general the conductivity mass is the harmonic mean of the three masses, the state mass their geometric mean
times `Nv^(2/3)`: `sigma0·(m1⁻¹+2·m2⁻¹)⁻¹` and `m_d³` are given by the inputs. -/
theorem C75_from_dp (m1 m2 Nv Cii Ed Eg : ℝ) (h1 : 0 < m1) (h2 : 0 < m2) (hN : 0 < Nv) (hE : Ed ≠ 0) (hg : 0 < Eg) :
    ∃ b, Skb.fromDP m1 (some m2) Nv Cii Ed Eg = .ok b ∧
      (Spb.fromDP m1 (some m2) Nv Cii Ed).m_d = b.m_d ∧ (Spb.fromDP m1 (some m2) Nv Cii Ed).sigma0 = b.sigma0 ∧
      (Spb.fromDP m1 (some m2) Nv Cii Ed).Kmass = b.Kmass ∧ b.Eg = Eg ∧
      b.m_d ^ 3 = Nv ^ 2 * m1 * m2 ^ 2 ∧ b.Kmass = m1 / m2 ∧
      b.sigma0 * Ed ^ 2 = 24566655370009886 / 10 ^ 14 * Nv * Cii * ((1 / m1 + 1 / m2 + 1 / m2) / 3) := by
  have ho : orMass (some m2) m1 = m2 := by simp [orMass, h2.ne']
  refine ⟨_, by unfold Skb.fromDP Skb.make; rw [if_pos hg], rfl, rfl, rfl, rfl, ?_, ?_, ?_⟩
  · show ((Nv * Nv * (m1 * orMass (some m2) m1 * orMass (some m2) m1)) ^ (1 / 3 : ℝ)) ^ 3 = _
    rw [ho, ← rpow_natCast, ← rpow_mul (by positivity)]
    norm_num
    ring
  · show m1 / orMass (some m2) m1 = m1 / m2
    rw [ho]
  · show 24566655370009886 / 10 ^ 14 * (Nv * Cii) / (3 / (1 / m1 + 2 / orMass (some m2) m1) * Ed * Ed) * Ed ^ 2 = _
    rw [ho]
    field_simp
    ring

/-- a gap that is not positive is rejected -/
theorem C75_gap (m_d s Eg K : ℝ) (h : Eg ≤ 0) : Skb.make m_d s Eg K = .error .valueError := by
  unfold Skb.make
  rw [if_neg (not_lt.2 h)]

/-! ## C81 -/

/-- the keys of a result -/
def keysOf (out : List (String × ℝ)) : List String := out.map Prod.fst

/-- **C81** Which properties `APSSPB.valuate` returns. -/
theorem C81_spb (solve : ℝ → ℝ → ℝ) (S : ℝ) (T C N K : Option ℝ) (hall : Bool) (Kmass : ℝ) :
    let out := Spb.valuate solve S T C N K hall Kmass
    (keysOf out).Nodup ∧
    (∀ key, key ∈ keysOf out ↔ key = "L" ∨ (T.isSome ∧ C.isSome ∧ key = "Ke") ∨ (T.isSome ∧ C.isSome ∧ K.isSome ∧ key = "Kp") ∨
      (T.isSome ∧ C.isSome ∧ (key = "sigma0" ∨ key = "UWT" ∨ key = "PFmax")) ∨
      (T.isSome ∧ N.isSome ∧ (key = "m_d" ∨ key = "Nopt"))) ∧
    ∀ v, Reports out "Kp" v → ∃ k u, K = some k ∧ Reports out "Ke" u ∧ v + u = k := by
  cases T with
  | none => simp [Spb.valuate, keysOf, Reports]
  | some T =>
    cases C with
    | none => cases N <;> simp [Spb.valuate, valuateC, keysOf, Reports]
    | some c => cases N <;> cases K <;> simp [Spb.valuate, valuateC, keysOf, Reports, or_assoc]

/-- **C81** Which properties `APSSKB.valuate` returns (a positive gap is required). -/
theorem C81_skb (solve : ℝ → ℝ → ℝ) (S T : ℝ) (C N K : Option ℝ) (Eg : ℝ) (hall : Bool) (Kmass : ℝ) :
    (Eg ≤ 0 → Skb.valuate solve S T C N K Eg hall Kmass = .error .valueError) ∧
    (0 < Eg → ∃ out, Skb.valuate solve S T C N K Eg hall Kmass = .ok out ∧ (keysOf out).Nodup ∧
      (∀ key, key ∈ keysOf out ↔ key = "L" ∨ (C.isSome ∧ key = "Ke") ∨ (C.isSome ∧ K.isSome ∧ key = "Kp") ∨
        (C.isSome ∧ (key = "sigma0" ∨ key = "UWT")) ∨ (N.isSome ∧ key = "m_d")) ∧
      ∀ v, Reports out "Kp" v → ∃ k u, K = some k ∧ Reports out "Ke" u ∧ v + u = k) := by
  constructor
  · intro h
    simp [Skb.valuate, Skb.make, not_lt.2 h, bind, Except.bind]
  · intro h
    simp only [Skb.valuate, Skb.make, if_pos h, bind, Except.bind, pure, Except.pure]
    refine ⟨_, rfl, ?_⟩
    cases C with
    | none => cases N <;> simp [valuateC, keysOf, Reports]
    | some c => cases N <;> cases K <;> simp [valuateC, keysOf, Reports, or_assoc]

/-- **C81** Which properties `RSPB.valuate` returns: `Ke` and `Kp` also need the carrier concentration. -/
theorem C81_rspb (S : ℝ) (C T N K : Option ℝ) (delta : ℝ) :
    let out := Rspb.valuate S C T N K delta
    (keysOf out).Nodup ∧
    (∀ key, key ∈ keysOf out ↔ key = "L" ∨ (C.isSome ∧ (key = "UWT" ∨ key = "PFmax" ∨ key = "sigma0")) ∨
      (C.isSome ∧ T.isSome ∧ N.isSome ∧ key = "Ke") ∨ (C.isSome ∧ T.isSome ∧ N.isSome ∧ K.isSome ∧ key = "Kp") ∨
      (C.isSome ∧ T.isSome ∧ N.isSome ∧ (key = "m_eff" ∨ key = "Nopt"))) ∧
    ∀ v, Reports out "Kp" v → ∃ k u, K = some k ∧ Reports out "Ke" u ∧ v + u = k := by
  cases C with
  | none => simp [Rspb.valuate, Rspb.valuateC, Rspb.valuateRest, keysOf, Reports]
  | some c =>
    cases T with
    | none => simp [Rspb.valuate, Rspb.valuateC, Rspb.valuateRest, keysOf, Reports]
    | some t =>
      cases N with
      | none => simp [Rspb.valuate, Rspb.valuateC, Rspb.valuateRest, keysOf, Reports]
      | some n =>
        cases K <;>
          simp [Rspb.valuate, Rspb.valuateC, Rspb.valuateRest, Rspb.valuateFull, keysOf, Reports, or_assoc]

/-! ## C100 -/

theorem hallN0_split (m_d T : ℝ) (hm : 0 ≤ m_d) (hT : 0 < T) :
    hallN0 m_d T = (2 * m_d * me * qe) ^ (3 / 2 : ℝ) * (kB * T) ^ (3 / 2 : ℝ) / (2 * π * π * hbar ^ 3) := by
  have h1 := me_pos
  have h2 := qe_pos
  have h3 := kB_pos
  unfold hallN0
  rw [← mul_rpow (by positivity) (by positivity)]
  congr 2
  ring

/-- the spectral relation for a common form of both models: `trs = sigma0·x·k`, `idos ∝ (E·u)^(3/2)`,
`hall ∝ √x·h` with `h·u^(3/2) = k²` -/
theorem hall_relation (m_d sigma0 E T u k h Ks : ℝ) (hm : 0 < m_d) (hE : 0 < E) (hT : 0 < T) (hu : 0 < u)
    (hh : h * (u * √u) = k ^ 2) :
    Ks * hallFactor m_d sigma0 T * √(E / (kB * T)) * h *
      (qe * 10 ^ 19 * (1 / 10 ^ 25 * (2 * m_d * me * qe * (E * u)) ^ (3 / 2 : ℝ) / (3 * π * π * hbar ^ 3))) =
    Ks * (sigma0 * E / (kB * T) * k) ^ 2 := by
  have h1 := me_pos
  have h2 := qe_pos
  have h3 := kB_pos
  have h4 := hbar_pos
  have h5 := pi_pos
  have hkT : 0 < kB * T := by positivity
  have e1 : (2 * m_d * me * qe * (E * u)) ^ (3 / 2 : ℝ) = (2 * m_d * me * qe) ^ (3 / 2 : ℝ) * (E * √E) * (u * √u) := by
    rw [mul_rpow (by positivity) (by positivity), mul_rpow hE.le hu.le, rpow_three_half hE.le, rpow_three_half hu.le]
    ring
  have hA : 0 < (2 * m_d * me * qe) ^ (3 / 2 : ℝ) := rpow_pos_of_pos (by positivity) _
  set A := (2 * m_d * me * qe) ^ (3 / 2 : ℝ)
  have e2 : hallN0 m_d T = A * (kB * T * √(kB * T)) / (2 * π * π * hbar ^ 3) := by
    rw [hallN0_split m_d T hm.le hT, rpow_three_half hkT.le]
  rw [e1]
  unfold hallFactor
  rw [e2, sqrt_div hE.le]
  have hs1 : 0 < √(kB * T) := sqrt_pos.2 hkT
  have hs2 : √E * √E = E := mul_self_sqrt hE.le
  have hs3 : √(kB * T) * √(kB * T) = kB * T := mul_self_sqrt hkT.le
  set r := √(kB * T)
  set e := √E
  set v := u * √u
  rw [← hs3, ← hs2, mul_pow _ k, ← hh]
  have hq : (qe : ℝ) ≠ 0 := h2.ne'
  field_simp

/-- **C100** In both models the Hall distribution is `Kstar·trs²/(q·idos)` at every positive energy (with the program's units:
`idos` in 10¹⁹ cm⁻³). -/
theorem C100_hall (a : Spb) (ha : 0 < a.m_d) (b : Skb) (hb : 0 < b.m_d) (hg : 0 < b.Eg) (E T : ℝ) (hE : 0 < E) (hT : 0 < T) :
    a.hall E T = kstar a.Kmass * a.trs E T ^ 2 / (qe * (10 ^ 19 * a.idos E)) ∧
    b.hall E T = kstar b.Kmass * b.trs E T ^ 2 / (qe * (10 ^ 19 * b.idos E)) := by
  have h1 := me_pos
  have h2 := qe_pos
  have h4 := hbar_pos
  have h5 := pi_pos
  have key : ∀ m_d u : ℝ, 0 < m_d → 0 < u → 0 < 1 / 10 ^ 25 * (2 * m_d * me * qe * (E * u)) ^ (3 / 2 : ℝ) / (3 * π * π * hbar ^ 3) := by
    intro m_d u hm hu
    have := rpow_pos_of_pos (show 0 < 2 * m_d * me * qe * (E * u) by positivity) (3 / 2 : ℝ)
    positivity
  constructor
  · have h := hall_relation a.m_d a.sigma0 E T 1 1 1 (kstar a.Kmass) ha hE hT one_pos (by simp)
    have hi : a.idos E = 1 / 10 ^ 25 * (2 * a.m_d * me * qe * (E * 1)) ^ (3 / 2 : ℝ) / (3 * π * π * hbar ^ 3) := by
      unfold Spb.idos
      rw [mul_one, mul_div_assoc]
    have hk := key a.m_d 1 ha one_pos
    rw [← hi] at h hk
    rw [eq_div_iff (by positivity)]
    unfold Spb.hall Spb.trs
    linear_combination h
  · have hu : 0 < 1 + E / b.Eg := by positivity
    have h := hall_relation b.m_d b.sigma0 E T (1 + E / b.Eg) (3 * (1 + E / b.Eg) / ((1 + 2 * E / b.Eg) ^ 2 + 2))
      (9 * √(1 + E / b.Eg) / ((1 + 2 * E / b.Eg) ^ 2 + 2) ^ 2) (kstar b.Kmass) hb hE hT hu (by
        have hs := mul_self_sqrt hu.le
        set r := √(1 + E / b.Eg)
        rw [← hs]
        field_simp
        ring)
    have hi : b.idos E = 1 / 10 ^ 25 * (2 * b.m_d * me * qe * (E * (1 + E / b.Eg))) ^ (3 / 2 : ℝ) / (3 * π * π * hbar ^ 3) := by
      unfold Skb.idos
      rw [mul_assoc (2 * b.m_d * me * qe)]
    have hk := key b.m_d _ hb hu
    rw [← hi] at h hk
    rw [eq_div_iff (by positivity)]
    unfold Skb.hall Skb.trs
    linear_combination h

/-! ## C101 -/

/-- a band model with the spectral Hall relation -/
def HallModel (f : BandFns) (hall : ℝ → ℝ → ℝ) (Ks : ℝ) : Prop :=
  f.hall = some hall ∧ 0 < Ks ∧ PosFn f.trs ∧ (∀ E, 0 < E → 0 < f.idos E) ∧
  ∀ E T, 0 < E → 0 < T → hall E T = Ks * f.trs E T ^ 2 / (qe * (10 ^ 19 * f.idos E))

/-- both models are of that kind -/
theorem hallModels (a : Spb) (ha : 0 < a.m_d) (hs : 0 < a.sigma0) (hK : 0 < a.Kmass) (b : Skb) (hb : 0 < b.m_d)
    (hbs : 0 < b.sigma0) (hg : 0 < b.Eg) (hbK : 0 < b.Kmass) :
    HallModel a.fns a.hall (kstar a.Kmass) ∧ HallModel b.fns b.hall (kstar b.Kmass) := by
  have h1 := me_pos
  have h2 := qe_pos
  have h4 := hbar_pos
  have h5 := pi_pos
  obtain ⟨p1, p2, -⟩ := C70_models a hs b hbs hg ⟨1, 1⟩ one_pos
  refine ⟨⟨rfl, (C75_kstar _ hK).1, p1, fun E hE => ?_, fun E T hE hT => (C100_hall a ha b hb hg E T hE hT).1⟩,
    ⟨rfl, (C75_kstar _ hbK).1, p2, fun E hE => ?_, fun E T hE hT => (C100_hall a ha b hb hg E T hE hT).2⟩⟩
  · show 0 < a.idos E
    unfold Spb.idos
    have := rpow_pos_of_pos (show 0 < 2 * a.m_d * me * qe * E by positivity) (3 / 2 : ℝ)
    positivity
  · show 0 < b.idos E
    unfold Skb.idos
    have := rpow_pos_of_pos (show 0 < 2 * b.m_d * me * qe * E * (1 + E / b.Eg) by positivity) (3 / 2 : ℝ)
    positivity

theorem hall_integrals (f : BandFns) (hall : ℝ → ℝ → ℝ) (Ks : ℝ) (h : HallModel f hall Ks) (EF T : ℝ) (hT : 0 < T) :
    Ks * rombDfx f.trs 0 EF T ^ 2 ≤ rombDfx hall 0 EF T * (qe * 10 ^ 19 * rombDfx (fun E _ => f.idos E) 0 EF T) ∧
    0 < rombDfx hall 0 EF T ∧ 0 < rombDfx (fun E _ => f.idos E) 0 EF T ∧ 0 < rombDfx f.trs 0 EF T := by
  obtain ⟨-, hK, htr, hid, hrel⟩ := h
  have h2 := qe_pos
  have hhall : PosFn hall := by
    intro E T hE hT
    have := hid E hE
    have := htr E T hE hT
    rw [hrel E T hE hT]
    positivity
  have hidf : PosFn fun E _ => f.idos E := fun E _ hE _ => hid E hE
  refine ⟨?_, C70_positive _ hhall EF T hT, C70_positive _ hidf EF T hT, C70_positive _ htr EF T hT⟩
  rw [rombDfx_sum, rombDfx_sum, rombDfx_sum]
  simp only [pow_zero, mul_one]
  have cs := Finset.sum_sq_le_sum_mul_sum_of_sq_eq_mul (Finset.range 65)
    (r := fun i => cw EF T i * f.trs (energyAt EF T i) T)
    (f := fun i => cw EF T i * hall (energyAt EF T i) T)
    (g := fun i => cw EF T i * f.idos (energyAt EF T i) * (qe * 10 ^ 19 / Ks)) (fun i hi => ?_) (fun i hi => ?_) (fun i hi => ?_)
  · rw [← Finset.sum_mul] at cs
    have := mul_le_mul_of_nonneg_left cs hK.le
    refine this.trans (le_of_eq ?_)
    field_simp
  all_goals
    have hE := energyAt_pos EF T hT (i := i) (by have := Finset.mem_range.1 hi; omega)
    have p1 := hhall _ T hE hT
    have p2 := hid _ hE
    have p3 := cw_nonneg EF T i
  · positivity
  · positivity
  · rw [hrel _ T hE hT]
    field_simp

/-- **C101** In the parabolic and the Kane model the Hall concentration never exceeds `N/Kstar` and the Hall mobility is at
least `Kstar` times the drift mobility in size, at every Fermi level and temperature; all of them have the right sign. -/
theorem C101_hall_factor (f : BandFns) (hall : ℝ → ℝ → ℝ) (Ks : ℝ) (h : HallModel f hall Ks) (s : ℝ) (hs : s = 1 ∨ s = -1)
    (EF T : ℝ) (hT : 0 < T) :
    ∃ n nh u uh rh, (f.leaf s).prop .N (some (EF, T)) = .ok (some n) ∧ (f.leaf s).prop .NH (some (EF, T)) = .ok (some nh) ∧
      (f.leaf s).prop .U (some (EF, T)) = .ok (some u) ∧ (f.leaf s).prop .UH (some (EF, T)) = .ok (some uh) ∧
      (f.leaf s).prop .RH (some (EF, T)) = .ok (some rh) ∧
      0 < n ∧ 0 < nh ∧ nh ≤ n / Ks ∧ 0 < s * u ∧ Ks * (s * u) ≤ s * uh ∧ 0 < s * rh ∧
      rh * (s * qe * (10 ^ 19 * nh)) = 1 := by
  obtain ⟨h1, h2, h3, h4⟩ := hall_integrals f hall Ks h EF T hT
  have hH := h.1
  have hK := h.2.1
  have hq := qe_pos
  set H := rombDfx hall 0 EF T
  set K0 := rombDfx f.trs 0 EF T
  set N := rombDfx (fun E _ => f.idos E) 0 EF T
  have hs2 : s * s = 1 := by rcases hs with rfl | rfl <;> norm_num
  have hs0 : s ≠ 0 := by rcases hs with rfl | rfl <;> norm_num
  have hc : (f.leaf s).ccrh EF T = some (s * H) := by
    show Option.map _ (f.hall.map _) = _
    rw [hH]
    rfl
  have hsrc : (f.leaf s).src (some (EF, T)) = ⟨s, .ok N, fun i => .ok (rombDfx f.trs i EF T), .ok (some (s * H)), .ok T⟩ := by
    show (⟨s, _, _, .ok ((f.leaf s).ccrh EF T), _⟩ : Src ℝ) = _
    rw [hc]
    rfl
  refine ⟨N, 1 / 10 ^ 19 * K0 ^ 2 / (s * H) / (s * qe), K0 / (s * qe * N * 10 ^ 19), s * H / K0, s * H / K0 ^ 2, ?_, ?_, ?_, ?_, ?_,
    h3, ?_, ?_, ?_, ?_, ?_, ?_⟩
  · simp only [Leaf.prop, hsrc, Src.prop, Except.map]
  · simp only [Leaf.prop, hsrc, Src.prop, needNum, bind, Except.bind, pure, Except.pure]
    rfl
  · simp only [Leaf.prop, hsrc, Src.prop, needNum, bind, Except.bind, pure, Except.pure]
    rfl
  · simp only [Leaf.prop, hsrc, Src.prop, needNum, bind, Except.bind, pure, Except.pure]
    rfl
  · simp only [Leaf.prop, hsrc, Src.prop, needNum, bind, Except.bind, pure, Except.pure]
    rfl
  · have : 1 / 10 ^ 19 * K0 ^ 2 / (s * H) / (s * qe) = 1 / 10 ^ 19 * K0 ^ 2 / (s * s * (H * qe)) := by
      rw [div_div]; congr 1; ring
    rw [this, hs2]
    positivity
  · have : 1 / 10 ^ 19 * K0 ^ 2 / (s * H) / (s * qe) = 1 / 10 ^ 19 * K0 ^ 2 / (s * s * (H * qe)) := by
      rw [div_div]; congr 1; ring
    rw [this, hs2, one_mul, div_le_div_iff₀ (by positivity) hK]
    nlinarith
  · have : s * (K0 / (s * qe * N * 10 ^ 19)) = K0 / (qe * N * 10 ^ 19) := by field_simp
    rw [this]
    positivity
  · have e1 : s * (K0 / (s * qe * N * 10 ^ 19)) = K0 / (qe * N * 10 ^ 19) := by field_simp
    have e2 : s * (s * H / K0) = H / K0 := by
      rw [← mul_div_assoc, ← mul_assoc, hs2, one_mul]
    rw [e1, e2, ← mul_div_assoc, div_le_div_iff₀ (by positivity) h4]
    nlinarith
  · have : s * (s * H / K0 ^ 2) = H / K0 ^ 2 := by
      rw [← mul_div_assoc, ← mul_assoc, hs2, one_mul]
    rw [this]
    positivity
  · field_simp

/-- an instance -/
example : ∃ hall Ks, HallModel (Spb.fns ⟨1, 5, 2⟩) hall Ks ∧ Ks = 24 / 25 :=
  ⟨_, _, (hallModels ⟨1, 5, 2⟩ (by norm_num) (by norm_num) (by norm_num) ⟨1, 3, 1 / 4, 2⟩ (by norm_num) (by norm_num)
    (by norm_num) (by norm_num)).1, by unfold kstar; norm_num⟩

/-! ## C102 -/

theorem rombDfx_smul (c : ℝ) (f g : ℝ → ℝ → ℝ) (EF T : ℝ) (hT : 0 < T) (h : ∀ E, 0 < E → f E T = c * g E T) (k : Nat) :
    rombDfx f k EF T = c * rombDfx g k EF T := by
  rw [rombDfx_sum, rombDfx_sum, Finset.mul_sum]
  refine Finset.sum_congr rfl fun i hi => ?_
  rw [h _ (energyAt_pos EF T hT (by have := Finset.mem_range.1 hi; omega))]
  ring

/-- the value of a property of a band with sign 1 in terms of the integrals -/
theorem leaf_val (f : BandFns) (hall : ℝ → ℝ → ℝ) (hh : f.hall = some hall) (EF T : ℝ) :
    (f.leaf 1).val .C EF T = rombDfx f.trs 0 EF T ∧
    (f.leaf 1).val .N EF T = rombDfx (fun E _ => f.idos E) 0 EF T ∧
    (f.leaf 1).val .S EF T = 1 * S0 * rombDfx f.trs 1 EF T / rombDfx f.trs 0 EF T ∧
    (f.leaf 1).val .L EF T = L0 * (rombDfx f.trs 2 EF T / rombDfx f.trs 0 EF T -
      (rombDfx f.trs 1 EF T / rombDfx f.trs 0 EF T) ^ 2) ∧
    (f.leaf 1).val .NH EF T = 1 / 10 ^ 19 * rombDfx f.trs 0 EF T ^ 2 / (1 * rombDfx hall 0 EF T) / (1 * qe) := by
  have hc : (f.leaf 1).ccrh EF T = some (1 * rombDfx hall 0 EF T) := by
    show Option.map _ (f.hall.map _) = _
    rw [hh]
    rfl
  refine ⟨rfl, rfl, rfl, rfl, ?_⟩
  have hsrc : (f.leaf 1).src (some (EF, T)) = ⟨1, .ok (rombDfx (fun E _ => f.idos E) 0 EF T),
      fun i => .ok (rombDfx f.trs i EF T), .ok (some (1 * rombDfx hall 0 EF T)), .ok T⟩ := by
    show (⟨1, _, _, .ok ((f.leaf 1).ccrh EF T), _⟩ : Src ℝ) = _
    rw [hc]
    rfl
  simp only [Leaf.val, Leaf.prop, hsrc, Src.prop, needNum, bind, Except.bind, pure, Except.pure]

/-- a band that is the reference one with the conductivity scaled by `s` and the state density by `c` -/
structure Scaled (f g : BandFns) (s c : ℝ) : Prop where
  trs : ∀ E T, 0 < E → 0 < T → f.trs E T = s * g.trs E T
  idos : ∀ E, 0 < E → f.idos E = c * g.idos E
  hall : ∃ h k, f.hall = some h ∧ g.hall = some k ∧ ∀ E T, 0 < E → 0 < T → h E T = s ^ 2 / c * k E T

theorem scaled_vals {f g : BandFns} {s c : ℝ} (h : Scaled f g s c) (hs : 0 < s) (hc : 0 < c) (EF T : ℝ) (hT : 0 < T) :
    (f.leaf 1).val .C EF T = s * (g.leaf 1).val .C EF T ∧ (f.leaf 1).val .N EF T = c * (g.leaf 1).val .N EF T ∧
    (f.leaf 1).val .NH EF T = c * (g.leaf 1).val .NH EF T ∧ (f.leaf 1).val .S EF T = (g.leaf 1).val .S EF T ∧
    (f.leaf 1).val .L EF T = (g.leaf 1).val .L EF T := by
  obtain ⟨hf, hg, h1, h2, h3⟩ := h.hall
  obtain ⟨a1, a2, a3, a4, a5⟩ := leaf_val f hf h1 EF T
  obtain ⟨b1, b2, b3, b4, b5⟩ := leaf_val g hg h2 EF T
  have t := fun k => rombDfx_smul s f.trs g.trs EF T hT (fun E hE => h.trs E T hE hT) k
  have i := rombDfx_smul c (fun E _ => f.idos E) (fun E _ => g.idos E) EF T hT (fun E hE => h.idos E hE) 0
  have l := rombDfx_smul (s ^ 2 / c) hf hg EF T hT (fun E hE => h3 E T hE hT) 0
  refine ⟨?_, ?_, ?_, ?_, ?_⟩
  · rw [a1, b1, t]
  · rw [a2, b2, i]
  · rw [a5, b5, t, l]
    have hq := qe_pos
    by_cases hz : rombDfx hg 0 EF T = 0
    · simp [hz]
    · field_simp
  · rw [a3, b3, t, t]
    rw [mul_left_comm, mul_div_mul_left _ _ hs.ne']
  · rw [a4, b4, t, t, t, mul_div_mul_left _ _ hs.ne', mul_div_mul_left _ _ hs.ne']

theorem hallFactor_scale (m_d s T : ℝ) (hm : 0 < m_d) (hT : 0 < T) :
    hallFactor m_d s T = s ^ 2 / m_d ^ (3 / 2 : ℝ) * hallFactor 1 1 T := by
  have h1 := me_pos
  have h2 := qe_pos
  have h3 := kB_pos
  have h4 := hbar_pos
  have h5 := pi_pos
  have e : hallN0 m_d T = m_d ^ (3 / 2 : ℝ) * hallN0 1 T := by
    unfold hallN0
    rw [← mul_div_assoc, ← mul_rpow hm.le (by positivity)]
    congr 2
    ring
  have hp : 0 < hallN0 1 T := by
    unfold hallN0
    have := rpow_pos_of_pos (show 0 < 2 * 1 * me * kB * qe * T by positivity) (3 / 2 : ℝ)
    positivity
  have hm' := rpow_pos_of_pos hm (3 / 2 : ℝ)
  unfold hallFactor
  rw [e]
  field_simp

theorem spb_scaled (b : Spb) (hm : 0 < b.m_d) : Scaled b.fns (Spb.fns ⟨1, 1, b.Kmass⟩) b.sigma0 (b.m_d ^ (3 / 2 : ℝ)) where
  trs E T _ _ := by
    show b.trs E T = b.sigma0 * Spb.trs ⟨1, 1, b.Kmass⟩ E T
    unfold Spb.trs
    ring
  idos E hE := by
    show b.idos E = b.m_d ^ (3 / 2 : ℝ) * Spb.idos ⟨1, 1, b.Kmass⟩ E
    have h1 := me_pos
    have h2 := qe_pos
    unfold Spb.idos
    have : 2 * b.m_d * me * qe * E = b.m_d * (2 * 1 * me * qe * E) := by ring
    rw [this, mul_rpow hm.le (by positivity)]
    ring
  hall := ⟨_, _, rfl, rfl, fun E T _ hT => by
    show b.hall E T = _ * Spb.hall ⟨1, 1, b.Kmass⟩ E T
    unfold Spb.hall
    rw [hallFactor_scale b.m_d b.sigma0 T hm hT]
    ring⟩

theorem skb_scaled (b : Skb) (hm : 0 < b.m_d) (hg : 0 < b.Eg) :
    Scaled b.fns (Skb.fns ⟨1, 1, b.Eg, b.Kmass⟩) b.sigma0 (b.m_d ^ (3 / 2 : ℝ)) where
  trs E T _ _ := by
    show b.trs E T = b.sigma0 * Skb.trs ⟨1, 1, b.Eg, b.Kmass⟩ E T
    unfold Skb.trs
    ring
  idos E hE := by
    show b.idos E = b.m_d ^ (3 / 2 : ℝ) * Skb.idos ⟨1, 1, b.Eg, b.Kmass⟩ E
    have h1 := me_pos
    have h2 := qe_pos
    unfold Skb.idos
    have : 2 * b.m_d * me * qe * E * (1 + E / b.Eg) = b.m_d * (2 * 1 * me * qe * E * (1 + E / b.Eg)) := by ring
    simp only
    rw [this, mul_rpow hm.le (by positivity)]
    ring
  hall := ⟨_, _, rfl, rfl, fun E T _ hT => by
    show b.hall E T = _ * Skb.hall ⟨1, 1, b.Eg, b.Kmass⟩ E T
    unfold Skb.hall
    rw [hallFactor_scale b.m_d b.sigma0 T hm hT]
    ring⟩

theorem ref_pos (Kmass Eg : ℝ) (hK : 0 < Kmass) (hg : 0 < Eg) (EF T : ℝ) (hT : 0 < T) :
    (0 < ((Spb.fns ⟨1, 1, Kmass⟩).leaf 1).val .C EF T ∧ 0 < ((Spb.fns ⟨1, 1, Kmass⟩).leaf 1).val .N EF T ∧
      0 < ((Spb.fns ⟨1, 1, Kmass⟩).leaf 1).val .NH EF T) ∧
    (0 < ((Skb.fns ⟨1, 1, Eg, Kmass⟩).leaf 1).val .C EF T ∧ 0 < ((Skb.fns ⟨1, 1, Eg, Kmass⟩).leaf 1).val .N EF T ∧
      0 < ((Skb.fns ⟨1, 1, Eg, Kmass⟩).leaf 1).val .NH EF T) := by
  obtain ⟨h1, h2⟩ := hallModels ⟨1, 1, Kmass⟩ one_pos one_pos hK ⟨1, 1, Eg, Kmass⟩ one_pos one_pos hg hK
  have hq := qe_pos
  constructor
  · obtain ⟨-, i2, i3, i4⟩ := hall_integrals _ _ _ h1 EF T hT
    obtain ⟨a1, a2, -, -, a5⟩ := leaf_val _ _ h1.1 EF T
    rw [a1, a2, a5]
    exact ⟨i4, i3, by positivity⟩
  · obtain ⟨-, i2, i3, i4⟩ := hall_integrals _ _ _ h2 EF T hT
    obtain ⟨a1, a2, -, -, a5⟩ := leaf_val _ _ h2.1 EF T
    rw [a1, a2, a5]
    exact ⟨i4, i3, by positivity⟩

/-- **C102** If the root finder returns the Fermi level that generated the Seebeck coefficient, `APSSPB.valuate` recovers the
parameters of the band from its data: the Lorenz number, `sigma0`, the weighted mobility, the mass (from the concentration or
from the Hall concentration) and the concentration at the optimal Fermi level. -/
theorem C102_spb (b : Spb) (hm : 0 < b.m_d) (hs : 0 < b.sigma0) (hK : 0 < b.Kmass) (EF T : ℝ) (hT : 0 < T) (hall : Bool)
    (K : Option ℝ) (solve : ℝ → ℝ → ℝ) (band : Leaf ℝ) (hband : band = b.fns.leaf 1) (hsolve : solve (band.val .S EF T) T = EF) :
    let pN : TProp := if hall then .NH else .N
    let out := Spb.valuate solve (band.val .S EF T) (some T) (some (band.val .C EF T)) (some (band.val pN EF T)) K hall b.Kmass
    Reports out "L" (band.val .L EF T) ∧ Reports out "sigma0" b.sigma0 ∧ Reports out "UWT" (uwtOf b.sigma0) ∧
    Reports out "PFmax" (b.sigma0 * sigma0ToPFmax) ∧ Reports out "m_d" b.m_d ∧
    Reports out "Nopt" (band.val pN (yitaOpt * kB * T) T) ∧
    Reports out "Ke" (1 / 10 ^ 6 * band.val .L EF T * (band.val .C EF T * T)) := by
  subst hband
  have hm' := rpow_pos_of_pos hm (3 / 2 : ℝ)
  obtain ⟨c1, c2, c3, -, c5⟩ := scaled_vals (spb_scaled b hm) hs hm' EF T hT
  obtain ⟨-, d2, d3, -, -⟩ := scaled_vals (spb_scaled b hm) hs hm' (yitaOpt * kB * T) T hT
  obtain ⟨⟨r1, r2, r3⟩, -⟩ := ref_pos b.Kmass 1 hK one_pos EF T hT
  intro pN out
  have cN : (b.fns.leaf 1).val pN EF T = b.m_d ^ (3 / 2 : ℝ) * ((Spb.fns ⟨1, 1, b.Kmass⟩).leaf 1).val pN EF T := by
    cases hall
    · exact c2
    · exact c3
  have dN : (b.fns.leaf 1).val pN (yitaOpt * kB * T) T =
      b.m_d ^ (3 / 2 : ℝ) * ((Spb.fns ⟨1, 1, b.Kmass⟩).leaf 1).val pN (yitaOpt * kB * T) T := by
    cases hall
    · exact d2
    · exact d3
  have rN : 0 < ((Spb.fns ⟨1, 1, b.Kmass⟩).leaf 1).val pN EF T := by
    cases hall
    · exact r2
    · exact r3
  have e1 : (b.fns.leaf 1).val .C EF T / ((Spb.fns ⟨1, 1, b.Kmass⟩).leaf 1).val .C EF T = b.sigma0 := by
    rw [c1]; field_simp
  have e2 : (b.fns.leaf 1).val pN EF T / ((Spb.fns ⟨1, 1, b.Kmass⟩).leaf 1).val pN EF T = b.m_d ^ (3 / 2 : ℝ) := by
    rw [cN]; field_simp
  have e3 : (b.m_d ^ (3 / 2 : ℝ)) ^ (2 / 3 : ℝ) = b.m_d := by
    rw [← rpow_mul hm.le]; norm_num
  have hout : out = ("L", (b.fns.leaf 1).val .L EF T) :: (valuateC ((b.fns.leaf 1).val .L EF T) T (some ((b.fns.leaf 1).val .C EF T)) K
      (((Spb.fns ⟨1, 1, b.Kmass⟩).leaf 1).val .C EF T) ++
      [("PFmax", b.sigma0 * sigma0ToPFmax)] ++ [("m_d", b.m_d), ("Nopt", (b.fns.leaf 1).val pN (yitaOpt * kB * T) T)]) := by
    show Spb.valuate _ _ _ _ _ _ _ _ = _
    unfold Spb.valuate
    simp only [hsolve]
    rw [c5.symm, e1]
    have e2' := e2
    have dN' := dN
    simp only [pN] at e2' dN'
    rw [e2', e3, ← dN']
  unfold Reports
  rw [hout]
  unfold valuateC
  simp only [e1]
  refine ⟨by simp, ?_, ?_, by simp, by simp, by simp, by simp⟩
  · cases K <;> simp
  · cases K <;> simp [uwtOf]

/-- **C102** The same for the Kane model with the same gap. -/
theorem C102_skb (b : Skb) (hm : 0 < b.m_d) (hs : 0 < b.sigma0) (hg : 0 < b.Eg) (hK : 0 < b.Kmass) (EF T : ℝ) (hT : 0 < T)
    (hall : Bool) (K : Option ℝ) (solve : ℝ → ℝ → ℝ) (band : Leaf ℝ) (hband : band = b.fns.leaf 1)
    (hsolve : solve (band.val .S EF T) T = EF) :
    let pN : TProp := if hall then .NH else .N
    ∃ out, Skb.valuate solve (band.val .S EF T) T (some (band.val .C EF T)) (some (band.val pN EF T)) K b.Eg hall b.Kmass =
      .ok out ∧ Reports out "L" (band.val .L EF T) ∧ Reports out "sigma0" b.sigma0 ∧ Reports out "UWT" (uwtOf b.sigma0) ∧
      Reports out "m_d" b.m_d ∧ Reports out "Ke" (1 / 10 ^ 6 * band.val .L EF T * (band.val .C EF T * T)) := by
  subst hband
  have hm' := rpow_pos_of_pos hm (3 / 2 : ℝ)
  obtain ⟨c1, c2, c3, -, c5⟩ := scaled_vals (skb_scaled b hm hg) hs hm' EF T hT
  obtain ⟨-, ⟨r1, r2, r3⟩⟩ := ref_pos b.Kmass b.Eg hK hg EF T hT
  intro pN
  have cN : (b.fns.leaf 1).val pN EF T = b.m_d ^ (3 / 2 : ℝ) * ((Skb.fns ⟨1, 1, b.Eg, b.Kmass⟩).leaf 1).val pN EF T := by
    cases hall
    · exact c2
    · exact c3
  have rN : 0 < ((Skb.fns ⟨1, 1, b.Eg, b.Kmass⟩).leaf 1).val pN EF T := by
    cases hall
    · exact r2
    · exact r3
  have e1 : (b.fns.leaf 1).val .C EF T / ((Skb.fns ⟨1, 1, b.Eg, b.Kmass⟩).leaf 1).val .C EF T = b.sigma0 := by
    rw [c1]; field_simp
  have e2 : (b.fns.leaf 1).val pN EF T / ((Skb.fns ⟨1, 1, b.Eg, b.Kmass⟩).leaf 1).val pN EF T = b.m_d ^ (3 / 2 : ℝ) := by
    rw [cN]; field_simp
  have e3 : (b.m_d ^ (3 / 2 : ℝ)) ^ (2 / 3 : ℝ) = b.m_d := by
    rw [← rpow_mul hm.le]; norm_num
  refine ⟨("L", (b.fns.leaf 1).val .L EF T) :: (valuateC ((b.fns.leaf 1).val .L EF T) T (some ((b.fns.leaf 1).val .C EF T)) K
      (((Skb.fns ⟨1, 1, b.Eg, b.Kmass⟩).leaf 1).val .C EF T) ++ [("m_d", b.m_d)]), ?_, ?_⟩
  · unfold Skb.valuate Skb.make
    rw [if_pos hg]
    simp only [bind, Except.bind, pure, Except.pure, hsolve]
    rw [c5.symm]
    have e2' := e2
    simp only [pN] at e2'
    rw [e2', e3]
  · unfold Reports valuateC
    simp only [e1]
    refine ⟨by simp, ?_, ?_, by simp, by simp⟩
    · cases K <;> simp
    · cases K <;> simp [uwtOf]

/-- the hypothesis on the root finder can be met -/
example (b : Spb) (EF T : ℝ) : ∃ solve : ℝ → ℝ → ℝ, solve ((b.fns.leaf 1).val .S EF T) T = EF := ⟨fun _ _ => EF, rfl⟩

end TEflow.Bandlib
