import Mathlib.Tactic
import Mathlib.Analysis.Real.Pi.Bounds
import Verif.Model.KappaScat
import Verif.Spec.Kappa

/-! # C87-C89: scattering mechanisms -/

open Real
open TEflow.KappaSpec (threePhonon pointDefect grainBoundary nanoparticles dislocationCore dislocationStrain stackingFaults
  electronCoef ziman)

namespace TEflow.Kappa

/-- positive and growing with the frequency -/
def Physical (rate : ℝ → ℝ → ℝ) : Prop :=
  (∀ w T, 0 ≤ w → 0 < T → 0 ≤ rate w T) ∧ (∀ w w' T, 0 ≤ w → w ≤ w' → 0 < T → rate w T ≤ rate w' T)

theorem physical_mul {f : ℝ → ℝ → ℝ} {c : ℝ → ℝ} (hc : ∀ T, 0 < T → 0 ≤ c T) (h : Physical f) :
    Physical fun w T => c T * f w T :=
  ⟨fun w T hw hT => mul_nonneg (hc T hT) (h.1 w T hw hT),
   fun w w' T hw hww hT => mul_le_mul_of_nonneg_left (h.2 w w' T hw hww hT) (hc T hT)⟩

theorem physical_pow (n : Nat) : Physical fun w _ => w ^ n :=
  ⟨fun w _ hw _ => pow_nonneg hw n, fun _ _ _ hw hww _ => pow_le_pow_left₀ hw hww n⟩

theorem physical_add {f g : ℝ → ℝ → ℝ} (hf : Physical f) (hg : Physical g) : Physical fun w T => f w T + g w T :=
  ⟨fun w T hw hT => add_nonneg (hf.1 w T hw hT) (hg.1 w T hw hT),
   fun w w' T hw hww hT => add_le_add (hf.2 w w' T hw hww hT) (hg.2 w w' T hw hww hT)⟩

/-! ## three phonons -/

/-- **C87** Three-phonon rates with a non-negative coefficient are non-negative and do not fall with the frequency. -/
theorem C87_threephonon (m : Ph) (hc : 0 ≤ m.coef) : Physical m.rate := by
  have := physical_mul (c := fun T => 10 ^ 12 * m.coef * T * exp (-m.theta / (3 * T)))
    (fun T hT => by positivity) (physical_pow 2)
  refine ⟨fun w T hw hT => ?_, fun w w' T hw hww hT => ?_⟩
  · have h := this.1 w T hw hT
    unfold Ph.rate
    linarith
  · have h := this.2 w w' T hw hww hT
    unfold Ph.rate
    linarith

/-- the coefficient is non-negative for physical parameters -/
theorem ph_coef_nonneg (gm vs Va Ma A Th : ℝ) (hv : 0 < vs) (hV : 0 ≤ Va) (hM : 0 < Ma) (hA : 0 ≤ A) :
    0 ≤ (Ph.formula gm vs Va Ma A Th).coef := by
  unfold Ph.coef
  positivity

theorem rpow_scale {a b : ℝ} (n : Nat) (p : ℝ) (ha : 0 < a) (hb : 0 ≤ b) (h : a ^ p = (1 / 10 : ℝ) ^ n) :
    (a * b) ^ p = (1 / 10) ^ n * b ^ p := by
  rw [mul_rpow ha.le hb, h]

theorem tenth_pow {m n : Nat} {p : ℝ} (h : (m : ℝ) * p = n) : ((1 / 10 : ℝ) ^ m) ^ p = (1 / 10) ^ n := by
  rw [← rpow_natCast, ← rpow_mul (by norm_num), h, rpow_natCast]

/-- **C87** The three-phonon rate is the documented one, with the unit of `M_a` being the neutron mass: the parameters in km/s,
cubic angstroms and mass units, the frequency in rad/ps, the rate in THz. -/
theorem C87_threephonon_units (gm vs Va Ma A Th w T : ℝ) (hV : 0 ≤ Va) (hv : vs ≠ 0) (hM : Ma ≠ 0) :
    (Ph.formula gm vs Va Ma A Th).rate w T =
      1 / 10 ^ 12 * threePhonon KappaSpec.neutron A gm (10 ^ 3 * vs) ((1 / 10) ^ 30 * Va) Ma Th (10 ^ 12 * w) T := by
  have e : ((1 / 10 : ℝ) ^ 30 * Va) ^ (1 / 3 : ℝ) = (1 / 10) ^ 10 * Va ^ (1 / 3 : ℝ) :=
    rpow_scale 10 _ (by positivity) hV (tenth_pow (by norm_num))
  have e2 : -Th / (3 * T) = -(Th / (3 * T)) := by ring
  unfold threePhonon Ph.rate Ph.coef Ph.theta KappaSpec.neutron KappaSpec.kB
  simp only [e, e2]
  field_simp
  norm_num

/-- **C87** (finding) Although `Ma` is documented in atomic mass units, the coefficient uses the neutron mass as the unit: the
rate is the documented one divided by 1.00866. -/
theorem C87_mass_unit (gm vs Va Ma A Th w T : ℝ) (hV : 0 ≤ Va) (hv : vs ≠ 0) (hM : Ma ≠ 0) :
    (Ph.formula gm vs Va Ma A Th).rate w T * (KappaSpec.neutron / KappaSpec.amu) =
      1 / 10 ^ 12 * threePhonon KappaSpec.amu A gm (10 ^ 3 * vs) ((1 / 10) ^ 30 * Va) Ma Th (10 ^ 12 * w) T ∧
    1008 / 1000 < KappaSpec.neutron / KappaSpec.amu ∧ KappaSpec.neutron / KappaSpec.amu < 1009 / 1000 := by
  refine ⟨?_, ?_, ?_⟩
  · rw [C87_threephonon_units gm vs Va Ma A Th w T hV hv hM]
    unfold threePhonon KappaSpec.neutron KappaSpec.amu
    field_simp
  · unfold KappaSpec.neutron KappaSpec.amu; norm_num
  · unfold KappaSpec.neutron KappaSpec.amu; norm_num

/-- **C87** Giving the coefficient of the formula directly gives the same rate. -/
theorem C87_threephonon_direct (gm vs Va Ma A Th w T : ℝ) :
    (Ph.direct (Ph.formula gm vs Va Ma A Th).coef Th).rate w T = (Ph.formula gm vs Va Ma A Th).rate w T := rfl

/-- **C87** The constructor needs `gm`, `vs`, `Va`, `Ma` (and `A`, `Theta` not `None`) or the coefficient; nothing else. -/
theorem C87_threephonon_args (a : PhArgs) :
    (∃ m, Ph.make a = .ok m) ↔ (a.Theta ≠ none ∧
      (a.coef ≠ none ∨ (a.gm ≠ none ∧ a.vs ≠ none ∧ a.Va ≠ none ∧ a.Ma ≠ none ∧ a.A ≠ none))) := by
  obtain ⟨gm, vs, Va, Ma, A, Th, c⟩ := a
  unfold Ph.make
  cases c <;> cases Th <;> cases gm <;> cases vs <;> cases Va <;> cases Ma <;> cases A <;> simp

/-- **C87** What a three-phonon object computes, in terms of the constructor's arguments: a given coefficient takes precedence,
otherwise the formula with the named arguments is used. -/
theorem C87_threephonon_made (a : PhArgs) (m : Ph) (h : Ph.make a = .ok m) (w T : ℝ) :
    (∀ c, a.coef = some c → ∃ Th, a.Theta = some Th ∧ m.rate w T = (Ph.direct (coef := c) (Theta := Th)).rate w T) ∧
    (a.coef = none → ∃ gm vs Va Ma A Th, a.gm = some gm ∧ a.vs = some vs ∧ a.Va = some Va ∧ a.Ma = some Ma ∧ a.A = some A ∧
      a.Theta = some Th ∧ m.rate w T = (Ph.formula (gm := gm) (vs := vs) (Va := Va) (Ma := Ma) (A := A) (Theta := Th)).rate w T) := by
  obtain ⟨gm, vs, Va, Ma, A, Th, c⟩ := a
  unfold Ph.make at h
  cases c <;> cases Th <;> cases gm <;> cases vs <;> cases Va <;> cases Ma <;> cases A <;> simp at h <;> subst h <;> simp

/-! ## point defects -/

/-- **C87** Point-defect rates -/
theorem C87_pointdefect (m : Pd) (hc : 0 ≤ m.coef) : Physical m.rate :=
  physical_mul (c := fun _ => 10 ^ 36 * m.coef) (fun _ _ => by positivity) (physical_pow 4)

/-- **C87** Point defects: the documented formula in SI units -/
theorem C87_pointdefect_units (vs Va G w T : ℝ) (hv : vs ≠ 0) :
    (Pd.formula vs Va G).rate w T = 1 / 10 ^ 12 * pointDefect (10 ^ 3 * vs) ((1 / 10) ^ 30 * Va) G (10 ^ 12 * w) ∧
    (Pd.direct (Pd.formula vs Va G).coef).rate w T = (Pd.formula vs Va G).rate w T := by
  refine ⟨?_, rfl⟩
  unfold pointDefect Pd.rate Pd.coef
  field_simp

/-- **C87** Point defects: required arguments -/
theorem C87_pointdefect_args (a : PdArgs) :
    (∃ m, Pd.make a = .ok m) ↔ (a.coef ≠ none ∨ (a.vs ≠ none ∧ a.Va ≠ none ∧ a.G ≠ none)) := by
  obtain ⟨vs, Va, G, c⟩ := a
  unfold Pd.make
  cases c <;> cases vs <;> cases Va <;> cases G <;> simp

/-- **C87** What a point-defect object computes, in terms of the constructor's arguments -/
theorem C87_pointdefect_made (a : PdArgs) (m : Pd) (h : Pd.make a = .ok m) (w T : ℝ) :
    (∀ c, a.coef = some c → m.rate w T = (Pd.direct (coef := c)).rate w T) ∧
    (a.coef = none → ∃ vs Va G, a.vs = some vs ∧ a.Va = some Va ∧ a.G = some G ∧
      m.rate w T = (Pd.formula (vs := vs) (Va := Va) (G := G)).rate w T) := by
  obtain ⟨vs, Va, G, c⟩ := a
  unfold Pd.make at h
  cases c <;> cases vs <;> cases Va <;> cases G <;> simp at h <;> subst h <;> simp

/-! ## grain boundaries -/

/-- **C87** Grain boundaries: documented formula, constant in frequency and temperature, falling with the grain size -/
theorem C87_grainboundary (m : Gb) (ha : 0 ≤ m.alpha) (hv : 0 ≤ m.vs) (hL : 0 < m.L) :
    Physical m.rate ∧ (∀ w T, m.rate w T = 1 / 10 ^ 12 * grainBoundary m.alpha (10 ^ 3 * m.vs) ((1 / 10) ^ 6 * m.L)) ∧
    ∀ L' w T, m.L ≤ L' → ({ m with L := L' } : Gb).rate w T ≤ m.rate w T := by
  refine ⟨⟨fun _ _ _ _ => ?_, fun _ _ _ _ _ _ => le_refl _⟩, fun w T => ?_, fun L' w T h => ?_⟩
  · unfold Gb.rate; positivity
  · unfold Gb.rate grainBoundary; field_simp
  · unfold Gb.rate
    have hL' : 0 < L' := lt_of_lt_of_le hL h
    exact div_le_div_of_nonneg_left (by positivity) hL h

/-! ## nanoparticles -/

theorem np_ratio_nonneg (m : Np) (w : ℝ) : 0 ≤ m.ratio w := by
  unfold Np.ratio
  have e : (w * m.R / m.vs) ^ 4 = ((w * m.R / m.vs) ^ 2) ^ 2 := by ring
  have e8 : m.alpha ^ 8 = (m.alpha ^ 4) ^ 2 := by ring
  rw [e, e8]
  positivity

/-- **C87** Nanoparticles: non-negative, growing with the frequency, below the geometric limit, and tending to it -/
theorem C87_nanoparticles (m : Np) (hv : 0 < m.vs) (hR : 0 < m.R) (hp : 0 ≤ m.phi) :
    Physical m.rate ∧ (∀ w T, m.rate w T ≤ m.geom) ∧
    (m.D0 ≠ 0 → m.D1 ≠ m.D0 → m.alpha ≠ 0 → ∀ T, Filter.Tendsto (fun w => m.rate w T) Filter.atTop (nhds m.geom)) := by
  have hg : 0 ≤ m.geom := by unfold Np.geom; positivity
  have mono : ∀ w w', 0 ≤ w → w ≤ w' → m.ratio w ≤ m.ratio w' := by
    intro w w' hw hww
    unfold Np.ratio
    have e8 : m.alpha ^ 8 = (m.alpha ^ 4) ^ 2 := by ring
    rw [e8]
    gcongr
  have form : ∀ w T, m.rate w T = m.geom * (1 - 1 / (1 + m.ratio w)) := by
    intro w T
    have := np_ratio_nonneg m w
    unfold Np.rate
    field_simp
    ring
  refine ⟨⟨fun w T hw hT => ?_, fun w w' T hw hww hT => ?_⟩, fun w T => ?_, fun hD0 hD hal T => ?_⟩
  · have := np_ratio_nonneg m w
    unfold Np.rate
    positivity
  · rw [form, form]
    have h1 := np_ratio_nonneg m w
    have h2 := np_ratio_nonneg m w'
    apply mul_le_mul_of_nonneg_left _ hg
    have := one_div_le_one_div_of_le (by linarith : 0 < 1 + m.ratio w) (by linarith [mono w w' hw hww] : 1 + m.ratio w ≤ 1 + m.ratio w')
    linarith
  · rw [form]
    have h1 := np_ratio_nonneg m w
    have : 0 ≤ 1 / (1 + m.ratio w) := by positivity
    nlinarith
  · have hk : 0 < 8 / 9 * (1 / 4 * m.alpha ^ 2 * (1 - m.D1 / m.D0) ^ 2 + 3 * m.alpha ^ 8 * (1 - m.Y1 / m.Y0) ^ 2) * (m.R / m.vs) ^ 4 := by
      have h1 : 1 - m.D1 / m.D0 ≠ 0 := by
        intro h
        apply hD
        field_simp at h
        linarith
      have e8 : m.alpha ^ 8 = (m.alpha ^ 4) ^ 2 := by ring
      rw [e8]
      have : 0 < (1 - m.D1 / m.D0) ^ 2 := by positivity
      positivity
    have hr : Filter.Tendsto m.ratio Filter.atTop Filter.atTop := by
      have : m.ratio = fun w => 8 / 9 * (1 / 4 * m.alpha ^ 2 * (1 - m.D1 / m.D0) ^ 2 + 3 * m.alpha ^ 8 * (1 - m.Y1 / m.Y0) ^ 2) * (m.R / m.vs) ^ 4 * w ^ 4 := by
        funext w
        unfold Np.ratio
        ring
      rw [this]
      exact (Filter.tendsto_pow_atTop (by norm_num)).const_mul_atTop hk
    have h0 : Filter.Tendsto (fun w => (1 + m.ratio w)⁻¹) Filter.atTop (nhds 0) :=
      tendsto_inv_atTop_zero.comp (Filter.tendsto_atTop_add_const_left _ _ hr)
    have := (h0.const_sub 1).const_mul m.geom
    simp only [sub_zero, mul_one] at this
    refine this.congr fun w => ?_
    rw [form, one_div]

/-- **C87** Nanoparticles: the documented formula in SI units (whenever a contrast and a frequency make the Rayleigh cross
section non-zero), with the number density or the volume fraction. -/
theorem C87_nanoparticles_units (N1 vs R D0 D1 Y0 Y1 al w T : ℝ) (hv : 0 < vs) (hR : 0 < R) (hD : D0 ≠ 0) (hY : Y0 ≠ 0)
    (hr : (⟨.density N1, vs, R, D0, D1, Y0, Y1, al⟩ : Np).ratio w ≠ 0) :
    (⟨.density N1, vs, R, D0, D1, Y0, Y1, al⟩ : Np).rate w T =
      1 / 10 ^ 12 * nanoparticles (10 ^ 21 * N1) (10 ^ 3 * vs) ((1 / 10) ^ 9 * R) D0 D1 Y0 Y1 al (10 ^ 12 * w) ∧
    (⟨.fraction (⟨.density N1, vs, R, D0, D1, Y0, Y1, al⟩ : Np).phi, vs, R, D0, D1, Y0, Y1, al⟩ : Np).rate w T =
      (⟨.density N1, vs, R, D0, D1, Y0, Y1, al⟩ : Np).rate w T := by
  refine ⟨?_, rfl⟩
  have hpi := pi_pos
  set m : Np := ⟨.density N1, vs, R, D0, D1, Y0, Y1, al⟩ with hm
  have h0 := np_ratio_nonneg m w
  have hc : 10 ^ 12 * w * ((1 / 10) ^ 9 * R) / (10 ^ 3 * vs) = w * R / vs := by
    field_simp
  set r := m.ratio w with hrdef
  have hray : 16 / 9 * π * ((1 / 10) ^ 9 * R) ^ 2 *
      (al ^ 2 / 4 * ((D1 - D0) / D0) ^ 2 + 3 * al ^ 8 * ((Y1 - Y0) / Y0) ^ 2) * (w * R / vs) ^ 4 =
      2 * π * ((1 / 10) ^ 9 * R) ^ 2 * r := by
    have e1 : (D1 - D0) / D0 = -(1 - D1 / D0) := by field_simp; ring
    have e2 : (Y1 - Y0) / Y0 = -(1 - Y1 / Y0) := by field_simp; ring
    rw [hrdef, e1, e2]
    simp only [Np.ratio, hm]
    ring
  unfold nanoparticles
  simp only [hc, hray]
  have hrr : r ≠ 0 := hr
  have h1r : (1 : ℝ) + r ≠ 0 := by positivity
  unfold Np.rate Np.geom Np.phi
  simp only [hm] at hrdef ⊢
  rw [← hrdef]
  field_simp
  ring

/-- **C87** Nanoparticles: required arguments; a volume fraction takes precedence over the number density. -/
theorem C87_nanoparticles_args (a : NpArgs) :
    ((∃ m, Np.make a = .ok m) ↔ ((a.phi ≠ none ∨ a.N1 ≠ none) ∧ a.vs ≠ none ∧ a.R ≠ none ∧ a.D0 ≠ none ∧ a.D1 ≠ none ∧
      a.Y0 ≠ none ∧ a.Y1 ≠ none ∧ a.alpha ≠ none)) ∧
    ∀ p m, a.phi = some p → Np.make a = .ok m → m.phi = p := by
  obtain ⟨N1, vs, R, D0, D1, Y0, Y1, al, phi⟩ := a
  unfold Np.make
  refine ⟨?_, ?_⟩
  · cases vs <;> cases R <;> cases D0 <;> cases D1 <;> cases Y0 <;> cases Y1 <;> cases al <;> cases phi <;> cases N1 <;> simp
  · intro p m hp hm
    simp only at hp
    subst hp
    cases vs <;> cases R <;> cases D0 <;> cases D1 <;> cases Y0 <;> cases Y1 <;> cases al <;> simp at hm
    subst hm
    rfl

/-- **C87** What a nanoparticle object holds, in terms of the constructor's arguments -/
theorem C87_nanoparticles_made (a : NpArgs) (m : Np) (h : Np.make a = .ok m) :
    a.vs = some m.vs ∧ a.R = some m.R ∧ a.D0 = some m.D0 ∧ a.D1 = some m.D1 ∧ a.Y0 = some m.Y0 ∧ a.Y1 = some m.Y1 ∧
    a.alpha = some m.alpha ∧
    (∀ p, a.phi = some p → m.amount = .fraction p) ∧ (a.phi = none → ∃ n, a.N1 = some n ∧ m.amount = .density n) := by
  obtain ⟨N1, vs, R, D0, D1, Y0, Y1, al, phi⟩ := a
  unfold Np.make at h
  cases vs <;> cases R <;> cases D0 <;> cases D1 <;> cases Y0 <;> cases Y1 <;> cases al <;> cases phi <;> cases N1 <;>
    simp at h <;> subst h <;> simp

/-! ## dislocations, stacking faults, Cahill -/

theorem dlConst_close : |dlConst - 2 ^ (11 / 2 : ℝ) / 3 ^ (7 / 2 : ℝ)| ≤ 1 / 10 ^ 15 := by
  set c := (2 : ℝ) ^ (11 / 2 : ℝ) / 3 ^ (7 / 2 : ℝ) with hc
  have c0 : 0 < c := by positivity
  have c2 : c ^ 2 = 2048 / 2187 := by
    rw [hc, div_pow, ← rpow_natCast, ← rpow_natCast, ← rpow_mul (by norm_num), ← rpow_mul (by norm_num)]
    norm_num
  have lo : dlConst - 1 / 10 ^ 15 ≤ c := by
    apply le_of_sq_le_sq _ c0.le
    rw [c2]
    unfold dlConst
    norm_num
  have hi : c ≤ dlConst + 1 / 10 ^ 15 := by
    apply le_of_sq_le_sq _ (by unfold dlConst; norm_num)
    rw [c2]
    unfold dlConst
    norm_num
  rw [abs_le]
  constructor <;> linarith

/-- **C87** Dislocations: physical for physical parameters; the strain part is the documented one up to the rounding of the
constant `2^(11/2)/3^(7/2)` in the sixteenth digit. -/
theorem C87_dislocations (m : Dl) (hN : 0 ≤ m.Nd) (hv : 0 < m.vs) (hV : 0 ≤ m.Va) (hF : 0 ≤ m.F) (ha : 0 ≤ m.alpha) :
    Physical m.rate ∧
    ∀ w T, 0 ≤ w → |m.rate w T - (m.alpha * m.Nd * m.core w +
        1 / 10 ^ 12 * dislocationStrain m.alpha m.F (10 ^ 14 * m.Nd) ((1 / 10) ^ 10 * m.Bd) m.gm (10 ^ 12 * w))| ≤
      1 / 10 ^ 15 * (m.alpha * m.Nd * m.F * m.strain w) := by
  have hC : 0 < dlConst := by unfold dlConst; norm_num
  constructor
  · have h1 := physical_mul (c := fun _ => m.alpha * m.Nd * (1 / 10 ^ 8 * m.Va ^ (4 / 3 : ℝ) / m.vs)) (fun _ _ => by positivity) (physical_pow 3)
    have h2 := physical_mul (c := fun _ => m.alpha * m.Nd * (dlConst * m.F * (1 / 10 ^ 6 * (m.Bd * m.gm) ^ 2))) (fun _ _ => by positivity) (physical_pow 1)
    have h3 := physical_add h1 h2
    have e : m.rate = fun w T => m.alpha * m.Nd * (1 / 10 ^ 8 * m.Va ^ (4 / 3 : ℝ) / m.vs) * w ^ 3 +
        m.alpha * m.Nd * (dlConst * m.F * (1 / 10 ^ 6 * (m.Bd * m.gm) ^ 2)) * w ^ 1 := by
      funext w T
      unfold Dl.rate Dl.core Dl.strain
      ring
    rw [e]
    exact h3
  · intro w T hw
    have hs : 0 ≤ m.alpha * m.Nd * m.F * m.strain w := by unfold Dl.strain; positivity
    have e : m.rate w T - (m.alpha * m.Nd * m.core w +
        1 / 10 ^ 12 * dislocationStrain m.alpha m.F (10 ^ 14 * m.Nd) ((1 / 10) ^ 10 * m.Bd) m.gm (10 ^ 12 * w)) =
        (dlConst - 2 ^ (11 / 2 : ℝ) / 3 ^ (7 / 2 : ℝ)) * (m.alpha * m.Nd * m.F * m.strain w) := by
      unfold Dl.rate Dl.strain dislocationStrain
      ring
    rw [e, abs_mul, abs_of_nonneg hs]
    exact mul_le_mul_of_nonneg_right dlConst_close hs

/-- **C87** (finding) The core part of the dislocation scattering is divided by the sound velocity once instead of twice: it is
the documented rate multiplied by the sound velocity in km/s, hence the documented one only at 1 km/s. -/
theorem C87_dislocation_core_wrong (m : Dl) (w : ℝ) (hv : 0 < m.vs) (hV : 0 < m.Va) (hN : 0 < m.Nd) (ha : 0 < m.alpha) (hw : 0 < w) :
    m.alpha * m.Nd * m.core w =
      m.vs * (1 / 10 ^ 12 * dislocationCore m.alpha (10 ^ 14 * m.Nd) ((1 / 10) ^ 30 * m.Va) (10 ^ 3 * m.vs) (10 ^ 12 * w)) ∧
    (m.alpha * m.Nd * m.core w =
      1 / 10 ^ 12 * dislocationCore m.alpha (10 ^ 14 * m.Nd) ((1 / 10) ^ 30 * m.Va) (10 ^ 3 * m.vs) (10 ^ 12 * w) ↔ m.vs = 1) := by
  have e : ((1 / 10 : ℝ) ^ 30 * m.Va) ^ (4 / 3 : ℝ) = (1 / 10) ^ 40 * m.Va ^ (4 / 3 : ℝ) :=
    rpow_scale 40 _ (by positivity) hV.le (tenth_pow (by norm_num))
  have hp : 0 < m.Va ^ (4 / 3 : ℝ) := by positivity
  have key : m.alpha * m.Nd * m.core w =
      m.vs * (1 / 10 ^ 12 * dislocationCore m.alpha (10 ^ 14 * m.Nd) ((1 / 10) ^ 30 * m.Va) (10 ^ 3 * m.vs) (10 ^ 12 * w)) := by
    unfold dislocationCore Dl.core
    rw [e]
    field_simp
  refine ⟨key, ?_⟩
  rw [key]
  have hd : 0 < 1 / 10 ^ 12 * dislocationCore m.alpha (10 ^ 14 * m.Nd) ((1 / 10) ^ 30 * m.Va) (10 ^ 3 * m.vs) (10 ^ 12 * w) := by
    unfold dislocationCore
    rw [e]
    positivity
  constructor
  · intro h
    exact mul_right_cancel₀ hd.ne' (by rw [h, one_mul])
  · intro h
    rw [h, one_mul]

/-- **C87** Stacking faults: documented formula and physical behaviour -/
theorem C87_stackingfaults (m : Sf) (hN : 0 ≤ m.Nsf) (hv : 0 < m.vs) (hV : 0 ≤ m.Va) (ha : 0 ≤ m.alpha) :
    Physical m.rate ∧ ∀ w T, m.rate w T =
      1 / 10 ^ 12 * stackingFaults m.alpha (10 ^ 6 * m.Nsf) ((1 / 10) ^ 30 * m.Va) (10 ^ 3 * m.vs) m.gm (10 ^ 12 * w) := by
  have e : ((1 / 10 : ℝ) ^ 30 * m.Va) ^ (2 / 3 : ℝ) = (1 / 10) ^ 20 * m.Va ^ (2 / 3 : ℝ) :=
    rpow_scale 20 _ (by positivity) hV (tenth_pow (by norm_num))
  constructor
  · have h := physical_mul (c := fun _ => 1 / 10 ^ 5 * m.alpha * m.Nsf * m.Va ^ (2 / 3 : ℝ) / m.vs * m.gm ^ 2)
      (fun _ _ => by positivity) (physical_pow 2)
    have e : m.rate = fun w T => 1 / 10 ^ 5 * m.alpha * m.Nsf * m.Va ^ (2 / 3 : ℝ) / m.vs * m.gm ^ 2 * w ^ 2 := by
      funext w T
      unfold Sf.rate
      ring
    rw [e]
    exact h
  · intro w T
    unfold Sf.rate stackingFaults
    rw [e]
    field_simp

/-- **C87** Cahill scattering: half the period limits the lifetime -/
theorem C87_cahill (alpha : ℝ) (ha : 0 ≤ alpha) : Physical (cahillRate alpha) ∧
    (∀ w T, w ≠ 0 → cahillRate 1 w T = (π / w)⁻¹) ∧ ∀ w T, cahillRate alpha w T = alpha * cahillRate 1 w T := by
  have hpi := pi_pos
  constructor
  · have h := physical_mul (c := fun _ => alpha / π) (fun _ _ => by positivity) (physical_pow 1)
    have e : cahillRate alpha = fun w T => alpha / π * w ^ 1 := by
      funext w T
      unfold cahillRate
      ring
    rw [e]
    exact h
  · constructor
    · intro w T hw
      unfold cahillRate
      field_simp
    · intro w T
      unfold cahillRate
      ring

/-! ## electrons -/

theorem ziman_form (recoil mv EF hw T : ℝ) (hT : 0 < T) (hh : 0 < hw) :
    ziman hw recoil mv EF T = log ((exp (hw / T / 2) + exp ((recoil + mv - EF) / T)) /
      (exp (-(hw / T / 2)) + exp ((recoil + mv - EF) / T))) / (hw / T) := by
  unfold ziman
  set x := hw / T with hx
  set y := (recoil + mv - EF) / T with hydef
  have hx0 : 0 < x := by positivity
  have e1 : (recoil + mv + hw / 2 - EF) / T = y + x / 2 := by rw [hx, hydef]; field_simp; ring
  have e2 : (recoil + mv - hw / 2 - EF) / T = y + -(x / 2) := by rw [hx, hydef]; field_simp; ring
  have e3 : T / hw = 1 / x := by rw [hx]; field_simp
  rw [e1, e2, e3, exp_add, exp_add, exp_neg]
  set p := exp y
  set s := exp (x / 2) with hs
  have hp : 0 < p := exp_pos _
  have hs0 : 0 < s := exp_pos _
  have hls : log s = x / 2 := by rw [hs, log_exp]
  have e5 : (1 + p * s) / (1 + p * s⁻¹) = s * ((1 + p * s) / (s + p)) := by field_simp
  have e6 : (s + p) / (s⁻¹ + p) = s * ((s + p) / (1 + p * s)) := by field_simp
  rw [e5, e6, log_mul hs0.ne' (by positivity), log_mul hs0.ne' (by positivity), hls,
    log_div (by positivity) (by positivity), log_div (by positivity) (by positivity)]
  field_simp
  ring

theorem rep_mono {x p p' : ℝ} (hx : 0 < x) (hp : 0 < p') (h : p' ≤ p) :
    log ((exp (x / 2) + p) / (exp (-(x / 2)) + p)) / x ≤ log ((exp (x / 2) + p') / (exp (-(x / 2)) + p')) / x := by
  have h1 : exp (-(x / 2)) < exp (x / 2) := exp_lt_exp.mpr (by linarith)
  have hn : 0 < exp (-(x / 2)) := exp_pos _
  have hq : 0 < exp (x / 2) := exp_pos _
  have hp0 : 0 < p := lt_of_lt_of_le hp h
  apply div_le_div_of_nonneg_right _ hx.le
  apply log_le_log (by positivity)
  rw [div_le_div_iff₀ (by positivity) (by positivity)]
  nlinarith

/-- **C88** The electron-phonon factor is Ziman's expression as long as its exponent is at most 23 (energies in kelvin;
`thwOf w` stands for the rounded `(ħω/4)²`, see `C88_constants`). -/
theorem C88_ziman (md vs EF w T : ℝ) (hT : 0 < T) (hw : 1 / 10 ^ 6 ≤ w)
    (hy : (thwOf w / tmvOf md vs + tmvOf md vs - EF / kBeV) / T ≤ 23) :
    repOf md vs EF w T = ziman (hbarKB * w) (thwOf w / tmvOf md vs) (tmvOf md vs) (EF / kBeV) T := by
  have hw0 : 0 < w := lt_of_lt_of_le (by norm_num) hw
  have hh : 0 < hbarKB := by unfold hbarKB; norm_num
  rw [ziman_form _ _ _ _ _ hT (by positivity)]
  unfold repOf
  simp only [max_eq_left hw, min_eq_left hy, neg_div]

/-- **C88** The factor lies strictly between 0 and 1, everywhere. -/
theorem C88_range (md vs EF w T : ℝ) (hT : 0 < T) : 0 < repOf md vs EF w T ∧ repOf md vs EF w T < 1 := by
  have hh : 0 < hbarKB := by unfold hbarKB; norm_num
  have hm : (0 : ℝ) < max w (1 / 10 ^ 6) := lt_of_lt_of_le (by norm_num) (le_max_right _ _)
  unfold repOf
  simp only
  set v := max w (1 / 10 ^ 6)
  set x := hbarKB * v / T with hx
  have hx0 : 0 < x := by positivity
  set p := exp (min ((thwOf v / tmvOf md vs + tmvOf md vs - EF / kBeV) / T) 23)
  have hp : 0 < p := exp_pos _
  have e4 : -x / 2 = -(x / 2) := by ring
  rw [e4]
  have h1 : exp (-(x / 2)) < exp (x / 2) := exp_lt_exp.mpr (by linarith)
  have hn : 0 < exp (-(x / 2)) := exp_pos _
  constructor
  · apply div_pos _ hx0
    apply log_pos
    rw [lt_div_iff₀ (by positivity)]
    linarith
  · rw [div_lt_one hx0, ← exp_lt_exp, exp_log (by positivity), div_lt_iff₀ (by positivity), mul_add, ← exp_add]
    have e5 : x + -(x / 2) = x / 2 := by ring
    rw [e5]
    have : 1 < exp x := by
      have := add_one_lt_exp hx0.ne'
      linarith
    nlinarith

/-- **C88** Above the exponent 23 the factor no longer depends on the Fermi level or the mass: it stays at the value reached
there, which is at least Ziman's expression. -/
theorem C88_saturation (md vs EF w T : ℝ) (hT : 0 < T) (hw : 1 / 10 ^ 6 ≤ w)
    (hy : 23 ≤ (thwOf w / tmvOf md vs + tmvOf md vs - EF / kBeV) / T) :
    repOf md vs EF w T = log ((exp (hbarKB * w / T / 2) + exp 23) / (exp (-(hbarKB * w / T / 2)) + exp 23)) / (hbarKB * w / T) ∧
    ziman (hbarKB * w) (thwOf w / tmvOf md vs) (tmvOf md vs) (EF / kBeV) T ≤ repOf md vs EF w T := by
  have hw0 : 0 < w := lt_of_lt_of_le (by norm_num) hw
  have hh : 0 < hbarKB := by unfold hbarKB; norm_num
  have e : repOf md vs EF w T = log ((exp (hbarKB * w / T / 2) + exp 23) / (exp (-(hbarKB * w / T / 2)) + exp 23)) / (hbarKB * w / T) := by
    unfold repOf
    simp only [max_eq_left hw, min_eq_right hy, neg_div]
  refine ⟨e, ?_⟩
  rw [e, ziman_form _ _ _ _ _ hT (by positivity)]
  exact rep_mono (by positivity) (exp_pos _) (exp_le_exp.mpr hy)

/-- **C88** The factor grows with the Fermi level. -/
theorem C88_fermi (md vs EF EF' w T : ℝ) (hT : 0 < T) (h : EF ≤ EF') : repOf md vs EF w T ≤ repOf md vs EF' w T := by
  have hh : 0 < hbarKB := by unfold hbarKB; norm_num
  have hk : 0 < kBeV := by unfold kBeV; norm_num
  have hm : (0 : ℝ) < max w (1 / 10 ^ 6) := lt_of_lt_of_le (by norm_num) (le_max_right _ _)
  unfold repOf
  simp only [neg_div]
  refine rep_mono (by positivity) (exp_pos _) (exp_le_exp.mpr (min_le_min_right _ ?_))
  have : EF / kBeV ≤ EF' / kBeV := div_le_div_of_nonneg_right h hk.le
  apply div_le_div_of_nonneg_right _ hT.le
  linarith

/-- **C88** The rounded constants against the CODATA values: relative errors below `10^-14`. -/
theorem C88_constants :
    |hbarKB - KappaSpec.hbar / KappaSpec.kB * 10 ^ 12| ≤ 1 / 10 ^ 14 * hbarKB ∧
    |kBeV - KappaSpec.kB / KappaSpec.qe| ≤ 1 / 10 ^ 14 * kBeV ∧
    (∀ md vs, 0 ≤ md → |tmvOf md vs - 1 / 2 * (md * KappaSpec.me) * (10 ^ 3 * vs) ^ 2 / KappaSpec.kB| ≤ 1 / 10 ^ 14 * tmvOf md vs) ∧
    (∀ w, |thwOf w - (KappaSpec.hbar * (10 ^ 12 * w) / 4 / KappaSpec.kB) ^ 2| ≤ 1 / 10 ^ 14 * thwOf w) := by
  refine ⟨?_, ?_, fun md vs hmd => ?_, fun w => ?_⟩
  · unfold hbarKB KappaSpec.hbar KappaSpec.kB
    rw [abs_le]; constructor <;> norm_num
  · unfold kBeV KappaSpec.kB KappaSpec.qe
    rw [abs_le]; constructor <;> norm_num
  · have e : tmvOf md vs - 1 / 2 * (md * KappaSpec.me) * (10 ^ 3 * vs) ^ 2 / KappaSpec.kB =
        (3298949878462954 / 10 ^ 17 - 1 / 2 * KappaSpec.me * 10 ^ 6 / KappaSpec.kB) * (md * vs ^ 2) := by
      unfold tmvOf; ring
    rw [e, abs_mul, abs_of_nonneg (by positivity : 0 ≤ md * vs ^ 2)]
    unfold tmvOf
    rw [← mul_assoc (1 / 10 ^ 14)]
    apply mul_le_mul_of_nonneg_right _ (by positivity)
    unfold KappaSpec.me KappaSpec.kB
    rw [abs_le]; constructor <;> norm_num
  · have e : thwOf w - (KappaSpec.hbar * (10 ^ 12 * w) / 4 / KappaSpec.kB) ^ 2 =
        (36464123068230276 / 10 ^ 16 - (KappaSpec.hbar * 10 ^ 12 / 4 / KappaSpec.kB) ^ 2) * w ^ 2 := by
      unfold thwOf; ring
    rw [e, abs_mul, abs_of_nonneg (by positivity : 0 ≤ w ^ 2)]
    unfold thwOf
    rw [← mul_assoc (1 / 10 ^ 14)]
    apply mul_le_mul_of_nonneg_right _ (by positivity)
    unfold KappaSpec.hbar KappaSpec.kB
    rw [abs_le]; constructor <;> norm_num

/-- **C88** The prefactor is the documented one up to a relative rounding error of `10^-13`. -/
theorem C88_coef (Ed md D0 vs : ℝ) (hD : 0 < D0) (hv : 0 < vs) (m : Ep) (h1 : m.Ed = some Ed) (h2 : m.md = some md)
    (h3 : m.D0 = some D0) (h4 : m.vs = some vs) :
    ∃ c, m.calCoef = .ok c ∧
      |c - electronCoef (KappaSpec.qe * Ed) (KappaSpec.me * md) (10 ^ 3 * D0) (10 ^ 3 * vs)| ≤ 1 / 10 ^ 13 * c := by
  refine ⟨epConst * (Ed * md) ^ 2 / (D0 * vs), ?_, ?_⟩
  · unfold Ep.calCoef
    rw [h1, h2, h3, h4]
    rfl
  · have lo := pi_gt_d20
    have hi := pi_lt_d20
    have hpi := pi_pos
    set k := (KappaSpec.qe * KappaSpec.me) ^ 2 / (2 * π * KappaSpec.hbar ^ 3 * 10 ^ 6) with hk
    have e : epConst * (Ed * md) ^ 2 / (D0 * vs) - electronCoef (KappaSpec.qe * Ed) (KappaSpec.me * md) (10 ^ 3 * D0) (10 ^ 3 * vs) =
        (epConst - k) * ((Ed * md) ^ 2 / (D0 * vs)) := by
      unfold electronCoef
      rw [hk]
      have hb : KappaSpec.hbar ≠ 0 := by unfold KappaSpec.hbar; norm_num
      field_simp
    have hb : |epConst - k| ≤ 1 / 10 ^ 13 * epConst := by
      have hkl : (1 - 1 / 10 ^ 13) * epConst ≤ k := by
        rw [hk, le_div_iff₀ (by unfold KappaSpec.hbar; positivity)]
        unfold epConst KappaSpec.qe KappaSpec.me KappaSpec.hbar
        nlinarith
      have hku : k ≤ (1 + 1 / 10 ^ 13) * epConst := by
        rw [hk, div_le_iff₀ (by unfold KappaSpec.hbar; positivity)]
        unfold epConst KappaSpec.qe KappaSpec.me KappaSpec.hbar
        nlinarith
      rw [abs_le]
      constructor <;> linarith
    rw [e, abs_mul, abs_of_nonneg (by positivity : 0 ≤ (Ed * md) ^ 2 / (D0 * vs)), mul_div_assoc, ← mul_assoc]
    exact mul_le_mul_of_nonneg_right hb (by positivity)

/-! ## which values are used -/

/-- **C89** `FreeElectrons` accepts exactly these combinations of arguments. -/
theorem C89_args (a : EpArgs) :
    (∃ m, Ep.make a = .ok m) ↔
      (a.coef ≠ none ∧ a.Rep ≠ none) ∨ (a.vs ≠ none ∧ a.md ≠ none ∧
        ((a.coef ≠ none ∧ a.EF ≠ none) ∨ (a.Ed ≠ none ∧ a.D0 ≠ none ∧ (a.Rep ≠ none ∨ a.EF ≠ none)))) := by
  obtain ⟨vs, md, EF, Ed, D0, Rep, coef⟩ := a
  unfold Ep.make requireAll
  cases coef <;> cases Rep <;> cases vs <;> cases md <;> cases EF <;> cases Ed <;> cases D0 <;> simp

/-- **C89** Given a non-zero coefficient and factor, the rate is their product with the frequency, whatever else is given. -/
theorem C89_given (a : EpArgs) (c r w T : ℝ) (hc : a.coef = some c) (hr : a.Rep = some r) (hc0 : c ≠ 0) (hr0 : r ≠ 0) :
    ∃ m, Ep.make a = .ok m ∧ m.rate w T = .ok (c * r * w) := by
  refine ⟨_, by unfold Ep.make; rw [hc, hr], ?_⟩
  unfold Ep.rate Ep.coefOf Ep.repAt orElse
  simp only [if_neg hc0, if_neg hr0]
  rfl

/-- **C89** Without coefficient and factor both are computed from the five parameters. -/
theorem C89_computed (vs md EF Ed D0 w T : ℝ) :
    ∃ m, Ep.make { vs := some vs, md := some md, EF := some EF, Ed := some Ed, D0 := some D0 } = .ok m ∧
      m.rate w T = .ok (epConst * (Ed * md) ^ 2 / (D0 * vs) * repOf md vs EF w T * w) :=
  ⟨_, rfl, rfl⟩

/-- **C89** A non-zero factor with a computed coefficient -/
theorem C89_rep (vs md Ed D0 r w T : ℝ) (EF : Option ℝ) (hr0 : r ≠ 0) :
    ∃ m, Ep.make { vs := some vs, md := some md, EF := EF, Ed := some Ed, D0 := some D0, Rep := some r } = .ok m ∧
      m.rate w T = .ok (epConst * (Ed * md) ^ 2 / (D0 * vs) * r * w) := by
  refine ⟨_, rfl, ?_⟩
  unfold Ep.rate Ep.coefOf Ep.repAt
  simp only [orElse, if_neg hr0]
  rfl

/-- **C89** A non-zero coefficient with a computed factor -/
theorem C89_coef (vs md EF c w T : ℝ) (Ed D0 : Option ℝ) (hc0 : c ≠ 0) :
    ∃ m, Ep.make { vs := some vs, md := some md, EF := some EF, Ed := Ed, D0 := D0, coef := some c } = .ok m ∧
      m.rate w T = .ok (c * repOf md vs EF w T * w) := by
  refine ⟨_, rfl, ?_⟩
  unfold Ep.rate Ep.coefOf Ep.repAt
  simp only [orElse, if_neg hc0]
  rfl

/-- **C89** (finding) A zero coefficient or factor is treated as missing: instead of a zero rate, evaluating the mechanism asks
for parameters that were not kept and raises `KeyError`, although the construction succeeded. -/
theorem C89_zero (a : EpArgs) (w T : ℝ) :
    (∀ r, a.coef = some 0 → a.Rep = some r → ∃ m, Ep.make a = .ok m ∧ m.rate w T = .error .keyError) ∧
    (∀ c, a.coef = some c → a.Rep = some 0 → c ≠ 0 → ∃ m, Ep.make a = .ok m ∧ m.rate w T = .error .keyError) ∧
    (a.coef = some 0 → a.Rep = none → ∀ m, Ep.make a = .ok m → m.rate w T = .error .keyError) ∧
    (a.coef = none → a.Rep = some 0 → ∀ m, Ep.make a = .ok m → m.rate w T = .error .keyError) := by
  refine ⟨fun r hc hr => ⟨_, by unfold Ep.make; rw [hc, hr], ?_⟩, fun c hc hr hc0 => ⟨_, by unfold Ep.make; rw [hc, hr], ?_⟩, ?_, ?_⟩
  · unfold Ep.rate Ep.coefOf orElse
    simp only [if_true]
    rfl
  · unfold Ep.rate Ep.coefOf Ep.repAt orElse
    simp only [if_true, if_neg hc0]
    rfl
  · intro hc hr m hm
    unfold Ep.make at hm
    rw [hc, hr] at hm
    simp only at hm
    split at hm
    · cases hm
      unfold Ep.rate Ep.coefOf orElse
      simp only [if_true]
      rfl
    · cases hm
  · intro hc hr m hm
    unfold Ep.make at hm
    rw [hc, hr] at hm
    simp only at hm
    split at hm
    · next h =>
      cases hm
      obtain ⟨vs, md, EF, Ed, D0, Rep, coef⟩ := a
      cases vs <;> cases md <;> cases Ed <;> cases D0 <;> simp [requireAll] at h
      unfold Ep.rate Ep.coefOf Ep.repAt
      simp only [orElse, if_true]
      rfl
    · cases hm

/-- **C87** A mechanism with missing arguments is refused with a `ValueError`, and with nothing else. -/
theorem C87_refused (e : PyErr) : (∀ a : PhArgs, Ph.make a = .error e → e = .valueError) ∧ (∀ a : PdArgs, Pd.make a = .error e → e = .valueError) ∧
    (∀ a : NpArgs, Np.make a = .error e → e = .valueError) ∧ (∀ a : EpArgs, Ep.make a = .error e → e = .valueError) := by
  refine ⟨?_, ?_, ?_, ?_⟩
  · intro a h
    unfold Ph.make at h
    split at h <;> (try (split at h)) <;> cases h <;> rfl
  · intro a h
    unfold Pd.make at h
    split at h <;> (try (split at h)) <;> cases h <;> rfl
  · intro a h
    unfold Np.make at h
    split at h <;> (try (split at h)) <;> (try (split at h)) <;> cases h <;> rfl
  · intro a h
    unfold Ep.make at h
    split at h <;> (try (split at h)) <;> cases h <;> rfl

example : Ph.make {} = .error .valueError ∧ Pd.make {} = .error .valueError ∧ Np.make {} = .error .valueError ∧ Ep.make {} = .error .valueError :=
  ⟨rfl, rfl, rfl, rfl⟩

/-- non-vacuity: typical parameters of the mechanisms -/
example : 0 ≤ (Ph.formula 2 3 30 100 1 0).coef ∧ 0 ≤ (Pd.formula 3 30 (1 / 10)).coef ∧
    0 ≤ (⟨.fraction (1 / 100), 3, 5, 6, 9, 1, 1, 1⟩ : Np).phi ∧
    (0 : ℝ) < (⟨2, 3, 30, 4, 2, 1, 1 / 2⟩ : Dl).vs := by
  refine ⟨ph_coef_nonneg 2 3 30 100 1 0 (by norm_num) (by norm_num) (by norm_num) (by norm_num), ?_, ?_, ?_⟩
  · unfold Pd.coef; have := pi_pos; positivity
  · unfold Np.phi; norm_num
  · norm_num

/-- non-vacuity of the exponent bound in `C88_ziman`: one electron mass, 3 km/s, 1 eV below the Fermi level, 300 K -/
example : (thwOf 1 / tmvOf 1 3 + tmvOf 1 3 - 1 / kBeV) / 300 ≤ 23 := by
  unfold thwOf tmvOf kBeV
  norm_num

end TEflow.Kappa
