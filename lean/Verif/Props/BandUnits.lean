import Mathlib.Tactic
import Mathlib.Analysis.SpecialFunctions.Pow.Real
import Mathlib.Analysis.Real.Pi.Bounds
import Verif.Model.BandFuncs
import Verif.Spec.Kappa

/-! # C130: the band models against the physics in SI units

The constants `KappaSpec.hbar`, `me`, `qe` are the SI values; energies of the code are in eV, its densities in 1e19 per cm³ (1e25 per m³), its
conductivities in S/cm, its mobilities in cm²/(V s). -/

open Real

namespace TEflow.Bandlib

noncomputable section

theorem same_hbar : KappaSpec.hbar = hbar := rfl
theorem same_me : KappaSpec.me = me := rfl
theorem same_qe : KappaSpec.qe = qe := by unfold KappaSpec.qe qe; rfl

theorem me_pos : 0 < me := by unfold me; norm_num
theorem hbar_pos : 0 < hbar := by unfold hbar; norm_num
theorem qe_pos' : (0 : ℝ) < qe := by unfold qe; norm_num

/-- **C130** The states below the energy `E` are those inside the sphere of radius `k` in reciprocal space, two per wave vector,
`k³/(3π²)` per volume, where `k` is the wave number with energy `E` on the dispersion of the band: `ħ²k²/(2m) = E` for the parabolic band,
`ħ²k²/(2m) = E(1+E/Eg)` for the Kane band, `ħ·vF·k = E` for the linear band. -/
theorem C130_states (m_d E k : ℝ) (hm : 0 < m_d) (hE : 0 ≤ E) (hk : 0 ≤ k) :
    (∀ b : Spb, b.m_d = m_d → KappaSpec.hbar ^ 2 * k ^ 2 / (2 * (m_d * KappaSpec.me)) = E * KappaSpec.qe → b.idos E * 10 ^ 25 = k ^ 3 / (3 * π ^ 2)) ∧
    (∀ b : Skb, b.m_d = m_d → 0 < b.Eg → KappaSpec.hbar ^ 2 * k ^ 2 / (2 * (m_d * KappaSpec.me)) = E * (1 + E / b.Eg) * KappaSpec.qe →
      b.idos E * 10 ^ 25 = k ^ 3 / (3 * π ^ 2)) ∧
    (∀ b : Lin, 0 < b.vF → KappaSpec.hbar * (b.vF * 10 ^ 5) * k = E * KappaSpec.qe → b.idos E * 10 ^ 25 = k ^ 3 / (3 * π ^ 2)) := by
  simp only [same_hbar, same_me, same_qe]
  have h1 := me_pos
  have h2 := hbar_pos
  have h3 := qe_pos'
  have hπ := pi_pos
  have key : ∀ x, hbar ^ 2 * k ^ 2 / (2 * (m_d * me)) = x → (2 * (m_d * me) * x) ^ (3 / 2 : ℝ) = (hbar * k) ^ 3 := by
    intro x hx
    have e : 2 * (m_d * me) * x = (hbar * k) ^ (2 : ℕ) := by
      rw [← hx]
      field_simp
    rw [e, ← rpow_natCast, ← rpow_mul (by positivity), ← rpow_natCast]
    norm_num
  refine ⟨fun b hb hx => ?_, fun b hb hg hx => ?_, fun b hv hx => ?_⟩
  · have := key _ hx
    unfold Spb.idos
    rw [hb, show 2 * m_d * me * qe * E = 2 * (m_d * me) * (E * qe) by ring, this]
    field_simp
  · have := key _ hx
    unfold Skb.idos
    rw [hb, show 2 * m_d * me * qe * E * (1 + E / b.Eg) = 2 * (m_d * me) * (E * (1 + E / b.Eg) * qe) by ring, this]
    field_simp
  · unfold Lin.idos
    have e : qe * E = hbar * (b.vF * 10 ^ 5) * k := by rw [hx]; ring
    rw [e]
    field_simp

/-- the density-of-states mass at work: `γ(E)` with its derivative, in eV -/
theorem hallN0_eq (m_d T E : ℝ) (hm : 0 < m_d) (hT : 0 < T) (hE : 0 < E) :
    hallN0 m_d T = (2 * m_d * me * qe) ^ (3 / 2 : ℝ) / (2 * π * π * hbar ^ 3) * (kB * T) * √(kB * T) := by
  have h1 := me_pos
  have h3 := qe_pos'
  have hk : (0 : ℝ) < kB := by unfold kB; norm_num
  unfold hallN0
  rw [show 2 * m_d * me * kB * qe * T = 2 * m_d * me * qe * (kB * T) by ring, mul_rpow (by positivity) (by positivity),
    show (kB * T) ^ (3 / 2 : ℝ) = kB * T * √(kB * T) by
      rw [show (3 / 2 : ℝ) = 1 + 1 / 2 by norm_num, rpow_add (by positivity), rpow_one, sqrt_eq_rpow]]
  ring

/-- **C130** The Hall function is `K*·μ(E)·σ(E)` with the mobility `μ(E) = σ(E)/((2/3)·q·n(E))` that belongs to the transport function:
`n(E) = g(E)·γ(E)/γ'(E)` per cm³, where `γ(E) = E` for the parabolic and `γ(E) = E(1+E/Eg)` for the Kane band. -/
theorem C130_hall (T E : ℝ) (hT : 0 < T) (hE : 0 < E) :
    (∀ b : Spb, 0 < b.m_d → b.hall E T = kstar b.Kmass * (b.trs E T / (2 / 3 * KappaSpec.qe * (b.dos E * 10 ^ 19 * E))) * b.trs E T) ∧
    (∀ b : Skb, 0 < b.m_d → 0 < b.Eg → b.hall E T =
      kstar b.Kmass * (b.trs E T / (2 / 3 * KappaSpec.qe * (b.dos E * 10 ^ 19 * (E * (1 + E / b.Eg) / (1 + 2 * E / b.Eg))))) * b.trs E T) := by
  simp only [same_qe]
  have h1 := me_pos
  have h2 := hbar_pos
  have h3 := qe_pos'
  have hπ := pi_pos
  have hk : (0 : ℝ) < kB := by unfold kB; norm_num
  have hkT : 0 < kB * T := mul_pos hk hT
  have s1 : 0 < √E := sqrt_pos.2 hE
  have s2 : 0 < √(kB * T) := sqrt_pos.2 hkT
  have q1 : √E ^ 2 = E := sq_sqrt hE.le
  have q2 : √(kB * T) ^ 2 = kB * T := sq_sqrt hkT.le
  refine ⟨fun b hm => ?_, fun b hm hg => ?_⟩
  · unfold Spb.hall Spb.trs Spb.dos hallFactor
    rw [hallN0_eq b.m_d T E hm hT hE, sqrt_div hE.le]
    have hp : 0 < (2 * b.m_d * me * qe) ^ (3 / 2 : ℝ) := rpow_pos_of_pos (by positivity) _
    generalize (2 * b.m_d * me * qe) ^ (3 / 2 : ℝ) = P at hp
    generalize √E = x at *
    generalize √(kB * T) = z at *
    generalize kB * T = u at *
    subst q1 q2
    field_simp
  · have ha : 0 < 1 + E / b.Eg := by positivity
    have hb : 0 < 1 + 2 * E / b.Eg := by positivity
    have s3 : 0 < √(1 + E / b.Eg) := sqrt_pos.2 ha
    have q3 : √(1 + E / b.Eg) ^ 2 = 1 + E / b.Eg := sq_sqrt ha.le
    unfold Skb.hall Skb.trs Skb.dos hallFactor
    rw [hallN0_eq b.m_d T E hm hT hE, sqrt_div hE.le]
    have hp : 0 < (2 * b.m_d * me * qe) ^ (3 / 2 : ℝ) := rpow_pos_of_pos (by positivity) _
    generalize (2 * b.m_d * me * qe) ^ (3 / 2 : ℝ) = P at hp
    generalize √(1 + E / b.Eg) = w at *
    generalize 1 + E / b.Eg = c at *
    generalize 1 + 2 * E / b.Eg = c' at *
    generalize √E = x at *
    generalize √(kB * T) = z at *
    generalize kB * T = u at *
    subst q1 q2 q3
    have : 0 < c' ^ 2 + 2 := by positivity
    field_simp
    ring

/-- **C130** Deformation potential theory: `sigma0 = 2q²ħ·Nv·Cii/(3π·m·Ed²)` with the conductivity mass `m = 3/(1/m1+2/m2)` electron masses, `Cii` in
GPa, `Ed` in eV, in S/cm, to 14 digits. -/
theorem C130_deformation (m1 m2 Nv Cii Ed : ℝ) (h1 : 0 < m1) (h2 : 0 < m2) (hN : 0 < Nv) (hC : 0 < Cii) (hE : 0 < Ed) :
    let m := 3 / (1 / m1 + 2 / m2) * KappaSpec.me
    let si := 2 * KappaSpec.qe ^ 2 * KappaSpec.hbar * Nv * (Cii * 10 ^ 9) / (3 * π * m * (Ed * KappaSpec.qe) ^ 2)
    |(Spb.fromDP m1 (some m2) Nv Cii Ed).sigma0 - si / 100| ≤ 1 / 10 ^ 14 * (si / 100) := by
  intro m si
  have ho : orMass (some m2) m1 = m2 := by simp [orMass, h2.ne']
  have hm1 := me_pos
  have hq := qe_pos'
  have hh := hbar_pos
  have hπ := pi_pos
  have e0 : (Spb.fromDP m1 (some m2) Nv Cii Ed).sigma0 = 24566655370009886 / 10 ^ 14 * (Nv * Cii / (3 / (1 / m1 + 2 / m2) * Ed ^ 2)) := by
    show 24566655370009886 / 10 ^ 14 * (Nv * Cii) / (3 / (1 / m1 + 2 / orMass (some m2) m1) * Ed * Ed) = _
    rw [ho]
    ring
  have e1 : si / 100 = 2 * hbar * 10 ^ 7 / (3 * π * me) * (Nv * Cii / (3 / (1 / m1 + 2 / m2) * Ed ^ 2)) := by
    simp only [si, m, same_hbar, same_me, same_qe]
    field_simp
    norm_num
  have hP : 0 < Nv * Cii / (3 / (1 / m1 + 2 / m2) * Ed ^ 2) := by positivity
  rw [e0, e1, ← sub_mul, abs_mul, abs_of_pos hP, ← mul_assoc]
  refine mul_le_mul_of_nonneg_right ?_ hP.le
  have b1 := pi_gt_d20
  have b2 := pi_lt_d20
  have f : 2 * hbar * 10 ^ 7 / (3 * π * me) = 2 * hbar * 10 ^ 7 / (3 * me) / π := by field_simp
  rw [f]
  have hx : 2 * hbar * 10 ^ 7 / (3 * me) = 2 * 1054571817 * 10 ^ 5 / (3 * 91093837015) := by
    unfold hbar me
    norm_num
  rw [hx]
  rw [abs_le]
  constructor
  · rw [neg_le_sub_iff_le_add, div_le_iff₀ hπ, add_mul, ← mul_div_assoc, div_mul_cancel₀ _ hπ.ne']
    norm_num only at *
    nlinarith
  · rw [sub_le_iff_le_add, ← mul_div_assoc, ← add_div, le_div_iff₀ hπ]
    norm_num only at *
    nlinarith

/-- twice the number of states in the thermal wavelength cube: the density that turns a weighted mobility into `sigma0` -/
theorem mobility_const :
    |uwtToSigma0 - 2 * KappaSpec.qe * (KappaSpec.me * KappaSpec.kB * 300 / (2 * π * KappaSpec.hbar ^ 2)) ^ (3 / 2 : ℝ) / 10 ^ 6| ≤ 1 / 10 ^ 13 := by
  have hπ := pi_pos
  have b1 := pi_gt_d20
  have b2 := pi_lt_d20
  have hr : (0 : ℝ) < KappaSpec.me * KappaSpec.kB * 300 / (2 * KappaSpec.hbar ^ 2) := by
    unfold KappaSpec.me KappaSpec.kB KappaSpec.hbar
    norm_num
  have e0 : KappaSpec.me * KappaSpec.kB * 300 / (2 * π * KappaSpec.hbar ^ 2) = KappaSpec.me * KappaSpec.kB * 300 / (2 * KappaSpec.hbar ^ 2) / π := by
    rw [div_div]
    ring_nf
  rw [e0]
  generalize hX : 2 * KappaSpec.qe * (KappaSpec.me * KappaSpec.kB * 300 / (2 * KappaSpec.hbar ^ 2) / π) ^ (3 / 2 : ℝ) / 10 ^ 6 = X
  have hq : 0 < KappaSpec.qe := by unfold KappaSpec.qe; norm_num
  have hX0 : 0 < X := by
    rw [← hX]
    have := rpow_pos_of_pos (div_pos hr hπ) (3 / 2 : ℝ)
    positivity
  have hsq : X ^ 2 * π ^ 3 = (2 * KappaSpec.qe / 10 ^ 6) ^ 2 * (KappaSpec.me * KappaSpec.kB * 300 / (2 * KappaSpec.hbar ^ 2)) ^ 3 := by
    have : ((KappaSpec.me * KappaSpec.kB * 300 / (2 * KappaSpec.hbar ^ 2) / π) ^ (3 / 2 : ℝ)) ^ 2 = (KappaSpec.me * KappaSpec.kB * 300 / (2 * KappaSpec.hbar ^ 2) / π) ^ 3 := by
      rw [← rpow_natCast, ← rpow_mul (by positivity), ← rpow_natCast]
      norm_num
    rw [← hX, div_pow, mul_pow, this, div_pow (_ / _) π]
    field_simp
  have p1 : (3.14159265358979323846 : ℝ) ^ 3 ≤ π ^ 3 := pow_le_pow_left₀ (by norm_num) b1.le 3
  have p2 : π ^ 3 ≤ (3.14159265358979323847 : ℝ) ^ 3 := pow_le_pow_left₀ hπ.le b2.le 3
  have hv : (2 * KappaSpec.qe / 10 ^ 6) ^ 2 * (KappaSpec.me * KappaSpec.kB * 300 / (2 * KappaSpec.hbar ^ 2)) ^ 3 =
      (2 * 1602176634 / 10 ^ 34) ^ 2 * (91093837015 * 1380649 * 300 * 10 ^ 16 / (2 * 1054571817 ^ 2)) ^ 3 := by
    unfold KappaSpec.qe KappaSpec.me KappaSpec.kB KappaSpec.hbar
    norm_num
  rw [hv] at hsq
  have hX2 : X ^ 2 = (2 * 1602176634 / 10 ^ 34) ^ 2 * (91093837015 * 1380649 * 300 * 10 ^ 16 / (2 * 1054571817 ^ 2)) ^ 3 / π ^ 3 := by
    rw [← hsq]
    field_simp
  have u1 : uwtToSigma0 - 1 / 10 ^ 13 ≤ X := by
    refine le_of_sq_le_sq ?_ hX0.le
    rw [hX2, le_div_iff₀ (by positivity)]
    refine (mul_le_mul_of_nonneg_left p2 (sq_nonneg _)).trans ?_
    unfold uwtToSigma0
    norm_num
  have u2 : X ≤ uwtToSigma0 + 1 / 10 ^ 13 := by
    refine le_of_sq_le_sq ?_ (by unfold uwtToSigma0; norm_num)
    rw [hX2, div_le_iff₀ (by positivity)]
    refine le_trans ?_ (mul_le_mul_of_nonneg_left p1 (sq_nonneg _))
    unfold uwtToSigma0
    norm_num
  rw [abs_le]
  constructor <;> linarith

/-- **C130** The weighted mobility: `from_UWT` gives `sigma0 = 2q·(m_e·kB·300/(2πħ²))^(3/2)·UWT` in S/cm for `UWT` in cm²/(V s), for both bands, to
13 digits after the point per unit of mobility. -/
theorem C130_mobility (m_d UWT Kmass Eg : ℝ) (hU : 0 < UWT) (hE : 0 < Eg) : ∃ b, Skb.fromUWT m_d UWT Eg Kmass = .ok b ∧
    let si := 2 * KappaSpec.qe * (KappaSpec.me * KappaSpec.kB * 300 / (2 * π * KappaSpec.hbar ^ 2)) ^ (3 / 2 : ℝ) * (UWT / 10 ^ 4)
    |(Spb.fromUWT m_d UWT Kmass).sigma0 - si / 100| ≤ 1 / 10 ^ 13 * UWT ∧ |b.sigma0 - si / 100| ≤ 1 / 10 ^ 13 * UWT := by
  refine ⟨_, by unfold Skb.fromUWT Skb.make; rw [if_pos hE], ?_⟩
  intro si
  have e : si / 100 = 2 * KappaSpec.qe * (KappaSpec.me * KappaSpec.kB * 300 / (2 * π * KappaSpec.hbar ^ 2)) ^ (3 / 2 : ℝ) / 10 ^ 6 * UWT := by
    simp only [si]
    ring
  have h : |uwtToSigma0 * UWT - si / 100| ≤ 1 / 10 ^ 13 * UWT := by
    rw [e, ← sub_mul, abs_mul, abs_of_pos hU]
    exact mul_le_mul_of_nonneg_right mobility_const hU.le
  exact ⟨h, h⟩

/-- **C130** The unit constants: the Seebeck unit is `kB/q` in µV/K, the Lorenz unit `(kB/q)²` in 1e-8 V²/K², for the bands and the restructured
model alike; the units of the latter belong together: `C0` is the conductivity of one cm²/(V s), `N0 = C0/q` (in 1e19 per cm³) and
`PF0 = C0·(kB/q)²`. -/
theorem C130_constants :
    |(S0 : ℝ) - KappaSpec.kB / KappaSpec.qe * 10 ^ 6| ≤ 1 / 10 ^ 13 ∧ |(L0 : ℝ) - (KappaSpec.kB / KappaSpec.qe) ^ 2 * 10 ^ 8| ≤ 1 / 10 ^ 15 ∧
    Rspb.S0 = S0 ∧ Rspb.L0 = L0 ∧ Rspb.C0 = uwtToSigma0 ∧
    |Rspb.N0 - Rspb.C0 / (KappaSpec.qe * 10 ^ 19)| ≤ 1 / 10 ^ 15 ∧
    |uwtToSigma0 * ((KappaSpec.kB / KappaSpec.qe) ^ 2 * 10 ^ 6) - 29855763500282857 / 10 ^ 18| ≤ 1 / 10 ^ 17 := by
  refine ⟨?_, ?_, ?_, ?_, rfl, ?_, ?_⟩
  · unfold S0 KappaSpec.kB KappaSpec.qe
    rw [abs_le]
    constructor <;> norm_num
  · unfold L0 KappaSpec.kB KappaSpec.qe
    rw [abs_le]
    constructor <;> norm_num
  · unfold Rspb.S0 S0
    norm_num
  · unfold Rspb.L0 L0
    norm_num
  · unfold Rspb.N0 Rspb.C0 KappaSpec.qe
    rw [abs_le]
    constructor <;> norm_num
  · unfold uwtToSigma0 KappaSpec.kB KappaSpec.qe
    rw [abs_le]
    constructor <;> norm_num

/-- the state density of one free electron per Å³ and eV -/
theorem dos_const :
    |(2 * KappaSpec.me * KappaSpec.qe) ^ (3 / 2 : ℝ) / (2 * π ^ 2 * KappaSpec.hbar ^ 3) / 10 ^ 30 * coefDos - 1| ≤ 1 / 10 ^ 14 := by
  have hπ := pi_pos
  have b1 := pi_gt_d20
  have b2 := pi_lt_d20
  generalize hX : (2 * KappaSpec.me * KappaSpec.qe) ^ (3 / 2 : ℝ) / (2 * π ^ 2 * KappaSpec.hbar ^ 3) / 10 ^ 30 * coefDos = X
  have h1 : 0 < KappaSpec.me := me_pos
  have h2 : 0 < KappaSpec.hbar := hbar_pos
  have h3 : (0 : ℝ) < KappaSpec.qe := by unfold KappaSpec.qe; norm_num
  have hc : (0 : ℝ) < coefDos := by unfold coefDos; norm_num
  have hX0 : 0 < X := by
    rw [← hX]
    have := rpow_pos_of_pos (show 0 < 2 * KappaSpec.me * KappaSpec.qe by positivity) (3 / 2 : ℝ)
    positivity
  have hr : ((2 * KappaSpec.me * KappaSpec.qe) ^ (3 / 2 : ℝ)) ^ 2 = (2 * KappaSpec.me * KappaSpec.qe) ^ 3 := by
    rw [← rpow_natCast, ← rpow_mul (by positivity), ← rpow_natCast]
    norm_num
  have hX2 : X ^ 2 = (2 * KappaSpec.me * KappaSpec.qe) ^ 3 / (2 * KappaSpec.hbar ^ 3 * 10 ^ 30) ^ 2 * coefDos ^ 2 / π ^ 4 := by
    rw [← hX, mul_pow, div_pow, div_pow, hr]
    field_simp
  have p1 : (3.14159265358979323846 : ℝ) ^ 4 ≤ π ^ 4 := pow_le_pow_left₀ (by norm_num) b1.le 4
  have p2 : π ^ 4 ≤ (3.14159265358979323847 : ℝ) ^ 4 := pow_le_pow_left₀ hπ.le b2.le 4
  have hv : (2 * KappaSpec.me * KappaSpec.qe) ^ 3 / (2 * KappaSpec.hbar ^ 3 * 10 ^ 30) ^ 2 * coefDos ^ 2 =
      (2 * 91093837015 * 1602176634) ^ 3 * 1467959743657925 ^ 2 / (4 * 1054571817 ^ 6 * 10 ^ 35) := by
    unfold KappaSpec.qe KappaSpec.me KappaSpec.hbar coefDos
    norm_num
  rw [hv] at hX2
  have u1 : 1 - 1 / 10 ^ 14 ≤ X := by
    refine le_of_sq_le_sq ?_ hX0.le
    rw [hX2, le_div_iff₀ (by positivity)]
    refine (mul_le_mul_of_nonneg_left p2 (sq_nonneg _)).trans ?_
    norm_num
  have u2 : X ≤ 1 + 1 / 10 ^ 14 := by
    refine le_of_sq_le_sq ?_ (by norm_num)
    rw [hX2, div_le_iff₀ (by positivity)]
    refine le_trans ?_ (mul_le_mul_of_nonneg_left p1 (sq_nonneg _))
    norm_num
  rw [abs_le]
  constructor <;> linarith

/-- **C79** The size of `dosline`: the states per eV in a cell of `V` Å³ of a band with the effective mass `|m_d|` at the distance `x` from its edge,
`V·10⁻³⁰·(2·m·q)^{3/2}·√x/(2π²ħ³)` with the SI constants, to one part in `10¹⁴`; an edge at `E0`, electrons (`m_d > 0`) above it, holes below. -/
theorem C79_physical (m E0 V x : ℝ) (hm : 0 < m) (hV : 0 ≤ V) (hx : 0 ≤ x) :
    let si := V / 10 ^ 30 * (2 * (m * KappaSpec.me) * KappaSpec.qe) ^ (3 / 2 : ℝ) / (2 * π ^ 2 * KappaSpec.hbar ^ 3) * √x
    |dosline (E0 + x) m E0 V none - si| ≤ 1 / 10 ^ 14 * dosline (E0 + x) m E0 V none ∧
    |dosline (E0 - x) (-m) E0 V none - si| ≤ 1 / 10 ^ 14 * dosline (E0 - x) (-m) E0 V none := by
  intro si
  have h1 : 0 < KappaSpec.me := me_pos
  have h3 : (0 : ℝ) < KappaSpec.qe := by unfold KappaSpec.qe; norm_num
  have hc : (0 : ℝ) < coefDos := by unfold coefDos; norm_num
  have e1 : dosline (E0 + x) m E0 V none = V / coefDos * m ^ (3 / 2 : ℝ) * √x := by
    unfold dosline
    simp [sign_pos hm, hx, abs_of_pos hm]
  have e2 : dosline (E0 - x) (-m) E0 V none = V / coefDos * m ^ (3 / 2 : ℝ) * √x := by
    unfold dosline
    have : (SignType.sign (-m) : ℝ) = -1 := by rw [sign_neg (by linarith)]; rfl
    simp [sign_neg (show -m < 0 by linarith), hx, abs_of_pos hm]
  have es : si = V / coefDos * m ^ (3 / 2 : ℝ) * √x *
      ((2 * KappaSpec.me * KappaSpec.qe) ^ (3 / 2 : ℝ) / (2 * π ^ 2 * KappaSpec.hbar ^ 3) / 10 ^ 30 * coefDos) := by
    simp only [si]
    rw [show 2 * (m * KappaSpec.me) * KappaSpec.qe = m * (2 * KappaSpec.me * KappaSpec.qe) by ring, mul_rpow hm.le (by positivity)]
    field_simp
  have h0 : 0 ≤ V / coefDos * m ^ (3 / 2 : ℝ) * √x := by positivity
  have key : |V / coefDos * m ^ (3 / 2 : ℝ) * √x - si| ≤ 1 / 10 ^ 14 * (V / coefDos * m ^ (3 / 2 : ℝ) * √x) := by
    rw [es, ← mul_one_sub, abs_mul, abs_of_nonneg h0, mul_comm, abs_sub_comm]
    exact mul_le_mul_of_nonneg_right dos_const h0
  rw [e1, e2]
  exact ⟨key, key⟩

/-- beside the theorems: a free electron with the energy 1 eV has a wave number, and the default parameters are admitted -/
example : ∃ k : ℝ, 0 ≤ k ∧ KappaSpec.hbar ^ 2 * k ^ 2 / (2 * (1 * KappaSpec.me)) = 1 * KappaSpec.qe := by
  have h2 : 0 < KappaSpec.hbar := hbar_pos
  have h1 : 0 < KappaSpec.me := me_pos
  have h3 : (0 : ℝ) < KappaSpec.qe := by unfold KappaSpec.qe; norm_num
  refine ⟨√(2 * KappaSpec.me * KappaSpec.qe) / KappaSpec.hbar, by positivity, ?_⟩
  rw [div_pow, sq_sqrt (by positivity)]
  field_simp

end

end TEflow.Bandlib
