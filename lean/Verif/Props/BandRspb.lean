import Mathlib.Tactic
import Mathlib.Analysis.SpecialFunctions.Pow.Real
import Mathlib.Analysis.Real.Pi.Bounds
import Verif.Model.BandFuncs

/-! # C76–C79: `RSPB`, `bandline`, `dosline` -/

set_option linter.unusedSimpArgs false

open Real

namespace TEflow.Bandlib

/-! ## C76 -/

theorem lorenz_gap : 0 < π * π / 3 - 2 := by
  have := pi_gt_three
  nlinarith

/-- **C76** `iSr` inverts `Sr` (for `delta ≥ -1`, any positive reduced concentration and non-zero factor) and conversely. -/
theorem C76_Sr (Nr factor delta : ℝ) (hN : 0 < Nr) (hf : factor ≠ 0) (hd : -1 ≤ delta) :
    Rspb.iSr (Rspb.Sr Nr factor delta) factor delta = Nr ∧
    ∀ s, 1 + delta < exp (s / factor) → Rspb.Sr (Rspb.iSr s factor delta) factor delta = s := by
  have he := exp_pos 2
  constructor
  · unfold Rspb.iSr Rspb.Sr
    have : 0 < 1 + delta + exp 2 / Nr := by
      have : 0 < exp 2 / Nr := by positivity
      linarith
    rw [mul_div_cancel_left₀ _ hf, exp_log this]
    have : 1 + delta + exp 2 / Nr - 1 - delta = exp 2 / Nr := by ring
    rw [this]
    field_simp
  · intro s hs
    unfold Rspb.iSr Rspb.Sr
    have h : exp 2 / (exp 2 / (exp (s / factor) - 1 - delta)) = exp (s / factor) - 1 - delta := by
      have : exp (s / factor) - 1 - delta ≠ 0 := by linarith
      field_simp
    have h2 : 1 + delta + (exp (s / factor) - 1 - delta) = exp (s / factor) := by ring
    rw [h, h2, log_exp]
    field_simp

/-- **C76** `iUr` inverts `Ur` and conversely. -/
theorem C76_Ur (Nr factor : ℝ) (hN : 0 < Nr) (hf : factor ≠ 0) :
    Rspb.iUr (Rspb.Ur Nr factor) factor = Nr ∧ ∀ u, 0 < factor / u → Rspb.Ur (Rspb.iUr u factor) factor = u := by
  constructor
  · unfold Rspb.iUr Rspb.Ur
    have h0 : 0 < 1 + Nr / 2 := by positivity
    have h1 : factor / (factor * (1 + Nr / 2) ^ (-1 / 3 : ℝ)) = (1 + Nr / 2) ^ (1 / 3 : ℝ) := by
      rw [div_mul_eq_div_div, div_self hf, one_div, ← rpow_neg h0.le]
      norm_num
    rw [h1, ← rpow_natCast, ← rpow_mul h0.le]
    norm_num
    ring
  · intro u hu
    unfold Rspb.iUr Rspb.Ur
    have h1 : 1 + 2 * ((factor / u) ^ 3 - 1) / 2 = (factor / u) ^ 3 := by ring
    rw [h1, ← rpow_natCast, ← rpow_mul hu.le]
    norm_num
    rw [rpow_neg_one]
    have : u ≠ 0 := by
      rintro rfl
      simp at hu
    field_simp

/-- **C76** `iLr` inverts `Lr` and conversely (on the open range of the reduced Lorenz number, `(2, π²/3)`). -/
theorem C76_Lr (Nr factor : ℝ) (hN : 0 < Nr) (hf : factor ≠ 0) :
    Rspb.iLr (Rspb.Lr Nr factor) factor = Nr ∧
    ∀ l, 2 < l / factor → l / factor < π * π / 3 → Rspb.Lr (Rspb.iLr l factor) factor = l := by
  have hg := lorenz_gap
  have hpi := pi_pos
  constructor
  · unfold Rspb.iLr Rspb.Lr
    set x := Nr / π / 2 with hx
    have hx0 : 0 < x := by positivity
    have hp : 0 < x ^ (-3 / 2 : ℝ) := rpow_pos_of_pos hx0 _
    have h1 : 0 < (1 + x ^ (-3 / 2 : ℝ)) ^ (2 / 3 : ℝ) := rpow_pos_of_pos (by linarith) _
    rw [mul_div_cancel_left₀ _ hf, add_sub_cancel_left]
    have h2 : (π * π / 3 - 2) / ((π * π / 3 - 2) / (1 + x ^ (-3 / 2 : ℝ)) ^ (2 / 3 : ℝ)) =
        (1 + x ^ (-3 / 2 : ℝ)) ^ (2 / 3 : ℝ) := div_div_cancel₀ hg.ne'
    rw [h2, ← rpow_mul (by linarith)]
    norm_num
    rw [show (-(3 / 2 : ℝ)) = -3 / 2 by norm_num, ← rpow_mul hx0.le]
    norm_num
    rw [hx]
    field_simp
  · intro l h1 h2
    unfold Rspb.iLr Rspb.Lr
    set s := (π * π / 3 - 2) / (l / factor - 2) with hs
    have hs1 : 1 < s := by
      rw [hs, lt_div_iff₀ (by linarith)]
      linarith
    have hp : 0 < s ^ (3 / 2 : ℝ) - 1 := by
      have := one_lt_rpow hs1 (show (0 : ℝ) < 3 / 2 by norm_num)
      linarith
    have h3 : 2 * π * (s ^ (3 / 2 : ℝ) - 1) ^ (-2 / 3 : ℝ) / π / 2 = (s ^ (3 / 2 : ℝ) - 1) ^ (-2 / 3 : ℝ) := by
      field_simp
    rw [h3, ← rpow_mul hp.le]
    norm_num
    rw [← rpow_mul (by linarith)]
    norm_num
    rw [hs, div_div_cancel₀ hg.ne', add_sub_cancel, mul_div_cancel₀ _ hf]

/-- **C76** `Sr` and `Ur` are strictly decreasing, `Lr` strictly increasing between 2 and π²/3 (times the factor). -/
theorem C76_monotone (a b factor delta : ℝ) (ha : 0 < a) (hab : a < b) (hf : 0 < factor) (hd : -1 ≤ delta) :
    Rspb.Sr b factor delta < Rspb.Sr a factor delta ∧ Rspb.Ur b factor < Rspb.Ur a factor ∧
    Rspb.Lr a factor < Rspb.Lr b factor ∧ factor * 2 < Rspb.Lr a factor ∧ Rspb.Lr a factor < factor * (π * π / 3) := by
  have hb : 0 < b := ha.trans hab
  have he := exp_pos 2
  have hpi := pi_pos
  have hg := lorenz_gap
  refine ⟨?_, ?_, ?_, ?_, ?_⟩
  · unfold Rspb.Sr
    apply mul_lt_mul_of_pos_left _ hf
    have h1 : exp 2 / b < exp 2 / a := div_lt_div_of_pos_left he ha hab
    have h2 : 0 < exp 2 / b := by positivity
    exact log_lt_log (by linarith) (by linarith)
  · unfold Rspb.Ur
    apply mul_lt_mul_of_pos_left _ hf
    exact rpow_lt_rpow_of_neg (by positivity) (by linarith) (by norm_num)
  · unfold Rspb.Lr
    apply mul_lt_mul_of_pos_left _ hf
    have h1 : a / π / 2 < b / π / 2 := by
      apply div_lt_div_of_pos_right _ (by norm_num)
      exact div_lt_div_of_pos_right hab hpi
    have h2 : (b / π / 2) ^ (-3 / 2 : ℝ) < (a / π / 2) ^ (-3 / 2 : ℝ) :=
      rpow_lt_rpow_of_neg (by positivity) h1 (by norm_num)
    have h3 : 0 < (b / π / 2) ^ (-3 / 2 : ℝ) := rpow_pos_of_pos (by positivity) _
    have h4 : (1 + (b / π / 2) ^ (-3 / 2 : ℝ)) ^ (2 / 3 : ℝ) < (1 + (a / π / 2) ^ (-3 / 2 : ℝ)) ^ (2 / 3 : ℝ) :=
      rpow_lt_rpow (by linarith) (by linarith) (by norm_num)
    have h5 : 0 < (1 + (b / π / 2) ^ (-3 / 2 : ℝ)) ^ (2 / 3 : ℝ) := rpow_pos_of_pos (by linarith) _
    linarith [div_lt_div_of_pos_left hg h5 h4]
  · unfold Rspb.Lr
    apply mul_lt_mul_of_pos_left _ hf
    have h3 : 0 < (a / π / 2) ^ (-3 / 2 : ℝ) := rpow_pos_of_pos (by positivity) _
    have h5 : 0 < (1 + (a / π / 2) ^ (-3 / 2 : ℝ)) ^ (2 / 3 : ℝ) := rpow_pos_of_pos (by linarith) _
    have : 0 < (π * π / 3 - 2) / (1 + (a / π / 2) ^ (-3 / 2 : ℝ)) ^ (2 / 3 : ℝ) := by positivity
    linarith
  · unfold Rspb.Lr
    apply mul_lt_mul_of_pos_left _ hf
    have h3 : 0 < (a / π / 2) ^ (-3 / 2 : ℝ) := rpow_pos_of_pos (by positivity) _
    have h5 : 1 < (1 + (a / π / 2) ^ (-3 / 2 : ℝ)) ^ (2 / 3 : ℝ) := one_lt_rpow (by linarith) (by norm_num)
    have : (π * π / 3 - 2) / (1 + (a / π / 2) ^ (-3 / 2 : ℝ)) ^ (2 / 3 : ℝ) < π * π / 3 - 2 := div_lt_self hg h5
    linarith

/-- the hypotheses are met by the default parameters -/
example : Rspb.iSr (Rspb.Sr 1 Rspb.S0 (75 / 1000)) Rspb.S0 (75 / 1000) = 1 :=
  (C76_Sr 1 Rspb.S0 (75 / 1000) one_pos (by unfold Rspb.S0; norm_num) (by norm_num)).1

/-- **C76** `LxS` without a gap parameter is the Lorenz number at the concentration of the Seebeck coefficient. -/
theorem C76_LxS (Nr Sf Lf delta : ℝ) (hN : 0 < Nr) (hf : Sf ≠ 0) (hd : -1 ≤ delta) :
    Rspb.LxS (Rspb.Sr Nr Sf delta) Sf Lf none delta = Rspb.Lr Nr Lf := by
  have h : Rspb.Sr Nr Sf delta / Sf = Rspb.Sr Nr 1 delta := by
    unfold Rspb.Sr
    field_simp
  show Rspb.Lr (Rspb.iSr (Rspb.Sr Nr Sf delta / Sf) 1 delta) 1 * Lf = _
  rw [h, (C76_Sr Nr 1 delta hN one_ne_zero hd).1]
  unfold Rspb.Lr
  ring

/-! ## C77 -/

/-- a value in the result -/
def Reports (out : List (String × ℝ)) (key : String) (v : ℝ) : Prop := (key, v) ∈ out

/-- **C77** Data of the model at `(Nr, UWT, m_d, T)`: `valuate` gives back the Lorenz number, `UWT` and the model's `sigma0`
constant times it; but `m_eff` comes out as `m_d·N0^(2/3)` and the optimal concentration as `N0` times the model value. -/
theorem C77_valuate (Nr UWT m_d T delta : ℝ) (K : Option ℝ) (hN : 0 < Nr) (hU : 0 < UWT) (hm : 0 < m_d) (hT : 0 < T)
    (hd : -1 ≤ delta) :
    let out := Rspb.valuate (Rspb.Sr Nr Rspb.S0 delta) (some (Rspb.Cr Nr Rspb.C0 UWT)) (some T)
      (some (Rspb.Nmr Nr Rspb.N0 m_d T)) K delta
    Reports out "L" (Rspb.Lr Nr Rspb.L0) ∧ Reports out "UWT" UWT ∧ Reports out "sigma0" (UWT * uwtToSigma0) ∧
    Reports out "m_eff" (m_d * Rspb.N0 ^ (2 / 3 : ℝ)) ∧
    Reports out "Nopt" (Rspb.N0 * Rspb.Nmr Rspb.NrOpt Rspb.N0 m_d T) := by
  have hS : Rspb.S0 ≠ 0 := by unfold Rspb.S0; norm_num
  have hC : (0 : ℝ) < Rspb.C0 := by unfold Rspb.C0; norm_num
  have hN0 : (0 : ℝ) < Rspb.N0 := by unfold Rspb.N0; norm_num
  have e1 := (C76_Sr Nr Rspb.S0 delta hN hS hd).1
  have hUr : 0 < Rspb.Ur Nr 1 := by
    unfold Rspb.Ur
    have := rpow_pos_of_pos (show 0 < 1 + Nr / 2 by positivity) (-1 / 3 : ℝ)
    positivity
  have e2 : Rspb.Cr Nr Rspb.C0 UWT / Rspb.Cr Nr Rspb.C0 1 = UWT := by
    unfold Rspb.Cr
    field_simp
  have hmT : 0 < m_d * T / 300 := by positivity
  have e3 : Rspb.Nmr Nr Rspb.N0 m_d T / Nr = Rspb.N0 * (m_d * T / 300) ^ (3 / 2 : ℝ) := by
    unfold Rspb.Nmr
    field_simp
  have e4 : (Rspb.Nmr Nr Rspb.N0 m_d T / Nr) ^ (2 / 3 : ℝ) * 300 / T = m_d * Rspb.N0 ^ (2 / 3 : ℝ) := by
    rw [e3, mul_rpow hN0.le (by positivity), ← rpow_mul hmT.le]
    norm_num
    field_simp
  have e5 : Rspb.NrOpt * Rspb.N0 * Rspb.Nmr Nr Rspb.N0 m_d T / Nr = Rspb.N0 * Rspb.Nmr Rspb.NrOpt Rspb.N0 m_d T := by
    rw [mul_div_assoc, e3]
    unfold Rspb.Nmr
    ring
  intro out
  unfold Reports
  simp only [out, Rspb.valuate, Rspb.valuateC, Rspb.valuateRest, Rspb.valuateFull, e1, e2, e4, e5]
  refine ⟨by simp, by simp, by simp, ?_, ?_⟩
  · cases K <;> simp
  · cases K <;> simp

/-- so the reported mass is too large by the constant `N0^(2/3) > 1`, and the optimal concentration by `N0` -/
theorem C77_off : (1 : ℝ) < Rspb.N0 ^ (2 / 3 : ℝ) ∧ (2 : ℝ) < Rspb.N0 := by
  have : (2 : ℝ) < Rspb.N0 := by unfold Rspb.N0; norm_num
  exact ⟨one_lt_rpow (by linarith) (by norm_num), this⟩

/-! ## C78 -/

/-- **C78** `bandline` is even about `k0` and equals `E0` there; with positive mass `E0` is its minimum, with negative mass
its maximum. -/
theorem C78_shape (d m_b k0 E0 : ℝ) (Eg : Option ℝ) (hE : ∀ g, Eg = some g → 0 < g) :
    bandline (k0 + d) m_b k0 E0 Eg = bandline (k0 - d) m_b k0 E0 Eg ∧ bandline k0 m_b k0 E0 Eg = E0 ∧
    (0 < m_b → E0 ≤ bandline (k0 + d) m_b k0 E0 Eg) ∧ (m_b < 0 → bandline (k0 + d) m_b k0 E0 Eg ≤ E0) := by
  have hp : parabolic (k0 + d) m_b k0 = parabolic (k0 - d) m_b k0 := by unfold parabolic; ring
  have h0 : parabolic k0 m_b k0 = 0 := by unfold parabolic; simp
  have hc : (0 : ℝ) < coefBand := by unfold coefBand; norm_num
  have hpos : 0 < m_b → 0 ≤ parabolic (k0 + d) m_b k0 := by intro h; unfold parabolic; positivity
  have hneg : m_b < 0 → parabolic (k0 + d) m_b k0 ≤ 0 := by
    intro h
    unfold parabolic
    have : coefBand * (k0 + d - k0) ^ 2 / m_b ≤ 0 := div_nonpos_of_nonneg_of_nonpos (by positivity) h.le
    linarith
  cases Eg with
  | none =>
    unfold bandline
    refine ⟨by rw [hp], by simp [h0], fun h => ?_, fun h => ?_⟩
    · have := hpos h; simp only; linarith
    · have := hneg h; simp only; linarith
  | some g =>
    have hg := hE g rfl
    have hden : 0 < √(1 / 4 + |parabolic (k0 + d) m_b k0| / g) + 1 / 2 := by positivity
    unfold bandline
    refine ⟨by rw [hp], by simp [h0], fun h => ?_, fun h => ?_⟩
    · have := div_nonneg (hpos h) hden.le
      simp only; linarith
    · have := div_nonpos_of_nonpos_of_nonneg (hneg h) hden.le
      simp only; linarith

/-- **C78** With a gap the energy above the offset solves `e·(1+|e|/Eg) = parabola`, has the sign of the parabola and at most
its size. -/
theorem C78_kane (k m_b k0 E0 g : ℝ) (hg : 0 < g) :
    let e := bandline k m_b k0 E0 (some g) - E0
    let p := bandline k m_b k0 0 none
    e * (1 + |e| / g) = p ∧ |e| ≤ |p| ∧ 0 ≤ e * p := by
  have hp : bandline k m_b k0 0 none = parabolic k m_b k0 := by unfold bandline; simp
  have he : bandline k m_b k0 E0 (some g) - E0 = parabolic k m_b k0 / (√(1 / 4 + |parabolic k m_b k0| / g) + 1 / 2) := by
    unfold bandline; simp
  intro e p
  have hp' : p = parabolic k m_b k0 := hp
  have he' : e = p / (√(1 / 4 + |p| / g) + 1 / 2) := by rw [hp']; exact he
  clear_value e p
  clear hp he hp'
  set s := √(1 / 4 + |p| / g) with hs
  have hs2 : s ^ 2 = 1 / 4 + |p| / g := sq_sqrt (by positivity)
  have hs0 : 1 / 2 ≤ s := by
    rw [hs]
    apply le_sqrt_of_sq_le
    have : 0 ≤ |p| / g := by positivity
    linarith
  have hd : 0 < s + 1 / 2 := by linarith
  have habs : |e| = |p| / (s + 1 / 2) := by rw [he', abs_div, abs_of_pos hd]
  have hpg : |p| = (s ^ 2 - 1 / 4) * g := by
    rw [hs2]
    field_simp
    ring
  refine ⟨?_, ?_, ?_⟩
  · rw [habs, hpg, he']
    field_simp
    ring
  · rw [habs]
    exact div_le_self (abs_nonneg _) (by linarith)
  · rw [he', div_mul_eq_mul_div]
    exact div_nonneg (mul_self_nonneg _) hd.le

/-! ## C79 -/

/-- **C79** Without gap: zero outside the band (below the edge for a positive mass, above it for a negative one), non-negative
for a non-negative volume, positive inside for a positive one, and only the distance from the edge matters. -/
theorem C79_parabolic (E m_d E0 V : ℝ) :
    (0 < m_d → E ≤ E0 → dosline E m_d E0 V none = 0) ∧ (m_d < 0 → E0 ≤ E → dosline E m_d E0 V none = 0) ∧
    (0 ≤ V → 0 ≤ dosline E m_d E0 V none) ∧
    (0 < V → 0 < m_d → E0 < E → 0 < dosline E m_d E0 V none) ∧ (0 < V → m_d < 0 → E < E0 → 0 < dosline E m_d E0 V none) ∧
    ∀ d, dosline (E + d) m_d (E0 + d) V none = dosline E m_d E0 V none := by
  have hc : (0 : ℝ) < coefDos := by unfold coefDos; norm_num
  have hd : ∀ E E0 m_d : ℝ, dosline E m_d E0 V none =
      V / coefDos * |m_d| ^ (3 / 2 : ℝ) * √(max (SignType.sign m_d * (E - E0)) 0) := fun _ _ _ => rfl
  have z : ∀ x : ℝ, x ≤ 0 → √(max x 0) = 0 := by
    intro x hx
    rw [max_eq_right hx, sqrt_zero]
  have pp : ∀ x : ℝ, 0 < x → 0 < √(max x 0) := by
    intro x hx
    rw [max_eq_left hx.le]
    exact sqrt_pos.2 hx
  refine ⟨fun h1 h2 => ?_, fun h1 h2 => ?_, fun h => ?_, fun h h1 h2 => ?_, fun h h1 h2 => ?_, fun d => ?_⟩
  · rw [hd, z _ (by rw [sign_pos h1]; simp; linarith), mul_zero]
  · rw [hd, z _ (by rw [sign_neg h1]; simp; linarith), mul_zero]
  · rw [hd]; positivity
  · rw [hd]
    have h3 : 0 < √(max ((SignType.sign m_d : ℝ) * (E - E0)) 0) := pp _ (by rw [sign_pos h1]; simp; linarith)
    have h4 : 0 < |m_d| ^ (3 / 2 : ℝ) := rpow_pos_of_pos (abs_pos.2 h1.ne') _
    positivity
  · rw [hd]
    have h3 : 0 < √(max ((SignType.sign m_d : ℝ) * (E - E0)) 0) := pp _ (by rw [sign_neg h1]; simp; linarith)
    have h4 : 0 < |m_d| ^ (3 / 2 : ℝ) := rpow_pos_of_pos (abs_pos.2 h1.ne) _
    positivity
  · rw [hd, hd]
    congr 4
    ring

/-- **C79** With a gap the offset and the sign of the mass have no effect. -/
theorem C79_gap_ignores (E m_d E0 E0' V g : ℝ) :
    dosline E m_d E0 V (some g) = dosline E m_d E0' V (some g) ∧
    dosline E m_d E0 V (some g) = dosline E (-m_d) E0 V (some g) := by
  unfold dosline
  simp

/-- **C79** So a state density appears far below the band edge, and translation is lost. -/
theorem C79_gap_wrong : ∃ E m_d E0 V g : ℝ, 0 < m_d ∧ 0 < V ∧ 0 < g ∧ E < E0 ∧ 0 < dosline E m_d E0 V (some g) ∧
    dosline (E - E0) m_d 0 V (some g) ≠ dosline E m_d E0 V (some g) := by
  refine ⟨1, 1, 2, 1, 1, one_pos, one_pos, one_pos, by norm_num, ?_, ?_⟩
  · unfold dosline coefDos
    norm_num
  · unfold dosline coefDos
    norm_num

/-- **C79** On the intended domain (edge at 0, positive mass, `E ≥ 0`) the gap form is at least the parabolic one and the
difference is the Kane factor. -/
theorem C79_gap_domain (E m_d V g : ℝ) (hE : 0 ≤ E) (hm : 0 < m_d) (hV : 0 ≤ V) (hg : 0 < g) :
    dosline E m_d 0 V (some g) = dosline E m_d 0 V none * (√(1 + E / g) * (1 + 2 * E / g)) ∧
    dosline E m_d 0 V none ≤ dosline E m_d 0 V (some g) := by
  have hc : (0 : ℝ) < coefDos := by unfold coefDos; norm_num
  have e1 : dosline E m_d 0 V none = V / coefDos * |m_d| ^ (3 / 2 : ℝ) * √E := by
    unfold dosline
    simp [sign_pos hm, hE]
  have e2 : dosline E m_d 0 V (some g) = V / coefDos * |m_d| ^ (3 / 2 : ℝ) * √(E * (1 + E / g)) * (1 + 2 * E / g) := rfl
  have e3 : dosline E m_d 0 V (some g) = dosline E m_d 0 V none * (√(1 + E / g) * (1 + 2 * E / g)) := by
    rw [e1, e2, sqrt_mul hE]
    ring
  refine ⟨e3, ?_⟩
  rw [e3]
  have h0 : 0 ≤ dosline E m_d 0 V none := by rw [e1]; positivity
  have h1 : 0 ≤ E / g := by positivity
  have h2 : 1 ≤ √(1 + E / g) := by
    apply le_sqrt_of_sq_le; linarith
  have h3 : 1 ≤ 1 + 2 * E / g := by
    have : 2 * E / g = 2 * (E / g) := by ring
    linarith
  exact le_mul_of_one_le_right h0 (one_le_mul_of_one_le_of_one_le h2 h3)

end TEflow.Bandlib
