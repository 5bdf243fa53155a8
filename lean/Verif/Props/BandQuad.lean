import Mathlib.Tactic
import Mathlib.Algebra.QuadraticDiscriminant
import Verif.Lemmas.Romb
import Verif.Props.BandMulti

/-! # C70: the transport integrals computed by the quadrature satisfy Cauchy–Schwarz -/

set_option linter.unusedSimpArgs false

open Real

namespace TEflow.Bandlib

theorem kB_pos : (0 : ℝ) < kB := by unfold kB; norm_num

theorem widthOf_pos (EF T : ℝ) : 0 < widthOf EF T := by unfold widthOf; positivity

theorem widthOf_lt_one (EF T : ℝ) : widthOf EF T < 1 := by
  unfold widthOf
  rw [div_lt_one (by positivity)]
  linarith [exp_pos (-(EF / (kB * T)) / 3)]

theorem tpAt_pos (EF T : ℝ) {i : Nat} (h0 : 0 < i) : 0 < tpAt (widthOf EF T) 64 i := by
  unfold tpAt
  have := widthOf_pos EF T
  have : (0 : ℝ) < i := by exact_mod_cast h0
  positivity

theorem tpAt_le (EF T : ℝ) {i : Nat} (h : i ≤ 64) : tpAt (widthOf EF T) 64 i ≤ widthOf EF T := by
  unfold tpAt
  have hw := widthOf_pos EF T
  have : (i : ℝ) ≤ 64 := by exact_mod_cast h
  rw [show ((64 : Nat) : ℝ) = 64 by norm_num, div_le_iff₀ (by norm_num)]
  exact mul_le_mul_of_nonneg_left this hw.le

theorem tpAt_lt (EF T : ℝ) {i : Nat} (h : i < 64) : tpAt (widthOf EF T) 64 i < widthOf EF T := by
  unfold tpAt
  have hw := widthOf_pos EF T
  have : (i : ℝ) < 64 := by exact_mod_cast h
  rw [show ((64 : Nat) : ℝ) = 64 by norm_num, div_lt_iff₀ (by norm_num)]
  exact mul_lt_mul_of_pos_left this hw

theorem wOf_nonneg (t : ℝ) : 0 ≤ wOf t := by unfold wOf; positivity

theorem wOf_pos {t : ℝ} (h0 : 0 < t) (h1 : t < 1) : 0 < wOf t := by
  unfold wOf
  have : 0 < 1 - t := by linarith
  positivity

/-- the coefficient of the sample `i` -/
noncomputable def cw (EF T : ℝ) (i : Nat) : ℝ :=
  (rombW i : ℝ) * wOf (tpAt (widthOf EF T) 64 i) * (widthOf EF T / 64)

theorem cw_nonneg (EF T : ℝ) (i : Nat) : 0 ≤ cw EF T i := by
  unfold cw
  have h1 : (0 : ℝ) ≤ rombW i := by exact_mod_cast (rombW_pos i).le
  have := wOf_nonneg (tpAt (widthOf EF T) 64 i)
  have := widthOf_pos EF T
  positivity

theorem cw_pos (EF T : ℝ) {i : Nat} (h0 : 0 < i) (h1 : i ≤ 64) : 0 < cw EF T i := by
  unfold cw
  have h2 : (0 : ℝ) < rombW i := by exact_mod_cast rombW_pos i
  have := wOf_pos (tpAt_pos EF T h0) ((tpAt_le EF T h1).trans_lt (widthOf_lt_one EF T))
  have := widthOf_pos EF T
  positivity

/-- the quadrature as a sum with non-negative coefficients -/
theorem rombDfx_sum (f : ℝ → ℝ → ℝ) (k : Nat) (EF T : ℝ) :
    rombDfx f k EF T = ∑ i ∈ Finset.range 65, cw EF T i * f (energyAt EF T i) T * xpAt EF T 64 i ^ k := by
  unfold rombDfx
  rw [romb_eq_sum, mul_div_assoc, Finset.sum_mul]
  refine Finset.sum_congr rfl fun i _ => ?_
  unfold cw
  ring

/-- all sampling energies are positive -/
theorem energyAt_pos (EF T : ℝ) (hT : 0 < T) {i : Nat} (hi : i ≤ 64) : 0 < energyAt EF T i := by
  have hkT : 0 < kB * T := mul_pos kB_pos hT
  have hk := (kB_pos).ne'
  unfold energyAt xpAt
  by_cases h : i = 0 ∨ i = 64
  · rw [if_pos h]
    have : kB * T * (-(EF / (kB * T)) + 1 / 10 ^ 10) + EF = kB * T / 10 ^ 10 := by
      field_simp
      ring
    rw [this]
    positivity
  · rw [if_neg h]
    push Not at h
    have h0 : 0 < i := by omega
    have ht := tpAt_pos EF T h0
    have hlt := tpAt_lt EF T (i := i) (by omega)
    set t := tpAt (widthOf EF T) 64 i
    have h1 : exp (-(EF / (kB * T)) / 3) < 1 / t - 1 := by
      unfold widthOf at hlt
      rw [lt_div_iff₀ (by positivity)] at hlt
      rw [lt_sub_iff_add_lt, lt_div_iff₀ ht]
      linarith
    have h2 : -(EF / (kB * T)) / 3 < log (1 / t - 1) := by
      rw [lt_log_iff_exp_lt (lt_trans (exp_pos _) h1)]
      exact h1
    unfold xOf
    have h3 : -(EF / (kB * T)) < 3 * log (1 / t - 1) := by linarith
    have h4 := mul_lt_mul_of_pos_left h3 hkT
    have h5 : kB * T * -(EF / (kB * T)) = -EF := by field_simp
    linarith

/-- non-negative at every positive energy -/
def NonnegFn (f : ℝ → ℝ → ℝ) : Prop := ∀ E T, 0 < E → 0 < T → 0 ≤ f E T
/-- positive at every positive energy -/
def PosFn (f : ℝ → ℝ → ℝ) : Prop := ∀ E T, 0 < E → 0 < T → 0 < f E T

theorem PosFn.nonneg {f : ℝ → ℝ → ℝ} (h : PosFn f) : NonnegFn f := fun E T hE hT => (h E T hE hT).le

/-- the quadratic form behind Cauchy–Schwarz -/
theorem quadForm (f : ℝ → ℝ → ℝ) (hf : NonnegFn f) (EF T : ℝ) (hT : 0 < T) (l : ℝ) :
    0 ≤ rombDfx f 0 EF T * (l * l) + -(2 * rombDfx f 1 EF T) * l + rombDfx f 2 EF T := by
  have : rombDfx f 0 EF T * (l * l) + -(2 * rombDfx f 1 EF T) * l + rombDfx f 2 EF T =
      ∑ i ∈ Finset.range 65, cw EF T i * f (energyAt EF T i) T * (xpAt EF T 64 i - l) ^ 2 := by
    rw [rombDfx_sum, rombDfx_sum, rombDfx_sum, Finset.sum_mul, Finset.mul_sum, ← Finset.sum_neg_distrib, Finset.sum_mul,
      ← Finset.sum_add_distrib, ← Finset.sum_add_distrib]
    exact Finset.sum_congr rfl fun i _ => by ring
  rw [this]
  refine Finset.sum_nonneg fun i hi => ?_
  have h := hf (energyAt EF T i) T (energyAt_pos EF T hT (by have := Finset.mem_range.1 hi; omega)) hT
  have := cw_nonneg EF T i
  positivity

/-- **C70** For every transport function that is non-negative at positive energies, every Fermi level and temperature, the
computed integrals satisfy `K1² ≤ K0·K2`, `0 ≤ K0`, `0 ≤ K2`. -/
theorem C70_quadrature (f : ℝ → ℝ → ℝ) (hf : NonnegFn f) (EF T : ℝ) (hT : 0 < T) :
    rombDfx f 1 EF T ^ 2 ≤ rombDfx f 0 EF T * rombDfx f 2 EF T ∧ 0 ≤ rombDfx f 0 EF T ∧ 0 ≤ rombDfx f 2 EF T := by
  refine ⟨?_, ?_, ?_⟩
  · have := discrim_le_zero (quadForm f hf EF T hT)
    unfold discrim at this
    nlinarith
  · rw [rombDfx_sum]
    refine Finset.sum_nonneg fun i hi => ?_
    have h := hf (energyAt EF T i) T (energyAt_pos EF T hT (by have := Finset.mem_range.1 hi; omega)) hT
    have := cw_nonneg EF T i
    rw [pow_zero, mul_one]
    positivity
  · have := quadForm f hf EF T hT 0
    simpa using this

/-- **C70** For a transport function positive at positive energies the zeroth integral is positive. -/
theorem C70_positive (f : ℝ → ℝ → ℝ) (hf : PosFn f) (EF T : ℝ) (hT : 0 < T) : 0 < rombDfx f 0 EF T := by
  rw [rombDfx_sum]
  refine Finset.sum_pos' (fun i hi => ?_) ⟨1, by simp, ?_⟩
  · have h := hf (energyAt EF T i) T (energyAt_pos EF T hT (by have := Finset.mem_range.1 hi; omega)) hT
    have := cw_nonneg EF T i
    rw [pow_zero, mul_one]
    positivity
  · have h := hf (energyAt EF T 1) T (energyAt_pos EF T hT (by norm_num)) hT
    have := cw_pos EF T (i := 1) (by norm_num) (by norm_num)
    rw [pow_zero, mul_one]
    positivity

/-- the transport distribution of the three band models is positive at positive energies -/
theorem C70_models (a : Spb) (ha : 0 < a.sigma0) (b : Skb) (hb : 0 < b.sigma0) (hg : 0 < b.Eg) (c : Lin) (hc : 0 < c.sigma0) :
    PosFn a.fns.trs ∧ PosFn b.fns.trs ∧ PosFn c.fns.trs := by
  refine ⟨fun E T hE hT => ?_, fun E T hE hT => ?_, fun E T hE hT => hc⟩
  · show 0 < a.trs E T
    unfold Spb.trs
    have := kB_pos
    positivity
  · show 0 < b.trs E T
    unfold Skb.trs
    have := kB_pos
    positivity

/-- the Lorenz number, `C·L` and `Ke` from the three integrals -/
theorem lorenz_nonneg (p0 p1 p2 T : ℝ) (h0 : 0 < p0) (h : p1 ^ 2 ≤ p0 * p2) (hT : 0 ≤ T) :
    0 ≤ L0 * (p2 / p0 - (p1 / p0) ^ 2) ∧ 0 ≤ 100 * kB * kB * (p2 - p1 ^ 2 / p0) ∧
    0 ≤ 100 * kB * kB * (p2 - p1 ^ 2 / p0) * T := by
  have hk := kB_pos
  have hL : (0 : ℝ) < L0 := by unfold L0; norm_num
  have e : 0 ≤ p2 - p1 ^ 2 / p0 := by
    rw [sub_nonneg, div_le_iff₀ h0]; linarith
  refine ⟨mul_nonneg hL.le ?_, by positivity, by positivity⟩
  have : p2 / p0 - (p1 / p0) ^ 2 = (p2 - p1 ^ 2 / p0) / p0 := by field_simp
  rw [this]
  positivity

/-- **C70** A single band with a positive transport distribution has a non-negative Lorenz number and electronic thermal
conductivity at every Fermi level and temperature. -/
theorem C70_single (f : BandFns) (hf : PosFn f.trs) (sign EF T : ℝ) (hT : 0 < T) :
    ∃ l cl ke, (f.leaf sign).prop .L (some (EF, T)) = .ok (some l) ∧ (f.leaf sign).prop .CL (some (EF, T)) = .ok (some cl) ∧
      (f.leaf sign).prop .Ke (some (EF, T)) = .ok (some ke) ∧ 0 ≤ l ∧ 0 ≤ cl ∧ 0 ≤ ke := by
  obtain ⟨h1, h2, h3⟩ := lorenz_nonneg _ _ _ T (C70_positive f.trs hf EF T hT) (C70_quadrature f.trs hf.nonneg EF T hT).1 hT.le
  exact ⟨_, _, _, rfl, rfl, rfl, h1, h2, h3⟩

/-- **C70** The same for any combination of such bands, of both carrier types, with any offsets. -/
theorem C70_multi (m : Multi ℝ) (w : Heap ℝ) (hf : Fresh m w) (hne : m.ids.zip m.deltas ≠ [])
    (hb : ∀ x ∈ m.ids.zip m.deltas, ∃ (f : BandFns) (s : ℝ), (s = 1 ∨ s = -1) ∧ PosFn f.trs ∧ w x.1 = f.leaf s)
    (EF T : ℝ) (hT : 0 < T) :
    ∃ l cl ke, m.prop w .L (some (EF, T)) = .ok (some l) ∧ m.prop w .CL (some (EF, T)) = .ok (some cl) ∧
      m.prop w .Ke (some (EF, T)) = .ok (some ke) ∧ 0 ≤ l ∧ 0 ≤ cl ∧ 0 ≤ ke := by
  obtain ⟨-, hK, -⟩ := direct_totals m w EF T hf.2
  set p : Nat → ℝ := fun i => ((m.ids.zip m.deltas).map fun x => (w x.1).sign ^ i * (w x.1).k i (shiftEF (w x.1) x.2 EF) T).sum
    with hp
  have h0 : 0 < p 0 := by
    rw [hp]
    apply List.sum_pos
    · intro v hv
      obtain ⟨x, hx, rfl⟩ := List.mem_map.1 hv
      obtain ⟨f, s, -, hpos, hw⟩ := hb x hx
      rw [pow_zero, one_mul, hw]
      exact C70_positive f.trs hpos _ T hT
    · simpa using hne
  have hq : ∀ l : ℝ, 0 ≤ p 0 * (l * l) + -(2 * p 1) * l + p 2 := by
    intro l
    have : p 0 * (l * l) + -(2 * p 1) * l + p 2 = ((m.ids.zip m.deltas).map fun x =>
        ((w x.1).sign ^ 0 * (w x.1).k 0 (shiftEF (w x.1) x.2 EF) T) * (l * l) +
        -(2 * ((w x.1).sign ^ 1 * (w x.1).k 1 (shiftEF (w x.1) x.2 EF) T)) * l +
        ((w x.1).sign ^ 2 * (w x.1).k 2 (shiftEF (w x.1) x.2 EF) T)).sum := by
      rw [hp]
      generalize m.ids.zip m.deltas = xs
      induction xs with
      | nil => simp
      | cons x xs ih =>
        simp only [List.map_cons, List.sum_cons] at ih ⊢
        rw [← ih]
        ring
    rw [this]
    apply List.sum_nonneg
    intro v hv
    obtain ⟨x, hx, rfl⟩ := List.mem_map.1 hv
    obtain ⟨f, s, hs, hpos, hw⟩ := hb x hx
    have hs2 : s ^ 2 = 1 := by rcases hs with rfl | rfl <;> norm_num
    simp only [hw]
    have := quadForm f.trs hpos.nonneg (shiftEF (f.leaf s) x.2 EF) T hT (s * l)
    have e : s * l * (s * l) = l * l := by linear_combination (l * l) * hs2
    rw [e] at this
    have hs' : (f.leaf s).sign = s := rfl
    have hk : ∀ i E T, (f.leaf s).k i E T = rombDfx f.trs i E T := fun _ _ _ => rfl
    rw [hs', hs2, hk, hk, hk]
    linarith
  have hcs : p 1 ^ 2 ≤ p 0 * p 2 := by
    have := discrim_le_zero hq
    unfold discrim at this
    nlinarith
  obtain ⟨h1, h2, h3⟩ := lorenz_nonneg _ _ _ T h0 hcs hT.le
  refine ⟨_, _, _, ?_, ?_, ?_, h1, h2, h3⟩ <;>
  · simp only [Multi.prop, multi_src m w hf, Src.prop, hK, bind, Except.bind, pure, Except.pure]
    rfl

/-- an instance: a parabolic valence band and a Kane conduction band -/
example : ∃ (m : Multi ℝ) (w : Heap ℝ), Fresh m w ∧ m.ids.zip m.deltas = [(0, 0), (1, 1 / 2)] ∧
    ∀ x ∈ m.ids.zip m.deltas, ∃ (f : BandFns) (s : ℝ), (s = 1 ∨ s = -1) ∧ PosFn f.trs ∧ w x.1 = f.leaf s := by
  have h := C70_models ⟨1, 5, 1⟩ (by norm_num) ⟨1, 3, 1 / 4, 2⟩ (by norm_num) (by norm_num) ⟨1, 1⟩ (by norm_num)
  refine ⟨⟨[0, 1], [0, 1 / 2], none⟩, fun i => if i = 0 then (Spb.fns ⟨1, 5, 1⟩).leaf 1 else
    (Skb.fns ⟨1, 3, 1 / 4, 2⟩).leaf (-1), ⟨rfl, ?_⟩, rfl, ?_⟩
  · intro x hx
    simp only [List.zip_cons_cons, List.zip_nil_right, List.mem_cons, List.not_mem_nil, or_false] at hx
    rcases hx with rfl | rfl <;> rfl
  · intro x hx
    simp only [List.zip_cons_cons, List.zip_nil_right, List.mem_cons, List.not_mem_nil, or_false] at hx
    rcases hx with rfl | rfl
    · exact ⟨_, 1, .inl rfl, h.1, rfl⟩
    · exact ⟨_, -1, .inr rfl, h.2.1, rfl⟩

end TEflow.Bandlib
