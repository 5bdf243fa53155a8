import Mathlib.MeasureTheory.Integral.IntervalIntegral.FundThmCalculus
import Mathlib.Analysis.Calculus.Deriv.Polynomial
import Mathlib.Topology.Algebra.Polynomial
import Verif.Lemmas.Engout

/-! # C48, C54: the integrals of the generator -/

set_option linter.unusedSimpArgs false
set_option linter.unusedVariables false

namespace TEflow.Engout
open TEflow.Ztdev (TEPoint)
open TEflow.Mathext (npInterp npScan)

/-- the temperatures of the table are strictly increasing -/
abbrev Rising (d : List TEPoint) : Prop := d.Pairwise fun p q => p.T < q.T

/-- the temperature lies within the table -/
def Covers (d : List TEPoint) (t : ℝ) : Prop := (∃ p ∈ d.head?, p.T ≤ t) ∧ ∃ p ∈ d.getLast?, t ≤ p.T

/-- columns of the table -/
def col (f : TEPoint → ℝ) (d : List TEPoint) : List (ℝ × ℝ) := d.map fun p => (p.T, f p)

theorem col_inc {d : List TEPoint} (h : Rising d) (f : TEPoint → ℝ) : Inc (col f d) := by
  unfold Inc col; rw [List.pairwise_map]; exact h

theorem col_inside {d : List TEPoint} {t : ℝ} (h : Covers d t) (f : TEPoint → ℝ) : Inside (col f d) t := by
  obtain ⟨⟨p, hp, h1⟩, ⟨q, hq, h2⟩⟩ := h
  simp only [Option.mem_def] at hp hq
  refine ⟨⟨(p.T, f p), ?_, h1⟩, ⟨(q.T, f q), ?_, h2⟩⟩
  · simp [col, List.head?_map, hp]
  · simp [col, List.getLast?_map, hq]

theorem col_consec {d : List TEPoint} {f : TEPoint → ℝ} {p q : ℝ × ℝ} (h : Consec (col f d) p q) :
    ∃ (i : Nat) (a b : TEPoint), d[i]? = some a ∧ d[i + 1]? = some b ∧ p = (a.T, f a) ∧ q = (b.T, f b) := by
  obtain ⟨i, h1, h2⟩ := h
  simp only [col, List.getElem?_map, Option.map_eq_some_iff] at h1 h2
  obtain ⟨a, ha, rfl⟩ := h1
  obtain ⟨b, hb, rfl⟩ := h2
  exact ⟨i, a, b, ha, hb, rfl, rfl⟩

theorem coreItgs_table (d : List TEPoint) (hd : d ≠ []) (Tc Th : ℝ) :
    coreItgs (.table d) Tc Th = .ok
      { Tc := Tc, Th := Th, deltaT := Th - Tc, Sc := npInterp (col (·.S) d) none none Tc
        Sh := npInterp (col (·.S) d) none none Th
        Rho := tabItg (col (fun p => 10000 / p.C) d) Tc Th, S := tabItg (col (·.S) d) Tc Th
        K := tabItg (col (·.K) d) Tc Th, RhoT := tabItg (col (fun p => p.T * (10000 / p.C)) d) Tc Th
        ST := tabItg (col (fun p => p.T * p.S) d) Tc Th } := by
  cases d with
  | nil => exact absurd rfl hd
  | cons p d => rfl

theorem covers_ne {d : List TEPoint} {t : ℝ} (h : Covers d t) : d ≠ [] := by
  rintro rfl; obtain ⟨⟨p, hp, _⟩, _⟩ := h; simp at hp

theorem col_bounds (d : List TEPoint) (hd : Rising d) (Tc Th : ℝ) (hc : Covers d Tc) (hh : Covers d Th) (hle : Tc ≤ Th)
    (f : TEPoint → ℝ) (lo hi : ℝ) (hb : ∀ p ∈ d, lo ≤ f p ∧ f p ≤ hi) :
    lo * (Th - Tc) ≤ tabItg (col f d) Tc Th ∧ tabItg (col f d) Tc Th ≤ hi * (Th - Tc) := by
  apply tabItg_bounds lo hi _ Tc Th (col_inc hd f) (col_inside hc f) (col_inside hh f) hle
  intro p q hpq _ _
  obtain ⟨i, a, b, ha, hb', rfl, rfl⟩ := col_consec hpq
  have h1 := hb a (List.mem_of_getElem? ha)
  have h2 := hb b (List.mem_of_getElem? hb')
  simp only
  constructor <;> linarith

/-- **C48** For any table and any `Tc ≤ Th` inside it, the integrals of resistivity, Seebeck coefficient and thermal
conductivity lie between the extreme values times the temperature difference. -/
theorem C48_bounds (d : List TEPoint) (hd : Rising d) (Tc Th : ℝ) (hc : Covers d Tc) (hh : Covers d Th) (hle : Tc ≤ Th) :
    ∃ i, coreItgs (.table d) Tc Th = .ok i ∧ i.Tc = Tc ∧ i.Th = Th ∧ i.deltaT = Th - Tc ∧
      (∀ lo hi, (∀ p ∈ d, lo ≤ 10000 / p.C ∧ 10000 / p.C ≤ hi) → lo * (Th - Tc) ≤ i.Rho ∧ i.Rho ≤ hi * (Th - Tc)) ∧
      (∀ lo hi, (∀ p ∈ d, lo ≤ p.S ∧ p.S ≤ hi) → lo * (Th - Tc) ≤ i.S ∧ i.S ≤ hi * (Th - Tc)) ∧
      (∀ lo hi, (∀ p ∈ d, lo ≤ p.K ∧ p.K ≤ hi) → lo * (Th - Tc) ≤ i.K ∧ i.K ≤ hi * (Th - Tc)) :=
  ⟨_, coreItgs_table d (covers_ne hc) Tc Th, rfl, rfl, rfl,
    fun lo hi h => col_bounds d hd Tc Th hc hh hle _ lo hi h,
    fun lo hi h => col_bounds d hd Tc Th hc hh hle _ lo hi h,
    fun lo hi h => col_bounds d hd Tc Th hc hh hle _ lo hi h⟩

/-- **C48** For constant properties these integrals are exact at any `Tc ≤ Th` inside the table. -/
theorem C48_constant (d : List TEPoint) (hd : Rising d) (Tc Th : ℝ) (hc : Covers d Tc) (hh : Covers d Th) (hle : Tc ≤ Th)
    (C S K : ℝ) (hconst : ∀ p ∈ d, p.C = C ∧ p.S = S ∧ p.K = K) :
    ∃ i, coreItgs (.table d) Tc Th = .ok i ∧ i.Rho = 10000 / C * (Th - Tc) ∧ i.S = S * (Th - Tc) ∧ i.K = K * (Th - Tc) := by
  obtain ⟨i, hi, _, _, _, h1, h2, h3⟩ := C48_bounds d hd Tc Th hc hh hle
  refine ⟨i, hi, ?_, ?_, ?_⟩
  · obtain ⟨a, b⟩ := h1 (10000 / C) (10000 / C) (fun p hp => by rw [(hconst p hp).1]; exact ⟨le_rfl, le_rfl⟩)
    exact le_antisymm b a
  · obtain ⟨a, b⟩ := h2 S S (fun p hp => by rw [(hconst p hp).2.1]; exact ⟨le_rfl, le_rfl⟩)
    exact le_antisymm b a
  · obtain ⟨a, b⟩ := h3 K K (fun p hp => by rw [(hconst p hp).2.2]; exact ⟨le_rfl, le_rfl⟩)
    exact le_antisymm b a

/-- **C48** All five integrals are additive over any intermediate temperature, for any table (also outside it). -/
theorem C48_additive (d : List TEPoint) (hd : d ≠ []) (a b c : ℝ) :
    ∃ i j k, coreItgs (.table d) a b = .ok i ∧ coreItgs (.table d) b c = .ok j ∧ coreItgs (.table d) a c = .ok k ∧
      i.Rho + j.Rho = k.Rho ∧ i.S + j.S = k.S ∧ i.K + j.K = k.K ∧ i.RhoT + j.RhoT = k.RhoT ∧ i.ST + j.ST = k.ST := by
  refine ⟨_, _, _, coreItgs_table d hd a b, coreItgs_table d hd b c, coreItgs_table d hd a c, ?_, ?_, ?_, ?_, ?_⟩ <;>
  · simp only [tabItg]; ring

theorem col_exact (d : List TEPoint) (hd : Rising d) (f : TEPoint → ℝ) (G : ℝ → ℝ)
    (h : ∀ a ∈ d, ∀ b ∈ d, (b.T - a.T) * (f b + f a) / 2 = G b.T - G a.T) (p q : TEPoint) (hp : p ∈ d) (hq : q ∈ d) :
    tabItg (col f d) p.T q.T = G q.T - G p.T := by
  apply tabItg_exact G (col f d) (col_inc hd f)
  · intro x y hxy
    obtain ⟨i, a, b, ha, hb, rfl, rfl⟩ := col_consec hxy
    exact h a (List.mem_of_getElem? ha) b (List.mem_of_getElem? hb)
  · simp only [col, List.map_map, List.mem_map]; exact ⟨p, hp, rfl⟩
  · simp only [col, List.map_map, List.mem_map]; exact ⟨q, hq, rfl⟩

/-- **C48** For constant properties and temperatures taken from the table the weighted integrals `<T Rho>`, `<T S>` are
exact as well. -/
theorem C48_constant_at_data (d : List TEPoint) (hd : Rising d) (p q : TEPoint) (hp : p ∈ d) (hq : q ∈ d)
    (C S K : ℝ) (hconst : ∀ p ∈ d, p.C = C ∧ p.S = S ∧ p.K = K) :
    ∃ i, coreItgs (.table d) p.T q.T = .ok i ∧ i.RhoT = 10000 / C * (q.T ^ 2 - p.T ^ 2) / 2 ∧
      i.ST = S * (q.T ^ 2 - p.T ^ 2) / 2 ∧ i.Sc = S ∧ i.Sh = S ∧
      i.Rho = 10000 / C * (q.T - p.T) ∧ i.S = S * (q.T - p.T) ∧ i.K = K * (q.T - p.T) := by
  refine ⟨_, coreItgs_table d (List.ne_nil_of_mem hp) _ _, ?_, ?_, ?_, ?_, ?_, ?_, ?_⟩
  · have := col_exact d hd (fun p => p.T * (10000 / p.C)) (fun t => 10000 / C * t ^ 2 / 2)
      (by intro a ha b hb; simp only [(hconst a ha).1, (hconst b hb).1]; ring) p q hp hq
    simp only [this]; ring
  · have := col_exact d hd (fun p => p.T * p.S) (fun t => S * t ^ 2 / 2)
      (by intro a ha b hb; simp only [(hconst a ha).2.1, (hconst b hb).2.1]; ring) p q hp hq
    simp only [this]; ring
  · have := interp_node (col (·.S) d) (col_inc hd _) (p.T, p.S) (List.mem_map.mpr ⟨p, hp, rfl⟩)
    simp only [this]; exact (hconst p hp).2.1
  · have := interp_node (col (·.S) d) (col_inc hd _) (q.T, q.S) (List.mem_map.mpr ⟨q, hq, rfl⟩)
    simp only [this]; exact (hconst q hq).2.1
  · have := col_exact d hd (fun p => 10000 / p.C) (fun t => 10000 / C * t)
      (by intro a ha b hb; simp only [(hconst a ha).1, (hconst b hb).1]; ring) p q hp hq
    simp only [this]; ring
  · have := col_exact d hd (fun p => p.S) (fun t => S * t)
      (by intro a ha b hb; simp only [(hconst a ha).2.1, (hconst b hb).2.1]; ring) p q hp hq
    simp only [this]; ring
  · have := col_exact d hd (fun p => p.K) (fun t => K * t)
      (by intro a ha b hb; simp only [(hconst a ha).2.2, (hconst b hb).2.2]; ring) p q hp hq
    simp only [this]; ring

/-- **C48** Between neighbouring temperatures of the table every integral is the area of the trapezoid; with additivity
this determines the integrals between any two temperatures of the table. -/
theorem C48_trapezoid (d : List TEPoint) (hd : Rising d) (i : Nat) (p q : TEPoint) (hp : d[i]? = some p)
    (hq : d[i + 1]? = some q) :
    ∃ g, coreItgs (.table d) p.T q.T = .ok g ∧ g.Rho = (q.T - p.T) * (10000 / p.C + 10000 / q.C) / 2 ∧
      g.S = (q.T - p.T) * (p.S + q.S) / 2 ∧ g.K = (q.T - p.T) * (p.K + q.K) / 2 ∧
      g.RhoT = (q.T - p.T) * (p.T * (10000 / p.C) + q.T * (10000 / q.C)) / 2 ∧
      g.ST = (q.T - p.T) * (p.T * p.S + q.T * q.S) / 2 ∧ g.Sc = p.S ∧ g.Sh = q.S := by
  have hpd := List.mem_of_getElem? hp
  have hqd := List.mem_of_getElem? hq
  have hlt : p.T < q.T := by
    obtain ⟨i1, i2⟩ := List.getElem?_eq_some_iff.mp hp
    obtain ⟨j1, j2⟩ := List.getElem?_eq_some_iff.mp hq
    have := List.pairwise_iff_getElem.mp hd i (i + 1) i1 j1 (by omega)
    rwa [i2, j2] at this
  have key : ∀ f : TEPoint → ℝ, tabItg (col f d) p.T q.T = (q.T - p.T) * (f p + f q) / 2 := by
    intro f
    have hcov : ∀ r ∈ d, Inside (col f d) r.T := fun r hr =>
      inside_of_mem (col f d) (col_inc hd f) (r.T, f r) (List.mem_map.mpr ⟨r, hr, rfl⟩)
    have hb := tabItg_bounds ((f p + f q) / 2) ((f p + f q) / 2) (col f d) p.T q.T (col_inc hd f) (hcov p hpd)
      (hcov q hqd) hlt.le (by
        intro x y hxy h1 h2
        obtain ⟨k, a, b, ha, hb, rfl, rfl⟩ := col_consec hxy
        simp only at h1 h2 ⊢
        have hk : k = i := by
          obtain ⟨i1, i2⟩ := List.getElem?_eq_some_iff.mp hp
          obtain ⟨j1, j2⟩ := List.getElem?_eq_some_iff.mp hq
          obtain ⟨a1, a2⟩ := List.getElem?_eq_some_iff.mp ha
          obtain ⟨b1, b2⟩ := List.getElem?_eq_some_iff.mp hb
          rcases Nat.lt_trichotomy k i with h | h | h
          · exfalso
            have hle : b.T ≤ p.T := by
              by_cases e : k + 1 = i
              · subst e; rw [hp] at hb; injection hb with hb; rw [hb]
              · have := List.pairwise_iff_getElem.mp hd (k + 1) i b1 i1 (by omega)
                rw [b2, i2] at this; exact this.le
            linarith
          · exact h
          · exfalso
            have hle : q.T ≤ a.T := by
              by_cases e : i + 1 = k
              · subst e; rw [hq] at ha; injection ha with ha; rw [ha]
              · have := List.pairwise_iff_getElem.mp hd (i + 1) k j1 a1 (by omega)
                rw [a2, j2] at this; exact this.le
            linarith
        subst hk
        rw [hp] at ha; rw [hq] at hb
        injection ha with ha; injection hb with hb
        subst ha; subst hb
        constructor <;> linarith)
    linarith [hb.1, hb.2]
  refine ⟨_, coreItgs_table d (List.ne_nil_of_mem hpd) _ _, key _, key _, key _, key _, key _, ?_, ?_⟩
  · exact interp_node (col (·.S) d) (col_inc hd _) (p.T, p.S) (List.mem_map.mpr ⟨p, hpd, rfl⟩)
  · exact interp_node (col (·.S) d) (col_inc hd _) (q.T, q.S) (List.mem_map.mpr ⟨q, hqd, rfl⟩)

/-- **C48** Outside the table nothing is added: a hot side beyond the last temperature gives the integrals up to the
last temperature (while `deltaT` keeps growing). -/
theorem C48_outside (d : List TEPoint) (l : TEPoint) (hl : d.getLast? = some l) (f0 : TEPoint) (hf : d.head? = some f0)
    (hd : Rising d) (Tc Th : ℝ) (hh : l.T ≤ Th) :
    ∃ i j, coreItgs (.table d) Tc Th = .ok i ∧ coreItgs (.table d) Tc l.T = .ok j ∧
      i.Rho = j.Rho ∧ i.S = j.S ∧ i.K = j.K ∧ i.RhoT = j.RhoT ∧ i.ST = j.ST ∧ i.deltaT = j.deltaT + (Th - l.T) := by
  have hne : d ≠ [] := by rintro rfl; simp at hl
  have hmem : l ∈ d := List.mem_of_getLast? hl
  have key : ∀ f : TEPoint → ℝ, tabItg (col f d) Tc Th = tabItg (col f d) Tc l.T := by
    intro f
    unfold tabItg
    congr 1
    obtain ⟨g, hg, hg'⟩ := cumtrapz_last (col f d) l.T ⟨(l.T, f l), by simp [col, List.getLast?_map, hl], rfl⟩
    have hgm : g ∈ cumtrapz (col f d) := List.mem_of_getLast? hg
    have hinc := cumtrapz_inc (col_inc hd f)
    have e2 : npInterp (cumtrapz (col f d)) none none l.T = g.2 := by
      rw [← hg']; exact interp_node _ hinc g hgm
    rw [e2]
    rcases hh.eq_or_lt with h | h
    · rw [← h]; exact e2
    · obtain ⟨f2, hf2, hf2'⟩ := cumtrapz_head (col f d) f0.T ⟨(f0.T, f f0), by simp [col, List.head?_map, hf], rfl⟩
      simp only [Option.mem_def] at hf2 hg
      have h0 : f0.T ≤ l.T := by
        have := (inside_of_mem (col f d) (col_inc hd f) (l.T, f l) (List.mem_map.mpr ⟨l, hmem, rfl⟩)).1
        obtain ⟨r, hr, hr'⟩ := this
        simp only [col, List.head?_map, hf, Option.map_some, Option.mem_def, Option.some.injEq] at hr
        subst hr; exact hr'
      simp only [npInterp, hf2, hg]
      rw [if_neg (by rw [hf2']; linarith), if_pos (by rw [hg']; exact h)]
      rfl
  refine ⟨_, _, coreItgs_table d hne _ _, coreItgs_table d hne _ _, key _, key _, key _, key _, key _, ?_⟩
  simp only; ring

/-- two temperatures of a table with constant properties -/
def twoPoints : List TEPoint := [⟨300, 1000, 100, 2⟩, ⟨500, 1000, 100, 2⟩]

/-- the hypotheses of C48 are met -/
example : Rising twoPoints ∧ Covers twoPoints 350 ∧ Covers twoPoints 450 := by
  refine ⟨?_, ⟨⟨⟨300, 1000, 100, 2⟩, rfl, ?_⟩, ⟨⟨500, 1000, 100, 2⟩, rfl, ?_⟩⟩,
    ⟨⟨⟨300, 1000, 100, 2⟩, rfl, ?_⟩, ⟨⟨500, 1000, 100, 2⟩, rfl, ?_⟩⟩⟩
  · simp [Rising, twoPoints]; norm_num
  all_goals norm_num

/-- **C48** At temperatures between the data the weighted integrals are in general not exact, even for constant
properties: here `<T S>` from 300 K to 400 K is 4000000 instead of 3500000. -/
theorem C48_between_data_inexact :
    (coreItgs (.table twoPoints) 300 400).map (·.ST) = .ok 4000000 ∧ (100 : ℝ) * (400 ^ 2 - 300 ^ 2) / 2 = 3500000 := by
  constructor
  · simp only [coreItgs, twoPoints, Except.map, tabItg, cumtrapz, cumtrapzGo, List.map_cons, List.map_nil, npInterp,
      List.head?_cons, List.getLast?_cons_cons, List.getLast?_singleton, npScan]
    norm_num
  · norm_num

/-! ## C54 -/

theorem integ_hasDerivAt (p : Polynomial ℝ) (x : ℝ) : HasDerivAt (fun x => (integ p).eval x) (p.eval x) x := by
  have h : Polynomial.derivative (integ p) = p := by
    unfold integ
    rw [Polynomial.sum_def, Polynomial.derivative_sum]
    conv_rhs => rw [p.as_sum_support]
    apply Finset.sum_congr rfl
    intro n _
    rw [Polynomial.derivative_monomial]
    simp only [Nat.add_sub_cancel]
    congr 1
    have : (n : ℝ) + 1 ≠ 0 := by positivity
    push_cast
    field_simp
  have := (integ p).hasDerivAt x
  rwa [h] at this

theorem integ_eval (p : Polynomial ℝ) (a b : ℝ) : (integ p).eval b - (integ p).eval a = ∫ x in a..b, p.eval x := by
  rw [intervalIntegral.integral_eq_sub_of_hasDerivAt (f := fun x => (integ p).eval x)]
  · intro x _; exact integ_hasDerivAt p x
  · exact (p.continuous).intervalIntegrable a b

/-- **C54** Polynomial input gives the exact integrals of resistivity, Seebeck coefficient, thermal conductivity and
`T*Rho`; the integral reported as `<T*S>` is that of `T*Rho` instead. -/
theorem C54_polynomial (Rho S K : Polynomial ℝ) (Tc Th : ℝ) :
    ∃ i, coreItgs (.poly Rho S K) Tc Th = .ok i ∧ i.deltaT = Th - Tc ∧ i.Sc = S.eval Tc ∧ i.Sh = S.eval Th ∧
      i.Rho = (∫ t in Tc..Th, Rho.eval t) ∧ i.S = (∫ t in Tc..Th, S.eval t) ∧ i.K = (∫ t in Tc..Th, K.eval t) ∧
      i.RhoT = (∫ t in Tc..Th, t * Rho.eval t) ∧ i.ST = (∫ t in Tc..Th, t * Rho.eval t) := by
  have e : ∀ t : ℝ, (Polynomial.X * Rho).eval t = t * Rho.eval t := by intro t; simp
  refine ⟨_, rfl, rfl, rfl, rfl, integ_eval _ _ _, integ_eval _ _ _, integ_eval _ _ _, ?_, ?_⟩
  · simp only [integ_eval, e]
  · simp only [integ_eval, e]

/-- **C54** Hence `<T*S>` is wrong: for resistivity 1 and Seebeck coefficient 2 it is half of the integral of `T*S`. -/
theorem C54_ST_wrong :
    ∃ (Rho S K : Polynomial ℝ) (Tc Th : ℝ) (i : Itgs), coreItgs (.poly Rho S K) Tc Th = .ok i ∧
      2 * i.ST = (∫ t in Tc..Th, t * S.eval t) ∧ i.ST ≠ ∫ t in Tc..Th, t * S.eval t := by
  obtain ⟨i, hi, _, _, _, _, _, _, _, h⟩ := C54_polynomial 1 (Polynomial.C 2) 1 0 2
  have e : (∫ t in (0 : ℝ)..2, t * (1 : Polynomial ℝ).eval t) = 2 := by
    rw [intervalIntegral.integral_eq_sub_of_hasDerivAt (f := fun x => x ^ 2 / 2)]
    · norm_num
    · intro x _
      have := (hasDerivAt_pow 2 x).div_const 2
      simpa using this
    · apply Continuous.intervalIntegrable
      simp only [Polynomial.eval_one, mul_one]; exact continuous_id
  have e2 : (∫ t in (0 : ℝ)..2, t * (Polynomial.C (2 : ℝ)).eval t) = 4 := by
    rw [intervalIntegral.integral_eq_sub_of_hasDerivAt (f := fun x => x ^ 2)]
    · norm_num
    · intro x _
      have := hasDerivAt_pow 2 x
      simp only [Polynomial.eval_C, Nat.cast_ofNat, Nat.add_one_sub_one, pow_one] at this ⊢
      rw [mul_comm]; exact this
    · apply Continuous.intervalIntegrable
      simp only [Polynomial.eval_C]; exact continuous_id.mul continuous_const
  refine ⟨1, Polynomial.C 2, 1, 0, 2, i, hi, ?_, ?_⟩
  · rw [h, e, e2]; norm_num
  · rw [h, e, e2]; norm_num

/-- **C54** For constant properties the polynomial mode agrees with the tabulated mode on everything except `<T*S>`,
which agrees only if the Seebeck coefficient equals the resistivity (numerically). -/
theorem C54_agrees_with_table (d : List TEPoint) (hd : Rising d) (p q : TEPoint) (hp : p ∈ d) (hq : q ∈ d)
    (hT : 0 < p.T) (hlt : p.T < q.T) (C S K : ℝ) (hconst : ∀ p ∈ d, p.C = C ∧ p.S = S ∧ p.K = K) :
    ∃ i j, coreItgs (.table d) p.T q.T = .ok i ∧
      coreItgs (.poly (Polynomial.C (10000 / C)) (Polynomial.C S) (Polynomial.C K)) p.T q.T = .ok j ∧
      j.deltaT = i.deltaT ∧ j.Sc = i.Sc ∧ j.Sh = i.Sh ∧ j.Rho = i.Rho ∧ j.S = i.S ∧ j.K = i.K ∧ j.RhoT = i.RhoT ∧
      (j.ST = i.ST ↔ S = 10000 / C) := by
  obtain ⟨i, hi, h1, h2, h3, h4, h5, h6, h7⟩ := C48_constant_at_data d hd p q hp hq C S K hconst
  obtain ⟨j, hj, g1, g2, g3, g4, g5, g6, g7, g8⟩ :=
    C54_polynomial (Polynomial.C (10000 / C)) (Polynomial.C S) (Polynomial.C K) p.T q.T
  have eT : ∀ c : ℝ, (∫ t in p.T..q.T, t * (Polynomial.C c).eval t) = c * (q.T ^ 2 - p.T ^ 2) / 2 := by
    intro c
    rw [intervalIntegral.integral_eq_sub_of_hasDerivAt (f := fun x => c * x ^ 2 / 2)]
    · ring
    · intro x _
      have := ((hasDerivAt_pow 2 x).const_mul c).div_const 2
      simp only [Polynomial.eval_C]
      have e : c * (((2 : Nat) : ℝ) * x ^ (2 - 1)) / 2 = x * c := by norm_num; ring
      rw [← e]; exact this
    · apply Continuous.intervalIntegrable
      simp only [Polynomial.eval_C]; exact continuous_id.mul continuous_const
  have hdT : i.deltaT = q.T - p.T := by
    rw [coreItgs_table d (List.ne_nil_of_mem hp)] at hi
    injection hi with hi; rw [← hi]
  refine ⟨i, j, hi, hj, by rw [g1, hdT], by rw [g2, h3]; simp, by rw [g3, h4]; simp, ?_, ?_, ?_, ?_, ?_⟩
  · rw [g4, h5]; simp only [Polynomial.eval_C, intervalIntegral.integral_const, smul_eq_mul]; ring
  · rw [g5, h6]; simp only [Polynomial.eval_C, intervalIntegral.integral_const, smul_eq_mul]; ring
  · rw [g6, h7]; simp only [Polynomial.eval_C, intervalIntegral.integral_const, smul_eq_mul]; ring
  · rw [g7, h1, eT]
  · rw [g8, h2, eT]
    have : 0 < q.T ^ 2 - p.T ^ 2 := by nlinarith
    constructor
    · intro h
      have : (10000 / C - S) * (q.T ^ 2 - p.T ^ 2) = 0 := by linarith
      rcases mul_eq_zero.mp this with h' | h' <;> linarith
    · intro h; rw [h]

end TEflow.Engout
