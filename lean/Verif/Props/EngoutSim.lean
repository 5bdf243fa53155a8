import Verif.Props.EngoutItg
import Verif.Props.Ztdev

/-! # C49–C53: simulating a generator leg -/

set_option linter.unusedSimpArgs false
set_option linter.unusedVariables false

namespace TEflow.Engout
open TEflow.Ztdev (TEPoint textbookYita calZTdev)
open TEflow.Mathext (npInterp npScan)

/-! ## Running an object -/

/-- the integrals of a table that is not empty -/
noncomputable def tableItgs (d : List TEPoint) (Tc Th : ℝ) : Itgs :=
  { Tc := Tc, Th := Th, deltaT := Th - Tc, Sc := npInterp (col (·.S) d) none none Tc
    Sh := npInterp (col (·.S) d) none none Th
    Rho := tabItg (col (fun p => 10000 / p.C) d) Tc Th, S := tabItg (col (·.S) d) Tc Th
    K := tabItg (col (·.K) d) Tc Th, RhoT := tabItg (col (fun p => p.T * (10000 / p.C)) d) Tc Th
    ST := tabItg (col (fun p => p.T * p.S) d) Tc Th }

theorem coreItgs_tableItgs (d : List TEPoint) (hd : d ≠ []) (Tc Th : ℝ) :
    coreItgs (.table d) Tc Th = .ok (tableItgs d Tc Th) := coreItgs_table d hd Tc Th

theorem mapM_ok {α β : Type} (f : α → Except PyErr β) (g : α → β) (l : List α) (h : ∀ a ∈ l, f a = .ok (g a)) :
    l.mapM f = .ok (l.map g) := by
  induction l with
  | nil => rfl
  | cons a l ih =>
    rw [List.mapM_cons, h a (by simp), ih (fun b hb => h b (by simp [hb]))]
    rfl

theorem bcast_single {α β : Type} (ps : List α) (x : β) : bcast ps [x] = .ok (ps.map fun p => (p, x)) := by
  match ps with
  | [] => simp [bcast]
  | [a] => simp [bcast]
  | a :: b :: l => simp [bcast]

theorem bcast_map {α β : Type} (ps : List α) (f : α → β) : bcast ps (ps.map f) = .ok (ps.map fun p => (p, f p)) := by
  unfold bcast
  rw [if_pos (by simp)]
  congr 1
  induction ps with
  | nil => rfl
  | cons a l ih => simp [ih]

theorem build_ok {g : Leg} {w : Bool} {ps : List Prfs} (h : g.compute w = .ok ps) :
    g.build w = (.ok ps, { g with profiles := some ps }) := by simp only [Leg.build, h]

/-- at a single assigned current -/
theorem simulate_value (ps : List Prfs) (x : ℝ) :
    simulate (some ps) (.values [x]) = .ok (ps.map fun p => simulate1 p x) := by
  simp only [simulate, currents]
  show (bcast ps [x]).map _ = _
  rw [bcast_single]; simp [Except.map, Function.comp_def]

theorem simulate_power (ps : List Prfs) (s : List Char) (hs : initial s = some 'p') :
    simulate (some ps) (.str s) = .ok (ps.map fun p => simulate1 p (1 / 2)) := by
  have : currents ps (.str s) = .ok [1 / 2] := by simp [currents, hs]
  simp only [simulate, this]
  show (bcast ps [1 / 2]).map _ = _
  rw [bcast_single]; simp [Except.map, Function.comp_def]

theorem simulate_yita (ps : List Prfs) (s : List Char) (hs : initial s = some 'y') :
    simulate (some ps) (.str s) = .ok (ps.map fun p => simulate1 p (1 / (1 + p.m_opt))) := by
  have : currents ps (.str s) = .ok (ps.map fun p => 1 / (1 + p.m_opt)) := by simp [currents, hs]
  simp only [simulate, this]
  show (bcast ps (ps.map _)).map _ = _
  rw [bcast_map]; simp [Except.map, Function.comp_def]

/-! ## C49 -/

/-- **C49** `Pout = 1E-3*I*Vout` and `Yita = 100*Pout/Qhot`, for every material, geometry and reduced current. -/
theorem C49_identities (i : Itgs) (L A : ℝ) (w : Bool) (x : ℝ) :
    (simulate1 (prfs L A w i) x).Pout =
        1 / 1000 * (simulate1 (prfs L A w i) x).I * (simulate1 (prfs L A w i) x).Vout ∧
    (simulate1 (prfs L A w i) x).Yita =
        100 * (simulate1 (prfs L A w i) x).Pout / (simulate1 (prfs L A w i) x).Qhot := by
  refine ⟨?_, rfl⟩
  simp only [simulate1, prfs]
  rw [mul_comm i.Rho L, div_mul_eq_div_div]
  ring

/-- **C49** Open and closed circuit: at `I_r = 0` there is no current and the voltage is `1E-3*<S>`; at `I_r = 1` the
voltage vanishes; both deliver no power. -/
theorem C49_endpoints (i : Itgs) (L A : ℝ) (w : Bool) :
    (simulate1 (prfs L A w i) 0).I = 0 ∧ (simulate1 (prfs L A w i) 0).Vout = 1 / 1000 * i.S ∧
    (simulate1 (prfs L A w i) 0).Pout = 0 ∧ (simulate1 (prfs L A w i) 1).Vout = 0 ∧
    (simulate1 (prfs L A w i) 1).Pout = 0 := by
  simp [simulate1, prfs]

/-- **C49** Currents, power and heat scale with `A/L`; voltage and efficiency do not depend on the geometry. -/
theorem C49_geometry (i : Itgs) (L A L' A' : ℝ) (hL : L ≠ 0) (hA : A ≠ 0) (hL' : L' ≠ 0) (hA' : A' ≠ 0) (w : Bool) (x : ℝ) :
    (simulate1 (prfs L' A' w i) x).I = (A' / L') / (A / L) * (simulate1 (prfs L A w i) x).I ∧
    (simulate1 (prfs L' A' w i) x).Pout = (A' / L') / (A / L) * (simulate1 (prfs L A w i) x).Pout ∧
    (simulate1 (prfs L' A' w i) x).Qhot = (A' / L') / (A / L) * (simulate1 (prfs L A w i) x).Qhot ∧
    (simulate1 (prfs L' A' w i) x).Vout = (simulate1 (prfs L A w i) x).Vout ∧
    (simulate1 (prfs L' A' w i) x).Yita = (simulate1 (prfs L A w i) x).Yita := by
  have hI : (simulate1 (prfs L' A' w i) x).I = (A' / L') / (A / L) * (simulate1 (prfs L A w i) x).I := by
    simp only [simulate1, prfs, div_eq_mul_inv, mul_inv, inv_inv]
    have h1 : L * L⁻¹ = 1 := mul_inv_cancel₀ hL
    have h2 : A⁻¹ * A = 1 := inv_mul_cancel₀ hA
    linear_combination (-(1 * 1000⁻¹ * i.deltaT * i.S * i.Rho⁻¹ * L'⁻¹ * A' * x) * (A⁻¹ * A)) * h1 -
      (1 * 1000⁻¹ * i.deltaT * i.S * i.Rho⁻¹ * L'⁻¹ * A' * x) * h2
  have hP : (simulate1 (prfs L' A' w i) x).Pout = (A' / L') / (A / L) * (simulate1 (prfs L A w i) x).Pout := by
    simp only [simulate1, prfs, div_eq_mul_inv, mul_inv, inv_inv]
    have h1 : L * L⁻¹ = 1 := mul_inv_cancel₀ hL
    have h2 : A⁻¹ * A = 1 := inv_mul_cancel₀ hA
    linear_combination (-(1 * 1000⁻¹ * (1 * 1000000⁻¹ * i.S * i.S * i.Rho⁻¹) * i.deltaT * L'⁻¹ * A' * (x * (1 - x))) *
      (A⁻¹ * A)) * h1 - (1 * 1000⁻¹ * (1 * 1000000⁻¹ * i.S * i.S * i.Rho⁻¹) * i.deltaT * L'⁻¹ * A' * (x * (1 - x))) * h2
  have hQ : (simulate1 (prfs L' A' w i) x).Qhot = (A' / L') / (A / L) * (simulate1 (prfs L A w i) x).Qhot := by
    simp only [simulate1, prfs]
    generalize (1 / (1 / 1000000 * i.S * i.S / i.Rho / i.K) + (mdfs i).ST * x - (mdfs i).RhoT * x * x) = q
    generalize 1 / 1000000 * i.S * i.S / i.Rho = P
    simp only [div_eq_mul_inv, mul_inv, inv_inv]
    have h1 : L * L⁻¹ = 1 := mul_inv_cancel₀ hL
    have h2 : A⁻¹ * A = 1 := inv_mul_cancel₀ hA
    linear_combination (-(1 * 1000⁻¹ * P * i.deltaT * L'⁻¹ * A' * q * i.deltaT⁻¹) * (A⁻¹ * A)) * h1 -
      (1 * 1000⁻¹ * P * i.deltaT * L'⁻¹ * A' * q * i.deltaT⁻¹) * h2
  refine ⟨hI, hP, hQ, rfl, ?_⟩
  rw [(C49_identities i L' A' w x).2, (C49_identities i L A w x).2, hP, hQ]
  have hr : (A' / L') / (A / L) ≠ 0 := div_ne_zero (div_ne_zero hA' hL') (div_ne_zero hA hL)
  rw [show 100 * (A' / L' / (A / L) * (simulate1 (prfs L A w i) x).Pout) =
    A' / L' / (A / L) * (100 * (simulate1 (prfs L A w i) x).Pout) by ring]
  exact mul_div_mul_left _ _ hr

theorem tabItg_neg (d : List TEPoint) (f : TEPoint → ℝ) (Tc Th : ℝ) :
    tabItg (col (fun p => -f p) d) Tc Th = -tabItg (col f d) Tc Th := by
  have h := tabItg_linear (fun p : TEPoint => p.T) (fun _ => 0) f (fun p => -f p) (-1) (by intro t; ring) d Tc Th
  have h0 : tabItg (d.map fun p => (p.T, (0 : ℝ))) Tc Th = 0 := by
    have := tabItg_linear (fun p : TEPoint => p.T) (fun _ => (0 : ℝ)) (fun _ => 0) (fun _ => 0) (-1) (by intro t; ring) d Tc Th
    linarith
  simp only [col]
  rw [h, h0]; ring

theorem tableItgs_flip (d : List TEPoint) (Tc Th : ℝ) :
    tableItgs (d.map Ztdev.flipS) Tc Th =
      { (tableItgs d Tc Th) with
        S := -(tableItgs d Tc Th).S
        ST := -(tableItgs d Tc Th).ST
        Sc := -(tableItgs d Tc Th).Sc
        Sh := -(tableItgs d Tc Th).Sh } := by
  have hcol : ∀ f : TEPoint → ℝ, col f (d.map Ztdev.flipS) = col (fun p => f (Ztdev.flipS p)) d := by
    intro f; simp [col, Function.comp_def, Ztdev.flipS]
  have hint : ∀ t, npInterp (col (fun p => -p.S) d) none none t = -npInterp (col (·.S) d) none none t := by
    intro t
    have h := interp_linear (fun p : TEPoint => p.T) (fun _ => 0) (fun p => p.S) (fun p => -p.S) (-1)
      (by intro t; ring) d t
    have h0 : npInterp (d.map fun p => (p.T, (0 : ℝ))) none none t = 0 := by
      have := interp_linear (fun p : TEPoint => p.T) (fun _ => (0 : ℝ)) (fun _ => 0) (fun _ => 0) (-1)
        (by intro t; ring) d t
      linarith
    simp only [col]
    rw [h, h0]; ring
  have hST : col (fun p => p.T * -p.S) d = col (fun p => -(p.T * p.S)) d := by
    simp [col]
  simp only [tableItgs, hcol, Ztdev.flipS, tabItg_neg, hint, hST]

/-- **C49** Reversing the sign of the Seebeck coefficient of a table reverses current and voltage and changes neither
power, heat nor efficiency, at every temperature pair and reduced current. -/
theorem C49_sign (d : List TEPoint) (hd : d ≠ []) (Tc Th L A : ℝ) (w : Bool) (x : ℝ) :
    ∃ i j, coreItgs (.table d) Tc Th = .ok i ∧ coreItgs (.table (d.map Ztdev.flipS)) Tc Th = .ok j ∧
      (simulate1 (prfs L A w j) x).I = -(simulate1 (prfs L A w i) x).I ∧
      (simulate1 (prfs L A w j) x).Vout = -(simulate1 (prfs L A w i) x).Vout ∧
      (simulate1 (prfs L A w j) x).Pout = (simulate1 (prfs L A w i) x).Pout ∧
      (simulate1 (prfs L A w j) x).Qhot = (simulate1 (prfs L A w i) x).Qhot ∧
      (simulate1 (prfs L A w j) x).Yita = (simulate1 (prfs L A w i) x).Yita ∧
      (prfs L A w j).m_opt = (prfs L A w i).m_opt := by
  refine ⟨_, _, coreItgs_tableItgs d hd Tc Th, coreItgs_tableItgs _ (by simpa using hd) Tc Th, ?_⟩
  have hj := tableItgs_flip d Tc Th
  generalize tableItgs (d.map Ztdev.flipS) Tc Th = j at *
  generalize tableItgs d Tc Th = i at *
  have e1 : j.S = -i.S := by rw [hj]
  have e2 : j.ST = -i.ST := by rw [hj]
  have e3 : j.Rho = i.Rho := by rw [hj]
  have e4 : j.RhoT = i.RhoT := by rw [hj]
  have e5 : j.K = i.K := by rw [hj]
  have e6 : j.Tc = i.Tc := by rw [hj]
  have e7 : j.deltaT = i.deltaT := by rw [hj]
  have m1 : (mdfs j).ST = (mdfs i).ST := by simp only [mdfs, e1, e2, e6, neg_div_neg_eq]
  have m2 : (mdfs j).RhoT = (mdfs i).RhoT := by simp only [mdfs, e3, e4, e6]
  have m3 : (mdfs j).ST_RhoT_1 = (mdfs i).ST_RhoT_1 := by
    simp only [mdfs, e1, e2, e3, e4, e6, neg_div_neg_eq]
  refine ⟨?_, ?_, ?_, ?_, ?_, ?_⟩ <;> simp only [simulate1, prfs, m1, m2, m3, e1, e3, e5, e7] <;> ring_nf

/-! ## C50 -/

/-- **C50** For every device built (one leg, any data) at which the resistivity integral is positive and `Th >= Tc`, the
power at `'PowerMax'` is at least the power at any reduced current, at every temperature pair. -/
theorem C50_power (i : Itgs) (L A : ℝ) (hL : 0 < L) (hA : 0 < A) (hR : 0 < i.Rho) (hT : 0 ≤ i.deltaT) (w : Bool) (x : ℝ) :
    (simulate1 (prfs L A w i) x).Pout ≤ (simulate1 (prfs L A w i) (1 / 2)).Pout := by
  have hQ : 0 ≤ (prfs L A w i).Qx := by
    simp only [prfs]
    have : 0 ≤ 1 / 1000000 * i.S * i.S / i.Rho := by
      apply div_nonneg _ hR.le
      nlinarith [mul_self_nonneg i.S]
    positivity
  simp only [simulate1]
  have : x * (1 - x) ≤ 1 / 2 * (1 - 1 / 2) := by nlinarith [sq_nonneg (x - 1 / 2)]
  exact mul_le_mul_of_nonneg_left this hQ

theorem list_bounds {α : Type} (f : α → ℝ) (l : List α) (h : ∀ a ∈ l, 0 < f a) :
    ∃ lo hi, 0 < lo ∧ ∀ a ∈ l, lo ≤ f a ∧ f a ≤ hi := by
  induction l with
  | nil => exact ⟨1, 1, one_pos, by simp⟩
  | cons a l ih =>
    obtain ⟨lo, hi, h0, hb⟩ := ih (fun b hb => h b (by simp [hb]))
    refine ⟨min lo (f a), max hi (f a), lt_min h0 (h a (by simp)), ?_⟩
    intro b hb'
    rcases List.mem_cons.mp hb' with rfl | hb'
    · exact ⟨min_le_right _ _, le_max_right _ _⟩
    · exact ⟨(min_le_left _ _).trans (hb b hb').1, (hb b hb').2.trans (le_max_left _ _)⟩

/-- a positive column has a positive integral -/
theorem tabItg_pos (d : List TEPoint) (hd : Rising d) (f : TEPoint → ℝ) (hf : ∀ p ∈ d, 0 < f p) (Tc Th : ℝ)
    (hc : Covers d Tc) (hh : Covers d Th) (hlt : Tc < Th) : 0 < tabItg (col f d) Tc Th := by
  obtain ⟨lo, hi, h0, hb⟩ := list_bounds f d hf
  have := (col_bounds d hd Tc Th hc hh hlt.le f lo hi hb).1
  have h2 : 0 < lo * (Th - Tc) := mul_pos h0 (by linarith)
  linarith

/-- **C50** Object level: a leg with a rising table of positive conductivities, temperatures inside the table, positive
size: after `build`, `simulate('PowerMax')` gives at every temperature pair at least the power of any assigned reduced
current. -/
theorem C50_PowerMax (d : List TEPoint) (hd : Rising d) (hC : ∀ p ∈ d, 0 < p.C) (Tc Th : List ℝ) (temps : List (ℝ × ℝ))
    (htemps : bcast Tc Th = .ok temps) (hin : ∀ t ∈ temps, Covers d t.1 ∧ Covers d t.2 ∧ t.1 < t.2) (hne : d ≠ [])
    (L A : ℝ) (hL : 0 < L) (hA : 0 < A) (w : Bool) (s : List Char) (hs : initial s = some 'p') (x : ℝ) :
    ∃ ps g', Leg.build ⟨.table d, Tc, Th, L, A, none⟩ w = (.ok ps, g') ∧ ps.length = temps.length ∧
      ∃ best outs, g'.simulate (.str s) = .ok best ∧ g'.simulate (.values [x]) = .ok outs ∧
        best.length = temps.length ∧ outs.length = temps.length ∧
        ∀ (j : Nat) (o b : Outs), outs[j]? = some o → best[j]? = some b → o.Pout ≤ b.Pout := by
  have hcomp : Leg.compute ⟨.table d, Tc, Th, L, A, none⟩ w =
      .ok ((temps.map fun t => tableItgs d t.1 t.2).map (prfs L A w)) := by
    simp only [Leg.compute, htemps]
    show ((temps.mapM fun t => coreItgs (.table d) t.1 t.2).map _) = _
    rw [mapM_ok _ (fun t : ℝ × ℝ => tableItgs d t.1 t.2) temps (fun t _ => coreItgs_tableItgs d hne t.1 t.2)]
    rfl
  refine ⟨_, _, build_ok hcomp, by simp, _, _, simulate_power _ s hs, simulate_value _ x, by simp, by simp, ?_⟩
  intro j o b ho hb
  simp only [List.getElem?_map, Option.map_eq_some_iff] at ho hb
  obtain ⟨p, ⟨i, ⟨t, ht, rfl⟩, rfl⟩, rfl⟩ := ho
  obtain ⟨p', ⟨i', ⟨t', ht', rfl⟩, rfl⟩, rfl⟩ := hb
  rw [ht] at ht'
  injection ht' with ht'
  subst ht'
  obtain ⟨h1, h2, h3⟩ := hin t (List.mem_of_getElem? ht)
  apply C50_power _ L A hL hA
  · exact tabItg_pos d hd _ (fun p hp => div_pos (by norm_num) (hC p hp)) _ _ h1 h2 h3
  · simp only [tableItgs]; linarith

/-- the hypotheses are met by the two-point table, single temperatures 300 K and 500 K -/
example : bcast [(300 : ℝ)] [500] = .ok [(300, 500)] ∧ initial "PowerMax".toList = some 'p' := by
  constructor
  · simp [bcast]
  · decide

/-! ## C51 -/

/-- **C51** The efficiency at `'YitaMax'` is at least that at any reduced current with positive heat input, whenever the
optimal ratio exists (`1+ZTp > 0`), for positive resistivity and conductance integrals, a Seebeck integral different
from zero and a non-negative `<(T-Tc)*Rho>`; the heat input at the optimum is then positive too. -/
theorem C51_efficiency (i : Itgs) (L A : ℝ) (hL : 0 < L) (hA : 0 < A) (hT : 0 < i.deltaT) (hS : i.S ≠ 0) (hR : 0 < i.Rho)
    (hK : 0 < i.K) (hb : i.Tc * i.Rho ≤ i.RhoT) (w : Bool) (hm : 0 < 1 + (prfs L A w i).ZTp) (x : ℝ)
    (hq : 0 < (simulate1 (prfs L A w i) x).Qhot) :
    (simulate1 (prfs L A w i) x).Yita ≤ (simulate1 (prfs L A w i) (1 / (1 + (prfs L A w i).m_opt))).Yita ∧
    0 < (simulate1 (prfs L A w i) (1 / (1 + (prfs L A w i).m_opt))).Qhot := by
  have hP : 0 < 1 / 1000000 * i.S * i.S / i.Rho := by
    apply div_pos _ hR
    have := mul_self_pos.mpr hS
    nlinarith
  have hZ : 0 < (prfs L A w i).Zeng := by simp only [prfs]; exact div_pos hP hK
  have hQ : 0 < (prfs L A w i).Qx := by simp only [prfs]; positivity
  have hbn : 0 ≤ (prfs L A w i).mdfs.RhoT := by
    simp only [prfs, mdfs]
    rw [sub_nonneg, le_div_iff₀ hR]; exact hb
  have hdT : 0 < (prfs L A w i).deltaT := hT
  have hZTp : (prfs L A w i).ZTp = (prfs L A w i).Zeng * ((prfs L A w i).mdfs.ST - (prfs L A w i).mdfs.RhoT) := rfl
  have hmo : (prfs L A w i).m_opt = Real.sqrt (1 + (prfs L A w i).ZTp) := rfl
  generalize prfs L A w i = p at *
  have hm2 : p.m_opt ^ 2 = 1 + p.ZTp := by rw [hmo]; exact Real.sq_sqrt hm.le
  have hm0 : 0 < p.m_opt := by rw [hmo]; exact Real.sqrt_pos.mpr hm
  set m := p.m_opt
  set Z := p.Zeng
  set a := p.mdfs.ST
  set b := p.mdfs.RhoT
  have hk : 0 < 1 / Z := by positivity
  have hc : a - b = 1 / Z * (m ^ 2 - 1) := by rw [hm2, hZTp]; field_simp; ring
  have h1m : 0 < 1 + m := by linarith
  -- heat factor at the optimum
  have hq0 : 1 / Z + a * (1 / (1 + m)) - b * (1 / (1 + m)) * (1 / (1 + m)) = 1 / Z * m + b * m / (1 + m) ^ 2 := by
    have ha : a = b + 1 / Z * (m ^ 2 - 1) := by linarith
    rw [ha]; field_simp; ring
  have hq0' : 0 < 1 / Z + a * (1 / (1 + m)) - b * (1 / (1 + m)) * (1 / (1 + m)) := by
    rw [hq0]; positivity
  have hQ0 : 0 < (simulate1 p (1 / (1 + m))).Qhot := by
    simp only [simulate1]
    exact div_pos (mul_pos hQ hq0') hdT
  refine ⟨?_, hQ0⟩
  have hqx : 0 < 1 / Z + a * x - b * x * x := by
    simp only [simulate1] at hq
    have := (div_pos_iff_of_pos_right hdT).mp hq
    exact (mul_pos_iff_of_pos_left hQ).mp this
  have key : (1 / (1 + m)) * (1 - 1 / (1 + m)) * (1 / Z + a * x - b * x * x) -
      x * (1 - x) * (1 / Z + a * (1 / (1 + m)) - b * (1 / (1 + m)) * (1 / (1 + m))) =
      1 / Z * m * (x - 1 / (1 + m)) ^ 2 := by
    have ha : a = b + 1 / Z * (m ^ 2 - 1) := by linarith
    rw [ha]; field_simp; ring
  have key' : x * (1 - x) * (1 / Z + a * (1 / (1 + m)) - b * (1 / (1 + m)) * (1 / (1 + m))) ≤
      (1 / (1 + m)) * (1 - 1 / (1 + m)) * (1 / Z + a * x - b * x * x) := by
    have : 0 ≤ 1 / Z * m * (x - 1 / (1 + m)) ^ 2 := by positivity
    linarith
  simp only [simulate1]
  have form : ∀ n q : ℝ, 0 < q → 100 * (p.Qx * n) / (p.Qx * q / p.deltaT) = 100 * p.deltaT * (n / q) := by
    intro n q hq
    field_simp
  rw [form _ _ hqx, form _ _ hq0']
  apply mul_le_mul_of_nonneg_left _ (by positivity)
  rw [div_le_div_iff₀ hqx hq0']
  exact key'

theorem weighted_nonneg (d : List TEPoint) (hd : Rising d) (f : TEPoint → ℝ) (hf : ∀ p ∈ d, 0 < f p)
    (p q : TEPoint) (hp : p ∈ d) (hq : q ∈ d) (hlt : p.T < q.T) :
    p.T * tabItg (col f d) p.T q.T ≤ tabItg (col (fun t => t.T * f t) d) p.T q.T ∧
    tabItg (col (fun t => t.T * f t) d) p.T q.T ≤ q.T * tabItg (col f d) p.T q.T := by
  have mem : ∀ (g : TEPoint → ℝ) (r : TEPoint), r ∈ d → Inside (col g d) r.T := fun g r hr =>
    inside_of_mem (col g d) (col_inc hd g) (r.T, g r) (List.mem_map.mpr ⟨r, hr, rfl⟩)
  obtain ⟨lo, hi, h0, hb⟩ := list_bounds f d hf
  have ordered : ∀ {g : TEPoint → ℝ} {x y : ℝ × ℝ}, Consec (col g d) x y → x.1 < q.T → p.T < y.1 → p.T ≤ x.1 ∧ y.1 ≤ q.T ∧ x.1 < y.1 := by
    intro g x y hxy h1 h2
    have g1 := consec_gap (col_inc hd g) hxy p.T (by simp only [col, List.map_map, List.mem_map]; exact ⟨p, hp, rfl⟩)
    have g2 := consec_gap (col_inc hd g) hxy q.T (by simp only [col, List.map_map, List.mem_map]; exact ⟨q, hq, rfl⟩)
    refine ⟨?_, ?_, consec_lt (col_inc hd g) hxy⟩
    · rcases g1 with h | h <;> linarith
    · rcases g2 with h | h <;> linarith
  constructor
  · have hlin := tabItg_linear (fun t : TEPoint => t.T) (fun t => t.T * f t) f (fun t => (t.T - p.T) * f t) (-p.T)
      (by intro t; ring) d p.T q.T
    have hbd := tabItg_bounds 0 ((q.T - p.T) * hi) (col (fun t => (t.T - p.T) * f t) d) p.T q.T (col_inc hd _)
      (mem _ p hp) (mem _ q hq) hlt.le (by
        intro x y hxy h1 h2
        obtain ⟨o1, o2, o3⟩ := ordered hxy h1 h2
        obtain ⟨k, a, b, ha, hb', rfl, rfl⟩ := col_consec hxy
        simp only at *
        have ha' := hb a (List.mem_of_getElem? ha)
        have hb'' := hb b (List.mem_of_getElem? hb')
        have hfa := hf a (List.mem_of_getElem? ha)
        have hfb := hf b (List.mem_of_getElem? hb')
        constructor
        · have := mul_nonneg (sub_nonneg.mpr o1) hfa.le
          have := mul_nonneg (by linarith : 0 ≤ b.T - p.T) hfb.le
          linarith
        · have u1 : (a.T - p.T) * f a ≤ (q.T - p.T) * hi :=
            mul_le_mul (by linarith) ha'.2 hfa.le (by linarith)
          have u2 : (b.T - p.T) * f b ≤ (q.T - p.T) * hi :=
            mul_le_mul (by linarith) hb''.2 hfb.le (by linarith)
          linarith)
    have := hbd.1
    simp only [col] at *
    rw [hlin] at this
    linarith
  · have hlin := tabItg_linear (fun t : TEPoint => t.T) (fun t => q.T * f t) (fun t => t.T * f t)
      (fun t => (q.T - t.T) * f t) (-1) (by intro t; ring) d p.T q.T
    have hlin2 := tabItg_linear (fun t : TEPoint => t.T) (fun _ => 0) f (fun t => q.T * f t) q.T
      (by intro t; ring) d p.T q.T
    have h00 : tabItg (d.map fun p => (p.T, (0 : ℝ))) p.T q.T = 0 := by
      have := tabItg_linear (fun p : TEPoint => p.T) (fun _ => (0 : ℝ)) (fun _ => 0) (fun _ => 0) (-1)
        (by intro t; ring) d p.T q.T
      linarith
    have hbd := tabItg_bounds 0 ((q.T - p.T) * hi) (col (fun t => (q.T - t.T) * f t) d) p.T q.T (col_inc hd _)
      (mem _ p hp) (mem _ q hq) hlt.le (by
        intro x y hxy h1 h2
        obtain ⟨o1, o2, o3⟩ := ordered hxy h1 h2
        obtain ⟨k, a, b, ha, hb', rfl, rfl⟩ := col_consec hxy
        simp only at *
        have ha' := hb a (List.mem_of_getElem? ha)
        have hb'' := hb b (List.mem_of_getElem? hb')
        have hfa := hf a (List.mem_of_getElem? ha)
        have hfb := hf b (List.mem_of_getElem? hb')
        constructor
        · have := mul_nonneg (by linarith : 0 ≤ q.T - a.T) hfa.le
          have := mul_nonneg (by linarith : 0 ≤ q.T - b.T) hfb.le
          linarith
        · have u1 : (q.T - a.T) * f a ≤ (q.T - p.T) * hi :=
            mul_le_mul (by linarith) ha'.2 hfa.le (by linarith)
          have u2 : (q.T - b.T) * f b ≤ (q.T - p.T) * hi :=
            mul_le_mul (by linarith) hb''.2 hfb.le (by linarith)
          linarith)
    have := hbd.1
    simp only [col] at *
    rw [hlin, hlin2, h00] at this
    linarith

/-- **C51** For a rising table of positive properties and temperatures of the table with `Th <= 2 Tc`, the hypotheses
always hold: the `'YitaMax'` efficiency is the best one. -/
theorem C51_table (d : List TEPoint) (hd : Rising d) (hpos : ∀ p ∈ d, 0 < p.C ∧ 0 < p.S ∧ 0 < p.K) (p q : TEPoint)
    (hp : p ∈ d) (hq : q ∈ d) (hlt : p.T < q.T) (h2 : q.T ≤ 2 * p.T) (L A : ℝ) (hL : 0 < L) (hA : 0 < A) (w : Bool)
    (s : List Char) (hs : initial s = some 'y') (x : ℝ) :
    ∃ ps g', Leg.build ⟨.table d, [p.T], [q.T], L, A, none⟩ w = (.ok ps, g') ∧
      ∃ best o, g'.simulate (.str s) = .ok [best] ∧ g'.simulate (.values [x]) = .ok [o] ∧
        (0 < o.Qhot → o.Yita ≤ best.Yita) ∧ 0 < best.Qhot := by
  have hne : d ≠ [] := List.ne_nil_of_mem hp
  have hcomp : Leg.compute ⟨.table d, [p.T], [q.T], L, A, none⟩ w = .ok [prfs L A w (tableItgs d p.T q.T)] := by
    simp only [Leg.compute, bcast, List.length_singleton, if_true]
    show (([(p.T, q.T)].mapM fun t => coreItgs (.table d) t.1 t.2).map _) = _
    rw [mapM_ok _ (fun t : ℝ × ℝ => tableItgs d t.1 t.2) _ (fun t _ => coreItgs_tableItgs d hne t.1 t.2)]
    rfl
  refine ⟨_, _, build_ok hcomp, _, _, simulate_yita _ s hs, simulate_value _ x, ?_⟩
  have cov : ∀ r ∈ d, Covers d r.T := by
    intro r hr
    have h := inside_of_mem (col (·.S) d) (col_inc hd _) (r.T, r.S) (List.mem_map.mpr ⟨r, hr, rfl⟩)
    obtain ⟨⟨f, hf, hf'⟩, ⟨l, hl, hl'⟩⟩ := h
    simp only [col, List.head?_map, List.getLast?_map, Option.mem_def, Option.map_eq_some_iff] at hf hl
    obtain ⟨f, hf, rfl⟩ := hf
    obtain ⟨l, hl, rfl⟩ := hl
    exact ⟨⟨f, hf, hf'⟩, ⟨l, hl, hl'⟩⟩
  have hRf : ∀ r ∈ d, (0 : ℝ) < 10000 / r.C := fun r hr => div_pos (by norm_num) (hpos r hr).1
  have pR := tabItg_pos d hd (fun r => 10000 / r.C) hRf p.T q.T (cov p hp) (cov q hq) hlt
  have pS := tabItg_pos d hd (·.S) (fun r hr => (hpos r hr).2.1) p.T q.T (cov p hp) (cov q hq) hlt
  have pK := tabItg_pos d hd (·.K) (fun r hr => (hpos r hr).2.2) p.T q.T (cov p hp) (cov q hq) hlt
  have wR := weighted_nonneg d hd (fun r => 10000 / r.C) hRf p q hp hq hlt
  have wS := weighted_nonneg d hd (·.S) (fun r hr => (hpos r hr).2.1) p q hp hq hlt
  set i := tableItgs d p.T q.T with hi
  have e1 : i.Rho = tabItg (col (fun r => 10000 / r.C) d) p.T q.T := rfl
  have e2 : i.S = tabItg (col (·.S) d) p.T q.T := rfl
  have e3 : i.K = tabItg (col (·.K) d) p.T q.T := rfl
  have e4 : i.RhoT = tabItg (col (fun r => r.T * (10000 / r.C)) d) p.T q.T := rfl
  have e5 : i.ST = tabItg (col (fun r => r.T * r.S) d) p.T q.T := rfl
  have e6 : i.Tc = p.T := rfl
  have e7 : i.deltaT = q.T - p.T := rfl
  rw [← e1] at pR
  rw [← e2] at pS
  rw [← e3] at pK
  rw [← e1, ← e4] at wR
  rw [← e2, ← e5] at wS
  have hm : 0 < 1 + (prfs L A w i).ZTp := by
    have hZ : 0 < 1 / 1000000 * i.S * i.S / i.Rho / i.K := by positivity
    have hc : 0 ≤ (mdfs i).ST_RhoT_1 := by
      simp only [mdfs]
      have a1 : p.T ≤ i.ST / i.S := by rw [le_div_iff₀ pS]; exact wS.1
      have a2 : i.RhoT / i.Rho ≤ q.T := by rw [div_le_iff₀ pR]; exact wR.2
      linarith
    have : 0 ≤ (prfs L A w i).ZTp := mul_nonneg hZ.le hc
    linarith
  have main := fun hq => C51_efficiency i L A hL hA (by rw [e7]; linarith) pS.ne' pR pK (by rw [e6]; exact wR.1) w hm x hq
  refine ⟨fun hq => (main hq).1, ?_⟩
  exact (C51_efficiency i L A hL hA (by rw [e7]; linarith) pS.ne' pR pK (by rw [e6]; exact wR.1) w hm 0 (by
    simp only [simulate1, prfs]
    have hZ : 0 < 1 / 1000000 * i.S * i.S / i.Rho / i.K := by positivity
    have : 0 < i.deltaT := by rw [e7]; linarith
    have hP : 0 < 1 / 1000000 * i.S * i.S / i.Rho := by positivity
    simp only [mul_zero, add_zero, sub_zero]
    positivity)).2

/-! ## C52 -/

/-- **C52** For constant properties and temperatures of the table the efficiency never exceeds Carnot's, at any reduced
current with positive heat input; the `'YitaMax'` efficiency is the textbook expression, and `cal_ZTdev` applied to it
gives back `ZTp = z (Tc+Th)/2` outside the guard of `cal_ZTdev`. -/
theorem C52_constant (d : List TEPoint) (hd : Rising d) (C S K : ℝ) (hC : 0 < C) (hS : S ≠ 0) (hK : 0 < K)
    (hconst : ∀ p ∈ d, p.C = C ∧ p.S = S ∧ p.K = K) (p q : TEPoint) (hp : p ∈ d) (hq : q ∈ d) (hT : 0 < p.T)
    (hlt : p.T < q.T) (L A : ℝ) (hL : 0 < L) (hA : 0 < A) (w : Bool) :
    ∃ i z, coreItgs (.table d) p.T q.T = .ok i ∧ z = 1 / 1000000 * S ^ 2 / (10000 / C * K) ∧
      (prfs L A w i).ZTp = z * ((p.T + q.T) / 2) ∧
      (∀ x, 0 < (simulate1 (prfs L A w i) x).Qhot →
        (simulate1 (prfs L A w i) x).Yita ≤ 100 * (1 - p.T / q.T)) ∧
      (simulate1 (prfs L A w i) (1 / (1 + (prfs L A w i).m_opt))).Yita = textbookYita (z * ((p.T + q.T) / 2)) p.T q.T ∧
      (1 / 1000 < (q.T ^ 2 - p.T ^ 2) / (Real.sqrt (1 + z * ((p.T + q.T) / 2)) * q.T + p.T) →
        calZTdev (simulate1 (prfs L A w i) (1 / (1 + (prfs L A w i).m_opt))).Yita p.T q.T = z * ((p.T + q.T) / 2)) := by
  obtain ⟨i, hi, h1, h2, h3, h4, h5, h6, h7⟩ := C48_constant_at_data d hd p q hp hq C S K hconst
  have hTc : i.Tc = p.T ∧ i.deltaT = q.T - p.T := by
    rw [coreItgs_table d (List.ne_nil_of_mem hp)] at hi
    injection hi with hi; rw [← hi]; exact ⟨rfl, rfl⟩
  have hqT : 0 < q.T := hT.trans hlt
  have hdT : 0 < q.T - p.T := by linarith
  have hS2 : 0 < S ^ 2 := by positivity
  have hR : 0 < 10000 / C := by positivity
  refine ⟨i, 1 / 1000000 * S ^ 2 / (10000 / C * K), hi, rfl, ?_⟩
  set R := 10000 / C with hRdef
  set z := 1 / 1000000 * S ^ 2 / (R * K) with hz
  have hz0 : 0 < z := by positivity
  have eZ : (prfs L A w i).Zeng = z := by
    simp only [prfs, h5, h6, h7, hz]; field_simp
  have eST : (prfs L A w i).mdfs.ST = q.T := by
    simp only [prfs, mdfs, h2, h6, hTc.1]; field_simp; ring
  have eRT : (prfs L A w i).mdfs.RhoT = (q.T - p.T) / 2 := by
    simp only [prfs, mdfs, h1, h5, hTc.1]; field_simp; ring
  have eZTp : (prfs L A w i).ZTp = z * ((p.T + q.T) / 2) := by
    have : (prfs L A w i).ZTp = (prfs L A w i).Zeng * ((prfs L A w i).mdfs.ST - (prfs L A w i).mdfs.RhoT) := rfl
    rw [this, eZ, eST, eRT]; ring
  have eQ : 0 < (prfs L A w i).Qx := by
    simp only [prfs, h5, h6, hTc.2]
    have : 0 < 1 / 1000000 * (S * (q.T - p.T)) * (S * (q.T - p.T)) / (R * (q.T - p.T)) := by
      have e : 1 / 1000000 * (S * (q.T - p.T)) * (S * (q.T - p.T)) / (R * (q.T - p.T)) =
          1 / 1000000 * S ^ 2 * (q.T - p.T) / R := by field_simp
      rw [e]; positivity
    positivity
  have eD : (prfs L A w i).deltaT = q.T - p.T := hTc.2
  have eM : (prfs L A w i).m_opt = Real.sqrt (1 + z * ((p.T + q.T) / 2)) := by
    have : (prfs L A w i).m_opt = Real.sqrt (1 + (prfs L A w i).ZTp) := rfl
    rw [this, eZTp]
  have hY : ∀ x, 0 < 1 / z + q.T * x - (q.T - p.T) / 2 * x * x →
      (simulate1 (prfs L A w i) x).Yita = 100 * (q.T - p.T) * (x * (1 - x) / (1 / z + q.T * x - (q.T - p.T) / 2 * x * x)) := by
    intro x hx
    simp only [simulate1, eZ, eST, eRT, eD]
    generalize 1 / z + q.T * x - (q.T - p.T) / 2 * x * x = qq at *
    field_simp
  have hYmax : (simulate1 (prfs L A w i) (1 / (1 + (prfs L A w i).m_opt))).Yita = textbookYita (z * ((p.T + q.T) / 2)) p.T q.T := by
    rw [eM]
    unfold textbookYita
    have hm2 : Real.sqrt (1 + z * ((p.T + q.T) / 2)) ^ 2 = 1 + z * ((p.T + q.T) / 2) := Real.sq_sqrt (by positivity)
    have hm1 : 1 < Real.sqrt (1 + z * ((p.T + q.T) / 2)) := by
      rw [Real.lt_sqrt (by norm_num)]
      have : 0 < z * ((p.T + q.T) / 2) := by positivity
      linarith
    generalize Real.sqrt (1 + z * ((p.T + q.T) / 2)) = m at *
    have hzm : 1 / z = ((p.T + q.T) / 2) / (m ^ 2 - 1) := by
      rw [hm2]
      have : (p.T + q.T) / 2 ≠ 0 := by positivity
      field_simp
      ring
    have hm21 : 0 < m ^ 2 - 1 := by nlinarith
    have hqq : 1 / z + q.T * (1 / (1 + m)) - (q.T - p.T) / 2 * (1 / (1 + m)) * (1 / (1 + m)) =
        m * (m * q.T + p.T) / ((m - 1) * (1 + m) ^ 2) := by
      rw [hzm]
      have e : m ^ 2 - 1 = (m - 1) * (1 + m) := by ring
      rw [e]
      have : m - 1 ≠ 0 := by linarith
      field_simp
      ring
    have hpos : 0 < m * (m * q.T + p.T) / ((m - 1) * (1 + m) ^ 2) := by
      have : 0 < m - 1 := by linarith
      positivity
    rw [hY _ (by rw [hqq]; exact hpos), hqq]
    have : m - 1 ≠ 0 := by linarith
    have : m * q.T + p.T ≠ 0 := by positivity
    have : m + p.T / q.T ≠ 0 := by positivity
    field_simp
    ring
  refine ⟨eZTp, ?_, hYmax, ?_⟩
  · intro x hx
    have hqx : 0 < 1 / z + q.T * x - (q.T - p.T) / 2 * x * x := by
      simp only [simulate1, eZ, eST, eRT, eD] at hx
      have := (div_pos_iff_of_pos_right hdT).mp hx
      exact (mul_pos_iff_of_pos_left eQ).mp this
    rw [hY x hqx, mul_assoc]
    apply mul_le_mul_of_nonneg_left _ (by norm_num : (0 : ℝ) ≤ 100)
    have e : 1 - p.T / q.T = (q.T - p.T) * (1 / q.T) := by field_simp
    rw [e]
    apply mul_le_mul_of_nonneg_left _ hdT.le
    rw [div_le_div_iff₀ hqx hqT]
    have h1z : 0 < 1 / z := by positivity
    have hsum : 0 ≤ x ^ 2 * ((q.T + p.T) / 2) := by positivity
    nlinarith
  · intro hg
    rw [hYmax]
    exact (Ztdev.C43_inverts _ _ _ (by positivity) hT hlt).1 hg

/-- the two-point table has constant properties -/
example : ∀ p ∈ twoPoints, p.C = 1000 ∧ p.S = 100 ∧ p.K = 2 := by
  intro p hp
  simp only [twoPoints, List.mem_cons, List.not_mem_nil, or_false] at hp
  rcases hp with rfl | rfl <;> simp

/-! ## C53 -/

/-- what a user may do with a leg -/
inductive Op where
  | build (calWeights : Bool)
  | setL (L : ℝ)
  | setA (A : ℝ)
  | setTc (T : List ℝ)
  | setTh (T : List ℝ)
  | setData (d : TEData)
  | simulate (I_r : Current)

/-- the leg after one operation (errors included) -/
noncomputable def Op.run (g : Leg) : Op → Leg
  | .build w => (g.build w).2
  | .setL L => { g with L := L }
  | .setA A => { g with A := A }
  | .setTc T => { g with Tc := T }
  | .setTh T => { g with Th := T }
  | .setData d => { g with data := d }
  | .simulate _ => g

/-- the operation is not a successful build of the present leg -/
def quiet (g : Leg) : Op → Prop
  | .build w => ∃ e, g.compute w = .error e
  | _ => True

/-- no operation of the history is a successful build -/
def Quiet : Leg → List Op → Prop
  | _, [] => True
  | g, o :: l => quiet g o ∧ Quiet (o.run g) l

theorem quiet_profiles (g : Leg) (o : Op) (h : quiet g o) : (o.run g).profiles = g.profiles := by
  cases o with
  | build w =>
    obtain ⟨e, he⟩ := h
    simp only [Op.run, Leg.build, he]
  | _ => rfl

theorem Quiet_profiles (l : List Op) : ∀ (g : Leg), Quiet g l → (l.foldl Op.run g).profiles = g.profiles := by
  induction l with
  | nil => intro g _; rfl
  | cons o l ih =>
    intro g h
    rw [List.foldl_cons, ih _ h.2, quiet_profiles g o h.1]

/-- **C53** Before any successful build `simulate` raises `RuntimeError`, whatever happened and whatever the current. -/
theorem C53_not_built (data : TEData) (Tc Th : List ℝ) (L A : ℝ) (g : Leg) (hg : Leg.init data Tc Th L A = .ok g)
    (h : List Op) (hq : Quiet g h) (I_r : Current) : (h.foldl Op.run g).simulate I_r = .error .runtimeError := by
  have h0 : g.profiles = none := by
    unfold Leg.init at hg
    split at hg
    · cases hg
    · injection hg with hg; rw [← hg]
  simp only [Leg.simulate, Quiet_profiles h g hq, h0, simulate]

/-- **C53** After any history `simulate` uses the profiles of the latest successful build, computed from the attributes
the leg had at that moment: later changes of attributes and failed builds do not matter. -/
theorem C53_latest_build (g : Leg) (h₁ h₂ : List Op) (w : Bool) (ps : List Prfs)
    (hb : (h₁.foldl Op.run g).compute w = .ok ps) (hq : Quiet ((h₁ ++ [Op.build w]).foldl Op.run g) h₂) (I_r : Current) :
    ((h₁ ++ Op.build w :: h₂).foldl Op.run g).simulate I_r = simulate (some ps) I_r := by
  have e : h₁ ++ Op.build w :: h₂ = (h₁ ++ [Op.build w]) ++ h₂ := by simp
  rw [e, List.foldl_append]
  simp only [Leg.simulate, Quiet_profiles h₂ _ hq]
  simp only [List.foldl_append, List.foldl_cons, List.foldl_nil, Op.run, Leg.build, hb]

/-- a build, then a change of the length: quiet -/
example (g : Leg) : Quiet g [.setL 3, .simulate (.values [1])] := ⟨trivial, trivial, trivial⟩

/-- **C53** Once built, a mode string is accepted exactly when it starts with y or p (in either case); `'scan'`/`'sweep'`
is always a `TypeError`, any other string a `ValueError`. -/
theorem C53_modes (ps : List Prfs) (s : List Char) :
    ((∃ o, simulate (some ps) (.str s) = .ok o) ↔ ∃ c rest, s = c :: rest ∧ (c = 'y' ∨ c = 'Y' ∨ c = 'p' ∨ c = 'P')) ∧
    ((∃ c rest, s = c :: rest ∧ (c = 's' ∨ c = 'S')) → simulate (some ps) (.str s) = .error .typeError) ∧
    ((∀ c rest, s = c :: rest → c ≠ 'y' ∧ c ≠ 'Y' ∧ c ≠ 'p' ∧ c ≠ 'P' ∧ c ≠ 's' ∧ c ≠ 'S') →
      simulate (some ps) (.str s) = .error .valueError) := by
  have hy : ∀ s, initial s = some 'y' ↔ ∃ c rest, s = c :: rest ∧ (c = 'y' ∨ c = 'Y') := by
    intro s
    cases s with
    | nil => simp [initial]
    | cons c rest =>
      constructor
      · intro h
        refine ⟨c, rest, rfl, ?_⟩
        by_cases h1 : c = 'Y'
        · subst h1; first | exact Or.inr rfl | exact absurd h (by simp [initial])
        by_cases h2 : c = 'P'
        · subst h2; first | exact Or.inr rfl | exact absurd h (by simp [initial])
        by_cases h3 : c = 'S'
        · subst h3; first | exact Or.inr rfl | exact absurd h (by simp [initial])
        by_cases h4 : c = 'Z'
        · subst h4; first | exact Or.inr rfl | exact absurd h (by simp [initial])
        simp only [initial, h1, h2, h3, h4, if_false, Option.some.injEq] at h
        exact Or.inl h
      · rintro ⟨c', r', e, h⟩
        injection e with e1 e2
        subst e1
        rcases h with rfl | rfl <;> rfl
  have hp : ∀ s, initial s = some 'p' ↔ ∃ c rest, s = c :: rest ∧ (c = 'p' ∨ c = 'P') := by
    intro s
    cases s with
    | nil => simp [initial]
    | cons c rest =>
      constructor
      · intro h
        refine ⟨c, rest, rfl, ?_⟩
        by_cases h1 : c = 'Y'
        · subst h1; first | exact Or.inr rfl | exact absurd h (by simp [initial])
        by_cases h2 : c = 'P'
        · subst h2; first | exact Or.inr rfl | exact absurd h (by simp [initial])
        by_cases h3 : c = 'S'
        · subst h3; first | exact Or.inr rfl | exact absurd h (by simp [initial])
        by_cases h4 : c = 'Z'
        · subst h4; first | exact Or.inr rfl | exact absurd h (by simp [initial])
        simp only [initial, h1, h2, h3, h4, if_false, Option.some.injEq] at h
        exact Or.inl h
      · rintro ⟨c', r', e, h⟩
        injection e with e1 e2
        subst e1
        rcases h with rfl | rfl <;> rfl
  have hss : ∀ s, initial s = some 's' ↔ ∃ c rest, s = c :: rest ∧ (c = 's' ∨ c = 'S') := by
    intro s
    cases s with
    | nil => simp [initial]
    | cons c rest =>
      constructor
      · intro h
        refine ⟨c, rest, rfl, ?_⟩
        by_cases h1 : c = 'Y'
        · subst h1; first | exact Or.inr rfl | exact absurd h (by simp [initial])
        by_cases h2 : c = 'P'
        · subst h2; first | exact Or.inr rfl | exact absurd h (by simp [initial])
        by_cases h3 : c = 'S'
        · subst h3; first | exact Or.inr rfl | exact absurd h (by simp [initial])
        by_cases h4 : c = 'Z'
        · subst h4; first | exact Or.inr rfl | exact absurd h (by simp [initial])
        simp only [initial, h1, h2, h3, h4, if_false, Option.some.injEq] at h
        exact Or.inl h
      · rintro ⟨c', r', e, h⟩
        injection e with e1 e2
        subst e1
        rcases h with rfl | rfl <;> rfl
  have tErr : initial s ≠ some 'y' → initial s ≠ some 'p' → initial s = some 's' →
      simulate (some ps) (.str s) = .error .typeError := by
    intro h1 h2 h3
    have : currents ps (.str s) = .error .typeError := by simp [currents, h3]
    simp only [simulate, this]; rfl
  have vErr : initial s ≠ some 'y' → initial s ≠ some 'p' → initial s ≠ some 's' →
      simulate (some ps) (.str s) = .error .valueError := by
    intro h1 h2 h3
    have : currents ps (.str s) = .error .valueError := by simp [currents, h1, h2, h3]
    simp only [simulate, this]; rfl
  refine ⟨?_, ?_, ?_⟩
  · constructor
    · rintro ⟨o, ho⟩
      by_cases h1 : initial s = some 'y'
      · obtain ⟨c, r, e, h⟩ := (hy s).mp h1
        exact ⟨c, r, e, by tauto⟩
      · by_cases h2 : initial s = some 'p'
        · obtain ⟨c, r, e, h⟩ := (hp s).mp h2
          exact ⟨c, r, e, by tauto⟩
        · exfalso
          by_cases h3 : initial s = some 's'
          · rw [tErr h1 h2 h3] at ho; cases ho
          · rw [vErr h1 h2 h3] at ho; cases ho
    · rintro ⟨c, r, e, h⟩
      by_cases h1 : initial s = some 'y'
      · exact ⟨_, simulate_yita ps s h1⟩
      · have h2 : initial s = some 'p' := by
          apply (hp s).mpr
          refine ⟨c, r, e, ?_⟩
          have : ¬ (c = 'y' ∨ c = 'Y') := fun hc => h1 ((hy s).mpr ⟨c, r, e, hc⟩)
          tauto
        exact ⟨_, simulate_power ps s h2⟩
  · intro h
    have h3 := (hss s).mpr h
    apply tErr _ _ h3 <;> rw [h3] <;> decide
  · intro h
    apply vErr
    · intro h1; obtain ⟨c, r, e, hc⟩ := (hy s).mp h1; have := h c r e; tauto
    · intro h1; obtain ⟨c, r, e, hc⟩ := (hp s).mp h1; have := h c r e; tauto
    · intro h1; obtain ⟨c, r, e, hc⟩ := (hss s).mp h1; have := h c r e; tauto

end TEflow.Engout
