import Verif.Props.EngoutSim

/-! # C55, C56, C98, C99: pairs of legs, weight factors, `valuate` -/

set_option linter.unusedSimpArgs false
set_option linter.unusedVariables false

namespace TEflow.Engout
open TEflow.Ztdev (TEPoint)

/-! ## C55 -/

/-- engineering figure of merit and power factor of the pair as functions of the area ratio -/
noncomputable def ZTengAt (p n : Itgs) (rL rA : ℝ) : ℝ := (prfs 1 1 true (pairItgs p n rL rA)).ZTeng
noncomputable def PFengAt (p n : Itgs) (rL rA : ℝ) : ℝ := (prfs 1 1 true (pairItgs p n rL rA)).PFeng

theorem pair_RK (p n : Itgs) (rL r : ℝ) (hL : 0 < rL) (hr : 0 < r) :
    (pairItgs p n rL r).Rho * (pairItgs p n rL r).K =
      p.Rho * p.K + n.Rho * n.K + (p.Rho * n.K * (r / rL) + n.Rho * p.K * (rL / r)) := by
  simp only [pairItgs]
  have : (1 : ℝ) + r ≠ 0 := by positivity
  field_simp
  ring

theorem ZTeng_formula (p n : Itgs) (rL r : ℝ) (hL : 0 < rL) (hr : 0 < r) :
    ZTengAt p n rL r = 1 / 1000000 * (p.S - n.S) ^ 2 * ((p.deltaT + n.deltaT) / 2) /
      (p.Rho * p.K + n.Rho * n.K + (p.Rho * n.K * (r / rL) + n.Rho * p.K * (rL / r))) := by
  rw [← pair_RK p n rL r hL hr]
  simp only [ZTengAt, prfs]
  have e1 : (pairItgs p n rL r).S = p.S - n.S := rfl
  have e2 : (pairItgs p n rL r).deltaT = (p.deltaT + n.deltaT) / 2 := rfl
  rw [e1, e2, div_div]
  ring

theorem am_gm (a b x : ℝ) (ha : 0 < a) (hb : 0 < b) (hx : 0 < x) :
    2 * Real.sqrt (a * b) ≤ a * x + b / x ∧ (a * x + b / x = 2 * Real.sqrt (a * b) ↔ x = Real.sqrt (b / a)) := by
  have hsa : Real.sqrt a ^ 2 = a := Real.sq_sqrt ha.le
  have hsb : Real.sqrt b ^ 2 = b := Real.sq_sqrt hb.le
  have pa : 0 < Real.sqrt a := Real.sqrt_pos.mpr ha
  have pb : 0 < Real.sqrt b := Real.sqrt_pos.mpr hb
  rw [Real.sqrt_mul ha.le, Real.sqrt_div hb.le]
  have key : a * x + b / x - 2 * (Real.sqrt a * Real.sqrt b) = (Real.sqrt a * x - Real.sqrt b) ^ 2 / x := by
    have e : (Real.sqrt a * x - Real.sqrt b) ^ 2 = a * x ^ 2 + b - 2 * (Real.sqrt a * Real.sqrt b) * x := by
      have : (Real.sqrt a * x - Real.sqrt b) ^ 2 =
        Real.sqrt a ^ 2 * x ^ 2 + Real.sqrt b ^ 2 - 2 * (Real.sqrt a * Real.sqrt b) * x := by ring
      rw [this, hsa, hsb]
    rw [e]; field_simp
  constructor
  · have : 0 ≤ (Real.sqrt a * x - Real.sqrt b) ^ 2 / x := by positivity
    linarith
  · constructor
    · intro h
      have h0 : (Real.sqrt a * x - Real.sqrt b) ^ 2 / x = 0 := by rw [← key]; linarith
      have h1 : (Real.sqrt a * x - Real.sqrt b) ^ 2 = 0 := by
        rcases div_eq_zero_iff.mp h0 with h | h
        · exact h
        · exact absurd h hx.ne'
      have h2 : Real.sqrt a * x - Real.sqrt b = 0 := by simpa using h1
      rw [eq_div_iff pa.ne']; linarith
    · intro h
      have h2 : Real.sqrt a * x - Real.sqrt b = 0 := by
        rw [h]; field_simp; ring
      have : a * x + b / x - 2 * (Real.sqrt a * Real.sqrt b) = 0 := by rw [key, h2]; simp
      linarith

/-- positive integrals of both legs, legs of different Seebeck integral -/
structure Physical (p n : Itgs) : Prop where
  pR : 0 < p.Rho
  pK : 0 < p.K
  nR : 0 < n.Rho
  nK : 0 < n.K
  dT : 0 < p.deltaT + n.deltaT
  S : p.S ≠ n.S

/-- **C55** The area ratio of the largest ZTeng is `rL*sqrt(Rho_n K_p / (Rho_p K_n))`: it beats every other ratio. -/
theorem C55_true_optimum_ZT (p n : Itgs) (h : Physical p n) (rL r : ℝ) (hL : 0 < rL) (hr : 0 < r) :
    ZTengAt p n rL r ≤ ZTengAt p n rL (rL * Real.sqrt (n.Rho * p.K / (p.Rho * n.K))) ∧
    (ZTengAt p n rL r = ZTengAt p n rL (rL * Real.sqrt (n.Rho * p.K / (p.Rho * n.K))) ↔
      r = rL * Real.sqrt (n.Rho * p.K / (p.Rho * n.K))) := by
  obtain ⟨pR, pK, nR, nK, dT, hS⟩ := h
  have ha : 0 < p.Rho * n.K := by positivity
  have hb : 0 < n.Rho * p.K := by positivity
  set xo := Real.sqrt (n.Rho * p.K / (p.Rho * n.K)) with hxo
  have hx0 : 0 < xo := Real.sqrt_pos.mpr (by positivity)
  have hN : 0 < 1 / 1000000 * (p.S - n.S) ^ 2 * ((p.deltaT + n.deltaT) / 2) := by
    have : 0 < (p.S - n.S) ^ 2 := by
      have := sub_ne_zero.mpr hS
      positivity
    positivity
  rw [ZTeng_formula p n rL r hL hr, ZTeng_formula p n rL (rL * xo) hL (by positivity)]
  have e1 : rL * xo / rL = xo := by field_simp
  have e2 : rL / (rL * xo) = 1 / xo := by field_simp
  have e3 : n.Rho * p.K * (rL / r) = n.Rho * p.K / (r / rL) := by field_simp
  rw [e1, e2, e3, mul_one_div]
  have hxr : 0 < r / rL := by positivity
  obtain ⟨g1, g2⟩ := am_gm _ _ (r / rL) ha hb hxr
  obtain ⟨g3, g4⟩ := am_gm _ _ xo ha hb hx0
  have g5 := g4.mpr rfl
  rw [g5]
  have hD0 : 0 < p.Rho * p.K + n.Rho * n.K + 2 * Real.sqrt (p.Rho * n.K * (n.Rho * p.K)) := by positivity
  have hD1 : 0 < p.Rho * p.K + n.Rho * n.K + (p.Rho * n.K * (r / rL) + n.Rho * p.K / (r / rL)) := by positivity
  constructor
  · apply div_le_div_of_nonneg_left hN.le hD0
    linarith
  · rw [div_eq_div_iff hD1.ne' hD0.ne']
    constructor
    · intro h
      have h' := mul_left_cancel₀ hN.ne' h
      have := g2.mp (by linarith)
      rw [← hxo] at this
      rw [← this]; field_simp
    · intro h
      have : r / rL = xo := by rw [h]; field_simp
      have := g2.mpr (by rw [this])
      rw [this]

/-- **C55** The ratio chosen by `ratioArea='ZTengMax'` has the two materials exchanged: it is
`rL*sqrt(Rho_p K_n/(Rho_n K_p))`, and it is the optimum exactly when `Rho_p K_n = Rho_n K_p`. -/
theorem C55_code_ZT (p n : Itgs) (h : Physical p n) (rL : ℝ) (hL : 0 < rL) (s : List Char) (hs : initial s = some 'z') :
    ∃ r, areaRatio p n rL (.str s) = .ok r ∧ 0 < r ∧ r = rL * Real.sqrt (p.Rho * n.K / (n.Rho * p.K)) ∧
      ((∀ r', 0 < r' → ZTengAt p n rL r' ≤ ZTengAt p n rL r) ↔ p.Rho * n.K = n.Rho * p.K) := by
  have h' := h
  obtain ⟨pR, pK, nR, nK, dT, hS⟩ := h
  have e : p.Rho / n.Rho * n.K / p.K = p.Rho * n.K / (n.Rho * p.K) := by field_simp
  have hq : 0 < p.Rho * n.K / (n.Rho * p.K) := by positivity
  have hr : 0 < rL * Real.sqrt (p.Rho * n.K / (n.Rho * p.K)) := mul_pos hL (Real.sqrt_pos.mpr hq)
  refine ⟨rL * Real.sqrt (p.Rho / n.Rho * n.K / p.K), by simp [areaRatio, hs], by rw [e]; exact hr, by rw [e], ?_⟩
  rw [e]
  have hopt : 0 < rL * Real.sqrt (n.Rho * p.K / (p.Rho * n.K)) := mul_pos hL (Real.sqrt_pos.mpr (by positivity))
  constructor
  · intro hall
    obtain ⟨t1, t2⟩ := C55_true_optimum_ZT p n h' rL _ hL hr
    have := t2.mp (le_antisymm t1 (hall _ hopt))
    have := mul_left_cancel₀ hL.ne' this
    have := (Real.sqrt_inj (by positivity) (by positivity)).mp this
    rw [div_eq_div_iff (by positivity) (by positivity)] at this
    have h1 : 0 < p.Rho * n.K := by positivity
    have h2 : 0 < n.Rho * p.K := by positivity
    nlinarith
  · intro heq r' hr'
    have : p.Rho * n.K / (n.Rho * p.K) = n.Rho * p.K / (p.Rho * n.K) := by rw [heq]
    rw [this]
    exact (C55_true_optimum_ZT p n h' rL r' hL hr').1

theorem PFeng_formula (p n : Itgs) (rL r : ℝ) :
    PFengAt p n rL r = 1 / 1000000 * (p.S - n.S) ^ 2 / (p.Rho * (1 + r) + n.Rho * rL / r * (1 + r)) := by
  simp only [PFengAt, prfs, pairItgs]; ring

/-- **C55** The area ratio of the largest PFeng is `sqrt(rL Rho_n/Rho_p)`; `ratioArea='PFengMax'` uses
`sqrt(rL Rho_p/Rho_n)`, which is the optimum exactly when the resistivity integrals agree. -/
theorem C55_PF (p n : Itgs) (h : Physical p n) (rL : ℝ) (hL : 0 < rL) (s : List Char) (hs : initial s = some 'p') :
    (∀ r, 0 < r → PFengAt p n rL r ≤ PFengAt p n rL (Real.sqrt (n.Rho * rL / p.Rho))) ∧
    ∃ r, areaRatio p n rL (.str s) = .ok r ∧ r = Real.sqrt (rL * p.Rho / n.Rho) ∧
      ((∀ r', 0 < r' → PFengAt p n rL r' ≤ PFengAt p n rL r) ↔ p.Rho = n.Rho) := by
  obtain ⟨pR, pK, nR, nK, dT, hS⟩ := h
  have hN : 0 < 1 / 1000000 * (p.S - n.S) ^ 2 := by
    have := sub_ne_zero.mpr hS
    have : 0 < (p.S - n.S) ^ 2 := by positivity
    positivity
  have hb : 0 < n.Rho * rL := by positivity
  have form : ∀ r : ℝ, 0 < r → p.Rho * (1 + r) + n.Rho * rL / r * (1 + r) =
      p.Rho + n.Rho * rL + (p.Rho * r + n.Rho * rL / r) := by
    intro r hr; field_simp; ring
  have hxo : 0 < Real.sqrt (n.Rho * rL / p.Rho) := Real.sqrt_pos.mpr (by positivity)
  have opt : ∀ r, 0 < r → PFengAt p n rL r ≤ PFengAt p n rL (Real.sqrt (n.Rho * rL / p.Rho)) ∧
      (PFengAt p n rL r = PFengAt p n rL (Real.sqrt (n.Rho * rL / p.Rho)) → r = Real.sqrt (n.Rho * rL / p.Rho)) := by
    intro r hr
    rw [PFeng_formula, PFeng_formula, form r hr, form _ hxo]
    obtain ⟨g1, g2⟩ := am_gm _ _ r pR hb hr
    have g5 := (am_gm _ _ _ pR hb hxo).2.mpr rfl
    rw [g5]
    have hD0 : 0 < p.Rho + n.Rho * rL + 2 * Real.sqrt (p.Rho * (n.Rho * rL)) := by positivity
    have hD1 : 0 < p.Rho + n.Rho * rL + (p.Rho * r + n.Rho * rL / r) := by positivity
    constructor
    · apply div_le_div_of_nonneg_left hN.le hD0
      linarith
    · intro h
      rw [div_eq_div_iff hD1.ne' hD0.ne'] at h
      have h' := mul_left_cancel₀ hN.ne' h
      exact g2.mp (by linarith)
  refine ⟨fun r hr => (opt r hr).1, Real.sqrt (rL * p.Rho / n.Rho), by
    have : initial s ≠ some 'z' := by rw [hs]; decide
    simp [areaRatio, hs], rfl, ?_⟩
  have hr : 0 < Real.sqrt (rL * p.Rho / n.Rho) := Real.sqrt_pos.mpr (by positivity)
  constructor
  · intro hall
    have := (opt _ hr).2 (le_antisymm (opt _ hr).1 (hall _ hxo))
    have := (Real.sqrt_inj (by positivity) (by positivity)).mp this
    rw [div_eq_div_iff (by positivity) (by positivity)] at this
    have h1 : rL * (p.Rho * p.Rho) = rL * (n.Rho * n.Rho) := by linarith
    have h2 := mul_left_cancel₀ hL.ne' h1
    nlinarith
  · intro heq r' hr'
    have : rL * p.Rho / n.Rho = n.Rho * rL / p.Rho := by rw [heq]; ring
    rw [this]
    exact (opt r' hr').1

/-- two legs with constant properties, the n-type one twice as resistive -/
noncomputable def legP : Itgs := ⟨300, 400, 100, 200, 200, 1000, 20000, 150, 350000, 7000000⟩
noncomputable def legN : Itgs := ⟨300, 400, 100, -200, -200, 2000, -20000, 150, 700000, -7000000⟩

/-- **C55** Hence the documented claim fails: for these two (physical) legs the chosen ratio is not the best. -/
theorem C55_claim_fails :
    Physical legP legN ∧ ∃ r r', areaRatio legP legN 1 (.str "ZTengMax".toList) = .ok r ∧ 0 < r' ∧
      ZTengAt legP legN 1 r < ZTengAt legP legN 1 r' := by
  have hph : Physical legP legN := by constructor <;> simp [legP, legN] <;> norm_num
  refine ⟨hph, ?_⟩
  obtain ⟨r, h1, h2, h3, h4⟩ := C55_code_ZT legP legN hph 1 one_pos "ZTengMax".toList (by decide)
  have hne : ¬ (∀ r', 0 < r' → ZTengAt legP legN 1 r' ≤ ZTengAt legP legN 1 r) := by
    rw [h4]; simp only [legP, legN]; norm_num
  push Not at hne
  obtain ⟨r', hr', hlt⟩ := hne
  exact ⟨r, r', h1, hr', hlt⟩

/-! ## C56 -/

/-- **C56** The pair is two legs electrically in series and thermally in parallel: with lengths `Lp`, `rL*Lp` and areas
`Ap`, `rA*Ap` its resistance `Rho*Lp/(Ap+An)` is the sum of the resistances, its conductance `K*(Ap+An)/Lp` the sum of
the conductances, and its Seebeck coefficient the difference. -/
theorem C56_series_parallel (p n : Itgs) (rL rA Lp Ap : ℝ) (hL : 0 < rL) (hA : 0 < rA) (hLp : 0 < Lp) (hAp : 0 < Ap) :
    (pairItgs p n rL rA).Rho * Lp / (Ap + rA * Ap) = p.Rho * Lp / Ap + n.Rho * (rL * Lp) / (rA * Ap) ∧
    (pairItgs p n rL rA).K * (Ap + rA * Ap) / Lp = p.K * Ap / Lp + n.K * (rA * Ap) / (rL * Lp) ∧
    (pairItgs p n rL rA).RhoT * Lp / (Ap + rA * Ap) = p.RhoT * Lp / Ap + n.RhoT * (rL * Lp) / (rA * Ap) ∧
    (pairItgs p n rL rA).S = p.S - n.S ∧ (pairItgs p n rL rA).ST = p.ST - n.ST ∧
    (p.Tc = n.Tc → (pairItgs p n rL rA).Tc = p.Tc) ∧ (p.deltaT = n.deltaT → (pairItgs p n rL rA).deltaT = p.deltaT) := by
  have h1 : (1 : ℝ) + rA ≠ 0 := by positivity
  have h2 : Ap + rA * Ap ≠ 0 := by positivity
  refine ⟨?_, ?_, ?_, rfl, rfl, ?_, ?_⟩
  · simp only [pairItgs]; field_simp
  · simp only [pairItgs]; field_simp
  · simp only [pairItgs]; field_simp
  · intro h; simp only [pairItgs, h]; ring
  · intro h; simp only [pairItgs, h]; ring

theorem initial_P : initial "PowerMax".toList = some 'p' := by decide
theorem initial_Y : initial "YitaMax".toList = some 'y' := by decide

/-- **C56** Exchanging the two legs (with inverse ratios and the length of the other leg) reverses current and voltage
and changes neither power, heat nor efficiency. -/
theorem C56_swap (p n : Itgs) (rL rA L A : ℝ) (hL : 0 < rL) (hA : 0 < rA) (hl : 0 < L) (hpR : 0 < p.Rho) (hnR : 0 < n.Rho)
    (hpK : 0 < p.K) (hnK : 0 < n.K) (w : Bool) (x : ℝ) :
    (simulate1 (prfs (rL * L) A w (pairItgs n p (1 / rL) (1 / rA))) x).I =
      -(simulate1 (prfs L A w (pairItgs p n rL rA)) x).I ∧
    (simulate1 (prfs (rL * L) A w (pairItgs n p (1 / rL) (1 / rA))) x).Vout =
      -(simulate1 (prfs L A w (pairItgs p n rL rA)) x).Vout ∧
    (simulate1 (prfs (rL * L) A w (pairItgs n p (1 / rL) (1 / rA))) x).Pout =
      (simulate1 (prfs L A w (pairItgs p n rL rA)) x).Pout ∧
    (simulate1 (prfs (rL * L) A w (pairItgs n p (1 / rL) (1 / rA))) x).Qhot =
      (simulate1 (prfs L A w (pairItgs p n rL rA)) x).Qhot ∧
    (simulate1 (prfs (rL * L) A w (pairItgs n p (1 / rL) (1 / rA))) x).Yita =
      (simulate1 (prfs L A w (pairItgs p n rL rA)) x).Yita := by
  have h1 : (1 : ℝ) + rA ≠ 0 := by positivity
  have h1' : rA + (1 : ℝ) ≠ 0 := by positivity
  set j := pairItgs n p (1 / rL) (1 / rA) with hj
  set i := pairItgs p n rL rA with hi
  have eR : j.Rho = i.Rho / rL := by
    simp only [hj, hi, pairItgs]; field_simp; ring
  have eRT : j.RhoT = i.RhoT / rL := by
    simp only [hj, hi, pairItgs]; field_simp; ring
  have eK : j.K = i.K * rL := by
    simp only [hj, hi, pairItgs]; field_simp; ring
  have eS : j.S = -i.S := by simp only [hj, hi, pairItgs]; ring
  have eST : j.ST = -i.ST := by simp only [hj, hi, pairItgs]; ring
  have eT : j.Tc = i.Tc := by simp only [hj, hi, pairItgs]; ring
  have eD : j.deltaT = i.deltaT := by simp only [hj, hi, pairItgs]; ring
  have hR : 0 < i.Rho := by simp only [hi, pairItgs]; positivity
  have hK : 0 < i.K := by simp only [hi, pairItgs]; positivity
  clear_value i j
  have m1 : (mdfs j).ST = (mdfs i).ST := by simp only [mdfs, eS, eST, eT, neg_div_neg_eq]
  have m2 : (mdfs j).RhoT = (mdfs i).RhoT := by
    simp only [mdfs, eR, eRT, eT]
    rw [div_div_div_cancel_right₀ hL.ne']
  have mI : (prfs (rL * L) A w j).Isc = -(prfs L A w i).Isc := by
    simp only [prfs, eR, eS, eD]; field_simp
  have mV : (prfs (rL * L) A w j).Voc = -(prfs L A w i).Voc := by
    simp only [prfs, eS]; ring
  have mQ : (prfs (rL * L) A w j).Qx = (prfs L A w i).Qx := by
    simp only [prfs, eR, eS, eD]; field_simp
  have mZ : (prfs (rL * L) A w j).Zeng = (prfs L A w i).Zeng := by
    simp only [prfs, eR, eS, eK]; field_simp
  have n1 : (prfs (rL * L) A w j).mdfs.ST = (prfs L A w i).mdfs.ST := m1
  have n2 : (prfs (rL * L) A w j).mdfs.RhoT = (prfs L A w i).mdfs.RhoT := m2
  have n3 : (prfs (rL * L) A w j).deltaT = (prfs L A w i).deltaT := eD
  simp only [simulate1, mI, mV, mQ, mZ, n1, n2, n3]
  refine ⟨by ring, by ring, ?_⟩ <;> simp

/-- **C56** A pair build always delivers weight factors, whatever `calWeights` says; a single leg does exactly when
asked to.  The profiles of the pair are what `simulate` uses afterwards. -/
theorem C56_weights (g : Pair) (rL : ℝ) (rA : RatioArea) (w : Bool) (r : List Prfs × List ℝ) (g' : Pair)
    (h : g.build rL rA w = (.ok r, g')) (leg : Leg) (ps : List Prfs) (leg' : Leg) (w' : Bool)
    (h' : leg.build w' = (.ok ps, leg')) :
    (∀ p ∈ r.1, p.wgts.isSome) ∧ g.build rL rA (!w) = g.build rL rA w ∧ (∀ p ∈ ps, p.wgts.isSome = w') ∧
      g'.simulate = simulate (some r.1) := by
  refine ⟨?_, rfl, ?_, ?_⟩
  · simp only [Pair.build] at h
    split at h
    · cases h
    · rename_i ps hc
      injection h with h1 h2
      injection h1 with h1
      subst h1
      simp only [Pair.compute, bind, Except.bind, pure, Except.pure] at hc
      split at hc
      · cases hc
      · split at hc
        · cases hc
        · injection hc with hc
          subst hc
          intro p hp
          simp only [List.mem_map] at hp
          obtain ⟨a, _, rfl⟩ := hp
          rfl
  · simp only [Leg.build] at h'
    split at h'
    · cases h'
    · rename_i ps hc
      injection h' with h1 h2
      injection h1 with h1
      subst h1
      simp only [Leg.compute, bind, Except.bind, pure, Except.pure] at hc
      split at hc
      · cases hc
      · split at hc
        · cases hc
        · injection hc with hc
          subst hc
          intro p hp
          simp only [List.mem_map] at hp
          obtain ⟨a, _, rfl⟩ := hp
          cases w' <;> rfl
  · simp only [Pair.build] at h
    split at h
    · cases h
    · injection h with h1 h2
      injection h1 with h1
      subst h1
      subst h2
      rfl

/-! ## C98: the weight factors -/

/-- the same material with the Seebeck coefficient measured in another unit -/
def inUnit (c : ℝ) (i : Itgs) : Itgs := { i with S := c * i.S, ST := c * i.ST, Sc := c * i.Sc, Sh := c * i.Sh }

/-- **C98** `W_J` and `W_T` are dimensionless: they do not depend on the unit of the Seebeck coefficient; the factors
`alpha_i` are not: they scale inversely with it. -/
theorem C98_dimension (i : Itgs) (c : ℝ) (hc : c ≠ 0) :
    (wgts (inUnit c i)).W_J = (wgts i).W_J ∧ (wgts (inUnit c i)).W_T = (wgts i).W_T ∧
    (wgts (inUnit c i)).alpha_0 = (wgts i).alpha_0 / c ∧ (wgts (inUnit c i)).alpha_1 = (wgts i).alpha_1 / c ∧
    (wgts (inUnit c i)).alpha_2 = (wgts i).alpha_2 / c := by
  have m : c * i.ST / (c * i.S) = i.ST / i.S := mul_div_mul_left _ _ hc
  refine ⟨rfl, ?_, ?_, ?_, ?_⟩
  · simp only [wgts, inUnit, mdfs]
    congr 1
    have e1 : i.Th * (c * i.Sh) * i.deltaT - (2 * (c * i.ST) - i.Tc * (c * i.S)) =
        c * (i.Th * i.Sh * i.deltaT - (2 * i.ST - i.Tc * i.S)) := by ring
    have e2 : i.Th * (c * i.Sh) - i.Tc * (c * i.Sc) - c * i.S = c * (i.Th * i.Sh - i.Tc * i.Sc - i.S) := by ring
    rw [e1, e2, mul_div_mul_left _ _ hc]
  all_goals
    simp only [wgts, inUnit, mdfs, m]
    rw [div_div, mul_comm c]

/-- **C98** For constant resistivity the Joule weight is the mean temperature over the difference. -/
theorem C98_W_J (i : Itgs) (Tc Th R : ℝ) (hR : R ≠ 0) (hT : Tc < Th) (hd : i.deltaT = Th - Tc) (h1 : i.Rho = R * (Th - Tc))
    (h2 : i.RhoT = R * (Th ^ 2 - Tc ^ 2) / 2) : (wgts i).W_J = ((Tc + Th) / 2) / (Th - Tc) := by
  simp only [wgts, mdfs, h1, h2, hd]
  have : Th - Tc ≠ 0 := by linarith
  field_simp
  ring

/-! ## C99: `valuate` -/

/-- the columns of `GenLeg.valuate` -/
noncomputable def legResult (p : TEPoint) (rest : List TEPoint) (L : ℝ) : LegValuation :=
  let q := fun t : TEPoint => prfs L 100 false (tableItgs (p :: rest) p.T t.T)
  { Tc := rest.map fun _ => p.T, Th := rest.map (·.T), deltaT := rest.map fun t => (q t).deltaT
    PFeng := rest.map fun t => (q t).PFeng, ZTeng := rest.map fun t => (q t).ZTeng
    Pout := rest.map fun t => (simulate1 (q t) (1 / 2)).Pout, Yita := rest.map fun t => (simulate1 (q t) (1 / (1 + (q t).m_opt))).Yita }

theorem leg_valuate_eq (p : TEPoint) (rest : List TEPoint) (hne : rest ≠ []) (L : ℝ) : Leg.valuate (p :: rest) L = .ok (legResult p rest L) := by
  have hb : bcast [p.T] (rest.map (·.T)) = .ok (rest.map fun t => (p.T, t.T)) := by
    match rest, hne with
    | [t], _ => simp [bcast]
    | a :: b :: l, _ => simp [bcast]
  set g : Leg := ⟨.table (p :: rest), [p.T], rest.map (·.T), L, 100, none⟩ with hg
  have hcomp : Leg.compute g false = .ok (rest.map fun t => prfs L 100 false (tableItgs (p :: rest) p.T t.T)) := by
    simp only [Leg.compute, hg, hb]
    show (((rest.map fun t => (p.T, t.T)).mapM fun t => coreItgs (.table (p :: rest)) t.1 t.2).map _) = _
    rw [mapM_ok _ (fun t : ℝ × ℝ => tableItgs (p :: rest) t.1 t.2) _
      (fun t _ => coreItgs_tableItgs _ (by simp) t.1 t.2)]
    simp [Except.map, Function.comp_def]
  have hinit : Leg.init (.table (p :: rest)) [p.T] (rest.map (·.T)) L 100 = .ok g := by
    simp only [Leg.init]
    rw [if_neg (by simp [hne])]
  set ps := rest.map fun t => prfs L 100 false (tableItgs (p :: rest) p.T t.T) with hps
  have hval : Leg.valuate (p :: rest) L = .ok
      { Tc := (rest.map (·.T)).map fun _ => p.T, Th := rest.map (·.T), deltaT := ps.map (·.deltaT),
        PFeng := ps.map (·.PFeng), ZTeng := ps.map (·.ZTeng),
        Pout := (ps.map fun q => simulate1 q (1 / 2)).map (·.Pout),
        Yita := (ps.map fun q => simulate1 q (1 / (1 + q.m_opt))).map (·.Yita) } := by
    simp only [Leg.valuate, List.map_cons, hinit, build_ok hcomp, bind, Except.bind, Leg.simulate,
      simulate_power ps _ initial_P, simulate_yita ps _ initial_Y, pure, Except.pure]
  rw [hval, hps]
  simp [legResult, Function.comp_def]

/-- **C99** `GenLeg.valuate` on a table with at least two points: the cold side is the first temperature, the hot sides
the remaining ones, in order; all columns have one entry per hot side, the j-th being the figure of merit, the best
power and the best efficiency between the first and the (j+1)-th temperature for a leg of 100 mm². A single point (or
none) is an `IndexError`. -/
theorem C99_leg_valuate (p : TEPoint) (rest : List TEPoint) (hne : rest ≠ []) (L : ℝ) :
    ∃ v, Leg.valuate (p :: rest) L = .ok v ∧ v.Th = rest.map (·.T) ∧ v.Tc = rest.map (fun _ => p.T) ∧
      (∀ c ∈ [v.Tc, v.Th, v.deltaT, v.PFeng, v.ZTeng, v.Pout, v.Yita], c.length = rest.length) ∧
      ∀ (j : Nat) (t : TEPoint), rest[j]? = some t → ∃ i, coreItgs (.table (p :: rest)) p.T t.T = .ok i ∧
        v.deltaT[j]? = some (t.T - p.T) ∧ v.PFeng[j]? = some (prfs L 100 false i).PFeng ∧
        v.ZTeng[j]? = some (prfs L 100 false i).ZTeng ∧
        v.Pout[j]? = some (simulate1 (prfs L 100 false i) (1 / 2)).Pout ∧
        v.Yita[j]? = some (simulate1 (prfs L 100 false i) (1 / (1 + (prfs L 100 false i).m_opt))).Yita := by
  refine ⟨_, leg_valuate_eq p rest hne L, rfl, rfl, by simp [legResult], ?_⟩
  intro j t ht
  refine ⟨tableItgs (p :: rest) p.T t.T, coreItgs_tableItgs _ (by simp) _ _, ?_, ?_, ?_, ?_, ?_⟩ <;>
    simp [legResult, ht, prfs, tableItgs]

/-- **C99** Too few temperatures. -/
theorem C99_leg_valuate_short (p : TEPoint) (L : ℝ) :
    (match Leg.valuate [] L with | .error .indexError => True | _ => False) ∧
    (match Leg.valuate [p] L with | .error .indexError => True | _ => False) := by
  constructor
  · simp [Leg.valuate]
  · simp [Leg.valuate, Leg.init, bind, Except.bind]

/-- the area ratio of `'ZTengMax'` for legs of equal length -/
noncomputable def ratioZ (p n : Itgs) : ℝ := 1 * Real.sqrt (p.Rho / n.Rho * n.K / p.K)
/-- the area ratio of `'PFengMax'` for legs of equal length -/
noncomputable def ratioP (p n : Itgs) : ℝ := Real.sqrt (1 * p.Rho / n.Rho)

theorem areaRatio_Z (p n : Itgs) : areaRatio p n 1 (.str "ZTengMax".toList) = .ok (ratioZ p n) := by
  have : initial "ZTengMax".toList = some 'z' := by decide
  simp only [areaRatio, this, if_true, ratioZ]

theorem areaRatio_P (p n : Itgs) : areaRatio p n 1 (.str "PFengMax".toList) = .ok (ratioP p n) := by
  have : initial "PFengMax".toList = some 'p' := by decide
  simp only [areaRatio, this, ratioP]
  rw [if_neg (by decide)]
  rfl

/-- the columns of `GenPair.valuate` -/
noncomputable def pairResult (p : TEPoint) (rest dn : List TEPoint) (L : ℝ) : PairValuation :=
  let i := fun t : TEPoint => tableItgs (p :: rest) p.T t.T
  let j := fun t : TEPoint => tableItgs dn p.T t.T
  let z := fun t : TEPoint => prfs L 100 true (pairItgs (i t) (j t) 1 (ratioZ (i t) (j t)))
  let w := fun t : TEPoint => prfs L 100 true (pairItgs (i t) (j t) 1 (ratioP (i t) (j t)))
  { Tc := rest.map fun _ => p.T, Th := rest.map (·.T), deltaT := rest.map fun t => (z t).deltaT
    ZTeng := rest.map fun t => (z t).ZTeng, Yita := rest.map fun t => (simulate1 (z t) (1 / (1 + (z t).m_opt))).Yita
    PFeng := rest.map fun t => (w t).PFeng, Pout := rest.map fun t => (simulate1 (w t) (1 / 2)).Pout }

theorem pair_valuate_eq (p : TEPoint) (rest dn : List TEPoint) (hne : rest ≠ []) (hn : dn ≠ []) (L : ℝ) :
    Pair.valuate (p :: rest) dn L = .ok (pairResult p rest dn L) := by
  have hb : bcast [p.T] (rest.map (·.T)) = .ok (rest.map fun t => (p.T, t.T)) := by
    match rest, hne with
    | [t], _ => simp [bcast]
    | a :: b :: l, _ => simp [bcast]
  set rz : ℝ → ℝ := fun t => ratioZ (tableItgs (p :: rest) p.T t) (tableItgs dn p.T t) with hrz
  set rp : ℝ → ℝ := fun t => ratioP (tableItgs (p :: rest) p.T t) (tableItgs dn p.T t) with hrp
  have ez : ∀ t, areaRatio (tableItgs (p :: rest) p.T t) (tableItgs dn p.T t) 1 (.str "ZTengMax".toList) = .ok (rz t) := fun t => areaRatio_Z _ _
  have ep : ∀ t, areaRatio (tableItgs (p :: rest) p.T t) (tableItgs dn p.T t) 1 (.str "PFengMax".toList) = .ok (rp t) := fun t => areaRatio_P _ _
  have hcomp : ∀ (prof : Option (List Prfs)) (s : List Char) (r : ℝ → ℝ),
      (∀ t, areaRatio (tableItgs (p :: rest) p.T t) (tableItgs dn p.T t) 1 (.str s) = .ok (r t)) →
      Pair.compute ⟨.table (p :: rest), .table dn, [p.T], rest.map (·.T), L, 100, prof⟩ 1 (.str s) false =
        .ok (rest.map (fun t => prfs L 100 true (pairItgs (tableItgs (p :: rest) p.T t.T) (tableItgs dn p.T t.T) 1 (r t.T))),
          rest.map fun t => r t.T) := by
    intro prof s r hr
    simp only [Pair.compute, hb]
    show (((rest.map fun t => (p.T, t.T)).mapM fun t => Pair.itgs1 _ 1 (.str s) t.1 t.2).map _) = _
    rw [mapM_ok _ (fun t : ℝ × ℝ => (pairItgs (tableItgs (p :: rest) p.T t.2) (tableItgs dn p.T t.2) 1 (r t.2), r t.2)) _ (by
      intro t ht
      simp only [List.mem_map] at ht
      obtain ⟨a, _, rfl⟩ := ht
      simp only [Pair.itgs1, coreItgs_tableItgs (p :: rest) (by simp), coreItgs_tableItgs dn hn, bind, Except.bind, hr,
        pure, Except.pure])]
    simp [Except.map, Function.comp_def]
  have hinit : Pair.init (.table (p :: rest)) (.table dn) [p.T] (rest.map (·.T)) L 100 =
      .ok ⟨.table (p :: rest), .table dn, [p.T], rest.map (·.T), L, 100, none⟩ := by
    simp only [Pair.init]
    rw [if_neg (by simp [hne])]
  set psz := rest.map (fun t => prfs L 100 true (pairItgs (tableItgs (p :: rest) p.T t.T) (tableItgs dn p.T t.T) 1 (rz t.T)))
    with hpsz
  set psp := rest.map (fun t => prfs L 100 true (pairItgs (tableItgs (p :: rest) p.T t.T) (tableItgs dn p.T t.T) 1 (rp t.T)))
    with hpsp
  have hval : Pair.valuate (p :: rest) dn L = .ok
      { Tc := (rest.map (·.T)).map fun _ => p.T, Th := rest.map (·.T), deltaT := psz.map (·.deltaT),
        ZTeng := psz.map (·.ZTeng), Yita := (psz.map fun q => simulate1 q (1 / (1 + q.m_opt))).map (·.Yita),
        PFeng := psp.map (·.PFeng), Pout := (psp.map fun q => simulate1 q (1 / 2)).map (·.Pout) } := by
    have hz := hcomp none _ rz ez
    have hp := hcomp (some psz) _ rp ep
    rw [← hpsz] at hz
    rw [← hpsp] at hp
    clear_value psz psp
    simp only [Pair.valuate, List.map_cons, hinit, bind, Except.bind, Pair.build,
      hz, hp, Pair.simulate,
      simulate_power _ _ initial_P, simulate_yita _ _ initial_Y, pure, Except.pure]
  rw [hval, hpsz, hpsp]
  simp [pairResult, Function.comp_def, hrz, hrp]

/-- **C99** `GenPair.valuate` takes all temperatures from the p-type leg and reports the figure of merit and efficiency
of the `'ZTengMax'` build but the power factor and power of the `'PFengMax'` build: two devices with different area
ratios. -/
theorem C99_pair_valuate (p : TEPoint) (rest dn : List TEPoint) (hne : rest ≠ []) (hn : dn ≠ []) (L : ℝ) :
    ∃ v, Pair.valuate (p :: rest) dn L = .ok v ∧ v.Th = rest.map (·.T) ∧ v.Tc = rest.map (fun _ => p.T) ∧
      (∀ c ∈ [v.Tc, v.Th, v.deltaT, v.ZTeng, v.Yita, v.PFeng, v.Pout], c.length = rest.length) ∧
      ∀ (j : Nat) (t : TEPoint), rest[j]? = some t →
        ∃ ip jn, coreItgs (.table (p :: rest)) p.T t.T = .ok ip ∧ coreItgs (.table dn) p.T t.T = .ok jn ∧
          ∃ rz rp, areaRatio ip jn 1 (.str "ZTengMax".toList) = .ok rz ∧
            areaRatio ip jn 1 (.str "PFengMax".toList) = .ok rp ∧
            v.ZTeng[j]? = some (prfs L 100 true (pairItgs ip jn 1 rz)).ZTeng ∧
            v.PFeng[j]? = some (prfs L 100 true (pairItgs ip jn 1 rp)).PFeng ∧
            v.Pout[j]? = some (simulate1 (prfs L 100 true (pairItgs ip jn 1 rp)) (1 / 2)).Pout ∧
            v.Yita[j]? = some (simulate1 (prfs L 100 true (pairItgs ip jn 1 rz))
              (1 / (1 + (prfs L 100 true (pairItgs ip jn 1 rz)).m_opt))).Yita := by
  refine ⟨_, pair_valuate_eq p rest dn hne hn L, rfl, rfl, by simp [pairResult], ?_⟩
  intro j t ht
  refine ⟨tableItgs (p :: rest) p.T t.T, tableItgs dn p.T t.T, coreItgs_tableItgs _ (by simp) _ _,
    coreItgs_tableItgs _ hn _ _, _, _, areaRatio_Z _ _, areaRatio_P _ _, ?_, ?_, ?_, ?_⟩ <;>
    simp [pairResult, ht]

/-- **C55** A `ratioArea` text that begins with neither `z` nor `p` (in either case) is a `ValueError`. -/
theorem C55_refused (p n : Itgs) (rL : ℝ) (s : List Char) (h : ∀ c ∈ ['z', 'Z', 'p', 'P'], s.head? ≠ some c) :
    areaRatio p n rL (.str s) = .error .valueError := by
  have hz : initial s ≠ some 'z' ∧ initial s ≠ some 'p' := by
    cases s with
    | nil => simp [initial]
    | cons c r =>
      simp only [List.head?_cons, ne_eq, Option.some.injEq, List.mem_cons, List.not_mem_nil, or_false, forall_eq_or_imp, forall_eq] at h
      obtain ⟨h1, h2, h3, h4⟩ := h
      constructor <;> simp only [initial, ne_eq, Option.some.injEq] <;> split_ifs <;> simp_all
  simp only [areaRatio, if_neg hz.1, if_neg hz.2]

example : areaRatio legP legN 1 (.str "YitaMax".toList) = .error .valueError := C55_refused _ _ _ _ (by decide +kernel)

end TEflow.Engout
