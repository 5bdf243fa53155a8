import Verif.Props.EngoutFigure

/-! # C154: the efficiency of a varying material and the textbook efficiency of its best figure of merit -/

set_option linter.unusedSimpArgs false
set_option linter.unusedVariables false

namespace TEflow.Engout
open TEflow.Ztdev (TEPoint textbookYita)

/-- the textbook efficiency bounds the expression of the constant-property leg at every reduced current -/
theorem textbook_bound (z Tc Th : ℝ) (hz : 0 < z) (h0 : 0 < Tc) (hlt : Tc < Th) (x : ℝ) (hq : 0 < 1 / z + Th * x - (Th - Tc) / 2 * x * x) :
    100 * (Th - Tc) * (x * (1 - x) / (1 / z + Th * x - (Th - Tc) / 2 * x * x)) ≤ textbookYita (z * ((Tc + Th) / 2)) Tc Th := by
  set S := 1000 * Real.sqrt z with hSdef
  have hsq : Real.sqrt z ^ 2 = z := Real.sq_sqrt hz.le
  have hS : S ≠ 0 := by
    have := Real.sqrt_pos.mpr hz
    positivity
  set d : List TEPoint := [⟨Tc, 10000, S, 1⟩, ⟨Th, 10000, S, 1⟩] with hd
  have hR : Rising d := by simp [hd, Rising, hlt]
  have hconst : ∀ p ∈ d, p.C = 10000 ∧ p.S = S ∧ p.K = 1 := by
    intro p hp
    simp only [hd, List.mem_cons, List.not_mem_nil, or_false] at hp
    rcases hp with rfl | rfl <;> simp
  have m1 : (⟨Tc, 10000, S, 1⟩ : TEPoint) ∈ d := by simp [hd]
  have m2 : (⟨Th, 10000, S, 1⟩ : TEPoint) ∈ d := by simp [hd]
  obtain ⟨i, zz, hi, hzz, hZT, -, hY, -⟩ := C52_constant d hR 10000 S 1 (by norm_num) hS one_pos hconst _ _ m1 m2 h0 hlt 1 1 one_pos one_pos false
  have ez : zz = z := by
    rw [hzz, hSdef, mul_pow, hsq]; ring
  rw [ez] at hZT hY
  obtain ⟨i', hi', h1, h2, h3, h4, h5, h6, h7⟩ := C48_constant_at_data d hR _ _ m1 m2 10000 S 1 hconst
  simp only at hi hi' hZT hY h1 h2 h5 h6 h7
  rw [hi] at hi'
  injection hi' with hi'
  subst hi'
  have tT : i.Tc = Tc ∧ i.deltaT = Th - Tc := by
    rw [coreItgs_tableItgs d (List.ne_nil_of_mem m1)] at hi
    injection hi with hi
    rw [← hi]; exact ⟨rfl, rfl⟩
  have hdT : 0 < Th - Tc := by linarith
  have eZ : (prfs 1 1 false i).Zeng = z := by
    simp only [prfs, h5, h6, h7, hSdef]
    have : Real.sqrt z * Real.sqrt z = z := Real.mul_self_sqrt hz.le
    have e : (1 : ℝ) / 1000000 * (1000 * Real.sqrt z * (Th - Tc)) * (1000 * Real.sqrt z * (Th - Tc)) = (Real.sqrt z * Real.sqrt z) * (Th - Tc) ^ 2 := by ring
    rw [e, this]
    field_simp
  have eST : (prfs 1 1 false i).mdfs.ST = Th := by
    simp only [prfs, mdfs, h2, h6, tT.1]; field_simp; ring
  have eRT : (prfs 1 1 false i).mdfs.RhoT = (Th - Tc) / 2 := by
    simp only [prfs, mdfs, h1, h5, tT.1]; field_simp; ring
  have hQx : 0 < (prfs 1 1 false i).Qx := by
    have hP : 0 < (prfs 1 1 false i).PFeng := by
      have : (prfs 1 1 false i).PFeng = (prfs 1 1 false i).Zeng * i.K := by
        simp only [prfs]
        rw [div_mul_cancel₀]
        rw [h7]; simpa using hdT.ne'
      rw [this, eZ, h7]
      have := mul_pos hz (by linarith : 0 < 1 * (Th - Tc))
      linarith
    show 0 < 1 / 1000 * (prfs 1 1 false i).PFeng * i.deltaT / 1 * 1
    rw [tT.2]; positivity
  have eD : (prfs 1 1 false i).deltaT = Th - Tc := tT.2
  have hq' : 0 < (simulate1 (prfs 1 1 false i) x).Qhot := by
    simp only [simulate1, eZ, eST, eRT, eD]
    exact div_pos (mul_pos hQx hq) hdT
  have main := (C51_efficiency i 1 1 one_pos one_pos (by rw [tT.2]; exact hdT) (by rw [h6]; exact mul_ne_zero hS hdT.ne')
    (by rw [h5]; have := hdT; norm_num; linarith) (by rw [h7]; linarith) (by rw [h1, h5, tT.1]; norm_num; nlinarith) false
    (by rw [hZT]; have : 0 < z * ((Tc + Th) / 2) := mul_pos hz (by linarith)
        linarith) x hq').1
  rw [hY] at main
  refine le_trans (le_of_eq ?_) main
  simp only [simulate1, eZ, eST, eRT, eD]
  generalize 1 / z + Th * x - (Th - Tc) / 2 * x * x = qq at *
  field_simp

/-- **C154** If with rising temperature neither the size of the Seebeck coefficient nor the conductivity falls, the
efficiency at every reduced current from 0 to 1, and so the efficiency column of `GenLeg.valuate`, stays below the
textbook efficiency of a constant-property leg with the largest figure of merit `z` of the rows between the
temperatures. -/
theorem C154_simulate (d : List TEPoint) (hd : Rising d) (σ : ℝ) (hσ : σ = 1 ∨ σ = -1)
    (hpos : ∀ r ∈ d, 0 < r.C ∧ 0 < σ * r.S ∧ 0 < r.K) (hmono : ∀ a ∈ d, ∀ b ∈ d, a.T ≤ b.T → σ * a.S ≤ σ * b.S ∧ a.C ≤ b.C)
    (p q : TEPoint) (hp : p ∈ d) (hq : q ∈ d) (h0 : 0 < p.T) (hlt : p.T < q.T)
    (z : ℝ) (hz0 : 0 < z) (hz : ∀ r ∈ d, p.T ≤ r.T → r.T ≤ q.T → rowZ r ≤ z) (L A : ℝ) (hL : 0 < L) (hA : 0 < A) (w : Bool) (x : ℝ)
    (x0 : 0 ≤ x) (x1 : x ≤ 1) :
    ∃ ps g' o, Leg.build ⟨.table d, [p.T], [q.T], L, A, none⟩ w = (.ok ps, g') ∧ g'.simulate (.values [x]) = .ok [o] ∧
      o = simulate1 (prfs L A w (tableItgs d p.T q.T)) x ∧ o.Yita ≤ textbookYita (z * ((p.T + q.T) / 2)) p.T q.T := by
  have hcomp : Leg.compute ⟨.table d, [p.T], [q.T], L, A, none⟩ w = .ok [prfs L A w (tableItgs d p.T q.T)] := by
    simp only [Leg.compute, bcast, List.length_singleton, if_true]
    show (([(p.T, q.T)].mapM fun t => coreItgs (.table d) t.1 t.2).map _) = _
    rw [mapM_ok _ (fun t : ℝ × ℝ => tableItgs d t.1 t.2) _ (fun t _ => coreItgs_tableItgs d (List.ne_nil_of_mem hp) t.1 t.2)]
    rfl
  refine ⟨_, _, _, build_ok hcomp, simulate_value _ x, rfl, ?_⟩
  have hu := rising_upper d hd σ hpos (fun a ha b hb hab => (hmono a ha b hb hab).1) p q hp hq h0 hlt
  obtain ⟨lo, hi, -, hb⟩ := list_bounds (fun r => |rowPF r| + 1) d (fun r _ => by positivity)
  have hf := (leg_figures d hd (fun r hr => ⟨(hpos r hr).1, (hpos r hr).2.2⟩) p q hp hq hlt z hi hz0 hz
    (fun r hr _ _ => by linarith [(hb r hr).2, le_abs_self (rowPF r)]) L A w).1
  -- the mean temperature weighted by the resistivity lies in the lower half
  have cR := chebyshev_table d hd (fun r => -(10000 / r.C)) (by
    intro a ha b hb hab
    have h1 := (hpos a ha).1
    have := div_le_div_of_nonneg_left (by norm_num : (0 : ℝ) ≤ 10000) h1 (hmono a ha b hb hab).2
    linarith) p q hp hq hlt
  rw [tab_scale d (fun r => 10000 / r.C) (fun r => -(10000 / r.C)) (-1) (fun t => by ring),
    tab_scale d (fun r => r.T * (10000 / r.C)) (fun r => r.T * -(10000 / r.C)) (-1) (fun t => by ring)] at cR
  change (p.T + q.T) / 2 * (-1 * (tableItgs d p.T q.T).Rho) ≤ -1 * (tableItgs d p.T q.T).RhoT at cR
  have t1 : (tableItgs d p.T q.T).Tc = p.T := rfl
  have t2 : (tableItgs d p.T q.T).Th = q.T := rfl
  generalize tableItgs d p.T q.T = i at *
  obtain ⟨_, _, e7, pR, pK, pS, cS, wR⟩ := hu
  rw [t1, t2] at e7 cS wR
  have hdT : 0 < q.T - p.T := by linarith
  have hS : i.S ≠ 0 := by rintro h; rw [h] at pS; simp at pS
  have cr : (p.T + q.T) / 2 ≤ i.ST / i.S := by
    have : i.ST / i.S = (σ * i.ST) / (σ * i.S) := by
      rcases hσ with rfl | rfl <;> field_simp
    rw [this, le_div_iff₀ pS]
    linarith
  have hr : i.RhoT / i.Rho ≤ (p.T + q.T) / 2 := by rw [div_le_iff₀ pR]; linarith
  have hP : 0 < 1 / 1000000 * i.S * i.S / i.Rho := by
    apply div_pos _ pR
    have := mul_self_pos.mpr hS
    nlinarith
  have hZ : 0 < (prfs L A w i).Zeng := by simp only [prfs]; exact div_pos hP pK
  have hQx : 0 < (prfs L A w i).Qx := by
    show 0 < 1 / 1000 * (1 / 1000000 * i.S * i.S / i.Rho) * i.deltaT / L * A
    rw [e7]; positivity
  have eD : (prfs L A w i).deltaT = q.T - p.T := e7
  have eST : (prfs L A w i).mdfs.ST = 2 * (i.ST / i.S) - p.T := by simp only [prfs, mdfs, t1]
  have eRT : (prfs L A w i).mdfs.RhoT = i.RhoT / i.Rho - p.T := by simp only [prfs, mdfs, t1]
  have hinv : 1 / z ≤ 1 / (prfs L A w i).Zeng := one_div_le_one_div_of_le hZ hf
  have hz1 : 0 < 1 / z := by positivity
  have hq0 : 0 < 1 / z + q.T * x - (q.T - p.T) / 2 * x * x := by
    have u1 : (q.T - p.T) / 2 * x * x ≤ (q.T - p.T) / 2 * x * 1 := mul_le_mul_of_nonneg_left x1 (by positivity)
    have u2 : (q.T - p.T) / 2 * x ≤ q.T * x := mul_le_mul_of_nonneg_right (by linarith) x0
    linarith
  have hle : 1 / z + q.T * x - (q.T - p.T) / 2 * x * x ≤ 1 / (prfs L A w i).Zeng + (prfs L A w i).mdfs.ST * x - (prfs L A w i).mdfs.RhoT * x * x := by
    rw [eST, eRT]
    have u1 : q.T * x ≤ (2 * (i.ST / i.S) - p.T) * x := mul_le_mul_of_nonneg_right (by linarith) x0
    have u2 : (i.RhoT / i.Rho - p.T) * (x * x) ≤ (q.T - p.T) / 2 * (x * x) := mul_le_mul_of_nonneg_right (by linarith) (mul_self_nonneg x)
    linarith
  refine le_trans ?_ (textbook_bound z p.T q.T hz0 h0 hlt x hq0)
  simp only [simulate1, eD]
  have e : 100 * ((prfs L A w i).Qx * (x * (1 - x))) / ((prfs L A w i).Qx * (1 / (prfs L A w i).Zeng + (prfs L A w i).mdfs.ST * x - (prfs L A w i).mdfs.RhoT * x * x) / (q.T - p.T)) =
      100 * (q.T - p.T) * (x * (1 - x) / (1 / (prfs L A w i).Zeng + (prfs L A w i).mdfs.ST * x - (prfs L A w i).mdfs.RhoT * x * x)) := by
    have : 0 < 1 / (prfs L A w i).Zeng + (prfs L A w i).mdfs.ST * x - (prfs L A w i).mdfs.RhoT * x * x := by linarith
    generalize 1 / (prfs L A w i).Zeng + (prfs L A w i).mdfs.ST * x - (prfs L A w i).mdfs.RhoT * x * x = qq at *
    field_simp
  rw [e]
  apply mul_le_mul_of_nonneg_left _ (by positivity)
  exact div_le_div_of_nonneg_left (mul_nonneg x0 (by linarith)) hq0 hle

/-- **C154** The efficiency column of `GenLeg.valuate`. -/
theorem C154_valuate (p : TEPoint) (rest : List TEPoint) (hd : Rising (p :: rest)) (σ : ℝ) (hσ : σ = 1 ∨ σ = -1)
    (hpos : ∀ r ∈ p :: rest, 0 < r.C ∧ 0 < σ * r.S ∧ 0 < r.K)
    (hmono : ∀ a ∈ p :: rest, ∀ b ∈ p :: rest, a.T ≤ b.T → σ * a.S ≤ σ * b.S ∧ a.C ≤ b.C)
    (h0 : 0 < p.T) (hne : rest ≠ []) (z : ℝ) (hz0 : 0 < z) (hz : ∀ r ∈ p :: rest, rowZ r ≤ z) (L : ℝ) (hL : 0 < L) :
    ∃ v, Leg.valuate (p :: rest) L = .ok v ∧ ∀ (j : Nat) (t : TEPoint), rest[j]? = some t →
      ∃ y, v.Yita[j]? = some y ∧ y ≤ textbookYita (z * ((p.T + t.T) / 2)) p.T t.T := by
  refine ⟨_, leg_valuate_eq p rest hne L, ?_⟩
  intro j t ht
  have htm := List.mem_of_getElem? ht
  have hlt : p.T < t.T := (List.pairwise_cons.mp hd).1 t htm
  set P := prfs L 100 false (tableItgs (p :: rest) p.T t.T) with hP
  have hm : 0 ≤ P.m_opt := Real.sqrt_nonneg _
  have x0 : 0 ≤ 1 / (1 + P.m_opt) := by positivity
  have x1 : 1 / (1 + P.m_opt) ≤ 1 := by rw [div_le_one (by positivity)]; linarith
  obtain ⟨_, _, o, _, _, ho, hle⟩ := C154_simulate (p :: rest) hd σ hσ hpos hmono p t (by simp) (by simp [htm]) h0 hlt z hz0
    (fun r hr _ _ => hz r hr) L 100 hL (by norm_num) false (1 / (1 + P.m_opt)) x0 x1
  rw [← hP] at ho
  exact ⟨(simulate1 P (1 / (1 + P.m_opt))).Yita, by simp [legResult, ht, hP], by rw [← ho]; exact hle⟩

/-! ## Non-vacuity -/

/-- a material with a growing Seebeck coefficient and conductivity -/
example : ∃ d : List TEPoint, d = [⟨300, 800, 120, 2⟩, ⟨400, 900, 150, 3 / 2⟩, ⟨700, 1000, 180, 5 / 2⟩] ∧ Rising d ∧
    (∀ r ∈ d, 0 < r.C ∧ 0 < 1 * r.S ∧ 0 < r.K) ∧ (∀ a ∈ d, ∀ b ∈ d, a.T ≤ b.T → 1 * a.S ≤ 1 * b.S ∧ a.C ≤ b.C) ∧ ∀ r ∈ d, rowZ r ≤ 3 / 1000 := by
  refine ⟨_, rfl, by unfold Rising; norm_num, ?_, ?_, ?_⟩
  · simp only [List.mem_cons, List.not_mem_nil, or_false]
    rintro r (rfl | rfl | rfl) <;> norm_num
  · simp only [List.mem_cons, List.not_mem_nil, or_false]
    rintro a (rfl | rfl | rfl) b (rfl | rfl | rfl) <;> norm_num
  · simp only [List.mem_cons, List.not_mem_nil, or_false]
    rintro r (rfl | rfl | rfl) <;> (unfold rowZ; norm_num)

end TEflow.Engout
