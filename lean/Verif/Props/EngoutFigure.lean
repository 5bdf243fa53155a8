import Verif.Props.EngoutMaterial

/-! # C153: the engineering figures of merit and those of the material -/

set_option linter.unusedSimpArgs false
set_option linter.unusedVariables false

namespace TEflow.Engout
open TEflow.Ztdev (TEPoint)

/-- power factor of a row, `S²/rho` -/
noncomputable def rowPF (r : TEPoint) : ℝ := 1 / 1000000 * r.S ^ 2 / (10000 / r.C)
/-- figure of merit `z = S²/(rho kappa)` of a row, per kelvin -/
noncomputable def rowZ (r : TEPoint) : ℝ := 1 / 1000000 * r.S ^ 2 / (10000 / r.C * r.K)

/-- the integral is not negative if the rows between the temperatures are not -/
theorem tab_between (d : List TEPoint) (hd : Rising d) (f : TEPoint → ℝ) (p q : TEPoint) (hp : p ∈ d) (hq : q ∈ d) (hlt : p.T < q.T)
    (hf : ∀ r ∈ d, p.T ≤ r.T → r.T ≤ q.T → 0 ≤ f r) : 0 ≤ tabItg (col f d) p.T q.T := by
  obtain ⟨lo, hi, hlo, hb⟩ := list_bounds (fun r => |f r| + 1) d (fun r hr => by positivity)
  have mem : ∀ r ∈ d, Inside (col f d) r.T := fun r hr =>
    inside_of_mem (col f d) (col_inc hd f) (r.T, f r) (List.mem_map.mpr ⟨r, hr, rfl⟩)
  have := (tabItg_bounds 0 hi (col f d) p.T q.T (col_inc hd _) (mem p hp) (mem q hq) hlt.le (by
    intro x y hxy h1 h2
    have g1 := consec_gap (col_inc hd f) hxy p.T (by simp only [col, List.map_map, List.mem_map]; exact ⟨p, hp, rfl⟩)
    have g2 := consec_gap (col_inc hd f) hxy q.T (by simp only [col, List.map_map, List.mem_map]; exact ⟨q, hq, rfl⟩)
    have g3 := consec_lt (col_inc hd f) hxy
    obtain ⟨k, a, b, ha, hb', rfl, rfl⟩ := col_consec hxy
    simp only at *
    have o1 : p.T ≤ a.T := by rcases g1 with h | h <;> linarith
    have o2 : b.T ≤ q.T := by rcases g2 with h | h <;> linarith
    have := hf a (List.mem_of_getElem? ha) o1 (by linarith)
    have := hf b (List.mem_of_getElem? hb') (by linarith) o2
    have := (hb a (List.mem_of_getElem? ha)).2
    have := (hb b (List.mem_of_getElem? hb')).2
    have := le_abs_self (f a)
    have := le_abs_self (f b)
    constructor <;> linarith)).1
  linarith

/-- a quadratic form without negative values has a non-positive discriminant -/
theorem disc_le (a b c : ℝ) (ha : 0 < a) (h : ∀ t, 0 ≤ t ^ 2 * a - 2 * t * b + c) : b ^ 2 ≤ a * c := by
  have := h (b / a)
  have e : (b / a) ^ 2 * a - 2 * (b / a) * b + c = (a * c - b ^ 2) / a := by field_simp; ring
  rw [e] at this
  have := (div_nonneg_iff.mp this)
  rcases this with h | h <;> linarith [h.1, h.2]

theorem disc_ge (a b c : ℝ) (ha : 0 < a) (h : b ^ 2 ≤ a * c) (t : ℝ) : 0 ≤ t ^ 2 * a - 2 * t * b + c := by
  have e : t ^ 2 * a - 2 * t * b + c = ((t * a - b) ^ 2 + (a * c - b ^ 2)) / a := by field_simp; ring
  rw [e]
  apply div_nonneg _ ha.le
  nlinarith [sq_nonneg (t * a - b)]

/-- linear combinations of the columns -/
theorem tab_comb (d : List TEPoint) (f g h : TEPoint → ℝ) (u v w a b : ℝ) :
    tabItg (col (fun r => u * f r + v * g r + w * h r) d) a b =
      u * tabItg (col f d) a b + v * tabItg (col g d) a b + w * tabItg (col h d) a b := by
  have l1 := tab_scale d f (fun r => u * f r) u (fun _ => rfl) a b
  have l2 := tabItg_linear (fun t : TEPoint => t.T) (fun r => u * f r) g (fun r => u * f r + v * g r) v (fun _ => rfl) d a b
  have l3 := tabItg_linear (fun t : TEPoint => t.T) (fun r => u * f r + v * g r) h (fun r => u * f r + v * g r + w * h r) w (fun _ => rfl) d a b
  simp only [col] at *
  rw [l3, l2, l1]

/-- positive integrals -/
theorem tab_positive (d : List TEPoint) (hd : Rising d) (f : TEPoint → ℝ) (hf : ∀ r ∈ d, 0 < f r) (p q : TEPoint) (hp : p ∈ d) (hq : q ∈ d)
    (hlt : p.T < q.T) : 0 < tabItg (col f d) p.T q.T := by
  have cov : ∀ r ∈ d, Covers d r.T := by
    intro r hr
    have h := inside_of_mem (col (·.S) d) (col_inc hd _) (r.T, r.S) (List.mem_map.mpr ⟨r, hr, rfl⟩)
    obtain ⟨⟨f, hf, hf'⟩, ⟨l, hl, hl'⟩⟩ := h
    simp only [col, List.head?_map, List.getLast?_map, Option.mem_def, Option.map_eq_some_iff] at hf hl
    obtain ⟨f, hf, rfl⟩ := hf
    obtain ⟨l, hl, rfl⟩ := hl
    exact ⟨⟨f, hf, hf'⟩, ⟨l, hl, hl'⟩⟩
  exact tabItg_pos d hd f hf p.T q.T (cov p hp) (cov q hq) hlt

/-- the quadratic form of a material whose figure of merit stays below `z` -/
theorem itgs_form (d : List TEPoint) (hd : Rising d) (hpos : ∀ r ∈ d, 0 < r.C ∧ 0 < r.K) (p q : TEPoint) (hp : p ∈ d) (hq : q ∈ d)
    (hlt : p.T < q.T) (z : ℝ) (hz0 : 0 < z) (hz : ∀ r ∈ d, p.T ≤ r.T → r.T ≤ q.T → rowZ r ≤ z) (t : ℝ) :
    0 ≤ t ^ 2 * (z * (tableItgs d p.T q.T).Rho) - 2 * t * (1 / 1000 * (tableItgs d p.T q.T).S) + (tableItgs d p.T q.T).K := by
  have h := tab_between d hd (fun r => (t ^ 2 * z) * (10000 / r.C) + (-2 * t * (1 / 1000)) * r.S + 1 * r.K) p q hp hq hlt (by
    intro r hr h1 h2
    obtain ⟨hC, hK⟩ := hpos r hr
    have hR : (0 : ℝ) < 10000 / r.C := by positivity
    have hzr := hz r hr h1 h2
    unfold rowZ at hzr
    rw [div_le_iff₀ (by positivity)] at hzr
    have := disc_ge (z * (10000 / r.C)) (1 / 1000 * r.S) r.K (by positivity) (by nlinarith) t
    linarith)
  rw [tab_comb] at h
  change 0 ≤ t ^ 2 * z * (tableItgs d p.T q.T).Rho + -2 * t * (1 / 1000) * (tableItgs d p.T q.T).S + 1 * (tableItgs d p.T q.T).K at h
  linarith

theorem leg_figures (d : List TEPoint) (hd : Rising d) (hpos : ∀ r ∈ d, 0 < r.C ∧ 0 < r.K) (p q : TEPoint) (hp : p ∈ d) (hq : q ∈ d)
    (hlt : p.T < q.T) (z m : ℝ) (hz0 : 0 < z) (hz : ∀ r ∈ d, p.T ≤ r.T → r.T ≤ q.T → rowZ r ≤ z)
    (hm : ∀ r ∈ d, p.T ≤ r.T → r.T ≤ q.T → rowPF r ≤ m) (L A : ℝ) (w : Bool) :
    (prfs L A w (tableItgs d p.T q.T)).Zeng ≤ z ∧ (prfs L A w (tableItgs d p.T q.T)).ZTeng ≤ z * (q.T - p.T) ∧
    (prfs L A w (tableItgs d p.T q.T)).PFeng ≤ tabItg (col rowPF d) p.T q.T ∧
    tabItg (col rowPF d) p.T q.T ≤ m * (q.T - p.T) := by
  have hRf : ∀ r ∈ d, (0 : ℝ) < 10000 / r.C := fun r hr => div_pos (by norm_num) (hpos r hr).1
  have pR := tab_positive d hd (fun r => 10000 / r.C) hRf p q hp hq hlt
  have pK := tab_positive d hd (·.K) (fun r hr => (hpos r hr).2) p q hp hq hlt
  have form := itgs_form d hd hpos p q hp hq hlt z hz0 hz
  change 0 < (tableItgs d p.T q.T).Rho at pR
  change 0 < (tableItgs d p.T q.T).K at pK
  have hZ : (prfs L A w (tableItgs d p.T q.T)).Zeng ≤ z := by
    have := disc_le _ _ _ (by positivity) form
    show 1 / 1000000 * (tableItgs d p.T q.T).S * (tableItgs d p.T q.T).S / (tableItgs d p.T q.T).Rho / (tableItgs d p.T q.T).K ≤ z
    rw [div_div, div_le_iff₀ (by positivity)]
    nlinarith
  refine ⟨hZ, ?_, ?_, ?_⟩
  · show (prfs L A w (tableItgs d p.T q.T)).Zeng * (q.T - p.T) ≤ _
    exact mul_le_mul_of_nonneg_right hZ (by linarith)
  · have h : ∀ t, 0 ≤ t ^ 2 * (tableItgs d p.T q.T).Rho - 2 * t * (1 / 1000 * (tableItgs d p.T q.T).S) + tabItg (col rowPF d) p.T q.T := by
      intro t
      have h := tab_between d hd (fun r => t ^ 2 * (10000 / r.C) + (-2 * t * (1 / 1000)) * r.S + 1 * rowPF r) p q hp hq hlt (by
        intro r hr _ _
        have hR := hRf r hr
        have e : 10000 / r.C * rowPF r = 1 / 1000000 * r.S ^ 2 := by
          unfold rowPF
          have := hR.ne'
          have := (hpos r hr).1.ne'
          field_simp
        have := disc_ge (10000 / r.C) (1 / 1000 * r.S) (rowPF r) hR (by rw [e]; nlinarith) t
        linarith)
      rw [tab_comb] at h
      change 0 ≤ t ^ 2 * (tableItgs d p.T q.T).Rho + -2 * t * (1 / 1000) * (tableItgs d p.T q.T).S + 1 * tabItg (col rowPF d) p.T q.T at h
      linarith
    have := disc_le _ _ _ pR h
    show 1 / 1000000 * (tableItgs d p.T q.T).S * (tableItgs d p.T q.T).S / (tableItgs d p.T q.T).Rho ≤ _
    rw [div_le_iff₀ pR]
    nlinarith
  · have h := tab_between d hd (fun r => m * 1 + (-1) * rowPF r + 0 * rowPF r) p q hp hq hlt (by
      intro r hr h1 h2
      have := hm r hr h1 h2
      linarith)
    rw [tab_comb d (fun _ => 1)] at h
    have e1 : tabItg (col (fun _ => (1 : ℝ)) d) p.T q.T = q.T - p.T := by
      rw [tabItg_exact (fun t => t) _ (col_inc hd _) (by
        intro x y hxy
        obtain ⟨k, a, b, ha, hb', rfl, rfl⟩ := col_consec hxy
        simp only
        ring) p.T q.T (by simp only [col, List.map_map, List.mem_map]; exact ⟨p, hp, rfl⟩) (by simp only [col, List.map_map, List.mem_map]; exact ⟨q, hq, rfl⟩)]
    rw [e1] at h
    linarith

/-- **C153** The engineering figure of merit of a leg never exceeds the best figure of merit of its material between
the temperatures times their difference, and the engineering power factor never exceeds the integral of the power
factor, hence the best power factor times the difference — whatever the temperature dependence of the columns. -/
theorem C153_leg (d : List TEPoint) (hd : Rising d) (hpos : ∀ r ∈ d, 0 < r.C ∧ 0 < r.K) (p q : TEPoint) (hp : p ∈ d) (hq : q ∈ d)
    (hlt : p.T < q.T) (z m : ℝ) (hz0 : 0 < z) (hz : ∀ r ∈ d, p.T ≤ r.T → r.T ≤ q.T → rowZ r ≤ z)
    (hm : ∀ r ∈ d, p.T ≤ r.T → r.T ≤ q.T → rowPF r ≤ m) (L A : ℝ) (w : Bool) :
    ∃ P g', Leg.build ⟨.table d, [p.T], [q.T], L, A, none⟩ w = (.ok [P], g') ∧ P.Zeng ≤ z ∧ P.ZTeng ≤ z * (q.T - p.T) ∧
      P.PFeng ≤ tabItg (col rowPF d) p.T q.T ∧ P.PFeng ≤ m * (q.T - p.T) := by
  have hcomp : Leg.compute ⟨.table d, [p.T], [q.T], L, A, none⟩ w = .ok [prfs L A w (tableItgs d p.T q.T)] := by
    simp only [Leg.compute, bcast, List.length_singleton, if_true]
    show (([(p.T, q.T)].mapM fun t => coreItgs (.table d) t.1 t.2).map _) = _
    rw [mapM_ok _ (fun t : ℝ × ℝ => tableItgs d t.1 t.2) _ (fun t _ => coreItgs_tableItgs d (List.ne_nil_of_mem hp) t.1 t.2)]
    rfl
  obtain ⟨h1, h2, h3, h4⟩ := leg_figures d hd hpos p q hp hq hlt z m hz0 hz hm L A w
  exact ⟨_, _, build_ok hcomp, h1, h2, h3, h3.trans h4⟩

/-- **C153** The columns `PFeng` and `ZTeng` of `GenLeg.valuate`. -/
theorem C153_valuate (p : TEPoint) (rest : List TEPoint) (hd : Rising (p :: rest)) (hpos : ∀ r ∈ p :: rest, 0 < r.C ∧ 0 < r.K)
    (hne : rest ≠ []) (z m : ℝ) (hz0 : 0 < z) (hz : ∀ r ∈ p :: rest, rowZ r ≤ z) (hm : ∀ r ∈ p :: rest, rowPF r ≤ m) (L : ℝ) :
    ∃ v, Leg.valuate (p :: rest) L = .ok v ∧ ∀ (j : Nat) (t : TEPoint), rest[j]? = some t →
      ∃ a b, v.ZTeng[j]? = some a ∧ v.PFeng[j]? = some b ∧ a ≤ z * (t.T - p.T) ∧ b ≤ m * (t.T - p.T) := by
  refine ⟨_, leg_valuate_eq p rest hne L, ?_⟩
  intro j t ht
  have htm := List.mem_of_getElem? ht
  have hlt : p.T < t.T := (List.pairwise_cons.mp hd).1 t htm
  obtain ⟨h1, h2, h3, h4⟩ := leg_figures (p :: rest) hd hpos p t (by simp) (by simp [htm]) hlt z m hz0 (fun r hr _ _ => hz r hr) (fun r hr _ _ => hm r hr) L 100 false
  exact ⟨_, _, by simp only [legResult, List.getElem?_map, ht]; rfl, by simp only [legResult, List.getElem?_map, ht]; rfl, h2, h3.trans h4⟩

/-- **C153** A pair is never better than the better of its materials: for all positive length and area ratios its
engineering figure of merit stays below the best figure of merit of both materials times the temperature difference. -/
theorem C153_pair (dp dn : List TEPoint) (hdp : Rising dp) (hdn : Rising dn) (hpos : ∀ r ∈ dp ++ dn, 0 < r.C ∧ 0 < r.K) (p q p' q' : TEPoint)
    (hp : p ∈ dp) (hq : q ∈ dp) (hp' : p' ∈ dn) (hq' : q' ∈ dn) (e1 : p'.T = p.T) (e2 : q'.T = q.T) (hlt : p.T < q.T)
    (z : ℝ) (hz0 : 0 < z) (hz : ∀ r ∈ dp ++ dn, p.T ≤ r.T → r.T ≤ q.T → rowZ r ≤ z) (rL rA : ℝ) (hL : 0 < rL) (hA : 0 < rA) (L A : ℝ) (w : Bool) :
    ∃ P g', Pair.build ⟨.table dp, .table dn, [p.T], [q.T], L, A, none⟩ rL (.value rA) w = (.ok ([P], [rA]), g') ∧
      P.Zeng ≤ z ∧ P.ZTeng ≤ z * (q.T - p.T) := by
  have hcomp : Pair.compute ⟨.table dp, .table dn, [p.T], [q.T], L, A, none⟩ rL (.value rA) w =
      .ok ([prfs L A true (pairItgs (tableItgs dp p.T q.T) (tableItgs dn p.T q.T) rL rA)], [rA]) := by
    simp only [Pair.compute, bcast, List.length_singleton, if_true]
    show (([(p.T, q.T)].mapM fun t => Pair.itgs1 _ rL (.value rA) t.1 t.2).map _) = _
    rw [mapM_ok _ (fun t : ℝ × ℝ => (pairItgs (tableItgs dp t.1 t.2) (tableItgs dn t.1 t.2) rL rA, rA)) _ (by
      intro t ht
      simp only [Pair.itgs1, coreItgs_tableItgs dp (List.ne_nil_of_mem hp), coreItgs_tableItgs dn (List.ne_nil_of_mem hp'), bind,
        Except.bind, areaRatio, pure, Except.pure])]
    rfl
  have hb : Pair.build ⟨.table dp, .table dn, [p.T], [q.T], L, A, none⟩ rL (.value rA) w =
      (.ok ([prfs L A true (pairItgs (tableItgs dp p.T q.T) (tableItgs dn p.T q.T) rL rA)], [rA]),
        ⟨.table dp, .table dn, [p.T], [q.T], L, A, some [prfs L A true (pairItgs (tableItgs dp p.T q.T) (tableItgs dn p.T q.T) rL rA)]⟩) := by
    simp only [Pair.build, hcomp]
  have fp := itgs_form dp hdp (fun r hr => hpos r (by simp [hr])) p q hp hq hlt z hz0 (fun r hr => hz r (by simp [hr]))
  have fn := itgs_form dn hdn (fun r hr => hpos r (by simp [hr])) p' q' hp' hq' (by rw [e1, e2]; exact hlt) z hz0
    (fun r hr h1 h2 => hz r (by simp [hr]) (by rw [← e1]; exact h1) (by rw [← e2]; exact h2))
  have pRp := tab_positive dp hdp (fun r => 10000 / r.C) (fun r hr => div_pos (by norm_num) (hpos r (by simp [hr])).1) p q hp hq hlt
  have pKp := tab_positive dp hdp (·.K) (fun r hr => (hpos r (by simp [hr])).2) p q hp hq hlt
  have pRn := tab_positive dn hdn (fun r => 10000 / r.C) (fun r hr => div_pos (by norm_num) (hpos r (by simp [hr])).1) p' q' hp' hq' (by rw [e1, e2]; exact hlt)
  have pKn := tab_positive dn hdn (·.K) (fun r hr => (hpos r (by simp [hr])).2) p' q' hp' hq' (by rw [e1, e2]; exact hlt)
  rw [e1, e2] at fn pRn pKn
  change 0 < (tableItgs dp p.T q.T).Rho at pRp
  change 0 < (tableItgs dp p.T q.T).K at pKp
  change 0 < (tableItgs dn p.T q.T).Rho at pRn
  change 0 < (tableItgs dn p.T q.T).K at pKn
  have hdT : (pairItgs (tableItgs dp p.T q.T) (tableItgs dn p.T q.T) rL rA).deltaT = q.T - p.T := by
    simp only [pairItgs, tableItgs]; ring
  have hR : 0 < (pairItgs (tableItgs dp p.T q.T) (tableItgs dn p.T q.T) rL rA).Rho := by simp only [pairItgs]; positivity
  have hK : 0 < (pairItgs (tableItgs dp p.T q.T) (tableItgs dn p.T q.T) rL rA).K := by simp only [pairItgs]; positivity
  have form : ∀ t, 0 ≤ t ^ 2 * (z * (pairItgs (tableItgs dp p.T q.T) (tableItgs dn p.T q.T) rL rA).Rho) -
      2 * t * (1 / 1000 * (pairItgs (tableItgs dp p.T q.T) (tableItgs dn p.T q.T) rL rA).S) + (pairItgs (tableItgs dp p.T q.T) (tableItgs dn p.T q.T) rL rA).K := by
    intro t
    have a := mul_nonneg (by positivity : 0 ≤ 1 / (1 + rA)) (fp (t * (1 + rA)))
    have b := mul_nonneg (by positivity : 0 ≤ rA / (rL * (1 + rA))) (fn (-(t * rL * (1 + rA) / rA)))
    refine (add_nonneg a b).trans (le_of_eq ?_)
    simp only [pairItgs]
    field_simp
    ring
  have hZ : (prfs L A true (pairItgs (tableItgs dp p.T q.T) (tableItgs dn p.T q.T) rL rA)).Zeng ≤ z := by
    generalize pairItgs (tableItgs dp p.T q.T) (tableItgs dn p.T q.T) rL rA = i at *
    have := disc_le _ _ _ (by positivity) form
    show 1 / 1000000 * i.S * i.S / i.Rho / i.K ≤ z
    rw [div_div, div_le_iff₀ (by positivity)]
    nlinarith
  refine ⟨_, _, hb, hZ, ?_⟩
  show (prfs L A true _).Zeng * (pairItgs (tableItgs dp p.T q.T) (tableItgs dn p.T q.T) rL rA).deltaT ≤ _
  rw [hdT]
  exact mul_le_mul_of_nonneg_right hZ (by linarith)

/-- **C153** The bound is attained by constant properties: `ZTeng` is then `z (Th-Tc)` with the `z` of every row. -/
theorem C153_attained (d : List TEPoint) (hd : Rising d) (C S K : ℝ) (hC : 0 < C) (hK : 0 < K)
    (hconst : ∀ r ∈ d, r.C = C ∧ r.S = S ∧ r.K = K) (p q : TEPoint) (hp : p ∈ d) (hq : q ∈ d) (hlt : p.T < q.T) (L A : ℝ) (w : Bool) :
    ∃ P g', Leg.build ⟨.table d, [p.T], [q.T], L, A, none⟩ w = (.ok [P], g') ∧ ∀ r ∈ d, P.Zeng = rowZ r ∧ P.ZTeng = rowZ r * (q.T - p.T) ∧
      P.PFeng = rowPF r * (q.T - p.T) := by
  have hcomp : Leg.compute ⟨.table d, [p.T], [q.T], L, A, none⟩ w = .ok [prfs L A w (tableItgs d p.T q.T)] := by
    simp only [Leg.compute, bcast, List.length_singleton, if_true]
    show (([(p.T, q.T)].mapM fun t => coreItgs (.table d) t.1 t.2).map _) = _
    rw [mapM_ok _ (fun t : ℝ × ℝ => tableItgs d t.1 t.2) _ (fun t _ => coreItgs_tableItgs d (List.ne_nil_of_mem hp) t.1 t.2)]
    rfl
  refine ⟨_, _, build_ok hcomp, ?_⟩
  intro r hr
  obtain ⟨i, hi, h1, h2, h3, h4, h5, h6, h7⟩ := C48_constant_at_data d hd p q hp hq C S K hconst
  rw [coreItgs_tableItgs d (List.ne_nil_of_mem hp)] at hi
  injection hi with hi
  have hdT : q.T - p.T ≠ 0 := by linarith
  have ed : i.deltaT = q.T - p.T := by rw [← hi]; rfl
  obtain ⟨r1, r2, r3⟩ := hconst r hr
  rw [hi]
  simp only [prfs, h5, h6, h7, rowZ, rowPF, r1, r2, r3, ed]
  refine ⟨?_, ?_, ?_⟩ <;> field_simp

/-! ## Non-vacuity -/

/-- the hypotheses of `C153_leg` and `C153_valuate` for a varying material: `z ≤ 3e-3`, power factor at most 3e-3 -/
example : ∃ d : List TEPoint, d = [⟨300, 1500, 120, 2⟩, ⟨400, 1200, 150, 3 / 2⟩, ⟨550, 800, -130, 5 / 2⟩] ∧ Rising d ∧
    (∀ r ∈ d, 0 < r.C ∧ 0 < r.K) ∧ ∀ r ∈ d, rowZ r ≤ 3 / 1000 ∧ rowPF r ≤ 3 / 1000 := by
  refine ⟨_, rfl, by unfold Rising; norm_num, ?_, ?_⟩
  · simp only [List.mem_cons, List.not_mem_nil, or_false]
    rintro r (rfl | rfl | rfl) <;> norm_num
  · simp only [List.mem_cons, List.not_mem_nil, or_false]
    rintro r (rfl | rfl | rfl) <;> (unfold rowZ rowPF; norm_num)

/-- `growing` (n-type) with a p-type table over the same temperatures meets the hypotheses of `C153_pair` -/
example : ∀ r ∈ ([⟨300, 1500, 120, 2⟩, ⟨400, 1200, 150, 3 / 2⟩, ⟨700, 800, 150, 5 / 2⟩] : List TEPoint) ++ growing, (0 < r.C ∧ 0 < r.K) ∧ rowZ r ≤ 3 / 1000 := by
  simp only [growing, List.mem_append, List.mem_cons, List.not_mem_nil, or_false]
  rintro r ((rfl | rfl | rfl) | (rfl | rfl | rfl)) <;> (unfold rowZ; norm_num)

end TEflow.Engout
