import Verif.Props.EngoutCarnot

/-! # C152: which rows of the table matter, and what a better material changes -/

set_option linter.unusedSimpArgs false
set_option linter.unusedVariables false

namespace TEflow.Engout
open TEflow.Ztdev (TEPoint)
open TEflow.Mathext (npInterp npScan)

/-! ## Only the rows between the temperatures matter -/

/-- neighbouring rows: the area of the trapezoid -/
theorem tab_next (d : List TEPoint) (hd : Rising d) (f : TEPoint → ℝ) (i : Nat) (p q : TEPoint) (hp : d[i]? = some p) (hq : d[i + 1]? = some q) :
    tabItg (col f d) p.T q.T = (q.T - p.T) * (f p + f q) / 2 := by
  have hd' : Rising (d.map fun r => (⟨r.T, r.C, f r, r.K⟩ : TEPoint)) := by
    unfold Rising; rw [List.pairwise_map]; exact hd
  obtain ⟨g, hg, _, h, _⟩ := C48_trapezoid _ hd' i ⟨p.T, p.C, f p, p.K⟩ ⟨q.T, q.C, f q, q.K⟩ (by simp [hp]) (by simp [hq])
  rw [coreItgs_tableItgs _ (by
    intro h0
    rw [List.map_eq_nil_iff] at h0
    simp [h0] at hp)] at hg
  injection hg with hg
  rw [← hg] at h
  have e : col (fun r => r.S) (d.map fun r => (⟨r.T, r.C, f r, r.K⟩ : TEPoint)) = col f d := by
    simp [col, Function.comp_def]
  simp only [tableItgs, e] at h
  exact h

/-- sum of the trapezoids over consecutive rows -/
noncomputable def areas (f : TEPoint → ℝ) : List TEPoint → ℝ
  | a :: b :: l => (b.T - a.T) * (f a + f b) / 2 + areas f (b :: l)
  | _ => 0

theorem tab_areas (f : TEPoint → ℝ) (q : TEPoint) (post mid : List TEPoint) : ∀ (pre : List TEPoint) (p : TEPoint),
    Rising (pre ++ p :: (mid ++ q :: post)) →
    tabItg (col f (pre ++ p :: (mid ++ q :: post))) p.T q.T = areas f (p :: (mid ++ [q])) := by
  induction mid with
  | nil =>
    intro pre p hd
    rw [tab_next _ hd f pre.length p q (by simp) (by simp)]
    simp [areas]
  | cons m mid ih =>
    intro pre p hd
    have h1 := tab_next _ hd f pre.length p m (by simp) (by simp)
    have e : pre ++ p :: (m :: mid ++ q :: post) = (pre ++ [p]) ++ m :: (mid ++ q :: post) := by simp
    have h2 := ih (pre ++ [p]) m (by rw [← e]; exact hd)
    rw [← e] at h2
    simp only [List.cons_append, areas]
    rw [← h1, ← h2]
    simp only [List.cons_append]
    unfold tabItg
    ring

/-- **C152** The integrals between two temperatures of the table, hence all results of `build` and `simulate`, depend
only on the rows from the one to the other: rows below `Tc` and above `Th` may be present or absent. -/
theorem C152_rows (pre mid post : List TEPoint) (p q : TEPoint) (hd : Rising (pre ++ p :: (mid ++ q :: post))) (L A : ℝ) (w : Bool) :
    coreItgs (.table (pre ++ p :: (mid ++ q :: post))) p.T q.T = coreItgs (.table (p :: (mid ++ [q]))) p.T q.T ∧
    (Leg.build ⟨.table (pre ++ p :: (mid ++ q :: post)), [p.T], [q.T], L, A, none⟩ w).1 =
      (Leg.build ⟨.table (p :: (mid ++ [q])), [p.T], [q.T], L, A, none⟩ w).1 ∧
    (∀ c, (Leg.build ⟨.table (pre ++ p :: (mid ++ q :: post)), [p.T], [q.T], L, A, none⟩ w).2.simulate c =
      (Leg.build ⟨.table (p :: (mid ++ [q])), [p.T], [q.T], L, A, none⟩ w).2.simulate c) := by
  have hs : Rising (p :: (mid ++ [q])) := by
    apply List.Pairwise.sublist _ hd
    refine List.Sublist.trans ?_ (List.sublist_append_right pre _)
    apply List.Sublist.cons_cons
    apply List.Sublist.append_left
    simp
  have key : ∀ f, tabItg (col f (pre ++ p :: (mid ++ q :: post))) p.T q.T = tabItg (col f (p :: (mid ++ [q]))) p.T q.T := by
    intro f
    rw [tab_areas f q post mid pre p hd]
    exact (tab_areas f q [] mid [] p hs).symm
  have node : ∀ r, (r = p ∨ r = q) → npInterp (col (·.S) (pre ++ p :: (mid ++ q :: post))) none none r.T =
      npInterp (col (·.S) (p :: (mid ++ [q]))) none none r.T := by
    intro r hr
    rw [interp_node (col (·.S) (pre ++ p :: (mid ++ q :: post))) (col_inc hd _) (r.T, r.S) (List.mem_map.mpr ⟨r, by rcases hr with rfl | rfl <;> simp, rfl⟩),
      interp_node (col (·.S) (p :: (mid ++ [q]))) (col_inc hs _) (r.T, r.S) (List.mem_map.mpr ⟨r, by rcases hr with rfl | rfl <;> simp, rfl⟩)]
  have hcore : coreItgs (.table (pre ++ p :: (mid ++ q :: post))) p.T q.T = coreItgs (.table (p :: (mid ++ [q]))) p.T q.T := by
    rw [coreItgs_tableItgs _ (by simp), coreItgs_tableItgs _ (by simp)]
    simp only [tableItgs, key, node p (Or.inl rfl), node q (Or.inr rfl)]
  have hb : ∀ d : List TEPoint, d ≠ [] → Leg.build ⟨.table d, [p.T], [q.T], L, A, none⟩ w =
      (.ok [prfs L A w (tableItgs d p.T q.T)], ⟨.table d, [p.T], [q.T], L, A, some [prfs L A w (tableItgs d p.T q.T)]⟩) := by
    intro d hne
    apply build_ok
    simp only [Leg.compute, bcast, List.length_singleton, if_true]
    show (([(p.T, q.T)].mapM fun t => coreItgs (.table d) t.1 t.2).map _) = _
    rw [mapM_ok _ (fun t : ℝ × ℝ => tableItgs d t.1 t.2) _ (fun t _ => coreItgs_tableItgs d hne t.1 t.2)]
    rfl
  have heq : tableItgs (pre ++ p :: (mid ++ q :: post)) p.T q.T = tableItgs (p :: (mid ++ [q])) p.T q.T := by
    rw [coreItgs_tableItgs _ (by simp), coreItgs_tableItgs _ (by simp)] at hcore
    injection hcore
  refine ⟨hcore, ?_, ?_⟩
  · rw [hb _ (by simp), hb _ (by simp), heq]
  · intro c
    rw [hb _ (by simp), hb _ (by simp), heq]
    rfl

/-! ## A better material -/

/-- the table of a material with the conductivity raised by the factor `c`, the Seebeck coefficient by the factor `s`
and another thermal conductivity -/
def changed (c s : ℝ) (k : TEPoint → ℝ) (d : List TEPoint) : List TEPoint := d.map fun r => ⟨r.T, c * r.C, s * r.S, k r⟩

theorem tab_nonneg (d : List TEPoint) (hd : Rising d) (f : TEPoint → ℝ) (hf : ∀ r ∈ d, 0 ≤ f r) (p q : TEPoint) (hp : p ∈ d) (hq : q ∈ d)
    (hlt : p.T < q.T) : 0 ≤ tabItg (col f d) p.T q.T := by
  obtain ⟨lo, hi, hlo, hb⟩ := list_bounds (fun r => f r + 1) d (fun r hr => by linarith [hf r hr])
  have mem : ∀ r ∈ d, Inside (col f d) r.T := fun r hr =>
    inside_of_mem (col f d) (col_inc hd f) (r.T, f r) (List.mem_map.mpr ⟨r, hr, rfl⟩)
  have := (tabItg_bounds 0 hi (col f d) p.T q.T (col_inc hd _) (mem p hp) (mem q hq) hlt.le (by
    intro x y hxy _ _
    obtain ⟨k, a, b, ha, hb', rfl, rfl⟩ := col_consec hxy
    have := hf a (List.mem_of_getElem? ha)
    have := hf b (List.mem_of_getElem? hb')
    have := (hb a (List.mem_of_getElem? ha)).2
    have := (hb b (List.mem_of_getElem? hb')).2
    simp only at *
    constructor <;> linarith)).1
  linarith

theorem tab_scale (d : List TEPoint) (f g : TEPoint → ℝ) (c : ℝ) (h : ∀ t, g t = c * f t) (a b : ℝ) :
    tabItg (col g d) a b = c * tabItg (col f d) a b := by
  have z0 : tabItg (d.map fun p => (p.T, (0 : ℝ))) a b = 0 := by
    have := tabItg_linear (fun p : TEPoint => p.T) (fun _ => (0 : ℝ)) (fun _ => 0) (fun _ => 0) (-1)
      (by intro t; ring) d a b
    linarith
  have := tabItg_linear (fun p : TEPoint => p.T) (fun _ => (0 : ℝ)) f g c (by intro t; rw [h]; ring) d a b
  rw [z0, zero_add] at this
  exact this

/-- the integrals of the changed material -/
theorem changed_itgs (c s : ℝ) (hc : 0 < c) (k : TEPoint → ℝ) (d : List TEPoint) (a b : ℝ) :
    (tableItgs (changed c s k d) a b).Rho = 1 / c * (tableItgs d a b).Rho ∧
    (tableItgs (changed c s k d) a b).RhoT = 1 / c * (tableItgs d a b).RhoT ∧
    (tableItgs (changed c s k d) a b).S = s * (tableItgs d a b).S ∧
    (tableItgs (changed c s k d) a b).ST = s * (tableItgs d a b).ST ∧
    (tableItgs (changed c s k d) a b).K = tabItg (col k d) a b := by
  have e : ∀ f : TEPoint → ℝ, col f (changed c s k d) = col (fun r => f ⟨r.T, c * r.C, s * r.S, k r⟩) d := by
    intro f; simp [col, changed, Function.comp_def]
  have inv : ∀ x : ℝ, 10000 / (c * x) = 1 / c * (10000 / x) := by
    intro x; rw [div_mul_div_comm, one_mul]
  refine ⟨?_, ?_, ?_, ?_, ?_⟩
  · simp only [tableItgs, e]
    exact tab_scale d _ _ (1 / c) (fun t => inv _) a b
  · simp only [tableItgs, e]
    exact tab_scale d _ _ (1 / c) (fun t => by rw [inv]; ring) a b
  · simp only [tableItgs, e]
    exact tab_scale d _ _ s (fun t => rfl) a b
  · simp only [tableItgs, e]
    exact tab_scale d _ _ s (fun t => by ring) a b
  · simp only [tableItgs, e]

/-- **C152** A better material is better. Raise the conductivity by a factor `c ≥ 1` and the Seebeck coefficient by a
factor `s` with `s² ≥ 1` (also with the other sign) at all temperatures, and lower the thermal conductivity anywhere:
the power at every reduced current is `c s²` times as large, and at every reduced current between open and short
circuit the efficiency does not fall (it rises if `c s² > 1` and the current is not at an end). -/
theorem C152_better (d : List TEPoint) (hd : Rising d) (hpos : ∀ r ∈ d, 0 < r.C ∧ 0 < r.S ∧ 0 < r.K) (c s : ℝ) (hc : 1 ≤ c) (hs : 1 ≤ s ^ 2)
    (k : TEPoint → ℝ) (hk : ∀ r ∈ d, 0 < k r ∧ k r ≤ r.K) (p q : TEPoint) (hp : p ∈ d) (hq : q ∈ d) (h0 : 0 < p.T) (hlt : p.T < q.T)
    (h2 : q.T ≤ 2 * p.T) (L A : ℝ) (hL : 0 < L) (hA : 0 < A) (w : Bool) (x : ℝ) :
    ∃ ps g ps' g' o o', Leg.build ⟨.table d, [p.T], [q.T], L, A, none⟩ w = (.ok ps, g) ∧
      Leg.build ⟨.table (changed c s k d), [p.T], [q.T], L, A, none⟩ w = (.ok ps', g') ∧
      g.simulate (.values [x]) = .ok [o] ∧ g'.simulate (.values [x]) = .ok [o'] ∧
      o'.Pout = c * s ^ 2 * o.Pout ∧
      (0 ≤ x → x ≤ 1 → o.Yita ≤ o'.Yita ∧ 0 < o'.Qhot) ∧ (0 < x → x < 1 → 1 < c * s ^ 2 → o.Yita < o'.Yita) := by
  have hne : d ≠ [] := List.ne_nil_of_mem hp
  have hcomp : ∀ d : List TEPoint, d ≠ [] → Leg.compute ⟨.table d, [p.T], [q.T], L, A, none⟩ w = .ok [prfs L A w (tableItgs d p.T q.T)] := by
    intro d hne
    simp only [Leg.compute, bcast, List.length_singleton, if_true]
    show (([(p.T, q.T)].mapM fun t => coreItgs (.table d) t.1 t.2).map _) = _
    rw [mapM_ok _ (fun t : ℝ × ℝ => tableItgs d t.1 t.2) _ (fun t _ => coreItgs_tableItgs d hne t.1 t.2)]
    rfl
  refine ⟨_, _, _, _, _, _, build_ok (hcomp d hne), build_ok (hcomp (changed c s k d) (by simpa [changed] using hne)), simulate_value _ x, simulate_value _ x, ?_⟩
  have cov : ∀ r ∈ d, Covers d r.T := by
    intro r hr
    have h := inside_of_mem (col (·.S) d) (col_inc hd _) (r.T, r.S) (List.mem_map.mpr ⟨r, hr, rfl⟩)
    obtain ⟨⟨f, hf, hf'⟩, ⟨l, hl, hl'⟩⟩ := h
    simp only [col, List.head?_map, List.getLast?_map, Option.mem_def, Option.map_eq_some_iff] at hf hl
    obtain ⟨f, hf, rfl⟩ := hf
    obtain ⟨l, hl, rfl⟩ := hl
    exact ⟨⟨f, hf, hf'⟩, ⟨l, hl, hl'⟩⟩
  have hRf : ∀ r ∈ d, (0 : ℝ) < 10000 / r.C := fun r hr => div_pos (by norm_num) (hpos r hr).1
  have pR := tabItg_pos d hd (fun r => 10000 / r.C) hRf p.T q.T (cov p hp) (cov q hq) hlt
  have pS := tabItg_pos d hd (·.S) (fun r hr => (hpos r hr).2.1) p.T q.T (cov p hp) (cov q hq) hlt
  have pK' := tabItg_pos d hd k (fun r hr => (hk r hr).1) p.T q.T (cov p hp) (cov q hq) hlt
  have wR := weighted_nonneg d hd (fun r => 10000 / r.C) hRf p q hp hq hlt
  have wS := weighted_nonneg d hd (·.S) (fun r hr => (hpos r hr).2.1) p q hp hq hlt
  have kk : tabItg (col k d) p.T q.T ≤ tabItg (col (·.K) d) p.T q.T := by
    have h := tab_nonneg d hd (fun r => r.K - k r) (fun r hr => by linarith [(hk r hr).2]) p q hp hq hlt
    have l := tabItg_linear (fun t : TEPoint => t.T) (·.K) k (fun r => r.K - k r) (-1) (by intro t; ring) d p.T q.T
    simp only [col] at *
    rw [l] at h
    linarith
  obtain ⟨c1, c2, c3, c4, c5⟩ := changed_itgs c s (by linarith) k d p.T q.T
  have t1 : (tableItgs (changed c s k d) p.T q.T).Tc = p.T := rfl
  have t2 : (tableItgs (changed c s k d) p.T q.T).deltaT = q.T - p.T := rfl
  have t3 : (tableItgs d p.T q.T).Tc = p.T := rfl
  have t4 : (tableItgs d p.T q.T).deltaT = q.T - p.T := rfl
  change 0 < (tableItgs d p.T q.T).Rho at pR
  change 0 < (tableItgs d p.T q.T).S at pS
  change p.T * (tableItgs d p.T q.T).Rho ≤ (tableItgs d p.T q.T).RhoT ∧ (tableItgs d p.T q.T).RhoT ≤ q.T * (tableItgs d p.T q.T).Rho at wR
  change p.T * (tableItgs d p.T q.T).S ≤ (tableItgs d p.T q.T).ST ∧ _ at wS
  change _ ≤ (tableItgs d p.T q.T).K at kk
  rw [← c5] at kk pK'
  generalize tableItgs (changed c s k d) p.T q.T = i' at *
  generalize tableItgs d p.T q.T = i at *
  have hc0 : 0 < c := by linarith
  have hs0 : s ≠ 0 := by rintro rfl; norm_num at hs
  have pK : 0 < i.K := by linarith
  have hcs : 1 ≤ c * s ^ 2 := by nlinarith
  have eP : (prfs L A w i').PFeng = c * s ^ 2 * (prfs L A w i).PFeng := by
    simp only [prfs, c1, c3]
    field_simp
  have hP : 0 < (prfs L A w i).PFeng := by simp only [prfs]; positivity
  have eQ : (prfs L A w i').Qx = c * s ^ 2 * (prfs L A w i).Qx := by
    show 1 / 1000 * (prfs L A w i').PFeng * i'.deltaT / L * A = c * s ^ 2 * (1 / 1000 * (prfs L A w i).PFeng * i.deltaT / L * A)
    rw [eP, t2, t4]; ring
  have hdT : 0 < q.T - p.T := by linarith
  have hQ : 0 < (prfs L A w i).Qx := by
    show 0 < 1 / 1000 * (prfs L A w i).PFeng * i.deltaT / L * A
    rw [t4]; positivity
  have hQ' : 0 < (prfs L A w i').Qx := by rw [eQ]; positivity
  have hZ : 0 < (prfs L A w i).Zeng := div_pos hP pK
  have hZ' : c * s ^ 2 * (prfs L A w i).Zeng ≤ (prfs L A w i').Zeng := by
    show c * s ^ 2 * ((prfs L A w i).PFeng / i.K) ≤ (prfs L A w i').PFeng / i'.K
    rw [eP, ← mul_div_assoc]
    exact div_le_div_of_nonneg_left (by positivity) pK' kk
  have eST : (prfs L A w i').mdfs.ST = (prfs L A w i).mdfs.ST := by
    simp only [prfs, mdfs, c3, c4, t1, t3]
    rw [mul_div_mul_left _ _ hs0]
  have eRT : (prfs L A w i').mdfs.RhoT = (prfs L A w i).mdfs.RhoT := by
    simp only [prfs, mdfs, c1, c2, t1, t3]
    rw [mul_div_mul_left _ _ (by positivity)]
  have hST : p.T ≤ (prfs L A w i).mdfs.ST := by
    have : p.T ≤ i.ST / i.S := by rw [le_div_iff₀ pS]; exact wS.1
    simp only [prfs, mdfs, t3]; linarith
  have hRT : 0 ≤ (prfs L A w i).mdfs.RhoT ∧ (prfs L A w i).mdfs.RhoT ≤ p.T := by
    have a1 : p.T ≤ i.RhoT / i.Rho := by rw [le_div_iff₀ pR]; exact wR.1
    have a2 : i.RhoT / i.Rho ≤ q.T := by rw [div_le_iff₀ pR]; exact wR.2
    simp only [prfs, mdfs, t3]
    constructor <;> linarith
  have hd1 : (prfs L A w i).deltaT = q.T - p.T := t4
  have hd2 : (prfs L A w i').deltaT = q.T - p.T := t2
  generalize prfs L A w i' = P' at *
  generalize prfs L A w i = P at *
  have form : ∀ (R : Prfs), 0 < R.Qx → R.deltaT = q.T - p.T → 0 < 1 / R.Zeng + R.mdfs.ST * x - R.mdfs.RhoT * x * x →
      (simulate1 R x).Yita = 100 * (q.T - p.T) * (x * (1 - x) / (1 / R.Zeng + R.mdfs.ST * x - R.mdfs.RhoT * x * x)) := by
    intro R hR hdR hq
    simp only [simulate1, hdR]
    generalize 1 / R.Zeng + R.mdfs.ST * x - R.mdfs.RhoT * x * x = qq at *
    field_simp
  have hZ'0 : 0 < P'.Zeng := lt_of_lt_of_le (by positivity) hZ'
  have hzz : 1 / P'.Zeng ≤ 1 / P.Zeng := by
    apply one_div_le_one_div_of_le hZ
    have := mul_le_mul_of_nonneg_right hcs hZ.le
    linarith
  have rest : 0 ≤ x → x ≤ 1 → 0 ≤ P.mdfs.ST * x - P.mdfs.RhoT * x * x := by
    intro x0 x1
    have u1 : P.mdfs.RhoT * x * x ≤ P.mdfs.RhoT * x * 1 := mul_le_mul_of_nonneg_left x1 (mul_nonneg hRT.1 x0)
    have u2 : P.mdfs.RhoT * x ≤ P.mdfs.ST * x := mul_le_mul_of_nonneg_right (by linarith) x0
    linarith
  have k1 : 0 < 1 / P.Zeng := by positivity
  have k2 : 0 < 1 / P'.Zeng := by positivity
  refine ⟨by simp only [simulate1, eQ]; ring, ?_, ?_⟩
  · intro x0 x1
    have r := rest x0 x1
    rw [form P hQ hd1 (by linarith), form P' hQ' hd2 (by rw [eST, eRT]; linarith), eST, eRT]
    refine ⟨?_, by
      simp only [simulate1, hd2, eST, eRT]
      exact div_pos (mul_pos hQ' (by linarith)) hdT⟩
    apply mul_le_mul_of_nonneg_left _ (by positivity)
    exact div_le_div_of_nonneg_left (mul_nonneg x0 (by linarith)) (by linarith) (by linarith)
  · intro x0 x1 hgt
    have r := rest x0.le x1.le
    have hzlt : 1 / P'.Zeng < 1 / P.Zeng := by
      apply one_div_lt_one_div_of_lt hZ
      have := mul_lt_mul_of_pos_right hgt hZ
      linarith
    rw [form P hQ hd1 (by linarith), form P' hQ' hd2 (by rw [eST, eRT]; linarith), eST, eRT]
    apply mul_lt_mul_of_pos_left _ (by positivity)
    exact div_lt_div_of_pos_left (mul_pos x0 (by linarith)) (by linarith) (by linarith)

/-- the optimal ratio of a positive table is at least 1 -/
theorem m_opt_ge (d : List TEPoint) (hd : Rising d) (hpos : ∀ r ∈ d, 0 < r.C ∧ 0 < r.S ∧ 0 < r.K) (p q : TEPoint) (hp : p ∈ d) (hq : q ∈ d)
    (hlt : p.T < q.T) (h2 : q.T ≤ 2 * p.T) (L A : ℝ) (w : Bool) : 1 ≤ (prfs L A w (tableItgs d p.T q.T)).m_opt := by
  have hRf : ∀ r ∈ d, (0 : ℝ) < 10000 / r.C := fun r hr => div_pos (by norm_num) (hpos r hr).1
  have wR := weighted_nonneg d hd (fun r => 10000 / r.C) hRf p q hp hq hlt
  have wS := weighted_nonneg d hd (·.S) (fun r hr => (hpos r hr).2.1) p q hp hq hlt
  have pR := tab_nonneg d hd (fun r => 10000 / r.C) (fun r hr => (hRf r hr).le) p q hp hq hlt
  have pS := tab_nonneg d hd (·.S) (fun r hr => (hpos r hr).2.1.le) p q hp hq hlt
  have pK := tab_nonneg d hd (·.K) (fun r hr => (hpos r hr).2.2.le) p q hp hq hlt
  change 0 ≤ (tableItgs d p.T q.T).Rho at pR
  change 0 ≤ (tableItgs d p.T q.T).S at pS
  change 0 ≤ (tableItgs d p.T q.T).K at pK
  change p.T * (tableItgs d p.T q.T).Rho ≤ (tableItgs d p.T q.T).RhoT ∧ (tableItgs d p.T q.T).RhoT ≤ q.T * (tableItgs d p.T q.T).Rho at wR
  change p.T * (tableItgs d p.T q.T).S ≤ (tableItgs d p.T q.T).ST ∧ _ at wS
  have t3 : (tableItgs d p.T q.T).Tc = p.T := rfl
  generalize tableItgs d p.T q.T = i at *
  have hz : 0 ≤ (prfs L A w i).ZTp := by
    show 0 ≤ 1 / 1000000 * i.S * i.S / i.Rho / i.K * (2 * (i.ST / i.S) - i.Tc - (i.RhoT / i.Rho - i.Tc))
    rcases pR.lt_or_eq with hR | hR
    · rcases pS.lt_or_eq with hS | hS
      · apply mul_nonneg (by positivity)
        have a1 : p.T ≤ i.ST / i.S := by rw [le_div_iff₀ hS]; exact wS.1
        have a2 : i.RhoT / i.Rho ≤ q.T := by rw [div_le_iff₀ hR]; exact wR.2
        linarith
      · rw [← hS]; simp
    · rw [← hR]; simp
  show 1 ≤ Real.sqrt (1 + (prfs L A w i).ZTp)
  rw [Real.one_le_sqrt]
  linarith

/-- **C152** So the best efficiency does not fall either, and rises if `c s² > 1`. -/
theorem C152_best (d : List TEPoint) (hd : Rising d) (hpos : ∀ r ∈ d, 0 < r.C ∧ 0 < r.S ∧ 0 < r.K) (c s : ℝ) (hc : 1 ≤ c) (hs : 1 ≤ s)
    (k : TEPoint → ℝ) (hk : ∀ r ∈ d, 0 < k r ∧ k r ≤ r.K) (p q : TEPoint) (hp : p ∈ d) (hq : q ∈ d) (h0 : 0 < p.T) (hlt : p.T < q.T)
    (h2 : q.T ≤ 2 * p.T) (L A : ℝ) (hL : 0 < L) (hA : 0 < A) (w : Bool) (y : List Char) (hy : initial y = some 'y') :
    ∃ ps g ps' g' b b', Leg.build ⟨.table d, [p.T], [q.T], L, A, none⟩ w = (.ok ps, g) ∧
      Leg.build ⟨.table (changed c s k d), [p.T], [q.T], L, A, none⟩ w = (.ok ps', g') ∧
      g.simulate (.str y) = .ok [b] ∧ g'.simulate (.str y) = .ok [b'] ∧ b.Yita ≤ b'.Yita ∧
      (1 < c * s ^ 2 → b.Yita < b'.Yita) := by
  have hne : d ≠ [] := List.ne_nil_of_mem hp
  have hcomp : Leg.compute ⟨.table d, [p.T], [q.T], L, A, none⟩ w = .ok [prfs L A w (tableItgs d p.T q.T)] := by
    simp only [Leg.compute, bcast, List.length_singleton, if_true]
    show (([(p.T, q.T)].mapM fun t => coreItgs (.table d) t.1 t.2).map _) = _
    rw [mapM_ok _ (fun t : ℝ × ℝ => tableItgs d t.1 t.2) _ (fun t _ => coreItgs_tableItgs d hne t.1 t.2)]
    rfl
  set P := prfs L A w (tableItgs d p.T q.T) with hP
  have hm : 0 ≤ P.m_opt := Real.sqrt_nonneg _
  have x0 : 0 < 1 / (1 + P.m_opt) := by positivity
  have x1 : 1 / (1 + P.m_opt) ≤ 1 := by rw [div_le_one (by positivity)]; linarith
  obtain ⟨ps, g, ps', g', o, o', hb, hb', ho, ho', -, h1, h3⟩ := C152_better d hd hpos c s hc (by nlinarith) k hk p q hp hq h0 hlt h2 L A hL hA w (1 / (1 + P.m_opt))
  have hg : g = ⟨.table d, [p.T], [q.T], L, A, some [P]⟩ := by
    rw [build_ok hcomp] at hb
    injection hb with _ hb
    exact hb.symm
  have eo : o = simulate1 P (1 / (1 + P.m_opt)) := by
    rw [hg] at ho
    have := simulate_value [P] (1 / (1 + P.m_opt))
    change simulate (some [P]) _ = _ at ho
    rw [this] at ho
    simp at ho
    simpa using ho.symm
  have hd' : Rising (changed c s k d) := by
    unfold Rising changed; rw [List.pairwise_map]; exact hd
  obtain ⟨ps2, g2, hb2, b', o2, hy2, ho2, hle, _⟩ := C51_table (changed c s k d) hd' (by
    intro r hr
    simp only [changed, List.mem_map] at hr
    obtain ⟨r, hr, rfl⟩ := hr
    obtain ⟨a1, a2, a3⟩ := hpos r hr
    exact ⟨mul_pos (by linarith) a1, mul_pos (by linarith) a2, (hk r hr).1⟩)
    ⟨p.T, c * p.C, s * p.S, k p⟩ ⟨q.T, c * q.C, s * q.S, k q⟩ (List.mem_map.mpr ⟨p, hp, rfl⟩) (List.mem_map.mpr ⟨q, hq, rfl⟩) hlt h2 L A hL hA w y hy (1 / (1 + P.m_opt))
  simp only at hb2
  rw [hb'] at hb2
  injection hb2 with _ hg2
  subst hg2
  rw [ho'] at ho2
  injection ho2 with ho2
  injection ho2 with ho2
  subst ho2
  obtain ⟨l1, l2⟩ := h1 x0.le x1
  refine ⟨ps, g, ps', g', o, b', hb, hb', ?_, hy2, l1.trans (hle l2), ?_⟩
  · rw [hg, eo]
    exact simulate_yita [P] y hy
  · intro hgt
    have hlt1 : 1 / (1 + P.m_opt) < 1 := by
      rw [div_lt_one (by positivity)]
      linarith [m_opt_ge d hd hpos p q hp hq hlt h2 L A w]
    exact (h3 x0 hlt1 hgt).trans_le (hle l2)

/-! ## Non-vacuity -/

/-- a table of three rows; conductivity up by 20 %, Seebeck coefficient by 10 %, thermal conductivity halved at 400 K -/
example : ∃ d : List TEPoint, d = [⟨300, 1500, 120, 2⟩, ⟨400, 1200, 150, 3 / 2⟩, ⟨550, 800, 130, 5 / 2⟩] ∧ Rising d ∧
    (∀ r ∈ d, 0 < r.C ∧ 0 < r.S ∧ 0 < r.K) ∧ (1 : ℝ) ≤ 6 / 5 ∧ (1 : ℝ) ≤ 11 / 10 ∧
    ∀ r ∈ d, 0 < (if r.T = 400 then r.K / 2 else r.K) ∧ (if r.T = 400 then r.K / 2 else r.K) ≤ r.K := by
  refine ⟨_, rfl, by unfold Rising; norm_num, ?_, by norm_num, by norm_num, ?_⟩
  · simp only [List.mem_cons, List.not_mem_nil, or_false]
    rintro r (rfl | rfl | rfl) <;> norm_num
  · simp only [List.mem_cons, List.not_mem_nil, or_false]
    rintro r (rfl | rfl | rfl) <;> norm_num

/-- the hypothesis of `C152_rows`, with rows on both sides -/
example : Rising ([⟨200, 1, 1, 1⟩] ++ ⟨300, 2, 3, 4⟩ :: ([⟨400, 1, 2, 1⟩] ++ (⟨500, 1, 1, 1⟩ : TEPoint) :: [⟨600, 7, 7, 7⟩])) := by
  unfold Rising; norm_num

end TEflow.Engout
