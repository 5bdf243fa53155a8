import Mathlib.Tactic
import Verif.Model.DeviceCli
import Verif.Props.EngoutPair
import Verif.Props.TableFile

/-! # C112, C113: `tef-engout` and `tef-ztdev` from the table read to the table written -/

set_option linter.unusedSimpArgs false
set_option linter.unusedVariables false

namespace TEflow.DeviceCli

open TEflow.Ztdev (TEPoint flipS)
open TEflow.TableFile (vstackT Table columnsOf)
open TEflow.Engout

/-! ## Specification -/

/-- the data of a leg in one row: temperature, conductivity (from the resistivity with `-R`), Seebeck coefficient, thermal conductivity; the
last three in the columns `c, c+1, c+2` -/
noncomputable def legData (resistivity : Bool) (c : Nat) (r : List ℝ) : TEPoint :=
  { T := r.getD 0 0, C := if resistivity then 10000 / r.getD c 0 else r.getD c 0, S := r.getD (c + 1) 0, K := r.getD (c + 2) 0 }

/-- the mean of a column -/
noncomputable def columnMean (j : Nat) (rows : List (List ℝ)) : ℝ := (rows.map fun r => r.getD j 0).sum / rows.length

/-- the same table with the columns of the two legs exchanged -/
def swapLegs : List ℝ → List ℝ
  | t :: c :: s :: k :: c' :: s' :: k' :: x => t :: c' :: s' :: k' :: c :: s :: k :: x
  | r => r

/-- the same table with both Seebeck coefficients negated -/
def negateS : List ℝ → List ℝ
  | t :: c :: s :: k :: c' :: s' :: k' :: x => t :: c :: -s :: k :: c' :: -s' :: k' :: x
  | r => r

/-! ## Lemmas -/

theorem entry_eq (r : List ℝ) (j : Nat) : entry r j = r.getD j 0 := by
  unfold entry; rw [List.getD_eq_getElem?_getD]

theorem vstackT_map {α V : Type} (f : α → V) (fs : List (α → V)) (l : List α) :
    vstackT ((f :: fs).map fun g => l.map g) = .ok (l.map fun t => (f :: fs).map fun g => g t) := by
  rw [List.map_cons, vstackT, if_pos]
  · congr 1
    rw [List.length_map]
    apply List.ext_getElem
    · simp
    intro i h1 h2
    have hi : i < l.length := by simpa using h2
    simp only [List.getElem_map, List.getElem_range]
    rw [← List.map_cons (f := fun g => l.map g)]
    have key : ∀ gs : List (α → V), (gs.map fun g => l.map g).filterMap (fun x => x[i]?) = gs.map fun g => g l[i] := by
      intro gs
      induction gs with
      | nil => rfl
      | cons g gs ih =>
        rw [List.map_cons, List.filterMap_cons, List.getElem?_map, List.getElem?_eq_getElem hi, Option.map_some]
        simp only [ih, List.map_cons]
    exact key _
  · rw [List.all_eq_true]
    intro x hx
    rw [← List.map_cons (f := fun g => l.map g)] at hx
    obtain ⟨g, _, rfl⟩ := List.mem_map.1 hx
    simp

theorem width_table {n : Nat} {rows : List (List ℝ)} (hr : Table n rows) (hne : rows ≠ []) : width rows = n := by
  cases rows with
  | nil => exact absurd rfl hne
  | cons r rows => exact hr r (by simp)

theorem getD_invert (j k : Nat) (r : List ℝ) (hj : j < r.length) : (invert j r).getD k 0 = if j = k then 10000 / r.getD k 0 else r.getD k 0 := by
  unfold invert
  rw [List.getD_eq_getElem?_getD, List.getElem?_set]
  split
  · rename_i h; subst h
    rw [entry_eq]; simp only [hj, if_true, Option.getD_some]
  · rw [List.getD_eq_getElem?_getD]

theorem convert_leg {n : Nat} (hn : 4 ≤ n) (rows : List (List ℝ)) (hr : Table n rows) (R : Bool) :
    (convert R false rows).map (point 1) = rows.map (legData R 1) := by
  unfold convert
  cases R
  · simp only [Bool.false_eq_true, if_false]
    exact List.map_congr_left fun r _ => by simp [point, legData, entry_eq]
  · simp only [if_true, Bool.false_eq_true, if_false, List.map_map]
    apply List.map_congr_left
    intro r hr'
    have := hr r hr'
    simp only [Function.comp, point, legData, entry_eq, getD_invert 1 _ r (by omega)]
    simp

theorem convert_pair {n : Nat} (hn : 7 ≤ n) (rows : List (List ℝ)) (hr : Table n rows) (R : Bool) :
    (convert R true rows).map (point 1) = rows.map (legData R 1) ∧ (convert R true rows).map (point 4) = rows.map (legData R 4) ∧
    mean ((convert R true rows).map fun r => entry r 2) = columnMean 2 rows ∧ mean ((convert R true rows).map fun r => entry r 5) = columnMean 5 rows := by
  unfold convert mean columnMean
  cases R
  · simp only [Bool.false_eq_true, if_false, List.length_map]
    refine ⟨List.map_congr_left fun r _ => by simp [point, legData, entry_eq], List.map_congr_left fun r _ => by simp [point, legData, entry_eq], ?_, ?_⟩ <;>
      simp [entry_eq]
  · simp only [if_true, List.map_map, List.length_map]
    have h1 : ∀ r ∈ rows, ∀ k, (invert 4 (invert 1 r)).getD k 0 = if k = 1 ∨ k = 4 then 10000 / r.getD k 0 else r.getD k 0 := by
      intro r hr' k
      have hl := hr r hr'
      rw [getD_invert 4 _ _ (by unfold invert; rw [List.length_set]; omega), getD_invert 1 _ _ (by omega)]
      by_cases a : k = 4
      · subst a; simp
      · by_cases b : k = 1
        · subst b; simp
        · simp [a, b, Ne.symm a, Ne.symm b]
    refine ⟨List.map_congr_left fun r hr' => ?_, List.map_congr_left fun r hr' => ?_, ?_, ?_⟩
    · simp only [Function.comp, point, legData, entry_eq, h1 r hr']
      simp
    · simp only [Function.comp, point, legData, entry_eq, h1 r hr']
      simp
    · congr 2
      refine List.map_congr_left fun r hr' => ?_
      simp only [Function.comp, entry_eq, h1 r hr']
      simp
    · congr 2
      refine List.map_congr_left fun r hr' => ?_
      simp only [Function.comp, entry_eq, h1 r hr']
      simp

/-- a row written for a single leg -/
noncomputable def legRow (p : TEPoint) (rest : List TEPoint) (L : ℝ) (t : TEPoint) : List ℝ :=
  let q := prfs L 100 false (tableItgs (p :: rest) p.T t.T)
  [p.T, t.T, q.PFeng, q.ZTeng, (simulate1 q (1 / 2)).Pout, (simulate1 q (1 / (1 + q.m_opt))).Yita]

theorem legTable_result (p : TEPoint) (rest : List TEPoint) (L : ℝ) : legTable (legResult p rest L) = .ok (rest.map (legRow p rest L)) :=
  vstackT_map (fun _ : TEPoint => p.T) [fun t => t.T, fun t => (prfs L 100 false (tableItgs (p :: rest) p.T t.T)).PFeng,
    fun t => (prfs L 100 false (tableItgs (p :: rest) p.T t.T)).ZTeng, fun t => (simulate1 (prfs L 100 false (tableItgs (p :: rest) p.T t.T)) (1 / 2)).Pout,
    fun t => (simulate1 (prfs L 100 false (tableItgs (p :: rest) p.T t.T)) (1 / (1 + (prfs L 100 false (tableItgs (p :: rest) p.T t.T)).m_opt))).Yita] rest

/-- a row written for a pair of legs with the integrals `i` and `j` -/
noncomputable def pairRow (L Tc Th : ℝ) (i j : Itgs) : List ℝ :=
  let z := prfs L 100 true (pairItgs i j 1 (ratioZ i j))
  let w := prfs L 100 true (pairItgs i j 1 (ratioP i j))
  [Tc, Th, w.PFeng, z.ZTeng, (simulate1 w (1 / 2)).Pout, (simulate1 z (1 / (1 + z.m_opt))).Yita]

theorem pairTable_result (p : TEPoint) (rest dn : List TEPoint) (L : ℝ) : pairTable (pairResult p rest dn L) =
    .ok (rest.map fun t => pairRow L p.T t.T (tableItgs (p :: rest) p.T t.T) (tableItgs dn p.T t.T)) := by
  let i := fun t : TEPoint => tableItgs (p :: rest) p.T t.T
  let j := fun t : TEPoint => tableItgs dn p.T t.T
  let z := fun t : TEPoint => prfs L 100 true (pairItgs (i t) (j t) 1 (ratioZ (i t) (j t)))
  let w := fun t : TEPoint => prfs L 100 true (pairItgs (i t) (j t) 1 (ratioP (i t) (j t)))
  exact vstackT_map (fun _ : TEPoint => p.T) [fun t => t.T, fun t => (w t).PFeng, fun t => (z t).ZTeng, fun t => (simulate1 (w t) (1 / 2)).Pout,
    fun t => (simulate1 (z t) (1 / (1 + (z t).m_opt))).Yita] rest

theorem legs_eq {n : Nat} (hn : 7 ≤ n) (rows : List (List ℝ)) (hr : Table n rows) (R : Bool) :
    legs (convert R true rows) = if columnMean 2 rows < columnMean 5 rows then (rows.map (legData R 4), rows.map (legData R 1))
      else (rows.map (legData R 1), rows.map (legData R 4)) := by
  obtain ⟨h1, h2, h3, h4⟩ := convert_pair hn rows hr R
  unfold legs
  simp only [h1, h2, h3, h4]

theorem pair_single (p : TEPoint) (dn : List TEPoint) (L : ℝ) : Pair.valuate [p] dn L = .error .indexError := by
  simp [Pair.valuate, Pair.init, bind, Except.bind]

theorem leg_single (p : TEPoint) (L : ℝ) : Leg.valuate [p] L = .error .indexError := by
  simp [Leg.valuate, Leg.init, bind, Except.bind]

/-- the conditions of a `ValueError` -/
def Bad (pair : Bool) (L : ℝ) (n : Nat) : Prop := n < 4 ∨ (pair = true ∧ n < 7) ∨ L ≤ 0 ∨ (pair = false ∧ 4 < n)

theorem engout_bad (pair R : Bool) (L : ℝ) (rows : List (List ℝ)) (h : Bad pair L (width rows)) : engout pair R L rows = .error .valueError := by
  unfold engout
  split_ifs with h1 h2 h3 h4 h5 <;> try rfl
  · rcases h with h | ⟨_, h⟩ | h | ⟨h, _⟩
    · exact absurd h h2
    · exact absurd ⟨h4, h⟩ h1
    · exact absurd h h3
    · rw [h4] at h; cases h
  · rcases h with h | ⟨h, _⟩ | h | ⟨_, h⟩
    · exact absurd h h2
    · exact absurd h h4
    · exact absurd h h3
    · exact absurd (not_not.1 h5) (by omega)

theorem engout_leg (R : Bool) (L : ℝ) (rows : List (List ℝ)) (hr : Table 4 rows) (hne : rows ≠ []) (hL : 0 < L) :
    engout false R L rows = match Leg.valuate (rows.map (legData R 1)) L with
      | .error e => .error e
      | .ok v => legTable v := by
  have hw := width_table hr hne
  unfold engout
  simp only [Bool.false_eq_true, false_and, if_false, hw, lt_irrefl, not_le.2 hL, ne_eq, not_true_eq_false, convert_leg le_rfl rows hr]
  cases Leg.valuate (List.map (legData R 1) rows) L <;> rfl

theorem engout_pair (R : Bool) (L : ℝ) {n : Nat} (hn : 7 ≤ n) (rows : List (List ℝ)) (hr : Table n rows) (hne : rows ≠ []) (hL : 0 < L) :
    engout true R L rows = match Pair.valuate (legs (convert R true rows)).1 (legs (convert R true rows)).2 L with
      | .error e => .error e
      | .ok v => pairTable v := by
  have hw := width_table hr hne
  unfold engout
  simp only [true_and, hw, not_lt.2 hn, not_lt.2 (by omega : 4 ≤ n), not_le.2 hL, if_false, if_true]
  cases Pair.valuate (legs (convert R true rows)).1 (legs (convert R true rows)).2 L <;> rfl

/-! ## C112 -/

/-- **C112** When `tef-engout` fails: too few columns, a length that is not positive, more than four columns for a single leg (`ValueError`), or a
single row (`IndexError`); in no other case. -/
theorem C112_errors (pair R : Bool) (L : ℝ) (n : Nat) (rows : List (List ℝ)) (hne : rows ≠ []) (hr : Table n rows) :
    (n < 4 ∨ (pair = true ∧ n < 7) ∨ L ≤ 0 ∨ (pair = false ∧ 4 < n) → engout pair R L rows = .error .valueError) ∧
    (¬ (n < 4 ∨ (pair = true ∧ n < 7) ∨ L ≤ 0 ∨ (pair = false ∧ 4 < n)) →
      (rows.length = 1 → engout pair R L rows = .error .indexError) ∧ (2 ≤ rows.length → ∃ out, engout pair R L rows = .ok out ∧ out.length = rows.length - 1)) ∧
    engout pair R L [] = .error .valueError := by
  have hw := width_table hr hne
  refine ⟨fun h => engout_bad _ _ _ _ (hw.symm ▸ h), fun h => ?_, engout_bad _ _ _ _ (Or.inl (by simp [width]))⟩
  push Not at h
  obtain ⟨h1, h2, h3, h4⟩ := h
  cases pair with
  | false =>
    have hn : n = 4 := le_antisymm (h4 rfl) h1
    subst hn
    rw [engout_leg R L rows hr hne h3]
    match rows, hne with
    | [r], _ =>
      rw [List.map_cons, List.map_nil, leg_single]
      exact ⟨fun _ => rfl, fun h => by simp at h⟩
    | r :: r' :: rest, _ =>
      rw [List.map_cons, leg_valuate_eq _ _ (by simp)]
      exact ⟨fun h => by simp at h, fun _ => ⟨_, legTable_result _ _ _, by simp⟩⟩
  | true =>
    have hn := h2 rfl
    rw [engout_pair R L hn rows hr hne h3, legs_eq hn rows hr]
    match rows, hne with
    | [r], _ =>
      refine ⟨fun _ => ?_, fun h => by simp at h⟩
      split_ifs <;> simp only [List.map_cons, List.map_nil, pair_single]
    | r :: r' :: rest, _ =>
      refine ⟨fun h => by simp at h, fun _ => ?_⟩
      split_ifs
      all_goals
        simp only [List.map_cons]
        rw [pair_valuate_eq _ _ _ (by simp) (by simp)]
        exact ⟨_, pairTable_result _ _ _ _, by simp⟩

/-- **C112** A single leg: one row for every row of the file but the first, with the temperature of the first row as cold side; the other entries are the
engineering power factor and figure of merit, the power at half the short-circuit current and the efficiency at the best current, between the two
temperatures. -/
theorem C112_leg (R : Bool) (L : ℝ) (hL : 0 < L) (r0 : List ℝ) (rest : List (List ℝ)) (hne : rest ≠ []) (hr : Table 4 (r0 :: rest)) :
    ∃ out, engout false R L (r0 :: rest) = .ok out ∧ out.length = rest.length ∧
      ∀ (j : Nat) (r : List ℝ), rest[j]? = some r → ∃ i, coreItgs (.table ((r0 :: rest).map (legData R 1))) (r0.getD 0 0) (r.getD 0 0) = .ok i ∧
        let q := prfs L 100 false i
        out[j]? = some [r0.getD 0 0, r.getD 0 0, q.PFeng, q.ZTeng, (simulate1 q (1 / 2)).Pout, (simulate1 q (1 / (1 + q.m_opt))).Yita] := by
  rw [engout_leg R L _ hr (by simp) hL, List.map_cons, leg_valuate_eq _ _ (by simpa using hne)]
  refine ⟨_, legTable_result _ _ _, by simp, fun j r hj => ⟨_, coreItgs_tableItgs _ (by simp) _ _, ?_⟩⟩
  simp only [List.getElem?_map, hj, Option.map_some, legRow]
  rfl

/-- **C112** With `-R` the resistivities of the file enter the integrals as they are. -/
theorem C112_resistivity (c : Nat) (rows : List (List ℝ)) (hne : rows ≠ []) (Tc Th : ℝ) :
    ∃ i, coreItgs (.table (rows.map (legData true c))) Tc Th = .ok i ∧ i.Rho = tabItg (rows.map fun r => (r.getD 0 0, r.getD c 0)) Tc Th ∧
      i.RhoT = tabItg (rows.map fun r => (r.getD 0 0, r.getD 0 0 * r.getD c 0)) Tc Th := by
  have key : ∀ x : ℝ, 10000 / (10000 / x) = x := fun x => by
    rw [div_div_eq_mul_div, mul_comm, mul_div_assoc, div_self (by norm_num), mul_one]
  refine ⟨_, coreItgs_tableItgs _ (by simpa using hne) _ _, ?_, ?_⟩ <;>
    simp [tableItgs, col, List.map_map, Function.comp_def, legData, key]

/-- **C112** A pair of legs: the p-type leg is the one with the greater mean Seebeck coefficient (the first one if they are equal); columns behind the seventh
do not matter. -/
theorem C112_pair (R : Bool) (L : ℝ) (hL : 0 < L) (n : Nat) (hn : 7 ≤ n) (r0 : List ℝ) (rest : List (List ℝ)) (hne : rest ≠ []) (hr : Table n (r0 :: rest)) :
    ∃ cp cn, ((cp, cn) = (1, 4) ∧ columnMean 5 (r0 :: rest) ≤ columnMean 2 (r0 :: rest) ∨ (cp, cn) = (4, 1) ∧ columnMean 2 (r0 :: rest) < columnMean 5 (r0 :: rest)) ∧
      ∃ v out, Pair.valuate ((r0 :: rest).map (legData R cp)) ((r0 :: rest).map (legData R cn)) L = .ok v ∧ engout true R L (r0 :: rest) = .ok out ∧
        out.length = rest.length ∧
        ∀ j, j < rest.length → ∃ a b c d e f, v.Tc[j]? = some a ∧ v.Th[j]? = some b ∧ v.PFeng[j]? = some c ∧ v.ZTeng[j]? = some d ∧ v.Pout[j]? = some e ∧
          v.Yita[j]? = some f ∧ out[j]? = some [a, b, c, d, e, f] := by
  rw [engout_pair R L hn _ hr (by simp) hL, legs_eq hn _ hr]
  have key : ∀ cp cn : Nat, ∃ v out, Pair.valuate ((r0 :: rest).map (legData R cp)) ((r0 :: rest).map (legData R cn)) L = .ok v ∧
      pairTable v = .ok out ∧ out.length = rest.length ∧
        ∀ j, j < rest.length → ∃ a b c d e f, v.Tc[j]? = some a ∧ v.Th[j]? = some b ∧ v.PFeng[j]? = some c ∧ v.ZTeng[j]? = some d ∧ v.Pout[j]? = some e ∧
          v.Yita[j]? = some f ∧ out[j]? = some [a, b, c, d, e, f] := by
    intro cp cn
    rw [List.map_cons, pair_valuate_eq _ _ _ (by simpa using hne) (by simp)]
    refine ⟨_, _, rfl, pairTable_result _ _ _ _, by simp, fun j hj => ?_⟩
    simp only [pairResult, List.getElem?_map, List.getElem?_eq_getElem hj, Option.map_some, Option.some.injEq]
    exact ⟨_, _, _, _, _, _, rfl, rfl, rfl, rfl, rfl, rfl, rfl⟩
  by_cases h : columnMean 2 (r0 :: rest) < columnMean 5 (r0 :: rest)
  · obtain ⟨v, out, h1, h2, h3⟩ := key 4 1
    exact ⟨4, 1, Or.inr ⟨rfl, h⟩, v, out, h1, by simp only [h, if_true, h1, h2], h3⟩
  · obtain ⟨v, out, h1, h2, h3⟩ := key 1 4
    exact ⟨1, 4, Or.inl ⟨rfl, not_lt.1 h⟩, v, out, h1, by simp only [h, if_false, h1, h2], h3⟩

/-! The roles of the legs do not matter. -/

theorem covers_mem {d : List TEPoint} (hd : Rising d) {r : TEPoint} (hr : r ∈ d) : Covers d r.T := by
  have h := inside_of_mem (col (·.S) d) (col_inc hd _) (r.T, r.S) (List.mem_map.mpr ⟨r, hr, rfl⟩)
  obtain ⟨⟨f, hf, hf'⟩, ⟨l, hl, hl'⟩⟩ := h
  simp only [col, List.head?_map, List.getLast?_map, Option.mem_def, Option.map_eq_some_iff] at hf hl
  obtain ⟨f, hf, rfl⟩ := hf
  obtain ⟨l, hl, rfl⟩ := hl
  exact ⟨⟨f, hf, hf'⟩, ⟨l, hl, hl'⟩⟩

/-- what enters the rows written changes not at all or by the sign of the Seebeck coefficient only -/
theorem prfs_reverse (L : ℝ) (i j : Itgs) (h1 : j.Rho = i.Rho) (h2 : j.RhoT = i.RhoT) (h3 : j.K = i.K) (h4 : j.S = -i.S) (h5 : j.ST = -i.ST) (h6 : j.Tc = i.Tc)
    (h7 : j.deltaT = i.deltaT) (x : ℝ) :
    (prfs L 100 true j).PFeng = (prfs L 100 true i).PFeng ∧ (prfs L 100 true j).ZTeng = (prfs L 100 true i).ZTeng ∧
    (prfs L 100 true j).m_opt = (prfs L 100 true i).m_opt ∧ (simulate1 (prfs L 100 true j) x).Pout = (simulate1 (prfs L 100 true i) x).Pout ∧
    (simulate1 (prfs L 100 true j) x).Yita = (simulate1 (prfs L 100 true i) x).Yita := by
  have e1 : (1 : ℝ) / 1000000 * -i.S * -i.S = 1 / 1000000 * i.S * i.S := by ring
  have e2 : -i.ST / -i.S = i.ST / i.S := neg_div_neg_eq _ _
  simp only [prfs, simulate1, mdfs, h1, h2, h3, h4, h5, h6, h7, e1, e2, and_self]

/-- positive integrals -/
structure Pos (i : Itgs) : Prop where
  R : 0 < i.Rho
  K : 0 < i.K

theorem ratioZ_swap (i j : Itgs) (hi : Pos i) (hj : Pos j) : 0 < ratioZ i j ∧ ratioZ j i = 1 / ratioZ i j := by
  have := hi.R; have := hi.K; have := hj.R; have := hj.K
  unfold ratioZ
  constructor
  · have : 0 < i.Rho / j.Rho * j.K / i.K := by positivity
    have := Real.sqrt_pos.2 this
    linarith
  · rw [one_mul, one_mul, one_div, ← Real.sqrt_inv]
    congr 1
    field_simp

theorem ratioP_swap (i j : Itgs) (hi : Pos i) (hj : Pos j) : 0 < ratioP i j ∧ ratioP j i = 1 / ratioP i j := by
  have := hi.R; have := hj.R
  unfold ratioP
  constructor
  · exact Real.sqrt_pos.2 (by positivity)
  · rw [one_mul, one_mul, one_div, ← Real.sqrt_inv, inv_div]

theorem pairItgs_swap (i j : Itgs) (r : ℝ) (hr : 0 < r) :
    (pairItgs j i 1 (1 / r)).Rho = (pairItgs i j 1 r).Rho ∧ (pairItgs j i 1 (1 / r)).RhoT = (pairItgs i j 1 r).RhoT ∧
    (pairItgs j i 1 (1 / r)).K = (pairItgs i j 1 r).K ∧ (pairItgs j i 1 (1 / r)).S = -(pairItgs i j 1 r).S ∧
    (pairItgs j i 1 (1 / r)).ST = -(pairItgs i j 1 r).ST ∧ (pairItgs j i 1 (1 / r)).Tc = (pairItgs i j 1 r).Tc ∧
    (pairItgs j i 1 (1 / r)).deltaT = (pairItgs i j 1 r).deltaT := by
  have h1 : (1 : ℝ) + r ≠ 0 := by positivity
  have h2 : r + 1 ≠ 0 := by positivity
  simp only [pairItgs]
  refine ⟨?_, ?_, ?_, ?_, ?_, ?_, ?_⟩ <;> field_simp <;> ring

theorem pairRow_swap (L a b : ℝ) (i j : Itgs) (hi : Pos i) (hj : Pos j) : pairRow L a b j i = pairRow L a b i j := by
  obtain ⟨z1, z2⟩ := ratioZ_swap i j hi hj
  obtain ⟨p1, p2⟩ := ratioP_swap i j hi hj
  unfold pairRow
  simp only [z2, p2]
  obtain ⟨a1, a2, a3, a4, a5, a6, a7⟩ := pairItgs_swap i j _ z1
  obtain ⟨b1, b2, b3, b4, b5, b6, b7⟩ := pairItgs_swap i j _ p1
  have hm := (prfs_reverse L _ _ a1 a2 a3 a4 a5 a6 a7 0).2.2.1
  rw [hm, (prfs_reverse L _ _ b1 b2 b3 b4 b5 b6 b7 0).1, (prfs_reverse L _ _ a1 a2 a3 a4 a5 a6 a7 0).2.1,
    (prfs_reverse L _ _ b1 b2 b3 b4 b5 b6 b7 _).2.2.2.1, (prfs_reverse L _ _ a1 a2 a3 a4 a5 a6 a7 _).2.2.2.2]

/-- the integrals with reversed sign of the Seebeck coefficient -/
def flipI (i : Itgs) : Itgs := { i with S := -i.S, ST := -i.ST, Sc := -i.Sc, Sh := -i.Sh }

theorem pairRow_flip (L a b : ℝ) (i j : Itgs) : pairRow L a b (flipI i) (flipI j) = pairRow L a b i j := by
  have hz : ratioZ (flipI i) (flipI j) = ratioZ i j := rfl
  have hp : ratioP (flipI i) (flipI j) = ratioP i j := rfl
  have key : ∀ r : ℝ, (pairItgs (flipI i) (flipI j) 1 r).S = -(pairItgs i j 1 r).S ∧ (pairItgs (flipI i) (flipI j) 1 r).ST = -(pairItgs i j 1 r).ST := by
    intro r
    simp only [pairItgs, flipI]
    constructor <;> ring
  unfold pairRow
  simp only [hz, hp]
  have kz := fun x => prfs_reverse L (pairItgs i j 1 (ratioZ i j)) (pairItgs (flipI i) (flipI j) 1 (ratioZ i j)) rfl rfl rfl (key _).1 (key _).2 rfl rfl x
  have kp := fun x => prfs_reverse L (pairItgs i j 1 (ratioP i j)) (pairItgs (flipI i) (flipI j) 1 (ratioP i j)) rfl rfl rfl (key _).1 (key _).2 rfl rfl x
  rw [(kz 0).2.2.1, (kp 0).1, (kz 0).2.1, (kp _).2.2.2.1, (kz _).2.2.2.2]

/-- the table of a pair, with the legs in columns `c` and `c'` -/
noncomputable def pairOut (R : Bool) (L : ℝ) (c c' : Nat) (r0 : List ℝ) (rest : List (List ℝ)) : List (List ℝ) :=
  rest.map fun r => pairRow L (r0.getD 0 0) (r.getD 0 0) (tableItgs ((r0 :: rest).map (legData R c)) (r0.getD 0 0) (r.getD 0 0))
    (tableItgs ((r0 :: rest).map (legData R c')) (r0.getD 0 0) (r.getD 0 0))

theorem pair_table (R : Bool) (L : ℝ) (c c' : Nat) (r0 : List ℝ) (rest : List (List ℝ)) (hne : rest ≠ []) :
    ∃ v, Pair.valuate ((r0 :: rest).map (legData R c)) ((r0 :: rest).map (legData R c')) L = .ok v ∧ pairTable v = .ok (pairOut R L c c' r0 rest) := by
  rw [List.map_cons, pair_valuate_eq _ _ _ (by simpa using hne) (by simp)]
  refine ⟨_, rfl, ?_⟩
  rw [pairTable_result, List.map_map]
  rfl

/-- the hypotheses: rising temperatures, positive conductivities (or resistivities) and thermal conductivities -/
structure Physical7 (rows : List (List ℝ)) : Prop where
  rising : rows.Pairwise fun r r' => r.getD 0 0 < r'.getD 0 0
  pos : ∀ r ∈ rows, ∀ j ∈ [1, 3, 4, 6], 0 < r.getD j 0

theorem table_pos {rows : List (List ℝ)} {r0 : List ℝ} {rest : List (List ℝ)} (hrows : rows = r0 :: rest) (h : Physical7 rows) (R : Bool) (c : Nat)
    (hc : c = 1 ∨ c = 4) {r : List ℝ} (hr : r ∈ rest) : Pos (tableItgs (rows.map (legData R c)) (r0.getD 0 0) (r.getD 0 0)) := by
  have hd : Rising (rows.map (legData R c)) := by
    rw [Rising, List.pairwise_map]
    exact h.rising
  have hlt : r0.getD 0 0 < r.getD 0 0 := by
    have := h.rising
    rw [hrows, List.pairwise_cons] at this
    exact this.1 r hr
  have m0 : legData R c r0 ∈ rows.map (legData R c) := List.mem_map_of_mem (by rw [hrows]; simp)
  have m1 : legData R c r ∈ rows.map (legData R c) := List.mem_map_of_mem (by rw [hrows]; simp [hr])
  have c0 := covers_mem hd m0
  have c1 := covers_mem hd m1
  have hp : ∀ q ∈ rows.map (legData R c), 0 < q.C ∧ 0 < q.K := by
    intro q hq
    obtain ⟨r, hr, rfl⟩ := List.mem_map.1 hq
    have hc' : c ∈ [1, 3, 4, 6] ∧ c + 2 ∈ [1, 3, 4, 6] := by rcases hc with rfl | rfl <;> decide
    have h1 := h.pos r hr c hc'.1
    have h2 := h.pos r hr (c + 2) hc'.2
    refine ⟨?_, h2⟩
    unfold legData
    simp only
    split
    · positivity
    · exact h1
  exact ⟨tabItg_pos _ hd (fun q => 10000 / q.C) (fun q hq => div_pos (by norm_num) (hp q hq).1) _ _ c0 c1 hlt,
    tabItg_pos _ hd (·.K) (fun q hq => (hp q hq).2) _ _ c0 c1 hlt⟩

theorem pairOut_swap (R : Bool) (L : ℝ) (r0 : List ℝ) (rest : List (List ℝ)) (h : Physical7 (r0 :: rest)) : pairOut R L 4 1 r0 rest = pairOut R L 1 4 r0 rest := by
  unfold pairOut
  apply List.map_congr_left
  intro r hr
  exact pairRow_swap _ _ _ _ _ (table_pos rfl h R 1 (Or.inl rfl) hr) (table_pos rfl h R 4 (Or.inr rfl) hr)

/-- whatever leg is called p-type, the table is the same -/
theorem engout_pairOut (R : Bool) (L : ℝ) (hL : 0 < L) (n : Nat) (hn : 7 ≤ n) (r0 : List ℝ) (rest : List (List ℝ)) (hne : rest ≠ []) (hr : Table n (r0 :: rest))
    (h : Physical7 (r0 :: rest)) : engout true R L (r0 :: rest) = .ok (pairOut R L 1 4 r0 rest) := by
  rw [engout_pair R L hn _ hr (by simp) hL, legs_eq hn _ hr]
  split_ifs
  · obtain ⟨v, h1, h2⟩ := pair_table R L 4 1 r0 rest hne
    simp only [h1, h2, pairOut_swap R L r0 rest h]
  · obtain ⟨v, h1, h2⟩ := pair_table R L 1 4 r0 rest hne
    simp only [h1, h2]

theorem seven (r : List ℝ) (h : 7 ≤ r.length) : ∃ t c s k c' s' k' x, r = t :: c :: s :: k :: c' :: s' :: k' :: x := by
  match r, h with
  | t :: c :: s :: k :: c' :: s' :: k' :: x, _ => exact ⟨t, c, s, k, c', s', k', x, rfl⟩

theorem swapLegs_spec (R : Bool) (r : List ℝ) (h : 7 ≤ r.length) : (swapLegs r).length = r.length ∧ (swapLegs r).getD 0 0 = r.getD 0 0 ∧
    legData R 1 (swapLegs r) = legData R 4 r ∧ legData R 4 (swapLegs r) = legData R 1 r ∧
    ((∀ j ∈ [1, 3, 4, 6], 0 < r.getD j 0) → ∀ j ∈ [1, 3, 4, 6], 0 < (swapLegs r).getD j 0) := by
  obtain ⟨t, c, s, k, c', s', k', x, rfl⟩ := seven r h
  refine ⟨rfl, rfl, rfl, rfl, fun hp => ?_⟩
  simp [swapLegs] at hp ⊢
  tauto

theorem negateS_spec (R : Bool) (r : List ℝ) (h : 7 ≤ r.length) : (negateS r).length = r.length ∧ (negateS r).getD 0 0 = r.getD 0 0 ∧
    legData R 1 (negateS r) = flipS (legData R 1 r) ∧ legData R 4 (negateS r) = flipS (legData R 4 r) ∧
    ((∀ j ∈ [1, 3, 4, 6], 0 < r.getD j 0) → ∀ j ∈ [1, 3, 4, 6], 0 < (negateS r).getD j 0) := by
  obtain ⟨t, c, s, k, c', s', k', x, rfl⟩ := seven r h
  refine ⟨rfl, rfl, rfl, rfl, fun hp => ?_⟩
  simp [negateS] at hp ⊢
  tauto

theorem map_spec {n : Nat} {rows : List (List ℝ)} (hr : Table n rows) (h : Physical7 rows) (f : List ℝ → List ℝ) (h1 : ∀ r ∈ rows, (f r).length = r.length)
    (h2 : ∀ r ∈ rows, (f r).getD 0 0 = r.getD 0 0) (h3 : ∀ r ∈ rows, (∀ j ∈ [1, 3, 4, 6], 0 < r.getD j 0) → ∀ j ∈ [1, 3, 4, 6], 0 < (f r).getD j 0) :
    Table n (rows.map f) ∧ Physical7 (rows.map f) := by
  refine ⟨fun r hr' => ?_, ⟨?_, fun r hr' => ?_⟩⟩
  · obtain ⟨q, hq, rfl⟩ := List.mem_map.1 hr'
    rw [h1 q hq, hr q hq]
  · rw [List.pairwise_map]
    exact h.rising.imp_of_mem fun {a b} ha hb hab => by rw [h2 a ha, h2 b hb]; exact hab
  · obtain ⟨q, hq, rfl⟩ := List.mem_map.1 hr'
    exact h3 q hq (h.pos q hq)

/-- **C112** Exchanging the columns of the two legs, or negating both Seebeck coefficients, does not change the table written (rising
temperatures, positive conductivities). -/
theorem C112_roles (R : Bool) (L : ℝ) (hL : 0 < L) (n : Nat) (hn : 7 ≤ n) (rows : List (List ℝ)) (h2 : 2 ≤ rows.length) (hr : Table n rows) (h : Physical7 rows) :
    engout true R L (rows.map swapLegs) = engout true R L rows ∧ engout true R L (rows.map negateS) = engout true R L rows := by
  have h7 : ∀ r ∈ rows, 7 ≤ r.length := fun r hr' => (hr r hr').symm ▸ hn
  obtain ⟨r0, rest, rfl⟩ : ∃ r0 rest, rows = r0 :: rest := by
    cases rows with
    | nil => simp at h2
    | cons r0 rest => exact ⟨r0, rest, rfl⟩
  have hne : rest ≠ [] := by rintro rfl; simp at h2
  rw [engout_pairOut R L hL n hn r0 rest hne hr h]
  constructor
  · obtain ⟨ht, hp⟩ := map_spec hr h swapLegs (fun r hr' => (swapLegs_spec R r (h7 r hr')).1) (fun r hr' => (swapLegs_spec R r (h7 r hr')).2.1)
      (fun r hr' => (swapLegs_spec R r (h7 r hr')).2.2.2.2)
    rw [List.map_cons] at ht hp ⊢
    rw [engout_pairOut R L hL n hn _ _ (by simpa using hne) ht hp, ← pairOut_swap R L r0 rest h]
    unfold pairOut
    rw [← List.map_cons, List.map_map, List.map_map, List.map_map]
    have e1 : ((r0 :: rest).map (legData R 1 ∘ swapLegs)) = (r0 :: rest).map (legData R 4) :=
      List.map_congr_left fun r hr' => (swapLegs_spec R r (h7 r hr')).2.2.1
    have e4 : ((r0 :: rest).map (legData R 4 ∘ swapLegs)) = (r0 :: rest).map (legData R 1) :=
      List.map_congr_left fun r hr' => (swapLegs_spec R r (h7 r hr')).2.2.2.1
    rw [e1, e4]
    congr 1
    apply List.map_congr_left
    intro r hr'
    simp only [Function.comp, (swapLegs_spec R r (h7 r (by simp [hr']))).2.1, (swapLegs_spec R r0 (h7 r0 (by simp))).2.1]
  · obtain ⟨ht, hp⟩ := map_spec hr h negateS (fun r hr' => (negateS_spec R r (h7 r hr')).1) (fun r hr' => (negateS_spec R r (h7 r hr')).2.1)
      (fun r hr' => (negateS_spec R r (h7 r hr')).2.2.2.2)
    rw [List.map_cons] at ht hp ⊢
    rw [engout_pairOut R L hL n hn _ _ (by simpa using hne) ht hp]
    unfold pairOut
    rw [← List.map_cons, List.map_map, List.map_map, List.map_map]
    have e1 : ((r0 :: rest).map (legData R 1 ∘ negateS)) = ((r0 :: rest).map (legData R 1)).map flipS := by
      rw [List.map_map]
      exact List.map_congr_left fun r hr' => (negateS_spec R r (h7 r hr')).2.2.1
    have e4 : ((r0 :: rest).map (legData R 4 ∘ negateS)) = ((r0 :: rest).map (legData R 4)).map flipS := by
      rw [List.map_map]
      exact List.map_congr_left fun r hr' => (negateS_spec R r (h7 r hr')).2.2.2.1
    rw [e1, e4]
    congr 1
    apply List.map_congr_left
    intro r hr'
    simp only [Function.comp, (negateS_spec R r (h7 r (by simp [hr']))).2.1, (negateS_spec R r0 (h7 r0 (by simp))).2.1, tableItgs_flip]
    exact pairRow_flip _ _ _ _ _

/-- a table that meets the hypotheses -/
example : Table 7 [[300, 1000, 200, 1.5, 900, -180, 1.6], [400, 900, 210, 1.4, 850, -190, 1.5]] ∧
    Physical7 [[300, 1000, 200, 1.5, 900, -180, 1.6], [400, 900, 210, 1.4, 850, -190, 1.5]] ∧
    columnMean 5 [[300, 1000, 200, 1.5, 900, -180, 1.6], [400, 900, 210, 1.4, 850, -190, 1.5]] <
      columnMean 2 [[300, 1000, 200, 1.5, 900, -180, 1.6], [400, 900, 210, 1.4, 850, -190, 1.5]] := by
  refine ⟨by intro r hr; simp at hr; rcases hr with rfl | rfl <;> rfl, ⟨by simp; norm_num, ?_⟩, ?_⟩
  · intro r hr j hj
    simp at hr hj
    rcases hr with rfl | rfl <;> rcases hj with rfl | rfl | rfl | rfl <;> norm_num
  · norm_num [columnMean]

/-! ## C113 -/

theorem vstackT_get {V : Type} (c : List V) (cs : List (List V)) (m : Nat) (h : ∀ x ∈ c :: cs, x.length = m) :
    ∃ out, vstackT (c :: cs) = .ok out ∧ out.length = m ∧ ∀ j, j < m → out[j]? = some ((c :: cs).filterMap fun x => x[j]?) := by
  unfold vstackT
  simp only
  rw [if_pos (by
    rw [List.all_eq_true]
    intro x hx
    simp [h x hx, h c (by simp)])]
  refine ⟨_, rfl, by simp [h c (by simp)], fun j hj => ?_⟩
  rw [List.getElem?_map, List.getElem?_range (by rw [h c (by simp)]; exact hj)]
  rfl

/-- **C113** `tef-ztdev` without `-y`: an empty file is an `IndexError`, fewer than four columns a `ValueError`; otherwise one row per row of the
file: temperature of the first row, temperature, efficiency, device ZT. The first row has efficiency and ZT zero. Columns behind the fourth do not
matter. -/
theorem C113_table (search : Ztdev.Search) (n : Nat) (r0 : List ℝ) (rest : List (List ℝ)) (hr : Table n (r0 :: rest)) :
    ztdev search [] = .error .indexError ∧ (n < 4 → ztdev search (r0 :: rest) = .error .valueError) ∧
    (4 ≤ n → ∀ out, ztdev search (r0 :: rest) = .ok out →
      out.length = rest.length + 1 ∧ (∃ x, out[0]? = some [some x, some x, some 0, some 0]) ∧
      ∃ u ys, Ztdev.optimU search ((r0 :: rest).map (legData false 1)) = .ok (some u) ∧ Ztdev.calYitas u ((r0 :: rest).map (legData false 1)) = .ok ys ∧
        ∀ (j : Nat) (r : List ℝ), (r0 :: rest)[j]? = some r → ∃ y, ys[j]? = some y ∧
          out[j]? = some [some (r0.getD 0 0), some (r.getD 0 0), y, y.map fun y => Ztdev.calZTdev y (r0.getD 0 0) (r.getD 0 0)]) := by
  have hw := width_table hr (by simp)
  refine ⟨by simp [ztdev], fun h => ?_, fun h out ho => ?_⟩
  · unfold ztdev
    rw [if_neg (by simp), if_pos (by rw [hw]; exact h)]
  · unfold ztdev at ho
    rw [if_neg (by simp), if_neg (by rw [hw]; omega)] at ho
    have hpt : (r0 :: rest).map (point 1) = (r0 :: rest).map (legData false 1) :=
      List.map_congr_left fun r _ => by simp [point, legData, entry_eq]
    rw [hpt] at ho
    cases hv : Ztdev.valuate search ((r0 :: rest).map (legData false 1)) true with
    | error e => rw [hv] at ho; cases ho
    | ok v =>
      rw [hv] at ho
      simp only at ho
      rw [List.map_cons] at hv
      obtain ⟨h1, h2, h3, h4, ⟨u, h5, h6⟩, h7⟩ := Ztdev.C47_all search _ _ v hv
      rw [List.length_map] at h2 h3 h4
      obtain ⟨out', ho', hl, hget⟩ := vstackT_get (v.Tc.map some) [v.Th.map some, v.Yita, v.ZTdev] (rest.length + 1) (by
        intro x hx
        simp only [List.mem_cons, List.not_mem_nil, or_false] at hx
        rcases hx with rfl | rfl | rfl | rfl
        · rw [List.length_map, h2, List.length_replicate]
        · rw [List.length_map, h1]; simp
        · exact h3
        · exact h4)
      rw [ho'] at ho
      cases ho
      have main : ∀ (j : Nat) (r : List ℝ), (r0 :: rest)[j]? = some r → ∃ y, v.Yita[j]? = some y ∧
          out[j]? = some [some (r0.getD 0 0), some (r.getD 0 0), y, y.map fun y => Ztdev.calZTdev y (r0.getD 0 0) (r.getD 0 0)] := by
        intro j r hj
        have hlt : j < rest.length + 1 := by
          have := (List.getElem?_eq_some_iff.1 hj).1
          simpa using this
        have hy : v.Yita[j]? = some v.Yita[j] := List.getElem?_eq_getElem (by omega)
        refine ⟨_, hy, ?_⟩
        have hz := h7 j (legData false 1 r) (by rw [← List.map_cons, List.getElem?_map, hj]; rfl)
        have hTh : v.Th[j]? = some (r.getD 0 0) := by
          rw [h1, ← List.map_cons, List.map_map, List.getElem?_map, hj]; rfl
        have hTc : v.Tc[j]? = some (r0.getD 0 0) := by
          rw [h2, List.getElem?_replicate, if_pos hlt]; rfl
        rw [hget j hlt]
        simp only [List.filterMap_cons, List.filterMap_nil, List.getElem?_map, hTc, hTh, hy, hz, Option.map_some]
        rfl
      refine ⟨hl, ?_, u, v.Yita, h5, h6, main⟩
      obtain ⟨y, hy, ho⟩ := main 0 r0 rfl
      refine ⟨r0.getD 0 0, ?_⟩
      rw [ho]
      have hy0 : y = some 0 := by
        unfold Ztdev.calYitas at h6
        simp only at h6
        split at h6
        · cases h6
        · injection h6 with h6
          rw [← h6] at hy
          simpa using hy.symm
      subst hy0
      have : Ztdev.calZTdev 0 (r0.getD 0 0) (r0.getD 0 0) = 0 := by norm_num [Ztdev.calZTdev]
      rw [Option.map_some, this]

/-- **C113** `tef-ztdev -y`: at least three columns (`ValueError` otherwise, also for an empty file); every row gets its own device ZT. -/
theorem C113_yita (n : Nat) (rows : List (List (Option ℝ))) (hne : rows ≠ []) (hr : Table n rows) :
    ztdevYita [] = .error .valueError ∧ (n < 3 → ztdevYita rows = .error .valueError) ∧
    (3 ≤ n → ∃ out, ztdevYita rows = .ok out ∧ out.length = rows.length ∧
      ∀ (j : Nat) (r : List (Option ℝ)), rows[j]? = some r → ∃ c h y, r.take 3 = [c, h, y] ∧
        (∀ c' h' y', c = some c' → h = some h' → y = some y' → out[j]? = some [c, h, y, some (Ztdev.calZTdev y' c' h')]) ∧
        (c = none ∨ h = none ∨ y = none → out[j]? = some [c, h, y, none])) := by
  have hw : width rows = n := by
    cases rows with
    | nil => exact absurd rfl hne
    | cons r rows => exact hr r (by simp)
  refine ⟨by simp [ztdevYita, width], fun h => by unfold ztdevYita; rw [if_pos (by rw [hw]; exact h)], fun h => ?_⟩
  refine ⟨_, by unfold ztdevYita; rw [if_neg (by rw [hw]; omega)], by simp, fun j r hj => ?_⟩
  have hl := hr r (List.mem_of_getElem? hj)
  match r, hl with
  | c :: t :: y :: x, _ =>
    refine ⟨c, t, y, rfl, ?_, ?_⟩
    · rintro c' h' y' rfl rfl rfl
      simp [List.getElem?_map, hj, yitaRow]
    · intro hn
      simp only [List.getElem?_map, hj, Option.map_some, yitaRow]
      rcases hn with rfl | rfl | rfl <;> simp
  | [], hl => simp at hl; omega
  | [_], hl => simp at hl; omega
  | [_, _], hl => simp at hl; omega

/-- **C113** The table written can be fed back with `-y`: the same table is written again. -/
theorem C113_again (search : Ztdev.Search) (n : Nat) (rows : List (List ℝ)) (hne : rows ≠ []) (hr : Table n rows) (out : List (List (Option ℝ)))
    (h : ztdev search rows = .ok out) : ztdevYita out = .ok out ∧ ∀ out', ztdevYita out = .ok out' → ztdevYita out' = .ok out' := by
  obtain ⟨r0, rest, rfl⟩ : ∃ r0 rest, rows = r0 :: rest := by
    cases rows with
    | nil => exact absurd rfl hne
    | cons r0 rest => exact ⟨r0, rest, rfl⟩
  obtain ⟨_, hlow, hok⟩ := C113_table search n r0 rest hr
  have hn : 4 ≤ n := by
    by_contra hc
    rw [hlow (by omega)] at h; cases h
  obtain ⟨h1, _, u, ys, _, _, h2⟩ := hok hn out h
  have hform : ∀ r ∈ out, ∃ a b y, r = [some a, some b, y, y.map fun y => Ztdev.calZTdev y a b] := by
    intro r hr'
    obtain ⟨j, hj, rfl⟩ := List.mem_iff_getElem.1 hr'
    have hj' : j < (r0 :: rest).length := by simpa [h1] using hj
    obtain ⟨y, _, hy⟩ := h2 j _ (List.getElem?_eq_getElem hj')
    rw [List.getElem?_eq_getElem hj] at hy
    injection hy with hy
    exact ⟨_, _, _, hy⟩
  have key : ztdevYita out = .ok out := by
    unfold ztdevYita
    have hw : ¬ width out < 3 := by
      cases out with
      | nil => simp at h1
      | cons r out =>
        obtain ⟨a, b, y, hr'⟩ := hform r (by simp)
        rw [width, hr']; simp
    rw [if_neg hw]
    congr 1
    conv_rhs => rw [← List.map_id out]
    apply List.map_congr_left
    intro r hr'
    obtain ⟨a, b, y, rfl⟩ := hform r hr'
    cases y <;> simp [yitaRow]
  refine ⟨key, fun out' h' => ?_⟩
  rw [key] at h'
  cases h'
  exact key

/-- a file `tef-ztdev` accepts: the search finds any current within its bounds -/
example : ∃ out, ztdev (fun _ lo _ => ⟨true, lo, none⟩) [[300, 1000, 200, 1.5], [400, 900, 210, 1.4]] = .ok out := by
  have h1 : Ztdev.optimU (fun _ lo _ => ⟨true, lo, none⟩) [⟨300, 1000, 200, 1.5⟩, ⟨400, 900, 210, 1.4⟩] = .ok (some (1 / 100)) := by
    unfold Ztdev.optimU Ztdev.bounds
    norm_num
  have h2 : ([[300, 1000, 200, 1.5], [400, 900, 210, 1.4]] : List (List ℝ)).map (point 1) = [⟨300, 1000, 200, 1.5⟩, ⟨400, 900, 210, 1.4⟩] := by
    simp [point, entry]
  unfold ztdev
  rw [if_neg (by simp), if_neg (by simp [width]), h2]
  simp only [Ztdev.valuate, Ztdev.optimYita, h1, if_true, Ztdev.calYitas]
  rw [if_neg (by norm_num)]
  simp only [Ztdev.yitaLoop, List.map_cons, List.map_nil]
  obtain ⟨out, h, _⟩ := vstackT_get (V := Option ℝ) [some 300, some 300]
    [[some 300, some 400], [Option.map (100 * ·) (some 0), Option.map (100 * ·) (Ztdev.yitaAt (200 / 1000000 * 300 + 1 / (1 / 100)) ⟨400, 900, 210, 1.4⟩
      (Ztdev.yitaStep ⟨300, 1000, 200, 1.5⟩ ⟨400, 900, 210, 1.4⟩ (some (1 / (1 / 100)))))], _] 2 (by
    intro x hx
    simp only [List.mem_cons, List.not_mem_nil, or_false] at hx
    rcases hx with rfl | rfl | rfl | rfl
    · rfl
    · rfl
    · rfl
    · exact (by simp : (List.zipWith (fun y (c, h) => Option.map (fun y => Ztdev.calZTdev y c h) y) [Option.map (100 * ·) (some 0), Option.map (100 * ·) (Ztdev.yitaAt (200 / 1000000 * 300 + 1 / (1 / 100)) ⟨400, 900, 210, 1.4⟩
      (Ztdev.yitaStep ⟨300, 1000, 200, 1.5⟩ ⟨400, 900, 210, 1.4⟩ (some (1 / (1 / 100)))))] ([(300 : ℝ), 300].zip [300, 400])).length = 2))
  exact ⟨out, h⟩

end TEflow.DeviceCli
