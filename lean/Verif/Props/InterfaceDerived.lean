import Mathlib.Analysis.Real.Sqrt
import Mathlib.Algebra.BigOperators.Intervals
import Mathlib.Data.Rat.Floor
import Mathlib.Tactic
import Verif.Props.InterfaceNum

/-! # C65, C66: derived columns of `tef-format`, `tef-interp` -/

set_option linter.unusedSimpArgs false

namespace TEflow.Interface
open TEflow.Loader (strip splitOnChar)
open TEflow.Engout (cumtrapz cumtrapzGo)

/-! ## C65 -/

/-- the input units of a row in SI units: C in S/cm, S in µV/K -/
noncomputable def siC (r : FRow) : ℝ := 100 * r.C
noncomputable def siS (r : FRow) : ℝ := r.S / 1000000

/-- **C65** In SI units: PF (µW/cm/K²) is `S²σ`, ZT is `S²σT/κ`, Ke is `LσT` (L in 10⁻⁸ WΩ/K²). -/
theorem C65_definitions (r : FRow) (L : ℝ) :
    fPF r / 10000 = siS r ^ 2 * siC r ∧ fZT r = siS r ^ 2 * siC r * r.T / r.K ∧
    fKe L r.C r.T = (L / 100000000) * siC r * r.T := by
  refine ⟨?_, ?_, ?_⟩ <;> simp only [fPF, fZT, fKe, siS, siC] <;> ring

/-- the reduced efficiency of a material at a relative current density `u` (SI units: Seebeck coefficient `a`, conductivity
`c`, thermal conductivity `k`) -/
noncomputable def reducedEfficiency (a c k T u : ℝ) : ℝ := u * (a - u * k / c) / (u * a + 1 / T)

/-- **C65** CF is the relative current density at which the reduced efficiency is largest (the compatibility factor), among
all `u` for which `u a + 1/T > 0`; the largest value is `(√(1+ZT) − 1)/(√(1+ZT) + 1)`. -/
theorem C65_compatibility (r : FRow) (hT : 0 < r.T) (hC : 0 < r.C) (hK : 0 < r.K) (hS : r.S ≠ 0) :
    reducedEfficiency (siS r) (siC r) r.K r.T (fCF r) = (Real.sqrt (1 + fZT r) - 1) / (Real.sqrt (1 + fZT r) + 1) ∧
    0 < fCF r * siS r + 1 / r.T ∧
    ∀ u, 0 < u * siS r + 1 / r.T →
      reducedEfficiency (siS r) (siC r) r.K r.T u ≤ reducedEfficiency (siS r) (siC r) r.K r.T (fCF r) := by
  have ha : siS r ≠ 0 := by simp only [siS]; exact div_ne_zero hS (by norm_num)
  have hc : 0 < siC r := by simp only [siC]; linarith
  have hz : fZT r = siS r ^ 2 * siC r * r.T / r.K := (C65_definitions r 0).2.1
  have hcf : fCF r = (Real.sqrt (1 + fZT r) - 1) / (siS r * r.T) := by
    simp only [fCF, siS]
    rw [show r.S / 1000000 * r.T = (r.S * r.T) / 1000000 by ring, div_div_eq_mul_div]
    ring
  have hzpos : 0 < fZT r := by
    rw [hz]
    have : 0 < siS r ^ 2 := by positivity
    positivity
  set m := Real.sqrt (1 + fZT r) with hm
  have hm2 : m ^ 2 = 1 + fZT r := Real.sq_sqrt (by linarith)
  have hm1 : 1 < m := by
    rw [hm]
    exact Real.lt_sqrt_of_sq_lt (by linarith)
  -- the reduced efficiency in terms of `v = u a T`
  have key : ∀ u, 0 < u * siS r + 1 / r.T → reducedEfficiency (siS r) (siC r) r.K r.T u =
      (u * siS r * r.T - (u * siS r * r.T) ^ 2 / (m ^ 2 - 1)) / (u * siS r * r.T + 1) := by
    intro u hu
    have e1 : m ^ 2 - 1 = siS r ^ 2 * siC r * r.T / r.K := by rw [hm2, hz]; ring
    have h1 : u * siS r * r.T + 1 ≠ 0 := by
      have : 0 < (u * siS r + 1 / r.T) * r.T := mul_pos hu hT
      have e : (u * siS r + 1 / r.T) * r.T = u * siS r * r.T + 1 := by field_simp
      linarith
    rw [e1]
    unfold reducedEfficiency
    have h2 : u * siS r + 1 / r.T = (u * siS r * r.T + 1) / r.T := by field_simp
    rw [h2]
    field_simp
  have hv : fCF r * siS r * r.T = m - 1 := by rw [hcf]; field_simp
  have hpos : 0 < fCF r * siS r + 1 / r.T := by
    have e : fCF r * siS r + 1 / r.T = m / r.T := by
      field_simp
      rw [hv]; ring
    rw [e]; positivity
  have hval : reducedEfficiency (siS r) (siC r) r.K r.T (fCF r) = (m - 1) / (m + 1) := by
    rw [key _ hpos, hv]
    have h3 : m ^ 2 - 1 = (m - 1) * (m + 1) := by ring
    have h4 : m - 1 ≠ 0 := by linarith
    rw [h3, div_eq_div_iff (by linarith) (by linarith)]
    field_simp
    ring
  refine ⟨hval, hpos, fun u hu => ?_⟩
  rw [hval, key u hu]
  have h1 : 0 < u * siS r * r.T + 1 := by
    have : 0 < (u * siS r + 1 / r.T) * r.T := mul_pos hu hT
    have e : (u * siS r + 1 / r.T) * r.T = u * siS r * r.T + 1 := by field_simp
    linarith
  generalize u * siS r * r.T = v at h1 ⊢
  rw [div_le_div_iff₀ h1 (by linarith)]
  have h3 : m ^ 2 - 1 = (m - 1) * (m + 1) := by ring
  have h5 : (v - v ^ 2 / (m ^ 2 - 1)) * (m + 1) = v * (m + 1) - v ^ 2 / (m - 1) := by
    rw [h3]
    have : m - 1 ≠ 0 := by linarith
    have : m + 1 ≠ 0 := by linarith
    field_simp
  rw [h5]
  have h6 : (m - 1) * (v + 1) - (v * (m + 1) - v ^ 2 / (m - 1)) = (v - (m - 1)) ^ 2 / (m - 1) := by
    have : m - 1 ≠ 0 := by linarith
    field_simp
    ring
  have : 0 ≤ (v - (m - 1)) ^ 2 / (m - 1) := div_nonneg (sq_nonneg _) (by linarith)
  linarith

/-- the trapezoid sum of a column over the temperatures up to row `j` -/
noncomputable def trapSum (rows : List FRow) (f : FRow → ℝ) (j : Nat) : ℝ :=
  ∑ i ∈ Finset.range j, match rows[i]?, rows[i + 1]? with
    | some a, some b => (b.T - a.T) * (f a + f b) / 2
    | _, _ => 0

theorem trapSum_cons (r : FRow) (rows : List FRow) (f : FRow → ℝ) (j : Nat) :
    trapSum (r :: rows) f (j + 1) = (match rows[0]? with | some b => (b.T - r.T) * (f r + f b) / 2 | none => 0) +
      trapSum rows f j := by
  unfold trapSum
  rw [Finset.sum_range_succ', add_comm]
  congr 1
  cases rows <;> rfl

theorem cumtrapzGo_trap (f : FRow → ℝ) (rows : List FRow) : ∀ (acc : ℝ) (r : FRow) (j : Nat) (b : FRow), rows[j]? = some b →
    (cumtrapzGo acc (r.T, f r) (rows.map fun r => (r.T, f r)))[j]? = some (b.T, acc + trapSum (r :: rows) f (j + 1)) := by
  induction rows with
  | nil => intro acc r j b h; simp at h
  | cons q rows ih =>
    intro acc r j b h
    have e : acc + (q.T - r.T) * (f r + f q) / 2 = acc + (q.T - r.T) * (f r + f q) / 2 := rfl
    cases j with
    | zero =>
      simp only [List.getElem?_cons_zero, Option.some.injEq] at h
      subst h
      simp only [List.map_cons, cumtrapzGo, List.getElem?_cons_zero, trapSum, Finset.sum_range_one, zero_add,
        List.getElem?_cons_succ]
      congr 2 <;> ring
    | succ j =>
      simp only [List.getElem?_cons_succ] at h
      simp only [List.map_cons, cumtrapzGo, List.getElem?_cons_succ, ih _ q j b h]
      rw [trapSum_cons r (q :: rows)]
      simp only [List.getElem?_cons_zero]
      congr 2
      ring

theorem cumtrapz_trap (f : FRow → ℝ) (rows : List FRow) (j : Nat) (b : FRow) (h : rows[j]? = some b) :
    ((cumtrapz (rows.map fun r => (r.T, f r))).map (·.2))[j]? = some (trapSum rows f j) := by
  cases rows with
  | nil => simp at h
  | cons r rows =>
    cases j with
    | zero => simp [cumtrapz, trapSum]
    | succ j =>
      simp only [List.getElem?_cons_succ] at h
      simp only [List.map_cons, cumtrapz, List.getElem?_cons_succ, List.getElem?_map, cumtrapzGo_trap f rows 0 r j b h,
        Option.map_some, zero_add]

/-- **C65** ZTave in row `j`: the device figure of merit `(∫S)²·T̄/(∫ρ·∫κ)` between the first temperature and this one
(trapezoid sums), where the thermal integral exceeds 10⁻³, and ZT of the row where it does not (so always in the first row). -/
theorem C65_ZTave (rows : List FRow) (r0 : FRow) (h0 : rows[0]? = some r0) (j : Nat) (r : FRow) (h : rows[j]? = some r) :
    (fZTave rows)[j]? = some (if |trapSum rows (·.K) j| > 1 / 1000 then
        1 / 1000000 * trapSum rows (·.S) j ^ 2 * ((r0.T + r.T) / 2) /
          (trapSum rows (fun r => 10000 / r.C) j * trapSum rows (·.K) j)
      else fZT r) ∧
    (j = 0 → (fZTave rows)[j]? = some (fZT r)) := by
  have key : (fZTave rows)[j]? = some (if |trapSum rows (·.K) j| > 1 / 1000 then
        1 / 1000000 * trapSum rows (·.S) j ^ 2 * ((r0.T + r.T) / 2) /
          (trapSum rows (fun r => 10000 / r.C) j * trapSum rows (·.K) j)
      else fZT r) := by
    unfold fZTave
    simp only
    rw [List.getElem?_zipWith, h, (List.getElem?_zip_eq_some (z := (trapSum rows (fun r => 10000 / r.C) j,
      trapSum rows (·.S) j, trapSum rows (·.K) j))).2 ⟨cumtrapz_trap (fun r => 10000 / r.C) rows j r h,
      (List.getElem?_zip_eq_some (z := (trapSum rows (·.S) j, trapSum rows (·.K) j))).2
        ⟨cumtrapz_trap (·.S) rows j r h, cumtrapz_trap (·.K) rows j r h⟩⟩]
    simp only [fZTave1, one_mul]
    cases rows with
    | nil => simp at h0
    | cons a l =>
      have : a = r0 := by simpa using h0
      subst this
      rfl
  refine ⟨key, fun hj => ?_⟩
  subst hj
  rw [key, if_neg]
  simp only [trapSum, Finset.range_zero, Finset.sum_empty, abs_zero]
  norm_num

theorem trapSum_const (rows : List FRow) (f : FRow → ℝ) (c : ℝ) (hc : ∀ r ∈ rows, f r = c) (r0 : FRow)
    (h0 : rows[0]? = some r0) : ∀ (j : Nat) (r : FRow), rows[j]? = some r → trapSum rows f j = c * (r.T - r0.T) := by
  intro j
  induction j with
  | zero =>
    intro r h
    rw [h0] at h
    cases h
    simp [trapSum]
  | succ j ih =>
    intro r h
    have hlt : j + 1 < rows.length := (List.getElem?_eq_some_iff.1 h).1
    have hj : rows[j]? = some (rows[j]'(by omega)) := List.getElem?_eq_getElem (by omega)
    have := ih _ hj
    have hs : trapSum rows f (j + 1) = trapSum rows f j +
        (match rows[j]?, rows[j + 1]? with | some a, some b => (b.T - a.T) * (f a + f b) / 2 | _, _ => 0) :=
      Finset.sum_range_succ _ _
    rw [hs, this, hj, h]
    simp only
    rw [hc _ (List.getElem_mem _), hc r (List.mem_of_getElem? h)]
    ring

/-- **C65** With constant properties ZTave is ZT at the mean temperature. -/
theorem C65_ZTave_constant (rows : List FRow) (C S K : ℝ) (hC : 0 < C) (hK : 0 < K)
    (hc : ∀ r ∈ rows, r.C = C ∧ r.S = S ∧ r.K = K) (r0 : FRow) (h0 : rows[0]? = some r0) (j : Nat) (r : FRow)
    (h : rows[j]? = some r) (hT : K * (r.T - r0.T) > 1 / 1000) :
    (fZTave rows)[j]? = some (fZT ⟨(r0.T + r.T) / 2, C, S, K⟩) := by
  rw [(C65_ZTave rows r0 h0 j r h).1,
    trapSum_const rows (·.K) K (fun r hr => (hc r hr).2.2) r0 h0 j r h,
    trapSum_const rows (·.S) S (fun r hr => (hc r hr).2.1) r0 h0 j r h,
    trapSum_const rows (fun r => 10000 / r.C) (10000 / C) (fun r hr => by simp only [(hc r hr).1]) r0 h0 j r h,
    if_pos (lt_of_lt_of_le hT (le_abs_self _))]
  have hd : r.T - r0.T ≠ 0 := by
    intro e
    rw [e] at hT
    norm_num at hT
  congr 1
  simp only [fZT, fPF]
  field_simp

example : (fZTave [⟨300, 1000, 200, 2⟩, ⟨400, 1000, 200, 2⟩])[1]? = some (fZT ⟨350, 1000, 200, 2⟩) := by
  have := C65_ZTave_constant [⟨300, 1000, 200, 2⟩, ⟨400, 1000, 200, 2⟩] 1000 200 2 (by norm_num) (by norm_num)
    (by simp) _ rfl 1 _ rfl (by norm_num)
  rw [this]
  norm_num

example : fZT ⟨350, 1000, 200, 2⟩ = 7 / 10 := by norm_num [fZT, fPF]

/-- **C65** The columns C, S, K are the data at hand, each interpolated with its own method; the others are reported as
missing, and an interpolation error ends the command. -/
theorem C65_columns {τ β : Type} (fetch : String → Option τ) (interp : List Char → τ → Except PyErr β)
    (pm : List (String × List Char)) (out : PyDict String β) (miss : List String)
    (h : formatCSK fetch interp pm = .ok (out, miss)) :
    miss = (pm.map (·.1)).filter (fun p => (fetch p).isNone) ∧
    out.map (·.1) = (pm.map (·.1)).filter (fun p => (fetch p).isSome) ∧
    ∀ p v, (p, v) ∈ out → ∃ m d, (p, m) ∈ pm ∧ fetch p = some d ∧ interp m d = .ok v := by
  induction pm generalizing out miss with
  | nil =>
    simp only [formatCSK, Except.ok.injEq, Prod.mk.injEq] at h
    obtain ⟨rfl, rfl⟩ := h
    simp
  | cons a pm ih =>
    obtain ⟨p, m⟩ := a
    simp only [formatCSK] at h
    cases hf : fetch p with
    | none =>
      simp only [hf] at h
      cases hr : formatCSK fetch interp pm with
      | error e => simp [hr, Except.map] at h
      | ok q =>
        obtain ⟨o, ms⟩ := q
        simp only [hr, Except.map, Except.ok.injEq, Prod.mk.injEq] at h
        obtain ⟨rfl, rfl⟩ := h
        obtain ⟨h1, h2, h3⟩ := ih o ms hr
        refine ⟨by simp [hf, h1], by simp [hf, h2], fun p' v hv => ?_⟩
        obtain ⟨m', d, a1, a2⟩ := h3 p' v hv
        exact ⟨m', d, List.mem_cons_of_mem _ a1, a2⟩
    | some d =>
      simp only [hf] at h
      cases hi : interp m d with
      | error e => simp [hi] at h
      | ok w =>
        simp only [hi] at h
        cases hr : formatCSK fetch interp pm with
        | error e => simp [hr, Except.map] at h
        | ok q =>
          obtain ⟨o, ms⟩ := q
          simp only [hr, Except.map, Except.ok.injEq, Prod.mk.injEq] at h
          obtain ⟨rfl, rfl⟩ := h
          obtain ⟨h1, h2, h3⟩ := ih o ms hr
          refine ⟨by simp [hf, h1], by simp [hf, h2], fun p' v hv => ?_⟩
          rw [List.mem_cons] at hv
          rcases hv with hv | hv
          · cases hv
            exact ⟨m, d, by simp, hf, hi⟩
          · obtain ⟨m', d', a1, a2⟩ := h3 p' v hv
            exact ⟨m', d', List.mem_cons_of_mem _ a1, a2⟩

/-- **C65** With an input column L the Lorenz number written is *not* the interpolated L data: it is the interpolated
thermal conductivity (with the method of S), whatever the L data are. -/
theorem C65_L_ignored {τ β : Type} (fetch fetch' : String → Option τ) (interp : List Char → τ → Except PyErr β)
    (methods : List (List Char)) (hK : fetch' "K" = fetch "K") :
    lorenzData fetch interp methods = lorenzData fetch' interp methods ∧
    (∀ d, fetch "K" = some d → lorenzData fetch interp methods = interp (methods.getD 1 []) d) := by
  refine ⟨by simp only [lorenzData, hK], fun d hd => by simp only [lorenzData, hd]⟩

theorem C65_L_wrong : ∃ (fetch : String → Option ℚ) (methods : List (List Char)),
    fetch "L" = some 2 ∧ lorenzData fetch (fun _ d => .ok d) methods = .ok 3 :=
  ⟨fun s => if s = "L" then some 2 else if s = "K" then some 3 else none, [], by decide +kernel, by decide +kernel⟩

/-! ## C66 -/

section C66
variable {K : Type} [Field K] [LinearOrder K] [IsStrictOrderedRing K] [FloorRing K]

omit [IsStrictOrderedRing K] in
/-- **C66** An existing output file supplies the sampling points; the options play no role then. -/
theorem C66_existing (float : List Char → Except PyErr K) (r : Except PyErr (List K)) (range : List Char) (n : Int) (a b : K) :
    samplePoints float (some r) range n a b = r := rfl

theorem join_colon_split (a b c : List Char) (ha : ':' ∉ a) (hb : ':' ∉ b) (hc : ':' ∉ c) :
    splitOnChar ':' (a ++ ':' :: b ++ ':' :: c) = [a, b, c] := by
  have key : ∀ (l r : List Char), ':' ∉ l → splitOnChar ':' (l ++ ':' :: r) = l :: splitOnChar ':' r := by
    intro l r hl
    induction l with
    | nil => simp [splitOnChar]
    | cons x l ih =>
      simp only [List.mem_cons, not_or] at hl
      simp only [List.cons_append, splitOnChar]
      rw [if_neg (fun e => hl.1 e.symm), ih hl.2]
  have last : ∀ l : List Char, ':' ∉ l → splitOnChar ':' l = [l] := by
    intro l hl
    induction l with
    | nil => simp [splitOnChar]
    | cons x l ih =>
      simp only [List.mem_cons, not_or] at hl
      simp only [splitOnChar]
      rw [if_neg (fun e => hl.1 e.symm), ih hl.2]
  rw [List.append_assoc, List.cons_append, key a _ ha, key b c hb, last c hc]

/-- **C66** The range option `start:step:stop` with a positive step gives `start, start + step, …`: exactly the points
`start + i·step` below `stop + step/1000`; so `stop` itself is the last one if it is a whole number of steps away. -/
theorem C66_range (float : List Char → Except PyErr K) (range ta tb tc : List Char) (start step stop : K)
    (ha : ':' ∉ ta) (hb : ':' ∉ tb) (hc : ':' ∉ tc) (hr : strip range = ta ++ ':' :: tb ++ ':' :: tc)
    (h1 : float ta = .ok start) (h2 : float tb = .ok step) (h3 : float tc = .ok stop) (hs : 0 < step)
    (n : Int) (a b : K) :
    ∃ m : Nat, samplePoints float none range n a b = .ok ((List.range m).map fun i : Nat => start + (i : K) * step) ∧
      (∀ i : Nat, i < m ↔ start + (i : K) * step < stop + step / 1000) ∧
      (∀ k : Nat, stop = start + (k : K) * step → m = k + 1) := by
  have hne : range ≠ [] := by
    rintro rfl
    have : (ta ++ ':' :: tb ++ ':' :: tc) = [] := by rw [← hr]; rfl
    simp at this
  have hm : ∀ i : Nat, i < ⌈(stop + 1 / 1000 * step - start) / step⌉.toNat ↔ start + (i : K) * step < stop + step / 1000 := by
    intro i
    rw [Int.lt_toNat, Int.lt_ceil, lt_div_iff₀ hs]
    constructor <;> intro h <;> push_cast at * <;> linarith
  refine ⟨⌈(stop + 1 / 1000 * step - start) / step⌉.toNat, ?_, hm, fun k hk => ?_⟩
  · simp only [samplePoints, hr, join_colon_split ta tb tc ha hb hc]
    rw [if_pos hne]
    simp only [h1, h2, h3, bind, Except.bind, arange, if_neg hs.ne']
  · have a1 := (hm k).2 (by rw [hk]; linarith)
    have a2 : ¬ (k + 1 < ⌈(stop + 1 / 1000 * step - start) / step⌉.toNat) := by
      rw [hm (k + 1), hk]
      push_cast
      linarith
    omega

omit [IsStrictOrderedRing K] in
/-- **C66** Any other number of `:`-separated items is a `ValueError`. -/
theorem C66_range_items (float : List Char → Except PyErr K) (range : List Char) (n : Int) (a b : K) (hne : range ≠ [])
    (h : (splitOnChar ':' (strip range)).length ≠ 3) : samplePoints float none range n a b = .error .valueError := by
  simp only [samplePoints, if_pos hne]
  split
  · rename_i e; rw [e] at h; simp at h
  · rfl

/-- **C66** Without the range option: `npoints ≥ 2` equally spaced points from the first to the last abscissa. -/
theorem C66_npoints (float : List Char → Except PyErr K) (n : Nat) (a b : K) :
    ∃ pts, samplePoints float none [] ((n : Int) + 2) a b = .ok pts ∧ pts.length = n + 2 ∧ pts[0]? = some a ∧
      pts[n + 1]? = some b ∧
      ∀ (i : Nat) (u v w : K), pts[i]? = some u → pts[i + 1]? = some v → pts[i + 2]? = some w → w - v = v - u := by
  have h0 : ((n : Int) + 2).toNat = n + 2 := by omega
  have hn : ((n : K) + 1) ≠ 0 := by positivity
  refine ⟨(List.range (n + 2)).map fun i : Nat => a + (i : K) * ((b - a) / ((n : K) + 1)), ?_, by simp, ?_, ?_, ?_⟩
  · simp only [samplePoints, ne_eq, not_true_eq_false, if_false, linspace]
    rw [if_neg (by omega), if_neg (by omega), h0]
    congr 1
    refine List.map_congr_left fun i _ => ?_
    congr 3
    push_cast
    ring
  · simp
  · rw [List.getElem?_map, List.getElem?_range (by omega)]
    simp only [Option.map_some, Option.some.injEq]
    push_cast
    field_simp
    ring
  · intro i u v w hu hv hw
    have hlt : i + 2 < n + 2 := by simpa using (List.getElem?_eq_some_iff.1 hw).1
    rw [List.getElem?_map, List.getElem?_range (by omega)] at hu hv hw
    simp only [Option.map_some, Option.some.injEq] at hu hv hw
    subst hu hv hw
    push_cast
    ring

/-- the documented interpolation methods: five names, and polynomials of degree 1 to 9 -/
def Documented (m : List Char) : Prop :=
  m ∈ ["linear".toList, "line".toList, "cubic".toList, "pchip".toList, "Akima".toList] ∨
    ∃ d, 1 ≤ d ∧ d ≤ 9 ∧ m = "poly".toList ++ [Nat.digitChar d]

theorem documented_iff (m : List Char) : m ∈ interpMethods ↔ Documented m := by
  constructor
  · intro h
    have key : ∀ m ∈ interpMethods, m ∈ ["linear".toList, "line".toList, "cubic".toList, "pchip".toList, "Akima".toList] ∨
        ∃ d ∈ [1, 2, 3, 4, 5, 6, 7, 8, 9], m = "poly".toList ++ [Nat.digitChar d] := by decide +kernel
    rcases key m h with h | ⟨d, hd, e⟩
    · exact .inl h
    · refine .inr ⟨d, ?_, ?_, e⟩ <;> (simp only [List.mem_cons, List.not_mem_nil, or_false] at hd; omega)
  · rintro (h | ⟨d, h1, h2, rfl⟩)
    · have key : ∀ m ∈ ["linear".toList, "line".toList, "cubic".toList, "pchip".toList, "Akima".toList], m ∈ interpMethods := by decide +kernel
      exact key m h
    · have key : ∀ d ∈ [1, 2, 3, 4, 5, 6, 7, 8, 9], "poly".toList ++ [Nat.digitChar d] ∈ interpMethods := by decide +kernel
      exact key d (by simp only [List.mem_cons, List.not_mem_nil, or_false]; omega)

/-- **C66** Interpolation: an unknown method is a `ValueError`; the linear methods never finish without a numeric
`--extrapolate`; all other cases write the sampling points followed by the interpolated columns (without the points with
`--bare`). -/
theorem C66_interp (float : List Char → Except PyErr K)
    (vinterp : List Char → Option K → List K → Except PyErr (List (List K)))
    (method ext : List Char) (bare : Bool) (x2 : List K) :
    (¬ Documented method → interpColumns float vinterp method ext bare x2 = .error .valueError) ∧
    (method = "linear".toList ∨ method = "line".toList →
      (ext = [] → ∀ out, interpColumns float vinterp method ext bare x2 ≠ .ok out) ∧
      (ext = [] → ∀ d, vinterp method none x2 = .ok d → interpColumns float vinterp method ext bare x2 = .error .typeError) ∧
      (∀ v d, ext ≠ [] → float ext = .ok v → vinterp method (some v) x2 = .ok d →
        interpColumns float vinterp method ext bare x2 = .ok (if bare then d else x2 :: d))) ∧
    (Documented method → method ≠ "linear".toList → method ≠ "line".toList → ∀ d, vinterp method none x2 = .ok d →
      interpColumns float vinterp method ext bare x2 = .ok (if bare then d else x2 :: d)) := by
  rw [← documented_iff]
  refine ⟨fun h => by simp only [interpColumns, if_pos h], fun hl => ?_, fun hm h1 h2 d hd => ?_⟩
  · have hmem : ¬ method ∉ interpMethods := by
      rcases hl with rfl | rfl <;> decide
    have e : interpColumns float vinterp method ext bare x2 = (do
        let value ← if ext ≠ [] then (float ext).map some else pure none
        let datas ← vinterp method value x2
        match value with
        | none => .error .typeError
        | some _ => pure (if bare then datas else x2 :: datas)) := by
      simp only [interpColumns, if_neg hmem, if_pos hl, bind, Except.bind, pure, Except.pure]
      generalize (if ext ≠ [] then (float ext).map some else Except.ok none : Except PyErr (Option K)) = q
      cases q with
      | error => rfl
      | ok v =>
        cases vinterp method v x2 with
        | error => rfl
        | ok d => cases v <;> rfl
    refine ⟨fun hx out => ?_, fun hx d hd => ?_, fun v d hx hf hd => ?_⟩
    · rw [e]
      simp only [hx, ne_eq, not_true_eq_false, if_false, pure, Except.pure, bind, Except.bind]
      cases vinterp method none x2 <;> simp
    · rw [e]
      simp only [hx, ne_eq, not_true_eq_false, if_false, pure, Except.pure, bind, Except.bind, hd]
    · rw [e]
      simp only [hx, ne_eq, not_false_eq_true, if_true, hf, Except.map, pure, Except.pure, bind, Except.bind, hd]
  · have hl : ¬ (method = "linear".toList ∨ method = "line".toList) := by
      rintro (h | h)
      · exact h1 h
      · exact h2 h
    simp only [interpColumns, if_neg (not_not.2 hm), if_neg hl, bind, Except.bind, pure, Except.pure, hd]

end C66

example : samplePoints (K := ℚ) (fun s => .ok (s.length : ℚ)) none " 1:12:1234567 ".toList 0 0 0 = .ok [1, 3, 5, 7] := by
  decide +kernel
example : samplePoints (K := ℚ) (fun s => .ok (s.length : ℚ)) none [] 5 0 2 = .ok [0, 1/2, 1, 3/2, 2] := by decide +kernel

end TEflow.Interface
