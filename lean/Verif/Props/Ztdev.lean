import Mathlib.Tactic.Linarith
import Mathlib.Tactic.Ring
import Mathlib.Tactic.FieldSimp
import Mathlib.Tactic.Positivity
import Mathlib.Tactic.NormNum
import Mathlib.Tactic.LinearCombination
import Verif.Model.Ztdev

/-! # C43–C47, C97: device ZT -/

set_option linter.unusedSimpArgs false
set_option linter.unusedVariables false

namespace TEflow.Ztdev

/-! ## C43 -/

/-- textbook efficiency (in %) of a generator with constant properties, figure of merit `z` (already times the mean
temperature), cold and hot side temperature -/
noncomputable def textbookYita (z Tc Th : ℝ) : ℝ :=
  100 * ((Th - Tc) / Th * ((Real.sqrt (1 + z) - 1) / (Real.sqrt (1 + z) + Tc / Th)))

/-- **C43** `cal_ZTdev` inverts the textbook efficiency: it returns `z` outside its guard, and 0 inside. -/
theorem C43_inverts (z Tc Th : ℝ) (hz : 0 ≤ z) (hc : 0 < Tc) (hh : Tc < Th) :
    (1 / 1000 < (Th ^ 2 - Tc ^ 2) / (Real.sqrt (1 + z) * Th + Tc) → calZTdev (textbookYita z Tc Th) Tc Th = z) ∧
    ((Th ^ 2 - Tc ^ 2) / (Real.sqrt (1 + z) * Th + Tc) ≤ 1 / 1000 → calZTdev (textbookYita z Tc Th) Tc Th = 0) := by
  have hT : 0 < Th := hc.trans hh
  have hm : Real.sqrt (1 + z) ^ 2 = 1 + z := Real.sq_sqrt (by linarith)
  have hm0 : 0 ≤ Real.sqrt (1 + z) := Real.sqrt_nonneg _
  unfold calZTdev textbookYita
  generalize Real.sqrt (1 + z) = m at *
  have hd : 0 < m * Th + Tc := by positivity
  have hd' : 0 < m + Tc / Th := by positivity
  have hdd : 0 < Th ^ 2 - Tc ^ 2 := by nlinarith
  have e2 : Th * (1 - 100 * ((Th - Tc) / Th * ((m - 1) / (m + Tc / Th))) / 100) - Tc = (Th ^ 2 - Tc ^ 2) / (m * Th + Tc) := by
    field_simp
    ring
  have e1 : Th - Tc * (1 - 100 * ((Th - Tc) / Th * ((m - 1) / (m + Tc / Th))) / 100) =
      m * ((Th ^ 2 - Tc ^ 2) / (m * Th + Tc)) := by
    field_simp
    ring
  simp only [e1, e2]
  have hpos : 0 < (Th ^ 2 - Tc ^ 2) / (m * Th + Tc) := by positivity
  rw [abs_of_pos hpos]
  constructor
  · intro hg
    rw [if_pos hg, mul_div_assoc, div_self hpos.ne', mul_one, hm]; ring
  · intro hg
    rw [if_neg (not_lt.mpr hg)]; norm_num

/-- the guard is met for z = 3 between 300 K and 600 K -/
example : (1 : ℝ) / 1000 < (600 ^ 2 - 300 ^ 2) / (Real.sqrt (1 + 3) * 600 + 300) := by
  have : Real.sqrt (1 + 3) = 2 := by rw [show (1 + 3 : ℝ) = 2 ^ 2 by norm_num]; exact Real.sqrt_sq (by norm_num)
  rw [this]; norm_num

/-! ## C44 -/

/-- **C44** 0 on the guarded set and at zero efficiency; never negative for efficiencies between 0 and 100 % when
`Tc ≤ Th`. -/
theorem C44_zero_and_nonneg (y Tc Th : ℝ) :
    (|Th * (1 - y / 100) - Tc| ≤ 1 / 1000 → calZTdev y Tc Th = 0) ∧
    calZTdev 0 Tc Th = 0 ∧
    (0 ≤ Tc → Tc ≤ Th → 0 ≤ y → y ≤ 100 → 0 ≤ calZTdev y Tc Th) := by
  refine ⟨?_, ?_, ?_⟩
  · intro h
    unfold calZTdev
    simp only [if_neg (not_lt.mpr h)]; norm_num
  · unfold calZTdev
    simp only [zero_div, sub_zero, mul_one]
    split
    · rename_i h
      have hne : Th - Tc ≠ 0 := by
        intro h0; rw [h0] at h; norm_num at h
      rw [div_self hne]; norm_num
    · norm_num
  · intro hc hh h0 h1
    unfold calZTdev
    simp only
    split
    · rename_i h
      have hne : Th * (1 - y / 100) - Tc ≠ 0 := by
        intro h0; rw [h0] at h; norm_num at h
      rw [div_pow, sub_nonneg, le_div_iff₀ (by positivity)]
      have a : 0 ≤ 1 - y / 100 := by linarith
      have b : 1 - y / 100 ≤ 1 := by linarith
      have : (Th - Tc * (1 - y / 100)) ^ 2 - (Th * (1 - y / 100) - Tc) ^ 2 =
          ((Th - Tc) * (Th + Tc)) * ((y / 100) * (1 + (1 - y / 100))) := by ring
      have : 0 ≤ (Th - Tc * (1 - y / 100)) ^ 2 - (Th * (1 - y / 100) - Tc) ^ 2 := by
        rw [this]
        apply mul_nonneg (mul_nonneg (by linarith) (by linarith)) (mul_nonneg (by linarith) (by linarith))
      linarith
    · norm_num

/-- **C44** Strictly increasing in the efficiency from 0 up to the guard below the Carnot efficiency. -/
theorem C44_increasing (y₁ y₂ Tc Th : ℝ) (hc : 0 < Tc) (hh : Tc < Th) (h0 : 0 ≤ y₁) (h : y₁ < y₂)
    (hg : 1 / 1000 < Th * (1 - y₂ / 100) - Tc) : calZTdev y₁ Tc Th < calZTdev y₂ Tc Th := by
  have hT : 0 < Th := hc.trans hh
  have hg1 : 1 / 1000 < Th * (1 - y₁ / 100) - Tc := by nlinarith
  have p1 : 0 < Th * (1 - y₁ / 100) - Tc := by linarith
  have p2 : 0 < Th * (1 - y₂ / 100) - Tc := by linarith
  unfold calZTdev
  simp only [abs_of_pos p1, abs_of_pos p2, if_pos hg, if_pos hg1]
  have hq : (Th - Tc * (1 - y₁ / 100)) / (Th * (1 - y₁ / 100) - Tc) <
      (Th - Tc * (1 - y₂ / 100)) / (Th * (1 - y₂ / 100) - Tc) := by
    rw [div_lt_div_iff₀ p1 p2]
    nlinarith [mul_pos (sub_pos.mpr h) (mul_pos (sub_pos.mpr hh) (add_pos hT hc))]
  have hn : 0 ≤ (Th - Tc * (1 - y₁ / 100)) / (Th * (1 - y₁ / 100) - Tc) := by
    apply div_nonneg _ p1.le
    nlinarith
  nlinarith

example : (1 : ℝ) / 1000 < 600 * (1 - 20 / 100) - 300 := by norm_num

/-! ## C45 -/

theorem yitaLoop_length (phi0 : ℝ) (l : List TEPoint) : ∀ p w, (yitaLoop phi0 p l w).length = l.length := by
  induction l with
  | nil => intros; rfl
  | cons c l ih => intro p w; simp only [yitaLoop, List.length_cons, ih]

/-- **C45** One value per temperature, the first is 0, and the scalar result is the last of them; the only errors are
missing data and a zero current. -/
theorem C45_structure (u : ℝ) (d : List TEPoint) (hu : u ≠ 0) (hd : d ≠ []) :
    ∃ ys, calYitas u d = .ok ys ∧ ys.length = d.length ∧ ys.head? = some (some 0) ∧
      ∃ y, ys.getLast? = some y ∧ calYita u d = .ok y := by
  obtain ⟨p, rest, rfl⟩ := List.exists_cons_of_ne_nil hd
  refine ⟨_, by simp only [calYitas, if_neg hu]; rfl, ?_, ?_, ?_⟩
  · simp [yitaLoop_length]
  · simp
  · refine ⟨_, List.getLast?_eq_some_getLast (by simp), ?_⟩
    simp only [calYita, calYitas, if_neg hu, Except.map]
    rw [List.getLast?_eq_some_getLast (by simp)]
    rfl

/-- **C45** The errors. -/
theorem C45_errors (u : ℝ) (p : TEPoint) (rest : List TEPoint) :
    calYitas u [] = .error .indexError ∧ calYitas 0 (p :: rest) = .error .zeroDivisionError := by
  simp [calYitas]

theorem yitaLoop_take (phi0 : ℝ) (l : List TEPoint) :
    ∀ p w k, yitaLoop phi0 p (l.take k) w = (yitaLoop phi0 p l w).take k := by
  induction l with
  | nil => intros; simp [yitaLoop]
  | cons c l ih =>
    intro p w k
    cases k with
    | zero => simp [yitaLoop]
    | succ k => simp only [List.take_succ_cons, yitaLoop, ih]

/-- **C45** Each value depends only on the data up to its temperature: cutting off the hotter data cuts the result. -/
theorem C45_prefix (u : ℝ) (d : List TEPoint) (k : Nat) (hk : 0 < k) :
    calYitas u (d.take k) = (calYitas u d).map (List.take k) := by
  obtain ⟨k, rfl⟩ : ∃ j, k = j + 1 := ⟨k - 1, by omega⟩
  cases d with
  | nil => simp [calYitas, Except.map]
  | cons p rest =>
    simp only [List.take_succ_cons, calYitas, yitaLoop_take]
    split
    · rfl
    · simp only [Except.map, List.map_cons, List.take_succ_cons, List.map_take]

/-- a change of the unit of the Seebeck coefficient by a factor `c` and of the thermal conductivity by `c²` -/
def rescale (c : ℝ) (p : TEPoint) : TEPoint := { p with S := c * p.S, K := c ^ 2 * p.K }

theorem yitaStep_rescale (c : ℝ) (hc : 0 < c ∨ c = -1) (p q : TEPoint) (w : Option ℝ) :
    yitaStep (rescale c p) (rescale c q) (w.map (c * ·)) = (yitaStep p q w).map (c * ·) := by
  have hne : c ≠ 0 := by rcases hc with h | h <;> [exact h.ne'; simp [h]]
  cases w with
  | none => rfl
  | some w =>
    simp only [yitaStep, rescale, Option.map_some, Option.bind_some, mul_eq_zero, hne, false_or]
    by_cases h : w = 0 ∨ p.C = 0 ∨ q.C = 0
    · simp [if_pos h]
    · rw [if_neg h, if_neg h]
      have h0 : w ≠ 0 := fun h' => h (Or.inl h')
      have e : (1 / (c * w)) ^ 2 * (c ^ 2 * q.K / (100 * q.C) + c ^ 2 * p.K / (100 * p.C)) * (q.T - p.T) =
          (1 / w) ^ 2 * (q.K / (100 * q.C) + p.K / (100 * p.C)) * (q.T - p.T) := by
        have : (1 / (c * w)) ^ 2 * c ^ 2 = (1 / w) ^ 2 := by field_simp
        have e1 : c ^ 2 * q.K / (100 * q.C) + c ^ 2 * p.K / (100 * p.C) =
            c ^ 2 * (q.K / (100 * q.C) + p.K / (100 * p.C)) := by ring
        rw [e1, ← mul_assoc, this]
      simp only [e]
      split
      · rfl
      · simp only [Option.map_some, Option.some.injEq, one_div, div_inv_eq_mul]
        ring

theorem yitaAt_rescale (c : ℝ) (hne : c ≠ 0) (phi0 : ℝ) (q : TEPoint) (w : Option ℝ) :
    yitaAt (c * phi0) (rescale c q) (w.map (c * ·)) = yitaAt phi0 q w := by
  cases w with
  | none => rfl
  | some w =>
    simp only [yitaAt, rescale, Option.map_some, Option.bind_some]
    have e : c * q.S / 1000000 * q.T + c * w = c * (q.S / 1000000 * q.T + w) := by ring
    simp only [e]
    simp only [mul_eq_zero, hne, false_or]
    split
    · rfl
    · rw [mul_div_mul_left _ _ hne]

theorem yitaLoop_rescale (c : ℝ) (hc : 0 < c ∨ c = -1) (phi0 : ℝ) (l : List TEPoint) :
    ∀ p w, yitaLoop (c * phi0) (rescale c p) (l.map (rescale c)) (w.map (c * ·)) = yitaLoop phi0 p l w := by
  have hne : c ≠ 0 := by rcases hc with h | h <;> [exact h.ne'; simp [h]]
  induction l with
  | nil => intros; rfl
  | cons q l ih =>
    intro p w
    simp only [List.map_cons, yitaLoop, yitaStep_rescale c hc, yitaAt_rescale c hne, ih]

theorem calYitas_rescale (c : ℝ) (hc : 0 < c ∨ c = -1) (u : ℝ) (d : List TEPoint) :
    calYitas (u / c) (d.map (rescale c)) = calYitas u d := by
  have hne : c ≠ 0 := by rcases hc with h | h <;> [exact h.ne'; simp [h]]
  cases d with
  | nil => rfl
  | cons p rest =>
    simp only [List.map_cons, calYitas, div_eq_zero_iff, hne, or_false]
    split
    · rfl
    · rename_i hu
      have e1 : (rescale c p).S / 1000000 * (rescale c p).T + 1 / (u / c) = c * (p.S / 1000000 * p.T + 1 / u) := by
        simp only [rescale]; field_simp
      have e2 : (some (1 / (u / c)) : Option ℝ) = (some (1 / u)).map (c * ·) := by
        simp only [Option.map_some]; congr 1; field_simp
      rw [e1, e2, yitaLoop_rescale c hc]

/-- negate the Seebeck coefficient -/
def flipS (p : TEPoint) : TEPoint := { p with S := -p.S }

theorem flipS_eq (p : TEPoint) : flipS p = rescale (-1) p := by simp [flipS, rescale]

/-- **C45** Negating the Seebeck coefficient and the current together changes nothing (n-type and p-type mirror). -/
theorem C45_np_symmetry (u : ℝ) (d : List TEPoint) : calYitas (-u) (d.map flipS) = calYitas u d := by
  have h := calYitas_rescale (-1) (Or.inr rfl) u d
  rw [← h, div_neg, div_one, List.map_congr_left fun p _ => flipS_eq p]

/-- **C45** Only `S²C/K` matters: scaling `S` by a positive factor, `K` by its square and `u` by its inverse changes
nothing. -/
theorem C45_unit_invariance (c : ℝ) (hc : 0 < c) (u : ℝ) (d : List TEPoint) :
    calYitas (u / c) (d.map (rescale c)) = calYitas u d := calYitas_rescale c (Or.inl hc) u d

/-! ## C46 -/

/-- **C46** `optim_u` fails with `ValueError` exactly when `|S0| C0/K0 < 100` (for positive `C0`, `K0`), in particular
for `S0 = 0`; the search interval mirrors exactly for negated data and has the sign of `S0`. -/
theorem C46_interval (p : TEPoint) (hC : 0 < p.C) (hK : 0 < p.K) :
    ((bounds p).2 < (bounds p).1 ↔ |p.S| * p.C / p.K < 100) ∧
    (p.S ≠ 0 → bounds (flipS p) = (-(bounds p).2, -(bounds p).1)) ∧
    (0 < p.S → 0 < (bounds p).1 ∧ 0 < (bounds p).2) ∧ (p.S < 0 → (bounds p).1 < 0 ∧ (bounds p).2 < 0) := by
  refine ⟨?_, ?_, ?_, ?_⟩
  · unfold bounds
    by_cases h : p.S > 0
    · rw [if_pos h, abs_of_pos h]
      have : 1 / 10000 * p.S * p.C / p.K = p.S * p.C / p.K / 10000 := by ring
      simp only [this]
      constructor <;> intro h' <;> linarith
    · rw [if_neg h, abs_of_nonpos (not_lt.mp h)]
      have : 1 / 10000 * p.S * p.C / p.K = -(-p.S * p.C / p.K / 10000) := by ring
      simp only [this]
      constructor <;> intro h' <;> linarith
  · intro hne
    unfold bounds flipS
    simp only
    by_cases h : p.S > 0
    · rw [if_pos h, if_neg (by linarith)]
      ext <;> simp only <;> ring
    · have : p.S < 0 := lt_of_le_of_ne (not_lt.mp h) hne
      rw [if_neg h, if_pos (by linarith)]
      ext <;> simp only <;> ring
  · intro h
    unfold bounds
    rw [if_pos h]
    constructor <;> simp only <;> positivity
  · intro h
    unfold bounds
    rw [if_neg (not_lt.mpr h.le)]
    refine ⟨?_, by norm_num⟩
    simp only
    have : 0 < -p.S * p.C / p.K := by have := neg_pos.mpr h; positivity
    have e : 1 / 10000 * p.S * p.C / p.K = -(-p.S * p.C / p.K / 10000) := by ring
    rw [e]; linarith

/-- **C46** A search routine that stays within its bounds makes `optim_u` return a current of the sign of `S0`, and at
least 0.01 in absolute value; `S0 = 0` is always an error. -/
theorem C46_result (search : Search) (hs : ∀ f lo hi, lo ≤ hi → lo ≤ (search f lo hi).x ∧ (search f lo hi).x ≤ hi)
    (p : TEPoint) (rest : List TEPoint) (hC : 0 < p.C) (hK : 0 < p.K) :
    (|p.S| * p.C / p.K < 100 → optimU search (p :: rest) = .error .valueError) ∧
    (p.S = 0 → optimU search (p :: rest) = .error .valueError) ∧
    (∀ u, optimU search (p :: rest) = .ok (some u) → (0 < p.S ∧ 1 / 100 ≤ u) ∨ (p.S < 0 ∧ u ≤ -1 / 100)) := by
  have hb := C46_interval p hC hK
  have h1 : |p.S| * p.C / p.K < 100 → optimU search (p :: rest) = .error .valueError := by
    intro h
    have := hb.1.mpr h
    simp only [optimU]
    rw [if_pos this]
  refine ⟨h1, ?_, ?_⟩
  · intro h0; apply h1; rw [h0]; norm_num
  · intro u hu
    simp only [optimU] at hu
    split at hu
    · cases hu
    · rename_i hle
      have hx := hs (fun u => (calYita u (p :: rest)).map (Option.map (-1 * ·))) _ _ (not_lt.mp hle)
      split at hu
      · injection hu with hu; injection hu with hu
        rw [hu] at hx
        rcases lt_trichotomy p.S 0 with h | h | h
        · right
          refine ⟨h, ?_⟩
          have := hx.2
          unfold bounds at this
          rw [if_neg (not_lt.mpr h.le)] at this
          exact this
        · exfalso
          apply hle
          apply hb.1.mpr
          rw [h]; norm_num
        · left
          refine ⟨h, ?_⟩
          have := hx.1
          unfold bounds at this
          rw [if_pos h] at this
          exact this
      · cases hu

/-- a typical material satisfies the hypothesis: 200 uV/K, 1000 S/cm, 1.5 W/(m.K) -/
example : ¬ |(200 : ℝ)| * 1000 / 1.5 < 100 := by norm_num

/-! ## C47 -/

/-- **C47** `valuate` returns `Th = T`, `Tc = T[0]` everywhere, and with `allTemp=True` pairs each efficiency with its
own temperature. -/
theorem C47_all (search : Search) (p : TEPoint) (rest : List TEPoint) (v : Valuation)
    (h : valuate search (p :: rest) true = .ok v) :
    v.Th = (p :: rest).map (·.T) ∧ v.Tc = List.replicate (rest.length + 1) p.T ∧
    v.Yita.length = rest.length + 1 ∧ v.ZTdev.length = rest.length + 1 ∧
    (∃ u, optimU search (p :: rest) = .ok (some u) ∧ calYitas u (p :: rest) = .ok v.Yita) ∧
    ∀ (i : Nat) (t : TEPoint), (p :: rest)[i]? = some t →
      v.ZTdev[i]? = (v.Yita[i]?).map (Option.map fun y => calZTdev y p.T t.T) := by
  simp only [valuate, optimYita] at h
  split at h
  · cases h
  · rename_i ys hys
    split at hys
    · cases hys
    · cases hys
    · rename_i u hu
      simp only [if_true] at hys h
      injection h with h
      subst h
      have hlen : ys.length = rest.length + 1 := by
        simp only [calYitas] at hys
        split at hys
        · cases hys
        · injection hys with hys
          rw [← hys]; simp [yitaLoop_length]
      refine ⟨rfl, ?_, hlen, ?_, ⟨u, hu, hys⟩, ?_⟩
      · simp only [List.map_cons, List.map_map, List.replicate_succ]
        congr 1
        rw [List.eq_replicate_iff]
        simp
      · simp [hlen]
      · intro i t ht
        have hi : i < rest.length + 1 := by
          have := (List.getElem?_eq_some_iff.mp ht).1
          simpa using this
        obtain ⟨y, hy⟩ : ∃ y, ys[i]? = some y := ⟨ys[i]'(by omega), List.getElem?_eq_getElem (by omega)⟩
        simp only [List.getElem?_zipWith, hy, List.zip, List.getElem?_map, ht, Option.map_some]

/-- **C47** If the search for the optimal current reports failure, `valuate` does not return a wrong number: it ends in a `TypeError`; if the bounds of the
search are the wrong way round, in a `ValueError`. -/
theorem C47_failed (search : Search) (p : TEPoint) (rest : List TEPoint) (allTemp : Bool) :
    ((bounds p).1 ≤ (bounds p).2 → (∀ f lo hi, (search f lo hi).success = false) → valuate search (p :: rest) allTemp = .error .typeError) ∧
    ((bounds p).2 < (bounds p).1 → valuate search (p :: rest) allTemp = .error .valueError) := by
  constructor
  · intro h hs
    have : optimU search (p :: rest) = .ok none := by
      simp only [optimU]
      rw [if_neg (not_lt.2 h), hs]
      rfl
    simp only [valuate, optimYita, this]
  · intro h
    have : optimU search (p :: rest) = .error .valueError := by
      simp only [optimU]
      rw [if_pos h]
    simp only [valuate, optimYita, this]

/-- **C47** With `allTemp=False` there is a single efficiency, combined with every hot side temperature; only the last
`ZTdev` agrees with the one of `allTemp=True`. -/
theorem C47_single (search : Search) (p : TEPoint) (rest : List TEPoint) (v w : Valuation)
    (h : valuate search (p :: rest) false = .ok v) (h' : valuate search (p :: rest) true = .ok w) :
    v.Th = w.Th ∧ v.Tc = w.Tc ∧
    (∃ y, v.Yita = [y] ∧ w.Yita.getLast? = some y ∧
      ∀ (i : Nat) (t : TEPoint), (p :: rest)[i]? = some t → v.ZTdev[i]? = some (y.map fun y => calZTdev y p.T t.T)) ∧
    v.ZTdev.getLast? = w.ZTdev.getLast? := by
  obtain ⟨hTh, hTc, hyl, hzl, ⟨u, hu, hys⟩, hz⟩ := C47_all search p rest w h'
  have hlast : ∃ y, w.Yita.getLast? = some y := by
    cases hw : w.Yita with
    | nil => rw [hw] at hyl; simp at hyl
    | cons a l => exact ⟨_, List.getLast?_eq_some_getLast (by simp)⟩
  obtain ⟨y, hy⟩ := hlast
  simp only [valuate, optimYita, hu, calYita, hys, Except.map, hy, Option.join_some, Bool.false_eq_true, if_false,
    List.head?_cons] at h
  injection h with h
  subst h
  have key : ∀ (i : Nat) (t : TEPoint), (p :: rest)[i]? = some t →
      (List.zipWith (fun y (c, h) => y.map fun y => calZTdev y c h) (((p :: rest).map (·.T)).map fun _ => y)
        ((((p :: rest).map (·.T)).map fun _ => p.T).zip ((p :: rest).map (·.T))))[i]? =
      some (y.map fun y => calZTdev y p.T t.T) := by
    intro i t ht
    simp only [List.getElem?_zipWith, List.zip, List.getElem?_map, ht, Option.map_some]
  refine ⟨hTh.symm, ?_, ⟨y, rfl, hy, key⟩, ?_⟩
  · rw [hTc]
    simp only [List.map_cons, List.map_map, List.replicate_succ]
    congr 1
    rw [List.eq_replicate_iff]
    simp
  · rw [List.getLast?_eq_getElem?, List.getLast?_eq_getElem?, hzl]
    obtain ⟨t, ht⟩ : ∃ t, (p :: rest)[rest.length]? = some t := ⟨(p :: rest)[rest.length], List.getElem?_eq_getElem (by simp)⟩
    have hl : (List.zipWith (fun y (c, h) => y.map fun y => calZTdev y c h) (((p :: rest).map (·.T)).map fun _ => y)
        ((((p :: rest).map (·.T)).map fun _ => p.T).zip ((p :: rest).map (·.T)))).length - 1 = rest.length := by
      simp
    rw [hl, key _ t ht]
    have := hz rest.length t ht
    rw [show rest.length + 1 - 1 = rest.length by omega, this]
    rw [List.getLast?_eq_getElem?, hyl] at hy
    simp only [show rest.length + 1 - 1 = rest.length by omega] at hy
    rw [hy]; rfl

/-! ## C97: the Carnot bound -/

/-- the reciprocal currents `1/u` at the successive temperatures (`none`: NaN) -/
noncomputable def currents : TEPoint → List TEPoint → Option ℝ → List (Option ℝ)
  | _, [], _ => []
  | p, q :: rest, w => yitaStep p q w :: currents q rest (yitaStep p q w)

/-- **C97** Energy balance of one segment: the potential rises by the Seebeck voltage (trapezoid rule) minus a loss, and
the loss is not negative for a positive current. -/
theorem C97_energy_balance (p q : TEPoint) (w w' : ℝ) (hw : 0 < w) (h : yitaStep p q (some w) = some w')
    (hK : 0 ≤ q.K / q.C + p.K / p.C) (hT : p.T ≤ q.T) :
    ∃ loss : ℝ, 0 ≤ loss ∧ loss ≤ w ∧
      (q.S / 1000000 * q.T + w') - (p.S / 1000000 * p.T + w) =
        (p.S / 1000000 + q.S / 1000000) / 2 * (q.T - p.T) - loss := by
  simp only [yitaStep, Option.bind_some] at h
  split at h
  · cases h
  · split at h
    · cases h
    · rename_i h0 h1
      injection h with h
      set a := 1 - (1 / w) ^ 2 * (q.K / (100 * q.C) + p.K / (100 * p.C)) * (q.T - p.T) with ha
      have ha1 : a ≤ 1 := by
        have : 0 ≤ (1 / w) ^ 2 * (q.K / (100 * q.C) + p.K / (100 * p.C)) * (q.T - p.T) := by
          have e : q.K / (100 * q.C) + p.K / (100 * p.C) = (q.K / q.C + p.K / p.C) / 100 := by
            rw [mul_comm 100, mul_comm 100, ← div_div, ← div_div, ← add_div]
          rw [e]
          exact mul_nonneg (mul_nonneg (sq_nonneg _) (by linarith)) (by linarith)
        linarith
      have hs0 := Real.sqrt_nonneg a
      have hs1 : Real.sqrt a ≤ 1 := Real.sqrt_le_one.mpr ha1
      refine ⟨w * (1 - Real.sqrt a), mul_nonneg hw.le (by linarith), by nlinarith, ?_⟩
      rw [← h]
      rw [one_div, div_inv_eq_mul]
      ring

theorem carnot_step (p q : TEPoint) (w w' : ℝ) (hw : 0 < w) (hw' : 0 < w') (h : yitaStep p q (some w) = some w')
    (hK : 0 ≤ q.K / q.C + p.K / p.C) (hp : 0 < p.T) (hT : p.T < q.T) :
    (q.S / 1000000 * q.T + w') * p.T ≤ (p.S / 1000000 * p.T + w) * q.T := by
  obtain ⟨loss, h0, h1, he⟩ := C97_energy_balance p q w w' hw h hK hT.le
  -- the new reciprocal current is positive, which bounds the rise of the Seebeck coefficient
  have hq : (q.S / 1000000 - p.S / 1000000) * ((q.T + p.T) / 2) ≤ w := by nlinarith
  have hpos : 0 < q.T - p.T := by linarith
  have hb : (q.S / 1000000 - p.S / 1000000) * p.T ≤ w := by
    by_cases hs : 0 ≤ q.S / 1000000 - p.S / 1000000
    · nlinarith
    · nlinarith
  have e : q.S / 1000000 * q.T + w' = p.S / 1000000 * p.T + w + ((p.S / 1000000 + q.S / 1000000) / 2 * (q.T - p.T) - loss) := by
    linarith
  rw [e]
  nlinarith [mul_nonneg h0 hp.le, mul_le_mul_of_nonneg_left hb hpos.le, mul_pos hw hpos]

theorem carnot_loop (phi0 T0 : ℝ) (l : List TEPoint) : ∀ (p : TEPoint) (w : ℝ), 0 < w → 0 < T0 → 0 < phi0 →
    0 < p.T → (p.S / 1000000 * p.T + w) * T0 ≤ phi0 * p.T →
    List.IsChain (fun a b : TEPoint => a.T < b.T) (p :: l) → (∀ t ∈ p :: l, 0 < t.S ∧ 0 < t.C ∧ 0 ≤ t.K) →
    (∀ v ∈ currents p l (some w), ∃ x, v = some x ∧ 0 < x) →
    ∀ (i : Nat) (t : TEPoint), l[i]? = some t →
      ∃ y, (yitaLoop phi0 p l (some w))[i]? = some (some y) ∧ y ≤ 1 - T0 / t.T := by
  induction l with
  | nil => intro p w _ _ _ _ _ _ _ _ i t h; simp at h
  | cons q l ih =>
    intro p w hw hT0 hphi hp hinv hch hpos hcur i t ht
    obtain ⟨w', hw', hw'0⟩ := hcur (yitaStep p q (some w)) (by simp [currents])
    have hpq : p.T < q.T := by
      cases hch; assumption
    have hq : 0 < q.T := hp.trans hpq
    have hP := hpos p (by simp)
    have hQ := hpos q (by simp)
    have hK : 0 ≤ q.K / q.C + p.K / p.C :=
      add_nonneg (div_nonneg hQ.2.2 hQ.2.1.le) (div_nonneg hP.2.2 hP.2.1.le)
    have hst := carnot_step p q w w' hw hw'0 hw' hK hp hpq
    have hPp : 0 < p.S / 1000000 * p.T + w := by have := hP.1; positivity
    have hPq : 0 < q.S / 1000000 * q.T + w' := by have := hQ.1; positivity
    have hinv' : (q.S / 1000000 * q.T + w') * T0 ≤ phi0 * q.T := by
      have h1 := mul_le_mul_of_nonneg_right hst hT0.le
      have h2 := mul_le_mul_of_nonneg_right hinv hq.le
      have : (q.S / 1000000 * q.T + w') * T0 * p.T ≤ phi0 * q.T * p.T := by nlinarith
      exact le_of_mul_le_mul_right this hp
    cases i with
    | zero =>
      simp only [List.getElem?_cons_zero, Option.some.injEq] at ht
      subst ht
      refine ⟨1 - phi0 / (q.S / 1000000 * q.T + w'), ?_, ?_⟩
      · simp only [yitaLoop, hw', yitaAt, Option.bind_some, if_neg hPq.ne', List.getElem?_cons_zero]
      · have : T0 / q.T ≤ phi0 / (q.S / 1000000 * q.T + w') := by
          rw [div_le_div_iff₀ hq hPq]; linarith
        linarith
    | succ i =>
      simp only [List.getElem?_cons_succ] at ht
      have hch' : List.IsChain (fun a b : TEPoint => a.T < b.T) (q :: l) := by
        cases hch; assumption
      obtain ⟨y, hy, hle⟩ := ih q w' hw'0 hT0 hphi hq hinv' hch' (fun t h => hpos t (by simp [h]))
        (by intro v hv; apply hcur; simp only [currents, hw', List.mem_cons]; right; exact hv) i t ht
      refine ⟨y, ?_, hle⟩
      simp only [yitaLoop, hw', List.getElem?_cons_succ]
      exact hy

/-- **C97** For p-type data at increasing positive temperatures, as long as the relative current stays finite and
positive, `cal_Yita` never exceeds the Carnot efficiency, at every temperature and for every number of points. -/
theorem C97_carnot (u : ℝ) (hu : 0 < u) (p : TEPoint) (rest : List TEPoint) (hp : 0 < p.T)
    (hT : List.IsChain (fun a b : TEPoint => a.T < b.T) (p :: rest))
    (hpos : ∀ t ∈ p :: rest, 0 < t.S ∧ 0 < t.C ∧ 0 ≤ t.K)
    (hcur : ∀ v ∈ currents p rest (some (1 / u)), ∃ x, v = some x ∧ 0 < x) :
    ∃ ys, calYitas u (p :: rest) = .ok ys ∧
      ∀ (i : Nat) (t : TEPoint), (p :: rest)[i]? = some t →
        ∃ y, ys[i]? = some (some y) ∧ y ≤ 100 * (1 - p.T / t.T) := by
  refine ⟨_, by simp only [calYitas, if_neg hu.ne']; rfl, ?_⟩
  have hS := (hpos p (by simp)).1
  have hphi : 0 < p.S / 1000000 * p.T + 1 / u := by positivity
  intro i t ht
  cases i with
  | zero =>
    simp only [List.getElem?_cons_zero, Option.some.injEq] at ht
    subst ht
    refine ⟨0, by simp, ?_⟩
    rw [div_self hp.ne']; norm_num
  | succ i =>
    simp only [List.getElem?_cons_succ] at ht
    obtain ⟨y, hy, hle⟩ := carnot_loop _ p.T rest p (1 / u) (by positivity) hp hphi hp le_rfl hT hpos hcur i t ht
    refine ⟨100 * y, ?_, by linarith⟩
    simp only [List.map_cons, List.getElem?_cons_succ, List.getElem?_map, hy, Option.map_some]

/-- the hypotheses are met by two temperatures of a constant material (S = 200 uV/K, C = 1000 S/cm, K = 1.2) -/
example : ∀ v ∈ currents ⟨300, 1000, 200, 6 / 5⟩ [⟨400, 1000, 200, 6 / 5⟩] (some (1 / 4)), ∃ x, v = some x ∧ 0 < x := by
  intro v hv
  simp only [currents, List.mem_cons, List.not_mem_nil, or_false] at hv
  subst hv
  refine ⟨Real.sqrt (1 - (1 / (1 / 4)) ^ 2 * (6 / 5 / (100 * 1000) + 6 / 5 / (100 * 1000)) * (400 - 300)) / (1 / (1 / 4)) -
    (400 + 300) / 2 * (200 / 1000000 - 200 / 1000000), ?_, ?_⟩
  · simp only [yitaStep, Option.bind_some]
    norm_num
  · norm_num

/-! ## C45: the thermoelectric potential -/

theorem yitaLoop_none (phi0 : ℝ) (l : List TEPoint) : ∀ p, yitaLoop phi0 p l none = l.map fun _ => none := by
  induction l with
  | nil => intro p; rfl
  | cons q l ih => intro p; simp [yitaLoop, yitaStep, yitaAt, ih]

theorem yitaLoop_phi (phi0 : ℝ) (l : List TEPoint) : ∀ (p : TEPoint) (u : ℝ), u ≠ 0 →
    ∃ us : List ℝ, us.length = l.length ∧
      ∀ (i : Nat) (s t : TEPoint) (a b y : ℝ), (p :: l)[i]? = some s → l[i]? = some t → (u :: us)[i]? = some a →
        us[i]? = some b → (yitaLoop phi0 p l (some (1 / u)))[i]? = some (some y) →
        0 ≤ 1 - a ^ 2 * (t.K / (100 * t.C) + s.K / (100 * s.C)) * (t.T - s.T) ∧
        1 / b = Real.sqrt (1 - a ^ 2 * (t.K / (100 * t.C) + s.K / (100 * s.C)) * (t.T - s.T)) / a -
          (t.T + s.T) / 2 * (t.S - s.S) / 1000000 ∧
        calPhi b t.S t.T ≠ 0 ∧ y = 1 - phi0 / calPhi b t.S t.T := by
  induction l with
  | nil => intro p u hu; exact ⟨[], rfl, by intro i s t a b y _ h; simp at h⟩
  | cons q l ih =>
    intro p u hu
    have hu1 : (1 : ℝ) / u ≠ 0 := one_div_ne_zero hu
    have hphi : ∀ w : ℝ, q.S / 1000000 * q.T + w = calPhi (1 / w) q.S q.T := by
      intro w; rw [calPhi, one_div_one_div]; ring
    by_cases hC : (1 / u = 0 ∨ p.C = 0 ∨ q.C = 0) ∨
        1 - u ^ 2 * (q.K / (100 * q.C) + p.K / (100 * p.C)) * (q.T - p.T) < 0
    · have hn : yitaStep p q (some (1 / u)) = none := by
        simp only [yitaStep, Option.bind_some, one_div_one_div]
        rcases hC with hC | hC
        · rw [if_pos hC]
        · split_ifs <;> rfl
      refine ⟨(q :: l).map fun _ => 0, by simp, ?_⟩
      intro i s t a b y _ _ _ _ hy
      rw [show yitaLoop phi0 p (q :: l) (some (1 / u)) = (q :: l).map fun _ => none by
        simp only [yitaLoop, hn, yitaLoop_none, List.map_cons]; rfl, List.getElem?_map] at hy
      cases h : (q :: l)[i]? <;> rw [h] at hy <;> simp at hy
    · have hC' := not_or.mp hC
      set w := Real.sqrt (1 - u ^ 2 * (q.K / (100 * q.C) + p.K / (100 * p.C)) * (q.T - p.T)) / u -
        (q.T + p.T) / 2 * (q.S / 1000000 - p.S / 1000000) with hw
      have hs : yitaStep p q (some (1 / u)) = some w := by
        simp only [yitaStep, Option.bind_some, one_div_one_div]
        rw [if_neg hC'.1, if_neg hC'.2]
      have first : ∀ y : ℝ, yitaAt phi0 q (some w) = some y →
          calPhi (1 / w) q.S q.T ≠ 0 ∧ y = 1 - phi0 / calPhi (1 / w) q.S q.T := by
        intro y hy
        simp only [yitaAt, Option.bind_some] at hy
        rw [hphi] at hy
        split_ifs at hy with h
        exact ⟨h, (Option.some.inj hy).symm⟩
      have hb : 1 / (1 / w) = Real.sqrt (1 - u ^ 2 * (q.K / (100 * q.C) + p.K / (100 * p.C)) * (q.T - p.T)) / u -
          (q.T + p.T) / 2 * (q.S - p.S) / 1000000 := by rw [one_div_one_div, hw]; ring
      by_cases h0 : w = 0
      · refine ⟨(1 / w) :: l.map fun _ => 0, by simp, ?_⟩
        intro i s t a b y h1 h2 h3 h4 hy
        cases i with
        | zero =>
          simp only [List.getElem?_cons_zero, Option.some.injEq] at h1 h2 h3 h4
          subst h1 h2 h3 h4
          simp only [yitaLoop, hs, List.getElem?_cons_zero, Option.some.injEq] at hy
          exact ⟨not_lt.mp hC'.2, hb, first y hy⟩
        | succ i =>
          have hz : yitaLoop phi0 q l (some w) = l.map fun _ => none := by
            cases l with
            | nil => rfl
            | cons r l => simp [yitaLoop, yitaStep, yitaAt, h0, yitaLoop_none]
          simp only [yitaLoop, hs, List.getElem?_cons_succ, hz, List.getElem?_map] at hy
          cases h : l[i]? <;> rw [h] at hy <;> simp at hy
      · obtain ⟨us, hlen, hus⟩ := ih q (1 / w) (one_div_ne_zero h0)
        refine ⟨(1 / w) :: us, by simp [hlen], ?_⟩
        intro i s t a b y h1 h2 h3 h4 hy
        cases i with
        | zero =>
          simp only [List.getElem?_cons_zero, Option.some.injEq] at h1 h2 h3 h4
          subst h1 h2 h3 h4
          simp only [yitaLoop, hs, List.getElem?_cons_zero, Option.some.injEq] at hy
          exact ⟨not_lt.mp hC'.2, hb, first y hy⟩
        | succ i =>
          simp only [yitaLoop, hs, List.getElem?_cons_succ] at h1 h2 h3 h4 hy
          rw [one_div_one_div] at hus
          exact hus i s t a b y h1 h2 h3 h4 hy

/-- **C45** The efficiencies are those of the thermoelectric potential `Φ = S·T + 1/u` (`cal_Phi`, Seebeck coefficient in
uV/K, potential in V): there are relative currents, the first of which is the given one, such that wherever the
efficiency of a segment is a number, the next current follows from the one before by the compatibility recursion and the
efficiency is the fall of the potential over the potential, in per cent. -/
theorem C45_phi (u : ℝ) (hu : u ≠ 0) (p : TEPoint) (rest : List TEPoint) :
    ∃ (ys : List (Option ℝ)) (us : List ℝ), calYitas u (p :: rest) = .ok ys ∧ us.length = rest.length + 1 ∧
      us[0]? = some u ∧
      ∀ (i : Nat) (s t : TEPoint) (a b y : ℝ), (p :: rest)[i]? = some s → (p :: rest)[i + 1]? = some t →
        us[i]? = some a → us[i + 1]? = some b → ys[i + 1]? = some (some y) →
        0 ≤ 1 - a ^ 2 * (t.K / (100 * t.C) + s.K / (100 * s.C)) * (t.T - s.T) ∧
        1 / b = Real.sqrt (1 - a ^ 2 * (t.K / (100 * t.C) + s.K / (100 * s.C)) * (t.T - s.T)) / a -
          (t.T + s.T) / 2 * (t.S - s.S) / 1000000 ∧
        calPhi b t.S t.T ≠ 0 ∧ y = 100 * ((calPhi b t.S t.T - calPhi u p.S p.T) / calPhi b t.S t.T) := by
  obtain ⟨us, hlen, hus⟩ := yitaLoop_phi (p.S / 1000000 * p.T + 1 / u) rest p u hu
  refine ⟨_, u :: us, by simp only [calYitas, if_neg hu]; rfl, by simp [hlen], rfl, ?_⟩
  intro i s t a b y h1 h2 h3 h4 hy
  simp only [List.getElem?_cons_succ, List.map_cons, List.getElem?_map, Option.map_eq_some_iff] at h2 h4 hy
  obtain ⟨o, ho, z, hz, rfl⟩ := hy
  subst hz
  obtain ⟨g1, g2, g3, g4⟩ := hus i s t a b z h1 h2 h3 h4 ho
  refine ⟨g1, g2, g3, ?_⟩
  rw [g4, sub_div, div_self g3, show calPhi u p.S p.T = p.S / 1000000 * p.T + 1 / u by rw [calPhi]; ring]

/-- a Seebeck coefficient of 200 uV/K at 300 K with `u = 5 /V` is a potential of 0.26 V -/
example : calPhi 5 200 300 = 26 / 100 := by norm_num [calPhi]

end TEflow.Ztdev
