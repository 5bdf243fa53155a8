import Verif.Props.Ztdev

/-! # C135: a leg with constant properties

For a leg of which the conductivity `c` (S/cm), the Seebeck coefficient `s` (uV/K) and the thermal conductivity `k` (W/(m.K)) do not depend on
the temperature, the device figure of merit is known: it is `s²σ/k` times the mean temperature, however many points the table has. -/

set_option linter.unusedVariables false

namespace TEflow.Ztdev

noncomputable section

/-! ## Specification -/

/-- all rows have the same properties -/
def Uniform (c s k : ℝ) (d : List TEPoint) : Prop := ∀ t ∈ d, t.C = c ∧ t.S = s ∧ t.K = k

/-- the figure of merit in 1/K: squared Seebeck coefficient times conductivity over thermal conductivity, in SI units -/
def figure (c s k : ℝ) : ℝ := (s / 10 ^ 6) ^ 2 * (100 * c) / k

/-- the loss coefficient: thermal conductivity times resistivity, in V²/K -/
def lossOf (c k : ℝ) : ℝ := k / (100 * c)

/-- the current which gives the textbook efficiency -/
def bestCurrent (c s k Tc Th : ℝ) : ℝ :=
  s / 10 ^ 6 * ((Tc + Th) / 2) / (lossOf c k * (Real.sqrt (1 + figure c s k * ((Tc + Th) / 2)) * Th + Tc))

/-- a search that did its work: it succeeded, and its point in the interval is as good as every other one -/
def Best (r : OptResult) (f : ℝ → Except PyErr (Option ℝ)) (lo hi : ℝ) : Prop :=
  r.success = true ∧ lo ≤ r.x ∧ r.x ≤ hi ∧ ∀ x y, lo ≤ x → x ≤ hi → f x = .ok (some y) → ∃ z, f r.x = .ok (some z) ∧ z ≤ y

/-- what is minimised: the negative efficiency -/
def loss (d : List TEPoint) (u : ℝ) : Except PyErr (Option ℝ) := (calYita u d).map (Option.map (-1 * ·))

/-! ## C97: the loss of a segment -/

/-- **C97** The loss of a segment is not just any number: the squared reciprocal current falls by the mean of `κρ` at the two ends times twice the
temperature difference. -/
theorem C97_loss (p q : TEPoint) (w w' : ℝ) (hw : 0 < w) (h : yitaStep p q (some w) = some w') :
    ∃ loss : ℝ, loss ≤ w ∧ w ^ 2 - (w - loss) ^ 2 = 2 * ((p.K / (100 * p.C) + q.K / (100 * q.C)) / 2) * (q.T - p.T) ∧
      (q.S / 1000000 * q.T + w') - (p.S / 1000000 * p.T + w) = (p.S / 1000000 + q.S / 1000000) / 2 * (q.T - p.T) - loss := by
  simp only [yitaStep, Option.bind_some] at h
  split at h
  · cases h
  · split at h
    · cases h
    · rename_i h0 h1
      injection h with h
      have hsq := Real.sq_sqrt (not_lt.1 h1)
      have hs0 := Real.sqrt_nonneg (1 - (1 / w) ^ 2 * (q.K / (100 * q.C) + p.K / (100 * p.C)) * (q.T - p.T))
      refine ⟨w * (1 - Real.sqrt (1 - (1 / w) ^ 2 * (q.K / (100 * q.C) + p.K / (100 * p.C)) * (q.T - p.T))), ?_, ?_, ?_⟩
      · have := mul_nonneg hw.le hs0
        linarith
      · have e : w - w * (1 - Real.sqrt (1 - (1 / w) ^ 2 * (q.K / (100 * q.C) + p.K / (100 * p.C)) * (q.T - p.T))) =
            w * Real.sqrt (1 - (1 / w) ^ 2 * (q.K / (100 * q.C) + p.K / (100 * p.C)) * (q.T - p.T)) := by ring
        rw [e, mul_pow, hsq]
        have e2 : w ^ 2 * (1 / w) ^ 2 = 1 := by rw [← mul_pow, mul_one_div_cancel hw.ne', one_pow]
        linear_combination (q.K / (100 * q.C) + p.K / (100 * p.C)) * (q.T - p.T) * e2
      · rw [← h]
        rw [one_div, div_inv_eq_mul]
        ring

/-! ## C135 -/

theorem uniform_step (p q : TEPoint) (c s k w : ℝ) (hw : 0 < w) (hc : 0 < c) (hp : p.C = c ∧ p.S = s ∧ p.K = k) (hq : q.C = c ∧ q.S = s ∧ q.K = k) :
    yitaStep p q (some w) = if 2 * lossOf c k * (q.T - p.T) ≤ w ^ 2 then some (Real.sqrt (w ^ 2 - 2 * lossOf c k * (q.T - p.T))) else none := by
  obtain ⟨p1, p2, p3⟩ := hp
  obtain ⟨q1, q2, q3⟩ := hq
  simp only [yitaStep, Option.bind_some]
  rw [if_neg (by rw [p1, q1]; exact not_or.2 ⟨hw.ne', not_or.2 ⟨hc.ne', hc.ne'⟩⟩), p1, p2, p3, q1, q2, q3]
  have e : 1 - (1 / w) ^ 2 * (k / (100 * c) + k / (100 * c)) * (q.T - p.T) = (w ^ 2 - 2 * lossOf c k * (q.T - p.T)) / w ^ 2 := by
    unfold lossOf
    field_simp
    ring
  rw [e]
  have hw2 : 0 < w ^ 2 := by positivity
  by_cases h : 2 * lossOf c k * (q.T - p.T) ≤ w ^ 2
  · rw [if_pos h, if_neg (not_lt.2 (div_nonneg (by linarith) hw2.le)), Real.sqrt_div' _ hw2.le, Real.sqrt_sq hw.le]
    congr 1
    field_simp
    ring
  · rw [if_neg h, if_pos (div_neg_of_neg_of_pos (by linarith) hw2)]

theorem uniform_loop (phi0 c s k : ℝ) (hc : 0 < c) (hk : 0 < k) (l : List TEPoint) : ∀ (p : TEPoint) (w : ℝ), 0 < w → Uniform c s k (p :: l) →
    List.IsChain (fun a b : TEPoint => a.T < b.T) (p :: l) → ∀ (i : Nat) (t : TEPoint), l[i]? = some t →
      (yitaLoop phi0 p l (some w))[i]? = some (if 2 * lossOf c k * (t.T - p.T) ≤ w ^ 2 then
        yitaAt phi0 t (some (Real.sqrt (w ^ 2 - 2 * lossOf c k * (t.T - p.T)))) else none) := by
  have hr : 0 < lossOf c k := by unfold lossOf; positivity
  induction l with
  | nil => intro p w _ _ _ i t h; simp at h
  | cons q l ih =>
    intro p w hw hu hch i t ht
    have hst := uniform_step p q c s k w hw hc (hu p (by simp)) (hu q (by simp))
    cases i with
    | zero =>
      simp only [List.getElem?_cons_zero, Option.some.injEq] at ht
      subst ht
      simp only [yitaLoop, List.getElem?_cons_zero, hst]
      split_ifs <;> rfl
    | succ i =>
      simp only [List.getElem?_cons_succ] at ht
      have hch' : List.IsChain (fun a b : TEPoint => a.T < b.T) (q :: l) := by
        cases hch; assumption
      have hqt : q.T < t.T := by
        have hpw : (q :: l).Pairwise (fun a b : TEPoint => a.T < b.T) :=
          (List.isChain_iff_pairwise (R := fun a b : TEPoint => a.T < b.T)).1 hch'
        exact (List.pairwise_cons.1 hpw).1 t (List.mem_of_getElem? ht)
      simp only [yitaLoop, List.getElem?_cons_succ, hst]
      by_cases h : 2 * lossOf c k * (q.T - p.T) < w ^ 2
      · rw [if_pos h.le, ih q _ (Real.sqrt_pos.2 (by linarith)) (fun x hx => hu x (by simp [hx])) hch' i t ht, Real.sq_sqrt (by linarith)]
        have e : w ^ 2 - 2 * lossOf c k * (q.T - p.T) - 2 * lossOf c k * (t.T - q.T) = w ^ 2 - 2 * lossOf c k * (t.T - p.T) := by ring
        have e2 : 2 * lossOf c k * (t.T - q.T) ≤ w ^ 2 - 2 * lossOf c k * (q.T - p.T) ↔ 2 * lossOf c k * (t.T - p.T) ≤ w ^ 2 := by
          constructor <;> intro h <;> linarith
        rw [e, if_congr e2 rfl rfl]
      · have hlt : ¬ 2 * lossOf c k * (t.T - p.T) ≤ w ^ 2 := by
          have : 0 < 2 * lossOf c k * (t.T - q.T) := mul_pos (by linarith) (by linarith)
          have e : 2 * lossOf c k * (t.T - p.T) = 2 * lossOf c k * (t.T - q.T) + 2 * lossOf c k * (q.T - p.T) := by ring
          rw [e]
          linarith
        rw [if_neg hlt]
        have hn : yitaLoop phi0 q l (if 2 * lossOf c k * (q.T - p.T) ≤ w ^ 2 then some (Real.sqrt (w ^ 2 - 2 * lossOf c k * (q.T - p.T))) else none) =
            l.map fun _ => none := by
          split_ifs with h2
          · have e0 : w ^ 2 - 2 * lossOf c k * (q.T - p.T) = 0 := by linarith
            rw [e0, Real.sqrt_zero]
            cases l with
            | nil => rfl
            | cons r l => simp [yitaLoop, yitaStep, yitaAt, yitaLoop_none]
          · exact yitaLoop_none _ _ _
        rw [hn, List.getElem?_map, ht]
        rfl

/-- **C135** The efficiencies of a leg with constant properties are those of the closed formula: the squared reciprocal current falls linearly with
the temperature; where it would become negative, the result is NaN. -/
theorem C135_scan (u c s k : ℝ) (hu : 0 < u) (hc : 0 < c) (hs : 0 < s) (hk : 0 < k) (p : TEPoint) (rest : List TEPoint) (hT0 : 0 < p.T)
    (hd : Uniform c s k (p :: rest)) (hT : List.IsChain (fun a b : TEPoint => a.T < b.T) (p :: rest)) :
    ∃ ys, calYitas u (p :: rest) = .ok ys ∧ ys.length = rest.length + 1 ∧ ∀ (i : Nat) (t : TEPoint), (p :: rest)[i]? = some t →
      ys[i]? = some (if 2 * lossOf c k * (t.T - p.T) ≤ (1 / u) ^ 2 then
        some (100 * (1 - (s / 10 ^ 6 * p.T + 1 / u) / (s / 10 ^ 6 * t.T + Real.sqrt ((1 / u) ^ 2 - 2 * lossOf c k * (t.T - p.T))))) else none) := by
  have h6 : (10 : ℝ) ^ 6 = 1000000 := by norm_num
  refine ⟨_, by simp only [calYitas, if_neg hu.ne']; rfl, by simp [yitaLoop_length], ?_⟩
  intro i t ht
  have hu' : 0 < 1 / u := by positivity
  cases i with
  | zero =>
    simp only [List.getElem?_cons_zero, Option.some.injEq] at ht
    subst ht
    have h0 : 2 * lossOf c k * (p.T - p.T) ≤ (1 / u) ^ 2 := by rw [sub_self, mul_zero]; positivity
    have hne : s / 10 ^ 6 * p.T + 1 / u ≠ 0 := by positivity
    rw [if_pos h0, sub_self, mul_zero, sub_zero, Real.sqrt_sq hu'.le, div_self hne]
    simp
  | succ i =>
    simp only [List.getElem?_cons_succ] at ht
    have htm := List.mem_of_getElem? ht
    have hpt : p.T < t.T := by
      have hpw : (p :: rest).Pairwise (fun a b : TEPoint => a.T < b.T) :=
        (List.isChain_iff_pairwise (R := fun a b : TEPoint => a.T < b.T)).1 hT
      exact (List.pairwise_cons.1 hpw).1 t htm
    have hl := uniform_loop (p.S / 1000000 * p.T + 1 / u) c s k hc hk rest p (1 / u) hu' hd hT i t ht
    simp only [List.map_cons, List.getElem?_cons_succ, List.getElem?_map, hl, Option.map_some, Option.some.injEq]
    have hpS := (hd p (by simp)).2.1
    have htS := (hd t (by simp [htm])).2.1
    split_ifs with h
    · have hphi : s / 1000000 * t.T + Real.sqrt ((1 / u) ^ 2 - 2 * lossOf c k * (t.T - p.T)) ≠ 0 := by
        have := Real.sqrt_nonneg ((1 / u) ^ 2 - 2 * lossOf c k * (t.T - p.T))
        have : 0 < s / 1000000 * t.T := mul_pos (by positivity) (hT0.trans hpt)
        positivity
      simp only [yitaAt, Option.bind_some]
      rw [hpS, htS, if_neg hphi, h6]
      rfl
    · rfl

theorem uniform_last (u c s k : ℝ) (hu : 0 < u) (hc : 0 < c) (hs : 0 < s) (hk : 0 < k) (p t : TEPoint) (rest : List TEPoint) (hT0 : 0 < p.T)
    (hd : Uniform c s k (p :: rest)) (hT : List.IsChain (fun a b : TEPoint => a.T < b.T) (p :: rest)) (ht : (p :: rest).getLast? = some t) :
    calYita u (p :: rest) = .ok (if 2 * lossOf c k * (t.T - p.T) ≤ (1 / u) ^ 2 then
        some (100 * (1 - (s / 10 ^ 6 * p.T + 1 / u) / (s / 10 ^ 6 * t.T + Real.sqrt ((1 / u) ^ 2 - 2 * lossOf c k * (t.T - p.T))))) else none) := by
  obtain ⟨ys, h1, h2, h3⟩ := C135_scan u c s k hu hc hs hk p rest hT0 hd hT
  have hi : (p :: rest)[rest.length]? = some t := by rw [List.getLast?_eq_getElem?] at ht; simpa using ht
  have := h3 _ t hi
  have hl : ys.getLast? = ys[rest.length]? := by rw [List.getLast?_eq_getElem?, h2]; rfl
  simp only [calYita, h1, Except.map, hl, this, Option.join_some]

/-- the minimum of `a·x - b·y` on the hyperbola `x² - y² = h` -/
theorem hyperbola (a b x y : ℝ) (hb : 0 ≤ b) (hab : b ≤ a) (hx : 0 ≤ x) (hy : 0 ≤ y) (hxy : y ≤ x) :
    Real.sqrt ((a ^ 2 - b ^ 2) * (x ^ 2 - y ^ 2)) ≤ a * x - b * y := by
  rw [Real.sqrt_le_iff]
  constructor
  · nlinarith [mul_le_mul hab hxy hy (hb.trans hab)]
  · nlinarith [sq_nonneg (a * y - b * x)]

section
variable (c s k : ℝ) (hc : 0 < c) (hs : 0 < s) (hk : 0 < k) (p t : TEPoint) (rest : List TEPoint) (hT0 : 0 < p.T)
  (hd : Uniform c s k (p :: rest)) (hT : List.IsChain (fun a b : TEPoint => a.T < b.T) (p :: rest)) (ht : (p :: rest).getLast? = some t) (hpt : p.T < t.T)

include hc hs hk

theorem figure_loss : figure c s k * lossOf c k = (s / 10 ^ 6) ^ 2 := by
  unfold figure lossOf
  field_simp

theorem root_spec (hT0 : 0 < p.T) (hpt : p.T < t.T) :
    let M := Real.sqrt (1 + figure c s k * ((p.T + t.T) / 2))
    M ^ 2 = 1 + figure c s k * ((p.T + t.T) / 2) ∧ 1 ≤ M ∧ 0 < figure c s k ∧ 0 < lossOf c k := by
  intro M
  have hf : 0 < figure c s k := by unfold figure; positivity
  have hm : 0 < figure c s k * ((p.T + t.T) / 2) := mul_pos hf (by linarith)
  refine ⟨Real.sq_sqrt (by linarith), ?_, hf, by unfold lossOf; positivity⟩
  exact Real.one_le_sqrt.2 (by linarith)

/-- the textbook efficiency through the potential -/
theorem textbook_ratio (M Tc Th : ℝ) (hM : 1 ≤ M) (hc0 : 0 < Tc) (hh : Tc < Th) :
    100 * ((Th - Tc) / Th * ((M - 1) / (M + Tc / Th))) = 100 * (1 - (M * Tc + Th) / (M * Th + Tc)) := by
  have h1 : 0 < Th := hc0.trans hh
  have h2 : M * Th + Tc ≠ 0 := by positivity
  have h3 : M + Tc / Th ≠ 0 := by positivity
  field_simp
  ring

include hT0 hd hT ht hpt in
/-- **C135** Whatever the current, the efficiency of a leg with constant properties does not exceed the textbook efficiency of its figure of merit
times the mean temperature. -/
theorem C135_bound (u y : ℝ) (hu : 0 < u) (hy : calYita u (p :: rest) = .ok (some y)) :
    y ≤ textbookYita (figure c s k * ((p.T + t.T) / 2)) p.T t.T := by
  rw [uniform_last u c s k hu hc hs hk p t rest hT0 hd hT ht] at hy
  split_ifs at hy with h
  · have hy' := Option.some.inj (Except.ok.inj hy)
    obtain ⟨hM2, hM1, hf, hl⟩ := root_spec c s k hc hs hk p t hT0 hpt
    have hfl := figure_loss c s k hc hs hk
    rw [← hy']
    unfold textbookYita
    rw [textbook_ratio c s k hc hs hk _ _ _ hM1 hT0 hpt]
    generalize Real.sqrt (1 + figure c s k * ((p.T + t.T) / 2)) = M at *
    have hu' : 0 < 1 / u := by positivity
    generalize 1 / u = x at *
    set r := lossOf c k with hr
    set S := s / 10 ^ 6 with hS
    have hS0 : 0 < S := by rw [hS]; positivity
    have hg : 0 ≤ x ^ 2 - 2 * r * (t.T - p.T) := by linarith
    have hsq := Real.sq_sqrt hg
    have hnn := Real.sqrt_nonneg (x ^ 2 - 2 * r * (t.T - p.T))
    generalize Real.sqrt (x ^ 2 - 2 * r * (t.T - p.T)) = v at *
    have hvx : v ≤ x := by
      have : 0 ≤ 2 * r * (t.T - p.T) := mul_nonneg (by linarith) (by linarith)
      nlinarith
    have htT : 0 < t.T := hT0.trans hpt
    have key := hyperbola (M * t.T + p.T) (M * p.T + t.T) x v (by positivity) (by nlinarith) hu'.le hnn hvx
    have e : ((M * t.T + p.T) ^ 2 - (M * p.T + t.T) ^ 2) * (x ^ 2 - v ^ 2) = (S * (t.T ^ 2 - p.T ^ 2)) ^ 2 := by
      have e1 : (M * t.T + p.T) ^ 2 - (M * p.T + t.T) ^ 2 = (M ^ 2 - 1) * (t.T ^ 2 - p.T ^ 2) := by ring
      rw [e1, hM2, hsq, mul_pow, ← hfl]
      ring
    rw [e, Real.sqrt_sq (mul_nonneg hS0.le (by nlinarith))] at key
    have d1 : 0 < M * t.T + p.T := by positivity
    have d2 : 0 < S * t.T + v := by positivity
    have : (M * p.T + t.T) / (M * t.T + p.T) ≤ (S * p.T + x) / (S * t.T + v) := by
      rw [div_le_div_iff₀ d1 d2]
      nlinarith
    linarith
  · cases Except.ok.inj hy

include hT0 hd hT ht hpt in
/-- **C135** The textbook efficiency is reached, at a current below half the upper end of the interval which `optim_u` searches. -/
theorem C135_attained : 0 < bestCurrent c s k p.T t.T ∧ bestCurrent c s k p.T t.T ≤ (bounds p).2 / 2 ∧
    calYita (bestCurrent c s k p.T t.T) (p :: rest) = .ok (some (textbookYita (figure c s k * ((p.T + t.T) / 2)) p.T t.T)) := by
  obtain ⟨hM2, hM1, hf, hl⟩ := root_spec c s k hc hs hk p t hT0 hpt
  have hfl := figure_loss c s k hc hs hk
  have htT : 0 < t.T := hT0.trans hpt
  have hS0 : 0 < s / 10 ^ 6 := by positivity
  have hb0 : 0 < bestCurrent c s k p.T t.T := by
    unfold bestCurrent
    have : 0 < (p.T + t.T) / 2 := by linarith
    positivity
  have hinv : 1 / bestCurrent c s k p.T t.T =
      lossOf c k * (Real.sqrt (1 + figure c s k * ((p.T + t.T) / 2)) * t.T + p.T) / (s / 10 ^ 6 * ((p.T + t.T) / 2)) := by
    unfold bestCurrent
    rw [one_div_div]
  refine ⟨hb0, ?_, ?_⟩
  · have hbd : (bounds p).2 = s / 10 ^ 6 / lossOf c k := by
      obtain ⟨p1, p2, p3⟩ := hd p (by simp)
      unfold bounds
      rw [if_pos (by rw [p2]; exact hs), p1, p2, p3]
      unfold lossOf
      field_simp
      norm_num
    rw [hbd]
    unfold bestCurrent
    generalize Real.sqrt (1 + figure c s k * ((p.T + t.T) / 2)) = M at *
    have : (p.T + t.T) ≤ M * t.T + p.T := by nlinarith
    rw [div_le_iff₀ (by positivity)]
    have e : s / 10 ^ 6 / lossOf c k / 2 * (lossOf c k * (M * t.T + p.T)) = s / 10 ^ 6 * ((M * t.T + p.T) / 2) := by
      field_simp
    rw [e]
    exact mul_le_mul_of_nonneg_left (by linarith) hS0.le
  · rw [uniform_last _ c s k hb0 hc hs hk p t rest hT0 hd hT ht, hinv]
    unfold textbookYita
    rw [textbook_ratio c s k hc hs hk _ _ _ hM1 hT0 hpt]
    generalize Real.sqrt (1 + figure c s k * ((p.T + t.T) / 2)) = M at *
    set r := lossOf c k with hr
    set S := s / 10 ^ 6 with hS
    have hm : 0 < (p.T + t.T) / 2 := by linarith
    have d1 : 0 < M * t.T + p.T := by positivity
    have hv : (r * (M * t.T + p.T) / (S * ((p.T + t.T) / 2))) ^ 2 - 2 * r * (t.T - p.T) = (r * (M * p.T + t.T) / (S * ((p.T + t.T) / 2))) ^ 2 := by
      have e1 : (M * t.T + p.T) ^ 2 - (M * p.T + t.T) ^ 2 = (M ^ 2 - 1) * (t.T ^ 2 - p.T ^ 2) := by ring
      have e2 : r * ((M * t.T + p.T) ^ 2 - (M * p.T + t.T) ^ 2) = S ^ 2 * ((p.T + t.T) / 2) * (t.T ^ 2 - p.T ^ 2) := by
        rw [e1, hM2, ← hfl]
        ring
      have e3 : (r * (M * t.T + p.T) / (S * ((p.T + t.T) / 2))) ^ 2 - (r * (M * p.T + t.T) / (S * ((p.T + t.T) / 2))) ^ 2 =
          r * (r * ((M * t.T + p.T) ^ 2 - (M * p.T + t.T) ^ 2)) / (S * ((p.T + t.T) / 2)) ^ 2 := by
        rw [div_pow, div_pow, ← sub_div]
        congr 1
        ring
      have e4 : (r * (M * t.T + p.T) / (S * ((p.T + t.T) / 2))) ^ 2 - (r * (M * p.T + t.T) / (S * ((p.T + t.T) / 2))) ^ 2 = 2 * r * (t.T - p.T) := by
        rw [e3, e2]
        have : p.T + t.T ≠ 0 := by linarith
        field_simp
        ring
      linarith
    have hle : 2 * r * (t.T - p.T) ≤ (r * (M * t.T + p.T) / (S * ((p.T + t.T) / 2))) ^ 2 := by
      have := sq_nonneg (r * (M * p.T + t.T) / (S * ((p.T + t.T) / 2)))
      linarith
    rw [if_pos hle, hv, Real.sqrt_sq (by positivity)]
    congr 4
    have e5 : S * p.T + r * (M * t.T + p.T) / (S * ((p.T + t.T) / 2)) =
        (S ^ 2 * ((p.T + t.T) / 2) * p.T + r * (M * t.T + p.T)) / (S * ((p.T + t.T) / 2)) := by
      field_simp
    have e6 : S * t.T + r * (M * p.T + t.T) / (S * ((p.T + t.T) / 2)) =
        (S ^ 2 * ((p.T + t.T) / 2) * t.T + r * (M * p.T + t.T)) / (S * ((p.T + t.T) / 2)) := by
      field_simp
    have e7 : S ^ 2 * ((p.T + t.T) / 2) = r * (M ^ 2 - 1) := by
      rw [hM2, ← hfl]
      ring
    rw [e5, e6, e7, div_div_div_cancel_right₀ (by positivity)]
    have e8 : r * (M ^ 2 - 1) * p.T + r * (M * t.T + p.T) = r * M * (M * p.T + t.T) := by ring
    have e9 : r * (M ^ 2 - 1) * t.T + r * (M * p.T + t.T) = r * M * (M * t.T + p.T) := by ring
    have hM0 : 0 < M := by linarith
    rw [e8, e9, mul_div_mul_left _ _ (by positivity)]

include hT0 hd hT ht hpt in
/-- **C135** With a search that finds the best current, the device figure of merit of a leg with constant properties is its figure of merit times the
mean temperature, for any number of points, whether all temperatures or only the last are asked for (provided the best current is not below the
lower end 0.01/V of the interval and the guard of `cal_ZTdev` is not met). -/
theorem C135_device (search : Search) (hf : Best (search (loss (p :: rest)) (bounds p).1 (bounds p).2) (loss (p :: rest)) (bounds p).1 (bounds p).2) (hlow : 1 / 100 ≤ bestCurrent c s k p.T t.T)
    (hguard : 1 / 1000 < (t.T ^ 2 - p.T ^ 2) / (Real.sqrt (1 + figure c s k * ((p.T + t.T) / 2)) * t.T + p.T)) (allTemp : Bool) :
    ∃ v, valuate search (p :: rest) allTemp = .ok v ∧
      v.Yita.getLast? = some (some (textbookYita (figure c s k * ((p.T + t.T) / 2)) p.T t.T)) ∧
      v.ZTdev.getLast? = some (some (figure c s k * ((p.T + t.T) / 2))) := by
  obtain ⟨hb0, hb1, hb2⟩ := C135_attained c s k hc hs hk p t rest hT0 hd hT ht hpt
  obtain ⟨p1, p2, p3⟩ := hd p (by simp)
  have hlo : (bounds p).1 = 1 / 100 := by
    unfold bounds
    rw [if_pos (by rw [p2]; exact hs)]
  have hhi : bestCurrent c s k p.T t.T ≤ (bounds p).2 := by linarith
  have hle : (bounds p).1 ≤ (bounds p).2 := by rw [hlo]; linarith
  obtain ⟨g1, g2, g3, g4⟩ := hf
  set rst := search (loss (p :: rest)) (bounds p).1 (bounds p).2 with hrst
  have hu : optimU search (p :: rest) = .ok (some rst.x) := by
    simp only [optimU]
    rw [if_neg (not_lt.2 hle)]
    change Except.ok (if rst.success = true then some rst.x else none) = _
    rw [g1]
    rfl
  obtain ⟨z, hz, hzle⟩ := g4 (bestCurrent c s k p.T t.T) (-1 * textbookYita (figure c s k * ((p.T + t.T) / 2)) p.T t.T) (by rw [hlo]; exact hlow) hhi
    (by simp only [loss, hb2, Except.map, Option.map_some])
  have hx0 : 0 < rst.x := by rw [hlo] at g2; linarith
  have hyita : calYita rst.x (p :: rest) = .ok (some (textbookYita (figure c s k * ((p.T + t.T) / 2)) p.T t.T)) := by
    cases hcy : calYita rst.x (p :: rest) with
    | error e => rw [loss, hcy] at hz; cases hz
    | ok o =>
      cases o with
      | none => rw [loss, hcy] at hz; cases hz
      | some y =>
        rw [loss, hcy] at hz
        have hy := Option.some.inj (Except.ok.inj hz)
        have := C135_bound c s k hc hs hk p t rest hT0 hd hT ht hpt rst.x y hx0 hcy
        have : y = textbookYita (figure c s k * ((p.T + t.T) / 2)) p.T t.T := by linarith
        rw [this]
  have hzt := (C43_inverts (figure c s k * ((p.T + t.T) / 2)) p.T t.T
    (by have := (root_spec c s k hc hs hk p t hT0 hpt).2.2.1; exact mul_nonneg this.le (by linarith)) hT0 hpt).1 hguard
  obtain ⟨ys, h1, h2, h3⟩ := C135_scan rst.x c s k hx0 hc hs hk p rest hT0 hd hT
  have hlast : ys.getLast? = some (some (textbookYita (figure c s k * ((p.T + t.T) / 2)) p.T t.T)) := by
    simp only [calYita, h1, Except.map] at hyita
    have := Except.ok.inj hyita
    cases hg : ys.getLast? with
    | none => rw [hg] at this; cases this
    | some o => rw [hg] at this; rw [show o = _ from this]
  have hi : (p :: rest)[rest.length]? = some t := by rw [List.getLast?_eq_getElem?] at ht; simpa using ht
  obtain ⟨w, hw⟩ : ∃ w, valuate search (p :: rest) true = .ok w := by
    simp only [valuate, optimYita, hu, if_true, h1]
    exact ⟨_, rfl⟩
  obtain ⟨w1, w2, w3, w4, ⟨u', w5, w6⟩, w7⟩ := C47_all search p rest w hw
  rw [hu] at w5
  have huu := Option.some.inj (Except.ok.inj w5)
  rw [← huu, h1] at w6
  have hwy := Except.ok.inj w6
  have hwz : w.ZTdev.getLast? = some (some (figure c s k * ((p.T + t.T) / 2))) := by
    have hyl : w.Yita[rest.length]? = some (some (textbookYita (figure c s k * ((p.T + t.T) / 2)) p.T t.T)) := by
      rw [List.getLast?_eq_getElem?, h2] at hlast
      rw [← hwy]; exact hlast
    rw [List.getLast?_eq_getElem?, w4, show rest.length + 1 - 1 = rest.length from rfl, w7 _ t hi, hyl]
    simp only [Option.map_some, hzt]
  cases allTemp with
  | true => exact ⟨w, hw, by rw [← hwy]; exact hlast, hwz⟩
  | false =>
    obtain ⟨v, hv⟩ : ∃ v, valuate search (p :: rest) false = .ok v := by
      simp only [valuate, optimYita, hu, hyita, Bool.false_eq_true, if_false, Except.map]
      exact ⟨_, rfl⟩
    obtain ⟨v1, v2, ⟨y, v3, v4, v5⟩, v6⟩ := C47_single search p rest v w hv hw
    refine ⟨v, hv, ?_, by rw [v6, hwz]⟩
    rw [v3, List.getLast?_singleton, ← v4, ← hwy, hlast]

include hT0 hd hT ht hpt in
/-- **C135** But the interval which `optim_u` searches may contain currents with the result NaN: its upper end, whenever the figure of merit times the
temperature difference exceeds one half. -/
theorem C135_nan (h : 1 < 2 * figure c s k * (t.T - p.T)) : calYita (bounds p).2 (p :: rest) = .ok none := by
  obtain ⟨p1, p2, p3⟩ := hd p (by simp)
  have hl : 0 < lossOf c k := by unfold lossOf; positivity
  have hbd : (bounds p).2 = s / 10 ^ 6 / lossOf c k := by
    unfold bounds
    rw [if_pos (by rw [p2]; exact hs), p1, p2, p3]
    unfold lossOf
    field_simp
    norm_num
  rw [uniform_last _ c s k (by rw [hbd]; positivity) hc hs hk p t rest hT0 hd hT ht, if_neg]
  rw [hbd, one_div_div, div_pow, ← figure_loss c s k hc hs hk, not_le]
  have hf : 0 < figure c s k := by unfold figure; positivity
  rw [div_lt_iff₀ (by positivity)]
  nlinarith [mul_pos hl hl]

end

/-- the hypotheses are met: 200 uV/K, 1000 S/cm, 1.5 W/(m.K) from 300 K over 450 K to 600 K; `z·Tm = 1.2` -/
def demoLeg : List TEPoint := [⟨300, 1000, 200, 3 / 2⟩, ⟨450, 1000, 200, 3 / 2⟩, ⟨600, 1000, 200, 3 / 2⟩]

example : Uniform 1000 200 (3 / 2) demoLeg ∧ demoLeg.IsChain (fun a b : TEPoint => a.T < b.T) ∧
    figure 1000 200 (3 / 2) * ((300 + 600) / 2) = 6 / 5 ∧ 1 < 2 * figure 1000 200 (3 / 2) * (600 - 300) ∧
    1 / 100 ≤ bestCurrent 1000 200 (3 / 2) 300 600 := by
  have hf : figure 1000 200 (3 / 2) = 2 / 750 := by unfold figure; norm_num
  refine ⟨?_, ?_, by rw [hf]; norm_num, by rw [hf]; norm_num, ?_⟩
  · intro t ht
    simp only [demoLeg, List.mem_cons, List.not_mem_nil, or_false] at ht
    rcases ht with rfl | rfl | rfl <;> norm_num
  · simp only [demoLeg, List.isChain_cons_cons, List.isChain_singleton, and_true]
    norm_num
  · unfold bestCurrent
    rw [hf]
    unfold lossOf
    have h1 : Real.sqrt (1 + 2 / 750 * ((300 + 600) / 2)) ≤ 2 := by
      rw [Real.sqrt_le_left (by norm_num)]
      norm_num
    have h0 := Real.sqrt_nonneg (1 + 2 / 750 * ((300 + 600) / 2))
    rw [le_div_iff₀ (by positivity)]
    nlinarith

/-- and there is such a search -/
example (c s k : ℝ) (hc : 0 < c) (hs : 0 < s) (hk : 0 < k) (p t : TEPoint) (rest : List TEPoint) (hT0 : 0 < p.T)
    (hd : Uniform c s k (p :: rest)) (hT : List.IsChain (fun a b : TEPoint => a.T < b.T) (p :: rest)) (ht : (p :: rest).getLast? = some t) (hpt : p.T < t.T)
    (hlow : 1 / 100 ≤ bestCurrent c s k p.T t.T) :
    Best ⟨true, bestCurrent c s k p.T t.T, none⟩ (loss (p :: rest)) (bounds p).1 (bounds p).2 := by
  obtain ⟨hb0, hb1, hb2⟩ := C135_attained c s k hc hs hk p t rest hT0 hd hT ht hpt
  have hlo : (bounds p).1 = 1 / 100 := by
    unfold bounds
    rw [if_pos (by rw [(hd p (by simp)).2.1]; exact hs)]
  refine ⟨rfl, by rw [hlo]; exact hlow, by linarith, fun x y h1 h2 hx => ?_⟩
  refine ⟨_, by simp only [loss, hb2, Except.map, Option.map_some]; rfl, ?_⟩
  cases hcy : calYita x (p :: rest) with
  | error e => rw [loss, hcy] at hx; cases hx
  | ok o =>
    cases o with
    | none => rw [loss, hcy] at hx; cases hx
    | some z =>
      rw [loss, hcy] at hx
      have hy := Option.some.inj (Except.ok.inj hx)
      have := C135_bound c s k hc hs hk p t rest hT0 hd hT ht hpt x z (by rw [hlo] at h1; linarith) hcy
      linarith

end

end TEflow.Ztdev
