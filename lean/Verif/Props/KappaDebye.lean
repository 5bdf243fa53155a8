import Mathlib.Tactic
import Mathlib.MeasureTheory.Integral.IntervalIntegral.Basic
import Mathlib.Analysis.SpecialFunctions.Trigonometric.DerivHyp
import Mathlib.Analysis.Convex.Deriv
import Verif.Model.KappaModels
import Verif.Lemmas.Dict
import Verif.Spec.Kappa

/-! # C85, C104: the Debye model -/

open Real
open TEflow.PyDict

namespace TEflow.Kappa

/-! ## specification: labels and prefix sums -/

/-- `'+'.join(tags)` -/
def joinPlus : List Tag → Tag
  | [] => []
  | [t] => t
  | t :: ts => t ++ ['+'] ++ joinPlus ts

/-- the first `i+1` tags joined, and the sum of the first `i+1` values -/
def prefixEntry {α : Type} [AddCommMonoid α] (l : List (Tag × α)) (i : Nat) : Tag × α :=
  (joinPlus ((l.map Prod.fst).take (i + 1)), ((l.map Prod.snd).take (i + 1)).sum)

theorem joinPlus_snoc (ts : List Tag) (h : ts ≠ []) (t : Tag) : joinPlus (ts ++ [t]) = joinPlus ts ++ ['+'] ++ t := by
  induction ts with
  | nil => exact absurd rfl h
  | cons a ts ih =>
    cases ts with
    | nil => rfl
    | cons b ts =>
      have := ih (by simp)
      simp only [List.cons_append] at this ⊢
      simp only [joinPlus, this, List.append_assoc]

theorem accumGo_eq {α : Type} [AddCommMonoid α] (ts : List Tag) (h : ts ≠ []) (s : α) (l : List (Tag × α)) :
    accumGo (joinPlus ts, s) l = (List.range l.length).map fun i =>
      (joinPlus (ts ++ (l.map Prod.fst).take (i + 1)), s + ((l.map Prod.snd).take (i + 1)).sum) := by
  induction l generalizing ts s with
  | nil => rfl
  | cons p l ih =>
    obtain ⟨t, v⟩ := p
    simp only [accumGo]
    have := ih (ts ++ [t]) (by simp) (s + v)
    rw [joinPlus_snoc ts h] at this
    rw [this, List.length_cons, List.range_succ_eq_map, List.map_cons, List.map_map]
    congr 1
    · simp only [List.map_cons, List.take_succ_cons, List.take_zero, List.sum_cons, List.sum_nil, add_zero]
      rw [joinPlus_snoc ts h]
    · apply List.map_congr_left
      intro i _
      simp [Function.comp, add_assoc]

/-- the accumulated list is the list of prefixes -/
theorem accum_eq {α : Type} [AddCommMonoid α] (l : List (Tag × α)) : accum l = (List.range l.length).map (prefixEntry l) := by
  cases l with
  | nil => rfl
  | cons p l =>
    obtain ⟨t, v⟩ := p
    have := accumGo_eq [t] (by simp) v l
    simp only [accum]
    have e : joinPlus [t] = t := rfl
    rw [e] at this
    rw [this, List.length_cons, List.range_succ_eq_map, List.map_cons, List.map_map]
    congr 1
    · simp [prefixEntry, joinPlus]

theorem joinPlus_length (ts : List Tag) (n : Nat) (h : n + 1 < ts.length + 1) :
    (joinPlus (ts.take (n + 1))).length < (joinPlus (ts.take (n + 2))).length ∨ ts.length ≤ n + 1 := by
  by_cases hn : ts.length ≤ n + 1
  · exact .inr hn
  left
  push Not at hn
  have e : ts.take (n + 2) = ts.take (n + 1) ++ [ts[n + 1]] := by
    rw [List.take_add_one, List.getElem?_eq_getElem hn]
    rfl
  rw [e, joinPlus_snoc _ (by
    intro h0
    have := congrArg List.length h0
    rw [List.length_take] at this
    simp at this
    rw [this] at hn
    simp at hn)]
  simp

theorem prefix_nodup (ts : List Tag) : ((List.range ts.length).map fun i => joinPlus (ts.take (i + 1))).Nodup := by
  have mono : ∀ i j, i < j → j < ts.length → (joinPlus (ts.take (i + 1))).length < (joinPlus (ts.take (j + 1))).length := by
    intro i j hij hj
    induction j with
    | zero => omega
    | succ j ih =>
      have step := (joinPlus_length ts j (by omega)).resolve_right (by omega)
      rcases Nat.lt_or_eq_of_le (Nat.lt_succ_iff.mp hij) with h | h
      · exact (ih h (by omega)).trans step
      · rw [h]; exact step
  rw [List.Nodup, List.pairwise_map]
  apply List.Pairwise.imp_of_mem _ (List.pairwise_lt_range (n := ts.length))
  intro i j hi hj hij heq
  have := mono i j hij (List.mem_range.mp hj)
  rw [heq] at this
  exact lt_irrefl _ this

/-- a Debye model as the constructor makes it: no tag twice, at least one mechanism -/
def Debye.Good (d : Debye) : Prop := WF d.scat ∧ WF d.add ∧ d.scat ≠ []

/-! ## construction -/

/-- the scattering mechanisms among the components, in order -/
def scatsOf (cs : List Component) : List (Tag × Rate) :=
  cs.filterMap fun
    | .scattering t r => some (t, r)
    | _ => none

/-- the sub-models among the components, in order -/
def addsOf (cs : List Component) : List (Tag × (ℝ → ℝ)) :=
  cs.filterMap fun
    | .submodel t f => some (t, f)
    | _ => none

theorem collect_ok (cs : List Component) (s : PyDict Tag Rate) (a : PyDict Tag (ℝ → ℝ)) (r) (hs : WF s) (ha : WF a) :
    collect cs s a = .ok r ↔ (.other ∉ cs ∧ WF (s ++ scatsOf cs) ∧ WF (a ++ addsOf cs) ∧ r = (s ++ scatsOf cs, a ++ addsOf cs)) := by
  induction cs generalizing s a with
  | nil =>
    simp only [collect, scatsOf, addsOf, List.filterMap_nil, List.append_nil, List.not_mem_nil, not_false_eq_true, true_and, hs, ha]
    constructor
    · intro h; cases h; rfl
    · intro h; rw [h]
  | cons c cs ih =>
    cases c with
    | other => simp [collect]
    | scattering t q =>
      have e1 : scatsOf (.scattering t q :: cs) = (t, q) :: scatsOf cs := rfl
      have e2 : addsOf (.scattering t q :: cs) = addsOf cs := rfl
      simp only [collect]
      by_cases h : has s t = true
      · rw [if_pos h, e1, e2]
        constructor
        · intro h; cases h
        · rintro ⟨_, hw, _⟩
          exfalso
          rw [WF, keys_append, List.nodup_append] at hw
          exact hw.2.2 t ((has_iff s t).mp h) t (by simp [keys]) rfl
      · have hn : t ∉ keys s := fun hm => h ((has_iff s t).mpr hm)
        rw [if_neg h, ih _ _ (hs.set t q) ha, e1, e2, set_of_not_mem hn]
        simp only [List.append_assoc, List.singleton_append, List.mem_cons, reduceCtorEq, false_or]
    | submodel t q =>
      have e1 : scatsOf (.submodel t q :: cs) = scatsOf cs := rfl
      have e2 : addsOf (.submodel t q :: cs) = (t, q) :: addsOf cs := rfl
      simp only [collect]
      by_cases h : has a t = true
      · rw [if_pos h, e1, e2]
        constructor
        · intro h; cases h
        · rintro ⟨_, _, hw, _⟩
          exfalso
          rw [WF, keys_append, List.nodup_append] at hw
          exact hw.2.2 t ((has_iff a t).mp h) t (by simp [keys]) rfl
      · have hn : t ∉ keys a := fun hm => h ((has_iff a t).mpr hm)
        rw [if_neg h, ih _ _ hs (ha.set t q), e1, e2, set_of_not_mem hn]
        simp only [List.append_assoc, List.singleton_append, List.mem_cons, reduceCtorEq, false_or]

/-- **C85** A Debye model is built exactly when every component is a mechanism or a sub-model, no two mechanisms share a tag,
no two sub-models share a tag, and there is at least one mechanism; it then holds them in the order given. -/
theorem C85_make (vs td : ℝ) (cs : List Component) (d : Debye) :
    Debye.make vs td cs = .ok d ↔
      (.other ∉ cs ∧ ((scatsOf cs).map Prod.fst).Nodup ∧ ((addsOf cs).map Prod.fst).Nodup ∧ scatsOf cs ≠ [] ∧
        d = ⟨vs, td, scatsOf cs, addsOf cs⟩) := by
  have h := fun r => collect_ok cs [] [] r WF_nil WF_nil
  simp only [List.nil_append] at h
  unfold Debye.make
  cases hc : collect cs [] [] with
  | error e =>
    simp only [reduceCtorEq, false_iff]
    rintro ⟨h1, h2, h3, h4, h5⟩
    have := (h _).mpr ⟨h1, h2, h3, rfl⟩
    rw [hc] at this
    cases this
  | ok r =>
    obtain ⟨h1, h2, h3, h4⟩ := (h r).mp hc
    subst h4
    simp only
    constructor
    · intro hd
      split at hd
      · cases hd
      · next hne =>
        cases hd
        exact ⟨h1, h2, h3, by simpa using hne, rfl⟩
    · rintro ⟨_, _, _, h6, h7⟩
      rw [if_neg (by simpa using h6), h7]

theorem collect_error (cs : List Component) (s : PyDict Tag Rate) (a : PyDict Tag (ℝ → ℝ)) (e : PyErr) (h : collect cs s a = .error e) :
    e = .valueError ∨ (e = .notImplementedError ∧ .other ∈ cs) := by
  induction cs generalizing s a with
  | nil => cases h
  | cons c cs ih =>
    cases c with
    | other => cases h; exact .inr ⟨rfl, by simp⟩
    | scattering t r =>
      rw [collect] at h
      split at h
      · cases h; exact .inl rfl
      · rcases ih _ _ h with h | ⟨h, h'⟩
        · exact .inl h
        · exact .inr ⟨h, by simp [h']⟩
    | submodel t r =>
      rw [collect] at h
      split at h
      · cases h; exact .inl rfl
      · rcases ih _ _ h with h | ⟨h, h'⟩
        · exact .inl h
        · exact .inr ⟨h, by simp [h']⟩

/-- **C85** What is refused: repeated tags and a missing mechanism are `ValueError`s; only an object that is neither a mechanism nor a sub-model can
be a `NotImplementedError`. -/
theorem C85_refused (vs td : ℝ) (cs : List Component) (e : PyErr) (h : Debye.make vs td cs = .error e) :
    e = .valueError ∨ (e = .notImplementedError ∧ .other ∈ cs) := by
  unfold Debye.make at h
  cases hc : collect cs [] [] with
  | error x => rw [hc] at h; cases h; exact collect_error _ _ _ _ hc
  | ok r =>
    rw [hc] at h
    simp only at h
    split at h
    · cases h; exact .inl rfl
    · cases h

/-- the models that the constructor returns are good -/
theorem make_good {vs td : ℝ} {cs : List Component} {d : Debye} (h : Debye.make vs td cs = .ok d) : d.Good := by
  obtain ⟨_, h2, h3, h4, h5⟩ := (C85_make vs td cs d).mp h
  rw [h5]
  exact ⟨h2, h3, h4⟩

/-! ## rates -/

theorem keys_map {α β : Type} (d : PyDict Tag α) (f : α → β) : keys (d.map fun p => (p.1, f p.2)) = keys d := by
  simp [keys, List.map_map, Function.comp]

/-- **C85** The reported rates are those of the mechanisms in order, and the total is their sum (no mechanism being called
`total`). -/
theorem C85_total (d : Debye) (h : d.Good) (hn : totalTag ∉ keys d.scat) (w T : ℝ) :
    d.scattering w T false = d.scat.map (fun p => (p.1, p.2 w T)) ∧
    d.scattering w T true = d.scat.map (fun p => (p.1, p.2 w T)) ++ [(totalTag, (d.scat.map fun p => p.2 w T).sum)] := by
  have e : ofPairs (d.scat.map fun p => (p.1, p.2 w T)) = d.scat.map fun p => (p.1, p.2 w T) := by
    apply ofPairs_of_WF
    rw [WF, keys_map d.scat (fun r => r w T)]
    exact h.1
  unfold Debye.scattering
  simp only [e]
  refine ⟨rfl, ?_⟩
  simp only [if_true]
  rw [set_of_not_mem (by rw [keys_map d.scat (fun r => r w T)]; exact hn), List.map_map]
  rfl

/-- **C85** (finding) A mechanism called `total` is shadowed: its own rate is replaced by the total in the report. -/
theorem C85_total_clash (d : Debye) (h : d.Good) (w T : ℝ) :
    get? (d.scattering w T true) totalTag = some (d.scat.map fun p => p.2 w T).sum ∧
    (totalTag ∈ keys d.scat → (d.scattering w T true).length = d.scat.length) := by
  have e : ofPairs (d.scat.map fun p => (p.1, p.2 w T)) = d.scat.map fun p => (p.1, p.2 w T) := by
    apply ofPairs_of_WF
    rw [WF, keys_map d.scat (fun r => r w T)]
    exact h.1
  unfold Debye.scattering
  simp only [e, if_true]
  constructor
  · rw [get?_set, if_pos rfl, List.map_map]
    rfl
  · intro hm
    have : keys (set (d.scat.map fun p => (p.1, p.2 w T)) totalTag (List.map Prod.snd (d.scat.map fun p => (p.1, p.2 w T))).sum) =
        keys d.scat := by
      rw [keys_set, if_pos (by rw [keys_map d.scat (fun r => r w T)]; exact hm), keys_map d.scat (fun r => r w T)]
    have := congrArg List.length this
    simpa [keys] using this

/-! ## spectral curves -/

/-- the sum of the rates of the first `n` mechanisms -/
def rateUpTo (d : Debye) (n : Nat) (w T : ℝ) : ℝ := ((d.scat.map fun p => p.2 w T).take n).sum

/-- **C85** The accumulated spectral curves: the `i`-th is labelled by the first `i+1` tags joined with `+` and is the spectral
factor over the summed rates of these mechanisms; no curve is lost. -/
theorem C85_spectral (d : Debye) (w T : ℝ) :
    d.spectral w T true = (List.range d.scat.length).map fun i =>
      (joinPlus ((keys d.scat).take (i + 1)), d.factor (max eps w) T / rateUpTo d (i + 1) (max eps w) T) := by
  unfold Debye.spectral
  simp only [if_true]
  rw [accum_eq, List.map_map, List.length_map]
  have e : ((List.range d.scat.length).map ((fun p : Tag × ℝ => (p.1, d.factor (max eps w) T / p.2)) ∘
      prefixEntry (d.scat.map fun p => (p.1, p.2 (max eps w) T)))) = (List.range d.scat.length).map fun i =>
      (joinPlus ((keys d.scat).take (i + 1)), d.factor (max eps w) T / rateUpTo d (i + 1) (max eps w) T) := by
    apply List.map_congr_left
    intro i _
    simp only [Function.comp, prefixEntry, rateUpTo, List.map_map, keys]
    rfl
  rw [e]
  apply ofPairs_of_WF
  rw [WF, keys, List.map_map]
  have := prefix_nodup (keys d.scat)
  have hl : (keys d.scat).length = d.scat.length := by simp [keys]
  rw [hl] at this
  exact this

/-- **C85** Without accumulation every mechanism has its own curve under its own tag. -/
theorem C85_spectral_single (d : Debye) (h : d.Good) (w T : ℝ) :
    d.spectral w T false = d.scat.map fun p => (p.1, d.factor (max eps w) T / p.2 (max eps w) T) := by
  unfold Debye.spectral
  simp only [Bool.false_eq_true, if_false, List.map_map]
  have e : d.scat.map ((fun p : Tag × ℝ => (p.1, d.factor (max eps w) T / p.2)) ∘ fun p => (p.1, p.2 (max eps w) T)) =
      d.scat.map fun p => (p.1, d.factor (max eps w) T / p.2 (max eps w) T) := rfl
  rw [e]
  apply ofPairs_of_WF
  rw [WF, keys_map d.scat (fun r => d.factor (max eps w) T / r (max eps w) T)]
  exact h.1

/-- rates are positive -/
def Debye.Positive (d : Debye) : Prop := ∀ p ∈ d.scat, ∀ w T, 0 < w → 0 < T → 0 < p.2 w T

theorem rateUpTo_succ (d : Debye) (n : Nat) (w T : ℝ) :
    rateUpTo d (n + 1) w T = rateUpTo d n w T + (((d.scat.map fun p => p.2 w T)[n]?).getD 0) := by
  unfold rateUpTo
  rw [List.take_add_one, List.sum_append]
  congr 1
  cases (d.scat.map fun p => p.2 w T)[n]? <;> simp

theorem rate_nonneg (d : Debye) (hp : d.Positive) (n : Nat) (w T : ℝ) (hw : 0 < w) (hT : 0 < T) :
    0 ≤ ((d.scat.map fun p => p.2 w T)[n]?).getD 0 := by
  rw [List.getElem?_map]
  cases h : d.scat[n]? with
  | none => simp
  | some p => exact (hp p (List.mem_of_getElem? h) w T hw hT).le

theorem rateUpTo_mono (d : Debye) (hp : d.Positive) (w T : ℝ) (hw : 0 < w) (hT : 0 < T) {m n : Nat} (h : m ≤ n) :
    rateUpTo d m w T ≤ rateUpTo d n w T := by
  induction n, h using Nat.le_induction with
  | base => exact le_refl _
  | succ n hn ih =>
    rw [rateUpTo_succ]
    linarith [rate_nonneg d hp n w T hw hT]

theorem rateUpTo_pos (d : Debye) (h : d.Good) (hp : d.Positive) (w T : ℝ) (hw : 0 < w) (hT : 0 < T) {n : Nat} (hn : n ≠ 0) :
    0 < rateUpTo d n w T := by
  have : 0 < rateUpTo d 1 w T := by
    cases hs : d.scat with
    | nil => exact absurd hs h.2.2
    | cons p l =>
      unfold rateUpTo
      rw [hs]
      simp only [List.map_cons, List.take_succ_cons, List.take_zero, List.sum_cons, List.sum_nil, add_zero]
      exact hp p (by rw [hs]; simp) w T hw hT
  exact lt_of_lt_of_le this (rateUpTo_mono d hp w T hw hT (by omega))

theorem bose_pos {x : ℝ} (hx : 0 < x) : 0 < x ^ 2 * exp x / (exp x - 1) ^ 2 := by
  have h1 : 0 < exp x - 1 := by linarith [add_one_lt_exp hx.ne']
  have := exp_pos x
  positivity

theorem hbarKB_pos : 0 < hbarKB := by unfold hbarKB; norm_num

theorem spectralFactor_pos (vs w T : ℝ) (hv : 0 < vs) (hw : 0 < w) (hT : 0 < T) : 0 < spectralFactor vs w T := by
  have hh := hbarKB_pos
  have := bose_pos (x := w / T * hbarKB) (by positivity)
  have hpi := pi_pos
  unfold spectralFactor
  simp only
  positivity

theorem factor_nonneg (d : Debye) (hv : 0 < d.vs) (w T : ℝ) (hw : 0 < w) (hT : 0 < T) : 0 ≤ d.factor w T := by
  unfold Debye.factor
  split
  · exact (spectralFactor_pos _ _ _ hv hw hT).le
  · exact le_refl _

theorem eps_pos : 0 < eps := by unfold eps; norm_num

/-- **C85** The cut-off frequency satisfies `ħ ω_D = k_B Θ` (with `ω_D` in rad/ps, up to the rounding of the constant), and with
the Debye temperature computed from a sound velocity and a volume per atom it is `(6 π² / V_a)^(1/3) v_s`. -/
theorem C85_cutoff (d : Debye) (htd : 0 ≤ d.td) :
    |KappaSpec.hbar * (10 ^ 12 * d.wd) - KappaSpec.kB * d.td| ≤ 1 / 10 ^ 9 * (KappaSpec.kB * d.td) ∧
    ∀ Va, d.td = vsToTd d.vs Va → d.wd = 10 * (6 * Real.pi ^ 2 / Va) ^ (1 / 3 : ℝ) * d.vs := by
  constructor
  · unfold Debye.wd KappaSpec.hbar KappaSpec.kB hbarKB
    rw [abs_le]
    constructor <;> linarith
  · intro Va h
    unfold Debye.wd
    rw [h]
    unfold vsToTd
    have h0 : hbarKB ≠ 0 := by unfold hbarKB; norm_num
    field_simp

/-- **C85** The spectral curve is positive up to the cut-off frequency and zero beyond it. -/
theorem C85_support (d : Debye) (h : d.Good) (hp : d.Positive) (hv : 0 < d.vs) (w T : ℝ) (hw : eps ≤ w) (hT : 0 < T) :
    ∀ v ∈ (d.spectral w T false).map Prod.snd, (0 < v ↔ w ≤ d.wd) ∧ (v = 0 ↔ d.wd < w) := by
  intro v hm
  rw [C85_spectral_single d h, List.map_map, List.mem_map] at hm
  obtain ⟨p, hpm, rfl⟩ := hm
  have w0 : 0 < w := lt_of_lt_of_le eps_pos hw
  simp only [Function.comp, max_eq_right hw]
  have hr := hp p hpm w T w0 hT
  have hs := spectralFactor_pos d.vs w T hv w0 hT
  unfold Debye.factor
  by_cases hc : w ≤ d.wd
  · have := div_pos hs hr
    simp only [if_pos hc]
    exact ⟨⟨fun _ => hc, fun _ => this⟩, ⟨fun h0 => absurd h0 this.ne', fun h0 => absurd hc (not_le.mpr h0)⟩⟩
  · simp only [if_neg hc, zero_div]
    exact ⟨⟨fun h0 => absurd h0 (lt_irrefl _), fun h0 => absurd h0 hc⟩, ⟨fun _ => not_le.mp hc, fun _ => trivial⟩⟩

/-- **C85** Adding mechanisms never raises the accumulated spectral curve, and the last one belongs to the total rate. -/
theorem C85_spectral_decreasing (d : Debye) (h : d.Good) (hp : d.Positive) (hv : 0 < d.vs) (w T : ℝ) (hT : 0 < T) :
    List.Pairwise (fun a b => b ≤ a) ((d.spectral w T true).map Prod.snd) ∧
    (∀ v ∈ (d.spectral w T true).map Prod.snd, 0 ≤ v) ∧
    ((d.spectral w T true).map Prod.snd).getLast? =
      some (d.factor (max eps w) T / (d.scat.map fun p => p.2 (max eps w) T).sum) := by
  have hw : 0 < max eps w := lt_of_lt_of_le eps_pos (le_max_left _ _)
  have hf := factor_nonneg d hv _ T hw hT
  rw [C85_spectral, List.map_map]
  refine ⟨?_, ?_, ?_⟩
  · rw [List.pairwise_map]
    apply List.Pairwise.imp _ List.pairwise_lt_range
    intro i j hij
    exact div_le_div_of_nonneg_left hf (rateUpTo_pos d h hp _ T hw hT (by omega)) (rateUpTo_mono d hp _ T hw hT (by omega))
  · intro v hv'
    rw [List.mem_map] at hv'
    obtain ⟨i, _, rfl⟩ := hv'
    exact div_nonneg hf (rateUpTo_pos d h hp _ T hw hT (by omega)).le
  · obtain ⟨n, hn⟩ : ∃ n, d.scat.length = n + 1 := by
      cases hs : d.scat with
      | nil => exact absurd hs h.2.2
      | cons p l => exact ⟨l.length, rfl⟩
    rw [hn, List.range_succ, List.map_append]
    simp only [List.map_cons, List.map_nil, List.getLast?_append, List.getLast?_singleton, Option.some_or, Function.comp]
    unfold rateUpTo
    rw [List.take_of_length_le (by simp [hn])]

/-! ## conductivity -/

theorem spectralSum_eq (d : Debye) (w T : ℝ) (n : Nat) (hn : n ≠ 0) :
    d.spectralSum w T n = spectralFactor d.vs w T / rateUpTo d n w T := by
  unfold Debye.spectralSum rateUpTo
  simp only [if_pos hn]
  rw [← List.map_take, ← List.map_take, List.map_map]
  rfl

theorem spectralSum_zero (d : Debye) (w T : ℝ) (n : Nat) (h : d.scat.length ≤ n) :
    d.spectralSum w T n = d.spectralSum w T 0 := by
  unfold Debye.spectralSum
  by_cases hn : n = 0
  · rw [hn]
  · simp only [if_pos hn, ne_eq, not_true_eq_false, if_false]
    rw [List.take_of_length_le (by simpa using h)]

/-- **C85** The conductivity is the part of all mechanisms plus the sub-models, whatever the quadrature; asking for at least as
many mechanisms as there are (or for 0) gives all of them; the split curves of a fit therefore end with the lattice part of the
total. -/
theorem C85_call (quad : (ℝ → ℝ) → ℝ → ℝ → ℝ) (d : Debye) (T : ℝ) :
    d.call quad T none = d.call quad T (some d.scat.length) + (d.add.map fun p => p.2 T).sum ∧
    ∀ n, d.scat.length ≤ n → d.call quad T (some n) = d.call quad T (some 0) := by
  have key : ∀ n, d.scat.length ≤ n → d.call quad T (some n) = d.call quad T (some 0) := by
    intro n hn
    unfold Debye.call
    simp only
    have : (fun w => d.spectralSum w T n) = fun w => d.spectralSum w T 0 := by
      funext w
      exact spectralSum_zero d w T n hn
    rw [this]
  refine ⟨?_, key⟩
  rw [key _ (le_refl _)]
  rfl

/-- the integral itself in place of its numerical approximation -/
noncomputable def exactQuad (f : ℝ → ℝ) (a b : ℝ) : ℝ := ∫ x in a..b, f x

/-- rates are continuous in the frequency -/
def Debye.Continuous (d : Debye) : Prop := ∀ p ∈ d.scat, ∀ T, 0 < T → ContinuousOn (fun w => p.2 w T) (Set.Ioi 0)

theorem rateUpTo_cont (d : Debye) (hc : d.Continuous) (T : ℝ) (hT : 0 < T) (n : Nat) :
    ContinuousOn (fun w => rateUpTo d n w T) (Set.Ioi 0) := by
  induction n with
  | zero =>
    have : (fun w => rateUpTo d 0 w T) = fun _ => 0 := by
      funext w
      simp [rateUpTo]
    rw [this]
    exact continuousOn_const
  | succ n ih =>
    have : (fun w => rateUpTo d (n + 1) w T) = fun w => rateUpTo d n w T + ((d.scat.map fun p => p.2 w T)[n]?).getD 0 := by
      funext w
      exact rateUpTo_succ d n w T
    rw [this]
    refine ih.add ?_
    cases h : d.scat[n]? with
    | none =>
      have : (fun w => ((d.scat.map fun p => p.2 w T)[n]?).getD 0) = fun _ => 0 := by
        funext w
        rw [List.getElem?_map, h]
        rfl
      rw [this]
      exact continuousOn_const
    | some p =>
      have : (fun w => ((d.scat.map fun p => p.2 w T)[n]?).getD 0) = fun w => p.2 w T := by
        funext w
        rw [List.getElem?_map, h]
        rfl
      rw [this]
      exact hc p (List.mem_of_getElem? h) T hT

theorem spectralFactor_cont (vs T : ℝ) (hv : 0 < vs) (hT : 0 < T) :
    ContinuousOn (fun w => spectralFactor vs w T) (Set.Ioi 0) := by
  have hh := hbarKB_pos
  unfold spectralFactor
  simp only
  refine ContinuousOn.mul (by fun_prop) (ContinuousOn.mul (ContinuousOn.div (by fun_prop) (by fun_prop) ?_) continuousOn_const)
  intro w hw
  have hx : 0 < w / T * hbarKB := by
    have : (0 : ℝ) < w := hw
    positivity
  have h1 : 0 < exp (w / T * hbarKB) - 1 := by linarith [add_one_lt_exp hx.ne']
  positivity

/-- **C85** With the integral computed exactly, including more scattering mechanisms never raises the lattice conductivity,
which is positive (Matthiessen's rule), for positive continuous rates. -/
theorem C85_matthiessen (d : Debye) (h : d.Good) (hp : d.Positive) (hc : d.Continuous) (hv : 0 < d.vs) (T : ℝ) (hT : 0 < T)
    (hwd : eps ≤ d.wd) (m n : Nat) (hm : m ≠ 0) (hmn : m ≤ n) :
    d.call exactQuad T (some n) ≤ d.call exactQuad T (some m) ∧ 0 ≤ d.call exactQuad T (some n) ∧
    d.call exactQuad T (some 0) ≤ d.call exactQuad T (some m) := by
  have sub : Set.uIcc eps d.wd ⊆ Set.Ioi 0 := by
    rw [Set.uIcc_of_le hwd]
    intro w hw
    exact lt_of_lt_of_le eps_pos hw.1
  have cont : ∀ k, k ≠ 0 → IntervalIntegrable (fun w => d.spectralSum w T k) MeasureTheory.volume eps d.wd := by
    intro k hk
    apply ContinuousOn.intervalIntegrable
    have : (fun w => d.spectralSum w T k) = fun w => spectralFactor d.vs w T / rateUpTo d k w T := by
      funext w
      exact spectralSum_eq d w T k hk
    rw [this]
    refine ContinuousOn.div ((spectralFactor_cont _ T hv hT).mono sub) ((rateUpTo_cont d hc T hT k).mono sub) ?_
    intro w hw
    exact (rateUpTo_pos d h hp w T (sub hw) hT hk).ne'
  have mono : ∀ k l, k ≠ 0 → k ≤ l → d.call exactQuad T (some l) ≤ d.call exactQuad T (some k) := by
    intro k l hk hkl
    unfold Debye.call exactQuad
    apply intervalIntegral.integral_mono_on hwd (cont l (by omega)) (cont k hk)
    intro w hw
    have hw0 : 0 < w := lt_of_lt_of_le eps_pos hw.1
    rw [spectralSum_eq _ _ _ _ (by omega), spectralSum_eq _ _ _ _ hk]
    exact div_le_div_of_nonneg_left (spectralFactor_pos _ _ _ hv hw0 hT).le (rateUpTo_pos d h hp w T hw0 hT hk)
      (rateUpTo_mono d hp w T hw0 hT hkl)
  refine ⟨mono m n hm hmn, ?_, ?_⟩
  · unfold Debye.call exactQuad
    apply intervalIntegral.integral_nonneg hwd
    intro w hw
    have hw0 : 0 < w := lt_of_lt_of_le eps_pos hw.1
    rw [spectralSum_eq _ _ _ _ (by omega)]
    exact div_nonneg (spectralFactor_pos _ _ _ hv hw0 hT).le (rateUpTo_pos d h hp w T hw0 hT (by omega)).le
  · rw [← (C85_call exactQuad d T).2 (max m d.scat.length) (le_max_right _ _)]
    exact mono m _ hm (le_max_left _ _)

/-! ## the spectral factor -/

/-- **C104** The spectral factor is the documented integrand of the Debye model without the lifetime,
`1/3 v² g(ω) ħω ∂f/∂T` with the Debye density of states `g = 3ω²/(2π²v³)` and the Bose function `f` (SI units, `ħ` being the
rounded `hbar/kB` of the code times `kB`). -/
theorem C104_integrand (vs w T : ℝ) (hv : 0 < vs) (hw : 0 < w) (hT : 0 < T) (v om hb : ℝ) (hvv : v = 10 ^ 3 * vs)
    (hom : om = 10 ^ 12 * w) (hhb : hb = hbarKB / 10 ^ 12 * KappaSpec.kB) :
    ∃ f', HasDerivAt (fun T => 1 / (exp (hb * om / (KappaSpec.kB * T)) - 1)) f' T ∧
      spectralFactor vs w T = 1 / 3 * v ^ 2 * (3 * om ^ 2 / (2 * π ^ 2 * v ^ 3)) * (hb * om) * f' := by
  have hh := hbarKB_pos
  have hk : 0 < KappaSpec.kB := by unfold KappaSpec.kB; norm_num
  have hpi := pi_pos
  set a := w * hbarKB with ha
  have ha0 : 0 < a := by positivity
  have ea : ∀ T, hb * om / (KappaSpec.kB * T) = a / T := by
    intro T
    rw [hhb, hom, ha]
    field_simp
  simp only [ea]
  have hx : 0 < a / T := by positivity
  have h1 : 0 < exp (a / T) - 1 := by linarith [add_one_lt_exp hx.ne']
  have hd : HasDerivAt (fun T => 1 / (exp (a / T) - 1)) (a / T ^ 2 * exp (a / T) / (exp (a / T) - 1) ^ 2) T := by
    have h2 : HasDerivAt (fun T => a / T) (-(a / T ^ 2)) T := by
      have := (hasDerivAt_inv hT.ne').const_mul a
      refine HasDerivAt.congr_deriv (f := fun T => a / T) this ?_
      field_simp
    have h3 := (h2.exp.sub_const 1).inv h1.ne'
    refine HasDerivAt.congr_deriv (f := fun T => 1 / (exp (a / T) - 1)) (h3.congr_of_eventuallyEq ?_) ?_
    · filter_upwards with T
      simp
    · field_simp
  refine ⟨_, hd, ?_⟩
  have ex : w / T * hbarKB = a / T := by rw [ha]; ring
  have e2 : hb * om = KappaSpec.kB * a := by
    rw [hhb, hom, ha]; field_simp
  unfold spectralFactor
  simp only [ex]
  rw [e2, hvv, hom]
  unfold KappaSpec.kB
  field_simp

theorem bose_sinh {x : ℝ} (hx : 0 < x) : x ^ 2 * exp x / (exp x - 1) ^ 2 = ((x / 2) / sinh (x / 2)) ^ 2 := by
  have h1 : 0 < exp x - 1 := by linarith [add_one_lt_exp hx.ne']
  rw [sinh_eq]
  have e : exp x = exp (x / 2) ^ 2 := by rw [← exp_nat_mul]; congr 1; push_cast; ring
  rw [exp_neg]
  rw [e] at h1 ⊢
  set s := exp (x / 2)
  have hs : 0 < s := exp_pos _
  have h2 : s - s⁻¹ ≠ 0 := by
    have : s - s⁻¹ = (s ^ 2 - 1) / s := by field_simp
    rw [this]
    positivity
  have h3 : s - s⁻¹ = (s ^ 2 - 1) / s := by field_simp
  rw [h3]
  field_simp

theorem sinh_ratio {a b : ℝ} (ha : 0 < a) (hab : a ≤ b) : b / sinh b ≤ a / sinh a := by
  have hb : 0 < b := lt_of_lt_of_le ha hab
  have hc : ConvexOn ℝ (Set.Ici 0) sinh := by
    apply MonotoneOn.convexOn_of_deriv (convex_Ici 0) continuous_sinh.continuousOn differentiable_sinh.differentiableOn
    rw [Real.deriv_sinh, interior_Ici]
    intro x hx y hy hxy
    exact cosh_le_cosh.mpr (by rw [abs_of_pos hx, abs_of_pos hy]; exact hxy)
  have w1 : 0 ≤ 1 - a / b := by rw [sub_nonneg, div_le_one hb]; exact hab
  have w2 : 0 ≤ a / b := by positivity
  have := hc.2 (Set.mem_Ici.mpr (le_refl (0 : ℝ))) (Set.mem_Ici.mpr hb.le) w1 w2 (by ring)
  simp only [smul_eq_mul, mul_zero, zero_add, sinh_zero] at this
  rw [div_mul_cancel₀ _ hb.ne'] at this
  have hsa := sinh_pos_iff.mpr ha
  have hsb := sinh_pos_iff.mpr hb
  rw [div_le_div_iff₀ hsb hsa]
  have h2 := mul_le_mul_of_nonneg_left this hb.le
  have e : b * (a / b * sinh b) = a * sinh b := by field_simp
  linarith

/-- **C104** The spectral factor is positive, grows with the temperature and stays below its classical (Dulong–Petit) value
`kB ω²/(2π² v)`. -/
theorem C104_bounds (vs w T T' : ℝ) (hv : 0 < vs) (hw : 0 < w) (hT : 0 < T) (hTT : T ≤ T') :
    0 < spectralFactor vs w T ∧ spectralFactor vs w T ≤ spectralFactor vs w T' ∧
    spectralFactor vs w T ≤ 1380649 / 10 ^ 8 * w ^ 2 / (2 * π ^ 2 * vs) := by
  have hh := hbarKB_pos
  have hpi := pi_pos
  have hT' : 0 < T' := lt_of_lt_of_le hT hTT
  have hx : 0 < w / T * hbarKB := by positivity
  have hx' : 0 < w / T' * hbarKB := by positivity
  refine ⟨spectralFactor_pos _ _ _ hv hw hT, ?_, ?_⟩
  · unfold spectralFactor
    simp only
    rw [bose_sinh hx, bose_sinh hx']
    have hr : w / T' * hbarKB / 2 ≤ w / T * hbarKB / 2 := by gcongr
    have := sinh_ratio (by positivity : 0 < w / T' * hbarKB / 2) hr
    have h0 : 0 ≤ w / T * hbarKB / 2 / sinh (w / T * hbarKB / 2) := by
      have := sinh_pos_iff.mpr (by positivity : 0 < w / T * hbarKB / 2)
      positivity
    have hsq : (w / T * hbarKB / 2 / sinh (w / T * hbarKB / 2)) ^ 2 ≤ (w / T' * hbarKB / 2 / sinh (w / T' * hbarKB / 2)) ^ 2 :=
      pow_le_pow_left₀ h0 this 2
    apply mul_le_mul_of_nonneg_left _ (by positivity)
    exact mul_le_mul_of_nonneg_right hsq (by norm_num)
  · unfold spectralFactor
    simp only
    rw [bose_sinh hx]
    have hp : 0 < w / T * hbarKB / 2 := by positivity
    have hs := sinh_pos_iff.mpr hp
    have : (w / T * hbarKB / 2 / sinh (w / T * hbarKB / 2)) ^ 2 ≤ 1 := by
      apply pow_le_one₀ (by positivity)
      rw [div_le_one hs]
      exact self_le_sinh_iff.mpr hp.le
    have e : 1380649 / 10 ^ 8 * w ^ 2 / (2 * π ^ 2 * vs) = (w / π) ^ 2 / (2 * vs) * (1 * (1380649 / 10 ^ 8)) := by
      field_simp
    rw [e]
    apply mul_le_mul_of_nonneg_left _ (by positivity)
    exact mul_le_mul_of_nonneg_right this (by norm_num)

/-- **C104** In the limit of high temperatures the classical value is reached. -/
theorem C104_classical (vs w : ℝ) (hv : 0 < vs) (hw : 0 < w) :
    Filter.Tendsto (spectralFactor vs w) Filter.atTop (nhds (1380649 / 10 ^ 8 * w ^ 2 / (2 * π ^ 2 * vs))) := by
  have hh := hbarKB_pos
  have hpi := pi_pos
  have hx : Filter.Tendsto (fun T : ℝ => w / T * hbarKB / 2) Filter.atTop (nhdsWithin 0 {0}ᶜ) := by
    apply tendsto_nhdsWithin_iff.mpr
    constructor
    · have := (tendsto_inv_atTop_zero (𝕜 := ℝ)).const_mul (w * hbarKB / 2)
      rw [mul_zero] at this
      refine this.congr fun T => ?_
      ring
    · filter_upwards [Filter.eventually_gt_atTop 0] with T hT
      have : 0 < w / T * hbarKB / 2 := by positivity
      exact this.ne'
  have hs : Filter.Tendsto (fun x : ℝ => sinh x / x) (nhdsWithin 0 {0}ᶜ) (nhds 1) := by
    have := (hasDerivAt_iff_tendsto_slope.mp (hasDerivAt_sinh 0))
    rw [cosh_zero] at this
    refine this.congr fun x => ?_
    simp [slope_def_field]
  have hr : Filter.Tendsto (fun x : ℝ => (x / sinh x) ^ 2) (nhdsWithin 0 {0}ᶜ) (nhds 1) := by
    have := (hs.inv₀ one_ne_zero).pow 2
    rw [inv_one, one_pow] at this
    refine this.congr fun x => ?_
    rw [inv_div]
  have h1 := ((hr.comp hx).mul_const (1380649 / 10 ^ 8)).const_mul ((w / π) ^ 2 / (2 * vs))
  have e : 1380649 / 10 ^ 8 * w ^ 2 / (2 * π ^ 2 * vs) = (w / π) ^ 2 / (2 * vs) * (1 * (1380649 / 10 ^ 8)) := by
    field_simp
  rw [e]
  refine h1.congr' ?_
  filter_upwards [Filter.eventually_gt_atTop 0] with T hT
  unfold spectralFactor
  simp only [Function.comp]
  rw [bose_sinh (by positivity)]

/-! ## non-vacuity -/

/-- a Debye model with grain boundaries, Cahill scattering and a constant sub-model -/
noncomputable def demo : Debye :=
  ⟨3, 200, [(['G', 'B'], (⟨3, 1, 1⟩ : Gb).rate), (['C', 'A'], cahillRate 1)], [(['K'], fun _ => 1)]⟩

example : Debye.make 3 200 [.scattering ['G', 'B'] (⟨3, 1, 1⟩ : Gb).rate, .submodel ['K'] (fun _ => 1),
    .scattering ['C', 'A'] (cahillRate 1)] = .ok demo :=
  (C85_make _ _ _ _).mpr ⟨by simp, by decide, by decide, by simp [scatsOf], rfl⟩

theorem demo_ok : demo.Good ∧ demo.Positive ∧ demo.Continuous ∧ 0 < demo.vs ∧ eps ≤ demo.wd := by
  refine ⟨⟨by decide, by decide, by simp [demo]⟩, ?_, ?_, by simp [demo], ?_⟩
  · intro p hp w T hw hT
    simp only [demo, List.mem_cons, List.not_mem_nil, or_false] at hp
    rcases hp with rfl | rfl
    · simp [Gb.rate]
    · simp only [cahillRate]
      have := pi_pos
      positivity
  · intro p hp T hT
    simp only [demo, List.mem_cons, List.not_mem_nil, or_false] at hp
    rcases hp with rfl | rfl
    · exact continuousOn_const
    · simp only [cahillRate]
      fun_prop
  · simp only [demo, Debye.wd, eps, hbarKB]
    norm_num

example : totalTag ∉ keys demo.scat := by
  simp only [demo, keys, List.map_cons, List.map_nil]
  decide

end TEflow.Kappa
