import Verif.Props.KappaRunPred
import Verif.Props.KappaCfgOpt
import Verif.Props.KappaMfp

/-! # C124: the points of the prediction and the detail tables of a run of `tef-kappa` -/

namespace TEflow.KappaRun

open PyDict Re Loader Interface TableFile ToolRuns KappaCfg

/-! ## Specification -/

/-- the whole number set for an option -/
def IntIn (E : Env) (e : Entry) (k : String) (dflt n : Int) : Prop := (∀ t, get? e k = some t → E.int t = .ok n) ∧ (get? e k = none → n = dflt)

/-- the number set for an option -/
def NumIn (E : Env) (e : Entry) (k : String) (dflt x : ℝ) : Prop := (∀ t, get? e k = some t → E.float t = .ok x) ∧ (get? e k = none → x = dflt)

/-- `n` equally spaced points, the first is `a` and (from two points on) the last is `b` -/
def Spaced (a b : ℝ) (n : Nat) (l : List ℝ) : Prop :=
  l.length = n ∧ ∀ (k : Nat) (v : ℝ), l[k]? = some v → v = if n = 1 then a else a + k / ((n : ℝ) - 1) * (b - a)

theorem linspace_spaced {a b : ℝ} {n : Int} {l : List ℝ} (h : linspace a b |n| = .ok l) : Spaced a b n.natAbs l := by
  unfold linspace at h
  rw [if_neg (not_lt.2 (abs_nonneg n)), Int.abs_eq_natAbs] at h
  by_cases h1 : n.natAbs = 1
  · rw [if_pos (by exact_mod_cast h1)] at h
    cases h
    refine ⟨h1.symm, fun k v hk => ?_⟩
    rw [if_pos h1]
    cases k with
    | zero => simpa using hk.symm
    | succ k => simp at hk
  · rw [if_neg (by exact_mod_cast h1)] at h
    cases h
    refine ⟨by rw [List.length_map, List.length_range, Int.toNat_natCast], fun k v hk => ?_⟩
    rw [if_neg h1]
    rw [List.getElem?_map, Option.map_eq_some_iff] at hk
    obtain ⟨j, hj, rfl⟩ := hk
    have : j = k := by
      rw [List.getElem?_eq_some_iff] at hj
      obtain ⟨_, hj⟩ := hj
      simpa using hj.symm
    subst this
    rw [Int.cast_natCast]
    ring

theorem intIn_of {E : Env} {e : Entry} {n : Int} (h : npoints E e = .ok n) : ∃ N, IntIn E e "npoints" 101 N ∧ n = |N| := by
  unfold npoints getConv at h
  cases hg : get? e "npoints" with
  | none =>
    rw [hg] at h
    cases h
    exact ⟨101, ⟨(fun t ht => by rw [hg] at ht; cases ht), fun _ => rfl⟩, rfl⟩
  | some t =>
    rw [hg] at h
    simp only at h
    cases hi : E.int t with
    | error e => rw [hi] at h; cases h
    | ok N =>
      rw [hi] at h
      cases h
      refine ⟨N, ⟨fun t' ht => ?_, (fun hn => by rw [hg] at hn; cases hn)⟩, rfl⟩
      rw [hg] at ht
      cases ht
      exact hi

theorem numIn_of {E : Env} {e : Entry} {k : String} {dflt x : ℝ} (h : getConv E.float e k dflt = .ok x) : NumIn E e k dflt x := by
  unfold getConv at h
  constructor
  · intro t ht
    rw [ht] at h
    exact h
  · intro hn
    rw [hn] at h
    cases h
    rfl

/-! ## The points -/

/-- **C124** The points of the prediction: those listed under `predict`; if none are listed, `|npoints|` (101) equally spaced points over the range of the data of the fit, extended on
both sides by the margin (0.05) times its length. -/
theorem C124_points (E : Env) (o : Options) (fs : Files) (r : Results) (h : parseKappa E o.specify fs o.inputfile = .ok r) :
    ∃ e l ob s0 s f, Predicted E o fs r e l ob s0 s f ∧ ∃ N, IntIn E e "npoints" 101 N ∧
      ((r.predX ≠ [] ∧ getConv (Utils.parseSeq E.float) e "predict" [] = .ok r.predX) ∨
       (getConv (Utils.parseSeq E.float) e "predict" [] = .ok [] ∧ fitting l ≠ [] ∧ ∃ x y m lo hi, DataOf E fs e x y ∧ NumIn E e "margin" (5 / 100) m ∧
         (lo ∈ x ∧ ∀ v ∈ x, lo ≤ v) ∧ (hi ∈ x ∧ ∀ v ∈ x, v ≤ hi) ∧ Spaced (lo - |m| * (hi - lo)) (hi + |m| * (hi - lo)) N.natAbs r.predX)) := by
  obtain ⟨text, p, e, ht, hp, he, hr⟩ := parse_steps h
  obtain ⟨e0, he0, rfl⟩ := (updateCfg_entry _ _ _).1 he
  obtain ⟨l, s0, ob, data, s, subs, n, xs, ys, c1, c2, c3, -, c5, c6, c7, c8⟩ := rest_steps hr
  obtain ⟨m1, -, m3, m4⟩ := varsStep_made hp c1
  obtain ⟨f, hP⟩ := predicted_steps ht hp he0 c1 c2 c6 c7 c8
  have hx : r.predX = xs := by
    rcases detail_steps c8 with ⟨-, rfl⟩ | ⟨-, d, pred, T, u, rate, spec, cumu, -, -, -, -, -, -, -, rfl⟩ <;> rfl
  obtain ⟨N, hN, rfl⟩ := intIn_of c5
  refine ⟨update o.specify e0, l, ob, s0, s, f, hP, N, hN, ?_⟩
  rw [hx]
  unfold pointsStep at c6
  split at c6
  · cases c6
  · rename_i q qs hq
    cases c6
    exact .inl ⟨List.cons_ne_nil _ _, hq⟩
  · rename_i hq
    split at c6
    · cases c6
    · rename_i m hm
      split at c6
      · cases c6
      · cases c6
      · rename_i x xs'
        rcases fit_spec m1 m3 m4 c3 with ⟨-, a2, -⟩ | ⟨a1, x', y, os, qs, a2, a3, -, -, -⟩
        · cases a2
        · cases a3
          refine .inr ⟨hq, a1, x :: xs', y, m, arrMin x xs', arrMax x xs', data_of a2, numIn_of hm, arrMin_le x xs', le_arrMax x xs', ?_⟩
          unfold predX at c6
          simp only [ne_eq, not_true_eq_false, if_false] at c6
          rw [show (1 + |m|) * arrMin x xs' - |m| * arrMax x xs' = arrMin x xs' - |m| * (arrMax x xs' - arrMin x xs') by ring,
            show (1 + |m|) * arrMax x xs' - |m| * arrMin x xs' = arrMax x xs' + |m| * (arrMax x xs' - arrMin x xs') by ring, abs_abs] at c6
          exact linspace_spaced c6

/-! ## The details -/

/-- the columns of one value for every frequency -/
def column (ws : List ℝ) (p : List Char × (ℝ → ℝ)) : List Char × List ℝ := (p.1, ws.map p.2)

theorem colsOf_map {f : ℝ → PyDict Kappa.Tag ℝ} {l : List (List Char × (ℝ → ℝ))} (hn : (l.map Prod.fst).Nodup) (hf : ∀ w, f w = l.map fun p => (p.1, p.2 w)) (ws : List ℝ) :
    colsOf f ws = l.map (column ws) := by
  unfold colsOf
  have hk : keys (f 0) = l.map Prod.fst := by
    rw [hf, keys, List.map_map]
    rfl
  rw [hk, List.map_map]
  refine List.map_congr_left fun p hp => ?_
  simp only [Function.comp, column]
  congr 1
  refine List.map_congr_left fun w _ => ?_
  have hw : (f w).WF := by
    rw [WF, hf, keys, List.map_map]
    exact hn
  have : get? (f w) p.1 = some (p.2 w) := by
    rw [← mem_iff_get? hw, hf]
    exact List.mem_map.2 ⟨p, hp, rfl⟩
  rw [this]
  rfl

/-- the scattering rates of the mechanisms and their sum -/
def rateCols (d : Kappa.Debye) (T : ℝ) : List (List Char × (ℝ → ℝ)) :=
  d.scat.map (fun p => (p.1, fun w => p.2 w T)) ++ [("total".toList, fun w => (d.scat.map fun p => p.2 w T).sum)]

/-- the spectral thermal conductivity for the first `i + 1` mechanisms together, for every `i` -/
noncomputable def specCols (d : Kappa.Debye) (T : ℝ) : List (List Char × (ℝ → ℝ)) :=
  (List.range d.scat.length).map fun i => (Kappa.joinPlus ((keys d.scat).take (i + 1)), fun w => d.factor (max Kappa.eps w) T / Kappa.rateUpTo d (i + 1) (max Kappa.eps w) T)

/-- the cumulative thermal conductivity for the first `i + 1` mechanisms together, for every `i` -/
noncomputable def cumuCols (d : Kappa.Debye) (T : ℝ) : List (List Char × (ℝ → ℝ)) :=
  (List.range d.scat.length).map fun i => (Kappa.joinPlus ((keys d.scat).take (i + 1)), fun x => d.cumRate (Kappa.rateUpTo d (i + 1)) x T (d.wd / 1000) 1000)

theorem nodup_joined (d : Kappa.Debye) {α : Type} (g : Nat → α) :
    (((List.range d.scat.length).map fun i => (Kappa.joinPlus ((keys d.scat).take (i + 1)), g i)).map Prod.fst).Nodup := by
  have := Kappa.prefix_nodup (keys d.scat)
  have hl : (keys d.scat).length = d.scat.length := by simp [keys]
  rw [hl] at this
  rw [List.map_map]
  exact this

theorem rate_cols {d : Kappa.Debye} (hg : d.Good) (hn : Kappa.totalTag ∉ keys d.scat) (T : ℝ) (ws : List ℝ) :
    colsOf (fun w => d.scattering w T true) ws = (rateCols d T).map (column ws) := by
  refine colsOf_map ?_ (fun w => ?_) ws
  · have h1 : (rateCols d T).map Prod.fst = keys d.scat ++ [Kappa.totalTag] := by
      rw [rateCols, List.map_append, List.map_map]
      rfl
    rw [h1, List.nodup_append]
    exact ⟨hg.1, by simp, fun a ha b hb => by rw [List.mem_singleton.1 hb]; exact fun h => hn (h ▸ ha)⟩
  · rw [(Kappa.C85_total d hg hn w T).2, rateCols, List.map_append, List.map_map]
    rfl

theorem spec_cols (d : Kappa.Debye) (T : ℝ) (ws : List ℝ) : colsOf (fun w => d.spectral w T true) ws = (specCols d T).map (column ws) := by
  refine colsOf_map (l := specCols d T) (nodup_joined d _) (fun w => ?_) ws
  rw [Kappa.C85_spectral, specCols, List.map_map]
  rfl

theorem cumu_cols (d : Kappa.Debye) (T : ℝ) (hd : 10 * Kappa.eps ≤ d.wd / 1000) (ws : List ℝ) :
    colsOf (fun x => match d.cumulativeMfp x [T] true 1000 with
          | .ok f => f
          | .error _ => []) ws = (cumuCols d T).map (column ws) := by
  refine colsOf_map (l := cumuCols d T) (nodup_joined d _) (fun w => ?_) ws
  rw [(Kappa.C86_entries d w T 1000).1 (by exact_mod_cast hd), cumuCols, List.map_map]
  refine List.map_congr_left fun i _ => ?_
  simp only [Function.comp, Nat.cast_ofNat]

/-- what the detail tables hold for a Debye model `d` at temperature `T`, with frequencies in units of `u` -/
structure Details (e : Entry) (d : Kappa.Debye) (T u : ℝ) (n : Nat) (r : Results) : Prop where
  rateOff : getBoolean e "scattering" true = .ok false → r.rate = none
  rate : getBoolean e "scattering" true = .ok true → Kappa.totalTag ∉ keys d.scat →
    ∃ ws, Spaced 0 d.wd n ws ∧ r.rate = some (ws.map (· / u), (rateCols d T).map (column ws))
  specOff : getBoolean e "spectral" true = .ok false → r.spec = none
  spec : getBoolean e "spectral" true = .ok true →
    ∃ ws, Spaced 0 d.wd n ws ∧ r.spec = some (ws.map (· / u), (specCols d T).map fun p => (p.1, ws.map fun w => p.2 w * u))
  cumuOff : getBoolean e "cumulate" true = .ok false → r.cumu = none
  cumu : getBoolean e "cumulate" true = .ok true →
    ∃ ys, Spaced (-13 / 10) (47 / 10) n ys ∧ r.cumu = some (ys.map fun y => (10 : ℝ) ^ y, (cumuCols d T).map (column (ys.map fun y => (10 : ℝ) ^ y)))

theorem boolean_ok {e : Entry} {k : String} {d b : Bool} (h : getBoolean e k d = .ok b) : (getBoolean e k d = .ok false ∧ b = false) ∨ (getBoolean e k d = .ok true ∧ b = true) := by
  cases b
  · exact .inl ⟨h, rfl⟩
  · exact .inr ⟨h, rfl⟩

theorem rateStep_spec {e : Entry} {d : Option Kappa.Debye} {N : Int} {T u : ℝ} {r : Detail} (h : rateStep e d |N| T u = .ok r) :
    (getBoolean e "scattering" true = .ok false ∧ r = none) ∨
    (getBoolean e "scattering" true = .ok true ∧ ∃ d', d = some d' ∧ ∃ ws, Spaced 0 d'.wd N.natAbs ws ∧
      r = some (ws.map (· / u), colsOf (fun w => d'.scattering w T true) ws)) := by
  unfold rateStep at h
  split at h
  · cases h
  · rename_i hb; cases h; exact .inl ⟨hb, rfl⟩
  · rename_i hb
    cases d with
    | none => cases h
    | some d' =>
      simp only [asDebye] at h
      split at h
      · cases h
      · rename_i ws hw
        cases h
        exact .inr ⟨hb, d', rfl, ws, linspace_spaced hw, rfl⟩

theorem specStep_spec {e : Entry} {d : Option Kappa.Debye} {N : Int} {T u : ℝ} {r : Detail} (h : specStep e d |N| T u = .ok r) :
    (getBoolean e "spectral" true = .ok false ∧ r = none) ∨
    (getBoolean e "spectral" true = .ok true ∧ ∃ d', d = some d' ∧ ∃ ws, Spaced 0 d'.wd N.natAbs ws ∧
      r = some (ws.map (· / u), (colsOf (fun w => d'.spectral w T true) ws).map fun p => (p.1, p.2.map (· * u)))) := by
  unfold specStep at h
  split at h
  · cases h
  · rename_i hb; cases h; exact .inl ⟨hb, rfl⟩
  · rename_i hb
    cases d with
    | none => cases h
    | some d' =>
      simp only [asDebye] at h
      split at h
      · cases h
      · rename_i ws hw
        cases h
        exact .inr ⟨hb, d', rfl, ws, linspace_spaced hw, rfl⟩

theorem cumuStep_spec {e : Entry} {d : Option Kappa.Debye} {N : Int} {T : ℝ} {r : Detail} (h : cumuStep e d |N| T = .ok r) :
    (getBoolean e "cumulate" true = .ok false ∧ r = none) ∨
    (getBoolean e "cumulate" true = .ok true ∧ ∃ d', d = some d' ∧ ∃ ys, Spaced (-13 / 10) (47 / 10) N.natAbs ys ∧
      r = some (ys.map fun y => (10 : ℝ) ^ y, (cumuCols d' T).map (column (ys.map fun y => (10 : ℝ) ^ y)))) := by
  unfold cumuStep at h
  split at h
  · cases h
  · rename_i hb; cases h; exact .inl ⟨hb, rfl⟩
  · rename_i hb
    cases d with
    | none => cases h
    | some d' =>
      simp only [asDebye] at h
      split at h
      · cases h
      · rename_i ys hw
        split at h
        · cases h
        · rename_i g hm
          cases h
          have hd : 10 * Kappa.eps ≤ d'.wd / 1000 := by
            by_contra hlt
            rw [not_le] at hlt
            have := (Kappa.C86_entries d' 0 T 1000).2.1 (by exact_mod_cast hlt)
            rw [this] at hm
            cases hm
          refine .inr ⟨hb, d', rfl, ys, linspace_spaced hw, ?_⟩
          rw [← cumu_cols d' T hd]
          rfl

/-- **C124** The detail tables.  Only a model called `DEBYE` has them.  Each is written unless it is switched off: the scattering rates of the mechanisms and their sum and the spectral thermal
conductivity at `|npoints|` frequencies from 0 to the cutoff, the cumulative one at `|npoints|` mean free paths from 10^-1.3 to 10^4.7 nm, all at the temperature set (300), with the fitted
values; frequencies are divided by the unit, and the spectral values multiplied by it. -/
theorem C124_details (E : Env) (o : Options) (fs : Files) (r : Results) (h : parseKappa E o.specify fs o.inputfile = .ok r) :
    ∃ e l ob s0 s f, Predicted E o fs r e l ob s0 s f ∧ ∃ N, IntIn E e "npoints" 101 N ∧
      ((ob.tag ≠ "DEBYE".toList ∧ r.rate = none ∧ r.spec = none ∧ r.cumu = none) ∨
       (ob.tag = "DEBYE".toList ∧ r.rate = none ∧ r.spec = none ∧ r.cumu = none ∧ getBoolean e "scattering" true = .ok false ∧ getBoolean e "spectral" true = .ok false ∧
          getBoolean e "cumulate" true = .ok false) ∨
       (ob.tag = "DEBYE".toList ∧ ∃ d T, debyeObj E ob s = .ok (some d) ∧ (f = fun x => d.call E.quad x none) ∧ NumIn E e "temperature" 300 T ∧
          Details e d T (freqUnit E.float d.wd T ((get? e "frequnit").getD "2pi.THz".toList)) N.natAbs r)) := by
  obtain ⟨text, p, e, ht, hp, he, hr⟩ := parse_steps h
  obtain ⟨e0, he0, rfl⟩ := (updateCfg_entry _ _ _).1 he
  obtain ⟨l, s0, ob, data, s, subs, n, xs, ys, c1, c2, c3, -, c5, c6, c7, c8⟩ := rest_steps hr
  obtain ⟨f, hP⟩ := predicted_steps ht hp he0 c1 c2 c6 c7 c8
  obtain ⟨N, hN, rfl⟩ := intIn_of c5
  refine ⟨update o.specify e0, l, ob, s0, s, f, hP, N, hN, ?_⟩
  rcases detail_steps c8 with ⟨hd, rfl⟩ | ⟨hd, d, pred, T, u, rate, spec, cumu, b1, -, b3, b4, b5, b6, b7, rfl⟩
  · refine .inl ⟨fun ht => ?_, rfl, rfl, rfl⟩
    unfold debyeResults at hd
    simp [ht] at hd
  · have htag : ob.tag = "DEBYE".toList := by
      unfold debyeResults at hd
      simpa using hd
    right
    have k5 := rateStep_spec b5
    have k6 := specStep_spec b6
    have k7 := cumuStep_spec b7
    cases d with
    | none =>
      left
      rcases k5 with ⟨a5, rfl⟩ | ⟨-, d', hd', -⟩
      · rcases k6 with ⟨a6, rfl⟩ | ⟨-, d', hd', -⟩
        · rcases k7 with ⟨a7, rfl⟩ | ⟨-, d', hd', -⟩
          · exact ⟨htag, rfl, rfl, rfl, a5, a6, a7⟩
          · cases hd'
        · cases hd'
      · cases hd'
    | some d =>
      right
      obtain ⟨hf, hg⟩ := debye_call b1 hP.curve
      have hu : u = freqUnit E.float d.wd T ((get? (update o.specify e0) "frequnit").getD "2pi.THz".toList) := by
        unfold unitStep at b4
        cases b4
        rfl
      refine ⟨htag, d, T, b1, hf, numIn_of b3, ?_⟩
      rw [← hu]
      refine ⟨fun hb => ?_, fun hb hn => ?_, fun hb => ?_, fun hb => ?_, fun hb => ?_, fun hb => ?_⟩
      · rcases k5 with ⟨-, rfl⟩ | ⟨a5, -⟩
        · rfl
        · rw [hb] at a5; cases a5
      · rcases k5 with ⟨a5, -⟩ | ⟨-, d', hd', ws, hs, rfl⟩
        · rw [hb] at a5; cases a5
        · cases hd'
          exact ⟨ws, hs, by rw [rate_cols hg hn]⟩
      · rcases k6 with ⟨-, rfl⟩ | ⟨a5, -⟩
        · rfl
        · rw [hb] at a5; cases a5
      · rcases k6 with ⟨a5, -⟩ | ⟨-, d', hd', ws, hs, rfl⟩
        · rw [hb] at a5; cases a5
        · cases hd'
          refine ⟨ws, hs, ?_⟩
          rw [spec_cols, List.map_map]
          simp only [column, Function.comp_def, List.map_map]
      · rcases k7 with ⟨-, rfl⟩ | ⟨a5, -⟩
        · rfl
        · rw [hb] at a5; cases a5
      · rcases k7 with ⟨a5, -⟩ | ⟨-, d', hd', ws, hs, rfl⟩
        · rw [hb] at a5; cases a5
        · cases hd'
          exact ⟨ws, hs, rfl⟩

/-- the area under a curve given by points, with the trapezoid rule -/
noncomputable def area : List ℝ → List ℝ → ℝ
  | x :: x' :: xs, y :: y' :: ys => (x' - x) * (y + y') / 2 + area (x' :: xs) (y' :: ys)
  | _, _ => 0

/-- **C124** The area under the spectral curves of the table does not depend on the unit of the frequencies. -/
theorem C124_unit (u : ℝ) (hu : u ≠ 0) (ws : List ℝ) (g : ℝ → ℝ) : area (ws.map (· / u)) (ws.map fun w => g w * u) = area ws (ws.map g) := by
  induction ws with
  | nil => rfl
  | cons w ws ih =>
    cases ws with
    | nil => rfl
    | cons w' ws =>
      simp only [List.map_cons, area] at ih ⊢
      rw [ih]
      field_simp

example : area ([0, 1, 3].map (· / 2)) ([0, 1, 3].map fun w => (w + 1) * 2) = area [0, 1, 3] ([0, 1, 3].map (· + 1)) := C124_unit 2 (by norm_num) _ _

/-! ## An example -/

/-- a Debye model with one mechanism and two of the three detail tables -/
def debyeText : List Char := "[entry]\nmodel = DEBYE\npredict = 1 2\ncumulate = no\n[DEBYE]\nvs = 1\ntd = 2\ncomponents = PDX\n[PDX]\ncoef = 1\n".toList

noncomputable def debyeEnv : Env where
  float t := if t = "1".toList then .ok 1 else if t = "2".toList then .ok 2 else .error .valueError
  int _ := .error .valueError
  quad _ _ _ := 0
  search _ _ _ _ _ := .stop (.error .valueError)
  fmt _ := "2".toList
  render _ := "2".toList
  limit := 5
  pattern _ _ := .error .valueError
  info := []

theorem debye_read : CfgText.readCfg (rawLines debyeText) = .ok ⟨[("entry".toList, [("model".toList, "DEBYE".toList), ("predict".toList, "1 2".toList), ("cumulate".toList, "no".toList)]),
    ("DEBYE".toList, [("vs".toList, "1".toList), ("td".toList, "2".toList), ("components".toList, "PDX".toList)]), ("PDX".toList, [("coef".toList, "1".toList)])], []⟩ := by
  decide +kernel

theorem exists_ok {ε α : Type} {x : Except ε α} {P : α → Prop} (h : match x with
    | .ok r => P r
    | .error _ => False) : ∃ r, x = .ok r ∧ P r := by
  cases x with
  | error e => exact h.elim
  | ok r => exact ⟨r, rfl, h⟩

/-- the run succeeds, with the rates and the spectrum, without the cumulative table -/
theorem debye_run : ∃ r, parseKappa debyeEnv [] (fun _ => some debyeText) "in".toList = .ok r ∧
    r.rate ≠ none ∧ r.spec ≠ none ∧ r.cumu = none ∧ r.predX = [1, 2] ∧ r.pred.map Prod.fst = ["Kappa-Total".toList, "PDX".toList] := by
  refine exists_ok ?_
  unfold parseKappa
  simp only [debye_read]
  exact ⟨Option.some_ne_none _, Option.some_ne_none _, rfl, rfl, rfl⟩

end TEflow.KappaRun
