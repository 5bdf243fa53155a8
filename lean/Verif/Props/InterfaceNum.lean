import Mathlib.Data.Rat.Floor
import Mathlib.Tactic
import Verif.Props.Compound
import Verif.Props.MathFuncs
import Verif.Props.InterfaceText

/-! # C62–C66: `tef-cutoff`, `tef-format`, `tef-interp` -/

set_option linter.unusedSimpArgs false

namespace TEflow.Interface
open TEflow.Loader (pyRound strip splitOnChar startsWith)
open TEflow.Mathext (fermidirac smoothstep)
open TEflow.Engout (cumtrapz cumtrapzGo)

/-! ## C62: `tef-cutoff` -/

/-- the names of the Fermi-Dirac method and of the smooth step -/
def fdNames : List (List Char) := ["fd".toList, "fermi-dirac".toList, "fermidirac".toList]
def ssNames : List (List Char) := ["ss".toList, "smoothstep".toList]

theorem cutFactor_fd (m : List Char) (h : m ∈ fdNames) (tc w x : ℝ) :
    cutFactor m tc w x = .ok (fermidirac (5 * (x - tc) / (w / 2)) false) := by
  simp only [fdNames, List.mem_cons, List.not_mem_nil, or_false] at h
  simp only [cutFactor]
  rw [if_pos h]

theorem cutFactor_ss (m : List Char) (h : m ∈ ssNames) (tc w x : ℝ) :
    cutFactor m tc w x = .ok (smoothstep ((x - tc) / (w / 2)) false true) := by
  simp only [ssNames, List.mem_cons, List.not_mem_nil, or_false] at h
  simp only [cutFactor]
  rw [if_neg (by rcases h with rfl | rfl <;> decide), if_pos h]

/-- **C62** For a positive width the factor lies in [0, 1], decreases with temperature, is 1/2 at the threshold, and (on
the two sides of the threshold) adds up to 1; with the smooth step it is exactly 1 below and 0 above the transition. -/
theorem C62_factor (m : List Char) (hm : m ∈ fdNames ++ ssNames) (tc w : ℝ) (hw : 0 < w) :
    ∃ f : ℝ → ℝ, (∀ x, cutFactor m tc w x = .ok (f x)) ∧ (∀ x, 0 ≤ f x ∧ f x ≤ 1) ∧ Antitone f ∧ f tc = 1 / 2 ∧
      (∀ d, f (tc - d) + f (tc + d) = 1) ∧
      (m ∈ ssNames → (∀ x, x ≤ tc - w / 2 → f x = 1) ∧ ∀ x, tc + w / 2 ≤ x → f x = 0) := by
  have hw2 : 0 < w / 2 := by linarith
  rw [List.mem_append] at hm
  rcases hm with hm | hm
  · obtain ⟨h1, h2, h3, h4⟩ := TEflow.C32_shape
    refine ⟨fun x => fermidirac (5 * (x - tc) / (w / 2)) false, cutFactor_fd m hm tc w,
      fun x => ⟨(h2 _).1.le, (h2 _).2.le⟩, ?_, ?_, ?_, ?_⟩
    · intro a b hab
      exact h3.antitone (div_le_div_of_nonneg_right (by linarith) hw2.le)
    · simp only [h1, sub_self, mul_zero, zero_div, Real.exp_zero]; norm_num
    · intro d
      have e : 5 * (tc - d - tc) / (w / 2) = -(5 * (tc + d - tc) / (w / 2)) := by ring
      simp only [e, h4]
      ring
    · intro hs
      exfalso
      have : ∀ a ∈ fdNames, a ∉ ssNames := by decide
      exact this m hm hs
  · refine ⟨fun x => smoothstep ((x - tc) / (w / 2)) false true, cutFactor_ss m hm tc w,
      fun x => (TEflow.C33_shift _).2.2.2.1, ?_, ?_, ?_, fun _ => ⟨fun x hx => ?_, fun x hx => ?_⟩⟩
    · intro a b hab
      exact (TEflow.C33_shift 0).2.2.2.2 (div_le_div_of_nonneg_right (by linarith) hw2.le)
    · simp only [sub_self, zero_div, smoothstep, Mathext.clip]; norm_num
    · intro d
      have e1 : (tc - d - tc) / (w / 2) = -(d / (w / 2)) := by ring
      have e2 : (tc + d - tc) / (w / 2) = d / (w / 2) := by ring
      simp only [e1, e2]
      generalize d / (w / 2) = t
      have hc : Mathext.clip (-t) (-1) 1 = -Mathext.clip t (-1) 1 := by
        unfold Mathext.clip
        rcases le_total t (-1) with h | h
        · rw [max_eq_left (by linarith), min_eq_right (by linarith), max_eq_right h, min_eq_left (by norm_num)]; norm_num
        · rcases le_total t 1 with h' | h'
          · rw [max_eq_left (by linarith), min_eq_left (by linarith), max_eq_left h, min_eq_left h']
          · rw [max_eq_right (by linarith), min_eq_left (by norm_num), max_eq_left h, min_eq_right h']
      simp only [smoothstep, hc, if_true, Bool.false_eq_true, if_false]
      ring
    · exact (TEflow.C33_shift _).2.1 (by rw [div_le_iff₀ hw2]; linarith)
    · exact (TEflow.C33_shift _).2.2.1 (by rw [le_div_iff₀ hw2]; linarith)

theorem mapM_ok_map {α β : Type} (f : α → Except PyErr β) (g : α → β) (l : List α) (h : ∀ a ∈ l, f a = .ok (g a)) :
    l.mapM f = .ok (l.map g) := by
  induction l with
  | nil => rfl
  | cons a l ih =>
    simp only [List.mapM_cons, h a (by simp), ih fun b hb => h b (by simp [hb]), bind, Except.bind, pure, Except.pure,
      List.map_cons]

theorem normCols_spec (n : Nat) (cols : List Int) :
    (∀ idx, normCols n cols = .ok idx → List.Forall₂ (ColumnAt (List.range n)) cols idx) ∧
    (∀ e, normCols n cols = .error e → e = .indexError ∧ ∃ i ∈ cols, i ≥ n ∨ i < -n) := by
  obtain ⟨h1, h2⟩ := mapM_forall2 (fun i => pyIndex (List.range n) i) cols
  refine ⟨fun idx h => (h1 idx h).imp fun i j hij => ((pyIndex_spec _ i).1 j).1 hij, fun e h => ?_⟩
  obtain ⟨i, hi, he⟩ := h2 e h
  obtain ⟨h3, h4⟩ := ((pyIndex_spec _ i).2 e).1 he
  exact ⟨h3, i, hi, by simpa using h4⟩

/-- the columns cut off: all but the first, or the chosen ones (negative numbers count from the right) -/
def CutColumns (n : Nat) (columns : Option (List Int)) (idx : List Nat) : Prop :=
  match columns with
  | none => idx = (List.range n).drop 1
  | some cols => List.Forall₂ (fun (i : Int) (j : Nat) => j < n ∧ ((0 ≤ i ∧ (j : Int) = i) ∨ (i < 0 ∧ (j : Int) = n + i))) cols idx

/-- **C62 (values).** The factor of the Fermi-Dirac method is `1/(1+exp(10 (T-Tcut)/width))`, so it falls from `1/(1+e⁻⁵)` to
`1/(1+e⁵)` over the transition; that of the smoothstep method is `3u²-2u³` with `u` falling linearly from 1 to 0 over it. -/
theorem C62_values (tc w : ℝ) (hw : 0 < w) (x : ℝ) :
    (∀ m ∈ fdNames, cutFactor m tc w x = .ok (1 / (1 + Real.exp (10 * (x - tc) / w)))) ∧
    (∀ m ∈ ssNames, tc - w / 2 ≤ x → x ≤ tc + w / 2 →
      cutFactor m tc w x = .ok (3 * ((tc + w / 2 - x) / w) ^ 2 - 2 * ((tc + w / 2 - x) / w) ^ 3)) := by
  constructor
  · intro m hm
    rw [cutFactor_fd m hm, TEflow.C32_shape.1]
    congr 4
    field_simp; ring
  · intro m hm h1 h2
    rw [cutFactor_ss m hm, (TEflow.C33_shift _).1]
    have e : (1 - (x - tc) / (w / 2)) / 2 = (tc + w / 2 - x) / w := by field_simp; ring
    rw [e, TEflow.C33_plain.1 _ (div_nonneg (by linarith) hw.le) (by rw [div_le_one hw]; linarith)]

/-- **C62** Rows in, rows out: each chosen column is multiplied once by the factor at the row's temperature (its first
entry), however often it is listed, and nothing else changes; with `--bare` exactly the chosen columns are written, in the
order asked for.  Only unknown methods (`ValueError`) and bad column numbers (`IndexError`) fail. -/
theorem C62_rows (m : List Char) (f : ℝ → ℝ) (tc w : ℝ) (hf : ∀ x, cutFactor m tc w x = .ok (f x))
    (columns : Option (List Int)) (bare : Bool) (n : Nat) (rows : List (List ℝ)) :
    (∃ idx, CutColumns n columns idx ∧ cutoff (some m) tc w columns bare n rows = .ok (rows.map fun r =>
        if bare then idx.map fun j => r.getD j 0 * f (r.headD 0)
        else r.mapIdx fun j v => if j ∈ idx then v * f (r.headD 0) else v)) ∨
    (cutoff (some m) tc w columns bare n rows = .error .indexError ∧
      ∃ cols, columns = some cols ∧ ∃ i ∈ cols, i ≥ n ∨ i < -n) := by
  have hfac : rows.mapM (fun r => cutFactor m tc w (r.headD 0)) = .ok (rows.map fun r => f (r.headD 0)) :=
    mapM_ok_map _ _ _ fun r _ => hf _
  have hz : ∀ (g : ℝ → List ℝ → List ℝ) (rs : List (List ℝ)),
      List.zipWith g (rs.map fun r => f (r.headD 0)) rs = rs.map fun r => g (f (r.headD 0)) r := by
    intro g rs
    induction rs with
    | nil => rfl
    | cons r rs ih => simp only [List.map_cons, List.zipWith_cons_cons, ih]
  have h0 := hf 0
  cases columns with
  | none =>
    left
    refine ⟨_, rfl, ?_⟩
    simp only [cutoff, Option.getD_some, h0, hfac, bind, Except.bind, pure, Except.pure, hz]
  | some cols =>
    obtain ⟨h1, h2⟩ := normCols_spec n cols
    cases hc : normCols n cols with
    | ok idx =>
      left
      refine ⟨idx, (h1 idx hc).imp fun i j hij => ?_, ?_⟩
      · simp only [ColumnAt, List.length_range] at hij
        rcases hij with ⟨a, b⟩ | ⟨a, b, c⟩
        · have hb := List.getElem?_eq_some_iff.1 b
          simp at hb
          exact ⟨by omega, .inl ⟨a, by omega⟩⟩
        · have hb := List.getElem?_eq_some_iff.1 c
          simp at hb
          exact ⟨by omega, .inr ⟨a, by omega⟩⟩
      · simp only [cutoff, Option.getD_some, h0, hfac, bind, Except.bind, pure, Except.pure, hz, hc]
    | error e =>
      right
      obtain ⟨rfl, h3⟩ := h2 e hc
      refine ⟨?_, cols, rfl, h3⟩
      simp only [cutoff, Option.getD_some, h0, hfac, bind, Except.bind, pure, Except.pure, hz, hc]

/-- **C62** Without `-m` the command always fails: the default method is not a method. -/
theorem C62_default_fails (tc w : ℝ) (columns : Option (List Int)) (bare : Bool) (n : Nat) (rows : List (List ℝ)) :
    cutoff none tc w columns bare n rows = .error .valueError ∧
    ∀ m, m ∉ fdNames ++ ssNames → cutoff (some m) tc w columns bare n rows = .error .valueError := by
  have key : ∀ m, m ∉ fdNames ++ ssNames → ∀ x, cutFactor m tc w x = .error .valueError := by
    intro m hm x
    rw [List.mem_append, not_or] at hm
    have h1 := hm.1
    have h2 := hm.2
    simp only [fdNames, List.mem_cons, List.not_mem_nil, or_false] at h1
    simp only [ssNames, List.mem_cons, List.not_mem_nil, or_false] at h2
    simp only [cutFactor]
    rw [if_neg h1, if_neg h2]
  have hd : cutDefault ∉ fdNames ++ ssNames := by decide
  refine ⟨?_, fun m hm => ?_⟩
  · simp only [cutoff, Option.getD_none, key _ hd, bind, Except.bind]
  · simp only [cutoff, Option.getD_some, key _ hm, bind, Except.bind]

example : ∃ r, cutoff (some "ss".toList) 400 20 none false 2 [[300, 5], [500, 6]] = .ok r ∧ r = [[300, 5], [500, 0]] := by
  obtain ⟨f, h1, -, -, -, -, h2⟩ := C62_factor "ss".toList (by decide) 400 20 (by norm_num)
  obtain ⟨h3, h4⟩ := h2 (by decide)
  rcases C62_rows _ f 400 20 h1 none false 2 [[300, 5], [500, 6]] with ⟨idx, hi, he⟩ | ⟨-, c, hc, -⟩
  · refine ⟨_, he, ?_⟩
    simp only [CutColumns] at hi
    subst hi
    simp [h3 300 (by norm_num), h4 500 (by norm_num), List.range_succ, List.mapIdx_cons]
  · cases hc

/-! ## C63: the automatic temperatures -/

section Series
variable {K : Type} [Field K] [LinearOrder K] [IsStrictOrderedRing K] [FloorRing K]

/-- the maximum used: the option unless it is absent or zero -/
def usedMax (tmax : Option K) (dataMax : K) : K :=
  match tmax with | some t => if t = 0 then dataMax else t | none => dataMax

omit [IsStrictOrderedRing K] in
theorem tempSeries_eq (tstep : K) (tmax : Option K) (dataMax : K) (noRt : Bool) :
    tempSeries tstep tmax dataMax noRt =
      if tstep = 0 then .error .zeroDivisionError
      else
        let T :=
          if tstep > 23 then
            let ts := (List.range (pyRound ((usedMax tmax dataMax - 323) / tstep) + 1).toNat).map fun i : Nat =>
              323 + (i : K) * tstep
            if noRt then ts else 300 :: ts
          else (List.range (pyRound ((usedMax tmax dataMax - 300) / tstep) + 1).toNat).map fun i : Nat =>
            300 + (i : K) * tstep
        if T = [] then .error .indexError else .ok T := by
  cases tmax <;> rfl

theorem arith_increasing (a s : K) (hs : 0 < s) (n : Nat) : ((List.range n).map fun i : Nat => a + (i : K) * s).Pairwise (· < ·) := by
  rw [List.pairwise_map]
  refine List.Pairwise.imp ?_ (List.pairwise_lt_range (n := n))
  intro i j hij
  have : (i : K) < j := by exact_mod_cast hij
  have := mul_lt_mul_of_pos_right this hs
  linarith

theorem round_steps (a s tm : K) (hs : 0 < s) (h : a ≤ tm) :
    ∃ n : Nat, (pyRound ((tm - a) / s) + 1).toNat = n + 1 ∧ |a + (n : K) * s - tm| ≤ s / 2 := by
  obtain ⟨h1, -⟩ := TEflow.pyRound_spec ((tm - a) / s)
  have h0 : 0 ≤ (tm - a) / s := div_nonneg (by linarith) hs.le
  have hr : 0 ≤ pyRound ((tm - a) / s) := by
    have h2 := (abs_le.1 h1).2
    have : (-1 : K) < (pyRound ((tm - a) / s) : K) := by linarith
    have : (-1 : Int) < pyRound ((tm - a) / s) := by exact_mod_cast this
    omega
  obtain ⟨n, hn⟩ := Int.eq_ofNat_of_zero_le hr
  refine ⟨n, by rw [hn]; rfl, ?_⟩
  rw [hn] at h1
  have e : a + (n : K) * s - tm = -(((tm - a) / s - ((n : Int) : K)) * s) := by
    push_cast; field_simp; ring
  rw [show ((n : ℕ) : K) = ((n : Int) : K) by simp, show a + ((n : Int) : K) * s - tm = -(((tm - a) / s - ((n : Int) : K)) * s) by
    push_cast; field_simp; ring, abs_neg, abs_mul, abs_of_pos hs]
  calc |(tm - a) / s - ((n : Int) : K)| * s ≤ 1 / 2 * s := mul_le_mul_of_nonneg_right h1 hs.le
    _ = s / 2 := by ring

/-- **C63** Steps above 23 K: 300 K (unless `--no-rt`), then 323 K, 323 K + step, …, strictly increasing; the last
temperature is within half a step of the maximum. -/
theorem C63_large_step (tstep : K) (hs : 23 < tstep) (tmax : Option K) (dataMax : K) (noRt : Bool)
    (hm : 323 ≤ usedMax tmax dataMax) :
    ∃ n : Nat, tempSeries tstep tmax dataMax noRt =
        .ok ((if noRt then [] else [300]) ++ (List.range (n + 1)).map fun i : Nat => 323 + (i : K) * tstep) ∧
      ((if noRt then [] else [300]) ++ (List.range (n + 1)).map fun i : Nat => 323 + (i : K) * tstep).Pairwise (· < ·) ∧
      |323 + (n : K) * tstep - usedMax tmax dataMax| ≤ tstep / 2 := by
  have hpos : 0 < tstep := by linarith
  obtain ⟨n, h1, h2⟩ := round_steps 323 tstep (usedMax tmax dataMax) hpos hm
  refine ⟨n, ?_, ?_, h2⟩
  · have hne : tstep ≠ 0 := hpos.ne'
    rw [tempSeries_eq, if_neg hne]
    simp only [gt_iff_lt, hs, if_true, h1]
    cases noRt <;> simp [List.range_succ]
  · have hp := arith_increasing 323 tstep hpos (n + 1)
    cases noRt
    · simp only [Bool.false_eq_true, if_false, List.singleton_append, List.pairwise_cons]
      refine ⟨fun t ht => ?_, hp⟩
      simp only [List.mem_map] at ht
      obtain ⟨i, -, rfl⟩ := ht
      have : 0 ≤ (i : K) * tstep := mul_nonneg (Nat.cast_nonneg i) hpos.le
      linarith
    · simpa using hp

/-- **C63** Steps up to 23 K: 300 K, 300 K + step, … within half a step of the maximum. -/
theorem C63_small_step (tstep : K) (h0 : 0 < tstep) (hs : tstep ≤ 23) (tmax : Option K) (dataMax : K) (noRt : Bool)
    (hm : 300 ≤ usedMax tmax dataMax) :
    ∃ n : Nat, tempSeries tstep tmax dataMax noRt = .ok ((List.range (n + 1)).map fun i : Nat => 300 + (i : K) * tstep) ∧
      ((List.range (n + 1)).map fun i : Nat => 300 + (i : K) * tstep).Pairwise (· < ·) ∧
      |300 + (n : K) * tstep - usedMax tmax dataMax| ≤ tstep / 2 := by
  obtain ⟨n, h1, h2⟩ := round_steps 300 tstep (usedMax tmax dataMax) h0 hm
  refine ⟨n, ?_, arith_increasing 300 tstep h0 (n + 1), h2⟩
  rw [tempSeries_eq, if_neg h0.ne']
  simp only [gt_iff_lt, not_lt.2 hs, if_false, h1]
  simp [List.range_succ]

/-- **C63** A maximum too low for a single point: only 300 K is left for large steps (an `IndexError` with `--no-rt`), an
`IndexError` for small ones. -/
theorem C63_too_low (tstep : K) (h0 : 0 < tstep) (tmax : Option K) (dataMax : K) (noRt : Bool) :
    (23 < tstep → usedMax tmax dataMax < 323 - tstep / 2 → tempSeries tstep tmax dataMax noRt =
      if noRt then .error .indexError else .ok [300]) ∧
    (tstep ≤ 23 → usedMax tmax dataMax < 300 - tstep / 2 → tempSeries tstep tmax dataMax noRt = .error .indexError) := by
  have key : ∀ a : K, usedMax tmax dataMax < a - tstep / 2 →
      (pyRound ((usedMax tmax dataMax - a) / tstep) + 1).toNat = 0 := by
    intro a ha
    obtain ⟨h1, -⟩ := TEflow.pyRound_spec ((usedMax tmax dataMax - a) / tstep)
    have h2 : (usedMax tmax dataMax - a) / tstep < -(1 / 2) := by
      rw [div_lt_iff₀ h0]; linarith
    have h3 := (abs_le.1 h1).1
    have : (pyRound ((usedMax tmax dataMax - a) / tstep) : K) < 0 := by linarith
    have : pyRound ((usedMax tmax dataMax - a) / tstep) < 0 := by exact_mod_cast this
    omega
  constructor
  · intro hs hm
    have := key 323 hm
    rw [tempSeries_eq, if_neg h0.ne']
    simp only [gt_iff_lt, hs, if_true, this]
    cases noRt <;> simp
  · intro hs hm
    have := key 300 hm
    rw [tempSeries_eq, if_neg h0.ne']
    simp only [gt_iff_lt, not_lt.2 hs, if_false, this]
    simp

end Series

example : tempSeries (K := ℚ) 50 none 523 false = .ok [300, 323, 373, 423, 473, 523] := by decide +kernel
example : tempSeries (K := ℚ) 25 (some 360) 523 true = .ok [323, 348] := by decide +kernel
example : tempSeries (K := ℚ) 20 (some 0) 355 false = .ok [300, 320, 340, 360] := by decide +kernel

/-! ## C64: interpolation methods of `tef-format` -/

/-- **C64** The number of words: none or two are rejected, one serves C, S and K, of three or more the first three are
used, in this order. -/
theorem C64_words (option : List Char) (ts : List (List Char)) (h : Tokenises pySpace option ts) :
    (ts = [] ∨ ts.length = 2 → formatMethods option = .error .valueError) ∧
    (∀ m, ts = [m] → formatMethods option = [m, m, m].mapM refineMethod) ∧
    (∀ a b c rest, ts = a :: b :: c :: rest → formatMethods option = [a, b, c].mapM refineMethod) := by
  have : words option = ts := by rw [words_eq]; exact (tokenises_iff _ _ _).1 h
  simp only [formatMethods, this]
  refine ⟨?_, ?_, ?_⟩
  · rintro (rfl | h)
    · rfl
    · match ts, h with
      | [a, b], _ => rfl
  · rintro m rfl; rfl
  · rintro a b c rest rfl; rfl

/-- **C64** One word: the method is chosen by its first letter in either case (l: linear, c: cubic, p: pchip, a: Akima), a
digit from 1 to 9 is that polynomial, a word beginning with `poly` is the polynomial named by its *last* character;
everything else is a `ValueError`. -/
theorem C64_method (c : Char) (m : List Char) :
    (¬ startsWith "POLY".toList ((c :: m).map upperC) = true →
      ((c = 'l' ∨ c = 'L') → refineMethod (c :: m) = .ok "linear".toList) ∧
      ((c = 'c' ∨ c = 'C') → refineMethod (c :: m) = .ok "cubic".toList) ∧
      ((c = 'p' ∨ c = 'P') → refineMethod (c :: m) = .ok "pchip".toList) ∧
      ((c = 'a' ∨ c = 'A') → refineMethod (c :: m) = .ok "Akima".toList) ∧
      ('1' ≤ c ∧ c ≤ '9' → refineMethod (c :: m) = .ok ("poly".toList ++ [c])) ∧
      (upperC c ∉ ['L', 'C', 'P', 'A'] → ¬ ('1' ≤ upperC c ∧ upperC c ≤ '9') → refineMethod (c :: m) = .error .valueError)) ∧
    (startsWith "POLY".toList ((c :: m).map upperC) = true →
      refineMethod (c :: m) = .ok ("poly".toList ++ [upperC ((c :: m).getLast (by simp))])) := by
  constructor
  · intro h
    have hr : refineMethod (c :: m) = if upperC c = 'L' then .ok "linear".toList
      else if upperC c = 'C' then .ok "cubic".toList
      else if upperC c = 'P' then .ok "pchip".toList
      else if upperC c = 'A' then .ok "Akima".toList
      else if '1' ≤ upperC c ∧ upperC c ≤ '9' then .ok ("poly".toList ++ [upperC c])
      else .error .valueError := by
      unfold refineMethod
      simp only []
      rw [if_neg h]
      rfl
    rw [hr]
    refine ⟨?_, ?_, ?_, ?_, ?_, ?_⟩
    · rintro (rfl | rfl) <;> rfl
    · rintro (rfl | rfl) <;> rfl
    · rintro (rfl | rfl) <;> rfl
    · rintro (rfl | rfl) <;> rfl
    · intro hd
      have hu : upperC c = c := by
        unfold upperC Char.toUpper
        rw [dif_neg]
        intro hc
        obtain ⟨h1, h2⟩ := hd
        have a1 : c.val ≤ '9'.val := h2
        have a2 : 'a'.val ≤ c.val := hc.1
        exact absurd (UInt32.le_trans a2 a1) (by decide)
      rw [hu, if_neg, if_neg, if_neg, if_neg, if_pos hd]
      all_goals
        rintro rfl
        exact absurd hd (by decide)
    · intro h1 h2
      simp only [List.mem_cons, List.not_mem_nil, or_false, not_or] at h1
      rw [if_neg h1.1, if_neg h1.2.1, if_neg h1.2.2.1, if_neg h1.2.2.2, if_neg h2]
  · intro h
    simp only [refineMethod, h, if_true]
    rw [List.getLastD_eq_getLast?, List.getLast?_map, List.getLast?_eq_getLast_of_ne_nil (by simp : c :: m ≠ [])]
    rfl

/-- **C64** So `poly12` is silently the polynomial of degree 2, and `poly` is a method that does not exist. -/
theorem C64_poly_last_digit : refineMethod "poly12".toList = .ok "poly2".toList ∧
    refineMethod "poly".toList = .ok "polyY".toList := by decide

example : formatMethods "cubic L 3".toList = .ok ["cubic".toList, "linear".toList, "poly3".toList] := by decide
example : formatMethods "x".toList = .error .valueError := by decide

end TEflow.Interface
