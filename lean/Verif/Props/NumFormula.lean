import Verif.Props.NumText
import Verif.Props.Compound

/-! # C126 (formulas): amounts written with `%.9g` and read by `from_string` -/

set_option linter.unusedSimpArgs false

namespace TEflow.NumText

open Loader PyDict
open TableFile (padded digitsVal_padded padded_ne)

/-- `'%.9g' % num`, the format of `Compound.to_string`, loader.py:385 (negative zero is not an amount of this model) -/
def nine (x : ℚ) : List Char := general 9 ⟨decide (x < 0), |x|, abs_nonneg x⟩

/-! ## Specification -/

/-- what becomes of the amount `x`: its size with nine digits, if that is zero or between 1e-4 and 1e9; otherwise the number between 1 and 10 that has the same digits -/
def ReadBack (x y : ℚ) : Prop :=
  ∃ r, Rounded 9 |x| r ∧ ((r = 0 ∨ 1 / 10 ^ 4 ≤ r ∧ r < 10 ^ 9) → y = r) ∧ (¬ (r = 0 ∨ 1 / 10 ^ 4 ≤ r ∧ r < 10 ^ 9) → 1 ≤ y ∧ y < 10 ∧ ∃ k : ℤ, r = y * (10 : ℚ) ^ k)

/-! ## Texts -/

theorem vals_agree (f : List Char) : ∀ n v, TableFile.digitsVal n f = some v → f.foldl (fun n c => 10 * n + Loader.digitVal c) n = v := by
  induction f with
  | nil =>
    intro n v h
    exact Option.some.inj h
  | cons c f ih =>
    intro n v h
    unfold TableFile.digitsVal at h
    by_cases hc : '0' ≤ c ∧ c ≤ '9'
    · rw [show TableFile.digitVal c = some (c.toNat - '0'.toNat) from if_pos hc] at h
      exact ih _ _ h
    · rw [show TableFile.digitVal c = none from if_neg hc] at h
      cases h

theorem digit_loader {c : Char} (h : isDigit c) : Loader.isDigit c = true := by
  obtain ⟨m, hm, rfl⟩ := h
  interval_cases m <;> decide

/-- a number without an exponent is a plain decimal -/
theorem mant_plain (strip : Bool) (d n : Nat) : PlainDecimal (mant strip d n) ((n : ℚ) / 10 ^ d) := by
  obtain ⟨f, v, z, h1, h2, h3, h4, h5, -⟩ := mant_split strip d n
  have hi : Loader.digitsVal (padded 1 (n / 10 ^ d)) = n / 10 ^ d := vals_agree _ _ _ (digitsVal_padded 1 (n / 10 ^ d))
  have hf : Loader.digitsVal f = v := vals_agree _ _ _ h3
  have hval : (n : ℚ) / 10 ^ d = ((n / 10 ^ d : Nat) : ℚ) + (v : ℚ) / 10 ^ f.length := by
    have h6 := Nat.div_add_mod n (10 ^ d)
    rw [h5, ← h4] at h6
    have h7 : (n : ℚ) = 10 ^ (f.length + z) * ((n / 10 ^ d : Nat) : ℚ) + v * 10 ^ z := by
      rw [← h4]
      exact_mod_cast h6.symm
    rw [h7, ← h4, pow_add]
    field_simp
  cases f with
  | nil =>
    left
    rw [h1]
    refine ⟨by simpa [frac] using padded_ne 1 (n / 10 ^ d) Nat.one_pos, ?_, ?_⟩
    · intro c hc
      exact digit_loader (padded_digits _ _ c (by simpa [frac] using hc))
    · have hv : v = 0 := (Option.some.inj h3).symm
      rw [hval, hv]
      simp only [frac, List.append_nil, hi]
      simp
  | cons a f =>
    right
    refine ⟨_, a :: f, h1, padded_ne 1 _ Nat.one_pos, fun c hc => digit_loader (padded_digits _ _ c hc), fun c hc => digit_loader (h2 c hc), ?_⟩
    rw [hval, hi, hf]

/-- a text with a number in it that `from_string` takes for the amount `y` -/
def Seen (text t : List Char) (y : ℚ) : Prop :=
  ∃ s j, text = s ++ t ++ j ∧ (∀ c ∈ s, isFill c = true) ∧ PlainDecimal t y ∧ (∀ c ∈ j, isUpper c = false) ∧ ∀ c, j.head? = some c → c = 'e'

theorem nine_seen (x : ℚ) : ∃ t y, Seen (nine x) t y ∧ ReadBack x y := by
  have hs : ∀ b, ∀ c ∈ signText b, isFill c = true := by decide
  set m := sig 9 |x| with hm
  have hr := sval_rounded (p := 9) (by norm_num) (abs_nonneg x)
  have hv : sval 9 |x| = m.1 * (10 : ℚ) ^ (m.2 - 8) := by
    unfold sval
    rw [← hm]
    norm_num
  have hzero : |x| = 0 → m = (0, 0) := fun h => by rw [hm, h, sig_zero]
  have hbnd : |x| ≠ 0 → 10 ^ 8 ≤ m.1 ∧ m.1 < 10 ^ 9 := fun h => sig_bounds (p := 9) (by norm_num) (lt_of_le_of_ne (abs_nonneg x) (Ne.symm h))
  have hval : |x| ≠ 0 → (10 : ℚ) ^ m.2 ≤ sval 9 |x| ∧ sval 9 |x| < (10 : ℚ) ^ (m.2 + 1) := by
    intro h
    obtain ⟨b1, b2⟩ := hbnd h
    have b1' : (10 : ℚ) ^ 8 ≤ m.1 := by exact_mod_cast b1
    have b2' : (m.1 : ℚ) < 10 ^ 9 := by exact_mod_cast b2
    have hp := zpow_pos' (m.2 - 8)
    have e1 : (10 : ℚ) ^ m.2 = 10 ^ 8 * (10 : ℚ) ^ (m.2 - 8) := by
      rw [← zpow_natCast, ← zpow_add₀ ten_ne]
      congr 1
      push_cast
      ring
    have e2 : (10 : ℚ) ^ (m.2 + 1) = 10 ^ 9 * (10 : ℚ) ^ (m.2 - 8) := by
      rw [← zpow_natCast, ← zpow_add₀ ten_ne]
      congr 1
      push_cast
      ring
    rw [hv, e1, e2]
    exact ⟨mul_le_mul_of_nonneg_right b1' hp.le, mul_lt_mul_of_pos_right b2' hp⟩
  have hrange : (-4 ≤ m.2 ∧ m.2 < (9 : ℕ)) ↔ (sval 9 |x| = 0 ∨ 1 / 10 ^ 4 ≤ sval 9 |x| ∧ sval 9 |x| < 10 ^ 9) := by
    by_cases h : |x| = 0
    · rw [hv, hzero h]
      norm_num
    · obtain ⟨c1, c2⟩ := hval h
      have hne : sval 9 |x| ≠ 0 := ((zpow_pos' m.2).trans_le c1).ne'
      have e4 : (1 : ℚ) / 10 ^ 4 = (10 : ℚ) ^ (-4 : ℤ) := by norm_num
      have e9 : (10 : ℚ) ^ 9 = (10 : ℚ) ^ (9 : ℤ) := by norm_num
      have hone : (1 : ℚ) < 10 := by norm_num
      rw [e4, e9]
      constructor
      · rintro ⟨h1, h2⟩
        exact .inr ⟨(zpow_le_zpow_right₀ hone.le h1).trans c1, c2.trans_le (zpow_le_zpow_right₀ hone.le (by push_cast at h2; omega))⟩
      · rintro (h0 | ⟨h1, h2⟩)
        · exact absurd h0 hne
        · have a1 := (zpow_lt_zpow_iff_right₀ hone).1 (h1.trans_lt c2)
          have a2 := (zpow_lt_zpow_iff_right₀ hone).1 (c1.trans_lt h2)
          push_cast
          omega
  by_cases hc : -4 ≤ m.2 ∧ m.2 < (9 : ℕ)
  · refine ⟨mant true ((9 : ℤ) - 1 - m.2).toNat m.1, sval 9 |x|, ⟨signText (decide (x < 0)), [], ?_, hs _, ?_, by simp, by simp⟩,
      ⟨_, hr, fun _ => rfl, fun h => absurd (hrange.1 hc) h⟩⟩
    · unfold nine general
      simp only [← hm]
      rw [if_pos hc, List.append_nil]
      rfl
    · have := mant_plain true ((9 : ℤ) - 1 - m.2).toNat m.1
      rw [hv]
      convert this using 1
      have hlt : m.2 < 9 := by exact_mod_cast hc.2
      rw [show m.2 - 8 = -((((9 : ℤ) - 1 - m.2).toNat : Nat) : ℤ) by omega, zpow_neg, zpow_natCast]
      rfl
  · have hne : |x| ≠ 0 := by
      intro h
      rw [hzero h] at hc
      norm_num at hc
    obtain ⟨b1, b2⟩ := hbnd hne
    have b1' : (10 : ℚ) ^ 8 ≤ m.1 := by exact_mod_cast b1
    have b2' : (m.1 : ℚ) < 10 ^ 9 := by exact_mod_cast b2
    refine ⟨mant true 8 m.1, (m.1 : ℚ) / 10 ^ 8, ⟨signText (decide (x < 0)), 'e' :: expText m.2, ?_, hs _, mant_plain true 8 m.1, ?_, ?_⟩,
      ⟨_, hr, fun h => absurd (hrange.2 h) hc, fun _ => ⟨?_, ?_, m.2, ?_⟩⟩⟩
    · unfold nine general
      simp only [← hm]
      rw [if_neg hc, List.append_assoc]
    · intro c hc'
      rcases List.mem_cons.1 hc' with rfl | h
      · decide
      · unfold expText at h
        rcases List.mem_cons.1 h with h | h
        · rw [h]
          split <;> decide
        · exact Loader.digit_not_upper (digit_loader (padded_digits _ _ c h))
    · intro c h
      exact (Option.some.inj h).symm
    · rw [le_div_iff₀ (by positivity)]
      linarith
    · rw [div_lt_iff₀ (by positivity)]
      linarith
    · rw [hv, zpow_sub₀ ten_ne]
      norm_num
      ring

/-- one written element, followed by another one, possibly after a blank -/
theorem seen_element (fmt : ℚ → List Char) (origin omitOne : Bool) (e : List Char × ℚ) (hn : SymbolName e.1) (t : List Char) (y : ℚ) (hx : Seen (fmt e.2) t y) (blank : Bool)
    (T : List Char) (hT : Loader.Clean T) :
    ∃ t', symbols (elementText fmt origin omitOne e ++ (if blank then ' ' :: T else T)) = (e.1, t') :: symbols T ∧ amount t' = .ok y := by
  obtain ⟨n, x⟩ := e
  obtain ⟨c, r, rfl, hc, hr⟩ := hn
  obtain ⟨s, j, htext, hs, hpl, hj, hje⟩ := hx
  simp only at htext
  obtain ⟨p1, p2, p3⟩ := plain_shape hpl
  have hblank : symbols (if blank then ' ' :: T else T) = symbols T := by
    cases blank
    · rfl
    · simp only [if_true, symbols, List.tails, List.filterMap_cons]
      have : symbolAt (' ' :: T) = none := by simp [symbolAt, show isUpper ' ' = false from by decide]
      rw [this]
  set T' := (if blank then ' ' :: T else T) with hT'
  have sd : Stop Loader.isDigit T' := by
    cases blank
    · exact hT.stop_digit
    · intro y hy; simp [T'] at hy; subst hy; decide
  have sdot : T'.head? ≠ some '.' := by
    cases blank
    · exact hT.not_dot
    · simp [T']
  have sl : Stop isLower T' := by
    cases blank
    · exact hT.stop_lower
    · intro y hy; simp [T'] at hy; subst hy; decide
  have sfill : T'.dropWhile isFill = T := by
    have hTT : T.dropWhile isFill = T := by
      have := (takeWhile_stop isFill [] T (by simp) hT.stop_fill).2
      simpa using this
    cases blank
    · exact hTT
    · simp only [T', if_true, List.dropWhile_cons, show isFill ' ' = true from by decide, hTT]
  -- what follows the number
  have hfollow : ∀ U : List Char, Stop Loader.isDigit U → U.head? ≠ some '.' → Stop Loader.isDigit (j ++ U) ∧ (j ++ U).head? ≠ some '.' := by
    intro U h1 h2
    cases j with
    | nil => exact ⟨h1, h2⟩
    | cons a j =>
      have := hje a rfl
      subst this
      exact ⟨by intro z hz; simp at hz; subst hz; decide, by simp⟩
  have fill_up : ∀ z, isFill z = true → isUpper z = false := by
    intro z hz
    simp only [isFill, Bool.or_eq_true, beq_iff_eq] at hz
    rcases hz with (((rfl | rfl) | rfl) | rfl) | rfl <;> decide
  unfold elementText
  by_cases ho : (omitOne && fmt x == ['1']) = true
  · simp only [ho, if_true]
    have hsym := symbolAt_plain c r T' hc hr sl (by rw [sfill]; exact hT.stop_digit) (by rw [sfill]; exact hT.not_dot)
    refine ⟨[], ?_, ?_⟩
    · rw [symbols_cons_some c r T' _ hsym (fun y hy => lower_not_upper (hr y hy)), hblank]
    · -- the number written is the digit one
      simp only [Bool.and_eq_true, beq_iff_eq] at ho
      rw [htext] at ho
      have hj0 : j = [] := by
        cases j with
        | nil => rfl
        | cons a j =>
          have := hje a rfl
          subst this
          have h1 : 'e' ∈ s ++ t ++ 'e' :: j := by simp
          rw [ho.2] at h1
          simp at h1
      have hs0 : s = [] := by
        cases s with
        | nil => rfl
        | cons a s =>
          have h1 := ho.2
          simp only [List.cons_append, List.cons.injEq] at h1
          have := hs a (by simp)
          rw [h1.1] at this
          exact absurd this (by decide)
      rw [hj0, hs0] at ho
      simp only [List.nil_append, List.append_nil] at ho
      rw [amount_nil, ← amount_plain _ _ hpl, ho.2, amount_int _ (by decide) (by simp)]
      simp [Loader.digitsVal, Loader.digitVal]
  · simp only [ho, Bool.false_eq_true, if_false]
    refine ⟨t, ?_, amount_plain _ _ hpl⟩
    rw [htext]
    cases origin
    · simp only [Bool.false_eq_true, if_false]
      obtain ⟨f1, f2⟩ := hfollow T' sd sdot
      have hsym := symbolAt_number c r s t (j ++ T') hc hr hs p1 p2 p3 f1 f2
      rw [← hblank]
      have key := symbols_cons_some c (r ++ s ++ t ++ j) T' (c :: r, t) (by simpa using hsym) (by
        intro y hy
        simp only [List.append_assoc, List.mem_append] at hy
        rcases hy with hy | hy | hy | hy
        · exact lower_not_upper (hr y hy)
        · exact fill_up y (hs y hy)
        · exact shape_not_upper p1 y hy
        · exact hj y hy)
      simpa using key
    · simp only [if_true]
      obtain ⟨f1, f2⟩ := hfollow (')' :: T') (by intro y hy; simp at hy; subst hy; decide) (by simp)
      have hsym := symbolAt_number c r (['\\', '-', '('] ++ s) t (j ++ ')' :: T') hc hr
        (by
          intro y hy
          rcases List.mem_append.1 hy with hy | hy
          · simp at hy; rcases hy with rfl | rfl | rfl <;> decide
          · exact hs y hy) p1 p2 p3 f1 f2
      rw [← hblank]
      have key := symbols_cons_some c (r ++ ['\\', '-', '('] ++ s ++ t ++ j ++ [')']) T' (c :: r, t) (by simpa using hsym) (by
        intro y hy
        simp only [List.append_assoc, List.mem_append, List.mem_cons, List.not_mem_nil, or_false] at hy
        rcases hy with hy | (rfl | rfl | rfl) | hy | hy | hy | rfl
        · exact lower_not_upper (hr y hy)
        · decide
        · decide
        · decide
        · exact fill_up y (hs y hy)
        · exact shape_not_upper p1 y hy
        · exact hj y hy
        · decide)
      simpa using key

/-- the symbols of a written compound -/
theorem seen_symbols (fmt : ℚ → List Char) (style : Style) (omitOne : Bool) (comp : List (List Char × ℚ)) (hn : ∀ e ∈ comp, SymbolName e.1)
    (hx : ∀ e ∈ comp, ∃ t y, Seen (fmt e.2) t y ∧ ReadBack e.2 y) :
    ∃ l : List (List Char × List Char × ℚ), symbols (toText fmt style omitOne comp) = l.map (fun e => (e.1, e.2.1)) ∧ (∀ e ∈ l, amount e.2.1 = .ok e.2.2) ∧
      List.Forall₂ (fun e e' => e'.1 = e.1 ∧ ReadBack e.2 e'.2.2) comp l ∧ Loader.Clean (toText fmt style omitOne comp) := by
  induction comp with
  | nil => exact ⟨[], by cases style <;> rfl, by simp, .nil, by cases style <;> · intro c hc; simp [toText, joinBlank] at hc⟩
  | cons e comp ih =>
    obtain ⟨l, h1, h2, h3, h4⟩ := ih (fun e he => hn e (by simp [he])) (fun e he => hx e (by simp [he]))
    obtain ⟨t, y, hse, hrb⟩ := hx e (by simp)
    have htext : ∃ origin blank : Bool, toText fmt style omitOne (e :: comp) =
        elementText fmt origin omitOne e ++ (if blank then ' ' :: toText fmt style omitOne comp else toText fmt style omitOne comp) := by
      cases style
      · exact ⟨true, false, by simp [toText]⟩
      · exact ⟨false, false, by simp [toText]⟩
      · refine ⟨false, !comp.isEmpty, ?_⟩
        cases comp with
        | nil => simp [toText, joinBlank]
        | cons f comp => simp [toText, joinBlank]
    obtain ⟨origin, blank, htext⟩ := htext
    obtain ⟨t', k1, k2⟩ := seen_element fmt origin omitOne e (hn e (by simp)) t y hse blank _ h4
    refine ⟨(e.1, t', y) :: l, ?_, ?_, .cons ⟨rfl, hrb⟩ h3, ?_⟩
    · rw [htext, k1, h1]
      rfl
    · intro e' he'
      rcases List.mem_cons.1 he' with rfl | he'
      · exact k2
      · exact h2 e' he'
    · rw [htext]
      exact elementText_clean fmt origin omitOne e (hn e (by simp)) _

theorem go_reads (known : List Char → Bool) (skip raise : Bool) (l : List (List Char × List Char × ℚ)) (h1 : ∀ e ∈ l, amount e.2.1 = .ok e.2.2)
    (h2 : skip = true ∨ raise = true → ∀ e ∈ l, known (e.1.take 2) = true) :
    ∀ c1 : PyDict (List Char) ℚ, fromStringGo known skip raise c1 (l.map (fun e => (e.1, e.2.1))) = .ok (PyDict.update c1 (l.map fun e => (e.1, e.2.2))) := by
  induction l with
  | nil => intro c1; rfl
  | cons e l ih =>
    intro c1
    rw [List.map_cons, fromStringGo]
    have hr : (!known (e.1.take 2) && raise) = false := by
      cases raise with
      | false => simp
      | true => simp [h2 (Or.inr rfl) e (by simp)]
    have hs : (!known (e.1.take 2) && skip) = false := by
      cases skip with
      | false => simp
      | true => simp [h2 (Or.inl rfl) e (by simp)]
    simp only [hr, hs, Bool.false_eq_true, if_false]
    rw [h1 e (by simp)]
    exact ih (fun e he => h1 e (by simp [he])) (fun h e he => h2 h e (by simp [he])) _

/-! ## Theorems -/

/-- **C126 (formulas).** A compound written by `to_string` with its own format `%.9g` and read by `from_string` has the same elements in the same order; each amount comes back as
its size with nine significant digits, if that is zero or between 1e-4 and 1e9.  The sign of a negative amount is lost, and an amount outside that range is written with an exponent
that is not read: what comes back is a number between 1 and 10. -/
theorem C126_formula (style : Style) (omitOne : Bool) (comp : PyDict (List Char) ℚ) (hwf : WF comp) (hn : ∀ e ∈ comp, SymbolName e.1) (known : List Char → Bool) (skip raise : Bool)
    (hk : skip = true ∨ raise = true → ∀ e ∈ comp, known (e.1.take 2) = true) :
    ∃ comp', fromString known skip raise (toText nine style omitOne comp) = .ok comp' ∧ List.Forall₂ (fun e e' => e'.1 = e.1 ∧ ReadBack e.2 e'.2) comp comp' := by
  obtain ⟨l, h1, h2, h3, -⟩ := seen_symbols nine style omitOne comp hn (fun e _ => nine_seen e.2)
  have hkeys : l.map Prod.fst = comp.map Prod.fst := by
    clear h1 h2 hwf hn hk
    induction h3 with
    | nil => rfl
    | cons h _ ih => simp [h.1, ih]
  have hwf' : WF (l.map fun e => (e.1, e.2.2)) := by
    unfold WF keys at hwf ⊢
    rw [List.map_map]
    have : (Prod.fst ∘ fun e : List Char × List Char × ℚ => (e.1, e.2.2)) = Prod.fst := rfl
    rw [this, hkeys]
    exact hwf
  refine ⟨l.map fun e => (e.1, e.2.2), ?_, ?_⟩
  · unfold fromString
    rw [formulaMatches_eq, h1, go_reads known skip raise l h2]
    · have := ofPairs_of_WF hwf'
      unfold ofPairs at this
      rw [this]
    · intro h e he
      have : e.1 ∈ l.map Prod.fst := List.mem_map_of_mem he
      rw [hkeys] at this
      obtain ⟨e', he', heq⟩ := List.mem_map.1 this
      rw [← heq]
      exact hk h e' he'
  · rw [List.forall₂_map_right_iff]
    exact h3

theorem readBack_range {x y : ℚ} (h : ReadBack x y) (hx : x = 0 ∨ 1 / 10 ^ 4 ≤ x ∧ x ≤ 999999999) : 0 ≤ x ∧ Rounded 9 x y := by
  obtain ⟨r, h1, h2, -⟩ := h
  have h0 : 0 ≤ x := by
    rcases hx with h | h
    · exact h.ge
    · exact le_trans (by norm_num) h.1
  rw [abs_of_nonneg h0] at h1
  rw [h2 ?_]
  · exact ⟨h0, h1⟩
  · have hr := rounded_unique h1 (sval_rounded (p := 9) (by norm_num) h0)
    have e1 : sval 9 (1 / 10 ^ 4) = 1 / 10 ^ 4 := rounded_exact (by norm_num) (sval_rounded (p := 9) (by norm_num) (by norm_num)) ⟨1, -4, by norm_num, by norm_num⟩
    have e2 : sval 9 999999999 = 999999999 := rounded_exact (by norm_num) (sval_rounded (p := 9) (by norm_num) (by norm_num)) ⟨999999999, 0, by norm_num, by norm_num⟩
    rcases hx with h | ⟨k1, k2⟩
    · left
      rw [hr, h]
      unfold sval
      rw [sig_zero]
      simp
    · right
      rw [hr]
      have m1 := sval_mono (p := 9) (by norm_num) (by norm_num) k1
      have m2 := sval_mono (p := 9) (by norm_num) h0 k2
      rw [e1] at m1
      rw [e2] at m2
      exact ⟨m1, lt_of_le_of_lt m2 (by norm_num)⟩

/-- **C126 (formulas).** Amounts that are zero or between 1e-4 and 999999999 come back changed by at most five parts in a thousand million; with nine digits or fewer they come back
unchanged. -/
theorem C126_amounts (style : Style) (omitOne : Bool) (comp : PyDict (List Char) ℚ) (hwf : WF comp) (hn : ∀ e ∈ comp, SymbolName e.1) (known : List Char → Bool) (skip raise : Bool)
    (hk : skip = true ∨ raise = true → ∀ e ∈ comp, known (e.1.take 2) = true) (hx : ∀ e ∈ comp, e.2 = 0 ∨ 1 / 10 ^ 4 ≤ e.2 ∧ e.2 ≤ 999999999) :
    (∃ comp', fromString known skip raise (toText nine style omitOne comp) = .ok comp' ∧
      List.Forall₂ (fun e e' => e'.1 = e.1 ∧ |e'.2 - e.2| ≤ 5 / 10 ^ 9 * e.2 ∧ (Digits 9 e.2 → e'.2 = e.2)) comp comp') ∧
    ((∀ e ∈ comp, Digits 9 e.2) → fromString known skip raise (toText nine style omitOne comp) = .ok comp) := by
  obtain ⟨comp', h1, h2⟩ := C126_formula style omitOne comp hwf hn known skip raise hk
  have h3 : List.Forall₂ (fun e e' => e'.1 = e.1 ∧ |e'.2 - e.2| ≤ 5 / 10 ^ 9 * e.2 ∧ (Digits 9 e.2 → e'.2 = e.2)) comp comp' := by
    clear h1 hwf hn hk
    induction h2 with
    | nil => exact .nil
    | cons h _ ih =>
      refine .cons ⟨h.1, ?_⟩ (ih fun e he => hx e (by simp [he]))
      obtain ⟨h0, hr⟩ := readBack_range h.2 (hx _ (by simp))
      refine ⟨hr.near.trans (le_of_eq (by norm_num)), fun hd => rounded_exact h0 hr hd⟩
  refine ⟨⟨comp', h1, h3⟩, fun hd => ?_⟩
  rw [h1]
  congr 1
  clear h1 h2 hwf hn hk hx
  induction h3 with
  | nil => rfl
  | @cons a b _ _ h _ ih =>
    rw [ih fun e he => hd e (by simp [he])]
    congr 1
    exact Prod.ext h.1 (h.2.2 (hd a (by simp)))

/-- **C126 (finding).** A small dopant is read back as a large one: of an amount below 1e-4 (or of at least 1e9) only the digits remain, as a number between 1 and 10. -/
theorem C126_tiny (style : Style) (omitOne : Bool) (comp : PyDict (List Char) ℚ) (hwf : WF comp) (hn : ∀ e ∈ comp, SymbolName e.1) (known : List Char → Bool) (skip raise : Bool)
    (hk : skip = true ∨ raise = true → ∀ e ∈ comp, known (e.1.take 2) = true) (name : List Char) (x : ℚ) (he : (name, x) ∈ comp) (hx : 0 < x ∧ x ≤ 9999 / 10 ^ 8 ∨ 10 ^ 9 ≤ x) :
    ∃ (comp' : PyDict (List Char) ℚ) (y : ℚ), fromString known skip raise (toText nine style omitOne comp) = .ok comp' ∧ (name, y) ∈ comp' ∧ 1 ≤ y ∧ y < 10 := by
  obtain ⟨comp', h1, h2⟩ := C126_formula style omitOne comp hwf hn known skip raise hk
  suffices h : ∃ y, (name, y) ∈ comp' ∧ ReadBack x y by
    obtain ⟨y, h3, r, h4, -, h6⟩ := h
    have h0 : 0 < x := by
      rcases hx with h | h
      · exact h.1
      · exact lt_of_lt_of_le (by norm_num) h
    rw [abs_of_pos h0] at h4
    have hr := rounded_unique h4 (sval_rounded (p := 9) (by norm_num) h0.le)
    have hne : r ≠ 0 := by
      rw [hr]
      exact ((zpow_pos' _).trans_le (sval_between (p := 9) (by norm_num) h0).1).ne'
    have hout : ¬ (r = 0 ∨ 1 / 10 ^ 4 ≤ r ∧ r < 10 ^ 9) := by
      rintro (h | ⟨k1, k2⟩)
      · exact hne h
      · rcases hx with h | h
        · have e1 : sval 9 (9999 / 10 ^ 8) = 9999 / 10 ^ 8 :=
            rounded_exact (by norm_num) (sval_rounded (p := 9) (by norm_num) (by norm_num)) ⟨9999, -8, by norm_num, by norm_num⟩
          have m := sval_mono (p := 9) (by norm_num) h0.le h.2
          rw [e1, ← hr] at m
          exact absurd (k1.trans m) (by norm_num)
        · have e1 : sval 9 (10 ^ 9) = 10 ^ 9 := rounded_exact (by norm_num) (sval_rounded (p := 9) (by norm_num) (by norm_num)) ⟨1, 9, by norm_num, by norm_num⟩
          have m := sval_mono (p := 9) (by norm_num) (by norm_num) h
          rw [e1, ← hr] at m
          exact absurd (m.trans_lt k2) (lt_irrefl _)
    obtain ⟨q1, q2, -⟩ := h6 hout
    exact ⟨comp', y, h1, h3, q1, q2⟩
  clear h1 hwf hn hk
  induction h2 with
  | nil => cases he
  | @cons a b _ _ h _ ih =>
    rcases List.mem_cons.1 he with rfl | he
    · obtain ⟨b1, b2⟩ := b
      obtain ⟨rfl, h⟩ := h
      exact ⟨b2, by simp, h⟩
    · obtain ⟨y, h3, h4⟩ := ih he
      exact ⟨y, by simp [h3], h4⟩

/-- the texts -/
example : nine (1 / 3) = "0.333333333".toList ∧ nine 2 = "2".toList ∧ nine (1 / 100000) = "1e-05".toList ∧ nine 1000000000 = "1e+09".toList ∧ nine (-1 / 2) = "-0.5".toList ∧
    nine (123456789012 / 100) = "1.23456789e+09".toList ∧ nine (9999999995 / 10) = "1e+09".toList ∧ nine (1 / 10000) = "0.0001".toList := by
  decide +kernel

/-- `Bi0.4Sb1.6Te3I1e-05` loses the exponent of the iodine -/
example : (toText nine .join true [("Bi".toList, 2 / 5), ("Sb".toList, 8 / 5), ("Te".toList, 3), ("I".toList, 1 / 100000)] = "Bi0.4Sb1.6Te3I1e-05".toList) ∧
    fromString (K := ℚ) (fun _ => true) false false "Bi0.4Sb1.6Te3I1e-05".toList = .ok [("Bi".toList, 2 / 5), ("Sb".toList, 8 / 5), ("Te".toList, 3), ("I".toList, 1)] := by
  constructor <;> decide +kernel

/-- the hypotheses of `C126_amounts` hold of a compound with thirds -/
example : WF [("Bi".toList, (1 / 3 : ℚ)), ("Te".toList, 3)] ∧ (∀ e ∈ [("Bi".toList, (1 / 3 : ℚ)), ("Te".toList, 3)], SymbolName e.1 ∧ (e.2 = 0 ∨ 1 / 10 ^ 4 ≤ e.2 ∧ e.2 ≤ 999999999)) := by
  refine ⟨by decide, ?_⟩
  simp only [List.mem_cons, List.not_mem_nil, or_false, forall_eq_or_imp, forall_eq]
  exact ⟨⟨⟨'B', ['i'], rfl, by decide, by decide⟩, .inr (by norm_num)⟩, ⟨'T', ['e'], rfl, by decide, by decide⟩, .inr (by norm_num)⟩

end TEflow.NumText
