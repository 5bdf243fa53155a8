import Verif.Model.NumText
import Verif.Props.TableFile

/-! # C126: numbers written and read again -/

set_option linter.unusedSimpArgs false

namespace TEflow.NumText

open TableFile

/-! ## Specification -/

/-- `x` can be written with `p` significant digits -/
def Digits (p : Nat) (x : ℚ) : Prop := ∃ (m : Nat) (k : ℤ), m < 10 ^ p ∧ x = m * (10 : ℚ) ^ k

/-- `y` is what is left of `x ≥ 0` with `p` significant digits: none of the numbers with so many digits is nearer, and of two equally near, neighbours, it is the even one; it differs from `x`
by at most half a unit of the last digit -/
structure Rounded (p : Nat) (x y : ℚ) : Prop where
  digits : Digits p y
  nearest : ∀ z, 0 ≤ z → Digits p z → |y - x| ≤ |z - x|
  even : ∀ z, 0 ≤ z → Digits p z → z ≠ y → |z - x| = |y - x| → ∃ (m : Nat) (k : ℤ), y = m * (10 : ℚ) ^ k ∧ |z - y| = (10 : ℚ) ^ k ∧ Even m
  near : |y - x| ≤ 1 / 2 / 10 ^ (p - 1) * x

/-! ## Rounding -/

theorem halfEven_mono {a b : ℚ} (ha : 0 ≤ a) (h : a ≤ b) : halfEven a ≤ halfEven b := by
  by_contra hc
  have h1 := abs_le.1 (halfEven_near a ha)
  have h2 := abs_le.1 (halfEven_near b (ha.trans h))
  have h3 : (halfEven b : ℚ) + 1 ≤ halfEven a := by exact_mod_cast Nat.lt_of_not_le hc
  have : a = b := by linarith [h1.1, h1.2, h2.1, h2.2]
  rw [this] at hc
  exact hc le_rfl

theorem halfEven_best {x : ℚ} (hx : 0 ≤ x) (m : ℤ) : |(halfEven x : ℚ) - x| ≤ |(m : ℚ) - x| := by
  have h1 := halfEven_near x hx
  by_contra hc
  push Not at hc
  have h2 : |(m : ℚ) - halfEven x| < 1 := by
    calc |(m : ℚ) - halfEven x| = |((m : ℚ) - x) - (halfEven x - x)| := by ring_nf
      _ ≤ |(m : ℚ) - x| + |(halfEven x : ℚ) - x| := abs_sub _ _
      _ < 1 := by linarith
  have h3 : |m - (halfEven x : ℤ)| < 1 := by exact_mod_cast h2
  have h4 : m = (halfEven x : ℤ) := by
    have := Int.abs_lt_one_iff.1 h3
    omega
  rw [h4] at hc
  simp at hc

/-- the value of `sig` -/
def sval (p : Nat) (x : ℚ) : ℚ := (sig p x).1 * (10 : ℚ) ^ ((sig p x).2 - ((p : ℤ) - 1))

theorem ten_ne : (10 : ℚ) ≠ 0 := by norm_num

theorem zpow_pos' (k : ℤ) : (0 : ℚ) < 10 ^ k := zpow_pos (by norm_num) k

theorem log_bounds {x : ℚ} (hx : 0 < x) : (10 : ℚ) ^ Int.log 10 x ≤ x ∧ x < (10 : ℚ) ^ (Int.log 10 x + 1) :=
  ⟨by simpa using Int.zpow_log_le_self (R := ℚ) (b := 10) (by norm_num) hx, by simpa using Int.lt_zpow_succ_log_self (R := ℚ) (b := 10) (by norm_num) x⟩

theorem log_unique {x : ℚ} {e : ℤ} (h1 : (10 : ℚ) ^ e ≤ x) (h2 : x < (10 : ℚ) ^ (e + 1)) : Int.log 10 x = e := by
  have hx : 0 < x := (zpow_pos' e).trans_le h1
  have a := (Int.zpow_le_iff_le_log (R := ℚ) (b := 10) (by norm_num) hx (x := e)).1 (by simpa using h1)
  have b := (Int.lt_zpow_iff_log_lt (R := ℚ) (b := 10) (by norm_num) hx (x := e + 1)).1 (by simpa using h2)
  omega

theorem sig_zero (p : Nat) : sig p 0 = (0, 0) := by simp [sig]

section Pos

variable {p : Nat} {x : ℚ}

/-- the number whose nearest integer is taken -/
theorem scaled_bounds (hp : 0 < p) (hx : 0 < x) :
    ((10 ^ (p - 1) : Nat) : ℚ) ≤ x * (10 : ℚ) ^ ((p : ℤ) - 1 - Int.log 10 x) ∧ x * (10 : ℚ) ^ ((p : ℤ) - 1 - Int.log 10 x) < ((10 ^ p : Nat) : ℚ) := by
  obtain ⟨h1, h2⟩ := log_bounds hx
  have hpos := zpow_pos' ((p : ℤ) - 1 - Int.log 10 x)
  constructor
  · have e : ((10 ^ (p - 1) : Nat) : ℚ) = (10 : ℚ) ^ Int.log 10 x * (10 : ℚ) ^ ((p : ℤ) - 1 - Int.log 10 x) := by
      rw [← zpow_add₀ ten_ne]
      push_cast
      rw [← zpow_natCast]
      congr 1
      omega
    rw [e]
    exact mul_le_mul_of_nonneg_right h1 hpos.le
  · have e : ((10 ^ p : Nat) : ℚ) = (10 : ℚ) ^ (Int.log 10 x + 1) * (10 : ℚ) ^ ((p : ℤ) - 1 - Int.log 10 x) := by
      rw [← zpow_add₀ ten_ne]
      push_cast
      rw [← zpow_natCast]
      congr 1
      omega
    rw [e]
    exact mul_lt_mul_of_pos_right h2 hpos

theorem sig_bounds (hp : 0 < p) (hx : 0 < x) : 10 ^ (p - 1) ≤ (sig p x).1 ∧ (sig p x).1 < 10 ^ p := by
  obtain ⟨h1, h2⟩ := scaled_bounds hp hx
  have hlt : 10 ^ (p - 1) < 10 ^ p := Nat.pow_lt_pow_right (by norm_num) (by omega)
  have a : 10 ^ (p - 1) ≤ halfEven (x * (10 : ℚ) ^ ((p : ℤ) - 1 - Int.log 10 x)) := by
    have := halfEven_mono (by positivity) h1
    rwa [halfEven_nat] at this
  have b : halfEven (x * (10 : ℚ) ^ ((p : ℤ) - 1 - Int.log 10 x)) ≤ 10 ^ p := by
    have := halfEven_mono (mul_nonneg hx.le (zpow_pos' _).le) h2.le
    rwa [halfEven_nat] at this
  unfold sig
  rw [if_neg hx.ne']
  simp only
  split
  · exact ⟨le_rfl, hlt⟩
  · rename_i h
    exact ⟨a, lt_of_le_of_ne b h⟩

/-- the value, without the case of the carry -/
theorem sval_eq (hp : 0 < p) (hx : 0 < x) : sval p x = halfEven (x * (10 : ℚ) ^ ((p : ℤ) - 1 - Int.log 10 x)) * (10 : ℚ) ^ (Int.log 10 x - ((p : ℤ) - 1)) := by
  unfold sval sig
  rw [if_neg hx.ne']
  simp only
  split
  · rename_i h
    rw [h]
    simp only
    push_cast
    rw [← zpow_natCast, ← zpow_natCast, ← zpow_add₀ ten_ne, ← zpow_add₀ ten_ne]
    congr 1
    omega
  · rfl

theorem sig_of {n : Nat} {e : ℤ} (hp : 0 < p) (h1 : 10 ^ (p - 1) ≤ n) (h2 : n < 10 ^ p) : sig p ((n : ℚ) * (10 : ℚ) ^ (e - ((p : ℤ) - 1))) = (n, e) := by
  have hn : (0 : ℚ) < n := by exact_mod_cast lt_of_lt_of_le (by positivity) h1
  have hpos := zpow_pos' (e - ((p : ℤ) - 1))
  have hlog : Int.log 10 ((n : ℚ) * (10 : ℚ) ^ (e - ((p : ℤ) - 1))) = e := by
    refine log_unique ?_ ?_
    · have : (10 : ℚ) ^ e = ((10 ^ (p - 1) : Nat) : ℚ) * (10 : ℚ) ^ (e - ((p : ℤ) - 1)) := by
        push_cast
        rw [← zpow_natCast, ← zpow_add₀ ten_ne]
        congr 1
        omega
      rw [this]
      exact mul_le_mul_of_nonneg_right (by exact_mod_cast h1) hpos.le
    · have : (10 : ℚ) ^ (e + 1) = ((10 ^ p : Nat) : ℚ) * (10 : ℚ) ^ (e - ((p : ℤ) - 1)) := by
        push_cast
        rw [← zpow_natCast, ← zpow_add₀ ten_ne]
        congr 1
        omega
      rw [this]
      exact mul_lt_mul_of_pos_right (by exact_mod_cast h2) hpos
  unfold sig
  rw [if_neg (mul_pos hn hpos).ne', hlog]
  have : (n : ℚ) * (10 : ℚ) ^ (e - ((p : ℤ) - 1)) * (10 : ℚ) ^ ((p : ℤ) - 1 - e) = n := by
    rw [mul_assoc, ← zpow_add₀ ten_ne]
    simp
  simp only [this, halfEven_nat]
  rw [if_neg h2.ne]

end Pos

theorem sig_sval {p : Nat} (hp : 0 < p) {x : ℚ} (hx : 0 ≤ x) : sig p (sval p x) = sig p x := by
  rcases hx.eq_or_lt with rfl | hx
  · unfold sval
    rw [sig_zero]
    simp [sig_zero]
  · obtain ⟨h1, h2⟩ := sig_bounds hp hx
    exact sig_of hp h1 h2

theorem sval_nonneg (p : Nat) (x : ℚ) : 0 ≤ sval p x := mul_nonneg (Nat.cast_nonneg _) (zpow_pos' _).le

theorem sval_between {p : Nat} (hp : 0 < p) {x : ℚ} (hx : 0 < x) : (10 : ℚ) ^ Int.log 10 x ≤ sval p x ∧ sval p x ≤ (10 : ℚ) ^ (Int.log 10 x + 1) := by
  obtain ⟨h1, h2⟩ := scaled_bounds hp hx
  rw [sval_eq hp hx]
  have hpos := zpow_pos' (Int.log 10 x - ((p : ℤ) - 1))
  constructor
  · have e : (10 : ℚ) ^ Int.log 10 x = ((10 ^ (p - 1) : Nat) : ℚ) * (10 : ℚ) ^ (Int.log 10 x - ((p : ℤ) - 1)) := by
      push_cast
      rw [← zpow_natCast, ← zpow_add₀ ten_ne]
      congr 1
      omega
    rw [e]
    refine mul_le_mul_of_nonneg_right ?_ hpos.le
    have := halfEven_mono (by positivity) h1
    rw [halfEven_nat] at this
    exact_mod_cast this
  · have e : (10 : ℚ) ^ (Int.log 10 x + 1) = ((10 ^ p : Nat) : ℚ) * (10 : ℚ) ^ (Int.log 10 x - ((p : ℤ) - 1)) := by
      push_cast
      rw [← zpow_natCast, ← zpow_add₀ ten_ne]
      congr 1
      omega
    rw [e]
    refine mul_le_mul_of_nonneg_right ?_ hpos.le
    have := halfEven_mono (mul_nonneg hx.le (zpow_pos' _).le) h2.le
    rw [halfEven_nat] at this
    exact_mod_cast this

/-- `sig` rounds -/
theorem sval_rounded {p : Nat} (hp : 0 < p) {x : ℚ} (hx : 0 ≤ x) : Rounded p x (sval p x) := by
  rcases hx.eq_or_lt with rfl | hx
  · have h0 : sval p 0 = 0 := by unfold sval; rw [sig_zero]; simp
    rw [h0]
    exact ⟨⟨0, 0, by positivity, by simp⟩, fun z _ _ => by simp, fun z _ _ h h' => absurd (by simpa using h') h, by simp⟩
  have hb := sig_bounds hp hx
  set e := Int.log 10 x with he
  set s : ℚ := (10 : ℚ) ^ (e - ((p : ℤ) - 1)) with hs
  have hspos : 0 < s := zpow_pos' _
  have hinv : (10 : ℚ) ^ ((p : ℤ) - 1 - e) * s = 1 := by
    rw [hs, ← zpow_add₀ ten_ne]
    simp
  have hscal : ∀ n : ℤ, |(n : ℚ) * s - x| = |(n : ℚ) - x * (10 : ℚ) ^ ((p : ℤ) - 1 - e)| * s := by
    intro n
    rw [← abs_of_pos hspos, ← abs_mul, abs_of_pos hspos, sub_mul, mul_assoc x, hinv, mul_one]
  have hval := sval_eq hp hx
  rw [← he, ← hs] at hval
  have hdist : |sval p x - x| = |(halfEven (x * (10 : ℚ) ^ ((p : ℤ) - 1 - e)) : ℚ) - x * (10 : ℚ) ^ ((p : ℤ) - 1 - e)| * s := by
    rw [hval]
    exact_mod_cast hscal (halfEven (x * (10 : ℚ) ^ ((p : ℤ) - 1 - e)))
  have hxs : 0 ≤ x * (10 : ℚ) ^ ((p : ℤ) - 1 - e) := mul_nonneg hx.le (zpow_pos' _).le
  have hmul : ∀ n : ℤ, |sval p x - x| ≤ |(n : ℚ) * s - x| := by
    intro n
    rw [hdist, hscal]
    exact mul_le_mul_of_nonneg_right (halfEven_best hxs n) hspos.le
  obtain ⟨l1, l2⟩ := log_bounds hx
  rw [← he] at l1 l2
  have key : ∀ z, 0 ≤ z → Digits p z → (∃ n : ℤ, z = n * s) ∨ |sval p x - x| < |z - x| := by
    rintro z hz ⟨m, k, hm, rfl⟩
    by_cases hzl : (10 : ℚ) ^ e ≤ (m : ℚ) * (10 : ℚ) ^ k
    · -- a multiple of the unit of the last digit
      have hk : e - ((p : ℤ) - 1) ≤ k := by
        have h1 : (m : ℚ) * (10 : ℚ) ^ k < (10 : ℚ) ^ ((p : ℤ) + k) := by
          rw [zpow_add₀ ten_ne, zpow_natCast]
          exact mul_lt_mul_of_pos_right (by exact_mod_cast hm) (zpow_pos' k)
        have := (zpow_lt_zpow_iff_right₀ (by norm_num : (1 : ℚ) < 10)).1 (hzl.trans_lt h1)
        omega
      obtain ⟨j, hj⟩ := Int.eq_ofNat_of_zero_le (a := k - (e - ((p : ℤ) - 1))) (by omega)
      have : (m : ℚ) * (10 : ℚ) ^ k = ((m * 10 ^ j : ℤ) : ℚ) * s := by
        push_cast
        rw [mul_assoc, hs, ← zpow_natCast, ← zpow_add₀ ten_ne]
        congr 2
        omega
      exact .inl ⟨_, this⟩
    · push Not at hzl
      have : (10 : ℚ) ^ e = ((10 ^ (p - 1) : ℤ) : ℚ) * s := by
        push_cast
        rw [hs, ← zpow_natCast, ← zpow_add₀ ten_ne]
        congr 1
        omega
      refine .inr ((hmul (10 ^ (p - 1))).trans_lt ?_)
      rw [← this, abs_of_nonpos (by linarith), abs_of_nonpos (by linarith)]
      linarith
  refine ⟨⟨(sig p x).1, _, hb.2, rfl⟩, ?_, ?_, ?_⟩
  · intro z hz hd
    rcases key z hz hd with ⟨n, rfl⟩ | h
    · exact hmul n
    · exact h.le
  · intro z hz hd hne heq
    rcases key z hz hd with ⟨n, rfl⟩ | h
    · rw [hscal, hdist] at heq
      have heq := mul_right_cancel₀ hspos.ne' heq
      set h := halfEven (x * (10 : ℚ) ^ ((p : ℤ) - 1 - e)) with hh
      have hnear := halfEven_near _ hxs
      rw [← hh] at hnear
      have hnh : n ≠ (h : ℤ) := by
        rintro rfl
        exact hne (by rw [hval]; push_cast; rfl)
      have h1 : |(n : ℚ) - h| ≤ 1 := by
        calc |(n : ℚ) - h| = |((n : ℚ) - x * (10 : ℚ) ^ ((p : ℤ) - 1 - e)) - (h - x * (10 : ℚ) ^ ((p : ℤ) - 1 - e))| := by ring_nf
          _ ≤ |(n : ℚ) - x * (10 : ℚ) ^ ((p : ℤ) - 1 - e)| + |(h : ℚ) - x * (10 : ℚ) ^ ((p : ℤ) - 1 - e)| := abs_sub _ _
          _ ≤ 1 := by linarith
      have h2 : 1 ≤ |(n : ℚ) - h| := by
        have : (1 : ℤ) ≤ |n - (h : ℤ)| := Int.one_le_abs (sub_ne_zero.2 hnh)
        exact_mod_cast this
      have h3 : |(n : ℚ) - h| ≤ |(n : ℚ) - x * (10 : ℚ) ^ ((p : ℤ) - 1 - e)| + |(h : ℚ) - x * (10 : ℚ) ^ ((p : ℤ) - 1 - e)| := by
        calc |(n : ℚ) - h| = |((n : ℚ) - x * (10 : ℚ) ^ ((p : ℤ) - 1 - e)) - (h - x * (10 : ℚ) ^ ((p : ℤ) - 1 - e))| := by ring_nf
          _ ≤ _ := abs_sub _ _
      refine ⟨h, e - ((p : ℤ) - 1), hval, ?_, halfEven_tie _ hxs (by rw [← hh]; linarith)⟩
      rw [hval, ← sub_mul, abs_mul, abs_of_pos hspos, le_antisymm h1 h2, one_mul]
    · rw [heq] at h
      exact absurd h (lt_irrefl _)
  · rw [hdist]
    refine (mul_le_mul_of_nonneg_right (halfEven_near _ hxs) hspos.le).trans ?_
    have : s = (10 : ℚ) ^ e / 10 ^ (p - 1) := by
      rw [hs, eq_div_iff (by positivity), ← zpow_natCast, ← zpow_add₀ ten_ne]
      congr 1
      omega
    rw [this, show (1 / 2 : ℚ) * ((10 : ℚ) ^ e / 10 ^ (p - 1)) = 1 / 2 / 10 ^ (p - 1) * (10 : ℚ) ^ e by ring]
    exact mul_le_mul_of_nonneg_left l1 (by positivity)

theorem sval_mono {p : Nat} (hp : 0 < p) {x y : ℚ} (hx : 0 ≤ x) (h : x ≤ y) : sval p x ≤ sval p y := by
  rcases hx.eq_or_lt with rfl | hx
  · have h0 : sval p 0 = 0 := by unfold sval; rw [sig_zero]; simp
    rw [h0]
    exact sval_nonneg p y
  have hy := hx.trans_le h
  rcases (Int.log_mono_right (R := ℚ) (b := 10) hx h).eq_or_lt with hl | hl
  · rw [sval_eq hp hx, sval_eq hp hy, hl]
    refine mul_le_mul_of_nonneg_right ?_ (zpow_pos' _).le
    have := halfEven_mono (mul_nonneg hx.le (zpow_pos' _).le) (mul_le_mul_of_nonneg_right h (zpow_pos' ((p : ℤ) - 1 - Int.log 10 y)).le)
    exact_mod_cast this
  · exact (sval_between hp hx).2.trans ((zpow_le_zpow_right₀ (by norm_num) (by omega)).trans (sval_between hp hy).1)

/-- a number with so many digits stays -/
theorem rounded_exact {p : Nat} {x y : ℚ} (hx : 0 ≤ x) (h : Rounded p x y) (hd : Digits p x) : y = x := by
  have := h.nearest x hx hd
  rw [sub_self, abs_zero] at this
  exact sub_eq_zero.1 (abs_eq_zero.1 (le_antisymm this (abs_nonneg _)))

/-! ## Texts -/

/-- a decimal digit -/
def isDigit (c : Char) : Prop := ∃ m < 10, c = Nat.digitChar m

theorem digit_clean {c : Char} (h : isDigit c) : c ≠ '.' ∧ c ≠ '-' ∧ c ≠ '+' ∧ c ≠ '#' ∧ pySpace c = false ∧ isE c = false := by
  obtain ⟨m, hm, rfl⟩ := h
  interval_cases m <;> decide +kernel

theorem padded_digits (d n : Nat) : ∀ c ∈ padded d n, isDigit c := padded_chars d n

theorem digitsVal_append (a b : List Char) (n : Nat) : digitsVal n (a ++ b) = (digitsVal n a).bind fun k => digitsVal k b := by
  induction a generalizing n with
  | nil => rfl
  | cons c a ih =>
    simp only [List.cons_append, digitsVal]
    cases TableFile.digitVal c with
    | none => rfl
    | some v => exact ih _

theorem digitsVal_from (b : List Char) (n : Nat) : digitsVal n b = (digitsVal 0 b).map fun v => n * 10 ^ b.length + v := by
  induction b generalizing n with
  | nil => simp [digitsVal]
  | cons c b ih =>
    unfold digitsVal
    cases TableFile.digitVal c with
    | none => rfl
    | some v =>
      simp only
      rw [ih (10 * n + v), ih (10 * 0 + v), Option.map_map]
      congr 1
      funext w
      simp only [Function.comp, List.length_cons, pow_succ]
      ring

theorem stripZeros_spec (f : List Char) : ∃ z, f = stripZeros f ++ List.replicate z '0' := by
  refine ⟨(f.reverse.takeWhile (· = '0')).length, ?_⟩
  have h1 : f.reverse.takeWhile (· = '0') = List.replicate (f.reverse.takeWhile (· = '0')).length '0' := by
    refine List.eq_replicate_iff.2 ⟨rfl, fun c hc => ?_⟩
    simpa using List.mem_takeWhile_imp hc
  have h2 := congrArg List.reverse (List.takeWhile_append_dropWhile (p := fun c => decide (c = '0')) (l := f.reverse))
  rw [List.reverse_append, List.reverse_reverse] at h2
  rw [h1, List.reverse_replicate] at h2
  exact h2.symm

/-- the decimals written -/
theorem mant_split (strip : Bool) (d n : Nat) : ∃ f v z, mant strip d n = padded 1 (n / 10 ^ d) ++ frac f ∧ (∀ c ∈ f, isDigit c) ∧ digitsVal 0 f = some v ∧ f.length + z = d ∧
    n % 10 ^ d = v * 10 ^ z ∧ (strip = false → f = padded d (n % 10 ^ d)) ∧ (strip = true → ∀ c, f.getLast? = some c → c ≠ '0') := by
  have hlen := padded_length d (n % 10 ^ d) (Nat.mod_lt _ (by positivity))
  cases strip with
  | false => exact ⟨_, _, 0, rfl, padded_digits _ _, digitsVal_padded _ _, hlen, by simp, fun _ => rfl, by simp⟩
  | true =>
    obtain ⟨z, hz⟩ := stripZeros_spec (padded d (n % 10 ^ d))
    have hd : ∀ c ∈ stripZeros (padded d (n % 10 ^ d)), isDigit c := by
      intro c hc
      refine padded_digits d (n % 10 ^ d) c ?_
      rw [hz]
      exact List.mem_append_left _ hc
    have h0 := digitsVal_padded d (n % 10 ^ d)
    rw [hz, digitsVal_append] at h0
    obtain ⟨v, h1, h2⟩ := Option.bind_eq_some_iff.1 h0
    have h3 := digitsVal_zeros z v []
    rw [List.append_nil] at h3
    rw [h3] at h2
    have h2 := Option.some.inj h2
    refine ⟨_, v, z, rfl, hd, h1, ?_, ?_, by simp, fun _ c hc => ?_⟩
    · rw [hz, List.length_append, List.length_replicate] at hlen
      exact hlen
    · rw [← h2, Nat.mul_comm]
    · rw [if_pos rfl] at hc
      unfold stripZeros at hc
      rw [List.getLast?_reverse] at hc
      have := List.head?_dropWhile_not (fun c => decide (c = '0')) (padded d (n % 10 ^ d)).reverse
      rw [hc] at this
      simpa using this

theorem frac_chars {f : List Char} (h : ∀ c ∈ f, isDigit c) : ∀ c ∈ frac f, isDigit c ∨ c = '.' := by
  intro c hc
  cases f with
  | nil => cases hc
  | cons a f =>
    rcases List.mem_cons.1 hc with h1 | h1
    · exact .inr h1
    · exact .inl (h c h1)

theorem mant_chars (strip : Bool) (d n : Nat) : ∀ c ∈ mant strip d n, isDigit c ∨ c = '.' := by
  obtain ⟨f, v, z, h1, h2, -⟩ := mant_split strip d n
  intro c hc
  rw [h1] at hc
  rcases List.mem_append.1 hc with h | h
  · exact .inl (padded_digits _ _ c h)
  · exact frac_chars h2 c h

theorem mant_head (strip : Bool) (d n : Nat) : ∃ c t, mant strip d n = c :: t ∧ isDigit c := by
  obtain ⟨f, v, z, h1, -⟩ := mant_split strip d n
  cases hp : padded 1 (n / 10 ^ d) with
  | nil => exact absurd hp (padded_ne 1 _ Nat.one_pos)
  | cons c t => exact ⟨c, t ++ frac f, by rw [h1, hp]; rfl, padded_digits _ _ c (by rw [hp]; simp)⟩

theorem readMant_mant (strip : Bool) (d n : Nat) : ∃ N k, readMant (mant strip d n) = some (N, k) ∧ (N : ℚ) / 10 ^ k = n / 10 ^ d := by
  obtain ⟨f, v, z, h1, h2, h3, h4, h5, -⟩ := mant_split strip d n
  have hdot : ∀ c ∈ padded 1 (n / 10 ^ d), decide (c ≠ '.') = true := fun c hc => by simpa using (digit_clean (padded_digits _ _ c hc)).1
  have ha : (mant strip d n).takeWhile (· ≠ '.') = padded 1 (n / 10 ^ d) := by
    rw [h1, List.takeWhile_append_of_pos hdot]
    cases f <;> simp [frac]
  have hb : ((mant strip d n).dropWhile (· ≠ '.')).drop 1 = f := by
    rw [h1, List.dropWhile_append_of_pos hdot]
    cases f <;> simp [frac]
  refine ⟨n / 10 ^ d * 10 ^ f.length + v, f.length, ?_, ?_⟩
  · unfold readMant
    simp only [ha, hb]
    rw [if_neg (fun h => padded_ne 1 _ Nat.one_pos h.1), digitsVal_append, digitsVal_padded]
    simp only [Option.bind_some]
    rw [digitsVal_from, h3]
    rfl
  · rw [div_eq_div_iff (by positivity) (by positivity)]
    have h6 := Nat.div_add_mod n (10 ^ d)
    rw [h5, ← h4, pow_add] at h6
    have : ((n / 10 ^ d * 10 ^ f.length + v) * 10 ^ d : ℕ) = n * 10 ^ f.length := by
      rw [← h4, pow_add]
      calc (n / (10 ^ f.length * 10 ^ z) * 10 ^ f.length + v) * (10 ^ f.length * 10 ^ z)
          = (10 ^ f.length * 10 ^ z * (n / (10 ^ f.length * 10 ^ z)) + v * 10 ^ z) * 10 ^ f.length := by ring
        _ = n * 10 ^ f.length := by rw [h6]
    exact_mod_cast this

theorem readSign_digit {c : Char} {t : List Char} (h : isDigit c) : readSign (c :: t) = (false, c :: t) := by
  unfold readSign
  obtain ⟨-, h1, h2, -⟩ := digit_clean h
  split
  · rename_i t' e
    exact absurd (List.cons.inj e).1 h1
  · rename_i t' e
    exact absurd (List.cons.inj e).1 h2
  · rfl

theorem readExp_expText (e : ℤ) : readExp (expText e) = some e := by
  unfold readExp expText
  have hne := padded_ne 2 e.natAbs (by norm_num)
  by_cases h : e < 0
  · simp only [h, if_true, readSign, hne, if_false, digitsVal_padded, Option.map_some]
    exact congrArg some (show -((e.natAbs : Nat) : ℤ) = e by omega)
  · simp only [h, if_false, readSign, hne, digitsVal_padded, Option.map_some, Bool.false_eq_true]
    exact congrArg some (by simp; omega)

theorem readSign_text (neg strip : Bool) (d n : Nat) (t : List Char) : readSign (signText neg ++ (mant strip d n ++ t)) = (neg, mant strip d n ++ t) := by
  cases neg with
  | true => rfl
  | false =>
    obtain ⟨c, r, h1, h2⟩ := mant_head strip d n
    rw [h1]
    exact readSign_digit h2

theorem mant_notE (strip : Bool) (d n : Nat) : ∀ c ∈ mant strip d n, (!isE c) = true := by
  intro c hc
  rcases mant_chars strip d n c hc with h | rfl
  · rw [(digit_clean h).2.2.2.2.2]; rfl
  · rfl

theorem readNum_plain (neg strip : Bool) (d n : Nat) : ∃ h, readNum (signText neg ++ mant strip d n) = .ok ⟨neg, (n : ℚ) / 10 ^ d, h⟩ := by
  refine ⟨by positivity, ?_⟩
  obtain ⟨N, k, h1, h2⟩ := readMant_mant strip d n
  have hs := readSign_text neg strip d n []
  rw [List.append_nil] at hs
  have ht := List.takeWhile_append_of_pos (l₂ := []) (mant_notE strip d n)
  have hd := List.dropWhile_append_of_pos (l₂ := []) (mant_notE strip d n)
  rw [List.append_nil] at ht hd
  unfold readNum
  simp only [hs, ht, hd, List.takeWhile_nil, List.append_nil, List.dropWhile_nil, h1]
  congr 1
  simp only [zpow_zero, mul_one, h2]

theorem readNum_exp (neg strip : Bool) (d n : Nat) (c : Char) (hc : isE c = true) (e : ℤ) :
    ∃ h, readNum (signText neg ++ (mant strip d n ++ c :: expText e)) = .ok ⟨neg, (n : ℚ) / 10 ^ d * (10 : ℚ) ^ e, h⟩ := by
  refine ⟨by positivity, ?_⟩
  obtain ⟨N, k, h1, h2⟩ := readMant_mant strip d n
  have hs := readSign_text neg strip d n (c :: expText e)
  have ht := List.takeWhile_append_of_pos (l₂ := c :: expText e) (mant_notE strip d n)
  have hd := List.dropWhile_append_of_pos (l₂ := c :: expText e) (mant_notE strip d n)
  have e1 : (c :: expText e).takeWhile (fun c => !isE c) = [] := by rw [List.takeWhile_cons_of_neg]; simp [hc]
  have e2 : (c :: expText e).dropWhile (fun c => !isE c) = c :: expText e := by rw [List.dropWhile_cons_of_neg]; simp [hc]
  unfold readNum
  simp only [hs, ht, hd, e1, e2, List.append_nil, h1, readExp_expText]
  congr 1
  simp only [h2]

/-! ## Theorems -/

/-- the number `x` with `p` significant digits -/
def Rounds (p : Nat) (x y : Num) : Prop := y.neg = x.neg ∧ Rounded p x.mag y.mag

theorem sval_scale (p : Nat) (hp : 0 < p) (n : Nat) (e : ℤ) : (n : ℚ) / 10 ^ (p - 1) * (10 : ℚ) ^ e = n * (10 : ℚ) ^ (e - ((p : ℤ) - 1)) := by
  rw [zpow_sub₀ ten_ne, show ((p : ℤ) - 1) = ((p - 1 : Nat) : ℤ) by omega, zpow_natCast]
  ring

/-- **C126** `%.{d}E` and `float`: the number read back is the one written with `d + 1` significant digits and the same sign; written again it gives the same text. -/
theorem C126_sci (d : Nat) (x : Num) : ∃ y, readNum (sci d x) = .ok y ∧ Rounds (d + 1) x y ∧ sci d y = sci d x := by
  obtain ⟨h, h1⟩ := readNum_exp x.neg false d (sig (d + 1) x.mag).1 'E' rfl (sig (d + 1) x.mag).2
  have hv : ((sig (d + 1) x.mag).1 : ℚ) / 10 ^ d * (10 : ℚ) ^ (sig (d + 1) x.mag).2 = sval (d + 1) x.mag := sval_scale (d + 1) (by omega) _ _
  refine ⟨_, h1, ⟨rfl, ?_⟩, ?_⟩
  · simp only [hv]
    exact sval_rounded (by omega) x.nonneg
  · unfold sci
    simp only [hv, sig_sval (p := d + 1) (by omega) x.nonneg]

/-- **C126** `%.{p}g` and `float`: the number read back is the one written with `p` significant digits and the same sign; written again it gives the same text. -/
theorem C126_general (p : Nat) (hp : 0 < p) (x : Num) : ∃ y, readNum (general p x) = .ok y ∧ Rounds p x y ∧ general p y = general p x := by
  have hsuff : (∃ h, readNum (general p x) = .ok ⟨x.neg, sval p x.mag, h⟩) → ∃ y, readNum (general p x) = .ok y ∧ Rounds p x y ∧ general p y = general p x := by
    rintro ⟨h, h1⟩
    refine ⟨_, h1, ⟨rfl, sval_rounded hp x.nonneg⟩, ?_⟩
    unfold general
    simp only [sig_sval hp x.nonneg]
  apply hsuff
  unfold general
  by_cases hc : -4 ≤ (sig p x.mag).2 ∧ (sig p x.mag).2 < p
  · rw [if_pos hc]
    obtain ⟨h, h1⟩ := readNum_plain x.neg true ((p : ℤ) - 1 - (sig p x.mag).2).toNat (sig p x.mag).1
    refine ⟨sval_nonneg _ _, ?_⟩
    rw [h1]
    congr 2
    unfold sval
    rw [show (sig p x.mag).2 - ((p : ℤ) - 1) = -((((p : ℤ) - 1 - (sig p x.mag).2).toNat : Nat) : ℤ) by omega, zpow_neg, zpow_natCast]
    rfl
  · rw [if_neg hc]
    obtain ⟨h, h1⟩ := readNum_exp x.neg true (p - 1) (sig p x.mag).1 'e' rfl (sig p x.mag).2
    refine ⟨sval_nonneg _ _, ?_⟩
    rw [h1]
    congr 2
    exact sval_scale p hp _ _

/-- **C126** A number with no more digits than the format has is read back unchanged. -/
theorem C126_exact (p : Nat) (hp : 0 < p) (x : Num) (h : Digits p x.mag) : readNum (general p x) = .ok x ∧ readNum (sci (p - 1) x) = .ok x := by
  have key : ∀ y : Num, Rounds p x y → y = x := by
    rintro ⟨a, b, c⟩ ⟨h1, h2⟩
    obtain ⟨n, m, hm⟩ := x
    have := rounded_exact hm h2 h
    simp only at h1 this
    subst h1 this
    rfl
  constructor
  · obtain ⟨y, h1, h2, -⟩ := C126_general p hp x
    rw [h1, key y h2]
  · obtain ⟨y, h1, h2, -⟩ := C126_sci (p - 1) x
    rw [Nat.sub_add_cancel hp] at h2
    rw [h1, key y h2]

/-- rounding has one result -/
theorem rounded_unique {p : Nat} {a b c : ℚ} (h1 : Rounded p a b) (h2 : Rounded p a c) : b = c := by
  have e1 := h1.nearest
  have e2 := h2.nearest
  by_contra hne
  have hb : 0 ≤ b := by obtain ⟨m, k, -, rfl⟩ := h1.digits; exact mul_nonneg (Nat.cast_nonneg _) (zpow_pos' k).le
  have hc : 0 ≤ c := by obtain ⟨m, k, -, rfl⟩ := h2.digits; exact mul_nonneg (Nat.cast_nonneg _) (zpow_pos' k).le
  have heq : |b - a| = |c - a| := le_antisymm (e1 c hc h2.digits) (e2 b hb h1.digits)
  obtain ⟨m, k, m1, m2, m3⟩ := h1.even c hc h2.digits (Ne.symm hne) heq.symm
  obtain ⟨m', k', n1, n2, n3⟩ := h2.even b hb h1.digits hne heq
  rw [abs_sub_comm, m2] at n2
  have hk : k = k' := zpow_right_injective₀ (by norm_num : (0 : ℚ) < 10) (by norm_num) n2
  subst hk
  rw [m1, n1, ← sub_mul, abs_mul, abs_of_pos (zpow_pos' k)] at m2
  have h3 : |(m' : ℚ) - m| = 1 := mul_right_cancel₀ (zpow_pos' k).ne' (m2.trans (one_mul _).symm)
  have h4 : |(m' : ℤ) - m| = 1 := by exact_mod_cast h3
  obtain ⟨a, rfl⟩ := m3
  obtain ⟨b, rfl⟩ := n3
  rcases (abs_eq (by norm_num : (0 : ℤ) ≤ 1)).1 h4 with h | h <;> push_cast at h <;> omega

/-- **C126** Writing keeps the order: of two numbers the smaller one is never read back as the greater one. -/
theorem C126_monotone (p : Nat) (hp : 0 < p) (x y x' y' : Num) (h : x.val ≤ y.val) :
    (readNum (general p x) = .ok x' → readNum (general p y) = .ok y' → x'.val ≤ y'.val) ∧
    (readNum (sci (p - 1) x) = .ok x' → readNum (sci (p - 1) y) = .ok y' → x'.val ≤ y'.val) := by
  have key : Rounds p x x' → Rounds p y y' → x'.val ≤ y'.val := by
    rintro ⟨a1, a2⟩ ⟨b1, b2⟩
    have hx := rounded_unique a2 (sval_rounded hp x.nonneg)
    have hy := rounded_unique b2 (sval_rounded hp y.nonneg)
    have nx := sval_nonneg p x.mag
    have ny := sval_nonneg p y.mag
    have h0 : ∀ z : ℚ, 0 ≤ z → z ≤ 0 → sval p z = 0 := by
      intro z z1 z2
      rw [le_antisymm z2 z1]
      unfold sval
      rw [sig_zero]
      simp
    unfold Num.val at h ⊢
    rw [a1, b1, hx, hy]
    have m1 := x.nonneg
    have m2 := y.nonneg
    cases hxn : x.neg <;> cases hyn : y.neg <;> simp only [hxn, hyn, if_true, if_false, Bool.false_eq_true] at h ⊢
    · exact sval_mono hp m1 h
    · rw [h0 x.mag m1 (by linarith), h0 y.mag m2 (by linarith)]
      simp
    · linarith
    · exact neg_le_neg (sval_mono hp m2 (by linarith))
  constructor
  · intro h1 h2
    obtain ⟨x1, a1, a2, -⟩ := C126_general p hp x
    obtain ⟨y1, b1, b2, -⟩ := C126_general p hp y
    rw [h1] at a1
    rw [h2] at b1
    cases a1
    cases b1
    exact key a2 b2
  · intro h1 h2
    obtain ⟨x1, a1, a2, -⟩ := C126_sci (p - 1) x
    obtain ⟨y1, b1, b2, -⟩ := C126_sci (p - 1) y
    rw [Nat.sub_add_cancel hp] at a2 b2
    rw [h1] at a1
    rw [h2] at b1
    cases a1
    cases b1
    exact key a2 b2

/-- the characters of a number -/
theorem expText_clean (e : ℤ) : ∀ c ∈ expText e, pySpace c = false ∧ c ≠ '#' := by
  intro c hc
  unfold expText at hc
  rcases List.mem_cons.1 hc with h | h
  · rw [h]
    split <;> decide +kernel
  · have := digit_clean (padded_digits _ _ c h)
    exact ⟨this.2.2.2.2.1, this.2.2.2.1⟩

theorem mant_clean (strip : Bool) (d n : Nat) : ∀ c ∈ mant strip d n, pySpace c = false ∧ c ≠ '#' := by
  intro c hc
  rcases mant_chars strip d n c hc with h | rfl
  · exact ⟨(digit_clean h).2.2.2.2.1, (digit_clean h).2.2.2.1⟩
  · decide +kernel

/-- **C126** The texts are words without white space or `#`: tables and configurations written with them can be taken apart again. -/
theorem C126_clean (d p : Nat) : Clean (sci d) ∧ Clean (general p) := by
  have hs : ∀ neg, ∀ c ∈ signText neg, pySpace c = false ∧ c ≠ '#' := by decide +kernel
  constructor
  · intro x
    constructor
    · unfold sci
      simp
    · intro c hc
      unfold sci at hc
      rcases List.mem_append.1 hc with h | h
      · exact hs _ c h
      · rcases List.mem_append.1 h with h | h
        · exact mant_clean _ _ _ c h
        · rcases List.mem_cons.1 h with rfl | h
          · decide +kernel
          · exact expText_clean _ c h
  · intro x
    constructor
    · unfold general
      intro h
      obtain ⟨-, h⟩ := List.append_eq_nil_iff.1 h
      split at h
      · obtain ⟨c, t, e, -⟩ := mant_head true ((p : ℤ) - 1 - (sig p x.mag).2).toNat (sig p x.mag).1
        rw [e] at h
        cases h
      · simp at h
    · intro c hc
      unfold general at hc
      rcases List.mem_append.1 hc with h | h
      · exact hs _ c h
      · split at h
        · exact mant_clean _ _ _ c h
        · rcases List.mem_append.1 h with h | h
          · exact mant_clean _ _ _ c h
          · rcases List.mem_cons.1 h with rfl | h
            · decide +kernel
            · exact expText_clean _ c h

/-- the fixed-point format is the same number without an exponent -/
theorem fixed_mant (d : Nat) (hd : 0 < d) (x : Num) : fixed d x = signText x.neg ++ mant false d (halfEven (x.mag * 10 ^ d)) := by
  unfold fixed mant signText
  simp only [Bool.false_eq_true, if_false, List.append_assoc]
  congr 2
  cases h : padded d (halfEven (x.mag * 10 ^ d) % 10 ^ d) with
  | nil => exact absurd h (padded_ne d _ hd)
  | cons a t => rfl

/-- **C126** `float` reads the fixed-point format `%.{d}f` too: the number is the nearest multiple of `10^-d`. -/
theorem C126_fixed (d : Nat) (hd : 0 < d) (x : Num) :
    ∃ y, readNum (fixed d x) = .ok y ∧ readFixed (fixed d x) = .ok y ∧ y.neg = x.neg ∧ (∃ n : Nat, y.mag = n / 10 ^ d) ∧ |y.val - x.val| ≤ 1 / 2 / 10 ^ d := by
  obtain ⟨h, h1⟩ := readNum_plain x.neg false d (halfEven (x.mag * 10 ^ d))
  rw [← fixed_mant d hd x] at h1
  obtain ⟨y, a1, a2, ⟨n, a3, -⟩, a4, a5⟩ := C111_fixed d hd x
  have hn : y = ⟨x.neg, (halfEven (x.mag * 10 ^ d) : ℚ) / 10 ^ d, h⟩ := by
    rw [fixed_mant d hd, fixed_mant d hd, a2] at a5
    have a6 := List.append_cancel_left a5
    obtain ⟨N, k, b1, b2⟩ := readMant_mant false d (halfEven (y.mag * 10 ^ d))
    obtain ⟨N', k', c1, c2⟩ := readMant_mant false d (halfEven (x.mag * 10 ^ d))
    rw [a6, c1] at b1
    obtain ⟨rfl, rfl⟩ := Prod.mk.inj (Option.some.inj b1)
    rw [c2] at b2
    have e : y.mag * 10 ^ d = (n : ℚ) := by
      rw [a3]
      field_simp
    rw [e, halfEven_nat, ← a3] at b2
    obtain ⟨yn, ym, yh⟩ := y
    simp only at a2 b2
    subst a2
    subst b2
    rfl
  exact ⟨y, by rw [h1, hn], a1, a2, ⟨n, a3⟩, a4⟩

theorem near_val {p : Nat} {x y : Num} (h : Rounds p x y) : |y.val - x.val| ≤ 1 / 2 / 10 ^ (p - 1) * |x.val| := by
  have h1 := h.2.near
  have hx := x.nonneg
  unfold Num.val
  rw [h.1]
  cases x.neg
  · simpa [abs_of_nonneg hx] using h1
  · simp only [if_true]
    rw [abs_neg, abs_of_nonneg hx, show -y.mag - -x.mag = -(y.mag - x.mag) by ring, abs_neg]
    exact h1

/-- **C126** A table written with `%.{d}E` (`tef-band` uses `%.6E`) is read back by `loadtxt` with every number changed by at most half a unit of its last digit; writing what was read
gives the same file. -/
theorem C126_table (d : Nat) (bare : Bool) (rows : List (List Num)) (header info : List Char) (labels : Labels) (n : Nat) (hn : 0 < n) (hr : Table n rows) :
    ∃ text rows', toFile (sci d) bare false (.rows rows) header info labels = .ok text ∧ loadtxt readNum text = .ok rows' ∧
      List.Forall₂ (List.Forall₂ fun x y => Rounds (d + 1) x y ∧ |y.val - x.val| ≤ 1 / 2 / 10 ^ d * |x.val|) rows rows' ∧
      toFile (sci d) bare false (.rows rows') header info labels = .ok text := by
  choose rd h1 h2 h3 using C126_sci d
  obtain ⟨text, ht, hl⟩ := C111_reread (C126_clean d 1).1 readNum rd h1 bare (.rows rows) header info labels labels rows n hn rfl hr
  refine ⟨text, _, ht, hl, ?_, ?_⟩
  · rw [List.forall₂_map_right_iff, List.forall₂_same]
    intro r _
    rw [List.forall₂_map_right_iff, List.forall₂_same]
    intro x _
    have h4 := near_val (h2 x)
    rw [Nat.add_sub_cancel] at h4
    exact ⟨h2 x, h4⟩
  · have : ∀ (h c : List Char), savetxt (sci d) (rows.map fun r => r.map rd) h c = savetxt (sci d) rows h c := by
      intro h c
      unfold savetxt
      rw [List.map_map]
      congr 2
      apply List.map_congr_left
      intro r _
      simp only [Function.comp, List.map_map]
      congr 2
      apply List.map_congr_left
      intro x _
      exact h3 x
    rw [← ht]
    unfold toFile tableOf
    simp only [this]

/-- a tie goes to the even digit; a carry moves the exponent; a number of two digits has a format with seven -/
example : sci 6 ⟨true, 20000005 / 100000, by norm_num⟩ = "-2.000000E+02".toList ∧ sci 6 ⟨false, 20000015 / 100000, by norm_num⟩ = "2.000002E+02".toList ∧
    sci 6 ⟨false, 99999995 / 10000000, by norm_num⟩ = "1.000000E+01".toList ∧ sci 6 ⟨false, 0, le_rfl⟩ = "0.000000E+00".toList ∧
    general 6 ⟨false, 1234567, by norm_num⟩ = "1.23457e+06".toList ∧ general 6 ⟨true, 3 / 10000, by norm_num⟩ = "-0.0003".toList := by
  decide +kernel

/-- the hypothesis of `C126_exact` -/
example : Digits 2 (3 / 2) ∧ ¬ Digits 1 (3 / 2) := by
  refine ⟨⟨15, -1, by norm_num, by norm_num⟩, ?_⟩
  rintro ⟨m, k, h1, h2⟩
  have hk : k < 1 := by
    by_contra hc
    push Not at hc
    have hm : m ≠ 0 := by
      rintro rfl
      norm_num at h2
    have a : (1 : ℚ) ≤ m := by exact_mod_cast Nat.one_le_iff_ne_zero.2 hm
    have b : (10 : ℚ) ^ (1 : ℤ) ≤ (10 : ℚ) ^ k := zpow_le_zpow_right₀ (by norm_num) hc
    have c := zpow_pos' k
    have := mul_le_mul a b (zpow_pos' 1).le (by positivity)
    norm_num at this
    linarith
  have hk' : -1 < k := by
    by_contra hc
    push Not at hc
    have a : (m : ℚ) ≤ 9 := by exact_mod_cast Nat.le_of_lt_succ (by simpa using h1)
    have b : (10 : ℚ) ^ k ≤ (10 : ℚ) ^ (-1 : ℤ) := zpow_le_zpow_right₀ (by norm_num) hc
    have := mul_le_mul a b (zpow_pos' k).le (by norm_num)
    norm_num at this
    linarith
  obtain rfl : k = 0 := by omega
  have : (3 : ℚ) = (2 * m : ℕ) := by
    push_cast
    rw [zpow_zero, mul_one] at h2
    linarith
  have : 3 = 2 * m := by exact_mod_cast this
  omega

end TEflow.NumText
