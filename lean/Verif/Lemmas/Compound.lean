import Verif.Spec.Compound
import Verif.Lemmas.Re
import Verif.Lemmas.UtilsDict
import Mathlib.Tactic.Ring
import Mathlib.Data.List.Induction
import Mathlib.Tactic.FieldSimp

/-! # Lemmas about chemical formulas -/

set_option linter.unusedSimpArgs false
set_option linter.unusedSectionVars false

namespace TEflow.Loader

open PyDict Re

theorem upper_not_lower {c : Char} (h : isUpper c = true) : isLower c = false := by
  by_contra h'
  simp only [isUpper, isLower, Bool.and_eq_true, decide_eq_true_eq, Bool.not_eq_false] at *
  exact absurd (Char.le_trans h'.1 h.2) (by decide)

theorem upper_not_digit {c : Char} (h : isUpper c = true) : isDigit c = false := by
  by_contra h'
  simp only [isUpper, isDigit, Bool.and_eq_true, decide_eq_true_eq, Bool.not_eq_false] at *
  exact absurd (Char.le_trans h.1 h'.2) (by decide)

theorem upper_not_fill {c : Char} (h : isUpper c = true) : isFill c = false := by
  by_contra h'
  simp only [isUpper, isFill, Bool.and_eq_true, decide_eq_true_eq, Bool.not_eq_false, Bool.or_eq_true, beq_iff_eq] at *
  obtain ⟨h1, h2⟩ := h
  rcases h' with (((h'|h')|h')|h')|h' <;> subst h' <;> revert h1 h2 <;> decide

theorem lower_not_upper {c : Char} (h : isLower c = true) : isUpper c = false := by
  by_contra h'; rw [Bool.not_eq_false] at h'; rw [upper_not_lower h'] at h; cases h

theorem digit_not_upper {c : Char} (h : isDigit c = true) : isUpper c = false := by
  by_contra h'; rw [Bool.not_eq_false] at h'; rw [upper_not_digit h'] at h; cases h

theorem fill_not_upper {c : Char} (h : isFill c = true) : isUpper c = false := by
  by_contra h'; rw [Bool.not_eq_false] at h'; rw [upper_not_fill h'] at h; cases h

theorem digit_not_lower {c : Char} (h : isDigit c = true) : isLower c = false := by
  by_contra h'
  simp only [isLower, isDigit, Bool.and_eq_true, decide_eq_true_eq, Bool.not_eq_false] at *
  exact absurd (Char.le_trans h'.1 h.2) (by decide)

theorem digit_not_fill {c : Char} (h : isDigit c = true) : isFill c = false := by
  by_contra h'
  simp only [isDigit, isFill, Bool.and_eq_true, decide_eq_true_eq, Bool.not_eq_false, Bool.or_eq_true, beq_iff_eq] at *
  obtain ⟨h1, h2⟩ := h
  rcases h' with (((h'|h')|h')|h')|h' <;> subst h' <;> revert h1 h2 <;> decide

theorem digit_ne_dot {c : Char} (h : isDigit c = true) : c ≠ '.' := by rintro rfl; revert h; decide

/-- the part of a text matched by `\d*\.?\d*` -/
def numText (r : List Char) : List Char :=
  r.takeWhile isDigit ++
    (if (r.dropWhile isDigit).head? = some '.' then '.' :: ((r.dropWhile isDigit).drop 1).takeWhile isDigit else [])

theorem numText_prefix (r : List Char) : ∃ t, r = numText r ++ t := by
  unfold numText
  split
  · rename_i h
    cases h' : r.dropWhile isDigit with
    | nil => simp [h'] at h
    | cons c t =>
      rw [h'] at h; simp only [List.head?_cons, Option.some.injEq] at h; subst h
      refine ⟨t.dropWhile isDigit, ?_⟩
      conv_lhs => rw [← List.takeWhile_append_dropWhile (p := isDigit) (l := r), h',
        ← List.takeWhile_append_dropWhile (p := isDigit) (l := t)]
      simp
  · exact ⟨r.dropWhile isDigit, by simp⟩

theorem take_numText (r : List Char) : r.take (numText r).length = numText r := by
  obtain ⟨t, ht⟩ := numText_prefix r
  conv_lhs => rw [ht, ← ht]
  conv_lhs => arg 2; rw [ht]
  simp

theorem numText_len_le (r : List Char) : (numText r).length ≤ r.length := by
  obtain ⟨t, ht⟩ := numText_prefix r
  conv_rhs => rw [ht]
  simp

theorem numText_chars (r : List Char) : ∀ c ∈ numText r, isUpper c = false := by
  intro c hc
  unfold numText at hc
  rw [List.mem_append] at hc
  rcases hc with hc | hc
  · exact digit_not_upper (mem_takeWhile hc)
  · split at hc
    · rcases List.mem_cons.mp hc with hc | hc
      · subst hc; decide
      · exact digit_not_upper (mem_takeWhile hc)
    · simp at hc

theorem head?_numRe (s : Pos) : (run numRe s).head? = some (s.adv (numText s.rest).length) := by
  have h0 : (s.rest.takeWhile isDigit).length ≤ s.rest.length := takeWhile_len_le _ _
  unfold numRe
  have h2 := head?_opt_cls (· == '.') (s.adv (s.rest.takeWhile isDigit).length)
  refine (head?_seq (head?_star_cls isDigit s) (head?_seq h2 (head?_star_cls _ _))).trans ?_
  simp only [Pos.adv_before_rest, drop_takeWhile_len]
  unfold numText
  by_cases h : (s.rest.dropWhile isDigit).head? = some '.'
  · simp only [h, Option.map_some, beq_self_eq_true, if_true]
    rw [Pos.adv_adv _ _ _ h0, Pos.adv_adv]
    · simp only [Pos.adv_before_rest, ← List.drop_drop, drop_takeWhile_len, List.length_append, List.length_cons]
      congr 2; omega
    · cases h' : s.rest.dropWhile isDigit with
      | nil => simp [h'] at h
      | cons c t =>
        have := congrArg List.length (List.takeWhile_append_dropWhile (p := isDigit) (l := s.rest))
        rw [h'] at this; simp at this; omega
  · have : ¬ (Option.map (fun x => x == '.') (s.rest.dropWhile isDigit).head? = some true) := by
      cases h' : (s.rest.dropWhile isDigit).head? with
      | none => simp
      | some c => rw [h'] at h; simpa using h
    simp only [this, h, if_false, List.append_nil, Pos.adv_before_rest, drop_takeWhile_len]
    have hz : (s.rest.dropWhile isDigit).takeWhile isDigit = [] := by
      cases h' : s.rest.dropWhile isDigit with
      | nil => rfl
      | cons c t =>
        have := List.head?_dropWhile_not isDigit s.rest
        rw [h'] at this; simp at this
        simp [List.takeWhile_cons, this]
    rw [hz]; simp

theorem runParts_upper (b : List Char) (c : Char) (r : List Char) (h : isUpper c = true) :
    let s : Pos := ⟨b, c :: r⟩
    let k0 := 1 + (r.takeWhile isLower).length
    let k1 := k0 + ((r.dropWhile isLower).takeWhile isFill).length
    let k2 := k1 + (numText ((r.dropWhile isLower).dropWhile isFill)).length
    (runParts [nameRe, fillRe, numRe] s).head? = some [s.adv k0, s.adv k1, s.adv k2] ∧ k1 ≤ s.rest.length ∧ k2 ≤ s.rest.length := by
  intro s k0 k1 k2
  have l0 : (r.takeWhile isLower).length ≤ r.length := takeWhile_len_le _ _
  have d0 : s.rest.drop k0 = r.dropWhile isLower := by
    simp only [s, k0, Nat.add_comm 1, List.drop_succ_cons, drop_takeWhile_len]
  have e0 : (r.dropWhile isLower).length = r.length - (r.takeWhile isLower).length := by
    rw [← drop_takeWhile_len, List.length_drop]
  have hk0 : k0 ≤ s.rest.length := by simp only [s, k0, List.length_cons]; omega
  have l1 : ((r.dropWhile isLower).takeWhile isFill).length ≤ (r.dropWhile isLower).length := takeWhile_len_le _ _
  have hk1 : k1 ≤ s.rest.length := by simp only [s, k0, k1, List.length_cons]; omega
  have d1 : s.rest.drop k1 = (r.dropWhile isLower).dropWhile isFill := by
    simp only [k1]; rw [← List.drop_drop, d0, drop_takeWhile_len]
  have l2 := numText_len_le ((r.dropWhile isLower).dropWhile isFill)
  have e1 : ((r.dropWhile isLower).dropWhile isFill).length =
      (r.dropWhile isLower).length - ((r.dropWhile isLower).takeWhile isFill).length := by
    rw [← drop_takeWhile_len, List.length_drop]
  have hk2 : k2 ≤ s.rest.length := by simp only [s, k0, k1, k2, List.length_cons]; omega
  refine ⟨?_, hk1, hk2⟩
  have hn : (run nameRe s).head? = some (s.adv k0) := by
    refine (head?_seq (head?_cls isUpper b c r h) (head?_star_cls _ _)).trans ?_
    rw [Pos.adv_adv _ _ _ (by simp)]; rfl
  have hf : (run fillRe (s.adv k0)).head? = some (s.adv k1) := by
    refine (head?_star_cls _ _).trans ?_
    rw [Pos.adv_adv _ _ _ hk0, Pos.adv_before_rest, d0]
  have hm : (run numRe (s.adv k1)).head? = some (s.adv k2) := by
    rw [head?_numRe, Pos.adv_adv _ _ _ hk1, Pos.adv_before_rest, d1]
  exact head?_runParts hn (head?_runParts hf (head?_runParts hm rfl))

theorem runParts_not_upper (b : List Char) (c : Char) (r : List Char) (h : isUpper c = false) :
    (runParts [nameRe, fillRe, numRe] ⟨b, c :: r⟩).head? = none := by
  simp [runParts, nameRe, run, h]

theorem symbols_skip (r : List Char) (k : Nat) (h : ∀ c ∈ r.take k, isUpper c = false) :
    r.tails.filterMap symbolAt = (r.drop k).tails.filterMap symbolAt := by
  induction k generalizing r with
  | zero => rfl
  | succ k ih =>
    cases r with
    | nil => rfl
    | cons c r =>
      simp only [List.take_succ_cons, List.mem_cons, forall_eq_or_imp] at h
      rw [List.tails, List.filterMap_cons]
      simp only [symbolAt, h.1, Bool.false_eq_true, if_false, List.drop_succ_cons]
      exact ih r h.2

theorem findParts_symbols (n : Nat) (b r : List Char) (hn : r.length ≤ n) :
    (findPartsGo [nameRe, fillRe, numRe] n ⟨b, r⟩).map (fun m =>
      match m.2 with
      | [b0, b1, b2] => (between m.1 b0, between b1 b2)
      | _ => ([], [])) = r.tails.filterMap symbolAt := by
  induction n generalizing b r with
  | zero => simp at hn; subst hn; rfl
  | succ n ih =>
    cases r with
    | nil => rfl
    | cons c r =>
      rw [findPartsGo]
      simp only [List.length_cons, Nat.add_le_add_iff_right] at hn
      by_cases h : isUpper c = true
      · obtain ⟨hm, hk1, hk2⟩ := runParts_upper b c r h
        set k0 := 1 + (r.takeWhile isLower).length with hk0
        set k1 := k0 + ((r.dropWhile isLower).takeWhile isFill).length with hk1d
        set k2 := k1 + (numText ((r.dropWhile isLower).dropWhile isFill)).length with hk2d
        have d0 : (c :: r).drop k0 = r.dropWhile isLower := by
          simp only [k0, Nat.add_comm 1, List.drop_succ_cons, drop_takeWhile_len]
        have d1 : (c :: r).drop k1 = (r.dropWhile isLower).dropWhile isFill := by
          simp only [k1]; rw [← List.drop_drop, d0, drop_takeWhile_len]
        simp only [List.length_cons] at hk1 hk2
        have hlt : ((⟨b, c :: r⟩ : Pos).adv k2).rest.length < (c :: r).length := by
          simp only [Pos.adv_before_rest, List.length_drop, List.length_cons]; omega
        simp only [hm, List.getLast?_cons_cons, List.getLast?_singleton, Option.getD_some, hlt, if_true, List.map_cons]
        rw [show (⟨b, c :: r⟩ : Pos).adv k2 = ⟨((c :: r).take k2).reverse ++ b, (c :: r).drop k2⟩ from rfl,
          ih _ _ (by simp only [List.length_drop, List.length_cons]; omega)]
        rw [List.tails, List.filterMap_cons]
        simp only [symbolAt, h, if_true]
        congr 1
        · rw [between_adv_zero _ _ (by simp only [List.length_cons]; omega)]
          congr 1
          · simp only [k0, Nat.add_comm 1, List.take_succ_cons, take_takeWhile_len]
          · have := between_adv (⟨b, c :: r⟩ : Pos) k1 (numText ((r.dropWhile isLower).dropWhile isFill)).length
              (by simpa using hk1) (by simp only [List.length_cons]; omega)
            rw [show (⟨((c :: r).take k2).reverse ++ b, (c :: r).drop k2⟩ : Pos) = (⟨b, c :: r⟩ : Pos).adv k2 from rfl]
            rw [hk2d, this]
            simp only [d1, take_numText]
            rfl
        · rw [symbols_skip r (k2 - 1)]
          · have : k2 = (k2 - 1) + 1 := by omega
            conv_lhs => rw [this, List.drop_succ_cons]
          · intro x hx
            have e1 : r = r.takeWhile isLower ++ ((r.dropWhile isLower).takeWhile isFill ++
                (numText ((r.dropWhile isLower).dropWhile isFill) ++
                  ((r.dropWhile isLower).dropWhile isFill).drop (numText ((r.dropWhile isLower).dropWhile isFill)).length)) := by
              conv_rhs => rw [← take_numText ((r.dropWhile isLower).dropWhile isFill), List.length_take,
                Nat.min_eq_left (numText_len_le _), List.take_append_drop, List.takeWhile_append_dropWhile,
                List.takeWhile_append_dropWhile]
            have e2 : k2 - 1 = (r.takeWhile isLower ++ ((r.dropWhile isLower).takeWhile isFill ++
                numText ((r.dropWhile isLower).dropWhile isFill))).length := by
              simp only [List.length_append]; omega
            have e3 : r.take (k2 - 1) = r.takeWhile isLower ++ ((r.dropWhile isLower).takeWhile isFill ++
                numText ((r.dropWhile isLower).dropWhile isFill)) := by
              conv_lhs => rw [e1, e2]
              have (a b c d : List Char) : (a ++ (b ++ (c ++ d))).take (a ++ (b ++ c)).length = a ++ (b ++ c) := by
                rw [show a ++ (b ++ (c ++ d)) = (a ++ (b ++ c)) ++ d by simp]; exact List.take_left
              exact this _ _ _ _
            rw [e3, List.mem_append, List.mem_append] at hx
            rcases hx with hx | hx | hx
            · exact lower_not_upper (mem_takeWhile hx)
            · exact fill_not_upper (mem_takeWhile hx)
            · exact numText_chars _ x hx
      · rw [Bool.not_eq_true] at h
        simp only [runParts_not_upper b c r h]
        rw [ih _ _ hn, List.tails, List.filterMap_cons]
        simp [symbolAt, h]

/-- the regular expression finds exactly the symbols of the specification -/
theorem formulaMatches_eq (t : List Char) : formulaMatches t = symbols t :=
  findParts_symbols t.length [] t (le_refl _)

section Fold
variable {K : Type} [Field K]

/-- the occurrences that end up in the result, given the flags -/
def keptBy (known : List Char → Bool) (skip raise : Bool) (ms : List (List Char × List Char)) :
    List (List Char × List Char) :=
  if skip && !raise then ms.filter (fun p => known (p.1.take 2)) else ms

/-- what happens to the loop of `from_string`, in one equation -/
theorem fromStringGo_spec (known : List Char → Bool) (skip raise : Bool) (ms : List (List Char × List Char))
    (comp : PyDict (List Char) K) (he : ∀ p ∈ ms, (∃ x : K, amount p.2 = .ok x) ∨ amount (K := K) p.2 = .error .valueError) :
    (fromStringGo known skip raise comp ms = .error .valueError ∧
      ((raise = true ∧ ∃ p ∈ ms, known (p.1.take 2) = false) ∨
        ∃ p ∈ keptBy known skip raise ms, amount (K := K) p.2 = .error .valueError)) ∨
    (∃ vs : List (List Char × K), fromStringGo known skip raise comp ms = .ok (PyDict.update comp vs) ∧
      ¬ (raise = true ∧ ∃ p ∈ ms, known (p.1.take 2) = false) ∧
      List.Forall₂ (fun p v => v.1 = p.1 ∧ amount p.2 = .ok v.2) (keptBy known skip raise ms) vs) := by
  induction ms generalizing comp with
  | nil => right; refine ⟨[], rfl, by simp, ?_⟩; unfold keptBy; split <;> simp
  | cons p ms ih =>
    obtain ⟨name, num⟩ := p
    rw [fromStringGo]
    have he' : ∀ p ∈ ms, (∃ x : K, amount p.2 = .ok x) ∨ amount (K := K) p.2 = .error .valueError :=
      fun p hp => he p (by simp [hp])
    by_cases hk : known (name.take 2) = true
    · simp only [hk, Bool.not_true, Bool.false_and, Bool.false_eq_true, if_false]
      have hkept : keptBy known skip raise ((name, num) :: ms) = (name, num) :: keptBy known skip raise ms := by
        unfold keptBy; split
        · rw [List.filter_cons_of_pos (by simpa using hk)]
        · rfl
      rw [hkept]
      rcases he (name, num) (by simp) with ⟨x, hx⟩ | hx
      · rw [show amount num = .ok x from hx]
        simp only
        rcases ih (PyDict.set comp name x) he' with ⟨h1, h2⟩ | ⟨vs, h1, h2, h3⟩
        · left; refine ⟨h1, ?_⟩
          rcases h2 with ⟨hr, p, hp, hpk⟩ | ⟨p, hp, hpa⟩
          · exact Or.inl ⟨hr, p, by simp [hp], hpk⟩
          · exact Or.inr ⟨p, by simp [hp], hpa⟩
        · right; refine ⟨(name, x) :: vs, by rw [h1]; rfl, ?_, ?_⟩
          · rintro ⟨hr, p, hp, hpk⟩
            rcases List.mem_cons.mp hp with hp | hp
            · subst hp; simp [hk] at hpk
            · exact h2 ⟨hr, p, hp, hpk⟩
          · exact List.Forall₂.cons ⟨rfl, hx⟩ h3
      · left
        rw [show amount (K := K) num = .error .valueError from hx]
        exact ⟨rfl, Or.inr ⟨(name, num), by simp, hx⟩⟩
    · rw [Bool.not_eq_true] at hk
      simp only [hk, Bool.not_false, Bool.true_and]
      cases raise with
      | true => left; simp only [if_true, true_and]; exact Or.inl ⟨(name, num), by simp, hk⟩
      | false =>
        simp only [Bool.false_eq_true, if_false, false_and, false_or, not_false_eq_true, true_and]
        cases skip with
        | true =>
          have hkept : keptBy known true false ((name, num) :: ms) = keptBy known true false ms := by
            simp [keptBy, hk]
          rw [hkept]
          simp only [if_true]
          have := ih comp he'
          simpa using this
        | false =>
          have hkept : ∀ l, keptBy known false false l = l := fun l => by simp [keptBy]
          simp only [hkept, Bool.false_eq_true, if_false]
          rcases he (name, num) (by simp) with ⟨x, hx⟩ | hx
          · rw [show amount num = .ok x from hx]
            simp only
            rcases ih (PyDict.set comp name x) he' with ⟨h1, h2⟩ | ⟨vs, h1, h2, h3⟩
            · left; refine ⟨h1, ?_⟩
              rcases h2 with ⟨hr, _⟩ | ⟨p, hp, hpa⟩
              · cases hr
              · rw [hkept] at hp; exact ⟨p, by simp [hp], hpa⟩
            · right; refine ⟨(name, x) :: vs, by rw [h1]; rfl, ?_⟩
              rw [hkept] at h3
              exact List.Forall₂.cons ⟨rfl, hx⟩ h3
          · left
            rw [show amount (K := K) num = .error .valueError from hx]
            exact ⟨rfl, (name, num), by simp, hx⟩

/-- texts matched by `\d*\.?\d*` -/
def NumShape (t : List Char) : Prop :=
  (∀ c ∈ t, isDigit c = true) ∨ ∃ a b : List Char, t = a ++ '.' :: b ∧ (∀ c ∈ a, isDigit c = true) ∧ ∀ c ∈ b, isDigit c = true

theorem numText_shape (r : List Char) : NumShape (numText r) := by
  unfold numText
  split
  · exact Or.inr ⟨_, _, rfl, fun c hc => mem_takeWhile hc, fun c hc => mem_takeWhile hc⟩
  · left; simp only [List.append_nil]; exact fun c hc => mem_takeWhile hc

theorem dot_not_mem {a : List Char} (h : ∀ c ∈ a, isDigit c = true) : '.' ∉ a := fun hd => absurd (h _ hd) (by decide)

theorem takeWhile_dot (a b : List Char) (h : '.' ∉ a) :
    (a ++ '.' :: b).takeWhile (· != '.') = a ∧ (a ++ '.' :: b).dropWhile (· != '.') = '.' :: b := by
  induction a with
  | nil => simp
  | cons c a ih =>
    simp only [List.mem_cons, not_or] at h
    have hc : (c != '.') = true := by simpa using fun h' : c = '.' => h.1 h'.symm
    obtain ⟨h1, h2⟩ := ih h.2
    simp [List.takeWhile_cons, List.dropWhile_cons, hc, h1, h2]

theorem amount_int (a : List Char) (h : ∀ c ∈ a, isDigit c = true) (hne : a ≠ []) : amount (K := K) a = .ok (digitsVal a : K) := by
  unfold amount
  have : a.isEmpty = false := by cases a <;> simp_all
  simp [this, dot_not_mem h]

theorem amount_dec (a b : List Char) (ha : ∀ c ∈ a, isDigit c = true) :
    amount (K := K) (a ++ '.' :: b) =
      if a = [] ∧ b = [] then .error .valueError else .ok ((digitsVal a : K) + (digitsVal b : K) / 10 ^ b.length) := by
  unfold amount
  obtain ⟨h1, h2⟩ := takeWhile_dot a b (dot_not_mem ha)
  have : (a ++ '.' :: b).isEmpty = false := by cases a <;> simp
  simp only [this, Bool.false_eq_true, if_false, List.mem_append, List.mem_cons, true_or, or_true, if_true, h1, h2,
    List.drop_succ_cons, List.drop_zero, Bool.and_eq_true, List.isEmpty_iff]

theorem amount_nil : amount (K := K) [] = .ok 1 := by
  simp [amount, digitsVal, digitVal]

theorem amount_shape (t : List Char) (h : NumShape t) :
    (∃ x : K, amount t = .ok x) ∧ t ≠ ['.'] ∨ amount (K := K) t = .error .valueError ∧ t = ['.'] := by
  rcases h with h | ⟨a, b, rfl, ha, hb⟩
  · left
    refine ⟨?_, fun h' => ?_⟩
    · by_cases hne : t = []
      · subst hne; exact ⟨1, amount_nil⟩
      · exact ⟨_, amount_int t h hne⟩
    · rw [h'] at h; exact absurd (h '.' (by simp)) (by decide)
  · rw [amount_dec a b ha]
    by_cases hc : a = [] ∧ b = []
    · right; simp [hc]
    · left; simp only [hc, if_false]; refine ⟨⟨_, rfl⟩, fun h' => hc ?_⟩
      cases a with
      | nil => simpa using h'
      | cons c a => simp at h'

theorem amount_plain (t : List Char) (x : K) (h : PlainDecimal t x) : amount t = .ok x := by
  rcases h with ⟨h1, h2, rfl⟩ | ⟨a, b, rfl, h1, h2, h3, rfl⟩
  · exact amount_int t h2 h1
  · rw [amount_dec a b h2]; simp [h1]

theorem symbols_shape (t : List Char) : ∀ p ∈ symbols t, NumShape p.2 := by
  intro p hp
  simp only [symbols, List.mem_filterMap] at hp
  obtain ⟨s, _, hs⟩ := hp
  cases s with
  | nil => simp [symbolAt] at hs
  | cons c r =>
    simp only [symbolAt] at hs
    split at hs
    · simp only [Option.some.injEq] at hs; subst hs
      exact numText_shape _
    · cases hs

end Fold

/-- keys of a dictionary built from pairs come in the order of their first occurrence -/
theorem keys_ofPairs_order {κ ν : Type} [DecidableEq κ] [BEq κ] [LawfulBEq κ] (ps : List (κ × ν)) :
    (keys (ofPairs ps)).Pairwise (fun a b => (ps.map Prod.fst).idxOf a < (ps.map Prod.fst).idxOf b) := by
  induction ps using List.reverseRecOn with
  | nil => simp [ofPairs, PyDict.update]
  | append_singleton ps p ih =>
    have hupd : ofPairs (ps ++ [p]) = PyDict.set (ofPairs ps) p.1 p.2 := by
      rw [ofPairs, update_append]; rfl
    have hmem : ∀ k, k ∈ keys (ofPairs ps) → k ∈ ps.map Prod.fst := by
      intro k hk
      rw [ofPairs, mem_keys_update] at hk
      simpa [keys] using hk
    have hin : ∀ k, k ∈ ps.map Prod.fst → k ∈ keys (ofPairs ps) := by
      intro k hk; rw [ofPairs, mem_keys_update]; right; exact hk
    rw [hupd, keys_set, List.map_append]
    have hidx : ∀ a ∈ keys (ofPairs ps), (ps.map Prod.fst ++ [p].map Prod.fst).idxOf a = (ps.map Prod.fst).idxOf a :=
      fun a ha => List.idxOf_append_of_mem (hmem a ha)
    split
    · refine ih.imp_of_mem fun ha hb hab => ?_
      rw [hidx _ ha, hidx _ hb]; exact hab
    · rename_i hnew
      rw [List.pairwise_append]
      refine ⟨ih.imp_of_mem fun ha hb hab => by rw [hidx _ ha, hidx _ hb]; exact hab, by simp, ?_⟩
      intro a ha b hb
      simp only [List.mem_singleton] at hb; subst hb
      have hb' : p.1 ∉ ps.map Prod.fst := fun h => hnew (hin _ h)
      rw [hidx a ha, List.idxOf_append_of_notMem hb']
      have := List.idxOf_lt_length_of_mem (hmem a ha)
      omega

end TEflow.Loader
