import Verif.Lemmas.Compound

/-! # Lemmas: formulas written by `to_string` -/

set_option linter.unusedSimpArgs false
set_option linter.unusedSectionVars false

namespace TEflow.Loader

open PyDict Re

/-- the text neither is continued as a number nor as a name -/
def Stop (p : Char → Bool) (T : List Char) : Prop := ∀ c, T.head? = some c → p c = false

theorem takeWhile_stop (p : Char → Bool) (r T : List Char) (hr : ∀ c ∈ r, p c = true) (hT : Stop p T) :
    (r ++ T).takeWhile p = r ∧ (r ++ T).dropWhile p = T := by
  induction r with
  | nil =>
    cases T with
    | nil => simp
    | cons c T => have := hT c rfl; simp [List.takeWhile_cons, List.dropWhile_cons, this]
  | cons c r ih =>
    obtain ⟨h1, h2⟩ := ih (fun x hx => hr x (by simp [hx]))
    simp [List.takeWhile_cons, List.dropWhile_cons, hr c (by simp), h1, h2]

theorem numText_append (t T : List Char) (ht : NumShape t) (hT : Stop isDigit T) (hd : T.head? ≠ some '.') :
    numText (t ++ T) = t := by
  unfold numText
  rcases ht with ht | ⟨a, b, rfl, ha, hb⟩
  · obtain ⟨h1, h2⟩ := takeWhile_stop isDigit t T ht hT
    rw [h1, h2]; simp [hd]
  · have hs : Stop isDigit ('.' :: b ++ T) := by intro c hc; simp at hc; subst hc; decide
    obtain ⟨h1, h2⟩ := takeWhile_stop isDigit a ('.' :: b ++ T) ha hs
    obtain ⟨h3, h4⟩ := takeWhile_stop isDigit b T hb hT
    rw [List.append_assoc, h1, h2]
    simp [h3]

theorem symbolAt_eq (c : Char) (r : List Char) (h : isUpper c = true) :
    symbolAt (c :: r) = some (c :: r.takeWhile isLower, numText ((r.dropWhile isLower).dropWhile isFill)) := by
  simp [symbolAt, h, numText]

/-- a name with fill characters and a number -/
theorem symbolAt_number (c : Char) (r f t T : List Char) (hc : isUpper c = true) (hr : ∀ x ∈ r, isLower x = true)
    (hf : ∀ x ∈ f, isFill x = true) (ht : NumShape t) (hd : ∀ x, t.head? = some x → isDigit x = true) (hne : t ≠ [])
    (hT : Stop isDigit T) (hdot : T.head? ≠ some '.') :
    symbolAt ((c :: r) ++ f ++ t ++ T) = some (c :: r, t) := by
  have fill_not_lower : ∀ x, isFill x = true → isLower x = false := by
    intro x hx
    by_contra h'
    simp only [isLower, isFill, Bool.and_eq_true, decide_eq_true_eq, Bool.not_eq_false, Bool.or_eq_true, beq_iff_eq] at *
    obtain ⟨h1, h2⟩ := h'
    rcases hx with (((h'|h')|h')|h')|h' <;> subst h' <;> revert h1 h2 <;> decide
  obtain ⟨d, t', rfl⟩ : ∃ d t', t = d :: t' := by cases t with
    | nil => exact absurd rfl hne
    | cons d t' => exact ⟨d, t', rfl⟩
  have hd' := hd d rfl
  have s1 : Stop isLower (f ++ (d :: t') ++ T) := by
    intro x hx
    cases f with
    | nil => simp at hx; subst hx; exact digit_not_lower hd'
    | cons y f => simp at hx; subst hx; exact fill_not_lower _ (hf _ (by simp))
  have s2 : Stop isFill ((d :: t') ++ T) := by intro x hx; simp at hx; subst hx; exact digit_not_fill hd'
  obtain ⟨a1, a2⟩ := takeWhile_stop isLower r _ hr s1
  obtain ⟨b1, b2⟩ := takeWhile_stop isFill f _ hf s2
  rw [show (c :: r) ++ f ++ (d :: t') ++ T = c :: (r ++ (f ++ (d :: t') ++ T)) by simp, symbolAt_eq _ _ hc, a1, a2,
    show f ++ (d :: t') ++ T = f ++ ((d :: t') ++ T) by simp, b2, numText_append _ _ ht hT hdot]

/-- a name without a number -/
theorem symbolAt_plain (c : Char) (r T : List Char) (hc : isUpper c = true) (hr : ∀ x ∈ r, isLower x = true)
    (hT : Stop isLower T) (hT2 : Stop isDigit (T.dropWhile isFill)) (hdot : (T.dropWhile isFill).head? ≠ some '.') :
    symbolAt ((c :: r) ++ T) = some (c :: r, []) := by
  obtain ⟨a1, a2⟩ := takeWhile_stop isLower r T hr hT
  rw [show (c :: r) ++ T = c :: (r ++ T) by simp, symbolAt_eq _ _ hc, a1, a2]
  have := numText_append [] (T.dropWhile isFill) (Or.inl (by simp)) hT2 hdot
  rw [List.nil_append] at this
  rw [this]

theorem symbols_cons_some (c : Char) (m T : List Char) (x : List Char × List Char)
    (h : symbolAt (c :: m ++ T) = some x) (hm : ∀ y ∈ m, isUpper y = false) :
    symbols (c :: m ++ T) = x :: symbols T := by
  rw [symbols, List.cons_append, List.tails, List.filterMap_cons]
  rw [List.cons_append] at h
  simp only [h]
  congr 1
  rw [symbols_skip (m ++ T) m.length]
  · simp [symbols]
  · rw [List.take_left]; exact hm

/-- text that starts with a symbol, or is empty -/
def Clean (T : List Char) : Prop := ∀ c, T.head? = some c → isUpper c = true

theorem Clean.stop_digit {T : List Char} (h : Clean T) : Stop isDigit T := fun c hc => upper_not_digit (h c hc)
theorem Clean.stop_lower {T : List Char} (h : Clean T) : Stop isLower T := fun c hc => upper_not_lower (h c hc)
theorem Clean.stop_fill {T : List Char} (h : Clean T) : Stop isFill T := fun c hc => upper_not_fill (h c hc)
theorem Clean.not_dot {T : List Char} (h : Clean T) : T.head? ≠ some '.' := fun hc => absurd (h _ hc) (by decide)

section
variable {K : Type} [Field K]

theorem plain_shape {t : List Char} {x : K} (h : PlainDecimal t x) :
    NumShape t ∧ (∀ y, t.head? = some y → isDigit y = true) ∧ t ≠ [] := by
  rcases h with ⟨h1, h2, _⟩ | ⟨a, b, rfl, h1, h2, h3, _⟩
  · exact ⟨Or.inl h2, fun y hy => h2 y (List.mem_of_head? hy), h1⟩
  · refine ⟨Or.inr ⟨a, b, rfl, h2, h3⟩, ?_, by simp⟩
    intro y hy
    cases a with
    | nil => exact absurd rfl h1
    | cons d a => simp at hy; subst hy; exact h2 _ (by simp)

theorem shape_not_upper {t : List Char} (h : NumShape t) : ∀ y ∈ t, isUpper y = false := by
  rcases h with h | ⟨a, b, rfl, ha, hb⟩
  · exact fun y hy => digit_not_upper (h y hy)
  · intro y hy
    rcases List.mem_append.mp hy with hy | hy
    · exact digit_not_upper (ha y hy)
    · rcases List.mem_cons.mp hy with hy | hy
      · subst hy; decide
      · exact digit_not_upper (hb y hy)

/-- the number text actually written for an element -/
def shownNum (fmt : K → List Char) (omitOne : Bool) (x : K) : List Char :=
  if omitOne && fmt x == ['1'] then [] else fmt x

/-- one written element, followed by a clean text, possibly after a blank -/
theorem symbols_element (fmt : K → List Char) (origin omitOne : Bool) (e : List Char × K) (hn : SymbolName e.1)
    (hx : PlainDecimal (fmt e.2) e.2) (blank : Bool) (T : List Char) (hT : Clean T) :
    symbols (elementText fmt origin omitOne e ++ (if blank then ' ' :: T else T)) =
      (e.1, shownNum fmt omitOne e.2) :: symbols T := by
  obtain ⟨n, x⟩ := e
  obtain ⟨c, r, rfl, hc, hr⟩ := hn
  simp only at hx
  obtain ⟨p1, p2, p3⟩ := plain_shape hx
  have hblank : symbols (if blank then ' ' :: T else T) = symbols T := by
    cases blank
    · rfl
    · simp only [if_true, symbols, List.tails, List.filterMap_cons]
      have : symbolAt (' ' :: T) = none := by simp [symbolAt, show isUpper ' ' = false from by decide]
      rw [this]
  set T' := (if blank then ' ' :: T else T) with hT'
  have sd : Stop isDigit T' := by
    cases blank
    · exact hT.stop_digit
    · intro y hy; simp [T'] at hy; subst hy; decide
  have sdot : T'.head? ≠ some '.' := by
    cases blank
    · exact hT.not_dot
    · simp [T']
  have sl : Stop isLower T' := by
    cases blank
    · exact hT.stop_lower
    · intro y hy; simp [T'] at hy; subst hy; decide
  have sfill : T'.dropWhile isFill = T := by
    have hTT : T.dropWhile isFill = T := by
      have := (takeWhile_stop isFill [] T (by simp) hT.stop_fill).2
      simpa using this
    cases blank
    · exact hTT
    · simp only [T', if_true, List.dropWhile_cons, show isFill ' ' = true from by decide, hTT]
  unfold elementText shownNum
  by_cases ho : (omitOne && fmt x == ['1']) = true
  · simp only [ho, if_true]
    have hsym := symbolAt_plain c r T' hc hr sl (by rw [sfill]; exact hT.stop_digit) (by rw [sfill]; exact hT.not_dot)
    rw [symbols_cons_some c r T' _ hsym (fun y hy => lower_not_upper (hr y hy)), hblank]
  · simp only [ho, Bool.false_eq_true, if_false]
    cases origin
    · simp only [Bool.false_eq_true, if_false]
      have hsym := symbolAt_number c r [] (fmt x) T' hc hr (by simp) p1 p2 p3 sd sdot
      simp only [List.append_nil] at hsym
      rw [← hblank]
      exact symbols_cons_some c (r ++ fmt x) T' _ hsym (by
        intro y hy
        rcases List.mem_append.mp hy with hy | hy
        · exact lower_not_upper (hr y hy)
        · exact shape_not_upper p1 y hy)
    · simp only [if_true]
      have hs1 : Stop isDigit (')' :: T') := by intro y hy; simp at hy; subst hy; decide
      have hsym := symbolAt_number c r ['\\', '-', '('] (fmt x) (')' :: T') hc hr
        (by intro y hy; simp at hy; rcases hy with rfl | rfl | rfl <;> decide) p1 p2 p3 hs1 (by simp)
      rw [← hblank]
      have key := symbols_cons_some c (r ++ ['\\', '-', '('] ++ fmt x ++ [')']) T' (c :: r, fmt x) (by
          simpa using hsym) (by
        intro y hy
        simp only [List.append_assoc, List.mem_append, List.mem_cons, List.not_mem_nil, or_false] at hy
        rcases hy with hy | (rfl | rfl | rfl) | hy | rfl
        · exact lower_not_upper (hr y hy)
        · decide
        · decide
        · decide
        · exact shape_not_upper p1 y hy
        · decide)
      simpa using key

theorem elementText_clean (fmt : K → List Char) (origin omitOne : Bool) (e : List Char × K) (hn : SymbolName e.1)
    (T : List Char) : Clean (elementText fmt origin omitOne e ++ T) := by
  obtain ⟨n, x⟩ := e
  obtain ⟨c, r, rfl, hc, hr⟩ := hn
  intro y hy
  have : (elementText fmt origin omitOne (c :: r, x) ++ T).head? = some c := by
    unfold elementText
    by_cases h1 : (omitOne && fmt x == ['1']) = true <;> cases origin <;> simp [h1]
  rw [this] at hy
  simp at hy; subst hy; exact hc

theorem symbols_joined (fmt : K → List Char) (origin omitOne : Bool) (comp : List (List Char × K))
    (hn : ∀ e ∈ comp, SymbolName e.1) (hx : ∀ e ∈ comp, PlainDecimal (fmt e.2) e.2) :
    symbols ((comp.map (elementText fmt origin omitOne)).flatten) =
      comp.map (fun e => (e.1, shownNum fmt omitOne e.2)) ∧
    Clean ((comp.map (elementText fmt origin omitOne)).flatten) := by
  induction comp with
  | nil => exact ⟨rfl, by intro c hc; simp at hc⟩
  | cons e comp ih =>
    obtain ⟨h1, h2⟩ := ih (fun e he => hn e (by simp [he])) (fun e he => hx e (by simp [he]))
    rw [List.map_cons, List.flatten_cons]
    refine ⟨?_, elementText_clean _ _ _ e (hn e (by simp)) _⟩
    have := symbols_element fmt origin omitOne e (hn e (by simp)) (hx e (by simp)) false _ h2
    simp only [Bool.false_eq_true, if_false] at this
    rw [this, h1, List.map_cons]

theorem symbols_split (fmt : K → List Char) (omitOne : Bool) (comp : List (List Char × K))
    (hn : ∀ e ∈ comp, SymbolName e.1) (hx : ∀ e ∈ comp, PlainDecimal (fmt e.2) e.2) :
    symbols (joinBlank (comp.map (elementText fmt false omitOne))) =
      comp.map (fun e => (e.1, shownNum fmt omitOne e.2)) ∧
    Clean (joinBlank (comp.map (elementText fmt false omitOne))) := by
  induction comp with
  | nil => exact ⟨rfl, by intro c hc; simp [joinBlank] at hc⟩
  | cons e comp ih =>
    obtain ⟨h1, h2⟩ := ih (fun e he => hn e (by simp [he])) (fun e he => hx e (by simp [he]))
    have hjoin : joinBlank ((e :: comp).map (elementText fmt false omitOne)) = elementText fmt false omitOne e ++
        (if !comp.isEmpty then ' ' :: joinBlank (comp.map (elementText fmt false omitOne)) else joinBlank (comp.map (elementText fmt false omitOne))) := by
      cases comp with
      | nil => simp [joinBlank]
      | cons f comp => simp [joinBlank]
    rw [hjoin]
    refine ⟨?_, elementText_clean _ _ _ e (hn e (by simp)) _⟩
    rw [symbols_element fmt false omitOne e (hn e (by simp)) (hx e (by simp)) (!comp.isEmpty) _ h2, h1, List.map_cons]

theorem amount_shown (fmt : K → List Char) (omitOne : Bool) (x : K) (hx : PlainDecimal (fmt x) x) :
    amount (shownNum fmt omitOne x) = .ok x := by
  unfold shownNum
  split
  · rename_i h
    simp only [Bool.and_eq_true, beq_iff_eq] at h
    rw [amount_nil]
    have := amount_plain _ _ hx
    rw [h.2, amount_int _ (by decide) (by simp)] at this
    simpa [digitsVal, digitVal] using this
  · exact amount_plain _ _ hx

end

end TEflow.Loader
