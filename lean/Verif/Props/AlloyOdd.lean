import Verif.Props.AlloyText

/-!
# Property C117: alloy texts that do not come back

What `Alloy.to_string` loses or writes so that `Alloy.from_string` reads something else, and texts around a group.
-/

set_option linter.unusedSimpArgs false
set_option linter.unusedSectionVars false

namespace TEflow
open Loader PyDict Re

/-! ### The OriginLab substitution on a written alloy -/

theorem originSubGo_plain : ∀ (t rest b : List Char) (n : Nat), '-' ∉ t →
    originSubGo (t.length + n) ⟨b, t ++ rest⟩ = t ++ originSubGo n ⟨t.reverse ++ b, rest⟩ := by
  intro t
  induction t with
  | nil => intro rest b n _; simp
  | cons c t ih =>
    intro rest b n ht
    have hc : c ≠ '-' := fun h => ht (by simp [h])
    rw [List.length_cons, show t.length + 1 + n = (t.length + n) + 1 by omega, List.cons_append, originSubGo]
    have hnil : (runParts originParts ⟨b, c :: (t ++ rest)⟩).head? = none := by
      rw [List.head?_eq_none_iff, List.eq_nil_iff_forall_not_mem]
      intro bs hbs
      unfold originParts at hbs
      obtain ⟨b0, l0, rfl, h0, h0'⟩ := mem_runParts_cons hbs
      have := mem_chr h0
      simp only at this
      injection this with h1 _
      exact hc h1
    simp only [hnil]
    rw [ih rest (c :: b) n (fun h => ht (by simp [h]))]
    simp

theorem originSubGo_group (g rest b : List Char) (n : Nat) (h0 : g ≠ []) (hg : ')' ∉ g) (hn : '\n' ∉ g) :
    ∃ b', originSubGo (n + 1) ⟨b, '-' :: '(' :: g ++ ')' :: rest⟩ = '_' :: '(' :: g ++ ')' :: originSubGo n ⟨b', rest⟩ := by
  have h1 : (runParts originParts ⟨b, '-' :: ('(' :: g ++ ')' :: rest)⟩).head? = _ :=
    head?_runParts (head?_chr '-' b ('(' :: g ++ ')' :: rest)) (head?_groupParts ('-' :: b) g rest h0 hg hn)
  refine ⟨')' :: (g.reverse ++ '(' :: '-' :: b), ?_⟩
  rw [originSubGo]
  simp only [List.cons_append] at h1 ⊢
  simp only [h1]
  simp only [List.head?_cons, Option.getD_some, List.getLast?_cons_cons, List.getLast?_singleton]
  rw [between_of (x := '(' :: g ++ [')']) (by simp)]
  simp

section
variable {K : Type} [Field K]

/-- the terms read from a text in OriginLab style: an amount in parentheses is taken for a site of its own -/
def originTerms (fmt : K → List Char) (omitOne : Bool) : List (List Char × K) → List (Term K)
  | [] => []
  | e :: r =>
    if (omitOne && fmt e.2 == ['1']) = true then ⟨.element e.1, [], [], 1, []⟩ :: originTerms fmt omitOne r
    else ⟨.element e.1, [], [], 1, ['\\', '_']⟩ :: ⟨.group (fmt e.2), [], [], 1, []⟩ :: originTerms fmt omitOne r

theorem originSub_text (fmt : K → List Char) (omitOne : Bool) (l : List (List Char × K)) (hn : ∀ e ∈ l, SymbolName e.1)
    (hx : ∀ e ∈ l, PlainDecimal (fmt e.2) e.2) : ∀ (n : Nat) (b : List Char),
    (toText fmt .origin omitOne l).length ≤ n →
    originSubGo n ⟨b, toText fmt .origin omitOne l⟩ = formulaText (originTerms fmt omitOne l) := by
  induction l with
  | nil => intro n b _; cases n <;> rfl
  | cons e l ih =>
    have ih := ih (fun e he => hn e (by simp [he])) (fun e he => hx e (by simp [he]))
    intro n b hlen
    have hname : '-' ∉ e.1 := fun h => (safe_not (symbolName_safe (hn e (by simp)) _ h)).2.2.1 rfl
    have et : toText fmt .origin omitOne (e :: l) = elementText fmt true omitOne e ++ toText fmt .origin omitOne l := rfl
    rw [et] at hlen ⊢
    by_cases h : (omitOne && fmt e.2 == ['1']) = true
    · have ee : elementText fmt true omitOne e = e.1 := by simp [elementText, h]
      rw [ee] at hlen ⊢
      rw [List.length_append] at hlen
      obtain ⟨m, rfl⟩ := Nat.exists_eq_add_of_le (show e.1.length ≤ n by omega)
      rw [originSubGo_plain e.1 _ b m hname, ih m _ (by omega)]
      rw [originTerms, if_pos h]
      simp [formulaText, Term.text, Part.text]
    · have ee : elementText fmt true omitOne e = (e.1 ++ ['\\']) ++ ('-' :: '(' :: fmt e.2 ++ [')']) := by
        simp [elementText, h]
      rw [ee] at hlen ⊢
      obtain ⟨p1, p2, p3⟩ := plain_shape (hx e (by simp))
      have hsafe := plain_safe (hx e (by simp))
      have hq : ')' ∉ fmt e.2 := fun h' => (safe_not (hsafe _ h')).2.1 rfl
      have hq2 : '\n' ∉ fmt e.2 := fun h' => (safe_not (hsafe _ h')).2.2.2 rfl
      simp only [List.length_append, List.length_cons, List.length_nil] at hlen
      obtain ⟨m, rfl⟩ : ∃ m, n = (e.1 ++ ['\\']).length + (m + 1) :=
        ⟨n - (e.1.length + 2), by simp only [List.length_append, List.length_cons, List.length_nil]; omega⟩
      have hre : (e.1 ++ ['\\']) ++ ('-' :: '(' :: fmt e.2 ++ [')']) ++ toText fmt .origin omitOne l =
          (e.1 ++ ['\\']) ++ ('-' :: '(' :: fmt e.2 ++ ')' :: toText fmt .origin omitOne l) := by simp
      rw [hre, originSubGo_plain (e.1 ++ ['\\']) _ b (m + 1) (by simp [hname])]
      obtain ⟨b', hb'⟩ := originSubGo_group (fmt e.2) (toText fmt .origin omitOne l) ((e.1 ++ ['\\']).reverse ++ b) m p3 hq hq2
      rw [hb', ih m _ (by simp only [List.length_append, List.length_cons, List.length_nil] at hlen; omega)]
      rw [originTerms, if_neg h]
      simp [formulaText, Term.text, Part.text]

theorem originTerms_ok (fmt : K → List Char) (omitOne : Bool) (l : List (List Char × K))
    (hn : ∀ e ∈ l, SymbolName e.1 ∧ ¬ "Jalloyed".toList <+: e.1)
    (hx : ∀ e ∈ l, PlainDecimal (fmt e.2) e.2) :
    (∀ t ∈ originTerms fmt omitOne l, t.Ok ∧
      ((∃ e ∈ l, t.part = .element e.1) ∨ ∃ e ∈ l, t.part = .group (fmt e.2))) ∧
    ((∃ e ∈ l, ¬ (omitOne && fmt e.2 == ['1']) = true) → ∃ t ∈ originTerms fmt omitOne l, ∃ e ∈ l, t.part = .group (fmt e.2)) := by
  induction l with
  | nil => exact ⟨by simp [originTerms], by simp⟩
  | cons e l ih =>
    obtain ⟨i1, i2⟩ := ih (fun e he => hn e (by simp [he])) (fun e he => hx e (by simp [he]))
    have hE := hn e (by simp)
    obtain ⟨p1, p2, p3⟩ := plain_shape (hx e (by simp))
    have hsafe := plain_safe (hx e (by simp))
    have hG : Part.Ok (.group (fmt e.2)) := ⟨p3, fun h' => (safe_not (hsafe _ h')).1 rfl,
      fun h' => (safe_not (hsafe _ h')).2.1 rfl, fun h' => (safe_not (hsafe _ h')).2.2.2 rfl⟩
    have i1' : ∀ t ∈ originTerms fmt omitOne l, t.Ok ∧
        ((∃ e' ∈ e :: l, t.part = .element e'.1) ∨ ∃ e' ∈ e :: l, t.part = .group (fmt e'.2)) := by
      intro t ht
      refine ⟨(i1 t ht).1, ?_⟩
      rcases (i1 t ht).2 with ⟨e', he', h⟩ | ⟨e', he', h⟩
      · exact Or.inl ⟨e', by simp [he'], h⟩
      · exact Or.inr ⟨e', by simp [he'], h⟩
    have i2' : (∃ e ∈ l, ¬ (omitOne && fmt e.2 == ['1']) = true) →
        ∃ t ∈ originTerms fmt omitOne l, ∃ e' ∈ e :: l, t.part = .group (fmt e'.2) := by
      intro h
      obtain ⟨t, ht, e', he', h'⟩ := i2 h
      exact ⟨t, ht, e', by simp [he'], h'⟩
    by_cases h : (omitOne && fmt e.2 == ['1']) = true
    · rw [originTerms, if_pos h]
      refine ⟨?_, ?_⟩
      · intro t ht
        rcases List.mem_cons.mp ht with rfl | ht
        · exact ⟨⟨hE, by simp, Or.inl ⟨rfl, rfl, rfl⟩⟩, Or.inl ⟨e, by simp, rfl⟩⟩
        · exact i1' t ht
      · rintro ⟨u, hu, hu'⟩
        rcases List.mem_cons.mp hu with rfl | hu
        · exact absurd h hu'
        · obtain ⟨t, ht, h'⟩ := i2' ⟨u, hu, hu'⟩
          exact ⟨t, by simp [ht], h'⟩
    · rw [originTerms, if_neg h]
      refine ⟨?_, fun _ => ⟨_, List.mem_cons_of_mem _ List.mem_cons_self, e, by simp, rfl⟩⟩
      intro t ht
      rcases List.mem_cons.mp ht with rfl | ht
      · exact ⟨⟨hE, by simp [gapChar], Or.inl ⟨rfl, rfl, rfl⟩⟩, Or.inl ⟨e, by simp, rfl⟩⟩
      · rcases List.mem_cons.mp ht with rfl | ht
        · exact ⟨⟨hG, by simp, Or.inl ⟨rfl, rfl, rfl⟩⟩, Or.inr ⟨e, by simp, rfl⟩⟩
        · exact i1' t ht

end

section Odd
variable {K : Type} [Field K] [LinearOrder K] [IsStrictOrderedRing K] [FloorRing K]

theorem natom_nil : natom ([] : PyDict (List Char) K) = 0 := by
  have : pyRound (0 : K) = 0 := by simp [pyRound]
  simp [natom, total, this]

/-- only the text after the OriginLab substitution matters -/
theorem alloyFromString_sub (known : List Char → Bool) (names : Option (List (List Char))) (skip raise : Bool) (f g : List Char)
    (h : originSub f = g) (hg : originSub g = g) :
    alloyFromString (K := K) known names skip raise f = alloyFromString known names skip raise g := by
  unfold alloyFromString splitGroups
  rw [h, hg]

/-- an alloy with one element on each site -/
def singles (l : List (List Char × List Char × K)) : List (List Char × SiteVal K) :=
  l.map (fun s => (s.1, SiteVal.compound [s.2]))

theorem single_natom (e : List Char × K) (h : natom [e] = e.2) (h0 : e.2 ≠ 0) : fractions [e] = [(e.1, 1)] := by
  simp [fractions, h, div_self h0]

theorem singles_text (fmt : K → List Char) (hone : fmt 1 = ['1']) (style : Style) (omitOne : Bool)
    (l : List (List Char × List Char × K)) (ho : omitOne = true) (h0 : ∀ s ∈ l, natom [s.2] = s.2.2 ∧ s.2.2 ≠ 0) :
    alloyToText fmt style omitOne (singles l) = .ok (toText fmt style omitOne (ofPairs (l.map (fun s => (s.2.1, s.2.2))))) := by
  unfold alloyToText
  have hsing : singles l = (l.map (fun s => (s.1, [s.2]))).map (fun s => (s.1, SiteVal.compound s.2)) := by
    simp [singles, List.map_map, Function.comp_def]
  rw [hsing, (C18_all_sites (l.map (fun s => (s.1, [s.2]))) (by
    intro s hs
    obtain ⟨u, hu, rfl⟩ := List.mem_map.mp hs
    simp only [(h0 u hu).1]; exact (h0 u hu).2) none).1]
  simp only [List.map_map, Function.comp_def]
  refine congrArg (fun x => Except.ok (toText fmt style omitOne (ofPairs x))) ?_
  apply List.map_congr_left
  intro s hs
  have hf := single_natom s.2 (h0 s hs).1 (h0 s hs).2
  unfold fractions at hf
  simp only [List.map_cons, List.map_nil] at hf
  rw [List.map_cons, List.map_nil, hf, (h0 s hs).1]
  have : siteText fmt style omitOne [(s.2.1, (1 : K))] = s.2.1 := by
    unfold siteText
    cases style <;> simp [toText, joinBlank, elementText, ho, hone]
  rw [this]

/-- **C117 (OriginLab).** The text of an alloy in OriginLab style is not read back: an alloy with a single element on each
site, of which some amount is not written as 1, gives a text that `from_string` refuses (the amount in parentheses is taken
for a site without any element), for at most 13 sites with `ZeroDivisionError`. -/
theorem C117_origin (fmt : K → List Char) (hone : fmt 1 = ['1']) (l : List (List Char × List Char × K))
    (hnd : (l.map (fun s => s.2.1)).Nodup) (hn : ∀ s ∈ l, SymbolName s.2.1 ∧ ¬ "Jalloyed".toList <+: s.2.1)
    (hx : ∀ s ∈ l, PlainDecimal (fmt s.2.2) s.2.2) (h0 : ∀ s ∈ l, natom [s.2] = s.2.2 ∧ s.2.2 ≠ 0)
    (hsome : ∃ s ∈ l, fmt s.2.2 ≠ ['1']) (hlen : l.length ≤ 13) (known : List Char → Bool) (skip raise : Bool)
    (hk : skip = true ∨ raise = true → ∀ s ∈ l, known (s.2.1.take 2) = true) :
    ∃ text, alloyToText fmt .origin true (singles l) = .ok text ∧
      alloyFromString (K := K) known none skip raise text = .error .zeroDivisionError := by
  set ps : List (List Char × K) := l.map (fun s => (s.2.1, s.2.2)) with hps
  have hwf : WF ps := by unfold WF keys; rw [hps, List.map_map]; exact hnd
  have hpn : ∀ e ∈ ps, SymbolName e.1 ∧ ¬ "Jalloyed".toList <+: e.1 := by
    intro e he; obtain ⟨s, hs, rfl⟩ := List.mem_map.mp he; exact hn s hs
  have hpx : ∀ e ∈ ps, PlainDecimal (fmt e.2) e.2 := by
    intro e he; obtain ⟨s, hs, rfl⟩ := List.mem_map.mp he; exact hx s hs
  refine ⟨_, singles_text fmt hone .origin true l rfl h0, ?_⟩
  rw [ofPairs_of_WF hwf]
  obtain ⟨ok, hgrp⟩ := originTerms_ok fmt true ps hpn hpx
  have hts : ∀ t ∈ originTerms fmt true ps, t.Ok := fun t ht => (ok t ht).1
  have hsub : originSub (toText fmt .origin true ps) = formulaText (originTerms fmt true ps) :=
    originSub_text fmt true ps (fun e he => (hpn e he).1) hpx _ _ le_rfl
  have hid : originSub (formulaText (originTerms fmt true ps)) = formulaText (originTerms fmt true ps) := by
    obtain ⟨h1, h2⟩ := piecesOf_ok hts
    rw [← h2]; exact originSub_id (noMinusParen_pieces h1)
  rw [alloyFromString_sub known none skip raise _ _ hsub hid]
  let comps : Part → PyDict (List Char) K := fun p => match p with | .element n => [(n, 1)] | .group _ => []
  have hread : ∀ t ∈ originTerms fmt true ps,
      fromString known skip raise t.part.formula = .ok (comps t.part) ∧ Determined (comps t.part) := by
    intro t ht
    rcases (ok t ht).2 with ⟨e, he, h⟩ | ⟨e, he, h⟩
    · rw [h]
      refine ⟨?_, Or.inl (by simp [comps])⟩
      have hk' : skip = true ∨ raise = true → known (e.1.take 2) = true := by
        intro h'; obtain ⟨s, hs, rfl⟩ := List.mem_map.mp he; exact hk h' s hs
      have := C13_round_trip fmt .join true [(e.1, (1 : K))] (by simp [WF]) (by simpa using (hpn e he).1)
        (by simp only [List.mem_singleton, forall_eq]; rw [hone]; exact Or.inl ⟨by simp, by decide, by simp [digitsVal, digitVal]⟩)
        known skip raise (by simpa using hk')
      have e1 : toText fmt .join true [(e.1, (1 : K))] = e.1 := by simp [toText, elementText, hone]
      rw [e1] at this
      exact this
    · rw [h]
      refine ⟨?_, Or.inl (by simp [comps])⟩
      have hno : symbols (fmt e.2) = [] := by
        obtain ⟨p1, _, _⟩ := plain_shape (hpx e he)
        have := symbols_skip (fmt e.2) (fmt e.2).length (by rw [List.take_length]; exact shape_not_upper p1)
        unfold symbols
        rw [this, List.drop_length]
        rfl
      simp only [Part.formula]
      unfold fromString
      rw [formulaMatches_eq, hno]
      rfl
  obtain ⟨t, ht, e, he, hpart⟩ := hgrp (by
    obtain ⟨s, hs, h⟩ := hsome
    exact ⟨_, List.mem_map.mpr ⟨s, hs, rfl⟩, by simpa using h⟩)
  refine (C116_errors known skip raise _ hts none).2 comps hread ⟨t, ht, ?_⟩ ?_
  · rw [hpart]; exact natom_nil
  · have hterms : ∀ q : List (List Char × K), (originTerms fmt true q).length ≤ 2 * q.length := by
      intro q
      induction q with
      | nil => simp [originTerms]
      | cons e q ih =>
        rw [originTerms]
        split <;> · simp only [List.length_cons]; omega
    have hsit : ∀ (q : List (Part × K)) (d : PyDict Part K), (PyDict.update d q).length ≤ d.length + q.length := by
      intro q
      induction q with
      | nil => intro d; simp [update_nil]
      | cons p q ih =>
        intro d
        rw [update_cons]
        have h1 := ih (PyDict.set d p.1 p.2)
        have h2 : (PyDict.set d p.1 p.2).length ≤ d.length + 1 := by
          have hk := keys_set d p.1 p.2
          have hl : (keys (PyDict.set d p.1 p.2)).length = (PyDict.set d p.1 p.2).length := by simp [keys]
          rw [← hl, hk]
          split <;> simp [keys]
        simp only [List.length_cons]
        omega
    have h1 := hterms ps
    have h2 := hsit ((originTerms fmt true ps).map (fun t => (t.part, t.amount))) []
    have h3 : ps.length = l.length := by rw [hps, List.length_map]
    simp only [List.length_nil, List.length_map, Nat.zero_add] at h2
    show (sitesOf (originTerms fmt true ps)).length ≤ 26
    unfold sitesOf ofPairs
    omega

/-- **C117 (equal sites).** Two sites with the same composition are written as one: only the number of atoms of the later
site is kept, so the text is that of the alloy without the first site. -/
theorem C117_same_composition (fmt : K → List Char) (style : Style) (omitOne : Bool) (a b : List Char)
    (c d : PyDict (List Char) K) (hc : natom c ≠ 0) (hd : natom d ≠ 0) (h : fractions c = fractions d) :
    alloyToText fmt style omitOne [(a, .compound c), (b, .compound d)] =
      alloyToText fmt style omitOne [(b, .compound d)] := by
  have h1 := (C18_all_sites [(a, c), (b, d)] (by intro s hs; simp at hs; rcases hs with rfl | rfl <;> assumption) none).1
  have h2 := (C18_all_sites [(b, d)] (by intro s hs; simp at hs; subst hs; assumption) none).1
  unfold alloyToText
  simp only [List.map_cons, List.map_nil] at h1 h2
  rw [h1, h2]
  unfold fractions at h
  simp only [List.map_cons, List.map_nil, h]
  simp [ofPairs, PyDict.update, PyDict.set]

/-- **C117 (ones written).** With `omit_one=False` a site with a single element X and a whole number of atoms n is written
as X followed by `1` and the digits of n, and is read back with that longer number. -/
theorem C117_ones_written (fmt : K → List Char) (hone : fmt 1 = ['1']) (a x : List Char) (n : K) (hn : natom [(x, n)] = n)
    (h0 : n ≠ 0) (hx : SymbolName x ∧ ¬ "Jalloyed".toList <+: x) (hd : fmt n ≠ [] ∧ ∀ c ∈ fmt n, isDigit c = true)
    (known : List Char → Bool) (skip raise : Bool) (hk : skip = true ∨ raise = true → known (x.take 2) = true) :
    alloyToText fmt .join false [(a, .compound [(x, n)])] = .ok (x ++ '1' :: fmt n) ∧
    alloyFromString known (some [a]) skip raise (x ++ '1' :: fmt n) =
      .ok [(a, [(x, ((digitsVal ('1' :: fmt n) : ℕ) : K))])] := by
  constructor
  · unfold alloyToText
    have h1 := (C18_all_sites [(a, [(x, n)])] (by intro s hs; simp at hs; subst hs; simpa [hn] using h0) none).1
    simp only [List.map_cons, List.map_nil] at h1
    rw [h1]
    simp only [List.map_cons, List.map_nil, hn, div_self h0]
    simp [siteText, toText, elementText, hone, ofPairs, PyDict.update, PyDict.set]
  · set t : Term K := ⟨.element x, [], '1' :: fmt n, ((digitsVal ('1' :: fmt n) : ℕ) : K), []⟩ with ht
    have htext : formulaText [t] = x ++ '1' :: fmt n := by simp [formulaText, Term.text, Part.text, ht]
    have hok : t.Ok := by
      refine ⟨hx, by simp [ht], Or.inr (Or.inl ⟨by simp [ht], ?_, rfl⟩)⟩
      intro c hc
      rcases List.mem_cons.mp hc with rfl | hc
      · decide
      · exact hd.2 c hc
    have hrd := C13_round_trip fmt .join true [(x, (1 : K))] (by simp [WF]) (by simpa using hx.1)
      (by simp only [List.mem_singleton, forall_eq]; rw [hone]; exact Or.inl ⟨by simp, by decide, by simp [digitsVal, digitVal]⟩)
      known skip raise (by simpa using hk)
    have e1 : toText fmt .join true [(x, (1 : K))] = x := by simp [toText, elementText, hone]
    rw [e1] at hrd
    have hnat : natom [(x, (1 : K))] ≠ 0 := by
      have h1 := natom_near [(x, (1 : K))]
      intro h2
      rw [h2] at h1
      simp only [total, List.map_cons, List.map_nil, List.sum_cons, List.sum_nil, add_zero, zero_sub, abs_neg, abs_one] at h1
      norm_num at h1
    rw [← htext, C116_reads known skip raise [t] (by simpa using hok) (fun _ => [(x, 1)])
      (by simpa [ht, Part.formula] using ⟨hrd, Or.inl (by simp), hnat⟩) [a] (by simp)]
    simp [sitesOf, ofPairs, PyDict.update, PyDict.set, ht]

/-- **C117 (letters after a group).** Lower-case letters directly after a group are swallowed: the letters are ignored, and
the site keeps the amount 1 — unless they start with `x`, when the group is not found any more and `from_string` fails with
`IndexError`. -/
theorem C117_letters_after (g w : List Char) (hg : Part.Ok (.group g)) (hw : w ≠ [] ∧ ∀ c ∈ w, isLower c = true)
    (known : List Char → Bool) (names : Option (List (List Char))) (skip raise : Bool) :
    (w.head? = some 'x' →
      alloyFromString (K := K) known names skip raise ('(' :: g ++ ')' :: w) = .error .indexError) ∧
    (w.head? ≠ some 'x' →
      alloyFromString (K := K) known names skip raise ('(' :: g ++ ')' :: w) =
        alloyFromString known names skip raise ('(' :: g ++ [')'])) := by
  have hsafe : ∀ c ∈ w, safeChar c = true := fun c hc => by simp [safeChar, hw.2 c hc]
  have hmain : ∀ v : List Char, (∀ c ∈ v, isLower c = true) →
      splitGroups ('(' :: g ++ ')' :: v) = (alloySite ++ v, [g]) ∧
      fromString (K := K) known false false (alloySite ++ v) = .ok [(alloySite ++ v, 1)] := by
    intro v hv
    have hvs : ∀ c ∈ v, safeChar c = true := fun c hc => by simp [safeChar, hv c hc]
    have hps : ∀ p ∈ [Piece.grp g, Piece.chunk v], p.Ok ∧ Piece.noMinus p := by
      intro p hp
      simp only [List.mem_cons, List.not_mem_nil, or_false] at hp
      rcases hp with rfl | rfl
      · exact ⟨hg, trivial⟩
      · exact safe_chunk hvs
    have htxt : piecesText [Piece.grp g, Piece.chunk v] = '(' :: g ++ ')' :: v := by simp [piecesText, Piece.text]
    constructor
    · unfold splitGroups
      rw [← htxt, originSub_id (noMinusParen_pieces hps),
        pullGroups_pieces _ _ _ _ (fun p hp => (hps p hp).1) (le_of_eq (count_pieces _ (fun p hp => (hps p hp).1)).symm)]
      have hone : ([g] : List (List Char)).eraseDups = [g] := by rw [List.eraseDups_cons]; simp
      simp [hone, groupsOf_grp, groupsOf_chunk, show groupsOf [] = [] from rfl, Piece.subst, piecesText, Piece.text, groupLabel]
    · have hname : SymbolName (alloySite ++ v) := by
        refine ⟨'J', "alloyed".toList ++ v, rfl, by decide, ?_⟩
        intro x hx
        rcases List.mem_append.mp hx with hx | hx
        · have : ∀ x ∈ "alloyed".toList, isLower x = true := by decide
          exact this x hx
        · exact hv x hx
      have := C13_round_trip (K := K) (fun _ => ['1']) .join true [(alloySite ++ v, (1 : K))] (by simp [WF])
        (by simpa using hname)
        (by simp only [List.mem_singleton, forall_eq]; exact Or.inl ⟨by simp, by decide, by simp [digitsVal, digitVal]⟩)
        known false false (by simp)
      simpa [toText, elementText] using this
  have hkey : ∀ v : List Char, siteKey [g] (alloySite ++ v) =
      match [g][(v.takeWhile (· == 'x')).length]? with | some g => .ok g | none => .error .indexError := by
    intro v
    unfold siteKey
    rw [if_pos (List.isPrefixOf_iff_prefix.mpr ⟨v, rfl⟩), List.drop_left]
    cases [g][(v.takeWhile (· == 'x')).length]? <;> rfl
  constructor
  · intro hx
    obtain ⟨r, rfl⟩ : ∃ r, w = 'x' :: r := by
      cases w with
      | nil => simp at hx
      | cons c r => simp at hx; exact ⟨r, by rw [hx]⟩
    obtain ⟨h1, h2⟩ := hmain ('x' :: r) hw.2
    unfold alloyFromString
    rw [h1]
    simp only [h2]
    rw [readSites, hkey]
    simp
  · intro hx
    obtain ⟨h1, h2⟩ := hmain w hw.2
    obtain ⟨h3, h4⟩ := hmain [] (by simp)
    have hk1 : siteKey [g] (alloySite ++ w) = .ok g := by
      rw [hkey]
      have : w.takeWhile (· == 'x') = [] := by
        cases w with
        | nil => rfl
        | cons c r =>
          have : c ≠ 'x' := fun h => hx (by rw [h]; rfl)
          simp [List.takeWhile_cons, this]
      rw [this]; rfl
    have hk2 : siteKey [g] (alloySite ++ []) = .ok g := by rw [hkey]; rfl
    unfold alloyFromString
    rw [h1, h3]
    simp only [h2, h4, readSites, hk1, hk2]

end Odd

/-! ### Concrete cases -/

/-- a formatter on a few rationals -/
def fmtAlloy (x : ℚ) : List Char :=
  if x = 1/4 then "0.25".toList else if x = 3/4 then "0.75".toList else if x = 2 then "2".toList
  else if x = 3 then "3".toList else "1".toList

/-- (Bi0.5Sb1.5) on site A and Te3 on site B -/
def bst : PyDict (List Char) (PyDict (List Char) ℚ) :=
  [(['A'], [("Bi".toList, 1/2), ("Sb".toList, 3/2)]), (['B'], [("Te".toList, 3)])]

example : alloyToText fmtAlloy .join true (bst.map (fun s => (s.1, SiteVal.compound s.2))) = .ok "(Bi0.25Sb0.75)2Te3".toList ∧
    alloyToText fmtAlloy .split true (bst.map (fun s => (s.1, SiteVal.compound s.2))) = .ok "(Bi0.25 Sb0.75)2 Te3".toList := by
  decide +kernel

theorem bst_printable : ∀ s ∈ bst, Printable fmtAlloy true s.2 := by
  have hd : ∀ (t : List Char) (x : ℚ), t ≠ [] → (∀ c ∈ t, isDigit c = true) → x = (digitsVal t : ℚ) → PlainDecimal t x :=
    fun t x h1 h2 h3 => Or.inl ⟨h1, h2, h3⟩
  intro s hs
  simp only [bst, List.mem_cons, List.not_mem_nil, or_false] at hs
  rcases hs with rfl | rfl
  · refine ⟨by decide, by decide +kernel, ?_, ?_, ?_, by simp⟩
    · intro e he
      simp only [List.mem_cons, List.not_mem_nil, or_false] at he
      rcases he with rfl | rfl
      · exact ⟨⟨'B', ['i'], by decide, by decide, by decide⟩, by decide⟩
      · exact ⟨⟨'S', ['b'], by decide, by decide, by decide⟩, by decide⟩
    · exact Or.inl ⟨by decide +kernel, by decide +kernel, by decide +kernel⟩
    · intro e he
      simp only [List.mem_cons, List.not_mem_nil, or_false] at he
      rcases he with rfl | rfl
      · exact Or.inr ⟨['0'], ['2', '5'], by decide +kernel, by decide, by decide, by decide, by decide +kernel⟩
      · exact Or.inr ⟨['0'], ['7', '5'], by decide +kernel, by decide, by decide, by decide, by decide +kernel⟩
  · refine ⟨by decide, by decide +kernel, ?_, ?_, ?_, ?_⟩
    · intro e he
      simp only [List.mem_cons, List.not_mem_nil, or_false] at he
      subst he
      exact ⟨⟨'T', ['e'], by decide, by decide, by decide⟩, by decide⟩
    · exact Or.inl ⟨by decide +kernel, by decide +kernel, by decide +kernel⟩
    · intro e he
      simp only [List.mem_cons, List.not_mem_nil, or_false] at he
      subst he
      exact Or.inl ⟨by decide +kernel, by decide +kernel, by decide +kernel⟩
    · intro e he
      injection he with he _
      subst he
      exact ⟨rfl, by decide +kernel⟩

/-- `C116_round_trip` on (Bi0.25Sb0.75)2Te3 -/
example : ∃ text, alloyToText fmtAlloy .join true (bst.map (fun s => (s.1, SiteVal.compound s.2))) = .ok text ∧
    alloyFromString knownElement (some [['A'], ['B']]) false true text = .ok bst :=
  let ⟨text, h1, h2, _⟩ := C116_round_trip fmtAlloy (by decide +kernel) .join (by decide) true bst (by decide) bst_printable
    (by decide +kernel) knownElement false true (by intro _; decide +kernel)
  ⟨text, h1, h2⟩

/-- `C116_reads` and `C116_errors`: a repeated group is one site with the last amount; `(BiSb)` is refused -/
example : alloyFromString (K := ℚ) knownElement none false false "(Bi1Sb3)_2 Te (Bi1Sb3)4".toList =
    .ok [(['A'], [("Bi".toList, 4), ("Sb".toList, 12)]), (['B'], [("Te".toList, 1)])] := by decide +kernel
example : alloyFromString (K := ℚ) knownElement none false false "(BiSb)2Te3".toList = .error .valueError := by decide +kernel

/-- `C117_origin` on Bi2Te3 -/
example : alloyToText fmtAlloy .origin true (singles [(['A'], "Bi".toList, (2 : ℚ)), (['B'], "Te".toList, 3)]) =
      .ok "Bi\\-(2)Te\\-(3)".toList ∧
    alloyFromString (K := ℚ) knownElement none false false "Bi\\-(2)Te\\-(3)".toList = .error .zeroDivisionError := by
  decide +kernel

/-- `C117_same_composition` on Bi and Bi2, `C117_ones_written` on Bi2, `C117_letters_after` on (Bi1Sb3)x -/
example : alloyToText fmtAlloy .join true [(['A'], .compound [("Bi".toList, 1)]), (['B'], .compound [("Bi".toList, 2)])] =
    .ok "Bi2".toList := by decide +kernel
example : alloyFromString (K := ℚ) knownElement (some [['A']]) false false "Bi12".toList = .ok [(['A'], [("Bi".toList, 12)])] := by
  decide +kernel
example : alloyFromString (K := ℚ) knownElement none false false "(Bi1Sb3)x".toList = .error .indexError := by
  decide +kernel
example : alloyFromString (K := ℚ) knownElement none false false "(Bi1Sb3)y2".toList =
      .ok [(['A'], [("Bi".toList, 2), ("Sb".toList, 6)])] := by decide +kernel

end TEflow
