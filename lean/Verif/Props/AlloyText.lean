import Verif.Lemmas.AlloyText
import Verif.Props.Compound

/-!
# Properties C116 and C117: the text of an alloy

`Part`, `Term`, `formulaText` and `Determined` (Spec/AlloyText.lean) describe flat formulas such as
`(Bi0.25Sb0.75)2 Te3` without the code.
-/

set_option linter.unusedSimpArgs false
set_option linter.unusedSectionVars false

namespace TEflow
open Loader PyDict Re

/-! ### Terms as pieces -/

section Terms
variable {K : Type} [Field K]

theorem plain_chars {t : List Char} {x : K} (h : PlainDecimal t x) : ∀ c ∈ t, isDigit c = true ∨ c = '.' := by
  rcases h with ⟨_, h, _⟩ | ⟨a, b, rfl, _, h2, h3, _⟩
  · exact fun c hc => Or.inl (h c hc)
  · intro c hc
    rw [List.mem_append, List.mem_cons] at hc
    rcases hc with hc | hc | hc
    · exact Or.inl (h2 c hc)
    · exact Or.inr hc
    · exact Or.inl (h3 c hc)

/-- the characters of amounts, names and blanks -/
def safeChar (c : Char) : Bool := isUpper c || isLower c || isDigit c || c == '.' || c == ' ' || c == '_' || c == '\\'

theorem safe_not {c : Char} (h : safeChar c = true) : c ≠ '(' ∧ c ≠ ')' ∧ c ≠ '-' ∧ c ≠ '\n' := by
  refine ⟨?_, ?_, ?_, ?_⟩ <;> · rintro rfl; revert h; decide

theorem symbolName_safe {n : List Char} (h : SymbolName n) : ∀ c ∈ n, safeChar c = true := by
  obtain ⟨c, r, rfl, hc, hr⟩ := h
  intro x hx
  rcases List.mem_cons.mp hx with rfl | hx
  · simp [safeChar, hc]
  · simp [safeChar, hr x hx]

theorem plain_safe {t : List Char} {x : K} (h : PlainDecimal t x) : ∀ c ∈ t, safeChar c = true := by
  intro c hc
  rcases plain_chars h c hc with h | rfl
  · simp [safeChar, h]
  · decide

/-- the pieces of a term -/
def termPieces (t : Term K) : List Piece :=
  match t.part with
  | .element n => [.chunk (n ++ t.fill ++ t.num ++ t.sep)]
  | .group g => [.grp g, .chunk (t.fill ++ t.num ++ t.sep)]

def piecesOf (ts : List (Term K)) : List Piece := (ts.map termPieces).flatten

theorem gap_safe {c : Char} (h : gapChar c = true) : safeChar c = true := by
  unfold gapChar at h
  unfold safeChar
  simp only [Bool.or_eq_true] at h ⊢
  tauto

theorem num_safe {t : Term K} (h : t.Ok) : ∀ c ∈ t.fill ++ t.num ++ t.sep, safeChar c = true := by
  intro c hc
  obtain ⟨_, hg, hn⟩ := h
  rw [List.mem_append, List.mem_append] at hc
  rcases hc with (hc | hc) | hc
  · exact gap_safe (hg c (by simp [hc]))
  · rcases hn with ⟨h, _⟩ | h
    · rw [h] at hc; simp at hc
    · exact plain_safe h c hc
  · exact gap_safe (hg c (by simp [hc]))

theorem safe_chunk {t : List Char} (h : ∀ c ∈ t, safeChar c = true) : Piece.Ok (.chunk t) ∧ '-' ∉ t :=
  ⟨⟨fun h' => (safe_not (h _ h')).1 rfl, fun h' => (safe_not (h _ h')).2.1 rfl⟩, fun h' => (safe_not (h _ h')).2.2.1 rfl⟩

/-- no minus inside -/
def Piece.noMinus : Piece → Prop
  | .chunk t => '-' ∉ t
  | .grp _ => True

theorem termPieces_ok {t : Term K} (h : t.Ok) : (∀ p ∈ termPieces t, p.Ok ∧ Piece.noMinus p) ∧ piecesText (termPieces t) = t.text := by
  obtain ⟨part, fill, num, amount, sep⟩ := t
  have hn := num_safe h
  cases part with
  | element n =>
    have hs : ∀ c ∈ n ++ fill ++ num ++ sep, safeChar c = true := by
      intro c hc
      rw [List.append_assoc, List.append_assoc, List.mem_append, ← List.append_assoc] at hc
      rcases hc with hc | hc
      · exact symbolName_safe h.1.1 c hc
      · exact hn c hc
    refine ⟨?_, by simp [termPieces, piecesText, Piece.text, Term.text, Part.text]⟩
    intro p hp
    simp only [termPieces, List.mem_singleton] at hp
    subst hp
    exact safe_chunk hs
  | group g =>
    refine ⟨?_, by simp [termPieces, piecesText, Piece.text, Term.text, Part.text]⟩
    intro p hp
    simp only [termPieces, List.mem_cons, List.not_mem_nil, or_false] at hp
    rcases hp with rfl | rfl
    · exact ⟨h.1, trivial⟩
    · exact safe_chunk hn

theorem piecesText_append (a b : List Piece) : piecesText (a ++ b) = piecesText a ++ piecesText b := by
  simp [piecesText]

theorem piecesOf_ok {ts : List (Term K)} (h : ∀ t ∈ ts, t.Ok) :
    (∀ p ∈ piecesOf ts, p.Ok ∧ Piece.noMinus p) ∧ piecesText (piecesOf ts) = formulaText ts := by
  induction ts with
  | nil => exact ⟨by simp [piecesOf], rfl⟩
  | cons t ts ih =>
    obtain ⟨i1, i2⟩ := ih (fun t ht => h t (by simp [ht]))
    obtain ⟨j1, j2⟩ := termPieces_ok (h t (by simp))
    have e : piecesOf (t :: ts) = termPieces t ++ piecesOf ts := rfl
    rw [e]
    refine ⟨?_, by rw [piecesText_append, j2, i2]; rfl⟩
    intro p hp
    rcases List.mem_append.mp hp with hp | hp
    · exact j1 p hp
    · exact i1 p hp

/-- `-(` does not occur -/
def NoMinusParen (t : List Char) : Prop := ∀ pre post, t ≠ pre ++ '-' :: '(' :: post

theorem noMinusParen_append {a b : List Char} (ha : NoMinusParen a) (hb : NoMinusParen b) (hl : a.getLast? ≠ some '-') :
    NoMinusParen (a ++ b) := by
  intro pre post h
  rcases List.append_eq_append_iff.mp h with ⟨c, h1, h2⟩ | ⟨c, h1, h2⟩
  · exact hb c post h2
  · cases c with
    | nil => simp at h2; exact hb [] post (by rw [← h2]; rfl)
    | cons x c =>
      rw [List.cons_append] at h2
      injection h2 with h2 h3
      subst h2
      cases c with
      | nil => rw [h1] at hl; simp at hl
      | cons y c =>
        rw [List.cons_append] at h3
        injection h3 with h3 h4
        subst h3
        exact ha pre c h1

theorem noMinusParen_pieces {ps : List Piece} (h : ∀ p ∈ ps, p.Ok ∧ Piece.noMinus p) : NoMinusParen (piecesText ps) := by
  induction ps with
  | nil => intro pre post h; simp [piecesText] at h
  | cons p ps ih =>
    have ih := ih (fun p hp => h p (by simp [hp]))
    have hp := h p (by simp)
    have e : piecesText (p :: ps) = p.text ++ piecesText ps := rfl
    rw [e]
    cases p with
    | chunk t =>
      refine noMinusParen_append ?_ ih ?_
      · intro pre post ht
        exact hp.2 (by have : t = _ := ht; rw [this]; simp)
      · intro hl
        exact hp.2 (List.mem_of_getLast? hl)
    | grp g =>
      refine noMinusParen_append ?_ ih ?_
      · intro pre post ht
        simp only [Piece.text] at ht
        cases pre with
        | nil => simp at ht
        | cons c pre =>
          rw [List.cons_append, List.cons_append] at ht
          injection ht with _ ht
          have : '(' ∈ g ++ [')'] := by rw [ht]; simp
          simp at this
          exact hp.1.2.1 this
      · have : (Piece.text (.grp g)).getLast? = some ')' := by
          have e : Piece.text (.grp g) = ('(' :: g) ++ [')'] := rfl
          rw [e, List.getLast?_append]; simp
        rw [this]; simp

/-! ### Reading the relabelled text -/

/-- the name that stands for a part after the groups have been pulled out -/
def partLabel (ds : List (List Char)) : Part → List Char
  | .element n => n
  | .group g => groupLabel (ds.idxOf g)

theorem label_symbolName (i : Nat) : SymbolName (groupLabel i) := by
  refine ⟨'J', "alloyed".toList ++ List.replicate i 'x', rfl, by decide, ?_⟩
  intro x hx
  rcases List.mem_append.mp hx with hx | hx
  · have : ∀ x ∈ "alloyed".toList, isLower x = true := by decide
    exact this x hx
  · rw [List.mem_replicate] at hx; rw [hx.2]; decide

theorem partLabel_symbolName (ds : List (List Char)) {p : Part} (h : p.Ok) : SymbolName (partLabel ds p) := by
  cases p with
  | element n => exact h.1
  | group g => exact label_symbolName _

/-- a name with its amount, followed by a symbol or nothing, possibly after a gap -/
theorem symbols_term (n fill num sep : List Char) (x : K) (hn : SymbolName n) (hgap : ∀ c ∈ fill ++ sep, gapChar c = true)
    (hx : (num = [] ∧ fill = [] ∧ x = 1) ∨ PlainDecimal num x) (T : List Char) (hT : Clean T) :
    symbols (n ++ fill ++ num ++ sep ++ T) = (n, num) :: symbols T ∧ Clean (n ++ fill ++ num ++ sep ++ T) := by
  have gap : ∀ c, gapChar c = true → isFill c = true ∧ isDigit c = false ∧ isLower c = false ∧ isUpper c = false ∧ c ≠ '.' := by
    intro c hc
    simp only [gapChar, Bool.or_eq_true, beq_iff_eq] at hc
    rcases hc with (rfl | rfl) | rfl <;> decide
  obtain ⟨c, r, rfl, hc, hr⟩ := hn
  have hsep : ∀ x ∈ sep, gapChar x = true := fun x hx => hgap x (by simp [hx])
  have hfill : ∀ x ∈ fill, gapChar x = true := fun x hx => hgap x (by simp [hx])
  have hhead : ∀ y, (sep ++ T).head? = some y → gapChar y = true ∨ isUpper y = true := by
    intro y hy
    cases sep with
    | nil => exact Or.inr (hT y (by simpa using hy))
    | cons z sep => simp at hy; subst hy; exact Or.inl (hsep _ (by simp))
  have sd : Stop isDigit (sep ++ T) := fun y hy => by
    rcases hhead y hy with h | h
    · exact (gap y h).2.1
    · exact upper_not_digit h
  have sl : Stop isLower (sep ++ T) := fun y hy => by
    rcases hhead y hy with h | h
    · exact (gap y h).2.2.1
    · exact upper_not_lower h
  have sdot : (sep ++ T).head? ≠ some '.' := fun hy => by
    rcases hhead _ hy with h | h
    · exact (gap _ h).2.2.2.2 rfl
    · exact absurd h (by decide)
  have hdrop : (sep ++ T).dropWhile isFill = T := (takeWhile_stop isFill sep T (fun x hx => (gap x (hsep x hx)).1) hT.stop_fill).2
  refine ⟨?_, ?_⟩
  · rcases hx with ⟨rfl, rfl, rfl⟩ | hx
    · have hsym := symbolAt_plain c r (sep ++ T) hc hr sl (by rw [hdrop]; exact hT.stop_digit) (by rw [hdrop]; exact hT.not_dot)
      have := symbols_cons_some c (r ++ sep) T (c :: r, []) (by simpa using hsym) (by
        intro y hy
        rcases List.mem_append.mp hy with hy | hy
        · exact lower_not_upper (hr y hy)
        · exact (gap y (hsep y hy)).2.2.2.1)
      simpa using this
    · obtain ⟨p1, p2, p3⟩ := plain_shape hx
      have hsym := symbolAt_number c r fill num (sep ++ T) hc hr (fun y hy => (gap y (hfill y hy)).1) p1 p2 p3 sd sdot
      have := symbols_cons_some c (r ++ fill ++ num ++ sep) T (c :: r, num) (by simpa using hsym) (by
        intro y hy
        simp only [List.mem_append] at hy
        rcases hy with ((hy | hy) | hy) | hy
        · exact lower_not_upper (hr y hy)
        · exact (gap y (hfill y hy)).2.2.2.1
        · exact shape_not_upper p1 y hy
        · exact (gap y (hsep y hy)).2.2.2.1)
      simpa using this
  · intro y hy
    simp at hy; subst hy; exact hc

theorem symbols_terms (ts : List (Term K)) (ds : List (List Char)) (hts : ∀ t ∈ ts, t.Ok) :
    symbols ((ts.map (fun t => partLabel ds t.part ++ t.fill ++ t.num ++ t.sep)).flatten) =
      ts.map (fun t => (partLabel ds t.part, t.num)) ∧
    Clean ((ts.map (fun t => partLabel ds t.part ++ t.fill ++ t.num ++ t.sep)).flatten) := by
  induction ts with
  | nil => exact ⟨rfl, by intro c hc; simp at hc⟩
  | cons t ts ih =>
    obtain ⟨h1, h2⟩ := ih (fun t ht => hts t (by simp [ht]))
    have ht := hts t (by simp)
    obtain ⟨j1, j2⟩ := symbols_term (partLabel ds t.part) t.fill t.num t.sep t.amount (partLabel_symbolName ds ht.1) ht.2.1
      ht.2.2 _ h2
    simp only [List.map_cons, List.flatten_cons]
    exact ⟨by rw [j1, h1], j2⟩

theorem amount_term {fill num : List Char} {x : K} (hx : (num = [] ∧ fill = [] ∧ x = 1) ∨ PlainDecimal num x) : amount num = .ok x := by
  rcases hx with ⟨rfl, _, rfl⟩ | h
  · exact amount_nil
  · exact amount_plain _ _ h

theorem fromStringGo_keep (known : List Char → Bool) (l : List (List Char × List Char × K)) (h : ∀ e ∈ l, amount e.2.1 = .ok e.2.2) :
    ∀ d : PyDict (List Char) K, fromStringGo known false false d (l.map (fun e => (e.1, e.2.1))) =
      .ok (PyDict.update d (l.map (fun e => (e.1, e.2.2)))) := by
  induction l with
  | nil => intro d; rfl
  | cons e l ih =>
    intro d
    rw [List.map_cons, fromStringGo]
    simp only [Bool.and_false, Bool.false_eq_true, if_false, h e (by simp)]
    exact ih (fun e he => h e (by simp [he])) _

end Terms

/-! ### Renaming the keys of a dictionary -/

theorem set_map_key {κ κ' ν : Type} [DecidableEq κ] [DecidableEq κ'] (f : κ → κ') (d : PyDict κ ν) (k : κ) (v : ν)
    (hf : ∀ k' ∈ keys d, f k' = f k → k' = k) :
    PyDict.set (d.map (fun e => (f e.1, e.2))) (f k) v = (PyDict.set d k v).map (fun e => (f e.1, e.2)) := by
  induction d with
  | nil => rfl
  | cons e d ih =>
    obtain ⟨a, b⟩ := e
    simp only [List.map_cons, PyDict.set]
    by_cases h : a = k
    · subst h; simp
    · have h' : f a ≠ f k := fun h'' => h (hf a (by simp) h'')
      rw [if_neg h', if_neg h, ih (fun k' hk' => hf k' (by simp [hk']))]; rfl

theorem update_map_key {κ κ' ν : Type} [DecidableEq κ] [DecidableEq κ'] (f : κ → κ') (ps : List (κ × ν)) :
    ∀ d : PyDict κ ν, (∀ a b, (a ∈ keys d ∨ a ∈ ps.map Prod.fst) → (b ∈ keys d ∨ b ∈ ps.map Prod.fst) → f a = f b → a = b) →
    PyDict.update (d.map (fun e => (f e.1, e.2))) (ps.map (fun e => (f e.1, e.2))) =
      (PyDict.update d ps).map (fun e => (f e.1, e.2)) := by
  induction ps with
  | nil => intros; rfl
  | cons p ps ih =>
    intro d hf
    rw [List.map_cons, update_cons, update_cons, set_map_key f d p.1 p.2, ih]
    · intro a b ha hb
      refine hf a b ?_ ?_
      · rcases ha with ha | ha
        · rw [mem_keys_set] at ha
          rcases ha with rfl | ha
          · right; simp
          · exact Or.inl ha
        · right; simp at ha ⊢; exact Or.inr ha
      · rcases hb with hb | hb
        · rw [mem_keys_set] at hb
          rcases hb with rfl | hb
          · right; simp
          · exact Or.inl hb
        · right; simp at hb ⊢; exact Or.inr hb
    · intro k' hk' e
      exact hf k' p.1 (Or.inl hk') (Or.inr (by simp)) e

theorem ofPairs_map_key {κ κ' ν : Type} [DecidableEq κ] [DecidableEq κ'] (f : κ → κ') (ps : List (κ × ν))
    (hf : ∀ a ∈ ps.map Prod.fst, ∀ b ∈ ps.map Prod.fst, f a = f b → a = b) :
    ofPairs (ps.map (fun e => (f e.1, e.2))) = (ofPairs ps).map (fun e => (f e.1, e.2)) := by
  have := update_map_key f ps [] (by
    intro a b ha hb
    simp only [keys_nil, List.not_mem_nil, false_or] at ha hb
    exact hf a ha b hb)
  exact this

/-! ### The text split into labels and groups -/

section Split
variable {K : Type} [Field K]

/-- the different groups of a formula, in order of first appearance -/
def groupList (ts : List (Term K)) : List (List Char) := (groupsOf (piecesOf ts)).eraseDups

theorem mem_groupList {ts : List (Term K)} {g : List Char} : g ∈ groupList ts ↔ ∃ t ∈ ts, t.part = .group g := by
  unfold groupList
  rw [List.mem_eraseDups]
  induction ts with
  | nil => simp [piecesOf, groupsOf]
  | cons t ts ih =>
    have e : piecesOf (t :: ts) = termPieces t ++ piecesOf ts := rfl
    have e2 : groupsOf (piecesOf (t :: ts)) = groupsOf (termPieces t) ++ groupsOf (piecesOf ts) := by
      rw [e]; simp [groupsOf]
    rw [e2, List.mem_append, ih]
    have e3 : g ∈ groupsOf (termPieces t) ↔ t.part = .group g := by
      obtain ⟨part, fill, num, amount, sep⟩ := t
      cases part with
      | element n => simp [termPieces, groupsOf, Piece.group?]
      | group g' => simp [termPieces, groupsOf, Piece.group?, eq_comm]
    rw [e3]
    simp

theorem splitGroups_terms {ts : List (Term K)} (hts : ∀ t ∈ ts, t.Ok) :
    splitGroups (formulaText ts) =
      ((ts.map (fun t => partLabel (groupList ts) t.part ++ t.fill ++ t.num ++ t.sep)).flatten, groupList ts) := by
  obtain ⟨h1, h2⟩ := piecesOf_ok hts
  have hid : originSub (formulaText ts) = formulaText ts := by
    rw [← h2]; exact originSub_id (noMinusParen_pieces h1)
  unfold splitGroups
  rw [hid, ← h2, pullGroups_pieces _ _ _ _ (fun p hp => (h1 p hp).1) (le_of_eq (count_pieces _ (fun p hp => (h1 p hp).1)).symm)]
  refine Prod.ext ?_ (by simp [groupList])
  simp only [Nat.zero_add]
  change piecesText ((piecesOf ts).map (Piece.subst (fun g => .chunk (groupLabel ((groupList ts).idxOf g))))) = _
  generalize groupList ts = ds
  clear h1 h2 hid hts
  induction ts with
  | nil => rfl
  | cons t ts ih =>
    have e : piecesOf (t :: ts) = termPieces t ++ piecesOf ts := rfl
    rw [e, List.map_append, piecesText_append, ih, List.map_cons, List.flatten_cons]
    congr 1
    obtain ⟨part, fill, num, amount, sep⟩ := t
    cases part with
    | element n => simp [termPieces, piecesText, Piece.subst, Piece.text, partLabel]
    | group g => simp [termPieces, piecesText, Piece.subst, Piece.text, partLabel]

theorem label_inj {i j : Nat} (h : groupLabel i = groupLabel j) : i = j := by
  have := congrArg List.length h
  simpa [groupLabel] using this

theorem partLabel_inj (ds : List (List Char)) {p q : Part} (hp : p.Ok) (hq : q.Ok)
    (hp' : ∀ g, p = .group g → g ∈ ds) (hq' : ∀ g, q = .group g → g ∈ ds) (h : partLabel ds p = partLabel ds q) : p = q := by
  have pre : ∀ i, "Jalloyed".toList <+: groupLabel i := fun i => ⟨_, rfl⟩
  cases p with
  | element n =>
    cases q with
    | element m => simp only [partLabel] at h; rw [h]
    | group g => simp only [partLabel] at h; exact absurd (h ▸ pre _) hp.2
  | group g =>
    cases q with
    | element m => simp only [partLabel] at h; exact absurd (h ▸ pre _) hq.2
    | group g' =>
      simp only [partLabel] at h
      have := label_inj h
      rw [List.idxOf_inj (hp' g rfl)] at this
      rw [this]

theorem siteKey_part (ds : List (List Char)) {p : Part} (hp : p.Ok) (hp' : ∀ g, p = .group g → g ∈ ds) :
    siteKey ds (partLabel ds p) = .ok p.formula := by
  cases p with
  | element n =>
    have hf : alloySite.isPrefixOf n = false := by
      cases h : alloySite.isPrefixOf n with
      | false => rfl
      | true => exact absurd (List.isPrefixOf_iff_prefix.mp h) hp.2
    simp [siteKey, partLabel, hf, Part.formula]
  | group g =>
    have ht : alloySite.isPrefixOf (groupLabel (ds.idxOf g)) = true := List.isPrefixOf_iff_prefix.mpr ⟨_, rfl⟩
    have hx : ((groupLabel (ds.idxOf g)).drop alloySite.length).takeWhile (· == 'x') = List.replicate (ds.idxOf g) 'x' := by
      unfold groupLabel; rw [List.drop_left]
      have := List.takeWhile_append_of_pos (p := (· == 'x')) (l₁ := List.replicate (ds.idxOf g) 'x') (l₂ := []) (by
        intro c hc; rw [List.mem_replicate] at hc; simp [hc.2])
      simpa using this
    simp only [siteKey, partLabel, ht, if_true, hx, List.length_replicate]
    have hlt := List.idxOf_lt_length_of_mem (hp' g rfl)
    rw [List.getElem?_eq_getElem hlt]
    simp [Part.formula]

theorem mem_sitesOf {ts : List (Term K)} {p : Part} : p ∈ keys (sitesOf ts) ↔ ∃ t ∈ ts, t.part = p := by
  unfold sitesOf ofPairs
  rw [mem_keys_update]
  simp [keys]

theorem pseudo_terms (known : List Char → Bool) {ts : List (Term K)} (hts : ∀ t ∈ ts, t.Ok) :
    fromString known false false (splitGroups (formulaText ts)).1 =
      .ok ((sitesOf ts).map (fun s => (partLabel (groupList ts) s.1, s.2))) := by
  rw [splitGroups_terms hts]
  unfold fromString
  rw [formulaMatches_eq, (symbols_terms ts (groupList ts) hts).1]
  have := fromStringGo_keep known (ts.map (fun t => (partLabel (groupList ts) t.part, t.num, t.amount)))
    (by
      intro e he
      obtain ⟨t, ht, rfl⟩ := List.mem_map.mp he
      exact amount_term (hts t ht).2.2) []
  simp only [List.map_map, Function.comp_def] at this
  rw [this]
  have hmap := ofPairs_map_key (partLabel (groupList ts)) (ts.map (fun t => (t.part, t.amount))) (by
    intro a ha b hb hab
    simp only [List.map_map, List.mem_map, Function.comp_def] at ha hb
    obtain ⟨t, ht, rfl⟩ := ha
    obtain ⟨u, hu, rfl⟩ := hb
    exact partLabel_inj _ (hts t ht).1 (hts u hu).1 (fun g hg => mem_groupList.mpr ⟨t, ht, hg⟩)
      (fun g hg => mem_groupList.mpr ⟨u, hu, hg⟩) hab)
  simp only [List.map_map, Function.comp_def] at hmap
  unfold sitesOf
  rw [← hmap]
  rfl

end Split

/-! ### Reading the sites -/

section Sites
variable {K : Type} [Field K] [LinearOrder K] [IsStrictOrderedRing K] [FloorRing K]

theorem determined_iff (c : PyDict (List Char) K) :
    (1 < c.length ∧ ∀ e ∈ c, |e.2 - 1| < 1 / 100000000) ↔ ¬ Determined c := by
  unfold Determined
  push Not
  exact Iff.rfl

theorem readSites_ok (known : List Char → Bool) (skip raise : Bool) (ds : List (List Char)) (comps : Part → PyDict (List Char) K)
    (ps : List (Part × K)) (hps : ∀ s ∈ ps, s.1.Ok ∧ (∀ g, s.1 = .group g → g ∈ ds) ∧
      fromString known skip raise s.1.formula = .ok (comps s.1) ∧ Determined (comps s.1)) :
    readSites known skip raise ds (ps.map (fun s => (partLabel ds s.1, s.2))) =
      .ok (ps.map (fun s => (comps s.1, s.2 * natom (comps s.1)))) := by
  induction ps with
  | nil => rfl
  | cons s ps ih =>
    obtain ⟨h1, h2, h3, h4⟩ := hps s (by simp)
    rw [List.map_cons, readSites, siteKey_part ds h1 h2]
    simp only [h3, ih (fun s hs => hps s (by simp [hs]))]
    rw [if_neg (fun h => (determined_iff _).mp h h4)]
    rfl

theorem readSites_error (known : List Char → Bool) (skip raise : Bool) (ds : List (List Char))
    (ps : List (Part × K)) (hps : ∀ s ∈ ps, s.1.Ok ∧ (∀ g, s.1 = .group g → g ∈ ds))
    (hbad : ∃ s ∈ ps, (∃ e, fromString (K := K) known skip raise s.1.formula = .error e) ∨
      ∃ c, fromString (K := K) known skip raise s.1.formula = .ok c ∧ ¬ Determined c) :
    readSites known skip raise ds (ps.map (fun s => (partLabel ds s.1, s.2))) = .error .valueError := by
  have herr : ∀ f e, fromString (K := K) known skip raise f = .error e → e = .valueError :=
    fun f e h => ((C14_errors known skip raise f e).mp h).1
  induction ps with
  | nil => obtain ⟨s, hs, _⟩ := hbad; simp at hs
  | cons s ps ih =>
    obtain ⟨h1, h2⟩ := hps s (by simp)
    rw [List.map_cons, readSites, siteKey_part ds h1 h2]
    simp only
    cases hf : fromString (K := K) known skip raise s.1.formula with
    | error e => simp [herr _ _ hf]
    | ok c =>
      simp only
      by_cases hd : Determined c
      · rw [if_neg (fun h => (determined_iff _).mp h hd)]
        rw [ih (fun s hs => hps s (by simp [hs]))]
        obtain ⟨u, hu, hu'⟩ := hbad
        rcases List.mem_cons.mp hu with rfl | hu
        · rcases hu' with ⟨e, he⟩ | ⟨c', hc', hd'⟩
          · rw [hf] at he; cases he
          · rw [hf] at hc'; cases hc'; exact absurd hd hd'
        · exact ⟨u, hu, hu'⟩
      · rw [if_pos ((determined_iff _).mpr hd)]

/-- storing the sites under their names -/
theorem fromCompounds_names (l : List (PyDict (List Char) K × K)) (hl : ∀ s ∈ l, natom s.1 ≠ 0) (names : List (List Char))
    (hnd : names.Nodup) :
    fromCompounds (l.map (fun s => some s.1)) (some names) (some (l.map (fun s => some (s.2 * natom s.1)))) =
      .ok (names.zip (l.map (fun s => s.1.map (fun e => (e.1, e.2 * s.2))))) := by
  have hgo : ∀ (l : List (PyDict (List Char) K × K)) (names : List (List Char)) (alloy : PyDict (List Char) (PyDict (List Char) K)),
      (∀ s ∈ l, natom s.1 ≠ 0) →
      fromCompoundsGo alloy ((l.map (fun s => some s.1)).zip (names.zip (l.map (fun s => some (s.2 * natom s.1))))) =
        .ok (PyDict.update alloy (names.zip (l.map (fun s => s.1.map (fun e => (e.1, e.2 * s.2)))))) := by
    intro l
    induction l with
    | nil => intro names alloy _; cases names <;> rfl
    | cons s l ih =>
      intro names alloy hl
      cases names with
      | nil => rfl
      | cons n names =>
        simp only [List.map_cons, List.zip_cons_cons]
        have hs := hl s (by simp)
        rw [fromCompoundsGo, if_neg hs, ih names _ (fun s hs => hl s (by simp [hs])), update_cons]
        simp only [mul_div_assoc, div_self hs, mul_one]
  simp only [fromCompounds, Option.getD_some]
  rw [hgo l names [] hl]
  refine congrArg _ (ofPairs_of_WF ?_)
  unfold WF keys
  have hsub : ∀ (a : List (List Char)) (b : List (PyDict (List Char) K)), ((a.zip b).map Prod.fst).Sublist a := by
    intro a
    induction a with
    | nil => intro b; simp
    | cons x a ih =>
      intro b
      cases b with
      | nil => simp
      | cons y b => simpa using ih b
  exact hnd.sublist (hsub _ _)

/-- one empty compound -/
theorem fromCompounds_zero (l : List (PyDict (List Char) K × K)) (hl : ∃ s ∈ l, natom s.1 = 0) (names : List (List Char))
    (hlen : l.length ≤ names.length) :
    fromCompounds (l.map (fun s => some s.1)) (some names) (some (l.map (fun s => some (s.2 * natom s.1)))) =
      .error .zeroDivisionError := by
  have hgo : ∀ (l : List (PyDict (List Char) K × K)) (names : List (List Char)) (alloy : PyDict (List Char) (PyDict (List Char) K)),
      (∃ s ∈ l, natom s.1 = 0) → l.length ≤ names.length →
      fromCompoundsGo alloy ((l.map (fun s => some s.1)).zip (names.zip (l.map (fun s => some (s.2 * natom s.1))))) =
        .error .zeroDivisionError := by
    intro l
    induction l with
    | nil => intro names alloy h; obtain ⟨s, hs, _⟩ := h; simp at hs
    | cons s l ih =>
      intro names alloy h hlen
      cases names with
      | nil => simp at hlen
      | cons n names =>
        simp only [List.map_cons, List.zip_cons_cons]
        rw [fromCompoundsGo]
        by_cases hs : natom s.1 = 0
        · rw [if_pos hs]
        · rw [if_neg hs]
          refine ih names _ ?_ (by simpa using hlen)
          obtain ⟨u, hu, hu'⟩ := h
          rcases List.mem_cons.mp hu with rfl | hu
          · exact absurd hu' hs
          · exact ⟨u, hu, hu'⟩
  simp only [fromCompounds, Option.getD_some]
  exact hgo l names [] hl hlen

theorem letters_nodup (n : Nat) (h : n ≤ 26) :
    (("ABCDEFGHIJKLMNOPQRSTUVWXYZ".toList.take n).map (fun c => [c])).Nodup ∧
    (("ABCDEFGHIJKLMNOPQRSTUVWXYZ".toList.take n).map (fun c => [c])).length = n := by
  have : ∀ n < 27, (("ABCDEFGHIJKLMNOPQRSTUVWXYZ".toList.take n).map (fun c => [c])).Nodup ∧
    (("ABCDEFGHIJKLMNOPQRSTUVWXYZ".toList.take n).map (fun c => [c])).length = n := by decide +kernel
  exact this n (by omega)

/-! ### C116 -/

/-- **C116 (termination).** Whatever the formula, the loop that pulls out the groups ends because no `(…)` is left, after at
most as many rounds as the formula has opening parentheses. -/
theorem C116_loop (formula : List Char) :
    searchGroup (splitGroups formula).1 = none ∧ (splitGroups formula).2.length ≤ (originSub formula).count '(' := by
  obtain ⟨h1, gs, h2, h3⟩ := pullGroups_ends _ 0 (originSub formula) [] le_rfl
  exact ⟨h1, by unfold splitGroups; rw [h2]; simpa using h3⟩

/-- **C116 (reading).** A flat formula — element symbols and compositions in parentheses, each with an optional amount — is
read as one site per different part, in order of first appearance; each site holds the composition that
`Compound.from_string` gives for the part, multiplied by the last amount written for it.  The sites get the given names (as
many as there are names). -/
theorem C116_reads (known : List Char → Bool) (skip raise : Bool) (ts : List (Term K)) (hts : ∀ t ∈ ts, t.Ok)
    (comps : Part → PyDict (List Char) K)
    (hread : ∀ t ∈ ts, fromString known skip raise t.part.formula = .ok (comps t.part) ∧
      Determined (comps t.part) ∧ natom (comps t.part) ≠ 0)
    (names : List (List Char)) (hnd : names.Nodup) :
    alloyFromString known (some names) skip raise (formulaText ts) =
      .ok (names.zip ((sitesOf ts).map (fun s => (comps s.1).map (fun e => (e.1, e.2 * s.2))))) := by
  have hmem : ∀ s ∈ sitesOf ts, ∃ t ∈ ts, t.part = s.1 := fun s hs => mem_sitesOf.mp (List.mem_map.mpr ⟨s, hs, rfl⟩)
  unfold alloyFromString
  rw [pseudo_terms known hts]
  simp only
  rw [splitGroups_terms hts]
  simp only
  rw [readSites_ok known skip raise (groupList ts) comps]
  · simp only [List.map_map, Function.comp_def]
    have := fromCompounds_names ((sitesOf ts).map (fun s => (comps s.1, s.2))) (by
      intro c hc
      obtain ⟨s, hs, rfl⟩ := List.mem_map.mp hc
      obtain ⟨t, ht, e⟩ := hmem s hs
      simp only [← e]; exact (hread t ht).2.2) names hnd
    simpa only [List.map_map, Function.comp_def] using this
  · intro s hs
    obtain ⟨t, ht, e⟩ := hmem s hs
    rw [← e]
    exact ⟨(hts t ht).1, fun g hg => mem_groupList.mpr ⟨t, ht, hg⟩, (hread t ht).1, (hread t ht).2.1⟩

/-- **C116 (reading, names left out).** Without names up to 26 sites are called A, B, C, …; more are refused. -/
theorem C116_letters (known : List Char → Bool) (skip raise : Bool) (ts : List (Term K)) (hts : ∀ t ∈ ts, t.Ok)
    (comps : Part → PyDict (List Char) K)
    (hread : ∀ t ∈ ts, fromString known skip raise t.part.formula = .ok (comps t.part) ∧
      Determined (comps t.part) ∧ natom (comps t.part) ≠ 0) :
    (26 < (sitesOf ts).length → alloyFromString (K := K) known none skip raise (formulaText ts) = .error .valueError) ∧
    ((sitesOf ts).length ≤ 26 → alloyFromString known none skip raise (formulaText ts) =
      .ok ((("ABCDEFGHIJKLMNOPQRSTUVWXYZ".toList.take (sitesOf ts).length).map (fun c => [c])).zip
        ((sitesOf ts).map (fun s => (comps s.1).map (fun e => (e.1, e.2 * s.2)))))) := by
  have hmem : ∀ s ∈ sitesOf ts, ∃ t ∈ ts, t.part = s.1 := fun s hs => mem_sitesOf.mp (List.mem_map.mpr ⟨s, hs, rfl⟩)
  have hsites := readSites_ok known skip raise (groupList ts) comps (sitesOf ts) (by
    intro s hs
    obtain ⟨t, ht, e⟩ := hmem s hs
    rw [← e]
    exact ⟨(hts t ht).1, fun g hg => mem_groupList.mpr ⟨t, ht, hg⟩, (hread t ht).1, (hread t ht).2.1⟩)
  have hnone : ∀ names, alloyFromString (K := K) known names skip raise (formulaText ts) =
      fromCompounds ((sitesOf ts).map (fun s => some (comps s.1))) names
        (some ((sitesOf ts).map (fun s => some (s.2 * natom (comps s.1))))) := by
    intro names
    unfold alloyFromString
    rw [pseudo_terms known hts]
    simp only
    rw [splitGroups_terms hts]
    simp only [hsites, List.map_map, Function.comp_def]
  have hn := C18_names ((sitesOf ts).map (fun s => some (comps s.1)))
    (some ((sitesOf ts).map (fun s => some (s.2 * natom (comps s.1)))))
  rw [List.length_map] at hn
  constructor
  · intro h; rw [hnone, hn.1 h]
  · intro h
    rw [hnone, hn.2 h, ← hnone (some _)]
    exact C116_reads known skip raise ts hts comps hread _ (letters_nodup _ h).1

/-- **C116 (errors).** A flat formula is refused with `ValueError` as soon as one of its parts cannot be read as a
compound or leaves its stoichiometry open (several elements, all with amount 1); otherwise a part without any atoms is a
`ZeroDivisionError` (when every site has a name). -/
theorem C116_errors (known : List Char → Bool) (skip raise : Bool) (ts : List (Term K)) (hts : ∀ t ∈ ts, t.Ok)
    (names : Option (List (List Char))) :
    ((∃ t ∈ ts, (∃ e, fromString (K := K) known skip raise t.part.formula = .error e) ∨
        ∃ c, fromString (K := K) known skip raise t.part.formula = .ok c ∧ ¬ Determined c) →
      alloyFromString (K := K) known names skip raise (formulaText ts) = .error .valueError) ∧
    (∀ comps : Part → PyDict (List Char) K,
      (∀ t ∈ ts, fromString known skip raise t.part.formula = .ok (comps t.part) ∧ Determined (comps t.part)) →
      (∃ t ∈ ts, natom (comps t.part) = 0) →
      (match names with | none => (sitesOf ts).length ≤ 26 | some ns => (sitesOf ts).length ≤ ns.length) →
      alloyFromString (K := K) known names skip raise (formulaText ts) = .error .zeroDivisionError) := by
  have hmem : ∀ s ∈ sitesOf ts, ∃ t ∈ ts, t.part = s.1 := fun s hs => mem_sitesOf.mp (List.mem_map.mpr ⟨s, hs, rfl⟩)
  have hmem' : ∀ t ∈ ts, ∃ s ∈ sitesOf ts, s.1 = t.part := by
    intro t ht
    have : t.part ∈ keys (sitesOf ts) := mem_sitesOf.mpr ⟨t, ht, rfl⟩
    obtain ⟨s, hs, e⟩ := List.mem_map.mp this
    exact ⟨s, hs, e⟩
  constructor
  · rintro ⟨t, ht, hbad⟩
    unfold alloyFromString
    rw [pseudo_terms known hts]
    simp only
    rw [splitGroups_terms hts]
    simp only
    rw [readSites_error]
    · intro s hs
      obtain ⟨t, ht, e⟩ := hmem s hs
      rw [← e]
      exact ⟨(hts t ht).1, fun g hg => mem_groupList.mpr ⟨t, ht, hg⟩⟩
    · obtain ⟨s, hs, e⟩ := hmem' t ht
      exact ⟨s, hs, by rw [e]; exact hbad⟩
  · intro comps hread ⟨t, ht, hz⟩ hlen
    have hsites := readSites_ok known skip raise (groupList ts) comps (sitesOf ts) (by
      intro s hs
      obtain ⟨t, ht, e⟩ := hmem s hs
      rw [← e]
      exact ⟨(hts t ht).1, fun g hg => mem_groupList.mpr ⟨t, ht, hg⟩, hread t ht⟩)
    have hnone : ∀ names, alloyFromString (K := K) known names skip raise (formulaText ts) =
        fromCompounds ((sitesOf ts).map (fun s => some (comps s.1))) names
          (some ((sitesOf ts).map (fun s => some (s.2 * natom (comps s.1))))) := by
      intro names
      unfold alloyFromString
      rw [pseudo_terms known hts]
      simp only
      rw [splitGroups_terms hts]
      simp only [hsites, List.map_map, Function.comp_def]
    have hzero : ∀ ns : List (List Char), (sitesOf ts).length ≤ ns.length →
        alloyFromString (K := K) known (some ns) skip raise (formulaText ts) = .error .zeroDivisionError := by
      intro ns hns
      rw [hnone]
      have := fromCompounds_zero ((sitesOf ts).map (fun s => (comps s.1, s.2))) (by
        obtain ⟨s, hs, e⟩ := hmem' t ht
        exact ⟨_, List.mem_map.mpr ⟨s, hs, rfl⟩, by simp only [e]; exact hz⟩) ns (by simpa using hns)
      simpa only [List.map_map, Function.comp_def] using this
    cases names with
    | some ns => exact hzero ns hlen
    | none =>
      have hn := C18_names ((sitesOf ts).map (fun s => some (comps s.1)))
        (some ((sitesOf ts).map (fun s => some (s.2 * natom (comps s.1)))))
      rw [List.length_map] at hn
      rw [hnone, hn.2 hlen, ← hnone (some _)]
      exact hzero _ (le_of_eq (letters_nodup _ hlen).2.symm)

/-! ### Writing and reading back -/

/-- the amounts of a compound divided by its number of atoms -/
def fractions (c : PyDict (List Char) K) : PyDict (List Char) K := c.map (fun e => (e.1, e.2 / natom c))

theorem natom_near (c : PyDict (List Char) K) : |natom c - total c| < 1 / 100000000 := by
  unfold natom
  simp only
  split
  · rename_i h; rw [abs_sub_comm]; exact h
  · simp

theorem total_fractions (c : PyDict (List Char) K) : total (fractions c) = total c / natom c := by
  unfold fractions total
  rw [List.map_map]
  simp only [Function.comp_def, div_eq_mul_inv]
  rw [List.sum_map_mul_right]

theorem total_fractions_near (c : PyDict (List Char) K) (h : natom c ≠ 0) : |total (fractions c) - 1| < 1 / 100000000 := by
  rw [total_fractions]
  have hnat : natom c = total c ∨ ∃ r : ℤ, natom c = (r : K) := by
    unfold natom; simp only; split
    · exact Or.inr ⟨_, rfl⟩
    · exact Or.inl rfl
  rcases hnat with hn | ⟨r, hr⟩
  · rw [hn] at h ⊢; rw [div_self h]; simp
  · have hr0 : r ≠ 0 := by rintro rfl; exact h (by simpa using hr)
    have h1 : (1 : K) ≤ |natom c| := by
      rw [hr, ← Int.cast_abs]; exact_mod_cast Int.one_le_abs hr0
    have e : total c / natom c - 1 = (total c - natom c) / natom c := by rw [sub_div, div_self h]
    rw [e, abs_div]
    have := natom_near c
    rw [abs_sub_comm] at this
    exact lt_of_le_of_lt (div_le_self (abs_nonneg _) h1) this

theorem fractions_natom (c : PyDict (List Char) K) (h : natom c ≠ 0) : natom (fractions c) ≠ 0 := by
  intro h0
  have h1 := natom_near (fractions c)
  have h2 := total_fractions_near c h
  rw [h0, zero_sub, abs_neg] at h1
  rw [abs_lt] at h1 h2
  have : (1 : K) / 100000000 < 1 / 2 := by norm_num
  linarith [h1.2, h2.1]

theorem fractions_determined (c : PyDict (List Char) K) (h : natom c ≠ 0) : Determined (fractions c) := by
  by_contra hd
  rw [← determined_iff] at hd
  obtain ⟨h1, h2⟩ := hd
  have hsum : ∀ l : PyDict (List Char) K, (∀ e ∈ l, |e.2 - 1| < 1 / 100000000) → (l.length : K) * (9 / 10) ≤ total l := by
    intro l
    induction l with
    | nil => intro _; simp [total]
    | cons e l ih =>
      intro hl
      have := ih (fun e he => hl e (by simp [he]))
      have he := (abs_lt.mp (hl e (by simp))).1
      have hh : (1 : K) / 100000000 < 1 / 10 := by norm_num
      have et : total (e :: l) = e.2 + total l := by simp [total]
      rw [et, List.length_cons]; push_cast
      linarith
  have h3 := hsum _ h2
  have h4 := (abs_lt.mp (total_fractions_near c h)).2
  have h5 : (2 : K) ≤ ((fractions c).length : K) := by exact_mod_cast h1
  have hh : (1 : K) / 100000000 < 1 / 10 := by norm_num
  linarith

theorem fractions_length (c : PyDict (List Char) K) : (fractions c).length = c.length := by simp [fractions]

theorem fractions_keys (c : PyDict (List Char) K) : keys (fractions c) = keys c := by
  unfold fractions keys; rw [List.map_map]; rfl

theorem fractions_scale (c : PyDict (List Char) K) (h : natom c ≠ 0) :
    (fractions c).map (fun e => (e.1, e.2 * natom c)) = c := by
  unfold fractions
  rw [List.map_map]
  conv_rhs => rw [← List.map_id c]
  apply List.map_congr_left
  intro e _
  simp [div_mul_cancel₀ _ h]

/-- the part written for a site -/
def partOf (fmt : K → List Char) (style : Style) (omitOne : Bool) (c : PyDict (List Char) K) : Part :=
  if c.length ≠ 1 then .group (toText fmt style omitOne c) else .element (toText fmt style omitOne c)

theorem partOf_text (fmt : K → List Char) (style : Style) (omitOne : Bool) (c : PyDict (List Char) K) :
    (partOf fmt style omitOne c).text = siteText fmt style omitOne c ∧
    (partOf fmt style omitOne c).formula = toText fmt style omitOne c := by
  unfold partOf siteText
  split <;> exact ⟨rfl, rfl⟩

/-- the terms written for the sites, given as compositions with amounts -/
def termsOf (fmt : K → List Char) (style : Style) (omitOne : Bool) : List (PyDict (List Char) K × K) → List (Term K)
  | [] => []
  | s :: r => ⟨partOf fmt style omitOne s.1, [], shownNum fmt omitOne s.2, s.2, if style = .split ∧ r ≠ [] then [' '] else []⟩ ::
      termsOf fmt style omitOne r

theorem elementText_plain (fmt : K → List Char) (omitOne : Bool) (e : List Char × K) :
    elementText fmt false omitOne e = e.1 ++ shownNum fmt omitOne e.2 := by
  unfold elementText shownNum
  by_cases h : (omitOne && fmt e.2 == ['1']) = true <;> simp [h]

theorem termsOf_text (fmt : K → List Char) (style : Style) (hs : style ≠ .origin) (omitOne : Bool)
    (l : List (PyDict (List Char) K × K)) :
    formulaText (termsOf fmt style omitOne l) =
      toText fmt style omitOne (l.map (fun s => (siteText fmt style omitOne s.1, s.2))) := by
  induction l with
  | nil => cases style <;> simp [termsOf, formulaText, toText, joinBlank]
  | cons s r ih =>
    have e : formulaText (termsOf fmt style omitOne (s :: r)) =
        siteText fmt style omitOne s.1 ++ shownNum fmt omitOne s.2 ++
          (if style = .split ∧ r ≠ [] then [' '] else []) ++ formulaText (termsOf fmt style omitOne r) := by
      simp only [termsOf, formulaText, List.map_cons, List.flatten_cons, Term.text, (partOf_text fmt style omitOne s.1).1,
        List.append_nil]
    rw [e, ih]
    cases style with
    | origin => exact absurd rfl hs
    | join =>
      simp only [toText, List.map_cons, List.flatten_cons, elementText_plain]
      simp
    | split =>
      cases r with
      | nil => simp [toText, joinBlank, elementText_plain]
      | cons u r =>
        simp only [toText, List.map_cons, joinBlank, elementText_plain]
        simp

theorem joinBlank_mem {l : List (List Char)} {c : Char} (h : c ∈ joinBlank l) : c = ' ' ∨ ∃ a ∈ l, c ∈ a := by
  induction l with
  | nil => simp [joinBlank] at h
  | cons a l ih =>
    cases l with
    | nil => simp [joinBlank] at h; exact Or.inr ⟨a, by simp, h⟩
    | cons b l =>
      rw [joinBlank, List.mem_append, List.mem_append] at h
      rcases h with (h | h) | h
      · exact Or.inr ⟨a, by simp, h⟩
      · simp at h; exact Or.inl h
      · rcases ih h with h | ⟨x, hx, hc⟩
        · exact Or.inl h
        · exact Or.inr ⟨x, by simp at hx ⊢; tauto, hc⟩

theorem toText_safe (fmt : K → List Char) (style : Style) (hs : style ≠ .origin) (omitOne : Bool) (c : PyDict (List Char) K)
    (hn : ∀ e ∈ c, SymbolName e.1) (hx : ∀ e ∈ c, PlainDecimal (fmt e.2) e.2) :
    (∀ x ∈ toText fmt style omitOne c, safeChar x = true) ∧ (c ≠ [] → toText fmt style omitOne c ≠ []) := by
  have hel : ∀ e ∈ c, ∀ x ∈ elementText fmt false omitOne e, safeChar x = true := by
    intro e he x hx'
    rw [elementText_plain, List.mem_append] at hx'
    rcases hx' with h | h
    · exact symbolName_safe (hn e he) x h
    · unfold shownNum at h; split at h
      · simp at h
      · exact plain_safe (hx e he) x h
  have hne : ∀ e ∈ c, elementText fmt false omitOne e ≠ [] := by
    intro e he h
    rw [elementText_plain] at h
    obtain ⟨a, r, h', _⟩ := hn e he
    rw [h'] at h; simp at h
  cases style with
  | origin => exact absurd rfl hs
  | join =>
    constructor
    · intro x hx'
      simp only [toText, List.mem_flatten, List.mem_map] at hx'
      obtain ⟨_, ⟨e, he, rfl⟩, h⟩ := hx'
      exact hel e he x h
    · intro hc h
      obtain ⟨e, c', rfl⟩ := List.exists_cons_of_ne_nil hc
      simp only [toText, List.map_cons, List.flatten_cons, List.append_eq_nil_iff] at h
      exact hne e (by simp) h.1
  | split =>
    constructor
    · intro x hx'
      rcases joinBlank_mem hx' with rfl | ⟨_, h, hxa⟩
      · decide
      · obtain ⟨e, he, rfl⟩ := List.mem_map.mp h
        exact hel e he x hxa
    · intro hc h
      obtain ⟨e, c', rfl⟩ := List.exists_cons_of_ne_nil hc
      cases c' with
      | nil => simp only [toText, List.map_cons, List.map_nil, joinBlank] at h; exact hne e (by simp) h
      | cons f c' =>
        simp only [toText, List.map_cons, joinBlank, List.append_eq_nil_iff] at h
        exact hne e (by simp) h.1.1

/-- an alloy of which every amount is printed exactly: names are element symbols other than the reserved word, the number of
atoms of every site and its fractions are printed as plain decimals, and a site with one element holds exactly its number of
atoms -/
structure Printable (fmt : K → List Char) (omitOne : Bool) (c : PyDict (List Char) K) : Prop where
  wf : WF c
  atoms : natom c ≠ 0
  names : ∀ e ∈ c, SymbolName e.1 ∧ ¬ "Jalloyed".toList <+: e.1
  total : PlainDecimal (fmt (natom c)) (natom c)
  parts : ∀ e ∈ c, PlainDecimal (fmt (e.2 / natom c)) (e.2 / natom c)
  single : ∀ e, c = [e] → omitOne = true ∧ natom c = e.2

theorem fractions_props {fmt : K → List Char} {omitOne : Bool} {c : PyDict (List Char) K} (h : Printable fmt omitOne c) :
    WF (fractions c) ∧ (∀ e ∈ fractions c, SymbolName e.1 ∧ ¬ "Jalloyed".toList <+: e.1) ∧
    ∀ e ∈ fractions c, PlainDecimal (fmt e.2) e.2 := by
  refine ⟨?_, ?_, ?_⟩
  · unfold WF; rw [fractions_keys]; exact h.wf
  · intro e he
    obtain ⟨e', he', rfl⟩ := List.mem_map.mp he
    exact h.names e' he'
  · intro e he
    obtain ⟨e', he', rfl⟩ := List.mem_map.mp he
    exact h.parts e' he'

theorem partOf_ok {fmt : K → List Char} {style : Style} {omitOne : Bool} {c : PyDict (List Char) K} (hs : style ≠ .origin)
    (hone : fmt 1 = ['1']) (h : Printable fmt omitOne c) : (partOf fmt style omitOne (fractions c)).Ok := by
  obtain ⟨f1, f2, f3⟩ := fractions_props h
  have hne : c ≠ [] := by
    rintro rfl
    refine h.atoms ?_
    have : pyRound (0 : K) = 0 := by simp [pyRound]
    simp [natom, total, this]
  unfold partOf
  split
  · obtain ⟨t1, t2⟩ := toText_safe fmt style hs omitOne (fractions c) (fun e he => (f2 e he).1) f3
    refine ⟨t2 (by simpa [fractions] using hne), ?_, ?_, ?_⟩
    · exact fun h' => (safe_not (t1 _ h')).1 rfl
    · exact fun h' => (safe_not (t1 _ h')).2.1 rfl
    · exact fun h' => (safe_not (t1 _ h')).2.2.2 rfl
  · rename_i hl
    simp only [ne_eq, not_not, fractions_length] at hl
    obtain ⟨e, rfl⟩ := List.length_eq_one_iff.mp hl
    obtain ⟨ho, hv⟩ := h.single e rfl
    have he0 : e.2 ≠ 0 := hv ▸ h.atoms
    have hfr : fractions [e] = [(e.1, 1)] := by simp [fractions, hv, div_self he0]
    rw [hfr]
    have ht : toText fmt style omitOne [(e.1, (1 : K))] = e.1 := by
      cases style <;> simp [toText, joinBlank, elementText, ho, hone]
    rw [ht]
    exact h.names e (by simp)

theorem termsOf_mem {fmt : K → List Char} {style : Style} {omitOne : Bool} {l : List (PyDict (List Char) K × K)} {t : Term K}
    (h : t ∈ termsOf fmt style omitOne l) : ∃ s ∈ l, t.part = partOf fmt style omitOne s.1 ∧
      t.fill = [] ∧ t.num = shownNum fmt omitOne s.2 ∧ t.amount = s.2 ∧ ∀ c ∈ t.sep, c = ' ' := by
  induction l with
  | nil => simp [termsOf] at h
  | cons s l ih =>
    rw [termsOf, List.mem_cons] at h
    rcases h with rfl | h
    · exact ⟨s, by simp, rfl, rfl, rfl, rfl, by intro c hc; simp only at hc; split at hc <;> simpa using hc⟩
    · obtain ⟨u, hu, h'⟩ := ih h
      exact ⟨u, by simp [hu], h'⟩

theorem termsOf_pairs (fmt : K → List Char) (style : Style) (omitOne : Bool) (l : List (PyDict (List Char) K × K)) :
    (termsOf fmt style omitOne l).map (fun t => (t.part, t.amount)) = l.map (fun s => (partOf fmt style omitOne s.1, s.2)) := by
  induction l with
  | nil => rfl
  | cons s l ih => rw [termsOf, List.map_cons, ih]; rfl

theorem shownNum_ok {fmt : K → List Char} {omitOne : Bool} {x : K} (hone : fmt 1 = ['1']) (h : PlainDecimal (fmt x) x) :
    (shownNum fmt omitOne x = [] ∧ x = 1) ∨ PlainDecimal (shownNum fmt omitOne x) x := by
  unfold shownNum
  split
  · rename_i h1
    simp only [Bool.and_eq_true, beq_iff_eq] at h1
    left
    refine ⟨rfl, ?_⟩
    have := amount_plain _ _ h
    rw [h1.2, amount_int _ (by decide) (by simp)] at this
    have e : ((digitsVal ['1'] : ℕ) : K) = x := by injection this
    rw [← e]; simp [digitsVal, digitVal]
  · exact Or.inr h

/-- **C116 (round trip).** An alloy whose sites have different compositions is written by `to_string` (styles `join` and
`split`) to a text that `from_string` reads back as the same alloy, site by site, amounts included; without names the sites
come back in order as A, B, C, …  `Printable` asks that the numbers are printed exactly and that a site with one element is
written with ones omitted. -/
theorem C116_round_trip (fmt : K → List Char) (hone : fmt 1 = ['1']) (style : Style) (hs : style ≠ .origin) (omitOne : Bool)
    (alloy : PyDict (List Char) (PyDict (List Char) K)) (hwf : WF alloy) (hp : ∀ s ∈ alloy, Printable fmt omitOne s.2)
    (hdiff : (alloy.map (fun s => fractions s.2)).Nodup) (known : List Char → Bool) (skip raise : Bool)
    (hk : skip = true ∨ raise = true → ∀ s ∈ alloy, ∀ e ∈ s.2, known (e.1.take 2) = true) :
    ∃ text, alloyToText fmt style omitOne (alloy.map (fun s => (s.1, SiteVal.compound s.2))) = .ok text ∧
      alloyFromString known (some (keys alloy)) skip raise text = .ok alloy ∧
      (alloy.length ≤ 26 → alloyFromString known none skip raise text =
        .ok ((("ABCDEFGHIJKLMNOPQRSTUVWXYZ".toList.take alloy.length).map (fun c => [c])).zip (alloy.map Prod.snd))) := by
  set l : List (PyDict (List Char) K × K) := alloy.map (fun s => (fractions s.2, natom s.2)) with hl
  set ts := termsOf fmt style omitOne l with hts
  have hround : ∀ s ∈ alloy, fromString known skip raise (toText fmt style omitOne (fractions s.2)) = .ok (fractions s.2) := by
    intro s hs'
    obtain ⟨f1, f2, f3⟩ := fractions_props (hp s hs')
    refine C13_round_trip fmt style omitOne _ f1 (fun e he => (f2 e he).1) f3 known skip raise ?_
    intro hsr e he
    obtain ⟨e', he', rfl⟩ := List.mem_map.mp he
    exact hk hsr s hs' e' he'
  have hpart : ∀ a ∈ alloy, ∀ b ∈ alloy, partOf fmt style omitOne (fractions a.2) = partOf fmt style omitOne (fractions b.2) →
      fractions a.2 = fractions b.2 := by
    intro a ha b hb h
    have h' := congrArg Part.formula h
    rw [(partOf_text _ _ _ _).2, (partOf_text _ _ _ _).2] at h'
    have h1 := hround a ha
    rw [h', hround b hb] at h1
    injection h1 with h1
    exact h1.symm
  have hok : ∀ t ∈ ts, t.Ok := by
    intro t ht
    obtain ⟨u, hu, e1, e0, e2, e3, e4⟩ := termsOf_mem ht
    obtain ⟨s, hs', rfl⟩ := List.mem_map.mp hu
    refine ⟨by rw [e1]; exact partOf_ok hs hone (hp s hs'), ?_, ?_⟩
    · rw [e0]; intro c hc; rw [e4 c (by simpa using hc)]; decide
    · rw [e2, e3, e0]
      rcases shownNum_ok (omitOne := omitOne) hone (hp s hs').total with ⟨h1, h2⟩ | h
      · exact Or.inl ⟨h1, rfl, h2⟩
      · exact Or.inr h
  have hnd : (alloy.map (fun s => partOf fmt style omitOne (fractions s.2))).Nodup := by
    rw [List.Nodup, List.pairwise_map] at hdiff ⊢
    exact hdiff.imp_of_mem (fun ha hb h h' => h (hpart _ ha _ hb h'))
  have hsites : sitesOf ts = alloy.map (fun s => (partOf fmt style omitOne (fractions s.2), natom s.2)) := by
    unfold sitesOf
    rw [hts, termsOf_pairs, hl, List.map_map]
    refine ofPairs_of_WF ?_
    unfold WF keys
    rw [List.map_map]
    exact hnd
  let comps : Part → PyDict (List Char) K := fun p =>
    match fromString (K := K) known skip raise p.formula with | .ok c => c | .error _ => []
  have hcomps : ∀ s ∈ alloy, comps (partOf fmt style omitOne (fractions s.2)) = fractions s.2 := by
    intro s hs'
    simp only [comps, (partOf_text _ _ _ _).2, hround s hs']
  have hread : ∀ t ∈ ts, fromString known skip raise t.part.formula = .ok (comps t.part) ∧
      Determined (comps t.part) ∧ natom (comps t.part) ≠ 0 := by
    intro t ht
    obtain ⟨u, hu, e1, _⟩ := termsOf_mem ht
    obtain ⟨s, hs', rfl⟩ := List.mem_map.mp hu
    simp only at e1
    rw [e1, hcomps s hs', (partOf_text _ _ _ _).2]
    exact ⟨hround s hs', fractions_determined _ (hp s hs').atoms, fractions_natom _ (hp s hs').atoms⟩
  have htext : alloyToText fmt style omitOne (alloy.map (fun s => (s.1, SiteVal.compound s.2))) = .ok (formulaText ts) := by
    unfold alloyToText
    rw [(C18_all_sites alloy (fun s hs' => (hp s hs').atoms) none).1]
    simp only [List.map_map, Function.comp_def]
    rw [hts, termsOf_text fmt style hs, hl, List.map_map]
    refine congrArg _ ?_
    refine congrArg _ ?_
    refine ofPairs_of_WF ?_
    unfold WF keys
    rw [List.map_map]
    have : (alloy.map (fun s => (partOf fmt style omitOne (fractions s.2)).text)).Nodup := by
      rw [List.Nodup, List.pairwise_map] at hnd ⊢
      refine hnd.imp_of_mem (fun {a b} ha hb h h' => h ?_)
      have oka := partOf_ok (style := style) hs hone (hp a ha)
      have okb := partOf_ok (style := style) hs hone (hp b hb)
      generalize partOf fmt style omitOne (fractions a.2) = pa at *
      generalize partOf fmt style omitOne (fractions b.2) = pb at *
      cases pa with
      | element n =>
        cases pb with
        | element m => exact congrArg _ h'
        | group g =>
          simp only [Part.text] at h'
          obtain ⟨⟨c, r, rfl, hc, _⟩, _⟩ := oka
          injection h' with h' _; subst h'; exact absurd hc (by decide)
      | group g =>
        cases pb with
        | element m =>
          simp only [Part.text] at h'
          obtain ⟨⟨c, r, rfl, hc, _⟩, _⟩ := okb
          injection h' with h' _; subst h'; exact absurd hc (by decide)
        | group g' =>
          simp only [Part.text, List.cons_append] at h'
          injection h' with _ h'
          rw [List.append_left_inj] at h'
          rw [h']
    simp only [(partOf_text _ _ _ _).1] at this
    exact this
  have hres : (sitesOf ts).map (fun s => (comps s.1).map (fun e => (e.1, e.2 * s.2))) = alloy.map Prod.snd := by
    rw [hsites, List.map_map]
    apply List.map_congr_left
    intro s hs'
    simp only [Function.comp, hcomps s hs']
    exact fractions_scale _ (hp s hs').atoms
  refine ⟨_, htext, ?_, ?_⟩
  · rw [C116_reads known skip raise ts hok comps hread _ hwf, hres]
    unfold keys
    rw [List.zip_map', List.map_id'']
    intro; rfl
  · intro h26
    have hlen : (sitesOf ts).length = alloy.length := by rw [hsites, List.length_map]
    have := (C116_letters known skip raise ts hok comps hread).2 (by rw [hlen]; exact h26)
    rw [this, hres, hlen]

end Sites
end TEflow
