import Mathlib.Data.List.Induction
import Mathlib.Data.List.Forall2
import Verif.Spec.Dataset
import Verif.Lemmas.DataFile

/-! # Properties C23 and C24: data files -/

set_option linter.unusedSimpArgs false
set_option linter.unusedSectionVars false

namespace TEflow
open Loader PyDict

section C23
variable {V : Type}

theorem strip_end (p : Char → Bool) (T : List Char) :
    ∃ core post, T = core ++ post ∧ (∀ c ∈ post, p c = true) ∧ (∀ c, core.getLast? = some c → p c = false) := by
  induction T using List.reverseRecOn with
  | nil => exact ⟨[], [], rfl, by simp, by simp⟩
  | append_singleton T c ih =>
    by_cases h : p c = true
    · obtain ⟨core, post, rfl, h1, h2⟩ := ih
      refine ⟨core, post ++ [c], by simp, ?_, h2⟩
      intro d hd
      rcases List.mem_append.mp hd with hd | hd
      · exact h1 d hd
      · simp at hd; subst hd; exact h
    · exact ⟨T ++ [c], [], by simp, by simp, by simp; simpa using h⟩

theorem rstrip_append_space (T post : List Char) (h : ∀ c ∈ post, pySpace c = true) : rstrip (T ++ post) = rstrip T := by
  unfold rstrip
  rw [List.reverse_append, List.dropWhile_append_of_pos (by simpa using h)]

theorem rstrip_of_last (T : List Char) (h : ∀ c, T.getLast? = some c → pySpace c = false) : rstrip T = T := by
  unfold rstrip
  cases hT : T.reverse with
  | nil => simp at hT; subst hT; rfl
  | cons c r =>
    have : T.getLast? = some c := by rw [← List.head?_reverse, hT]; rfl
    rw [List.dropWhile_cons_of_neg (by simp [h c this]), ← hT, List.reverse_reverse]

theorem rstrip_last (T : List Char) : ∀ c, (rstrip T).getLast? = some c → pySpace c = false := by
  obtain ⟨core, post, rfl, h1, h2⟩ := strip_end pySpace T
  rw [rstrip_append_space _ _ h1, rstrip_of_last _ h2]
  exact h2

theorem rowText_total (L : List Char) (hL : ∀ c, L.getLast? = some c → pySpace c = false) : ∃ o, RowText L o := by
  have hpre : ∀ c ∈ L.takeWhile (· == ' '), c = ' ' := fun c hc => by simpa using Re.mem_takeWhile hc
  have hsplit : L = L.takeWhile (· == ' ') ++ L.dropWhile (· == ' ') := List.takeWhile_append_dropWhile.symm
  have hstart : ∀ c, (L.dropWhile (· == ' ')).head? = some c → c ≠ ' ' := by
    intro c hc; have := List.head?_dropWhile_not (· == ' ') L; rw [hc] at this; simpa using this
  generalize L.takeWhile (· == ' ') = pre at *
  generalize L.dropWhile (· == ' ') = R at *
  subst hsplit
  have hTne : '#' ∉ R.takeWhile (· != '#') := fun hc => by simpa using Re.mem_takeWhile hc
  have hsplit : R = R.takeWhile (· != '#') ++ R.dropWhile (· != '#') := List.takeWhile_append_dropWhile.symm
  have hX : R.dropWhile (· != '#') = [] ∨ (R.dropWhile (· != '#')).head? = some '#' := by
    have := List.head?_dropWhile_not (· != '#') R
    cases h : R.dropWhile (· != '#') with
    | nil => exact Or.inl rfl
    | cons c X => rw [h] at this; simp at this; subst this; exact Or.inr rfl
  generalize R.takeWhile (· != '#') = T at *
  generalize R.dropWhile (· != '#') = X at *
  subst hsplit
  obtain ⟨core, post, rfl, hpost, hcore⟩ := strip_end (· == ' ') T
  by_cases hce : core = []
  · subst hce
    have hpost' : post = [] := by
      cases post with
      | nil => rfl
      | cons c r => exact absurd (by simpa using hpost c (by simp)) (hstart c (by simp))
    subst hpost'
    simp only [List.nil_append] at *
    by_cases hp : pre = []
    · subst hp; exact ⟨none, RowText.nothing X hX⟩
    · rcases hX with rfl | hX
      · exfalso
        obtain ⟨q, c, rfl⟩ := List.eq_nil_or_concat pre |>.resolve_left hp
        have := hL c (by simp)
        rw [hpre c (by simp)] at this; revert this; decide
      · exact ⟨_, RowText.indentedComment pre X hpre hp hX⟩
  · refine ⟨some core, ?_⟩
    have := RowText.data pre core post X hpre (fun c hc => by simpa using hpost c hc) hce
      (fun h => hTne (by simp [h])) ?_ ?_ hX
    · simpa using this
    · intro h
      exact hstart ' ' (by rw [List.append_assoc, List.head?_append, h]; rfl) rfl
    · intro h; have := hcore ' ' h; simp at this

theorem rowText_eq {L : List Char} {o : Option (List Char)} (h : RowText L o)
    (hL : ∀ c, L.getLast? = some c → pySpace c = false) : rowline L = o := by
  cases h with
  | data pre core post rest h1 h2 h3 h4 h5 h6 h7 =>
    refine rowline_data pre core post rest h1 h2 h3 h4 h5 h6 h7 ?_
    intro h; have := hL _ h; revert this; decide
  | indentedComment pre rest h1 h2 h3 => exact rowline_blank_comment pre rest h1 h2 h3
  | nothing _ h1 => exact rowline_none _ h1

/-- **C23 (rows).** For every line, the text taken for data is the one described by `RowText`: the text before `#` without
surrounding blanks, if any. -/
theorem C23_rowtext (line : List Char) (o : Option (List Char)) :
    rowline (rstrip line) = o ↔ RowText (rstrip line) o := by
  have hl := rstrip_last line
  refine ⟨fun h => ?_, fun h => rowText_eq h hl⟩
  obtain ⟨o', ho'⟩ := rowText_total _ hl
  rw [rowText_eq ho' hl] at h
  subst h; exact ho'

theorem rowText_comment (T a b : List Char) (hT : '#' ∉ T) (o : Option (List Char)) (h : RowText (T ++ '#' :: a) o) :
    RowText (T ++ '#' :: b) o := by
  have hsplit : ∀ (U rest : List Char), '#' ∉ U → (rest = [] ∨ rest.head? = some '#') → T ++ '#' :: a = U ++ rest → U = T := by
    intro U rest hU hr he
    have hrest : ∃ r, rest = '#' :: r := by
      cases rest with
      | nil => exfalso; apply hU; rw [List.append_nil] at he; rw [← he]; simp
      | cons c r => simp at hr; subst hr; exact ⟨r, rfl⟩
    obtain ⟨r, rfl⟩ := hrest
    have h1 : (T ++ '#' :: a).takeWhile (· != '#') = T := by
      rw [List.takeWhile_append_of_pos (by intro c hc; simpa using fun h : c = '#' => hT (h ▸ hc))]; simp
    have h2 : (U ++ '#' :: r).takeWhile (· != '#') = U := by
      rw [List.takeWhile_append_of_pos (by intro c hc; simpa using fun h : c = '#' => hU (h ▸ hc))]; simp
    rw [← h1, ← h2, he]
  generalize hL : T ++ '#' :: a = L at h
  have hsp : ∀ l : List Char, (∀ c ∈ l, c = ' ') → '#' ∉ l := fun l hl hc => by have := hl _ hc; revert this; decide
  cases h with
  | data pre core post rest h1 h2 h3 h4 h5 h6 h7 =>
    have := hsplit (pre ++ core ++ post) rest (by simp [hsp _ h1, hsp _ h2, h4]) h7 hL
    rw [← this]
    exact RowText.data pre core post _ h1 h2 h3 h4 h5 h6 (Or.inr rfl)
  | indentedComment pre rest h1 h2 h3 =>
    have := hsplit pre rest (hsp _ h1) (Or.inr h3) hL
    rw [← this]
    exact RowText.indentedComment pre _ h1 h2 rfl
  | nothing _ h1 =>
    have := hsplit [] L (by simp) h1 (by simpa using hL)
    rw [← this]
    exact RowText.nothing _ (Or.inr rfl)

theorem rstrip_comment (T a : List Char) : ∃ a', rstrip (T ++ '#' :: a) = T ++ '#' :: a' := by
  obtain ⟨core, post, h, h1, h2⟩ := strip_end pySpace ('#' :: a)
  cases core with
  | nil => exfalso; simp at h; subst h; have := h1 '#' (by simp); revert this; decide
  | cons c core =>
    simp at h; obtain ⟨rfl, rfl⟩ := h
    refine ⟨core, ?_⟩
    rw [show T ++ '#' :: (core ++ post) = (T ++ '#' :: core) ++ post by simp, rstrip_append_space _ _ h1, rstrip_of_last]
    intro c hc
    rw [List.getLast?_append] at hc
    cases h3 : ('#' :: core).getLast? with
    | none => simp at h3
    | some d => rw [h3] at hc; simp at hc; subst hc; exact h2 _ h3

/-- **C23 (comments).** What stands after a `#` never matters. -/
theorem C23_comments (T a b : List Char) (hT : '#' ∉ T) :
    rowline (rstrip (T ++ '#' :: a)) = rowline (rstrip (T ++ '#' :: b)) := by
  symm
  rw [C23_rowtext]
  obtain ⟨a', ha⟩ := rstrip_comment T a
  obtain ⟨b', hb⟩ := rstrip_comment T b
  have := (C23_rowtext (T ++ '#' :: a) _).mp rfl
  rw [ha] at this
  rw [hb, ha]
  exact rowText_comment T a' b' hT _ this

/-- **C23 (table).** Whatever the file, the columns have one entry per data row, there are as many columns as the longest row
has items, and entry `i` of column `j` is item `j` of row `i`, NaN if the row is shorter; an item is NaN if it is not a
number. -/
theorem C23_table (delimiter : Option Re) (float : List Char → Option V) (nan : V) (lines : List (List Char))
    (texts : List (Option (List Char))) (htexts : List.Forall₂ (fun l o => RowText (rstrip l) o) lines texts) :
    let rows := texts.reduceOption.map (fun text =>
      (Re.split (delimiter.getD (.plus (.cls pySpace))) text).map (fun item => (float item).getD nan))
    let table := parseDatafile delimiter float nan lines
    (∀ n, (∀ r ∈ rows, r.length ≤ n) ↔ table.length ≤ n) ∧ (∀ col ∈ table, col.length = rows.length) ∧
    ∀ (j : Nat) (col : List V), table[j]? = some col → ∀ (i : Nat) (r : List V), rows[i]? = some r → col[i]? = some (r[j]?.getD nan) := by
  intro rows table
  have hrows : dataRows (delimiter.getD (.plus (.cls pySpace))) float nan lines = rows := by
    show lines.filterMap _ = _
    have : texts = lines.map (fun l => rowline (rstrip l)) := by
      clear * - htexts
      induction htexts with
      | nil => rfl
      | cons h _ ih => rw [List.map_cons, ← ih, (C23_rowtext _ _).mpr h]
    simp only [rows, this]
    clear * -
    induction lines with
    | nil => rfl
    | cons l ls ih =>
      rw [List.filterMap_cons, ih]
      cases h : rowline (rstrip l) <;> simp [List.reduceOption, h, rowOf]
  have htab : table = zipLongest nan rows := by show parseDatafile _ _ _ _ = _; rw [parseDatafile, hrows]
  clear_value rows table
  subst htab
  unfold zipLongest
  refine ⟨fun n => ?_, ?_, ?_⟩
  · rw [List.length_map, List.length_range]
    clear * -
    induction rows with
    | nil => simp
    | cons r rows ih => simp only [List.mem_cons, forall_eq_or_imp, ih, List.map_cons, List.foldr_cons]; omega
  · intro col hc
    obtain ⟨j, _, rfl⟩ := List.mem_map.mp hc
    simp
  · intro j col hc i r hr
    rw [List.getElem?_map] at hc
    obtain ⟨j', hj, rfl⟩ := Option.map_eq_some_iff.mp hc
    have : j' = j := by
      obtain ⟨_, h⟩ := List.getElem?_eq_some_iff.mp hj
      rw [← h]; simp
    subst this
    rw [List.getElem?_map, hr]; rfl

theorem split_no_empty (p : Char → Bool) (n : Nat) (acc b r : List Char) (hn : r.length ≤ n)
    (hlast : ∀ c, r.getLast? = some c → p c = false) (hfirst : acc ≠ [] ∨ ∃ c r', r = c :: r' ∧ p c = false) :
    ∀ t ∈ Re.splitGo (.plus (.cls p)) n acc ⟨b, r⟩, t ≠ [] := by
  induction n generalizing acc b r with
  | zero =>
    have : r = [] := by simpa using hn
    subst this
    simp at hfirst
    simp [Re.splitGo, hfirst]
  | succ n ih =>
    cases r with
    | nil => rw [Re.splitGo_nil]; simpa using hfirst
    | cons c r =>
      have hm := Re.matchAt_plus_cls p b c r
      by_cases hc : p c
      · rw [if_pos hc] at hm
        have hacc : acc ≠ [] := by
          rcases hfirst with h | ⟨c', r', h1, h2⟩
          · exact h
          · simp at h1; rw [h1.1, h2] at hc; cases hc
        rw [Re.splitGo_cons_some _ _ _ _ _ _ _ (by omega) hm]
        have e : (⟨b, c :: r⟩ : Pos).adv ((r.takeWhile p).length + 1) =
            ⟨(List.take ((r.takeWhile p).length + 1) (c :: r)).reverse ++ b, r.dropWhile p⟩ := by
          simp [Pos.adv, Re.drop_takeWhile_len]
        rw [e]
        intro t ht
        rcases List.mem_cons.mp ht with rfl | ht
        · simpa using hacc
        · refine ih [] _ (r.dropWhile p) ?_ ?_ ?_ t ht
          · have := (List.dropWhile_suffix p (l := r)).length_le; simp at hn; omega
          · intro d hd
            have h1 := List.dropWhile_suffix p (l := r)
            obtain ⟨z, hz⟩ := h1
            refine hlast d ?_
            rw [List.getLast?_cons, ← hz, List.getLast?_append, hd]; rfl
          · right
            cases hd : r.dropWhile p with
            | nil =>
              exfalso
              have hall : ∀ x ∈ r, p x = true := by
                have := List.takeWhile_append_dropWhile (p := p) (l := r)
                rw [hd, List.append_nil] at this
                intro x hx; rw [← this] at hx; exact Re.mem_takeWhile hx
              cases hr : (c :: r).getLast? with
              | none => simp at hr
              | some d =>
                have h1 := hlast d hr
                have h2 := List.mem_of_getLast? hr
                rcases List.mem_cons.mp h2 with rfl | h2
                · rw [h1] at hc; cases hc
                · rw [hall d h2] at h1; cases h1
            | cons d r' =>
              have := List.head?_dropWhile_not p r
              rw [hd] at this
              exact ⟨d, r', rfl, by simpa using this⟩
      · rw [if_neg hc] at hm
        rw [Re.splitGo_cons_none _ _ _ _ _ _ hm]
        refine ih _ _ _ (by simpa using hn) ?_ (Or.inl (by simp))
        intro d hd
        refine hlast d ?_
        rw [List.getLast?_cons, hd]; rfl

/-- **C23 (items).** With the default delimiter the items of a row text that neither begins nor ends with white space are
its maximal runs of non-white characters. -/
theorem C23_items (core : List Char) (hne : core ≠ []) (hfirst : ∀ c, core.head? = some c → pySpace c = false)
    (hlast : ∀ c, core.getLast? = some c → pySpace c = false) (ts : List (List Char)) :
    Re.split (.plus (.cls pySpace)) core = ts ↔ Tokenises pySpace core ts := by
  rw [tokenises_iff, ← Re.split_plus_cls]
  have : (Re.split (.plus (.cls pySpace)) core).filter (fun t => !t.isEmpty) = Re.split (.plus (.cls pySpace)) core := by
    rw [List.filter_eq_self]
    intro t ht
    have := split_no_empty pySpace core.length [] [] core (le_refl _) hlast (Or.inr (by
      cases core with
      | nil => exact absurd rfl hne
      | cons c r => exact ⟨c, r, rfl, hfirst c rfl⟩)) t ht
    simpa using this
  rw [this]

/-- a number reader for the examples: digits only -/
private def exFloat (s : List Char) : Option Nat := if s ≠ [] ∧ s.all isDigit then some s.length else none

/-- a ragged file with comments, an empty line, and an item that is not a number (here `99` plays NaN and numbers are read
as their number of digits) -/
example : parseDatafile none exFloat 99 ["1 22 333 # a 4".toList, "#".toList, "".toList, "  1 x".toList] =
    [[1, 1], [2, 99], [3, 99]] := by decide +kernel

/-- FINDING: a comment indented by blanks is read as a data row (all NaN) … -/
example : parseDatafile none exFloat 99 ["1 22".toList, "  # comment".toList] = [[1, 99], [2, 99]] := by decide +kernel

/-- FINDING: … and a tab before `#` yields an additional, empty item (NaN) -/
example : parseDatafile none exFloat 99 ["1 22\t# comment".toList] = [[1], [2], [99]] := by decide +kernel

end C23

section C24
variable {V : Type} (finite : V → Bool)

/-- **C24 (TEdataset).** Every column given to the constructor consists of exactly the finite values of the column of the
file, in file order. -/
theorem C24_TE (table : List (List V)) (j : Nat) (col : List V) (h : table[j]? = some col) :
    (columnsTE finite table).length = table.length ∧
    ∃ out, (columnsTE finite table)[j]? = some out ∧ (∀ v, v ∈ out ↔ v ∈ col ∧ finite v = true) ∧ out.Sublist col ∧
      ∀ sub : List V, sub.Sublist col → (∀ v ∈ sub, finite v = true) → sub.Sublist out := by
  refine ⟨by simp [columnsTE], col.filter finite, by simp [columnsTE, h], by simp, List.filter_sublist, ?_⟩
  intro sub hs hf
  have := hs.filter finite
  rwa [List.filter_eq_self.mpr hf] at this

/-- the rows `rows` of a column -/
def pickRows (rows : List Nat) (col : List V) : List V := rows.filterMap (fun i => col[i]?)

theorem filterAt_eq (p q n : Nat) (data : List (List V)) (hpq : p ≤ q)
    (hn : ∀ j c, p ≤ j → j < q → data[j]? = some c → c.length = n) :
    filterAt finite p q data = if p < q ∧ p < data.length then
      .ok (data.mapIdx (fun j c => if p ≤ j ∧ j < q then pickRows (goodRows finite data n p q) c else c)) else .error .valueError := by
  unfold filterAt
  split_ifs with hc
  · have hget : ∀ k, ((data.take q).drop p)[k]? = if p + k < q then data[p + k]? else none := by
      intro k; rw [List.getElem?_drop, List.getElem?_take]
    obtain ⟨c, hcc⟩ : ∃ c, data[p]? = some c := ⟨data[p], List.getElem?_eq_getElem hc.2⟩
    have hlen := hn p c (le_refl _) hc.1 hcc
    have h0 := hget 0
    rw [Nat.add_zero, if_pos hc.1, hcc] at h0
    cases hb : (data.take q).drop p with
    | nil => rw [hb] at h0; simp at h0
    | cons c' block' =>
      rw [hb] at h0; simp at h0; subst h0
      rw [filterBlock]
      simp only
      have hgood : (List.range c'.length).filter (fun i => (c' :: block').all (fun col => (col[i]?.map finite).getD false)) =
          goodRows finite data n p q := by
        rw [hlen, goodRows]
        apply List.filter_congr
        intro i _
        rw [← hb, Bool.eq_iff_iff, List.all_eq_true, List.all_eq_true]
        constructor
        · intro h j hj
          rw [List.mem_range] at hj
          by_cases h1 : j < p
          · simp [h1]
          by_cases h2 : q ≤ j
          · simp [h2]
          have hjq : (data.take q).drop p = (data.take q).drop p := rfl
          have hm : data[j] ∈ (data.take q).drop p := by
            rw [List.mem_iff_getElem?]
            refine ⟨j - p, ?_⟩
            rw [hget, if_pos (by omega), show p + (j - p) = j by omega, List.getElem?_eq_getElem hj]
          have := h _ hm
          simp only [h1, h2, decide_false, Bool.false_or, List.getElem?_eq_getElem hj, Option.bind_some]
          exact this
        · intro h col hcol
          obtain ⟨k, hk⟩ := List.mem_iff_getElem?.mp hcol
          rw [hget] at hk
          split_ifs at hk with hkq
          have hlt := (List.getElem?_eq_some_iff.mp hk).1
          have := h (p + k) (List.mem_range.mpr hlt)
          rw [hk] at this
          simpa [show ¬ (p + k < p) by omega, show ¬ (q ≤ p + k) by omega] using this
      rw [hgood, ← hb]
      congr 1
      apply List.ext_getElem?
      intro j
      rw [List.getElem?_mapIdx, List.append_assoc]
      have hlt : (data.take p).length = p := by simp; omega
      by_cases h1 : j < p
      · rw [List.getElem?_append_left (by omega), List.getElem?_take, if_pos h1]
        cases data[j]? <;> simp [show ¬ p ≤ j by omega]
      · rw [List.getElem?_append_right (by omega), hlt]
        have hl2 : ((data.take q).drop p).length = min q data.length - p := by simp
        by_cases h2 : j < q
        · by_cases h3 : j < data.length
          · rw [List.getElem?_append_left (by rw [List.length_map, hl2]; omega), List.getElem?_map, hget,
              if_pos (by omega), show p + (j - p) = j by omega]
            simp [show p ≤ j by omega, h2, pickRows]
          · rw [List.getElem?_append_right (by rw [List.length_map, hl2]; omega), List.getElem?_drop]
            rw [List.getElem?_eq_none (by omega), List.getElem?_eq_none (by omega)]; rfl
        · by_cases h3 : q ≤ data.length
          · rw [List.getElem?_append_right (by rw [List.length_map, hl2]; omega), List.getElem?_drop, List.length_map, hl2,
              show q + (j - p - (min q data.length - p)) = j by omega]
            cases data[j]? <;> simp [show ¬ j < q by omega]
          · rw [List.getElem?_append_right (by rw [List.length_map, hl2]; omega), List.getElem?_drop]
            rw [List.getElem?_eq_none (by omega), List.getElem?_eq_none (by omega)]; rfl
  · have : (data.take q).drop p = [] := by
      apply List.drop_eq_nil_of_le; simp; omega
    rw [this]; rfl

theorem filterBlocks_spec (n : Nat) (blocks : List (Nat × Nat)) (data : List (List V))
    (hp : blocks.Pairwise (fun a b => a.2 ≤ b.1)) (hlt : ∀ b ∈ blocks, b.1 < b.2)
    (hn : ∀ b ∈ blocks, ∀ j c, b.1 ≤ j → j < b.2 → data[j]? = some c → c.length = n) :
    ((∀ b ∈ blocks, b.1 < data.length) → ∃ out, filterBlocks finite blocks data = .ok out ∧ out.length = data.length ∧
      (∀ j, (∀ b ∈ blocks, ¬ (b.1 ≤ j ∧ j < b.2)) → out[j]? = data[j]?) ∧
      ∀ b ∈ blocks, ∀ j, b.1 ≤ j → j < b.2 → out[j]? = data[j]?.map (pickRows (goodRows finite data n b.1 b.2))) ∧
    (¬ (∀ b ∈ blocks, b.1 < data.length) → filterBlocks finite blocks data = .error .valueError) := by
  induction blocks generalizing data with
  | nil => refine ⟨fun _ => ⟨data, rfl, rfl, fun _ _ => rfl, by simp⟩, fun h => absurd (by simp) h⟩
  | cons b bs ih =>
    obtain ⟨p, q⟩ := b
    rw [List.pairwise_cons] at hp
    have hpq : p < q := hlt (p, q) (by simp)
    have hat := filterAt_eq finite p q n data hpq.le (hn (p, q) (by simp))
    rw [filterBlocks, hat]
    by_cases hpl : p < data.length
    · rw [if_pos ⟨hpq, hpl⟩]
      simp only
      set data' := data.mapIdx (fun j c => if p ≤ j ∧ j < q then pickRows (goodRows finite data n p q) c else c) with hd'
      have hlen : data'.length = data.length := by simp [hd']
      have hsame : ∀ j, ¬ (p ≤ j ∧ j < q) → data'[j]? = data[j]? := by
        intro j hj
        rw [hd', List.getElem?_mapIdx]
        cases data[j]? <;> simp [hj]
      have hgood : ∀ b ∈ bs, goodRows finite data' n b.1 b.2 = goodRows finite data n b.1 b.2 := by
        intro b hb
        unfold goodRows
        apply List.filter_congr
        intro i _
        rw [hlen, Bool.eq_iff_iff, List.all_eq_true, List.all_eq_true]
        have : ∀ j, b.1 ≤ j → data'[j]? = data[j]? := fun j hj => hsame j (by have := hp.1 b hb; simp at this; omega)
        constructor <;> intro h j hj <;> have := h j hj
        · by_cases h1 : j < b.1
          · simp [h1]
          · rw [‹∀ j, b.1 ≤ j → data'[j]? = data[j]?› j (by omega)] at this; exact this
        · by_cases h1 : j < b.1
          · simp [h1]
          · rw [‹∀ j, b.1 ≤ j → data'[j]? = data[j]?› j (by omega)]; exact this
      obtain ⟨i1, i2⟩ := ih data' hp.2 (fun b hb => hlt b (by simp [hb])) (by
        intro b hb j c h1 h2 h3
        rw [hsame j (by have := hp.1 b hb; simp at this; omega)] at h3
        exact hn b (by simp [hb]) j c h1 h2 h3)
      rw [hlen] at i1 i2
      constructor
      · intro hall
        obtain ⟨out, h1, h2, h3, h4⟩ := i1 (fun b hb => hall b (by simp [hb]))
        refine ⟨out, h1, h2, ?_, ?_⟩
        · intro j hj
          rw [h3 j (fun b hb => hj b (by simp [hb])), hsame j (hj (p, q) (by simp))]
        · intro b hb j hj1 hj2
          rcases List.mem_cons.mp hb with rfl | hb
          · rw [h3 j (fun b hb => by have := hp.1 b hb; simp at this hj2; omega), hd', List.getElem?_mapIdx]
            simp only at hj1 hj2
            cases data[j]? <;> simp [hj1, hj2]
          · rw [h4 b hb j hj1 hj2, hgood b hb, hsame j (by have := hp.1 b hb; simp at this; omega)]
      · intro hall
        apply i2
        intro h
        apply hall
        intro b hb
        rcases List.mem_cons.mp hb with rfl | hb
        · exact hpl
        · exact h b hb
    · rw [if_neg (by tauto)]
      refine ⟨fun h => absurd (h (p, q) (by simp)) hpl, fun _ => rfl⟩

theorem mem_tempIdx (groups : List String) (t : Nat) : t ∈ tempIdx groups ↔ groups[t]? = some "T" := by
  unfold tempIdx
  simp only [List.mem_map, List.mem_filter, decide_eq_true_eq, Prod.exists, exists_eq_right, exists_and_right, exists_eq_right']
  rw [List.mk_mem_zipIdx_iff_getElem?] 

theorem tempIdx_sorted (groups : List String) : (tempIdx groups).Pairwise (· < ·) := by
  unfold tempIdx
  have : ((groups.zipIdx.filter (fun p => p.1 = "T")).map Prod.snd).Sublist (groups.zipIdx.map Prod.snd) :=
    List.filter_sublist.map _
  refine List.Pairwise.sublist this ?_
  rw [List.zipIdx_map_snd]
  exact List.pairwise_lt_range'

/-- consecutive pairs of a sorted list -/
theorem mem_consecutive (l : List Nat) (L : Nat) (hl : l.Pairwise (· < ·)) (hL : ∀ t ∈ l, t < L) (p q : Nat) :
    (p, q) ∈ l.zip (l.drop 1 ++ [L]) ↔ p ∈ l ∧ p < q ∧ (∀ k ∈ l, ¬ (p < k ∧ k < q)) ∧ (q ∈ l ∨ q = L) := by
  induction l with
  | nil => simp
  | cons a l ih =>
    rw [List.pairwise_cons] at hl
    cases l with
    | nil =>
      simp only [List.drop_succ_cons, List.drop_zero, List.nil_append, List.zip_cons_cons, List.zip_nil_left, List.mem_cons,
        List.not_mem_nil, or_false, Prod.mk.injEq, forall_eq]
      have := hL a (by simp)
      constructor
      · rintro ⟨rfl, rfl⟩; omega
      · rintro ⟨rfl, h1, h2, h3⟩; omega
    | cons b l =>
      have ih' := ih hl.2 (fun t ht => hL t (by simp [ht]))
      have hab : a < b := hl.1 b (by simp)
      simp only [List.drop_succ_cons, List.drop_zero, List.cons_append, List.zip_cons_cons] at ih' ⊢
      rw [List.mem_cons, ih', Prod.mk.injEq]
      constructor
      · rintro (⟨rfl, rfl⟩ | ⟨h1, h2, h3, h4⟩)
        · refine ⟨by simp, hab, ?_, by simp⟩
          intro k hk
          rcases List.mem_cons.mp hk with rfl | hk
          · omega
          rcases List.mem_cons.mp hk with rfl | hk
          · omega
          have := (List.pairwise_cons.mp hl.2).1 k hk; omega
        · refine ⟨by simp [h1], h2, ?_, by rcases h4 with h4 | h4 <;> simp [h4]⟩
          intro k hk
          rcases List.mem_cons.mp hk with rfl | hk
          · have := hl.1 p h1; omega
          · exact h3 k hk
      · rintro ⟨h1, h2, h3, h4⟩
        rcases List.mem_cons.mp h1 with rfl | h1
        · left
          refine ⟨rfl, ?_⟩
          have hb := h3 b (by simp)
          have hq : q ≤ b := by omega
          rcases h4 with h4 | rfl
          · rcases List.mem_cons.mp h4 with rfl | h4
            · omega
            rcases List.mem_cons.mp h4 with rfl | h4
            · rfl
            · have := (List.pairwise_cons.mp hl.2).1 q h4; omega
          · have := hL b (by simp); omega
        · right
          refine ⟨h1, h2, fun k hk => h3 k (by simp [hk]), ?_⟩
          rcases h4 with h4 | h4
          · rcases List.mem_cons.mp h4 with h4 | h4
            · have := hl.1 p h1; omega
            · exact Or.inl h4
          · exact Or.inr h4

theorem columnsTE2_single (groups : List String) (data : List (List V)) (t : Nat) (h : tempIdx groups = [t]) :
    columnsTE2 finite groups data = filterAt finite t (max data.length t) data := by
  unfold columnsTE2 filterAt
  rw [h, List.take_of_length_le (by omega : data.length ≤ max data.length t),
    List.drop_eq_nil_of_le (by omega : data.length ≤ max data.length t)]
  simp only [List.append_nil]

/-- columns `p, …, q-1` are a temperature column with its properties: the block reaches to the next temperature column, and
the last one to the end of the group (of the table, if there is one temperature column only) -/
def IsBlock (groups : List String) (ncol p q : Nat) : Prop :=
  groups[p]? = some "T" ∧ p < q ∧ (∀ k, p < k → k < q → groups[k]? ≠ some "T") ∧
    (groups[q]? = some "T" ∨ (∀ k : Nat, groups[k]? = some "T" → k = p) ∧ q = ncol ∨
      (∃ k : Nat, groups[k]? = some "T" ∧ k ≠ p) ∧ q = groups.length)

/-- **C24 (TEdataset2).** For every table with columns of one length `n`: `from_file` fails with `ValueError` if there is no
temperature column or a temperature column is missing in the table; otherwise each block of columns consists of exactly the
rows in which all columns of the block are finite (so temperatures and properties stay aligned), and columns before the
first temperature are untouched. -/
theorem C24_TE2 (groups : List String) (data : List (List V)) (n : Nat) (hrect : ∀ c ∈ data, c.length = n) :
    (columnsTE2 finite groups data = .error .valueError ↔
      "T" ∉ groups ∨ ∃ t, groups[t]? = some "T" ∧ data.length ≤ t) ∧
    ("T" ∈ groups → (∀ t, groups[t]? = some "T" → t < data.length) → ∃ out, columnsTE2 finite groups data = .ok out ∧
      out.length = data.length ∧
      (∀ j : Nat, (∀ k : Nat, k ≤ j → groups[k]? ≠ some "T") → out[j]? = data[j]?) ∧
      ∀ p q j, IsBlock groups data.length p q → p ≤ j → j < q →
        out[j]? = data[j]?.map (pickRows (goodRows finite data n p q))) := by
  have hmem := mem_tempIdx groups
  have hsort := tempIdx_sorted groups
  have hlt : ∀ t ∈ tempIdx groups, t < groups.length := fun t ht => (List.getElem?_eq_some_iff.mp ((hmem t).mp ht)).1
  have hT : "T" ∈ groups ↔ ∃ t, t ∈ tempIdx groups := by
    simp only [hmem]; exact List.mem_iff_getElem?
  suffices H : ("T" ∉ groups → columnsTE2 finite groups data = .error .valueError) ∧
      ((∃ t, groups[t]? = some "T" ∧ data.length ≤ t) → columnsTE2 finite groups data = .error .valueError) ∧
      ("T" ∈ groups → (∀ t, groups[t]? = some "T" → t < data.length) → ∃ out, columnsTE2 finite groups data = .ok out ∧
      out.length = data.length ∧
      (∀ j : Nat, (∀ k : Nat, k ≤ j → groups[k]? ≠ some "T") → out[j]? = data[j]?) ∧
      ∀ p q j, IsBlock groups data.length p q → p ≤ j → j < q →
        out[j]? = data[j]?.map (pickRows (goodRows finite data n p q))) by
    refine ⟨⟨fun h => ?_, fun h => h.elim H.1 H.2.1⟩, H.2.2⟩
    by_contra hc
    push Not at hc
    obtain ⟨out, ho, _⟩ := H.2.2 hc.1 hc.2
    rw [ho] at h; cases h
  match hti : tempIdx groups with
  | [] =>
    rw [hti] at hT hmem
    have : columnsTE2 finite groups data = .error .valueError := by unfold columnsTE2; rw [hti]
    refine ⟨fun _ => this, fun _ => this, fun h => ?_⟩
    rw [hT] at h; simp at h
  | [t] =>
    rw [hti] at hT hmem hlt
    have hone : ∀ k, groups[k]? = some "T" ↔ k = t := fun k => by rw [← hmem]; simp
    have hat := filterAt_eq finite t (max data.length t) n data (by omega)
      (fun j c _ _ h => hrect c (List.mem_of_getElem? h))
    rw [columnsTE2_single finite groups data t hti, hat]
    have hTin : "T" ∈ groups := hT.mpr ⟨t, by simp⟩
    refine ⟨fun h => absurd hTin h, ?_, ?_⟩
    · rintro ⟨t', h1, h2⟩
      rw [hone] at h1; subst h1
      rw [if_neg (by omega)]
    · intro _ hall
      have htl := hall t ((hone t).mpr rfl)
      rw [if_pos ⟨by omega, htl⟩]
      refine ⟨_, rfl, by simp, ?_, ?_⟩
      · intro j hj
        have : j < t := by
          by_contra h; exact hj t (by omega) ((hone t).mpr rfl)
        rw [List.getElem?_mapIdx]
        cases data[j]? <;> simp [show ¬ t ≤ j by omega]
      · intro p q j hb hpj hjq
        obtain ⟨b1, b2, b3, b4⟩ := hb
        rw [hone] at b1; subst b1
        have : q = data.length := by
          rcases b4 with h | h | ⟨⟨k, h1, h2⟩, _⟩
          · rw [hone] at h; omega
          · exact h.2
          · rw [hone] at h1; exact absurd h1 h2
        subst this
        rw [max_eq_left htl.le, List.getElem?_mapIdx]
        cases data[j]? <;> simp [hpj, hjq]
  | t1 :: t2 :: ts =>
    rw [hti] at hT hmem hlt hsort
    have hcons := mem_consecutive (t1 :: t2 :: ts) groups.length hsort hlt
    set l := t1 :: t2 :: ts with hl
    set blocks := l.zip (l.drop 1 ++ [groups.length]) with hbl
    have hcol : columnsTE2 finite groups data = filterBlocks finite blocks data := by unfold columnsTE2; rw [hti]
    rw [hcol]
    have hpw : blocks.Pairwise (fun a b => a.2 ≤ b.1) := by
      have hlen : l.length = (l.drop 1 ++ [groups.length]).length := by simp [hl]
      rw [List.pairwise_iff_getElem]
      intro i j hi hj hij
      have hb : ∀ k (hk : k < blocks.length), (blocks[k]'hk).1 = l[k]'(by simp [hbl] at hk; omega) := by
        intro k hk; simp [hbl]
      have hjl : j < l.length := by simp [hbl] at hj; omega
      have h2 : (blocks[i]'hi).2 = l[i + 1]'(by omega) := by
        simp only [hbl, List.getElem_zip]
        rw [List.getElem_append_left (by simp; omega)]
        simp [Nat.add_comm]
      rw [hb j hj, h2]
      rw [List.pairwise_iff_getElem] at hsort
      rcases Nat.lt_or_ge (i + 1) j with h | h
      · exact (hsort (i + 1) j (by omega) hjl h).le
      · have : i + 1 = j := by omega
        subst this; exact le_refl _
    have hspec := filterBlocks_spec finite n blocks data hpw
      (fun b hb => ((hcons b.1 b.2).mp hb).2.1) (fun b _ j c _ _ h => hrect c (List.mem_of_getElem? h))
    have hfst : ∀ t, t ∈ l ↔ ∃ b ∈ blocks, b.1 = t := by
      intro t
      constructor
      · intro ht
        obtain ⟨k, hk, rfl⟩ := List.mem_iff_getElem.mp ht
        have hkb : k < blocks.length := by simp [hbl]; omega
        exact ⟨blocks[k], List.getElem_mem hkb, by simp [hbl]⟩
      · rintro ⟨b, hb, rfl⟩; exact ((hcons b.1 b.2).mp hb).1
    have hTin : "T" ∈ groups := hT.mpr ⟨t1, by simp [hl]⟩
    refine ⟨fun h => absurd hTin h, ?_, ?_⟩
    · rintro ⟨t, h1, h2⟩
      apply hspec.2
      intro h
      obtain ⟨b, hb, rfl⟩ := (hfst t).mp ((hmem t).mpr h1)
      have := h b hb; omega
    · intro _ hall
      obtain ⟨out, h1, h2, h3, h4⟩ := hspec.1 (fun b hb => hall b.1 ((hmem _).mp ((hfst _).mpr ⟨b, hb, rfl⟩)))
      refine ⟨out, h1, h2, ?_, ?_⟩
      · intro j hj
        apply h3
        rintro b hb ⟨hb1, _⟩
        exact hj b.1 hb1 ((hmem _).mp ((hfst _).mpr ⟨b, hb, rfl⟩))
      · intro p q j hb hpj hjq
        obtain ⟨b1, b2, b3, b4⟩ := hb
        refine h4 (p, q) ?_ j hpj hjq
        rw [hbl, hcons]
        refine ⟨(hmem p).mpr b1, b2, fun k hk h => b3 k h.1 h.2 ((hmem k).mp hk), ?_⟩
        rcases b4 with h | ⟨hone, _⟩ | h
        · exact Or.inl ((hmem q).mpr h)
        · exfalso
          · have e1 := hone t1 ((hmem t1).mp (by simp [hl]))
            have e2 := hone t2 ((hmem t2).mp (by simp [hl]))
            have := (List.pairwise_cons.mp hsort).1 t2 (by simp)
            omega
        · exact Or.inr h.2

/-- two blocks with different missing values (`99` is not finite) -/
example : columnsTE2 (· != 99) ["T", "R", "T", "K"] [[1, 2, 99], [4, 99, 5], [6, 7, 8], [9, 99, 10]] =
    .ok [[1], [4], [6, 8], [9, 10]] := by decide
example : IsBlock ["T", "R", "T", "K"] 4 2 4 :=
  ⟨rfl, by omega, by intro k h1 h2; have : k = 3 := by omega
                     subst this; decide, Or.inr (Or.inr ⟨⟨0, rfl, by omega⟩, rfl⟩)⟩
/-- one temperature column: trailing columns without identifier take part in the filtering -/
example : columnsTE2 (· != 99) ["T", "R"] [[1, 2], [4, 5], [6, 99]] = .ok [[1], [4], [6]] := by decide

end C24
end TEflow
