import Mathlib.Algebra.Order.Field.Rat
import Mathlib.Data.List.Forall2
import Mathlib.Data.List.TakeWhile
import Mathlib.Tactic.Ring
import Verif.Model.Interface
import Verif.Lemmas.Re
import Verif.Props.Mixing

/-! # C59–C61: `tef-refine`, `tef-mixing`

`Tokenises sep text ts` (Lemmas/Re.lean) is the specification "`ts` are the maximal non-empty runs of non-separators of
`text`, in order". -/

set_option linter.unusedSimpArgs false

namespace TEflow.Interface
open TEflow.Loader (strip rstrip isDigit digitVal)
open TEflow.Mathext (Arr mixing)

/-! ## Words and joins -/

/-- the blanks of Python (`str.isspace`, `\s`): the code points of the Unicode blanks and the four ASCII separators -/
def blanks : List Nat :=
  [9, 10, 11, 12, 13, 28, 29, 30, 31, 32, 133, 160, 5760, 8192, 8193, 8194, 8195, 8196, 8197, 8198, 8199, 8200, 8201, 8202, 8232, 8233, 8239,
   8287, 12288]

/-- **C59** Which characters separate the cells of a row. -/
theorem C59_blanks (c : Char) : pySpace c = true ↔ c.toNat ∈ blanks := by
  unfold pySpace blanks
  simp only [Bool.or_eq_true, Bool.and_eq_true, decide_eq_true_eq, beq_iff_eq, List.mem_cons, List.not_mem_nil, or_false]
  omega

theorem wordsGo_eq (s acc : List Char) : wordsGo acc s = toks pySpace acc s := by
  induction s generalizing acc with
  | nil => simp [wordsGo, toks, flush]
  | cons c s ih =>
    simp only [wordsGo, toks, ih]
    split
    · by_cases h : acc = [] <;> simp [h, flush]
    · rfl

theorem words_eq (s : List Char) : words s = toks pySpace [] s := wordsGo_eq s []

theorem toks_spaces (sep : Char → Bool) (x sp acc : List Char) (h : ∀ c ∈ sp, sep c = true) :
    toks sep acc (x ++ sp) = toks sep acc x := by
  induction x generalizing acc with
  | nil =>
    induction sp generalizing acc with
    | nil => rfl
    | cons c sp ih =>
      have := ih (fun d hd => h d (by simp [hd])) []
      simp only [List.nil_append] at this ⊢
      simp only [toks, h c (by simp), this, if_true]
      simp [flush]
  | cons c x ih => simp only [List.cons_append, toks, ih]

theorem words_strip (s : List Char) : words (strip s) = words s := by
  rw [words_eq, words_eq]
  have h1 : strip s ++ ((s.dropWhile pySpace).reverse.takeWhile pySpace).reverse = s.dropWhile pySpace := by
    rw [strip, rstrip, ← List.reverse_append, List.takeWhile_append_dropWhile, List.reverse_reverse]
  have h2 := toks_spaces pySpace (strip s) ((s.dropWhile pySpace).reverse.takeWhile pySpace).reverse [] (by
    intro c hc
    exact List.mem_takeWhile_imp (List.mem_reverse.1 hc))
  rw [← h2, h1, toks_dropWhile]

theorem words_tokenises (s : List Char) : Tokenises pySpace s (words s) := by
  rw [words_eq]; exact (tokenises_iff _ _ _).2 rfl

theorem words_mem (s w : List Char) (h : w ∈ words s) : w ≠ [] ∧ (∀ c ∈ w, pySpace c = false) ∧ ∀ c ∈ w, c ∈ s := by
  have key : ∀ (s acc : List Char), (∀ c ∈ acc, pySpace c = false) → ∀ w ∈ wordsGo acc s,
      w ≠ [] ∧ (∀ c ∈ w, pySpace c = false) ∧ ∀ c ∈ w, c ∈ acc ∨ c ∈ s := by
    intro s
    induction s with
    | nil =>
      intro acc ha w hw
      simp only [wordsGo] at hw
      split at hw <;> simp at hw
      subst hw
      rename_i hne
      refine ⟨by simpa using hne, by simpa using ha, by simp⟩
    | cons c s ih =>
      intro acc ha w hw
      simp only [wordsGo] at hw
      split at hw
      · split at hw
        · obtain ⟨a, b, d⟩ := ih [] (by simp) w hw
          exact ⟨a, b, fun x hx => by have := d x hx; simp at this; simp [this]⟩
        · rename_i hne
          simp only [List.mem_cons] at hw
          rcases hw with rfl | hw
          · exact ⟨by simpa using hne, by simpa using ha, fun x hx => .inl (by simpa using hx)⟩
          · obtain ⟨a, b, d⟩ := ih [] (by simp) w hw
            exact ⟨a, b, fun x hx => by have := d x hx; simp at this; simp [this]⟩
      · rename_i hc
        obtain ⟨a, b, d⟩ := ih (c :: acc) (by simpa using ⟨by simpa using hc, ha⟩) w hw
        refine ⟨a, b, fun x hx => ?_⟩
        have := d x hx
        simp only [List.mem_cons] at this ⊢
        tauto
  obtain ⟨a, b, d⟩ := key s [] (by simp) w h
  exact ⟨a, b, fun c hc => by simpa using d c hc⟩

theorem toks_sep (sep : Char → Bool) (x y acc : List Char) (c : Char) (h : sep c = true) :
    toks sep acc (x ++ c :: y) = toks sep acc x ++ toks sep [] y := by
  induction x generalizing acc with
  | nil => simp [toks, h]
  | cons d x ih =>
    simp only [List.cons_append, toks, ih]
    split <;> simp

theorem words_sep (x y : List Char) (c : Char) (h : pySpace c = true) : words (x ++ c :: y) = words x ++ words y := by
  simp only [words_eq, toks_sep pySpace x y [] c h]

theorem words_word (w : List Char) (h1 : w ≠ []) (h2 : ∀ c ∈ w, pySpace c = false) : words w = [w] := by
  have := toks_word pySpace w [] [] h2
  rw [List.append_nil] at this
  rw [words_eq, this]
  simp [toks, flush, h1]

theorem words_join (c : Char) (h : pySpace c = true) (l : List (List Char)) :
    words (join [c] l) = (l.map words).flatten := by
  induction l with
  | nil => rfl
  | cons a l ih =>
    cases l with
    | nil => simp [join]
    | cons b l =>
      rw [join, List.append_assoc, List.singleton_append, words_sep _ _ _ h, ih]
      simp

theorem words_join_words (c : Char) (h : pySpace c = true) (l : List (List Char))
    (hl : ∀ w ∈ l, w ≠ [] ∧ ∀ c ∈ w, pySpace c = false) : words (join [c] l) = l := by
  rw [words_join c h]
  induction l with
  | nil => rfl
  | cons a l ih =>
    have := hl a (by simp)
    rw [List.map_cons, List.flatten_cons, words_word a this.1 this.2, ih (fun w hw => hl w (by simp [hw]))]
    rfl

theorem mem_join (sep : List Char) (l : List (List Char)) (c : Char) (h : c ∈ join sep l) :
    c ∈ sep ∨ ∃ w ∈ l, c ∈ w := by
  induction l with
  | nil => simp [join] at h
  | cons a l ih =>
    cases l with
    | nil => simp [join] at h; simp [h]
    | cons b l =>
      simp only [join, List.mem_append] at h
      rcases h with (h | h) | h
      · exact .inr ⟨a, by simp, h⟩
      · exact .inl h
      · rcases ih h with h | ⟨w, hw, hc⟩
        · exact .inl h
        · exact .inr ⟨w, by simp at hw ⊢; tauto, hc⟩

/-! ## C59: `tef-refine` -/

/-- **C59** The part of a line before the comment: a prefix without a hash, followed by nothing or by a hash. -/
theorem C59_comment (l : List Char) :
    ∃ r, l = beforeHash l ++ r ∧ '#' ∉ beforeHash l ∧ (r = [] ∨ ∃ t, r = '#' :: t) := by
  refine ⟨l.dropWhile (· ≠ '#'), (List.takeWhile_append_dropWhile ..).symm, ?_, ?_⟩
  · intro h
    have := List.mem_takeWhile_imp h
    simp at this
  · cases h : l.dropWhile (· ≠ '#') with
    | nil => exact .inl rfl
    | cons a t =>
      have := List.head?_dropWhile_not (fun c : Char => decide (c ≠ '#')) l
      rw [h] at this
      simp at this
      exact .inr ⟨t, by rw [this]⟩

theorem beforeHash_free (l : List Char) (h : '#' ∉ l) : beforeHash l = l := by
  unfold beforeHash
  rw [List.takeWhile_eq_self_iff]
  intro c hc
  simp only [decide_eq_true_eq]
  rintro rfl
  exact h hc

/-- the rows `tef-refine` works with: the tokens of the uncommented part of each line, rows without tokens dropped -/
theorem refineRows_spec (lines : List (List Char)) :
    ∃ rows, List.Forall₂ (fun l ts => Tokenises pySpace (beforeHash l) ts) lines rows ∧
      refineRows lines = rows.filter (· ≠ []) := by
  refine ⟨lines.map fun l => words (beforeHash l), ?_, ?_⟩
  · rw [List.forall₂_map_right_iff]
    exact List.forall₂_same.2 fun l _ => words_tokenises _
  · simp only [refineRows, words_strip]

theorem refineWrite_none (rows : List (List (List Char))) :
    refineWrite none rows = (rows.map (join [' ']), .ok ()) := by
  induction rows with
  | nil => rfl
  | cons r rows ih => simp [refineWrite, pickItems, ih]

/-- **C59** Without `-c` every line with something before its comment gives one output line: its tokens, in order,
separated by single blanks; the command does not fail. -/
theorem C59_all_columns (header : List Char) (bare : Bool) (lines : List (List Char)) :
    ∃ rows, List.Forall₂ (fun l ts => Tokenises pySpace (beforeHash l) ts) lines rows ∧
      refine header bare none lines =
        ((if bare then [] else [header]) ++ (rows.filter (· ≠ [])).map (join [' ']), .ok ()) := by
  obtain ⟨rows, h1, h2⟩ := refineRows_spec lines
  exact ⟨rows, h1, by simp only [refine, refineWrite_none, h2]⟩

/-- the entry of a row at a column number: from the left from 0, from the right from -1 -/
def ColumnAt {α : Type} (row : List α) (i : Int) (x : α) : Prop :=
  (0 ≤ i ∧ row[i.toNat]? = some x) ∨ (i < 0 ∧ -row.length ≤ i ∧ row[(row.length + i).toNat]? = some x)

theorem pyIndex_spec {α : Type} (row : List α) (i : Int) :
    (∀ x, pyIndex row i = .ok x ↔ ColumnAt row i x) ∧
    (∀ e, pyIndex row i = .error e ↔ e = .indexError ∧ (i ≥ row.length ∨ i < -row.length)) := by
  simp only [pyIndex, ColumnAt]
  by_cases hi : i < 0
  · simp only [hi, if_true]
    by_cases hj : i + row.length < 0
    · simp only [hj, if_true, reduceCtorEq, false_iff, Except.error.injEq]
      refine ⟨fun x => by rintro (h | h) <;> omega, fun e => ⟨fun h => ⟨h.symm, by omega⟩, fun h => h.1.symm⟩⟩
    · simp only [hj, if_false]
      have hlt : (i + row.length).toNat < row.length := by omega
      rw [List.getElem?_eq_getElem hlt]
      have : ((row.length : Int) + i).toNat = (i + row.length).toNat := by omega
      rw [this, List.getElem?_eq_getElem hlt]
      refine ⟨fun x => ?_, fun e => ?_⟩
      · simp only [Except.ok.injEq, Option.some.injEq]
        constructor
        · intro h; exact .inr ⟨trivial, by omega, h⟩
        · rintro (h | h)
          · omega
          · exact h.2.2
      · simp only [reduceCtorEq, false_iff, not_and]
        omega
  · simp only [hi, if_false, false_and, or_false]
    by_cases hl : i.toNat < row.length
    · rw [List.getElem?_eq_getElem hl]
      refine ⟨fun x => ?_, fun e => ?_⟩
      · simp only [Except.ok.injEq, Option.some.injEq]
        exact ⟨fun h => ⟨by omega, h⟩, fun h => h.2⟩
      · simp only [reduceCtorEq, false_iff, not_and]
        omega
    · rw [List.getElem?_eq_none (by omega)]
      refine ⟨fun x => by simp, fun e => ?_⟩
      simp only [Except.error.injEq]
      exact ⟨fun h => ⟨h.symm, by omega⟩, fun h => h.1.symm⟩

theorem mapM_forall2 {α β : Type} (f : α → Except PyErr β) (l : List α) :
    (∀ r, l.mapM f = .ok r → List.Forall₂ (fun a b => f a = .ok b) l r) ∧
    (∀ e, l.mapM f = .error e → ∃ a ∈ l, f a = .error e) := by
  induction l with
  | nil => exact ⟨fun r h => by simp [pure, Except.pure] at h; subst h; exact .nil, fun e h => by simp [pure, Except.pure] at h⟩
  | cons a l ih =>
    simp only [List.mapM_cons, bind, Except.bind, pure, Except.pure]
    cases ha : f a with
    | error e => exact ⟨fun r h => by simp at h, fun e' h => ⟨a, by simp, by simpa [ha] using h⟩⟩
    | ok b =>
      cases hl : l.mapM f with
      | error e =>
        refine ⟨fun r h => by simp at h, fun e' h => ?_⟩
        simp at h; subst h
        obtain ⟨x, hx, hfx⟩ := ih.2 e hl
        exact ⟨x, by simp [hx], hfx⟩
      | ok bs =>
        refine ⟨fun r h => ?_, fun e' h => by simp at h⟩
        simp at h; subst h
        exact .cons ha (ih.1 bs hl)

/-- **C59** With `-c` each row gives its chosen items, in the order asked for, separated by single blanks.  The rows are
written one by one: at the first row lacking one of the columns the command stops with an `IndexError`, leaving a file
with exactly the rows before it. -/
theorem C59_columns (header : List Char) (bare : Bool) (cols : List Int) (lines : List (List Char))
    (file : List (List Char)) (r : Except PyErr Unit) (h : refine header bare (some cols) lines = (file, r)) :
    ∃ rows good bad out, List.Forall₂ (fun l ts => Tokenises pySpace (beforeHash l) ts) lines rows ∧
      rows.filter (· ≠ []) = good ++ bad ∧ file = (if bare then [] else [header]) ++ out ∧
      List.Forall₂ (fun row line => ∃ items, List.Forall₂ (ColumnAt row) cols items ∧ line = join [' '] items) good out ∧
      ((r = .ok () ∧ bad = []) ∨
       (r = .error .indexError ∧ ∃ row rest, bad = row :: rest ∧ ∃ i ∈ cols, i ≥ row.length ∨ i < -row.length)) := by
  obtain ⟨rows, h1, h2⟩ := refineRows_spec lines
  have key : ∀ rs : List (List (List Char)), ∃ good bad,
      rs = good ++ bad ∧
      List.Forall₂ (fun row line => ∃ items, List.Forall₂ (ColumnAt row) cols items ∧ line = join [' '] items) good
        (refineWrite (some cols) rs).1 ∧
      (((refineWrite (some cols) rs).2 = .ok () ∧ bad = []) ∨
       ((refineWrite (some cols) rs).2 = .error .indexError ∧ ∃ row rest, bad = row :: rest ∧
          ∃ i ∈ cols, i ≥ row.length ∨ i < -row.length)) := by
    intro rs
    induction rs with
    | nil => exact ⟨[], [], rfl, .nil, .inl ⟨rfl, rfl⟩⟩
    | cons row rs ih =>
      obtain ⟨good, bad, a, b, c⟩ := ih
      simp only [refineWrite, pickItems]
      have hm := mapM_forall2 (fun i => pyIndex row i) cols
      cases hc : cols.mapM fun i => pyIndex row i with
      | error e =>
        obtain ⟨i, hi, he⟩ := hm.2 e hc
        obtain ⟨rfl, hr⟩ := ((pyIndex_spec row i).2 e).1 he
        exact ⟨[], row :: rs, rfl, .nil, .inr ⟨rfl, row, rs, rfl, i, hi, hr⟩⟩
      | ok items =>
        have := hm.1 items hc
        refine ⟨row :: good, bad, by rw [a]; rfl, .cons ⟨items, this.imp fun i x hx => ((pyIndex_spec row i).1 x).1 hx, rfl⟩ b, c⟩
  obtain ⟨good, bad, a, b, c⟩ := key (refineRows lines)
  simp only [refine, Prod.mk.injEq] at h
  refine ⟨rows, good, bad, _, h1, by rw [← h2, a], h.1.symm, b, ?_⟩
  rw [← h.2]
  exact c

theorem forall2_mem_right {α β : Type} {R : α → β → Prop} {l : List α} {m : List β} (h : List.Forall₂ R l m) (b : β)
    (hb : b ∈ m) : ∃ a ∈ l, R a b := by
  induction h with
  | nil => simp at hb
  | cons hab _ ih' =>
    simp only [List.mem_cons] at hb
    rcases hb with rfl | hb
    · exact ⟨_, by simp, hab⟩
    · obtain ⟨i, hi, h⟩ := ih' hb
      exact ⟨i, by simp [hi], h⟩

theorem refineRows_clean (lines : List (List Char)) (row : List (List Char)) (h : row ∈ refineRows lines) :
    row ≠ [] ∧ ∀ w ∈ row, w ≠ [] ∧ (∀ c ∈ w, pySpace c = false) ∧ '#' ∉ w := by
  simp only [refineRows, List.mem_filter, List.mem_map, words_strip] at h
  obtain ⟨⟨l, -, rfl⟩, hne⟩ := h
  refine ⟨by simpa using hne, fun w hw => ?_⟩
  obtain ⟨a, b, c⟩ := words_mem _ _ hw
  refine ⟨a, b, fun hh => ?_⟩
  obtain ⟨r, -, hr, -⟩ := C59_comment l
  exact hr (c _ hh)

/-- **C59** Refining again a bare result (obtained with or without `-c`, even a truncated one) changes nothing. -/
theorem C59_idempotent (h1 h2 : List Char) (cols : Option (List Int)) (hc : cols ≠ some []) (lines : List (List Char)) :
    refine h2 true none (refine h1 true cols lines).1 = ((refine h1 true cols lines).1, .ok ()) := by
  have key : ∀ out : List (List Char),
      (∀ l ∈ out, ∃ items : List (List Char), items ≠ [] ∧ (∀ w ∈ items, w ≠ [] ∧ (∀ c ∈ w, pySpace c = false) ∧ '#' ∉ w) ∧
        l = join [' '] items) → refine h2 true none out = (out, .ok ()) := by
    intro out ho
    have : refineRows out = out.map fun l => words l := by
      simp only [refineRows, words_strip]
      rw [List.filter_eq_self.2]
      · refine List.map_congr_left fun l hl => ?_
        obtain ⟨items, -, hw, rfl⟩ := ho l hl
        rw [beforeHash_free]
        intro hm
        rcases mem_join _ _ _ hm with hm | ⟨w, hw', hm⟩
        · simp at hm
        · exact (hw w hw').2.2 hm
      · intro ws hws
        obtain ⟨l, hl, rfl⟩ := List.mem_map.1 hws
        obtain ⟨items, hne, hw, rfl⟩ := ho l hl
        rw [beforeHash_free _ (by
          intro hm
          rcases mem_join _ _ _ hm with hm | ⟨w, hw', hm⟩
          · simp at hm
          · exact (hw w hw').2.2 hm)]
        rw [words_join_words ' ' (by decide) items fun w hw' => ⟨(hw w hw').1, (hw w hw').2.1⟩]
        simpa using hne
    simp only [refine, refineWrite_none, this, if_true, List.nil_append, List.map_map]
    rw [List.map_congr_left (g := id), List.map_id]
    intro l hl
    obtain ⟨items, -, hw, rfl⟩ := ho l hl
    simp only [Function.comp, id]
    rw [words_join_words ' ' (by decide) items fun w hw' => ⟨(hw w hw').1, (hw w hw').2.1⟩]
  apply key
  intro l hl
  simp only [refine, if_true, List.nil_append] at hl
  cases cols with
  | none =>
    rw [refineWrite_none] at hl
    obtain ⟨row, hr, rfl⟩ := List.mem_map.1 hl
    obtain ⟨a, b⟩ := refineRows_clean lines row hr
    exact ⟨row, a, b, rfl⟩
  | some cols =>
    have hne : cols ≠ [] := fun h => hc (by rw [h])
    have : ∀ rs : List (List (List Char)), (∀ row ∈ rs, ∀ w ∈ row, w ≠ [] ∧ (∀ c ∈ w, pySpace c = false) ∧ '#' ∉ w) →
        ∀ l ∈ (refineWrite (some cols) rs).1, ∃ items : List (List Char), items ≠ [] ∧
          (∀ w ∈ items, w ≠ [] ∧ (∀ c ∈ w, pySpace c = false) ∧ '#' ∉ w) ∧ l = join [' '] items := by
      intro rs
      induction rs with
      | nil => intro _ l hl; simp [refineWrite] at hl
      | cons row rs ih =>
        intro hrs l hl
        simp only [refineWrite, pickItems] at hl
        cases hcc : cols.mapM fun i => pyIndex row i with
        | error e => simp [hcc, Except.map] at hl
        | ok items =>
          simp only [hcc, Except.map, List.mem_cons] at hl
          rcases hl with rfl | hl
          · have hf := (mapM_forall2 (fun i => pyIndex row i) cols).1 items hcc
            refine ⟨items, ?_, ?_, rfl⟩
            · rintro rfl
              rw [List.forall₂_nil_right_iff] at hf
              exact hne hf
            · intro w hw
              obtain ⟨i, -, hi⟩ := forall2_mem_right hf w hw
              have hm : w ∈ row := by
                rcases ((pyIndex_spec row i).1 w).1 hi with h | h
                · exact List.mem_of_getElem? h.2
                · exact List.mem_of_getElem? h.2.2
              exact hrs row (by simp) w hm
          · exact ih (fun r hr => hrs r (by simp [hr])) l hl
    exact this _ (fun row hr => (refineRows_clean lines row hr).2) l hl

example : refine "# h".toList false (some [1, -1]) ["1 2  3 # x".toList, "# y".toList, "4 5".toList, "6".toList, "7 8".toList] =
    (["# h".toList, "2 3".toList, "5 5".toList], .error .indexError) := by decide

/-! ## C60: `tef-mixing --extend` -/

theorem zipStar_spec {α : Type} (ls : List (List α)) (h : ls ≠ []) :
    (∀ l ∈ ls, (zipStar ls).length ≤ l.length) ∧ (∃ l ∈ ls, (zipStar ls).length = l.length) ∧
    ∀ (i : Nat) (row : List α), (zipStar ls)[i]? = some row → List.Forall₂ (fun l x => l[i]? = some x) ls row := by
  induction ls with
  | nil => exact absurd rfl h
  | cons l ls ih =>
    cases ls with
    | nil =>
      refine ⟨by simp [zipStar], by simp [zipStar], fun i row hr => ?_⟩
      simp only [zipStar, List.getElem?_map, Option.map_eq_some_iff] at hr
      obtain ⟨x, hx, rfl⟩ := hr
      exact .cons hx .nil
    | cons l' ls =>
      obtain ⟨h1, ⟨m, hm, h2⟩, h3⟩ := ih (by simp)
      simp only [zipStar]
      refine ⟨?_, ?_, ?_⟩
      · intro k hk
        rw [List.length_zipWith]
        simp only [List.mem_cons] at hk
        rcases hk with rfl | hk
        · exact Nat.min_le_left _ _
        · exact (Nat.min_le_right _ _).trans (h1 k (by simpa using hk))
      · rw [List.length_zipWith]
        rcases Nat.le_total l.length (zipStar (l' :: ls)).length with hle | hle
        · exact ⟨l, by simp, Nat.min_eq_left hle⟩
        · exact ⟨m, by simp only [List.mem_cons] at hm ⊢; tauto, by rw [Nat.min_eq_right hle, h2]⟩
      · intro i row hr
        rw [List.getElem?_zipWith] at hr
        cases ha : l[i]? with
        | none => simp [ha] at hr
        | some x =>
          cases hb : (zipStar (l' :: ls))[i]? with
          | none => simp [ha, hb] at hr
          | some r =>
            simp only [ha, hb, Option.some.injEq] at hr
            subst hr
            exact .cons ha (h3 i r hb)

/-- **C60** Without padding the output has as many rows as the file with the fewest rows (all lines with
`--raw-extend`, otherwise the lines with something before their comment); row i joins, with single blanks, the stripped
i-th rows of all files in order. -/
theorem C60_plain (raw : Bool) (files : List (List (List Char))) (hf : files ≠ []) :
    let rowsOf := fun f : List (List Char) => if raw then f.map strip else (f.map fun l => strip (beforeHash l)).filter (· ≠ [])
    let out := extend raw none files
    (∀ f ∈ files, out.length ≤ (rowsOf f).length) ∧ (∃ f ∈ files, out.length = (rowsOf f).length) ∧
    ∀ (i : Nat) (line : List Char), out[i]? = some line → ∃ cells, line = join [' '] cells ∧
      List.Forall₂ (fun f c => (rowsOf f)[i]? = some c) files cells := by
  intro rowsOf out
  have he : ∀ f, extendRows raw f = rowsOf f := fun f => rfl
  obtain ⟨h1, ⟨m, hm, h2⟩, h3⟩ := zipStar_spec (files.map (extendRows raw)) (by simpa using hf)
  have hl : out.length = (zipStar (files.map (extendRows raw))).length := by simp [out, extend]
  refine ⟨fun f hm => ?_, ?_, ?_⟩
  · rw [hl]; exact h1 _ (List.mem_map.2 ⟨f, hm, rfl⟩)
  · obtain ⟨f, hf, rfl⟩ := List.mem_map.1 hm
    exact ⟨f, hf, by rw [hl, h2]; rfl⟩
  · intro i line hline
    simp only [out, extend, List.getElem?_map, Option.map_eq_some_iff] at hline
    obtain ⟨row, hr, rfl⟩ := hline
    exact ⟨row, rfl, List.forall₂_map_left_iff.1 (h3 i row hr)⟩

theorem foldl_max_spec (l : List Nat) (a : Nat) :
    (a ≤ l.foldl max a) ∧ (∀ x ∈ l, x ≤ l.foldl max a) ∧ (l.foldl max a = a ∨ l.foldl max a ∈ l) := by
  induction l generalizing a with
  | nil => simp
  | cons b l ih =>
    obtain ⟨h1, h2, h3⟩ := ih (max a b)
    simp only [List.foldl_cons, List.mem_cons]
    refine ⟨(le_max_left _ _).trans h1, ?_, ?_⟩
    · rintro x (rfl | hx)
      · exact (le_max_right _ _).trans h1
      · exact h2 x hx
    · rcases h3 with h3 | h3
      · rcases max_choice a b with hm | hm <;> rw [hm] at h3 ⊢
        · exact .inl h3
        · exact .inr (.inl h3)
      · exact .inr (.inr h3)

/-- the rows of tokens of a file -/
def tokenRows (f : List (List Char)) : List (List (List Char)) :=
  (f.map fun l => words (beforeHash l)).filter (· ≠ [])

/-- **C60** What `tokenRows` is: the maximal runs of non-blanks before the comment of each line, empty rows dropped. -/
theorem C60_tokens (f : List (List Char)) :
    ∃ rows, List.Forall₂ (fun l ts => Tokenises pySpace (beforeHash l) ts) f rows ∧ tokenRows f = rows.filter (· ≠ []) := by
  refine ⟨f.map fun l => words (beforeHash l), ?_, rfl⟩
  rw [List.forall₂_map_right_iff]
  exact List.forall₂_same.2 fun l _ => words_tokenises _

theorem padRows_eq (f : List (List Char)) :
    padRows f = ((tokenRows f).map (join ['\t']), (((tokenRows f).getLast?).map List.length).getD 0) := by
  simp only [padRows, tokenRows, words_strip]

/-- **C60** With padding the output has as many rows as the longest file; row i joins, with tabs, for each file in order
the tab-joined tokens of its i-th row, or, when the file has no such row, as many copies of the padding text as its last
row has tokens. -/
theorem C60_padding (raw : Bool) (pad : List Char) (files : List (List (List Char))) (hf : files ≠ []) :
    let out := extend raw (some pad) files
    (∀ f ∈ files, (tokenRows f).length ≤ out.length) ∧ (∃ f ∈ files, out.length = (tokenRows f).length) ∧
    ∀ (i : Nat) (line : List Char), out[i]? = some line → ∃ cells, line = join ['\t'] cells ∧
      List.Forall₂ (fun f c => (∃ ts, (tokenRows f)[i]? = some ts ∧ c = join ['\t'] ts) ∨
        ((tokenRows f)[i]? = none ∧
          c = join ['\t'] (List.replicate (((tokenRows f).getLast?).map List.length |>.getD 0) pad))) files cells := by
  intro out
  set n := ((files.map padRows).map fun d => d.1.length).foldl max 0 with hn
  obtain ⟨-, m1, m2⟩ := foldl_max_spec ((files.map padRows).map fun d => d.1.length) 0
  rw [← hn] at m1 m2
  have hlen : ∀ f ∈ files, (tokenRows f).length ≤ n := by
    intro f hf
    have := m1 (padRows f).1.length (by simpa using ⟨f, hf, rfl⟩)
    simpa [padRows_eq] using this
  have hpad : ∀ f ∈ files, (padTo pad n (padRows f)).length = n := by
    intro f hf
    have := hlen f hf
    simp [padTo, padRows_eq]; omega
  obtain ⟨h1, ⟨m, hm, h2⟩, h3⟩ := zipStar_spec ((files.map padRows).map (padTo pad n)) (by simpa using hf)
  have hl : out.length = n := by
    have : out.length = (zipStar ((files.map padRows).map (padTo pad n))).length := by simp only [out, extend, List.length_map]; rfl
    rw [this, h2]
    simp only [List.map_map, List.mem_map, Function.comp] at hm
    obtain ⟨f, hf, rfl⟩ := hm
    exact hpad f hf
  refine ⟨fun f hf => by rw [hl]; exact hlen f hf, ?_, ?_⟩
  · rcases m2 with m2 | m2
    · obtain ⟨f, hf'⟩ := List.exists_mem_of_ne_nil _ hf
      exact ⟨f, hf', by have := hlen f hf'; omega⟩
    · simp only [List.map_map, List.mem_map, Function.comp] at m2
      obtain ⟨f, hf', e⟩ := m2
      exact ⟨f, hf', by rw [hl, ← e, padRows_eq]; simp⟩
  · intro i line hline
    have hi : i < n := by
      rw [← hl]
      exact (List.getElem?_eq_some_iff.1 hline).1
    have hline' : ((zipStar ((files.map padRows).map (padTo pad n))).map (join ['\t']))[i]? = some line := hline
    simp only [List.getElem?_map, Option.map_eq_some_iff] at hline'
    obtain ⟨row, hr, rfl⟩ := hline'
    refine ⟨row, rfl, ?_⟩
    have := h3 i row hr
    rw [List.forall₂_map_left_iff, List.forall₂_map_left_iff] at this
    refine this.imp fun f c hc => ?_
    simp only [padTo, padRows_eq] at hc
    cases ht : (tokenRows f)[i]? with
    | some ts =>
      have hlt := (List.getElem?_eq_some_iff.1 ht).1
      rw [List.getElem?_append_left (by simpa using hlt)] at hc
      simp only [List.getElem?_map, ht, Option.map_some, Option.some.injEq] at hc
      exact .inl ⟨ts, rfl, hc.symm⟩
    | none =>
      have hge := List.getElem?_eq_none_iff.1 ht
      rw [List.getElem?_append_right (by simpa using hge)] at hc
      rw [List.getElem?_replicate] at hc
      split at hc
      · simp only [Option.some.injEq] at hc
        exact .inr ⟨rfl, hc.symm⟩
      · simp at hc

theorem tokenRows_clean (f : List (List Char)) (row : List (List Char)) (h : row ∈ tokenRows f) :
    ∀ w ∈ row, w ≠ [] ∧ ∀ c ∈ w, pySpace c = false := by
  simp only [tokenRows, List.mem_filter, List.mem_map] at h
  obtain ⟨⟨l, -, rfl⟩, -⟩ := h
  intro w hw
  obtain ⟨a, b, -⟩ := words_mem _ _ hw
  exact ⟨a, b⟩

/-- **C60** If every file has a constant number of columns and the padding text is a single token, every row of the padded
output has the same number of tokens: the sum of the numbers of columns. -/
theorem C60_rectangular (raw : Bool) (pad : List Char) (hp1 : pad ≠ []) (hp2 : ∀ c ∈ pad, pySpace c = false)
    (files : List (List (List Char))) (hf : files ≠ []) (ncol : List (List Char) → Nat)
    (hc : ∀ f ∈ files, tokenRows f ≠ [] ∧ ∀ row ∈ tokenRows f, row.length = ncol f) (line : List Char)
    (hl : line ∈ extend raw (some pad) files) : (words line).length = (files.map ncol).sum := by
  obtain ⟨i, hi⟩ := List.getElem?_of_mem hl
  obtain ⟨-, -, h3⟩ := C60_padding raw pad files hf
  obtain ⟨cells, rfl, h4⟩ := h3 i line hi
  rw [words_join '\t' (by decide)]
  clear hl hi h3 hf
  induction h4 with
  | nil => rfl
  | @cons f c fs cs hfc _ ih =>
    rw [List.map_cons, List.flatten_cons, List.length_append, List.map_cons, List.sum_cons,
      ih (fun g hg => hc g (by simp [hg]))]
    congr 1
    obtain ⟨hne, hrow⟩ := hc f (by simp)
    rcases hfc with ⟨ts, ht, rfl⟩ | ⟨-, rfl⟩
    · have hm := List.mem_of_getElem? ht
      rw [words_join_words '\t' (by decide) ts (tokenRows_clean f ts hm)]
      exact hrow ts hm
    · rw [words_join_words '\t' (by decide)]
      · rw [List.length_replicate, List.getLast?_eq_getLast_of_ne_nil hne]
        exact hrow _ (List.getLast_mem hne)
      · intro w hw
        rw [(List.mem_replicate.1 hw).2]
        exact ⟨hp1, hp2⟩

example : extend false none [["1 2 #a".toList, "# c".toList, "3 4".toList], ["5".toList, "6".toList, "7".toList]] =
    ["1 2 5".toList, "3 4 6".toList] := by decide
example : extend false (some "nan".toList) [["1 2".toList], ["5".toList, "6".toList]] =
    ["1\t2\t5".toList, "nan\tnan\t6".toList] := by decide

/-! ## C61: weights of `tef-mixing` -/

section Weights
variable {K : Type} [Field K] [LinearOrder K]

/-- **C61** A weight text made of digits only is read digit by digit (`'12'` is the two weights 1 and 2), any other text
is split at blanks and converted word by word; no text means equal weights. -/
theorem C61_weight (float : List Char → Except PyErr K) :
    mixWeight float none = .ok none ∧
    (∀ w : List Char, w ≠ [] → (∀ c ∈ w, isDigit c = true) →
      mixWeight float (some w) = .ok (some (w.map fun c => (digitVal c : K)))) ∧
    (∀ w : List Char, (w = [] ∨ ∃ c ∈ w, isDigit c = false) → ∃ ts, Tokenises pySpace w ts ∧
      mixWeight float (some w) = (ts.mapM float).map some) := by
  refine ⟨rfl, fun w h1 h2 => ?_, fun w h => ⟨words w, words_tokenises w, ?_⟩⟩
  · simp only [mixWeight]
    rw [if_pos ⟨h1, by simpa using h2⟩]
  · simp only [mixWeight]
    rw [if_neg]
    rintro ⟨h1, h2⟩
    rcases h with h | ⟨c, hc, h⟩
    · exact h1 h
    · have := List.all_eq_true.1 h2 c hc
      rw [h] at this
      exact absurd this (by simp)

/-- **C61** A scale below 1E-4 in size is "no scale" (normalised mixing); any other one is used as it is.  The command is
then `mixing` (C31) of the files with these weights. -/
theorem C61_scale (float : List Char → Except PyErr K) (datas : List (Arr K)) (weight : Option (List Char)) (scale : K)
    (w : Option (List K)) (hw : mixWeight float weight = .ok w) :
    (|scale| < 1 / 10000 → mixCommand float datas weight scale = mixing datas w none) ∧
    (1 / 10000 ≤ |scale| → mixCommand float datas weight scale = mixing datas w (some scale)) := by
  simp only [mixCommand, hw, bind, Except.bind, mixScale]
  exact ⟨fun h => by rw [if_pos h], fun h => by rw [if_neg (not_lt.2 h)]⟩

/-- **C61** A bad weight text is an error before anything is mixed; a digit text whose length is not the number of files
is a `ValueError`, also when it was meant as one number (`-w 10` for one file). -/
theorem C61_errors (float : List Char → Except PyErr K) (datas : List (Arr K)) (w : List Char) (scale : K) :
    (∀ e, mixWeight float (some w) = .error e → mixCommand float datas (some w) scale = .error e) ∧
    (w ≠ [] → (∀ c ∈ w, isDigit c = true) → w.length ≠ datas.length →
      mixCommand float datas (some w) scale = .error .valueError) := by
  refine ⟨fun e h => by simp only [mixCommand, h, bind, Except.bind], fun h1 h2 h3 => ?_⟩
  have := (C61_weight float).2.1 w h1 h2
  simp only [mixCommand, this, bind, Except.bind, mixing, Mathext.mixWeights, List.length_map]
  rw [if_pos h3]

end Weights

example : mixCommand (K := ℚ) (fun _ => .error .valueError) [⟨false, [2], [1, 2]⟩, ⟨false, [2], [5, 6]⟩] (some "13".toList) 0 =
    .ok ⟨false, [2], [4, 5]⟩ := by decide +kernel
example : mixCommand (K := ℚ) (fun _ => .error .valueError) [⟨false, [2], [1, 2]⟩] (some "10".toList) 0 =
    .error .valueError := by decide +kernel

end TEflow.Interface
