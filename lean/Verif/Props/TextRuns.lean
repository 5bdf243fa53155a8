import Verif.Model.TextRuns
import Verif.Props.ToolRuns
import Verif.Props.InterfaceText
import Verif.Props.InterfaceNames

/-! # C119: runs of `tef-refine` and `tef-mixing --extend` on files -/

set_option linter.unusedSimpArgs false
set_option linter.unusedVariables false

namespace TEflow.TextRuns

open Loader Interface TableFile ToolRuns

/-! ## The cells of a text -/

/-- the table in a text: for every line the maximal runs of non-blanks before its comment, lines without any dropped (`C60_tokens`) -/
def cells (text : List Char) : List (List (List Char)) := tokenRows (linesOf text)

/-- reading a table of cells as numbers: every cell must be a number, all rows equally long -/
def readCells {V : Type} (float : List Char → Except PyErr V) (rows : List (List (List Char))) : Except PyErr (List (List V)) := do
  let rows ← rows.mapM fun r => r.mapM float
  if rectangular rows then return rows else throw .valueError

/-- `np.loadtxt` depends on the cells only -/
theorem loadtxt_cells {V : Type} (float : List Char → Except PyErr V) (text : List Char) :
    loadtxt float text = readCells float (cells text) := rfl

theorem linesGo_free (cur text : List Char) (h : '\n' ∉ cur) : ∀ l ∈ linesGo cur text, '\n' ∉ l := by
  induction text generalizing cur with
  | nil =>
    intro l hl
    unfold linesGo at hl
    split at hl
    · cases hl
    · rw [List.mem_singleton] at hl; subst hl; simpa using h
  | cons c cs ih =>
    intro l hl
    unfold linesGo at hl
    split at hl
    · rw [List.mem_cons] at hl
      rcases hl with rfl | hl
      · simpa using h
      · exact ih [] (by simp) l hl
    · rename_i hc
      exact ih (c :: cur) (by simp [Ne.symm hc, h]) l hl

theorem linesOf_free (text : List Char) : ∀ l ∈ linesOf text, '\n' ∉ l := linesGo_free [] text (by simp)

/-- a clean cell -/
def CleanCell (w : List Char) : Prop := w ≠ [] ∧ (∀ c ∈ w, pySpace c = false) ∧ '#' ∉ w

theorem tokenRows_cleanCell (f : List (List Char)) (row : List (List Char)) (h : row ∈ tokenRows f) : row ≠ [] ∧ ∀ w ∈ row, CleanCell w := by
  simp only [tokenRows, List.mem_filter, List.mem_map] at h
  obtain ⟨⟨l, -, rfl⟩, hne⟩ := h
  refine ⟨by simpa using hne, fun w hw => ?_⟩
  obtain ⟨a, b, c⟩ := words_mem _ _ hw
  refine ⟨a, b, fun hh => ?_⟩
  obtain ⟨r, -, hr, -⟩ := C59_comment l
  exact hr (c _ hh)

theorem refineRows_eq (lines : List (List Char)) : refineRows lines = tokenRows lines := by
  simp only [refineRows, tokenRows, words_strip]

theorem join_hash (s : Char) (hs : s ≠ '#') (row : List (List Char)) (h : ∀ w ∈ row, '#' ∉ w) : '#' ∉ join [s] row := by
  intro hm
  rcases mem_join _ _ _ hm with hm | ⟨w, hw, hm⟩
  · rw [List.mem_singleton] at hm; exact hs hm.symm
  · exact h w hw hm

theorem join_newline (s : Char) (hs : s ≠ '\n') (row : List (List Char)) (h : ∀ w ∈ row, '\n' ∉ w) : '\n' ∉ join [s] row := by
  intro hm
  rcases mem_join _ _ _ hm with hm | ⟨w, hw, hm⟩
  · rw [List.mem_singleton] at hm; exact hs hm.symm
  · exact h w hw hm

theorem CleanCell.newline {w : List Char} (h : CleanCell w) : '\n' ∉ w := fun hm => by
  have := h.2.1 _ hm
  revert this; decide

/-- comment lines and lines with given cells -/
theorem tokenRows_append (a b : List (List Char)) : tokenRows (a ++ b) = tokenRows a ++ tokenRows b := by
  simp [tokenRows]

theorem tokenRows_comments (hs : List (List Char)) (h : ∀ l ∈ hs, l.head? = some '#') : tokenRows hs = [] := by
  unfold tokenRows
  rw [List.filter_eq_nil_iff]
  intro w hw
  obtain ⟨l, hl, rfl⟩ := List.mem_map.1 hw
  simp [words_comment l (h l hl)]

/-- the lines `ls` hold the rows `rows` -/
theorem tokenRows_of (ls : List (List Char)) (rows : List (List (List Char)))
    (h : List.Forall₂ (fun l r => '#' ∉ l ∧ words l = r ∧ r ≠ []) ls rows) : tokenRows ls = rows := by
  induction h with
  | nil => rfl
  | @cons l r ls rows h1 _ ih =>
    obtain ⟨a, b, c⟩ := h1
    have : tokenRows (l :: ls) = r :: tokenRows ls := by
      unfold tokenRows
      rw [List.map_cons, beforeHash_free l a, b, List.filter_cons_of_pos (by simpa using c)]
    rw [this, ih]

/-- the cells of a file written line by line behind comment lines -/
theorem cells_textOf (hs ls : List (List Char)) (rows : List (List (List Char))) (h0 : ∀ l ∈ hs, l.head? = some '#' ∧ '\n' ∉ l)
    (h1 : ∀ l ∈ ls, '\n' ∉ l) (h : List.Forall₂ (fun l r => '#' ∉ l ∧ words l = r ∧ r ≠ []) ls rows) :
    cells (textOf (hs ++ ls)) = rows := by
  unfold cells textOf
  rw [linesOf_lines _ (by
    intro l hl
    rw [List.mem_append] at hl
    rcases hl with hl | hl
    · exact (h0 l hl).2
    · exact h1 l hl), tokenRows_append, tokenRows_comments hs fun l hl => (h0 l hl).1, List.nil_append]
  exact tokenRows_of ls rows h

theorem joined_rows (s : Char) (h1 : s ≠ '#') (h2 : s ≠ '\n') (h3 : pySpace s = true) (rows : List (List (List Char)))
    (h : ∀ r ∈ rows, r ≠ [] ∧ ∀ w ∈ r, CleanCell w) :
    (∀ l ∈ rows.map (join [s]), '\n' ∉ l) ∧ List.Forall₂ (fun l r => '#' ∉ l ∧ words l = r ∧ r ≠ []) (rows.map (join [s])) rows := by
  refine ⟨fun l hl => ?_, ?_⟩
  · obtain ⟨r, hr, rfl⟩ := List.mem_map.1 hl
    exact join_newline s h2 r fun w hw => ((h r hr).2 w hw).newline
  · rw [List.forall₂_map_left_iff, List.forall₂_same]
    intro r hr
    refine ⟨join_hash s h1 r fun w hw => ((h r hr).2 w hw).2.2, ?_, (h r hr).1⟩
    exact words_join_words s h3 r fun w hw => ⟨((h r hr).2 w hw).1, ((h r hr).2 w hw).2.1⟩

/-! ## `tef-refine` -/

section Refine
variable (int : List Char → Except PyErr Int) (info : List Char)

/-- the files after a run -/
def refined (o : RefineOptions) (fs : Files) : Files := (doRefine int info o fs).1

/-- **C119** A run of `tef-refine` changes no file but its output file.  If the input is missing or a column is not a number, it fails
and nothing is changed at all; no other failure than an `IndexError` is possible after that. -/
theorem C119_refine_frame (o : RefineOptions) (fs : Files) :
    (∀ n, n ≠ o.output → refined int info o fs n = fs n) ∧
    (fs o.inputfile = none → doRefine int info o fs = (fs, .error .ioError)) ∧
    (∀ e, fs o.inputfile ≠ none → o.column ≠ [] → (words o.column).mapM int = .error e → doRefine int info o fs = (fs, .error e)) ∧
    (∀ e, (doRefine int info o fs).2 = .error e →
      (fs o.inputfile = none ∧ e = .ioError) ∨ (o.column ≠ [] ∧ ((words o.column).mapM int = .error e ∨ e = .indexError))) := by
  have hu : ∀ e, o.column ≠ [] → (words o.column).mapM int = .error e → usecols int o.column = .error e := by
    intro e h1 h2
    unfold usecols
    rw [if_neg h1, h2]; rfl
  refine ⟨fun n hn => ?_, fun h => ?_, fun e h0 h1 h2 => ?_, fun e he => ?_⟩
  · unfold refined doRefine
    cases fs o.inputfile with
    | none => rfl
    | some t =>
      simp only
      cases usecols int o.column with
      | error e => rfl
      | ok c => simp only [Files.write, if_neg hn]
  · unfold doRefine; rw [h]
  · unfold doRefine
    cases h : fs o.inputfile with
    | none => exact absurd h h0
    | some t => simp only [hu e h1 h2]
  · unfold doRefine at he
    cases h : fs o.inputfile with
    | none => rw [h] at he; simp only [Except.error.injEq] at he; exact .inl ⟨rfl, he.symm⟩
    | some t =>
      rw [h] at he
      simp only at he
      right
      by_cases hc : o.column = []
      · have : usecols int o.column = .ok none := by unfold usecols; rw [if_pos hc]
        rw [this] at he
        simp only [refine, refineWrite_none] at he
        cases he
      · refine ⟨hc, ?_⟩
        cases hm : (words o.column).mapM int with
        | error e' =>
          rw [hu e' hc hm] at he
          simp only [Except.error.injEq] at he
          exact .inl (by rw [he])
        | ok cols =>
          have : usecols int o.column = .ok (some cols) := by unfold usecols; rw [if_neg hc, hm]; rfl
          rw [this] at he
          simp only at he
          obtain ⟨rows, good, bad, out, -, -, -, -, h5⟩ := C59_columns ("# Refined data - ".toList ++ info) o.bare cols (linesOf t)
            (refine ("# Refined data - ".toList ++ info) o.bare (some cols) (linesOf t)).1 (refine ("# Refined data - ".toList ++ info) o.bare (some cols) (linesOf t)).2 rfl
          rcases h5 with ⟨h5, -⟩ | ⟨h5, -⟩
          · rw [h5] at he; cases he
          · rw [h5] at he
            simp only [Except.error.injEq] at he
            exact .inr he.symm

theorem header_ok (bare : Bool) (hi : '\n' ∉ info) :
    ∀ l ∈ (if bare then [] else ["# Refined data - ".toList ++ info]), l.head? = some '#' ∧ '\n' ∉ l := by
  intro l hl
  cases bare with
  | true => cases hl
  | false =>
    simp only [Bool.false_eq_true, if_false, List.mem_singleton] at hl
    subst hl
    refine ⟨rfl, ?_⟩
    rw [List.mem_append, not_or]
    exact ⟨by decide, hi⟩

/-- without `-c` -/
theorem doRefine_plain (o : RefineOptions) (fs : Files) (text : List Char) (h : fs o.inputfile = some text) (hc : o.column = []) :
    doRefine int info o fs = (fs.write o.output (textOf ((if o.bare then [] else ["# Refined data - ".toList ++ info]) ++
      (cells text).map (join [' ']))), .ok ()) := by
  unfold doRefine usecols
  rw [h]
  simp only [hc, if_true, refine, refineWrite_none, refineRows_eq]
  rfl

/-- **C119** Without `-c` a run of `tef-refine` on a file that exists succeeds, and its output has the cells of the input: whatever the
reading of numbers, `np.loadtxt` makes the same of both files, be it a table or a failure. -/
theorem C119_refine_same {V : Type} (float : List Char → Except PyErr V) (o : RefineOptions) (fs : Files) (text : List Char)
    (h : fs o.inputfile = some text) (hc : o.column = []) (hi : '\n' ∉ info) :
    (doRefine int info o fs).2 = .ok () ∧
    ∃ out, refined int info o fs o.output = some out ∧ cells out = cells text ∧ loadtxt float out = loadtxt float text ∧
      (o.bare = true → '#' ∉ out) := by
  unfold refined
  rw [doRefine_plain int info o fs text h hc]
  have hcl : ∀ r ∈ cells text, r ≠ [] ∧ ∀ w ∈ r, CleanCell w := fun r hr => tokenRows_cleanCell _ r hr
  obtain ⟨j1, j2⟩ := joined_rows ' ' (by decide) (by decide) (by decide) (cells text) hcl
  have := cells_textOf _ _ _ (header_ok info o.bare hi) j1 j2
  refine ⟨rfl, _, if_pos rfl, this, by rw [loadtxt_cells, this, loadtxt_cells], fun hb hm => ?_⟩
  simp only [hb, if_true, List.nil_append, textOf, List.mem_flatten, List.mem_map] at hm
  obtain ⟨l, ⟨_, ⟨r, hr, rfl⟩, rfl⟩, hm⟩ := hm
  rw [List.mem_append] at hm
  rcases hm with hm | hm
  · exact join_hash ' ' (by decide) r (fun w hw => ((hcl r hr).2 w hw).2.2) hm
  · simp at hm

theorem forall₂_mem {α β : Type} {R : α → β → Prop} {l : List α} {m : List β} (h : List.Forall₂ R l m) : ∀ a ∈ l, ∃ b ∈ m, R a b := by
  induction h with
  | nil => simp
  | @cons a b l m hab _ ih =>
    intro x hx
    rw [List.mem_cons] at hx
    rcases hx with rfl | hx
    · exact ⟨b, by simp, hab⟩
    · obtain ⟨y, hy, hr⟩ := ih x hx
      exact ⟨y, by simp [hy], hr⟩

theorem columnsAt {α : Type} {row : List α} {cols : List Int} {items : List α} (h : List.Forall₂ (ColumnAt row) cols items) :
    (∀ w ∈ items, w ∈ row) ∧ ∀ i ∈ cols, i < row.length ∧ -(row.length : Int) ≤ i := by
  induction h with
  | nil => simp
  | @cons i x cols items hx _ ih =>
    refine ⟨fun w hw => ?_, fun j hj => ?_⟩
    · rw [List.mem_cons] at hw
      rcases hw with rfl | hw
      · rcases hx with ⟨-, h'⟩ | ⟨-, -, h'⟩ <;> exact List.mem_of_getElem? h'
      · exact ih.1 w hw
    · rw [List.mem_cons] at hj
      rcases hj with rfl | hj
      · rcases hx with ⟨a, b⟩ | ⟨a, b, c⟩
        · have := (List.getElem?_eq_some_iff.1 b).1
          omega
        · omega
      · exact ih.2 j hj

/-- **C119** With `-c` (at least one column) the output holds, for the rows up to the first that is too short, the cells picked from the
input; the rows from there on are not in the file, and the command then fails with an `IndexError`. -/
theorem C119_refine_columns (o : RefineOptions) (fs : Files) (text : List Char) (h : fs o.inputfile = some text) (cols : List Int)
    (hc : o.column ≠ []) (hcols : (words o.column).mapM int = .ok cols) (hne : cols ≠ []) (hi : '\n' ∉ info) :
    ∃ out good bad, refined int info o fs o.output = some out ∧ cells text = good ++ bad ∧
      List.Forall₂ (fun row picked => List.Forall₂ (ColumnAt row) cols picked) good (cells out) ∧
      (((doRefine int info o fs).2 = .ok () ∧ bad = []) ∨
       ((doRefine int info o fs).2 = .error .indexError ∧ ∃ row rest, bad = row :: rest ∧ ∃ i ∈ cols, i ≥ row.length ∨ i < -row.length)) := by
  have hu : usecols int o.column = .ok (some cols) := by unfold usecols; rw [if_neg hc, hcols]; rfl
  have hd : doRefine int info o fs = (fs.write o.output (textOf (refine ("# Refined data - ".toList ++ info) o.bare (some cols) (linesOf text)).1),
      (refine ("# Refined data - ".toList ++ info) o.bare (some cols) (linesOf text)).2) := by
    unfold doRefine; rw [h]; simp only [hu]
  obtain ⟨rows, good, bad, out, h1, h2, h3, h4, h5⟩ := C59_columns ("# Refined data - ".toList ++ info) o.bare cols (linesOf text)
    (refine ("# Refined data - ".toList ++ info) o.bare (some cols) (linesOf text)).1 (refine ("# Refined data - ".toList ++ info) o.bare (some cols) (linesOf text)).2 rfl
  have hrows : cells text = rows.filter (· ≠ []) := by
    have : rows = (linesOf text).map fun l => words (beforeHash l) := by
      clear h2 hd h3 h5 h
      revert h1
      generalize linesOf text = ls
      intro h1
      induction h1 with
      | nil => rfl
      | cons a _ ih => rw [List.map_cons, ← ih, words_eq, (tokenises_iff _ _ _).1 a]
    rw [this]; rfl
  have hgood : ∀ r ∈ good, r ≠ [] ∧ ∀ w ∈ r, CleanCell w := fun r hr => tokenRows_cleanCell (linesOf text) r (by
    have : r ∈ cells text := by rw [hrows, h2]; simp [hr]
    exact this)
  have hpick : ∃ picks : List (List (List Char)), List.Forall₂ (fun row picked => List.Forall₂ (ColumnAt row) cols picked) good picks ∧ out = picks.map (join [' ']) ∧
      ∀ r ∈ picks, r ≠ [] ∧ ∀ w ∈ r, CleanCell w := by
    clear h2 h3 h5
    induction h4 with
    | nil => exact ⟨[], .nil, rfl, by simp⟩
    | @cons row line good out ha _ ih =>
      obtain ⟨items, hit, rfl⟩ := ha
      obtain ⟨picks, p1, p2, p3⟩ := ih fun r hr => hgood r (by simp [hr])
      refine ⟨items :: picks, .cons hit p1, by rw [p2, List.map_cons], fun r hr => ?_⟩
      rw [List.mem_cons] at hr
      rcases hr with rfl | hr
      · refine ⟨?_, fun w hw => ?_⟩
        · rintro rfl
          cases hit
          exact hne rfl
        · exact (hgood row (by simp)).2 w ((columnsAt hit).1 w hw)
      · exact p3 r hr
  obtain ⟨picks, p1, p2, p3⟩ := hpick
  obtain ⟨j1, j2⟩ := joined_rows ' ' (by decide) (by decide) (by decide) picks p3
  have hcells := cells_textOf _ _ _ (header_ok info o.bare hi) j1 j2
  refine ⟨_, good, bad, by unfold refined; rw [hd]; exact if_pos rfl, by rw [hrows, h2], ?_, ?_⟩
  · rw [h3, p2, hcells]; exact p1
  · rw [hd]; exact h5

/-- **C119** An output file of its own: running `tef-refine` again, with the same options, changes nothing and ends the same way. -/
theorem C119_refine_again (o : RefineOptions) (fs : Files) (hio : o.inputfile ≠ o.output) :
    doRefine int info o (refined int info o fs) = doRefine int info o fs := by
  have hin := (C119_refine_frame int info o fs).1 _ hio
  have key : ∀ fs' : Files, fs' o.inputfile = fs o.inputfile → (∀ n, n ≠ o.output → fs' n = fs n) → fs' o.output = refined int info o fs o.output →
      doRefine int info o fs' = doRefine int info o fs ∨ (fs' = fs) := by
    intro fs' h1 h2 h3
    unfold refined at h3
    unfold doRefine at h3 ⊢
    rw [h1]
    cases hx : fs o.inputfile with
    | none =>
      rw [hx] at h3
      refine .inr (funext fun n => ?_)
      by_cases hn : n = o.output
      · rw [hn, h3]
      · exact h2 n hn
    | some t =>
      rw [hx] at h3
      simp only at h3 ⊢
      cases hu : usecols int o.column with
      | error e =>
        rw [hu] at h3
        refine .inr (funext fun n => ?_)
        by_cases hn : n = o.output
        · rw [hn, h3]
        · exact h2 n hn
      | ok c =>
        rw [hu] at h3
        refine .inl ?_
        simp only
        congr 1
        funext n
        unfold Files.write
        by_cases hn : n = o.output
        · rw [if_pos hn, if_pos hn]
        · rw [if_neg hn, if_neg hn, h2 n hn]
  rcases key (refined int info o fs) hin (fun n hn => (C119_refine_frame int info o fs).1 n hn) rfl with h | h
  · exact h
  · rw [h]

/-- **C119** A file refined in place, without `-c`: after the first run every further run leaves it as it is. -/
theorem C119_refine_in_place (o : RefineOptions) (fs : Files) (hio : o.inputfile = o.output) (hc : o.column = []) (hi : '\n' ∉ info)
    (hex : fs o.inputfile ≠ none) (k : Nat) :
    (refined int info o)^[k + 1] fs = refined int info o fs ∧ (doRefine int info o ((refined int info o)^[k] fs)).2 = .ok () := by
  obtain ⟨text, ht⟩ := Option.ne_none_iff_exists'.1 hex
  have step : refined int info o (refined int info o fs) = refined int info o fs := by
    obtain ⟨out, h1, h2, -⟩ := (C119_refine_same int info (fun _ => (.ok 0 : Except PyErr ℚ)) o fs text ht hc hi).2
    have e1 : refined int info o fs = fs.write o.output (textOf ((if o.bare then [] else ["# Refined data - ".toList ++ info]) ++ (cells text).map (join [' ']))) := by
      unfold refined; rw [doRefine_plain int info o fs text ht hc]
    have h1' : refined int info o fs o.inputfile = some out := by rw [hio]; exact h1
    have e2 : refined int info o (refined int info o fs) = (refined int info o fs).write o.output (textOf ((if o.bare then [] else ["# Refined data - ".toList ++ info]) ++ (cells out).map (join [' ']))) := by
      show (doRefine int info o (refined int info o fs)).1 = _
      rw [doRefine_plain int info o _ out h1' hc]
    rw [e2, h2]
    apply write_same
    rw [e1]
    exact if_pos rfl
  have hk : ∀ k, (refined int info o)^[k + 1] fs = refined int info o fs := by
    intro k
    induction k with
    | zero => rfl
    | succ k ih => rw [Function.iterate_succ_apply', ih, step]
  refine ⟨hk k, ?_⟩
  have : ∃ t, (refined int info o)^[k] fs o.inputfile = some t := by
    cases k with
    | zero => exact ⟨text, ht⟩
    | succ k =>
      rw [hk k, hio]
      obtain ⟨out, h1, -⟩ := (C119_refine_same int info (fun _ => (.ok 0 : Except PyErr ℚ)) o fs text ht hc hi).2
      exact ⟨out, h1⟩
  obtain ⟨t, ht'⟩ := this
  rw [doRefine_plain int info o _ t ht' hc]

/-- **C119** A file refined in place with a column some row does not have: that row and all rows after it are lost for good — the file
holds only the picked cells of the rows before. -/
theorem C119_refine_loss (o : RefineOptions) (fs : Files) (text : List Char) (h : fs o.inputfile = some text) (cols : List Int)
    (hio : o.inputfile = o.output) (hc : o.column ≠ []) (hcols : (words o.column).mapM int = .ok cols) (hne : cols ≠ []) (hi : '\n' ∉ info)
    (good rest : List (List (List Char))) (row : List (List Char)) (hsplit : cells text = good ++ row :: rest)
    (hgood : ∀ r ∈ good, ∀ i ∈ cols, i < r.length ∧ -r.length ≤ i) (hrow : ∃ i ∈ cols, i ≥ row.length ∨ i < -row.length) :
    (doRefine int info o fs).2 = .error .indexError ∧
    ∃ out, refined int info o fs o.inputfile = some out ∧ (cells out).length = good.length ∧
      List.Forall₂ (fun row picked => List.Forall₂ (ColumnAt row) cols picked) good (cells out) := by
  obtain ⟨out, good', bad', h1, h2, h3, h4⟩ := C119_refine_columns int info o fs text h cols hc hcols hne hi
  have hall : ∀ r ∈ good', ∀ i ∈ cols, i < r.length ∧ -(r.length : Int) ≤ i := by
    intro r hr i hi'
    obtain ⟨p, -, hp⟩ := forall₂_mem h3 r hr
    exact (columnsAt hp).2 i hi'
  have heq : good' = good ∧ bad' = row :: rest := by
    rw [hsplit] at h2
    rcases List.append_eq_append_iff.1 h2.symm with ⟨a, ha1, ha2⟩ | ⟨a, ha1, ha2⟩
    · -- good = good' ++ a, bad' = a ++ row :: rest
      rcases h4 with ⟨-, h4⟩ | ⟨-, row', rest', h4, i, hi1, hi2⟩
      · rw [h4] at ha2
        simp at ha2
      · cases a with
        | nil => exact ⟨by simpa using ha1.symm, by simpa using ha2⟩
        | cons x a =>
          rw [h4, List.cons_append, List.cons.injEq] at ha2
          have := hgood row' (by rw [ha1, ha2.1]; simp) i hi1
          omega
    · cases a with
      | nil => exact ⟨by simpa using ha1, by simpa using ha2.symm⟩
      | cons x a =>
        rw [List.cons_append, List.cons.injEq] at ha2
        obtain ⟨i, hi1, hi2⟩ := hrow
        have := hall row (by rw [ha1, ha2.1]; simp) i hi1
        omega
  obtain ⟨rfl, rfl⟩ := heq
  rcases h4 with ⟨-, h4⟩ | ⟨h4, -⟩
  · cases h4
  · exact ⟨h4, out, by rw [hio]; exact h1, h3.length_eq.symm, h3⟩

end Refine

/-! ## `tef-mixing --extend` -/

section Extend
variable (info : List Char)

theorem toks_ne (acc s : List Char) (h : acc ≠ []) : toks pySpace acc s ≠ [] := by
  induction s generalizing acc with
  | nil => simp [toks, flush, h]
  | cons c s ih =>
    unfold toks
    split
    · simp [flush, h]
    · exact ih _ (by simp)

theorem words_nil (s : List Char) (h : words s = []) : ∀ c ∈ s, pySpace c = true := by
  rw [words_eq] at h
  induction s with
  | nil => simp
  | cons c s ih =>
    unfold toks at h
    split at h
    · rename_i hc
      simp only [flush, List.isEmpty_nil, if_true, List.nil_append] at h
      intro d hd
      rw [List.mem_cons] at hd
      rcases hd with rfl | hd
      · exact hc
      · exact ih h d hd
    · exact absurd h (toks_ne _ _ (by simp))

theorem strip_nil (s : List Char) : strip s = [] ↔ words s = [] := by
  refine ⟨fun h => by rw [← words_strip, h]; rfl, fun h => ?_⟩
  have := words_nil s h
  unfold strip
  rw [List.dropWhile_eq_nil_iff.2 this]
  rfl

theorem strip_mem (s : List Char) (c : Char) (h : c ∈ strip s) : c ∈ s := by
  unfold strip rstrip at h
  rw [List.mem_reverse] at h
  have := (List.dropWhile_sublist _).subset h
  rw [List.mem_reverse] at this
  exact (List.dropWhile_sublist _).subset this

/-- the rows of one file in the simple mode -/
theorem extendRows_words (f : List (List Char)) : (extendRows false f).map words = tokenRows f := by
  unfold extendRows tokenRows
  simp only [Bool.false_eq_true, if_false]
  induction f with
  | nil => rfl
  | cons l f ih =>
    simp only [List.map_cons]
    by_cases h : words (beforeHash l) = []
    · rw [List.filter_cons_of_neg (by simp [(strip_nil _).2 h]), List.filter_cons_of_neg (by simp [h]), ih]
    · rw [List.filter_cons_of_pos (by simpa [strip_nil] using h), List.filter_cons_of_pos (by simpa using h), List.map_cons, ih, words_strip]

theorem extendRows_chars (f : List (List Char)) (hf : ∀ l ∈ f, '\n' ∉ l) : ∀ l ∈ extendRows false f, '#' ∉ l ∧ '\n' ∉ l ∧ words l ≠ [] := by
  intro l hl
  unfold extendRows at hl
  simp only [Bool.false_eq_true, if_false, List.mem_filter, List.mem_map] at hl
  obtain ⟨⟨l', h1, rfl⟩, h2⟩ := hl
  obtain ⟨r, hr, hr', -⟩ := C59_comment l'
  refine ⟨fun h => hr' (strip_mem _ _ h), fun h => hf l' h1 (by rw [hr]; simp [strip_mem _ _ h]), fun h => ?_⟩
  rw [words_strip] at h
  simp [(strip_nil _).2 h] at h2

theorem zipStar_map {α β : Type} (g : α → β) (ls : List (List α)) : zipStar (ls.map (List.map g)) = (zipStar ls).map (List.map g) := by
  induction ls with
  | nil => rfl
  | cons l ls ih =>
    cases ls with
    | nil => simp [zipStar]
    | cons l' ls =>
      simp only [List.map_cons] at ih ⊢
      simp only [zipStar, ih, List.map_zipWith, List.zipWith_map, List.map_cons]

theorem zipStar_mem {α : Type} (ls : List (List α)) (row : List α) (h : row ∈ zipStar ls) : List.Forall₂ (fun l x => x ∈ l) ls row := by
  cases ls with
  | nil => cases h
  | cons l ls =>
    obtain ⟨i, hi⟩ := List.getElem?_of_mem h
    exact ((zipStar_spec (l :: ls) (by simp)).2.2 i row hi).imp fun _ _ hx => List.mem_of_getElem? hx

theorem zipStar_rel {α β : Type} {R : α → β → Prop} {ls : List (List α)} {ms : List (List β)} (h : List.Forall₂ (List.Forall₂ R) ls ms) :
    List.Forall₂ (List.Forall₂ R) (zipStar ls) (zipStar ms) := by
  induction h with
  | nil => exact .nil
  | @cons l m ls ms h1 h2 ih =>
    cases h2 with
    | nil =>
      simp only [zipStar, List.forall₂_map_left_iff, List.forall₂_map_right_iff]
      exact h1.imp fun _ _ hx => .cons hx .nil
    | @cons l' m' ls' ms' h3 h4 =>
      simp only [zipStar]
      generalize zipStar (l' :: ls') = z at ih
      generalize zipStar (m' :: ms') = y at ih
      clear h3 h4
      induction h1 generalizing z y with
      | nil => exact .nil
      | cons a _ ih' =>
        cases ih with
        | nil => exact .nil
        | cons b hb => exact .cons (.cons a b) (ih' _ _ hb)

theorem flatten_rel {α β : Type} {R : α → β → Prop} {ls : List (List α)} {ms : List (List β)} (h : List.Forall₂ (List.Forall₂ R) ls ms) :
    List.Forall₂ R ls.flatten ms.flatten := by
  induction h with
  | nil => exact .nil
  | cons a _ ih => rw [List.flatten_cons, List.flatten_cons]; exact List.rel_append a ih

/-- tables side by side: as many rows as the shortest table, row i made of the i-th rows of all of them, in order -/
def SideBySide {α : Type} (tables : List (List (List α))) (out : List (List α)) : Prop :=
  (∀ t ∈ tables, out.length ≤ t.length) ∧ (∃ t ∈ tables, out.length = t.length) ∧
  ∀ (i : Nat) (row : List α), out[i]? = some row → ∃ parts, List.Forall₂ (fun (t : List (List α)) p => t[i]? = some p) tables parts ∧ row = parts.flatten

/-- tables side by side with padding: as many rows as the longest table; a table without an i-th row gives as many padding entries as its
last row is long -/
def SideBySidePadded {α : Type} (pad : α) (tables : List (List (List α))) (out : List (List α)) : Prop :=
  (∀ t ∈ tables, t.length ≤ out.length) ∧ (∃ t ∈ tables, out.length = t.length) ∧
  ∀ (i : Nat) (row : List α), out[i]? = some row → ∃ parts, List.Forall₂ (fun (t : List (List α)) p => t[i]? = some p ∨
    (t[i]? = none ∧ p = List.replicate ((t.getLast?.map List.length).getD 0) pad)) tables parts ∧ row = parts.flatten

theorem sideBySide_zip {α : Type} (tables : List (List (List α))) (h : tables ≠ []) : SideBySide tables ((zipStar tables).map List.flatten) := by
  obtain ⟨h1, h2, h3⟩ := zipStar_spec tables h
  refine ⟨by simpa using h1, by simpa using h2, fun i row hr => ?_⟩
  rw [List.getElem?_map, Option.map_eq_some_iff] at hr
  obtain ⟨parts, hp, rfl⟩ := hr
  exact ⟨parts, h3 i parts hp, rfl⟩

/-- one table padded to `n` rows -/
def padCells {α : Type} (pad : α) (n : Nat) (t : List (List α)) : List (List α) :=
  t ++ List.replicate (n - t.length) (List.replicate ((t.getLast?.map List.length).getD 0) pad)

/-- the number of rows of the longest table -/
def longest {α : Type} (tables : List (List α)) : Nat := (tables.map List.length).foldl max 0

theorem longest_spec {α : Type} (tables : List (List α)) (h : tables ≠ []) :
    (∀ t ∈ tables, t.length ≤ longest tables) ∧ ∃ t ∈ tables, longest tables = t.length := by
  obtain ⟨-, m1, m2⟩ := foldl_max_spec (tables.map List.length) 0
  refine ⟨fun t ht => m1 _ (List.mem_map.2 ⟨t, ht, rfl⟩), ?_⟩
  rcases m2 with m2 | m2
  · obtain ⟨t, ht⟩ := List.exists_mem_of_ne_nil _ h
    refine ⟨t, ht, ?_⟩
    have := m1 _ (List.mem_map.2 ⟨t, ht, rfl⟩)
    unfold longest
    omega
  · obtain ⟨t, ht, e⟩ := List.mem_map.1 m2
    exact ⟨t, ht, e.symm⟩

theorem padCells_length {α : Type} (pad : α) (n : Nat) (t : List (List α)) (h : t.length ≤ n) : (padCells pad n t).length = n := by
  simp [padCells]; omega

theorem sideBySide_pad {α : Type} (pad : α) (tables : List (List (List α))) (h : tables ≠ []) :
    SideBySidePadded pad tables ((zipStar (tables.map (padCells pad (longest tables)))).map List.flatten) := by
  obtain ⟨l1, m, hm, l2⟩ := longest_spec tables h
  obtain ⟨-, ⟨t, ht, h2⟩, h3⟩ := zipStar_spec (tables.map (padCells pad (longest tables))) (by simpa using h)
  have hlen : (zipStar (tables.map (padCells pad (longest tables)))).length = longest tables := by
    obtain ⟨t', ht', rfl⟩ := List.mem_map.1 ht
    rw [h2, padCells_length _ _ _ (l1 t' ht')]
  refine ⟨fun t' ht' => by rw [List.length_map, hlen]; exact l1 t' ht', ⟨m, hm, by rw [List.length_map, hlen, l2]⟩, fun i row hr => ?_⟩
  rw [List.getElem?_map, Option.map_eq_some_iff] at hr
  obtain ⟨parts, hp, rfl⟩ := hr
  refine ⟨parts, ?_, rfl⟩
  have := h3 i parts hp
  rw [List.forall₂_map_left_iff] at this
  refine this.imp fun t' p hx => ?_
  unfold padCells at hx
  by_cases hi : i < t'.length
  · rw [List.getElem?_append_left hi] at hx
    exact .inl hx
  · rw [List.getElem?_append_right (by omega), List.getElem?_replicate] at hx
    split at hx
    · rw [Option.some.injEq] at hx
      exact .inr ⟨by rw [List.getElem?_eq_none_iff]; omega, hx.symm⟩
    · cases hx

theorem padCells_rel {α β : Type} {R : α → β → Prop} {p : α} {q : β} (hpq : R p q) (n : Nat) {t : List (List α)} {u : List (List β)}
    (h : List.Forall₂ (List.Forall₂ R) t u) : List.Forall₂ (List.Forall₂ R) (padCells p n t) (padCells q n u) := by
  unfold padCells
  refine List.rel_append h ?_
  rw [h.length_eq]
  have hl : (t.getLast?.map List.length).getD 0 = (u.getLast?.map List.length).getD 0 := by
    have : (t.map List.length) = u.map List.length := by
      clear hpq
      induction h with
      | nil => rfl
      | cons a _ ih => rw [List.map_cons, List.map_cons, ih, a.length_eq]
    rw [← List.getLast?_map, ← List.getLast?_map, this]
  rw [hl]
  have hrep : ∀ {γ δ : Type} {S : γ → δ → Prop} {a : γ} {b : δ}, S a b → ∀ k, List.Forall₂ S (List.replicate k a) (List.replicate k b) := by
    intro γ δ S a b hab k
    induction k with
    | zero => exact .nil
    | succ k ih => exact .cons hab ih
  exact hrep (hrep hpq _) _

/-! ### Numbers -/

theorem readCells_iff {V : Type} (float : List Char → Except PyErr V) (c : List (List (List Char))) (rows : List (List V)) :
    readCells float c = .ok rows ↔ List.Forall₂ (List.Forall₂ fun w v => float w = .ok v) c rows ∧ rectangular rows = true := by
  have hm : ∀ {α β : Type} (f : α → Except PyErr β) (l : List α) (r : List β), l.mapM f = .ok r ↔ List.Forall₂ (fun a b => f a = .ok b) l r := by
    intro α β f l
    induction l with
    | nil => intro r; simp only [List.mapM_nil, List.forall₂_nil_left_iff]; constructor <;> (intro h; cases h; rfl)
    | cons a l ih =>
      intro r
      rw [List.mapM_cons]
      cases hf : f a with
      | error e =>
        simp only [bind, Except.bind]
        constructor
        · intro h; cases h
        · intro h; cases h with | cons h1 _ => rw [hf] at h1; cases h1
      | ok b =>
        simp only [bind, Except.bind]
        cases hl : l.mapM f with
        | error e =>
          constructor
          · intro h; cases h
          · intro h
            cases h with
            | cons h1 h2 => rw [(ih _).2 h2] at hl; cases hl
        | ok bs =>
          constructor
          · intro h; cases h; exact .cons hf ((ih _).1 hl)
          · intro h
            cases h with
            | cons h1 h2 =>
              rw [(ih _).2 h2] at hl
              rw [hf] at h1
              cases h1; cases hl; rfl
  unfold readCells
  simp only [bind, Except.bind]
  cases hc : c.mapM fun r => r.mapM float with
  | error e =>
    constructor
    · intro h; cases h
    · rintro ⟨h, -⟩
      rw [(hm _ _ _).2 (h.imp fun a b hab => (hm float a b).2 hab)] at hc
      cases hc
  | ok rs =>
    have h1 := ((hm _ _ _).1 hc).imp fun a b hab => (hm float a b).1 hab
    simp only
    constructor
    · intro h
      split at h
      · rename_i hr
        cases h
        exact ⟨h1, hr⟩
      · cases h
    · rintro ⟨h, hr⟩
      have := (hm _ _ _).2 (h.imp fun a b hab => (hm float a b).2 hab)
      rw [this] at hc
      cases hc
      rw [if_pos hr]; rfl

/-- all rows of equal length, said without the function -/
theorem rectangular_iff {V : Type} (rows : List (List V)) : rectangular rows = true ↔ ∀ r ∈ rows, ∀ s ∈ rows, r.length = s.length := by
  cases rows with
  | nil => simp [rectangular]
  | cons r rows =>
    unfold rectangular
    rw [List.all_eq_true]
    constructor
    · intro h
      have : ∀ s ∈ r :: rows, s.length = r.length := by
        intro s hs
        rw [List.mem_cons] at hs
        rcases hs with rfl | hs
        · rfl
        · simpa using h s hs
      intro a ha b hb
      rw [this a ha, this b hb]
    · intro h s hs
      simpa using h s (by simp [hs]) r (by simp)

theorem zip_rectangular {V : Type} (tables : List (List (List V))) (h : ∀ t ∈ tables, rectangular t = true) :
    rectangular ((zipStar tables).map List.flatten) = true := by
  rw [rectangular_iff]
  intro r hr s hs
  obtain ⟨r', hr', rfl⟩ := List.mem_map.1 hr
  obtain ⟨s', hs', rfl⟩ := List.mem_map.1 hs
  have h1 := zipStar_mem _ _ hr'
  have h2 := zipStar_mem _ _ hs'
  clear hr hs hr' hs'
  induction h1 generalizing s' with
  | nil => cases h2; rfl
  | @cons t p ts ps hp _ ih =>
    cases h2 with
    | cons hq hqs =>
      rw [List.flatten_cons, List.flatten_cons, List.length_append, List.length_append,
        ih (fun t ht => h t (by simp [ht])) _ hqs, (rectangular_iff t).1 (h t (by simp)) _ hp _ hq]

theorem pad_rectangular {V : Type} (v : V) (n : Nat) (t : List (List V)) (h : rectangular t = true) : rectangular (padCells v n t) = true := by
  rw [rectangular_iff] at h ⊢
  have key : ∀ r ∈ padCells v n t, r.length = (t.getLast?.map List.length).getD 0 := by
    intro r hr
    unfold padCells at hr
    rw [List.mem_append] at hr
    rcases hr with hr | hr
    · have hne : t ≠ [] := by rintro rfl; cases hr
      rw [List.getLast?_eq_getLast_of_ne_nil hne]
      exact h r hr _ (List.getLast_mem hne)
    · rw [(List.mem_replicate.1 hr).2, List.length_replicate]
  intro r hr s hs
  rw [key r hr, key s hs]

/-! ### The runs -/

/-- the files after a run -/
def extended (o : ExtendOptions) (fs : Files) : Files := (doExtend info o fs).1

/-- the inputs exist and hold these texts -/
def Holds (o : ExtendOptions) (fs : Files) (texts : List (List Char)) : Prop := List.Forall₂ (fun f t => fs f = some t) o.inputfile texts

theorem holds_read {o : ExtendOptions} {fs : Files} {texts : List (List Char)} (h : Holds o fs texts) :
    o.inputfile.mapM (readLines fs) = .ok (texts.map linesOf) := by
  unfold Holds at h
  generalize o.inputfile = ns at h
  induction h with
  | nil => rfl
  | cons a _ ih =>
    rw [List.mapM_cons, ih]
    unfold readLines
    rw [a]
    rfl

theorem doExtend_eq {o : ExtendOptions} {fs : Files} {texts : List (List Char)} (h : Holds o fs texts) (ho : o.outputfile ≠ []) :
    doExtend info o fs = (fs.write o.outputfile (textOf (o.header info ++ extend o.raw o.padding (texts.map linesOf))), .ok []) := by
  unfold doExtend
  rw [holds_read h]
  simp only [if_pos ho]

/-- **C119** A run of `tef-mixing --extend` changes no file but its output file, and none without one; if an input is missing it fails
with an `OSError` and nothing is changed, otherwise it succeeds.  On the screen every row stands on a line of its own behind two
blanks. -/
theorem C119_extend_frame (o : ExtendOptions) (fs : Files) :
    (∀ n, n ≠ o.outputfile → extended info o fs n = fs n) ∧ (o.outputfile = [] → extended info o fs = fs) ∧
    ((∃ f ∈ o.inputfile, fs f = none) → doExtend info o fs = (fs, .error .ioError)) ∧
    ((∀ f ∈ o.inputfile, fs f ≠ none) → ∃ s, (doExtend info o fs).2 = .ok s) ∧
    (∀ texts, Holds o fs texts → o.outputfile = [] → ∃ s title, (doExtend info o fs).2 = .ok s ∧
      s = title ++ ((extend o.raw o.padding (texts.map linesOf)).map fun r => '\n' :: ' ' :: ' ' :: r).flatten) := by
  refine ⟨fun n hn => ?_, fun h => ?_, fun h => ?_, fun h => ?_, fun texts h h0 => ?_⟩
  · unfold extended doExtend
    cases o.inputfile.mapM (readLines fs) with
    | error e => rfl
    | ok files =>
      simp only
      split
      · simp only [Files.write, if_neg hn]
      · rfl
  · unfold extended doExtend
    cases o.inputfile.mapM (readLines fs) with
    | error e => rfl
    | ok files => simp only [h, ne_eq, not_true_eq_false, if_false]
  · have : o.inputfile.mapM (readLines fs) = .error .ioError := by
      generalize o.inputfile = ns at h
      induction ns with
      | nil => obtain ⟨f, hf, -⟩ := h; cases hf
      | cons a ns ih =>
        rw [List.mapM_cons]
        cases ha : fs a with
        | none => simp only [readLines, ha]; rfl
        | some t =>
          have : ∃ f ∈ ns, fs f = none := by
            obtain ⟨f, hf, hn⟩ := h
            rw [List.mem_cons] at hf
            rcases hf with rfl | hf
            · rw [ha] at hn; cases hn
            · exact ⟨f, hf, hn⟩
          rw [ih this]
          simp only [readLines, ha]; rfl
    unfold doExtend
    rw [this]
  · have : ∃ texts, Holds o fs texts := by
      unfold Holds
      generalize o.inputfile = ns at h
      induction ns with
      | nil => exact ⟨[], .nil⟩
      | cons a ns ih =>
        obtain ⟨ts, hts⟩ := ih fun f hf => h f (by simp [hf])
        obtain ⟨t, ht⟩ := Option.ne_none_iff_exists'.1 (h a (by simp))
        exact ⟨t :: ts, .cons ht hts⟩
    obtain ⟨texts, ht⟩ := this
    unfold doExtend
    rw [holds_read ht]
    simp only
    split
    · exact ⟨_, rfl⟩
    · exact ⟨_, rfl⟩
  · unfold doExtend
    rw [holds_read h]
    simp only [h0, ne_eq, not_true_eq_false, if_false]
    exact ⟨_, _, rfl, rfl⟩

theorem header_lines (o : ExtendOptions) (hi : '\n' ∉ info) (hl : ∀ w ∈ o.labels, '\n' ∉ w) :
    ∀ l ∈ o.header info, l.head? = some '#' ∧ '\n' ∉ l := by
  intro l h
  unfold ExtendOptions.header at h
  split at h
  · cases h
  · rw [List.mem_cons] at h
    rcases h with rfl | h
    · refine ⟨rfl, ?_⟩
      rw [List.mem_append, not_or]
      exact ⟨by decide, hi⟩
    · split at h
      · cases h
      · rw [List.mem_singleton] at h
        subst h
        refine ⟨rfl, ?_⟩
        rw [List.mem_append, not_or]
        exact ⟨by decide, join_newline ' ' (by decide) _ hl⟩

/-- the cells written without padding -/
theorem extend_cells (o : ExtendOptions) (fs : Files) (texts : List (List Char)) (h : Holds o fs texts) (ho : o.outputfile ≠ []) (hr : o.raw = false)
    (hp : o.padding = none) (hi : '\n' ∉ info) (hl : ∀ w ∈ o.labels, '\n' ∉ w) :
    ∃ out, extended info o fs o.outputfile = some out ∧ cells out = (zipStar (texts.map cells)).map List.flatten := by
  unfold extended
  rw [doExtend_eq info h ho]
  refine ⟨_, if_pos rfl, ?_⟩
  rw [hr, hp]
  set zs := zipStar ((texts.map linesOf).map (extendRows false)) with hz
  have hcell : ∀ row ∈ zs, ∀ l ∈ row, '#' ∉ l ∧ '\n' ∉ l ∧ words l ≠ [] := by
    intro row hrow l hl'
    have := zipStar_mem _ _ hrow
    rw [List.forall₂_map_left_iff, List.forall₂_map_left_iff] at this
    have h2 : List.Forall₂ (fun (x : List Char) (y : List Char) => x ∈ extendRows false (linesOf y)) row texts := this.flip
    obtain ⟨t, -, ht⟩ := forall₂_mem h2 l hl'
    exact extendRows_chars _ (linesOf_free t) l ht
  have hne : ∀ row ∈ zs, row ≠ [] := by
    rintro row hrow rfl
    have := zipStar_mem _ _ hrow
    cases htx : (texts.map linesOf).map (extendRows false) with
    | nil => rw [hz, htx] at hrow; cases hrow
    | cons a b => rw [htx] at this; cases this
  have e1 : zs.map (fun row => (row.map words).flatten) = (zipStar (texts.map cells)).map List.flatten := by
    have : texts.map cells = ((texts.map linesOf).map (extendRows false)).map (List.map words) := by
      rw [List.map_map, List.map_map]
      apply List.map_congr_left
      intro t _
      exact (extendRows_words _).symm
    rw [this, zipStar_map, List.map_map]
    rfl
  rw [← e1]
  refine cells_textOf _ _ _ (header_lines info o hi hl) ?_ ?_
  · intro l hl'
    simp only [extend, List.mem_map] at hl'
    obtain ⟨row, hrow, rfl⟩ := hl'
    exact join_newline ' ' (by decide) _ fun w hw => (hcell row (by rw [hz]; exact hrow) w hw).2.1
  · show List.Forall₂ _ (zs.map (join [' '])) _
    rw [List.forall₂_map_left_iff, List.forall₂_map_right_iff, List.forall₂_same]
    intro row hrow
    refine ⟨join_hash ' ' (by decide) _ fun w hw => (hcell row hrow w hw).1, words_join ' ' (by decide) row, ?_⟩
    obtain ⟨l, hl'⟩ := List.exists_mem_of_ne_nil _ (hne row hrow)
    intro e
    rw [List.flatten_eq_nil_iff] at e
    exact (hcell row hrow l hl').2.2 (e _ (List.mem_map.2 ⟨l, hl', rfl⟩))

/-- the cells written with padding -/
theorem extend_cells_padded (o : ExtendOptions) (fs : Files) (texts : List (List Char)) (h : Holds o fs texts) (ho : o.outputfile ≠ [])
    (hne : o.inputfile ≠ []) (pad : List Char) (hp : o.padding = some pad) (hpad : CleanCell pad) (hi : '\n' ∉ info) (hl : ∀ w ∈ o.labels, '\n' ∉ w) :
    ∃ out, extended info o fs o.outputfile = some out ∧
      cells out = (zipStar ((texts.map cells).map (padCells pad (longest (texts.map cells))))).map List.flatten := by
  unfold extended
  rw [doExtend_eq info h ho]
  refine ⟨_, if_pos rfl, ?_⟩
  rw [hp]
  have htx : texts ≠ [] := by rintro rfl; unfold Holds at h; cases hx : o.inputfile with
    | nil => exact hne hx
    | cons a b => rw [hx] at h; cases h
  set n := longest (texts.map cells) with hn
  set pc := (texts.map cells).map (padCells pad n) with hpc
  have e1 : extend o.raw (some pad) (texts.map linesOf) = (zipStar (pc.map (List.map (join ['\t'])))).map (join ['\t']) := by
    have e0 : (((texts.map linesOf).map padRows).map fun d => d.1.length).foldl max 0 = n := by
      rw [hn, longest]
      congr 1
      simp only [List.map_map]
      apply List.map_congr_left
      intro t _
      simp only [Function.comp, padRows_eq, List.length_map]
      rfl
    unfold extend
    simp only [e0]
    congr 2
    rw [hpc]
    simp only [List.map_map]
    apply List.map_congr_left
    intro t _
    simp only [Function.comp, padTo, padRows_eq, padCells, List.map_append, List.length_map, List.map_replicate]
    rfl
  have hclean : ∀ row ∈ zipStar pc, ∀ r ∈ row, ∀ w ∈ r, CleanCell w := by
    intro row hrow r hr w hw
    have := zipStar_mem _ _ hrow
    rw [hpc, List.forall₂_map_left_iff] at this
    obtain ⟨t, ht, hr'⟩ := forall₂_mem this.flip r hr
    unfold padCells at hr'
    rw [List.mem_append] at hr'
    rcases hr' with hr' | hr'
    · obtain ⟨x, -, rfl⟩ := List.mem_map.1 ht
      exact (tokenRows_cleanCell _ r hr').2 w hw
    · rw [(List.mem_replicate.1 hr').2] at hw
      rw [(List.mem_replicate.1 hw).2]
      exact hpad
  have hnonempty : ∀ row ∈ zipStar pc, row.flatten ≠ [] := by
    intro row hrow e
    obtain ⟨i, hi'⟩ := List.getElem?_of_mem hrow
    obtain ⟨l1, m, hm, l2⟩ := longest_spec (texts.map cells) (by simpa using htx)
    have hlt : i < n := by
      have h1 := (List.getElem?_eq_some_iff.1 hi').1
      have h2 := (zipStar_spec pc (by rw [hpc]; simpa using htx)).1 (padCells pad n m) (by rw [hpc]; exact List.mem_map.2 ⟨m, hm, rfl⟩)
      rw [padCells_length _ _ _ (by rw [hn]; exact l1 m hm)] at h2
      omega
    have := (zipStar_spec pc (by rw [hpc]; simpa using htx)).2.2 i row hi'
    rw [hpc, List.forall₂_map_left_iff] at this
    obtain ⟨r, hr, hr'⟩ := forall₂_mem this m hm
    unfold padCells at hr'
    rw [List.getElem?_append_left (by rw [← l2]; exact hlt)] at hr'
    rw [List.flatten_eq_nil_iff] at e
    have hr0 := e r hr
    obtain ⟨x, -, rfl⟩ := List.mem_map.1 hm
    exact (tokenRows_cleanCell _ r (List.mem_of_getElem? hr')).1 hr0
  rw [e1, zipStar_map, List.map_map]
  have hw : ∀ row ∈ zipStar pc, words (join ['\t'] (row.map (join ['\t']))) = row.flatten := by
    intro row hrow
    rw [words_join '\t' (by decide), List.map_map]
    congr 1
    conv_rhs => rw [← List.map_id row]
    apply List.map_congr_left
    intro r hr
    exact words_join_words '\t' (by decide) r fun w hw => ⟨(hclean row hrow r hr w hw).1, (hclean row hrow r hr w hw).2.1⟩
  refine cells_textOf _ _ _ (header_lines info o hi hl) ?_ ?_
  · intro l hl'
    obtain ⟨row, hrow, rfl⟩ := List.mem_map.1 hl'
    refine join_newline '\t' (by decide) _ fun r hr => ?_
    obtain ⟨r', hr', rfl⟩ := List.mem_map.1 hr
    exact join_newline '\t' (by decide) _ fun w hw' => (hclean row hrow r' hr' w hw').newline
  · rw [List.forall₂_map_left_iff, List.forall₂_map_right_iff, List.forall₂_same]
    intro row hrow
    refine ⟨join_hash '\t' (by decide) _ fun r hr => ?_, hw row hrow, hnonempty row hrow⟩
    obtain ⟨r', hr', rfl⟩ := List.mem_map.1 hr
    exact join_hash '\t' (by decide) _ fun w hw' => (hclean row hrow r' hr' w hw').2.2

/-- **C119** `tef-mixing --extend`: the cells of the output are those of the inputs side by side, and so are the numbers read from them.
Labels and title do not disturb. -/
theorem C119_extend {V : Type} (float : List Char → Except PyErr V) (o : ExtendOptions) (fs : Files) (texts : List (List Char))
    (h : Holds o fs texts) (ho : o.outputfile ≠ []) (hne : o.inputfile ≠ []) (hr : o.raw = false) (hp : o.padding = none) (hi : '\n' ∉ info)
    (hl : ∀ w ∈ o.labels, '\n' ∉ w) :
    ∃ out, extended info o fs o.outputfile = some out ∧ SideBySide (texts.map cells) (cells out) ∧
      ∀ tables, List.Forall₂ (fun t rows => loadtxt float t = .ok rows) texts tables → ∃ rows, loadtxt float out = .ok rows ∧ SideBySide tables rows := by
  obtain ⟨out, h1, h2⟩ := extend_cells info o fs texts h ho hr hp hi hl
  have htx : texts ≠ [] := by rintro rfl; unfold Holds at h; cases hx : o.inputfile with
    | nil => exact hne hx
    | cons a b => rw [hx] at h; cases h
  refine ⟨out, h1, by rw [h2]; exact sideBySide_zip _ (by simpa using htx), fun tables ht => ?_⟩
  have htab : tables ≠ [] := by rintro rfl; cases ht; exact htx rfl
  refine ⟨(zipStar tables).map List.flatten, ?_, sideBySide_zip tables htab⟩
  have hread : List.Forall₂ (fun t rows => List.Forall₂ (List.Forall₂ fun w v => float w = .ok v) (cells t) rows ∧ rectangular rows = true) texts tables :=
    ht.imp fun t rows hx => (readCells_iff float _ _).1 (by rw [← loadtxt_cells]; exact hx)
  rw [loadtxt_cells, h2, readCells_iff]
  refine ⟨?_, zip_rectangular tables fun t ht' => ?_⟩
  · have h3 : List.Forall₂ (List.Forall₂ (List.Forall₂ fun w v => float w = .ok v)) (texts.map cells) tables := by
      rw [List.forall₂_map_left_iff]
      exact hread.imp fun _ _ hx => hx.1
    rw [List.forall₂_map_left_iff, List.forall₂_map_right_iff]
    exact (zipStar_rel h3).imp fun _ _ hx => flatten_rel hx
  · obtain ⟨_, -, hx⟩ := forall₂_mem hread.flip t ht'
    exact hx.2

/-- **C119** With `--padding` (a text without blanks and hashes) the shorter inputs are filled up with it, also with `--raw-extend`; if it
is a number, the numbers read from the output are the tables side by side, padded with that number. -/
theorem C119_extend_padding {V : Type} (float : List Char → Except PyErr V) (o : ExtendOptions) (fs : Files) (texts : List (List Char))
    (h : Holds o fs texts) (ho : o.outputfile ≠ []) (hne : o.inputfile ≠ []) (pad : List Char) (hp : o.padding = some pad) (hpad : CleanCell pad)
    (hi : '\n' ∉ info) (hl : ∀ w ∈ o.labels, '\n' ∉ w) :
    ∃ out, extended info o fs o.outputfile = some out ∧ SideBySidePadded pad (texts.map cells) (cells out) ∧
      ∀ v tables, float pad = .ok v → List.Forall₂ (fun t rows => loadtxt float t = .ok rows) texts tables →
        ∃ rows, loadtxt float out = .ok rows ∧ SideBySidePadded v tables rows := by
  obtain ⟨out, h1, h2⟩ := extend_cells_padded info o fs texts h ho hne pad hp hpad hi hl
  have htx : texts ≠ [] := by rintro rfl; unfold Holds at h; cases hx : o.inputfile with
    | nil => exact hne hx
    | cons a b => rw [hx] at h; cases h
  refine ⟨out, h1, by rw [h2]; exact sideBySide_pad pad _ (by simpa using htx), fun v tables hv ht => ?_⟩
  have htab : tables ≠ [] := by rintro rfl; cases ht; exact htx rfl
  refine ⟨_, ?_, sideBySide_pad v tables htab⟩
  have hread : List.Forall₂ (fun t rows => List.Forall₂ (List.Forall₂ fun w v => float w = .ok v) (cells t) rows ∧ rectangular rows = true) texts tables :=
    ht.imp fun t rows hx => (readCells_iff float _ _).1 (by rw [← loadtxt_cells]; exact hx)
  have hlong : longest (texts.map cells) = longest tables := by
    unfold longest
    congr 1
    clear h h1 h2 htx htab ht
    induction hread with
    | nil => rfl
    | cons a _ ih => simp only [List.map_cons, List.map_map] at ih ⊢; rw [ih, a.1.length_eq]
  rw [loadtxt_cells, h2, readCells_iff, hlong]
  refine ⟨?_, zip_rectangular _ fun t ht' => ?_⟩
  · have h3 : List.Forall₂ (List.Forall₂ (List.Forall₂ fun w v => float w = .ok v)) ((texts.map cells).map (padCells pad (longest tables)))
        (tables.map (padCells v (longest tables))) := by
      rw [List.forall₂_map_left_iff, List.forall₂_map_right_iff, List.forall₂_map_left_iff]
      exact hread.imp fun _ _ hx => padCells_rel (R := fun w v => float w = .ok v) hv _ hx.1
    rw [List.forall₂_map_left_iff, List.forall₂_map_right_iff]
    exact (zipStar_rel h3).imp fun _ _ hx => flatten_rel hx
  · obtain ⟨t', ht'', rfl⟩ := List.mem_map.1 ht'
    obtain ⟨_, -, hx⟩ := forall₂_mem hread.flip t' ht''
    exact pad_rectangular v _ t' hx.2

/-- **C119** `--raw-extend` keeps comments, and a comment in one input hides the cells of every later input in that row: what
`np.loadtxt` sees of a row are the cells of the inputs before it and those before its hash, whatever the later inputs hold. -/
theorem C119_raw_comment (files : List (List (List Char))) (i : Nat) (line : List Char) (h : (extend true none files)[i]? = some line)
    (before after : List (List (List Char))) (f : List (List Char)) (hf : files = before ++ f :: after) (l : List Char) (hl : f[i]? = some l)
    (hc : '#' ∈ l) (hb : ∀ g ∈ before, ∀ x, g[i]? = some x → '#' ∉ x) :
    ∃ parts, List.Forall₂ (fun (g : List (List Char)) p => ∃ x, g[i]? = some x ∧ p = words x) before parts ∧
      words (beforeHash line) = parts.flatten ++ words (beforeHash l) := by
  obtain ⟨-, -, h3⟩ := C60_plain true files (by rw [hf]; simp)
  obtain ⟨cs, rfl, h4⟩ := h3 i line h
  simp only [if_true] at h4
  rw [hf] at h4
  clear hf h3 h
  have hbf : ∀ a b : List Char, '#' ∉ a → beforeHash (a ++ b) = a ++ beforeHash b := by
    intro a b ha
    unfold beforeHash
    rw [List.takeWhile_append_of_pos]
    intro c hc
    simp only [ne_eq, decide_not, Bool.not_eq_true', decide_eq_false_iff_not]
    rintro rfl
    exact ha hc
  have hbh : ∀ a b : List Char, '#' ∈ a → beforeHash (a ++ b) = beforeHash a := by
    intro a
    induction a with
    | nil => intro b ha; cases ha
    | cons c a ih =>
      intro b ha
      by_cases hc : c = '#'
      · simp [beforeHash, hc]
      · rw [List.mem_cons] at ha
        have := ih b (ha.resolve_left (Ne.symm hc))
        unfold beforeHash at this ⊢
        rw [List.cons_append, List.takeWhile_cons_of_pos (by simpa using hc), List.takeWhile_cons_of_pos (by simpa using hc), this]
  have hsb : ∀ x : List Char, '#' ∈ x → '#' ∈ strip x ∧ words (beforeHash (strip x)) = words (beforeHash x) := by
    intro x hx
    have e1 : ∀ y : List Char, beforeHash (y.dropWhile pySpace) = (beforeHash y).dropWhile pySpace := by
      intro y
      induction y with
      | nil => rfl
      | cons c y ih =>
        by_cases hp : pySpace c = true
        · have hc : c ≠ '#' := by rintro rfl; revert hp; decide
          rw [List.dropWhile_cons_of_pos hp, ih]
          unfold beforeHash
          rw [List.takeWhile_cons_of_pos (by simpa using hc), List.dropWhile_cons_of_pos hp]
        · rw [List.dropWhile_cons_of_neg hp]
          by_cases hc : c = '#'
          · simp [beforeHash, hc]
          · unfold beforeHash
            rw [List.takeWhile_cons_of_pos (by simpa using hc), List.dropWhile_cons_of_neg hp]
    have hd : ∀ y : List Char, '#' ∈ y → '#' ∈ y.dropWhile pySpace := by
      intro y hy
      rw [← List.takeWhile_append_dropWhile (p := pySpace) (l := y), List.mem_append] at hy
      refine hy.resolve_left fun hm => ?_
      have := List.mem_takeWhile_imp hm
      revert this; decide
    have hr : ∀ y : List Char, '#' ∈ y → '#' ∈ rstrip y := by
      intro y hy
      unfold rstrip
      rw [List.mem_reverse]
      exact hd _ (by simpa using hy)
    have h1 : strip x ++ ((x.dropWhile pySpace).reverse.takeWhile pySpace).reverse = x.dropWhile pySpace := by
      rw [strip, rstrip, ← List.reverse_append, List.takeWhile_append_dropWhile, List.reverse_reverse]
    have hs : '#' ∈ strip x := hr _ (hd _ hx)
    refine ⟨hs, ?_⟩
    have := hbh (strip x) ((x.dropWhile pySpace).reverse.takeWhile pySpace).reverse hs
    rw [h1, e1] at this
    rw [← this, words_eq, words_eq, toks_dropWhile]
  induction before generalizing cs with
  | nil =>
    cases h4 with
    | @cons _ c _ cs hc' _ =>
      rw [List.getElem?_map, hl, Option.map_some, Option.some.injEq] at hc'
      subst hc'
      obtain ⟨h5, h6⟩ := hsb l hc
      refine ⟨[], .nil, ?_⟩
      rw [List.flatten_nil, List.nil_append, ← h6]
      congr 1
      cases cs with
      | nil => rfl
      | cons d cs => rw [join, List.append_assoc]; exact hbh _ _ h5
  | cons g before ih =>
    cases h4 with
    | @cons _ c _ cs hc' hrest =>
      rw [List.getElem?_map, Option.map_eq_some_iff] at hc'
      obtain ⟨x, hx, rfl⟩ := hc'
      obtain ⟨parts, p1, p2⟩ := ih (fun g' hg' => hb g' (List.mem_cons_of_mem _ hg')) cs hrest
      refine ⟨words x :: parts, .cons ⟨x, hx, rfl⟩ p1, ?_⟩
      have hxh : '#' ∉ strip x := fun hm => hb g (by simp) x hx (strip_mem _ _ hm)
      have hcs : ∃ d ds, cs = d :: ds := by
        cases cs with
        | nil =>
          have := hrest.length_eq
          simp at this
        | cons d ds => exact ⟨d, ds, rfl⟩
      obtain ⟨d, ds, rfl⟩ := hcs
      rw [join, List.append_assoc, hbf _ _ hxh, List.singleton_append]
      have : beforeHash (' ' :: join [' '] (d :: ds)) = ' ' :: beforeHash (join [' '] (d :: ds)) := by
        unfold beforeHash
        rw [List.takeWhile_cons_of_pos (by decide)]
      rw [this, words_sep _ _ _ (by decide), words_strip, p2, List.flatten_cons, List.append_assoc]

/-- **C119** With an output file that is none of the inputs, running `tef-mixing --extend` again changes nothing. -/
theorem C119_extend_again (o : ExtendOptions) (fs : Files) (h : o.outputfile ∉ o.inputfile) :
    doExtend info o (extended info o fs) = doExtend info o fs := by
  have hread : ∀ ns : List (List Char), o.outputfile ∉ ns → ns.mapM (readLines (extended info o fs)) = ns.mapM (readLines fs) := by
    intro ns
    induction ns with
    | nil => intro _; rfl
    | cons a ns ih =>
      intro hn
      rw [List.mem_cons, not_or] at hn
      rw [List.mapM_cons, List.mapM_cons, ih hn.2]
      unfold readLines
      rw [(C119_extend_frame info o fs).1 a (Ne.symm hn.1)]
  have e := hread o.inputfile h
  unfold doExtend
  rw [e]
  unfold extended doExtend
  cases o.inputfile.mapM (readLines fs) with
  | error e => rfl
  | ok files =>
    simp only
    by_cases ho : o.outputfile = []
    · simp only [ho, ne_eq, not_true_eq_false, if_false]
    · simp only [if_pos ho]
      congr 1
      funext n
      unfold Files.write
      split <;> rfl

/-- **C119** With the output on the first of two inputs the file grows at every run: after k runs every row of the first input is followed
by k copies of the row of the second. -/
theorem C119_extend_grows (o : ExtendOptions) (fs : Files) (f g a b : List Char) (hfg : f ≠ g) (hin : o.inputfile = [f, g]) (hout : o.outputfile = f)
    (hf : f ≠ []) (hr : o.raw = false) (hp : o.padding = none) (hi : '\n' ∉ info) (hl : ∀ w ∈ o.labels, '\n' ∉ w)
    (ha : fs f = some a) (hb : fs g = some b) (k : Nat) :
    ∃ t, (extended info o)^[k + 1] fs f = some t ∧
      cells t = List.zipWith (fun r s => r ++ (List.replicate (k + 1) s).flatten) (cells a) (cells b) := by
  have hg : ∀ k, (extended info o)^[k] fs g = some b := by
    intro k
    induction k with
    | zero => exact hb
    | succ k ih =>
      rw [Function.iterate_succ_apply', (C119_extend_frame info o _).1 g (by rw [hout]; exact Ne.symm hfg), ih]
  have step : ∀ (fs' : Files) (a' : List Char), fs' f = some a' → fs' g = some b →
      ∃ t, extended info o fs' f = some t ∧ cells t = List.zipWith (fun r s => r ++ s) (cells a') (cells b) := by
    intro fs' a' h1 h2
    obtain ⟨out, e1, e2⟩ := extend_cells info o fs' [a', b] (by unfold Holds; rw [hin]; exact .cons h1 (.cons h2 .nil)) (by rw [hout]; exact hf) hr hp hi hl
    refine ⟨out, by rw [← hout]; exact e1, ?_⟩
    rw [e2]
    simp only [List.map_cons, List.map_nil, zipStar, List.map_zipWith, List.zipWith_map_right, List.flatten_cons, List.flatten_nil, List.append_nil]
  induction k with
  | zero =>
    obtain ⟨t, h1, h2⟩ := step fs a ha hb
    refine ⟨t, h1, ?_⟩
    rw [h2]
    simp
  | succ k ih =>
    obtain ⟨t, h1, h2⟩ := ih
    obtain ⟨t', h3, h4⟩ := step _ t h1 (hg (k + 1))
    refine ⟨t', by rw [Function.iterate_succ_apply']; exact h3, ?_⟩
    rw [h4, h2]
    generalize cells a = A
    generalize cells b = B
    induction A generalizing B with
    | nil => rfl
    | cons x A ihA =>
      cases B with
      | nil => rfl
      | cons y B =>
        rw [List.zipWith_cons_cons, List.zipWith_cons_cons, List.zipWith_cons_cons, ihA]
        congr 1
        rw [List.append_assoc]
        congr 1
        rw [show k + 1 + 1 = (k + 1) + 1 from rfl, List.replicate_succ' (n := k + 1), List.flatten_append]
        simp

end Extend

/-! ## Names of the output files -/

/-- the name of the output for an input `dir/base.ext`: `base_suffix.ext` in the current directory -/
theorem names_kept (out inp suf : List Char) :
    (out ≠ [] → suffixed out inp suf [] = out) ∧
    (∀ dir base ext : List Char, out = [] → '/' ∉ base → '/' ∉ ext → base ≠ [] → ext ≠ [] → '.' ∉ ext →
      (inp = base ++ '.' :: ext ∨ inp = dir ++ '/' :: (base ++ '.' :: ext)) → suffixed out inp suf [] = base ++ '_' :: (suf ++ '.' :: ext)) ∧
    (∀ base : List Char, out = [] → '/' ∉ base → base ≠ [] → '.' ∉ base → inp = base → suffixed out inp suf [] = base ++ '_' :: suf) := by
  refine ⟨fun h => C57_given _ _ _ _ h, fun dir base ext h0 hb he hb' he' hd hi => ?_, fun base h0 hb hb' hd hi => ?_⟩
  · have hf : '/' ∉ base ++ '.' :: ext := by simp [hb, he]
    have hne : base ++ '.' :: ext ≠ [] := by simp
    have hne' : base ++ '.' :: ext ≠ ['.'] := by
      intro e
      have := congrArg List.length e
      simp only [List.length_append, List.length_cons, List.length_nil] at this
      have := List.length_pos_iff.2 hb'
      omega
    have e1 : suffixed [] (base ++ '.' :: ext) suf [] = base ++ '_' :: (suf ++ '.' :: ext) := by
      rw [suffixed_form, pathName_free _ hf hne hne', (suffix_of_form base ext hb' he' hd).1, (suffix_of_form base ext hb' he' hd).2,
        if_neg (by simp), if_neg (by simp)]
    rw [h0]
    rcases hi with hi | hi
    · rw [hi, e1]
    · rw [hi, C57_directory_dropped _ _ _ _ hf hne hne', e1]
  · have hne' : base ≠ ['.'] := by rintro rfl; simp at hd
    have hp := pathName_free base hb hb' hne'
    have : suffixOf (pathName base) = [] := by
      rw [hp]
      simp [suffixOf, stemLen, (lastDot_none base).2 hd]
    rw [h0, hi, C57_no_suffix _ _ _ this, hp]

/-- **C119** The name of the output of `tef-refine`: a given one is used as it is; otherwise, for an input `dir/base.ext`, it is
`base_suffix.ext` in the current directory, and an input without an extension gets none. -/
theorem C119_output (o : RefineOptions) :
    (o.outputfile ≠ [] → o.output = o.outputfile) ∧
    (∀ dir base ext : List Char, o.outputfile = [] → '/' ∉ base → '/' ∉ ext → base ≠ [] → ext ≠ [] → '.' ∉ ext →
      (o.inputfile = base ++ '.' :: ext ∨ o.inputfile = dir ++ '/' :: (base ++ '.' :: ext)) →
      o.output = base ++ '_' :: (o.suffix ++ '.' :: ext)) ∧
    (∀ base : List Char, o.outputfile = [] → '/' ∉ base → base ≠ [] → '.' ∉ base → o.inputfile = base → o.output = base ++ '_' :: o.suffix) :=
  names_kept o.outputfile o.inputfile o.suffix

/-- **C114** The same for `tef-interp`. -/
theorem C114_output (o : InterpOptions) :
    (o.outputfile ≠ [] → o.output = o.outputfile) ∧
    (∀ dir base ext : List Char, o.outputfile = [] → '/' ∉ base → '/' ∉ ext → base ≠ [] → ext ≠ [] → '.' ∉ ext →
      (o.inputfile = base ++ '.' :: ext ∨ o.inputfile = dir ++ '/' :: (base ++ '.' :: ext)) →
      o.output = base ++ '_' :: (o.suffix ++ '.' :: ext)) ∧
    (∀ base : List Char, o.outputfile = [] → '/' ∉ base → base ≠ [] → '.' ∉ base → o.inputfile = base → o.output = base ++ '_' :: o.suffix) :=
  names_kept o.outputfile o.inputfile o.suffix

/-- **C119** The lines of the output of `tef-mixing --extend`: with `--bare` the rows and nothing else; otherwise a title line, then the
labels, if any, behind a hash, then the rows.  Without `--raw-extend` no row has a hash. -/
theorem C119_extend_lines (info : List Char) (o : ExtendOptions) (fs : Files) (texts : List (List Char)) (h : Holds o fs texts) (ho : o.outputfile ≠ [])
    (hi : '\n' ∉ info) (hl : ∀ w ∈ o.labels, '\n' ∉ w) (hp : ∀ pad, o.padding = some pad → CleanCell pad) :
    ∃ out rows, extended info o fs o.outputfile = some out ∧ rows.length = (extend o.raw o.padding (texts.map linesOf)).length ∧
      (o.bare = true → linesOf out = rows) ∧
      (o.bare = false → o.labels = [] → linesOf out = ("# Extend datafiles - ".toList ++ info) :: rows) ∧
      (o.bare = false → o.labels ≠ [] → linesOf out = ("# Extend datafiles - ".toList ++ info) :: ("# ".toList ++ join [' '] o.labels) :: rows) ∧
      (o.raw = false → ∀ l ∈ rows, '#' ∉ l) := by
  have hchars : ∀ l ∈ extend o.raw o.padding (texts.map linesOf), '\n' ∉ l ∧ (o.raw = false → '#' ∉ l) := by
    intro l hl'
    cases hpd : o.padding with
    | none =>
      rw [hpd] at hl'
      simp only [extend, List.mem_map] at hl'
      obtain ⟨row, hrow, rfl⟩ := hl'
      have := zipStar_mem _ _ hrow
      rw [List.forall₂_map_left_iff, List.forall₂_map_left_iff] at this
      have hx : ∀ w ∈ row, '\n' ∉ w ∧ (o.raw = false → '#' ∉ w) := by
        intro w hw
        obtain ⟨t, -, ht⟩ := forall₂_mem this.flip w hw
        cases hr : o.raw with
        | false =>
          rw [hr] at ht
          have := extendRows_chars _ (linesOf_free t) w ht
          exact ⟨this.2.1, fun _ => this.1⟩
        | true =>
          rw [hr] at ht
          refine ⟨?_, by simp⟩
          unfold extendRows at ht
          simp only [if_true, List.mem_map] at ht
          obtain ⟨x, hx, rfl⟩ := ht
          exact fun hm => linesOf_free t x hx (strip_mem _ _ hm)
      exact ⟨join_newline ' ' (by decide) _ fun w hw => (hx w hw).1, fun hr => join_hash ' ' (by decide) _ fun w hw => (hx w hw).2 hr⟩
    | some pad =>
      have hpad := hp pad hpd
      rw [hpd] at hl'
      simp only [extend, List.mem_map] at hl'
      obtain ⟨row, hrow, rfl⟩ := hl'
      have := zipStar_mem _ _ hrow
      have hx : ∀ w ∈ row, '\n' ∉ w ∧ '#' ∉ w := by
        intro w hw
        obtain ⟨t, ht, hwt⟩ := forall₂_mem this.flip w hw
        simp only [List.mem_map] at ht
        obtain ⟨d, ⟨ls, -, rfl⟩, rfl⟩ := ht
        simp only [padTo, padRows_eq, List.mem_append, List.mem_map] at hwt
        rcases hwt with ⟨r, hr, rfl⟩ | hwt
        · have hc := (tokenRows_cleanCell _ r hr).2
          exact ⟨join_newline '\t' (by decide) _ fun x hx => (hc x hx).newline, join_hash '\t' (by decide) _ fun x hx => (hc x hx).2.2⟩
        · rw [(List.mem_replicate.1 hwt).2]
          exact ⟨join_newline '\t' (by decide) _ fun x hx => by rw [(List.mem_replicate.1 hx).2]; exact hpad.newline,
            join_hash '\t' (by decide) _ fun x hx => by rw [(List.mem_replicate.1 hx).2]; exact hpad.2.2⟩
      exact ⟨join_newline '\t' (by decide) _ fun w hw => (hx w hw).1, fun _ => join_hash '\t' (by decide) _ fun w hw => (hx w hw).2⟩
  have hlines : linesOf (textOf (o.header info ++ extend o.raw o.padding (texts.map linesOf))) = o.header info ++ extend o.raw o.padding (texts.map linesOf) := by
    unfold textOf
    apply linesOf_lines
    intro l hl'
    rw [List.mem_append] at hl'
    rcases hl' with hl' | hl'
    · exact (header_lines info o hi hl l hl').2
    · exact (hchars l hl').1
  refine ⟨textOf (o.header info ++ extend o.raw o.padding (texts.map linesOf)), extend o.raw o.padding (texts.map linesOf), ?_, rfl, ?_, ?_, ?_, fun hr l hl' => (hchars l hl').2 hr⟩
  · unfold extended; rw [doExtend_eq info h ho]; exact if_pos rfl
  · intro hb; rw [hlines]; simp [ExtendOptions.header, hb]
  · intro hb hlab; rw [hlines]; simp [ExtendOptions.header, hb, hlab]
  · intro hb hlab; rw [hlines]; simp [ExtendOptions.header, hb, hlab]

/-! ## Concrete runs -/

/-- `int` for one-digit numbers, possibly negative -/
def demoInt (t : List Char) : Except PyErr Int :=
  match t with
  | [c] => if isDigit c then .ok (digitVal c) else .error .valueError
  | ['-', c] => if isDigit c then .ok (-(digitVal c : Int)) else .error .valueError
  | _ => .error .valueError

/-- refining `a.txt` in place -/
def demoRefine (column : List Char) : RefineOptions :=
  { inputfile := "a.txt".toList, outputfile := "a.txt".toList, suffix := "refine".toList, bare := false, column := column }

/-- a file with a comment, a blank line, and a last row with one column only -/
def demoText : List Char := "# x\n1   2 # first\n\n\t3 4\n5\n6 7".toList
/-- the files -/
def demoFs : Files := fun n => if n = "a.txt".toList then some demoText else if n = "b.txt".toList then some "8\n9\n".toList else none

example : cells demoText = [["1".toList, "2".toList], ["3".toList, "4".toList], ["5".toList], ["6".toList, "7".toList]] := by decide +kernel
example : refined demoInt "now".toList (demoRefine []) demoFs "a.txt".toList = some "# Refined data - now\n1 2\n3 4\n5\n6 7\n".toList := by decide +kernel
example : refined demoInt "now".toList (demoRefine "1 0".toList) demoFs "a.txt".toList = some "# Refined data - now\n2 1\n4 3\n".toList ∧
    (doRefine demoInt "now".toList (demoRefine "1 0".toList) demoFs).2 = .error .indexError := by decide +kernel
example : (doRefine demoInt "now".toList (demoRefine "-1".toList) demoFs).2 = .ok () := by decide +kernel
example : (doRefine demoInt "now".toList (demoRefine "x".toList) demoFs).2 = .error .valueError := by decide +kernel

/-- the hypotheses of `C119_refine_loss` -/
example : ∃ out, refined demoInt "now".toList (demoRefine "1 0".toList) demoFs "a.txt".toList = some out ∧ (cells out).length = 2 := by
  obtain ⟨-, out, h1, h2, -⟩ := C119_refine_loss demoInt "now".toList (demoRefine "1 0".toList) demoFs demoText rfl [1, 0] rfl (by decide)
    (by decide +kernel) (by decide) (by decide) [["1".toList, "2".toList], ["3".toList, "4".toList]] [["6".toList, "7".toList]] ["5".toList] (by decide +kernel)
    (by decide) (by decide)
  exact ⟨out, h1, h2⟩

/-- `a.txt` and `b.txt` side by side -/
def demoExtend (out : List Char) (raw : Bool) (padding : Option (List Char)) : ExtendOptions :=
  { inputfile := ["a.txt".toList, "b.txt".toList], outputfile := out, bare := false, raw := raw, padding := padding, labels := ["u".toList, "v".toList] }

example : extended "now".toList (demoExtend "c.txt".toList false none) demoFs "c.txt".toList =
    some "# Extend datafiles - now\n# u v\n1   2 8\n3 4 9\n".toList := by decide +kernel
example : extended "now".toList (demoExtend "c.txt".toList false (some "0".toList)) demoFs "c.txt".toList =
    some "# Extend datafiles - now\n# u v\n1\t2\t8\n3\t4\t9\n5\t0\n6\t7\t0\n".toList := by decide +kernel
/-- the comment of `a.txt` swallows the column of `b.txt` -/
example : extended "now".toList (demoExtend "c.txt".toList true none) demoFs "c.txt".toList =
    some "# Extend datafiles - now\n# u v\n# x 8\n1   2 # first 9\n".toList := by decide +kernel
example : (doExtend "now".toList (demoExtend [] false none) demoFs).2 = .ok "Result[u v]:\n  1   2 8\n  3 4 9".toList := by decide +kernel
example : ((extended "now".toList (demoExtend "a.txt".toList false none))^[2] demoFs "a.txt".toList).map cells =
    some [["1".toList, "2".toList, "8".toList, "8".toList], ["3".toList, "4".toList, "9".toList, "9".toList]] := by decide +kernel
example : Holds (demoExtend "c.txt".toList false none) demoFs [demoText, "8\n9\n".toList] := .cons rfl (.cons rfl .nil)
example : CleanCell "0".toList := ⟨by decide, by decide, by decide⟩

end TEflow.TextRuns
