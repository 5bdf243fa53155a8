import Verif.Model.CutRun
import Verif.Props.TextRuns
import Verif.Props.InterfaceNum

/-! # C120: runs of `tef-cutoff`, one after the other -/

set_option linter.unusedSimpArgs false
set_option linter.unusedVariables false

namespace TEflow.CutRun

open Loader Interface TableFile ToolRuns TextRuns

section
variable {V : Type} (env : Env V) (title : List Char) (o : CutOptions V)

/-- the files after a run -/
def run (fs : Files) : Files := (doCutoff env title o fs).1

/-- a name of the Fermi-Dirac method, in any case of letters -/
def fdName (m : List Char) : Prop := m.map lowerC ∈ ["fd".toList, "fermi-dirac".toList, "fermidirac".toList]
/-- a name of the smoothstep method, in any case of letters -/
def ssName (m : List Char) : Prop := m.map lowerC ∈ ["ss".toList, "smoothstep".toList]

/-- the method asked for is `f` -/
def Uses (f : V → V) : Prop := ∃ m, o.method = some m ∧ ((fdName m ∧ f = env.fd o.tcut o.width) ∨ (ssName m ∧ f = env.ss o.tcut o.width))

/-- the columns asked for are `idx`: all but the first, or those listed (negative numbers count from the right) -/
def Columns (n : Nat) (idx : List Nat) : Prop :=
  (o.column = none ∧ idx = (List.range n).drop 1) ∨ ∃ t cols, o.column = some t ∧ (words t).mapM env.int = .ok cols ∧ CutColumns n (some cols) idx

theorem cutFunction_spec :
    (∀ f, cutFunction env o = .ok f ↔ Uses env o f) ∧ (∀ e, cutFunction env o = .error e → e = .valueError) := by
  unfold cutFunction Uses fdName ssName
  cases hm : o.method with
  | none =>
    have h1 : cutDefault.map lowerC = "bz".toList := by decide +kernel
    simp only [Option.getD_none, h1]
    rw [if_neg (by decide), if_neg (by decide)]
    refine ⟨fun f => ⟨fun h => (by cases h), ?_⟩, fun e h => by cases h; rfl⟩
    rintro ⟨m, h, -⟩; cases h
  | some m =>
    simp only [Option.getD_some, Option.some.injEq, List.mem_cons, List.not_mem_nil, or_false]
    by_cases h1 : m.map lowerC = "fd".toList ∨ m.map lowerC = "fermi-dirac".toList ∨ m.map lowerC = "fermidirac".toList
    · rw [if_pos h1]
      have h2 : ¬ (m.map lowerC = "ss".toList ∨ m.map lowerC = "smoothstep".toList) := by
        rintro (h | h) <;> (rw [h] at h1; revert h1; decide)
      refine ⟨fun f => ⟨fun h => ?_, ?_⟩, fun e h => by cases h⟩
      · cases h; exact ⟨m, rfl, .inl ⟨h1, rfl⟩⟩
      · rintro ⟨m', rfl, ⟨-, rfl⟩ | ⟨h, -⟩⟩
        · rfl
        · exact absurd h h2
    · rw [if_neg h1]
      by_cases h2 : m.map lowerC = "ss".toList ∨ m.map lowerC = "smoothstep".toList
      · rw [if_pos h2]
        refine ⟨fun f => ⟨fun h => ?_, ?_⟩, fun e h => by cases h⟩
        · cases h; exact ⟨m, rfl, .inr ⟨h2, rfl⟩⟩
        · rintro ⟨m', rfl, ⟨h, -⟩ | ⟨-, rfl⟩⟩
          · exact absurd h h1
          · rfl
      · rw [if_neg h2]
        refine ⟨fun f => ⟨fun h => (by cases h), ?_⟩, fun e h => by cases h; rfl⟩
        rintro ⟨m', rfl, ⟨h, -⟩ | ⟨h, -⟩⟩
        · exact absurd h h1
        · exact absurd h h2

theorem normCols_ok (n : Nat) (cols : List Int) (idx : List Nat) : normCols n cols = .ok idx ↔ CutColumns n (some cols) idx := by
  have key : ∀ (i : Int) (j : Nat), pyIndex (List.range n) i = .ok j ↔ j < n ∧ ((0 ≤ i ∧ (j : Int) = i) ∨ (i < 0 ∧ (j : Int) = n + i)) := by
    intro i j
    rw [(pyIndex_spec _ i).1 j]
    simp only [ColumnAt, List.length_range]
    constructor
    · rintro (⟨a, b⟩ | ⟨a, b, c⟩)
      · have hb := List.getElem?_eq_some_iff.1 b
        simp at hb
        exact ⟨by omega, .inl ⟨a, by omega⟩⟩
      · have hb := List.getElem?_eq_some_iff.1 c
        simp at hb
        exact ⟨by omega, .inr ⟨a, by omega⟩⟩
    · rintro ⟨h, ⟨a, b⟩ | ⟨a, b⟩⟩
      · left
        refine ⟨a, ?_⟩
        rw [List.getElem?_range (by omega)]
        simp; omega
      · right
        refine ⟨a, by omega, ?_⟩
        rw [List.getElem?_range (by omega)]
        simp; omega
  unfold normCols CutColumns
  simp only
  constructor
  · intro h
    exact ((mapM_forall2 _ cols).1 idx h).imp fun i j hij => (key i j).1 hij
  · intro h
    induction h with
    | nil => rfl
    | @cons i j cols idx h1 _ ih => rw [List.mapM_cons, (key i j).2 h1, ih]; rfl

theorem cutIndex_spec (n : Nat) :
    (∀ idx, cutIndex env o n = .ok idx ↔ Columns env o n idx) ∧
    (∀ e, cutIndex env o n = .error e → ∃ t, o.column = some t ∧ ((words t).mapM env.int = .error e ∨
      (e = .indexError ∧ ∃ cols, (words t).mapM env.int = .ok cols ∧ ∃ i ∈ cols, i ≥ n ∨ i < -n))) := by
  unfold cutIndex Columns
  cases hc : o.column with
  | none =>
    refine ⟨fun idx => ⟨fun h => by cases h; exact .inl ⟨rfl, rfl⟩, ?_⟩, fun e h => by cases h⟩
    rintro (⟨-, rfl⟩ | ⟨t, _, h, -⟩)
    · rfl
    · cases h
  | some t =>
    simp only
    cases hi : (words t).mapM env.int with
    | error e =>
      refine ⟨fun idx => ⟨fun h => (by cases h), ?_⟩, fun e' h => ⟨t, rfl, .inl (by cases h; exact hi)⟩⟩
      rintro (⟨h, -⟩ | ⟨t', cols, h, h', -⟩)
      · cases h
      · cases h; rw [hi] at h'; cases h'
    | ok cols =>
      refine ⟨fun idx => ⟨fun h => .inr ⟨t, cols, rfl, hi, (normCols_ok n cols idx).1 h⟩, ?_⟩, fun e h => ⟨t, rfl, .inr ?_⟩⟩
      · rintro (⟨h, -⟩ | ⟨t', cols', h, h', h''⟩)
        · cases h
        · cases h; rw [hi] at h'; cases h'; exact (normCols_ok n cols idx).2 h''
      · obtain ⟨h1, h2⟩ := (normCols_spec n cols).2 e h
        exact ⟨h1, cols, hi, h2⟩

theorem cutText_inv (fs : Files) (text : List Char) (h : cutText env title o fs = .ok text) :
    ∃ input rows f idx, fs o.inputfile = some input ∧ loadtxt env.float input = .ok rows ∧ Uses env o f ∧
      Columns env o ((rows.head?.map List.length).getD 1) idx ∧
      text = savetxt env.render (rows.map (cutRow env.mul f idx o.bare)) (if o.bare then [] else title) ['#', ' '] := by
  unfold cutText at h
  cases h1 : fs o.inputfile with
  | none => rw [h1] at h; cases h
  | some input =>
    rw [h1] at h
    simp only at h
    cases h2 : loadtxt env.float input with
    | error e => rw [h2] at h; cases h
    | ok rows =>
      rw [h2] at h
      simp only at h
      cases h3 : cutFunction env o with
      | error e => rw [h3] at h; cases h
      | ok f =>
        rw [h3] at h
        simp only at h
        cases h4 : cutIndex env o ((rows.head?.map List.length).getD 1) with
        | error e => rw [h4] at h; cases h
        | ok idx =>
          rw [h4] at h
          simp only [Except.ok.injEq] at h
          exact ⟨input, rows, f, idx, rfl, h2, ((cutFunction_spec env o).1 f).1 h3, ((cutIndex_spec env o _).1 idx).1 h4, h.symm⟩

theorem cutText_ok (fs : Files) (input : List Char) (rows : List (List V)) (f : V → V) (idx : List Nat) (h1 : fs o.inputfile = some input)
    (h2 : loadtxt env.float input = .ok rows) (h3 : Uses env o f) (h4 : Columns env o ((rows.head?.map List.length).getD 1) idx) :
    cutText env title o fs = .ok (savetxt env.render (rows.map (cutRow env.mul f idx o.bare)) (if o.bare then [] else title) ['#', ' ']) := by
  unfold cutText
  rw [h1]
  simp only [h2, ((cutFunction_spec env o).1 f).2 h3, ((cutIndex_spec env o _).1 idx).2 h4]

/-- **C120** A run of `tef-cutoff` changes no file but its output file, and nothing at all if it fails.  It fails exactly if the input is
missing, is not a table of numbers, the method is unknown or not given, or the column list is not made of numbers of existing columns. -/
theorem C120_frame (fs : Files) :
    (∀ n, n ≠ o.output → run env title o fs n = fs n) ∧
    (∀ e, (doCutoff env title o fs).2 = .error e → run env title o fs = fs) ∧
    ((doCutoff env title o fs).2 = .ok () ↔ ∃ input rows, fs o.inputfile = some input ∧ loadtxt env.float input = .ok rows ∧
      (∃ f, Uses env o f) ∧ ∃ idx, Columns env o ((rows.head?.map List.length).getD 1) idx) := by
  unfold run doCutoff
  cases h : cutText env title o fs with
  | error e =>
    refine ⟨fun _ _ => rfl, fun _ _ => rfl, fun h' => (by cases h'), ?_⟩
    rintro ⟨input, rows, h1, h2, ⟨f, h3⟩, idx, h4⟩
    rw [cutText_ok env title o fs input rows f idx h1 h2 h3 h4] at h
    cases h
  | ok text =>
    refine ⟨fun n hn => by simp only [Files.write, if_neg hn], fun e h' => (by cases h'), fun _ => ?_, fun _ => rfl⟩
    obtain ⟨input, rows, f, idx, h1, h2, h3, h4, -⟩ := cutText_inv env title o fs text h
    exact ⟨input, rows, h1, h2, ⟨f, h3⟩, idx, h4⟩

/-- **C120** Without `-m` every run fails — with a `ValueError` if the input is a table of numbers — although the help names a default. -/
theorem C120_default (fs : Files) (h : o.method = none) :
    run env title o fs = fs ∧ (doCutoff env title o fs).2 ≠ .ok () ∧
    ∀ input rows, fs o.inputfile = some input → loadtxt env.float input = .ok rows → (doCutoff env title o fs).2 = .error .valueError := by
  have hno : ∀ f, cutFunction env o ≠ .ok f := by
    intro f hf
    obtain ⟨m, hm, -⟩ := ((cutFunction_spec env o).1 f).1 hf
    rw [h] at hm; cases hm
  have hval : cutFunction env o = .error .valueError := by
    cases hc : cutFunction env o with
    | ok f => exact absurd hc (hno f)
    | error e => rw [(cutFunction_spec env o).2 e hc]
  have hne : (doCutoff env title o fs).2 ≠ .ok () := by
    intro hok
    obtain ⟨_, _, _, _, ⟨f, m, hm, -⟩, -⟩ := (C120_frame env title o fs).2.2.1 hok
    rw [h] at hm; cases hm
  refine ⟨?_, hne, fun input rows h1 h2 => ?_⟩
  · cases hr : (doCutoff env title o fs).2 with
    | ok u => exact absurd hr hne
    | error e => exact (C120_frame env title o fs).2.1 e hr
  · have : cutText env title o fs = .error .valueError := by
      unfold cutText
      rw [h1]
      simp only [h2, hval]
    unfold doCutoff
    rw [this]

/-- what becomes of one row: the cells of the columns asked for are multiplied by the factor at the first cell -/
def CutRow (mul : V → V → V) (f : V → V) (idx : List Nat) (bare : Bool) (r s : List V) : Prop :=
  ∀ x, r.head? = some x →
    (bare = true → List.Forall₂ (fun j (w : V) => ∃ v, r[j]? = some v ∧ w = mul v (f x)) idx s) ∧
    (bare = false → s.length = r.length ∧ ∀ (j : Nat) (v : V), r[j]? = some v → s[j]? = some (if j ∈ idx then mul v (f x) else v))

theorem cutRow_spec (mul : V → V → V) (f : V → V) (idx : List Nat) (bare : Bool) (r : List V) (h : ∀ j ∈ idx, j < r.length) :
    CutRow mul f idx bare r (cutRow mul f idx bare r) := by
  intro x hx
  cases r with
  | nil => cases hx
  | cons y r =>
    simp only [List.head?_cons, Option.some.injEq] at hx
    subst hx
    unfold cutRow
    simp only
    refine ⟨fun hb => ?_, fun hb => ?_⟩
    · rw [if_pos hb]
      induction idx with
      | nil => exact .nil
      | cons j idx ih =>
        obtain ⟨v, hv⟩ : ∃ v, (y :: r)[j]? = some v := ⟨_, List.getElem?_eq_getElem (h j (by simp))⟩
        rw [List.filterMap_cons_some (b := mul v (f y)) (by rw [hv]; rfl)]
        exact .cons ⟨v, hv, rfl⟩ (ih fun j hj => h j (by simp [hj]))
    · rw [if_neg (by rw [hb]; decide)]
      refine ⟨by simp, fun j v hv => ?_⟩
      rw [List.getElem?_mapIdx, hv]
      rfl

theorem Columns.lt {n : Nat} {idx : List Nat} (h : Columns env o n idx) : ∀ j ∈ idx, j < n := by
  intro j hj
  rcases h with ⟨-, rfl⟩ | ⟨t, cols, -, -, h⟩
  · have := List.mem_of_mem_drop hj
    simpa using this
  · unfold CutColumns at h
    simp only at h
    obtain ⟨i, -, hi⟩ := forall₂_mem h.flip j hj
    exact hi.1

theorem loadtxt_table {float : List Char → Except PyErr V} {text : List Char} {rows : List (List V)} (h : loadtxt float text = .ok rows) :
    Table ((rows.head?.map List.length).getD 1) rows ∧ ∀ r ∈ rows, r ≠ [] := by
  rw [loadtxt_cells, readCells_iff] at h
  refine ⟨?_, ?_⟩
  · intro r hr
    cases rows with
    | nil => cases hr
    | cons s rows => exact (rectangular_iff _).1 h.2 r hr s (by simp)
  · intro r hr e
    obtain ⟨c, hc, hx⟩ := forall₂_mem h.1.flip r hr
    subst e
    cases hx
    exact (tokenRows_cleanCell _ _ hc).1 rfl

/-- the lines of a saved table -/
theorem savetxt_text {render : V → List Char} (rows : List (List V)) (header : List Char) (hn : '\n' ∉ header) :
    savetxt render rows header ['#', ' '] = textOf ((if header = [] then [] else ['#' :: ' ' :: header]) ++ rows.map (rowLine render)) := by
  unfold savetxt textOf
  rw [List.map_append, List.flatten_append, List.map_map]
  congr 1
  by_cases h : header = []
  · simp [h]
  · simp [h, replaceNewline_id _ _ hn]

theorem savetxt_cells {render : V → List Char} (hc : Clean render) {n : Nat} (hn : 0 < n) (rows : List (List V)) (hr : Table n rows) (header : List Char)
    (hh : '\n' ∉ header) : cells (savetxt render rows header ['#', ' ']) = rows.map fun r => r.map render := by
  rw [savetxt_text rows header hh]
  refine cells_textOf _ _ _ ?_ ?_ ?_
  · intro l hl
    split at hl
    · cases hl
    · rw [List.mem_singleton] at hl
      subst hl
      exact ⟨rfl, by simp [hh]⟩
  · intro l hl
    obtain ⟨r, -, rfl⟩ := List.mem_map.1 hl
    exact rowLine_newline hc r
  · rw [List.forall₂_map_left_iff, List.forall₂_map_right_iff, List.forall₂_same]
    intro r hr'
    refine ⟨rowLine_hash hc r, words_rowLine hc r, ?_⟩
    intro e
    have := hr r hr'
    rw [List.map_eq_nil_iff.1 e] at this
    simp at this; omega

theorem loadtxt_saved {render : V → List Char} (hc : Clean render) (float : List Char → Except PyErr V) (rd : V → V) (hf : ∀ x, float (render x) = .ok (rd x))
    {n : Nat} (hn : 0 < n) (rows : List (List V)) (hr : Table n rows) (header : List Char) (hh : '\n' ∉ header) :
    loadtxt float (savetxt render rows header ['#', ' ']) = .ok (rows.map fun r => r.map rd) := by
  rw [loadtxt_cells, savetxt_cells hc hn rows hr header hh, readCells_iff]
  refine ⟨?_, ?_⟩
  · rw [List.forall₂_map_left_iff, List.forall₂_map_right_iff, List.forall₂_same]
    intro r _
    rw [List.forall₂_map_left_iff, List.forall₂_map_right_iff, List.forall₂_same]
    exact fun x _ => hf x
  · refine rectangular_of (n := n) fun r hr' => ?_
    obtain ⟨q, hq, rfl⟩ := List.mem_map.1 hr'
    rw [List.length_map]
    exact hr q hq

theorem cutRow_table {mul : V → V → V} {f : V → V} {idx : List Nat} {bare : Bool} {n : Nat} {rows : List (List V)} (ht : Table n rows)
    (hne : ∀ r ∈ rows, r ≠ []) (hidx : ∀ j ∈ idx, j < n) :
    Table (if bare then idx.length else n) (rows.map (cutRow mul f idx bare)) := by
  intro s hs
  obtain ⟨r, hr, rfl⟩ := List.mem_map.1 hs
  obtain ⟨x, r', rfl⟩ := List.exists_cons_of_ne_nil (hne r hr)
  have := cutRow_spec mul f idx bare (x :: r') (fun j hj => by rw [ht _ hr]; exact hidx j hj) x rfl
  cases bare with
  | true => rw [if_pos rfl, ← (this.1 rfl).length_eq]
  | false => simp only [Bool.false_eq_true, if_false]; rw [(this.2 rfl).1, ht _ hr]

/-- **C120** What a successful run writes, if at least one column is written: read back, the output has one row for every row of the
input; in it the cells of the columns asked for are multiplied, once, by the cut-off factor at the first cell, the others are as they
were — all to four decimals; with `--bare` only the columns asked for, in that order. -/
theorem C120_table (rd : V → V) (hc : Clean env.render) (hf : ∀ x, env.float (env.render x) = .ok (rd x)) (ht : '\n' ∉ title) (fs : Files)
    (input : List Char) (rows : List (List V)) (f : V → V) (idx : List Nat) (h1 : fs o.inputfile = some input) (h2 : loadtxt env.float input = .ok rows)
    (h3 : Uses env o f) (h4 : Columns env o ((rows.head?.map List.length).getD 1) idx) (h5 : o.bare = true → idx ≠ []) :
    ∃ out rows', run env title o fs o.output = some out ∧ List.Forall₂ (CutRow env.mul f idx o.bare) rows rows' ∧
      loadtxt env.float out = .ok (rows'.map fun r => r.map rd) ∧
      (o.bare = true → '#' ∉ out) ∧ (o.bare = false → title ≠ [] → (linesOf out).head? = some ('#' :: ' ' :: title) ∧ (linesOf out).length = rows.length + 1) := by
  obtain ⟨t1, t2⟩ := loadtxt_table h2
  have hidx := Columns.lt env o h4
  have htab := cutRow_table (mul := env.mul) (f := f) (bare := o.bare) t1 t2 hidx
  have hpos : rows ≠ [] → 0 < (if o.bare then idx.length else (rows.head?.map List.length).getD 1) := by
    intro hne
    cases hb : o.bare with
    | true => rw [if_pos rfl]; exact List.length_pos_iff.2 (h5 hb)
    | false =>
      simp only [Bool.false_eq_true, if_false]
      obtain ⟨r, rs, rfl⟩ := List.exists_cons_of_ne_nil hne
      exact List.length_pos_iff.2 (t2 r (by simp))
  have hhead : '\n' ∉ (if o.bare then [] else title) := by split <;> simp [ht]
  set out := savetxt env.render (rows.map (cutRow env.mul f idx o.bare)) (if o.bare then [] else title) ['#', ' '] with hout
  refine ⟨out, rows.map (cutRow env.mul f idx o.bare), ?_, ?_, ?_, ?_, ?_⟩
  · unfold run doCutoff
    rw [cutText_ok env title o fs input rows f idx h1 h2 h3 h4]
    exact if_pos rfl
  · rw [List.forall₂_map_right_iff, List.forall₂_same]
    intro r hr
    exact cutRow_spec _ _ _ _ r fun j hj => by rw [t1 r hr]; exact hidx j hj
  · by_cases hne : rows = []
    · subst hne
      rw [hout]
      exact loadtxt_saved hc env.float rd hf (n := 1) (by norm_num) _ (by intro r hr; cases hr) _ hhead
    · exact loadtxt_saved hc env.float rd hf (hpos hne) _ htab _ hhead
  · intro hb hm
    rw [hout, hb, if_pos rfl, savetxt_text _ _ (by simp), if_pos rfl, List.nil_append] at hm
    simp only [textOf, List.mem_flatten, List.mem_map] at hm
    obtain ⟨l, ⟨_, ⟨r, -, rfl⟩, rfl⟩, hm⟩ := hm
    rw [List.mem_append] at hm
    rcases hm with hm | hm
    · exact rowLine_hash hc _ hm
    · simp at hm
  · intro hb htit
    have : linesOf out = ('#' :: ' ' :: title) :: (rows.map (cutRow env.mul f idx o.bare)).map (rowLine env.render) := by
      rw [hout, hb]
      simp only [Bool.false_eq_true, if_false]
      rw [savetxt_text _ _ ht, if_neg htit]
      unfold textOf
      rw [linesOf_lines]
      · rfl
      · intro l hl
        simp only [List.singleton_append, List.mem_cons, List.mem_map] at hl
        rcases hl with rfl | ⟨r, -, rfl⟩
        · simp [ht]
        · exact rowLine_newline hc r
    rw [this]
    simp

/-- **C120** An output file of its own: running again with the same options changes nothing. -/
theorem C120_again (fs : Files) (hio : o.inputfile ≠ o.output) : doCutoff env title o (run env title o fs) = doCutoff env title o fs := by
  have hin := (C120_frame env title o fs).1 _ hio
  have e : cutText env title o (run env title o fs) = cutText env title o fs := by
    unfold cutText
    rw [hin]
  unfold doCutoff
  rw [e]
  unfold run doCutoff
  cases cutText env title o fs with
  | error e => rfl
  | ok text =>
    simp only
    congr 1
    funext n
    unfold Files.write
    split <;> rfl

/-- one cell after `k + 1` runs in place: `x` is the first cell of its row -/
def cellAfter (mul : V → V → V) (f rd : V → V) (cut : Bool) (x v : V) (k : Nat) : V :=
  if cut then (fun w => rd (mul w (f (rd x))))^[k] (rd (mul v (f x))) else rd v

/-- **C120** Cutting off in place, the first column not among those asked for: after `k + 1` runs the table still has the rows and columns
it had; first column and columns not asked for are the numbers of the input to four decimals, the others have been multiplied once
more at every run — the cut-off is sharpened, not repeated without effect. -/
theorem C120_in_place (rd : V → V) (hc : Clean env.render) (hf : ∀ x, env.float (env.render x) = .ok (rd x)) (hrd : ∀ x, rd (rd x) = rd x)
    (ht : '\n' ∉ title) (fs : Files) (hio : o.inputfile = o.output) (hb : o.bare = false)
    (input : List Char) (rows : List (List V)) (f : V → V) (idx : List Nat) (h1 : fs o.inputfile = some input) (h2 : loadtxt env.float input = .ok rows)
    (h3 : Uses env o f) (h4 : Columns env o ((rows.head?.map List.length).getD 1) idx) (h0 : 0 ∉ idx) (k : Nat) :
    (doCutoff env title o ((run env title o)^[k] fs)).2 = .ok () ∧
    ∃ out rows', (run env title o)^[k + 1] fs o.inputfile = some out ∧ loadtxt env.float out = .ok rows' ∧
      List.Forall₂ (fun (r s : List V) => s.length = r.length ∧ ∀ x, r.head? = some x → ∀ (j : Nat) (v : V), r[j]? = some v →
        s[j]? = some (cellAfter env.mul f rd (decide (j ∈ idx)) x v k)) rows rows' := by
  have step : ∀ (fs' : Files) (input' : List Char) (rows' : List (List V)), fs' o.inputfile = some input' → loadtxt env.float input' = .ok rows' →
      Columns env o ((rows'.head?.map List.length).getD 1) idx →
      ∃ out, run env title o fs' o.inputfile = some out ∧ (doCutoff env title o fs').2 = .ok () ∧
        loadtxt env.float out = .ok ((rows'.map (cutRow env.mul f idx false)).map fun r => r.map rd) := by
    intro fs' input' rows' a1 a2 a4
    obtain ⟨t1, t2⟩ := loadtxt_table a2
    have hidx := Columns.lt env o a4
    have htab := cutRow_table (mul := env.mul) (f := f) (bare := false) t1 t2 hidx
    simp only [Bool.false_eq_true, if_false] at htab
    have e := cutText_ok env title o fs' input' rows' f idx a1 a2 h3 a4
    refine ⟨savetxt env.render (rows'.map (cutRow env.mul f idx o.bare)) (if o.bare then [] else title) ['#', ' '], ?_, ?_, ?_⟩
    · unfold run doCutoff
      rw [e, hio]
      exact if_pos rfl
    · unfold doCutoff
      rw [e]
    · rw [hb]
      simp only [Bool.false_eq_true, if_false]
      by_cases hne : rows' = []
      · subst hne
        exact loadtxt_saved hc env.float rd hf (n := 1) (by norm_num) _ (by intro r hr; cases hr) _ ht
      · refine loadtxt_saved hc env.float rd hf ?_ _ htab _ ht
        obtain ⟨r, rs, rfl⟩ := List.exists_cons_of_ne_nil hne
        exact List.length_pos_iff.2 (t2 r (by simp))
  have main : ∀ k, ∃ out rows', (run env title o)^[k + 1] fs o.inputfile = some out ∧ loadtxt env.float out = .ok rows' ∧
      List.Forall₂ (fun (r s : List V) => s.length = r.length ∧ ∀ x, r.head? = some x → ∀ (j : Nat) (v : V), r[j]? = some v →
        s[j]? = some (cellAfter env.mul f rd (decide (j ∈ idx)) x v k)) rows rows' ∧
      (doCutoff env title o ((run env title o)^[k] fs)).2 = .ok () := by
    obtain ⟨t1, t2⟩ := loadtxt_table h2
    have hidx := Columns.lt env o h4
    intro k
    induction k with
    | zero =>
      obtain ⟨out, b1, b2, b3⟩ := step fs input rows h1 h2 h4
      refine ⟨out, _, b1, b3, ?_, b2⟩
      rw [List.map_map, List.forall₂_map_right_iff, List.forall₂_same]
      intro r hr
      have hs := cutRow_spec env.mul f idx false r fun j hj => by rw [t1 r hr]; exact hidx j hj
      obtain ⟨x, r', rfl⟩ := List.exists_cons_of_ne_nil (t2 r hr)
      obtain ⟨c1, c2⟩ := (hs x rfl).2 rfl
      refine ⟨by simp only [Function.comp, List.length_map]; exact c1, fun y hy j v hv => ?_⟩
      simp only [List.head?_cons, Option.some.injEq] at hy
      subst hy
      simp only [Function.comp, List.getElem?_map, c2 j v hv, Option.map_some, cellAfter, decide_eq_true_eq, Function.iterate_zero, id]
      split <;> rfl
    | succ k ih =>
      obtain ⟨out, rows', b1, b2, b3, b4⟩ := ih
      have hlen : (rows'.head?.map List.length).getD 1 = (rows.head?.map List.length).getD 1 := by
        cases b3 with
        | nil => rfl
        | cons a _ => simp [a.1]
      obtain ⟨out', d1, d2, d3⟩ := step _ out rows' b1 b2 (by rw [hlen]; exact h4)
      refine ⟨out', _, by rw [Function.iterate_succ_apply']; exact d1, d3, ?_, d2⟩
      rw [List.map_map, List.forall₂_map_right_iff]
      have t1' : ∀ r ∈ rows, r.length = (rows.head?.map List.length).getD 1 := t1
      have hall : List.Forall₂ (fun (r s : List V) => r ∈ rows ∧ s.length = r.length ∧ ∀ x, r.head? = some x → ∀ (j : Nat) (v : V), r[j]? = some v →
        s[j]? = some (cellAfter env.mul f rd (decide (j ∈ idx)) x v k)) rows rows' := by
        have : ∀ (l : List (List V)) (m : List (List V)) (R : List V → List V → Prop), List.Forall₂ R l m → List.Forall₂ (fun r s => r ∈ l ∧ R r s) l m := by
          intro l m R h
          induction h with
          | nil => exact .nil
          | cons a _ ih => exact .cons ⟨by simp, a⟩ (ih.imp fun r s h => ⟨by simp [h.1], h.2⟩)
        exact this _ _ _ b3
      refine hall.imp fun r s hrs => ?_
      obtain ⟨hr, e1, e2⟩ := hrs
      obtain ⟨x, r', rfl⟩ := List.exists_cons_of_ne_nil (t2 r hr)
      have hs0 : s[0]? = some (rd x) := by
        rw [e2 x rfl 0 x rfl]
        simp [cellAfter, h0]
      have hsh : s.head? = some (rd x) := by rw [List.head?_eq_getElem?]; exact hs0
      have hs := cutRow_spec env.mul f idx false s fun j hj => by rw [e1, t1' _ hr]; exact hidx j hj
      obtain ⟨c1, c2⟩ := (hs _ hsh).2 rfl
      refine ⟨by simp only [Function.comp, List.length_map]; rw [c1, e1], fun y hy j v hv => ?_⟩
      simp only [List.head?_cons, Option.some.injEq] at hy
      subst hy
      simp only [Function.comp, List.getElem?_map, c2 j _ (e2 _ rfl j v hv), Option.map_some, Option.some.injEq]
      unfold cellAfter
      by_cases hj : j ∈ idx
      · simp only [hj, decide_true, if_true, Function.iterate_succ_apply']
      · simp only [hj, decide_false, if_false, Bool.false_eq_true, hrd]
  obtain ⟨out, rows', b1, b2, b3, b4⟩ := main k
  exact ⟨b4, out, rows', b1, b2, b3⟩

/-- **C120** The output file is the one named; without a name it is the input's, without its directory, with the suffix before the extension. -/
theorem C120_output (o : CutOptions V) :
    (o.outputfile ≠ [] → o.output = o.outputfile) ∧
    (∀ dir base ext : List Char, o.outputfile = [] → '/' ∉ base → '/' ∉ ext → base ≠ [] → ext ≠ [] → '.' ∉ ext →
      (o.inputfile = base ++ '.' :: ext ∨ o.inputfile = dir ++ '/' :: (base ++ '.' :: ext)) →
      o.output = base ++ '_' :: (o.suffix ++ '.' :: ext)) ∧
    (∀ base : List Char, o.outputfile = [] → '/' ∉ base → base ≠ [] → '.' ∉ base → o.inputfile = base → o.output = base ++ '_' :: o.suffix) :=
  names_kept o.outputfile o.inputfile o.suffix

end

/-! ## Agreement with `C62` -/

/-- **C120** Over the real numbers, with the functions of `fermidirac` and `smoothstep`, the rows written are those of `C62`. -/
theorem C120_cutoff (env : Env ℝ) (o : CutOptions ℝ) (hmul : ∀ a b, env.mul a b = a * b)
    (hfd : ∀ tc w x, env.fd tc w x = Mathext.fermidirac (5 * (x - tc) / (w / 2)) false) (hss : ∀ tc w x, env.ss tc w x = Mathext.smoothstep ((x - tc) / (w / 2)) false true)
    (f : ℝ → ℝ) (h3 : Uses env o f) (rows : List (List ℝ)) (n : Nat) (idx : List Nat) (h4 : Columns env o n idx) (hrows : ∀ r ∈ rows, r.length = n ∧ r ≠ []) :
    ∃ m cols, o.method = some m ∧ ((o.column = none ∧ cols = none) ∨ ∃ t l, o.column = some t ∧ (words t).mapM env.int = .ok l ∧ cols = some l) ∧
      cutoff (some (m.map lowerC)) o.tcut o.width cols o.bare n rows = .ok (rows.map (cutRow env.mul f idx o.bare)) := by
  obtain ⟨m, hm, hf⟩ := h3
  have hfac : ∀ x, cutFactor (m.map lowerC) o.tcut o.width x = .ok (f x) := by
    intro x
    rcases hf with ⟨h, rfl⟩ | ⟨h, rfl⟩
    · rw [cutFactor_fd _ h, hfd]
    · unfold cutFactor
      unfold ssName at h
      simp only [List.mem_cons, List.not_mem_nil, or_false] at h
      have h2 : ¬ (m.map lowerC = "fd".toList ∨ m.map lowerC = "fermi-dirac".toList ∨ m.map lowerC = "fermidirac".toList) := by
        intro h'
        rcases h with h | h <;> (rw [h] at h'; revert h'; decide)
      simp only
      rw [if_neg h2, if_pos h, hss]
  have hlt := Columns.lt env o h4
  have hcols : ∃ cols, CutColumns n cols idx ∧ ((o.column = none ∧ cols = none) ∨ ∃ t l, o.column = some t ∧ (words t).mapM env.int = .ok l ∧ cols = some l) := by
    rcases h4 with ⟨hn, h⟩ | ⟨t, cols, ht, hw, h⟩
    · exact ⟨none, h, .inl ⟨hn, rfl⟩⟩
    · exact ⟨some cols, h, .inr ⟨t, cols, ht, hw, rfl⟩⟩
  obtain ⟨cols, hcols, hsrc⟩ := hcols
  refine ⟨m, cols, hm, hsrc, ?_⟩
  have huniq : ∀ idx', CutColumns n cols idx' → idx' = idx := by
    intro idx' h'
    cases cols with
    | none => unfold CutColumns at h' hcols; rw [h', hcols]
    | some cols =>
      have e1 := (normCols_ok n cols idx).2 hcols
      have e2 := (normCols_ok n cols idx').2 h'
      rw [e1] at e2
      cases e2; rfl
  rcases C62_rows (m.map lowerC) f o.tcut o.width hfac cols o.bare n rows with ⟨idx', h5, h6⟩ | ⟨h5, cols', rfl, i, hi, hbad⟩
  · rw [huniq idx' h5] at h6
    rw [h6]
    congr 1
    apply List.map_congr_left
    intro r hr
    obtain ⟨hl, hne⟩ := hrows r hr
    obtain ⟨x, r', rfl⟩ := List.exists_cons_of_ne_nil hne
    unfold cutRow
    simp only [List.headD_cons, hmul]
    cases hb : o.bare with
    | true =>
      simp only [if_true]
      have : ∀ l : List Nat, (∀ j ∈ l, j < n) → (l.map fun j => (x :: r').getD j 0 * f x) = l.filterMap fun j => ((x :: r')[j]?).map fun v => v * f x := by
        intro l hl'
        induction l with
        | nil => rfl
        | cons j l ih =>
          have hj : j < (x :: r').length := by rw [hl]; exact hl' j (by simp)
          rw [List.map_cons, ih fun j hj => hl' j (by simp [hj]), List.filterMap_cons_some (b := (x :: r')[j] * f x) (by rw [List.getElem?_eq_getElem hj]; rfl)]
          congr 2
          rw [List.getD_eq_getElem?_getD, List.getElem?_eq_getElem hj]; rfl
      exact this idx hlt
    | false => simp only [Bool.false_eq_true, if_false]
  · unfold CutColumns at hcols
    simp only at hcols
    obtain ⟨j, -, hj, hij⟩ := forall₂_mem hcols i hi
    omega

/-! ## Decimal numbers -/

theorem numMul_val (x y : Num) : (numMul x y).val = x.val * y.val := by
  unfold numMul Num.val
  cases x.neg <;> cases y.neg <;> simp

theorem numStep_low (tc w x : Num) (hw : 0 < w.val) (h : x.val ≤ tc.val - w.val / 2) : numStep tc w x = ⟨false, 1, by norm_num⟩ := by
  have : (x.val - tc.val) / (w.val / 2) ≤ -1 := by rw [div_le_iff₀ (by linarith)]; linarith
  unfold numStep
  simp only
  rw [min_eq_right (by linarith), max_eq_left this]
  norm_num [numOf]

theorem numStep_high (tc w x : Num) (hw : 0 < w.val) (h : tc.val + w.val / 2 ≤ x.val) : numStep tc w x = ⟨false, 0, by norm_num⟩ := by
  have : 1 ≤ (x.val - tc.val) / (w.val / 2) := by rw [le_div_iff₀ (by linarith)]; linarith
  unfold numStep
  simp only
  rw [min_eq_left this, max_eq_right (by norm_num)]
  norm_num [numOf]

theorem numMul_one (x : Num) : numMul x ⟨false, 1, by norm_num⟩ = x := by
  cases x with
  | mk n m h => simp [numMul]

/-- **C120** The smoothstep cut-off in place, any number of runs: a row whose temperature (and its rounding) lies below the transition
keeps its numbers, to four decimals; in a row above it the columns asked for are zero. -/
theorem C120_smoothstep (tc w x v : Num) (hw : 0 < w.val) (k : Nat) :
    (x.val ≤ tc.val - w.val / 2 → (reread x).val ≤ tc.val - w.val / 2 → cellAfter numMul (numStep tc w) reread true x v k = reread v) ∧
    (tc.val + w.val / 2 ≤ x.val → tc.val + w.val / 2 ≤ (reread x).val → (cellAfter numMul (numStep tc w) reread true x v k).val = 0) := by
  have idem : ∀ y, reread (reread y) = reread y := fun y => (C114_rounding y).2.2.1
  have hz : ∀ y : Num, y.val = 0 → (reread y).val = 0 := by
    intro y hy
    obtain ⟨h1, ⟨n, h2⟩, -⟩ := C114_rounding y
    rw [hy, sub_zero] at h1
    have hm : (reread y).mag ≤ 1 / 20000 := by
      unfold Num.val at h1
      cases hn : (reread y).neg
      · simp only [hn, Bool.false_eq_true, if_false] at h1
        exact (le_abs_self _).trans h1
      · simp only [hn, if_true, abs_neg] at h1
        exact (le_abs_self _).trans h1
    rw [h2] at hm
    have : (n : ℚ) < 1 := by linarith
    have hn0 : n = 0 := by
      have : n < 1 := by exact_mod_cast this
      omega
    unfold Num.val
    rw [h2, hn0]
    simp
  refine ⟨fun h1 h2 => ?_, fun h1 h2 => ?_⟩
  · unfold cellAfter
    rw [if_pos rfl, numStep_low _ _ _ hw h1, numStep_low _ _ _ hw h2, numMul_one]
    induction k with
    | zero => rfl
    | succ k ih => rw [Function.iterate_succ_apply', ih, numMul_one, idem]
  · unfold cellAfter
    rw [if_pos rfl, numStep_high _ _ _ hw h1, numStep_high _ _ _ hw h2]
    cases k with
    | zero => exact hz _ (by rw [numMul_val]; simp [Num.val])
    | succ k =>
      rw [Function.iterate_succ_apply']
      exact hz _ (by rw [numMul_val]; simp [Num.val])

/-- **C120** Inside the transition the factor lies between 0 and 1 and falls with the temperature; it is 1/2 at the threshold. -/
theorem C120_factor (tc w x y : Num) (hw : 0 < w.val) :
    0 ≤ (numStep tc w x).val ∧ (numStep tc w x).val ≤ 1 ∧ (x.val ≤ y.val → (numStep tc w y).val ≤ (numStep tc w x).val) ∧
    (x.val = tc.val → (numStep tc w x).val = 1 / 2) := by
  have mono : ∀ s t : ℚ, -1 ≤ s → s ≤ t → t ≤ 1 → (t - 1) * (t - 1) * (t + 2) / 4 ≤ (s - 1) * (s - 1) * (s + 2) / 4 := by
    intro s t h1 h2 h3
    have : 0 ≤ (t - s) * (3 - s * s - s * t - t * t) := by
      apply mul_nonneg (by linarith)
      nlinarith
    nlinarith
  have clip : ∀ q : ℚ, -1 ≤ max (-1) (min 1 q) ∧ max (-1) (min 1 q) ≤ 1 := fun q => ⟨le_max_left _ _, max_le (by norm_num) (min_le_left _ _)⟩
  have hv : ∀ x, (numStep tc w x).val = (max (-1) (min 1 ((x.val - tc.val) / (w.val / 2))) - 1) * (max (-1) (min 1 ((x.val - tc.val) / (w.val / 2))) - 1) *
      (max (-1) (min 1 ((x.val - tc.val) / (w.val / 2))) + 2) / 4 := fun x => by unfold numStep; simp only; rw [numOf_val]
  rw [hv x, hv y]
  refine ⟨?_, ?_, fun h => ?_, fun h => ?_⟩
  · have := mono _ 1 (clip ((x.val - tc.val) / (w.val / 2))).1 (clip _).2 le_rfl
    simpa using this
  · have := mono (-1) _ le_rfl (clip ((x.val - tc.val) / (w.val / 2))).1 (clip _).2
    norm_num at this ⊢
    exact this
  · refine mono _ _ (clip _).1 (max_le_max le_rfl (min_le_min le_rfl ?_)) (clip _).2
    exact div_le_div_of_nonneg_right (by linarith) (by linarith)
  · rw [h, sub_self, zero_div]
    norm_num

/-! ## Concrete runs -/

/-- decimal numbers; the Fermi-Dirac function is replaced by the step -/
def demoEnv : Env Num := { float := readFixed, render := fixed 4, int := demoInt, mul := numMul, fd := numStep, ss := numStep }

/-- 400 K, width 100 K, in place -/
def demoOpts (method : Option (List Char)) (bare : Bool) : CutOptions Num :=
  { inputfile := "a.txt".toList, outputfile := "a.txt".toList, suffix := "cutoff".toList, bare := bare, tcut := ⟨false, 400, by norm_num⟩
    width := ⟨false, 100, by norm_num⟩, method := method, column := some "1 -1 1".toList }

/-- a table -/
def demoFiles : Files := fun n => if n = "a.txt".toList then some "# T a b c\n300.0 1.5 7.0 2.0\n400.0 -1.0 7.0 2.0\n500.0 1.0 7.0 -2.0\n".toList else none

example : run demoEnv "x".toList (demoOpts (some "SS".toList) false) demoFiles "a.txt".toList =
    some "# x\n300.0000 1.5000 7.0000 2.0000\n400.0000 -0.5000 7.0000 1.0000\n500.0000 0.0000 7.0000 -0.0000\n".toList := by decide +kernel
example : (run demoEnv "x".toList (demoOpts (some "SS".toList) false))^[2] demoFiles "a.txt".toList =
    some "# x\n300.0000 1.5000 7.0000 2.0000\n400.0000 -0.2500 7.0000 0.5000\n500.0000 0.0000 7.0000 -0.0000\n".toList := by decide +kernel
example : run demoEnv "x".toList (demoOpts (some "smoothstep".toList) true) demoFiles "a.txt".toList =
    some "1.5000 2.0000 1.5000\n-0.5000 1.0000 -0.5000\n0.0000 -0.0000 0.0000\n".toList := by decide +kernel
example : (doCutoff demoEnv "x".toList (demoOpts none false) demoFiles).2 = .error .valueError := by decide +kernel
example : Uses demoEnv (demoOpts (some "SS".toList) false) (numStep ⟨false, 400, by norm_num⟩ ⟨false, 100, by norm_num⟩) :=
  ⟨_, rfl, .inr ⟨by unfold ssName; decide, rfl⟩⟩
example : Columns demoEnv (demoOpts (some "SS".toList) false) 4 [1, 3, 1] := by
  refine .inr ⟨_, [1, -1, 1], rfl, by decide +kernel, ?_⟩
  unfold CutColumns
  exact .cons (by decide) (.cons (by decide) (.cons (by decide) .nil))

end TEflow.CutRun
