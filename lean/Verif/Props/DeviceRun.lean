import Verif.Model.DeviceRun
import Verif.Props.CutRun
import Verif.Props.DeviceCli
import Verif.Props.BandRun

/-! # C137: runs of `tef-ztdev` and `tef-engout` on files, one after the other -/

set_option linter.unusedSimpArgs false
set_option linter.unusedVariables false

namespace TEflow.DeviceRun

open Loader Interface TableFile ToolRuns TextRuns DeviceCli CutRun

/-! ## Specification -/

/-- `rd` is what a finite number is after writing it with four decimals and reading it again; a NaN stays one -/
structure Faithful (env : Env) (rd : ℝ → ℝ) : Prop where
  clean : Clean env.render
  reads : ∀ x, env.float (env.render (some x)) = .ok (some (rd x))
  nan : env.float (env.render none) = .ok none
  near : ∀ x, |rd x - x| ≤ 1 / 20000
  again : ∀ x, rd (rd x) = rd x

/-- the file `name` holds the table `rows` -/
def Holds (env : Env) (fs : Files) (name : List Char) (rows : List (List (Option ℝ))) : Prop :=
  ∃ text, fs name = some text ∧ loadtxt env.float text = .ok rows

/-- a table of finite numbers -/
def nums (rows : List (List ℝ)) : List (List (Option ℝ)) := rows.map fun r => r.map some

/-- a table to four decimals -/
def rounded (rd : ℝ → ℝ) (rows : List (List (Option ℝ))) : List (List (Option ℝ)) := rows.map fun r => r.map (Option.map rd)

/-- the device ZT of a row `[Tc, Th, Yita, …]`; NaN if one of the three is -/
noncomputable def ztOf (c h y : Option ℝ) : Option ℝ :=
  match c, h, y with
  | some c, some h, some y => some (Ztdev.calZTdev y c h)
  | _, _, _ => none

/-- a row of `tef-ztdev -y` -/
def Rated (r s : List (Option ℝ)) : Prop := ∃ c h y x, r = c :: h :: y :: x ∧ s = [c, h, y, ztOf c h y]

/-! ## Lemmas -/

theorem with_mem {α β : Type} {R : α → β → Prop} {l : List α} {m : List β} (h : List.Forall₂ R l m) : List.Forall₂ (fun a b => a ∈ l ∧ R a b) l m := by
  induction h with
  | nil => exact .nil
  | cons a _ ih => exact .cons ⟨by simp, a⟩ (ih.imp fun r s h => ⟨by simp [h.1], h.2⟩)

theorem mapM_id_iff {α : Type} (l : List (Option α)) (r : List α) : l.mapM id = some r ↔ l = r.map some := by
  induction l generalizing r with
  | nil => cases r <;> simp
  | cons a l ih =>
    rw [List.mapM_cons]
    cases a with
    | none => cases r <;> simp
    | some a =>
      cases h : l.mapM id with
      | none =>
        cases r with
        | nil => simp
        | cons b r =>
          have : ¬ l = r.map some := fun e => by rw [(ih r).2 e] at h; cases h
          simp [this]
      | some q =>
        have hq := (ih q).1 h
        cases r with
        | nil => simp
        | cons b r =>
          simp only [id, Option.bind_eq_bind, Option.bind_some, Option.pure_def, Option.some.injEq, List.cons.injEq, List.map_cons]
          constructor
          · rintro ⟨rfl, rfl⟩; exact ⟨rfl, hq⟩
          · rintro ⟨rfl, e⟩
            refine ⟨rfl, ?_⟩
            have := (ih r).2 e
            rw [h] at this
            exact Option.some.inj this

theorem finite_iff (rows : List (List (Option ℝ))) (r : List (List ℝ)) : finite rows = some r ↔ rows = nums r := by
  unfold finite nums
  induction rows generalizing r with
  | nil => cases r <;> simp
  | cons a l ih =>
    rw [List.mapM_cons]
    cases ha : a.mapM id with
    | none =>
      cases r with
      | nil => simp
      | cons b r =>
        have : ¬ a = b.map some := fun e => by rw [(mapM_id_iff a b).2 e] at ha; cases ha
        simp [this]
    | some q =>
      have hq := (mapM_id_iff a q).1 ha
      cases h : l.mapM fun r => r.mapM id with
      | none =>
        cases r with
        | nil => simp
        | cons b r =>
          have : ¬ l = r.map fun r => r.map some := fun e => by rw [(ih r).2 e] at h; cases h
          simp [this]
      | some m =>
        have hm := (ih m).1 h
        cases r with
        | nil => simp
        | cons b r =>
          simp only [Option.bind_eq_bind, Option.bind_some, Option.pure_def, Option.some.injEq, List.cons.injEq, List.map_cons]
          constructor
          · rintro ⟨rfl, rfl⟩; exact ⟨hq, hm⟩
          · rintro ⟨e1, e2⟩
            have h1 := (mapM_id_iff a b).2 e1
            have h2 := (ih r).2 e2
            rw [ha] at h1
            rw [h] at h2
            exact ⟨Option.some.inj h1, Option.some.inj h2⟩

theorem tableText_ok (env : Env) (compute : List (List (Option ℝ)) → Except PyErr (List (List (Option ℝ)))) (bare : Bool) (title labels : List Char)
    (fs : Files) (name : List Char) (text : List Char) :
    tableText env compute bare title labels (fs name) = .ok text ↔ ∃ rows out, Holds env fs name rows ∧ compute rows = .ok out ∧
      text = savetxt env.render out (if bare then [] else title ++ '\n' :: labels) ['#', ' '] := by
  unfold tableText Holds
  cases h1 : fs name with
  | none => simp
  | some input =>
    cases h2 : loadtxt env.float input with
    | error e => simp [h2]
    | ok rows =>
      cases h3 : compute rows with
      | error e => simp [h2, h3]
      | ok out =>
        simp only [h2, h3, Except.ok.injEq, Option.some.injEq, exists_eq_left']
        constructor
        · rintro rfl; exact ⟨rows, out, rfl, h3, rfl⟩
        · rintro ⟨rows', out', rfl, h4, rfl⟩
          rw [h3] at h4
          cases h4; rfl

theorem replaceNewline_two (comments a b : List Char) (ha : '\n' ∉ a) (hb : '\n' ∉ b) :
    replaceNewline comments (a ++ '\n' :: b) = a ++ '\n' :: (comments ++ b) := by
  induction a with
  | nil => simp [replaceNewline, replaceNewline_id _ _ hb]
  | cons c a ih =>
    have hc : ¬ c = '\n' := fun e => ha (by simp [e])
    rw [List.cons_append, replaceNewline, if_neg hc, ih (fun h => ha (by simp [h]))]
    rfl

/-- the comment lines -/
def headLines (bare : Bool) (title labels : List Char) : List (List Char) := if bare then [] else ['#' :: ' ' :: title, '#' :: ' ' :: labels]

theorem saved_text {render : Option ℝ → List Char} (rows : List (List (Option ℝ))) (bare : Bool) (title labels : List Char) (ht : '\n' ∉ title) (hl : '\n' ∉ labels) :
    savetxt render rows (if bare then [] else title ++ '\n' :: labels) ['#', ' '] = textOf (headLines bare title labels ++ rows.map (rowLine render)) := by
  unfold savetxt textOf headLines
  rw [List.map_append, List.flatten_append, List.map_map]
  congr 1
  cases bare with
  | true => simp
  | false => simp [replaceNewline_two _ _ _ ht hl]

theorem headLines_spec (bare : Bool) (title labels : List Char) (ht : '\n' ∉ title) (hl : '\n' ∉ labels) :
    ∀ l ∈ headLines bare title labels, l.head? = some '#' ∧ '\n' ∉ l := by
  intro l hm
  unfold headLines at hm
  cases bare with
  | true => simp at hm
  | false =>
    simp at hm
    rcases hm with rfl | rfl
    · simp [ht]
    · simp [hl]

/-- reading a written table -/
theorem saved_read {env : Env} {rd : ℝ → ℝ} (hF : Faithful env rd) {n : Nat} (hn : 0 < n) (rows : List (List (Option ℝ))) (hr : Table n rows) (bare : Bool)
    (title labels : List Char) (ht : '\n' ∉ title) (hl : '\n' ∉ labels) :
    let text := savetxt env.render rows (if bare then [] else title ++ '\n' :: labels) ['#', ' ']
    loadtxt env.float text = .ok (rounded rd rows) ∧ linesOf text = headLines bare title labels ++ rows.map (rowLine env.render) := by
  intro text
  have htext : text = textOf (headLines bare title labels ++ rows.map (rowLine env.render)) := saved_text rows bare title labels ht hl
  have hlines : ∀ l ∈ rows.map (rowLine env.render), '\n' ∉ l := by
    intro l hl
    obtain ⟨r, -, rfl⟩ := List.mem_map.1 hl
    exact rowLine_newline hF.clean r
  refine ⟨?_, ?_⟩
  · rw [loadtxt_cells, htext, cells_textOf _ _ (rows.map fun r => r.map env.render) (headLines_spec bare title labels ht hl) hlines ?_, readCells_iff]
    · unfold rounded
      refine ⟨?_, ?_⟩
      · rw [List.forall₂_map_left_iff, List.forall₂_map_right_iff, List.forall₂_same]
        intro r _
        rw [List.forall₂_map_left_iff, List.forall₂_map_right_iff, List.forall₂_same]
        intro x _
        cases x with
        | none => exact hF.nan
        | some x => exact hF.reads x
      · refine rectangular_of (n := n) fun r hr' => ?_
        obtain ⟨q, hq, rfl⟩ := List.mem_map.1 hr'
        rw [List.length_map]
        exact hr q hq
    · rw [List.forall₂_map_left_iff, List.forall₂_map_right_iff, List.forall₂_same]
      intro r hr'
      refine ⟨rowLine_hash hF.clean r, words_rowLine hF.clean r, ?_⟩
      intro e
      have := hr r hr'
      rw [List.map_eq_nil_iff.1 e] at this
      simp at this; omega
  · rw [htext]
    unfold textOf
    rw [linesOf_lines]
    intro l hm
    rcases List.mem_append.1 hm with hm | hm
    · exact (headLines_spec bare title labels ht hl l hm).2
    · exact hlines l hm

theorem ztLabels_line : '\n' ∉ ztLabels := by decide
theorem engLabels_line : '\n' ∉ engLabels := by decide

/-! ## `tef-ztdev` -/

section
variable (env : Env) (title : List Char) (o : ZtOptions)

/-- the files after a run of `tef-ztdev` -/
noncomputable def runZ (fs : Files) : Files := (doZtdev env title o fs).1

theorem ztRows_table {yita : Bool} {rows out : List (List (Option ℝ))} (hy : yita = true ∨ ∃ r, rows = nums r) (ht : ∃ n, Table n rows)
    (h : ztRows env yita rows = .ok out) : Table 4 out ∧ out.length = rows.length ∧ out ≠ [] := by
  cases yita with
  | true =>
    unfold ztRows at h
    rw [if_pos rfl] at h
    unfold ztdevYita at h
    split at h
    · cases h
    · rename_i hw
      cases h
      refine ⟨?_, by simp, ?_⟩
      · intro r hr
        obtain ⟨q, -, rfl⟩ := List.mem_map.1 hr
        rfl
      · cases rows with
        | nil => simp [width] at hw
        | cons r rows => simp
  | false =>
    obtain ⟨r, rfl⟩ := hy.resolve_left (by decide)
    unfold ztRows at h
    rw [if_neg (by decide), (finite_iff _ r).2 rfl] at h
    simp only at h
    obtain ⟨n, hn⟩ := ht
    have hn' : Table n r := by
      intro q hq
      have := hn (q.map some) (List.mem_map.2 ⟨q, hq, rfl⟩)
      simpa using this
    cases r with
    | nil => simp [ztdev] at h
    | cons r0 rest =>
      obtain ⟨_, hlow, hok⟩ := C113_table env.search n r0 rest hn'
      have h4 : 4 ≤ n := by
        by_contra hc
        rw [hlow (by omega)] at h; cases h
      obtain ⟨h1, _, u, ys, _, _, h2⟩ := hok h4 out h
      refine ⟨?_, by simp [nums, h1], by intro e; rw [e] at h1; simp at h1⟩
      intro s hs
      obtain ⟨j, hj, rfl⟩ := List.mem_iff_getElem.1 hs
      obtain ⟨y, _, hy⟩ := h2 j _ (List.getElem?_eq_getElem (by simpa [h1] using hj))
      rw [List.getElem?_eq_getElem hj] at hy
      injection hy with hy
      rw [hy]; rfl

/-- **C137** A run of `tef-ztdev` changes no file but its output file, and nothing at all if it fails; it succeeds exactly if the input file holds a
table (numbers, all rows equally long) and the computation on it succeeds.  A missing input is an `IOError`. -/
theorem C137_ztdev_frame (fs : Files) :
    (∀ n, n ≠ o.output → runZ env title o fs n = fs n) ∧
    (∀ e, (doZtdev env title o fs).2 = .error e → runZ env title o fs = fs) ∧
    ((doZtdev env title o fs).2 = .ok () ↔ ∃ rows out, Holds env fs o.inputfile rows ∧ ztRows env o.yita rows = .ok out) ∧
    (fs o.inputfile = none → (doZtdev env title o fs).2 = .error .ioError) := by
  unfold runZ doZtdev
  cases h : tableText env (ztRows env o.yita) o.bare title ztLabels (fs o.inputfile) with
  | error e =>
    refine ⟨fun _ _ => rfl, fun _ _ => rfl, ⟨fun h' => (by cases h'), ?_⟩, fun hn => ?_⟩
    · rintro ⟨rows, out, h1, h2⟩
      rw [(tableText_ok env _ o.bare title ztLabels fs o.inputfile _).2 ⟨rows, out, h1, h2, rfl⟩] at h
      cases h
    · rw [hn] at h
      cases h; rfl
  | ok text =>
    refine ⟨fun n hn => by simp only [Files.write, if_neg hn], fun e h' => (by cases h'), ⟨fun _ => ?_, fun _ => rfl⟩, fun hn => ?_⟩
    · obtain ⟨rows, out, h1, h2, -⟩ := (tableText_ok env _ o.bare title ztLabels fs o.inputfile _).1 h
      exact ⟨rows, out, h1, h2⟩
    · rw [hn] at h
      cases h

theorem Holds.table {env : Env} {fs : Files} {name : List Char} {rows : List (List (Option ℝ))} (h : Holds env fs name rows) : ∃ n, Table n rows := by
  obtain ⟨text, -, h2⟩ := h
  exact ⟨_, (loadtxt_table h2).1⟩

theorem runZ_output (fs : Files) {rows out : List (List (Option ℝ))} (h1 : Holds env fs o.inputfile rows) (h2 : ztRows env o.yita rows = .ok out) :
    doZtdev env title o fs = (fs.write o.output (savetxt env.render out (if o.bare then [] else title ++ '\n' :: ztLabels) ['#', ' ']), .ok ()) := by
  unfold doZtdev
  rw [(tableText_ok env _ o.bare title ztLabels fs o.inputfile _).2 ⟨rows, out, h1, h2, rfl⟩]

theorem runZ_holds {rd : ℝ → ℝ} (hF : Faithful env rd) (ht : '\n' ∉ title) (fs : Files) {rows out : List (List (Option ℝ))} (h1 : Holds env fs o.inputfile rows)
    (hy : o.yita = true ∨ ∃ r, rows = nums r) (h2 : ztRows env o.yita rows = .ok out) :
    Holds env (runZ env title o fs) o.output (rounded rd out) ∧ ∃ text, runZ env title o fs o.output = some text ∧
      linesOf text = headLines o.bare title ztLabels ++ out.map (rowLine env.render) := by
  obtain ⟨t1, -, -⟩ := ztRows_table env hy h1.table h2
  obtain ⟨r1, r2⟩ := saved_read hF (n := 4) (by norm_num) out t1 o.bare title ztLabels ht ztLabels_line
  have e : runZ env title o fs o.output = some (savetxt env.render out (if o.bare then [] else title ++ '\n' :: ztLabels) ['#', ' ']) := by
    unfold runZ
    rw [runZ_output env title o fs h1 h2]
    exact if_pos rfl
  exact ⟨⟨_, e, r1⟩, _, e, r2⟩

theorem ztOf_eq (r : List (Option ℝ)) (c h y : Option ℝ) (x : List (Option ℝ)) (hr : r = c :: h :: y :: x) : yitaRow r = [c, h, y, ztOf c h y] := by
  subst hr
  unfold yitaRow ztOf
  cases c <;> cases h <;> cases y <;> simp

/-- **C137** `tef-ztdev -y`: it succeeds exactly if the input holds a table with at least one row and at least three columns.  The output then has
the same number of rows; read back they are the first three numbers of each row and the device ZT they give, to four decimals (a NaN among the
three gives a NaN), under two comment lines — none with `--bare`. -/
theorem C137_yita {rd : ℝ → ℝ} (hF : Faithful env rd) (ht : '\n' ∉ title) (hy : o.yita = true) (fs : Files) :
    ((doZtdev env title o fs).2 = .ok () ↔ ∃ r rows, Holds env fs o.inputfile (r :: rows) ∧ 3 ≤ r.length) ∧
    ∀ rows, Holds env fs o.inputfile rows → (doZtdev env title o fs).2 = .ok () →
      ∃ out text, List.Forall₂ Rated rows out ∧ runZ env title o fs o.output = some text ∧ loadtxt env.float text = .ok (rounded rd out) ∧
        linesOf text = (if o.bare then [] else ["# ".toList ++ title, "# Tc     Th       Yita   ZTdev".toList]) ++ out.map (rowLine env.render) := by
  have hz : ∀ rows, ztRows env o.yita rows = ztdevYita rows := fun rows => by unfold ztRows; rw [if_pos hy]
  have hf := (C137_ztdev_frame env title o fs).2.2.1
  refine ⟨?_, fun rows h1 hok => ?_⟩
  · rw [hf]
    constructor
    · rintro ⟨rows, out, h1, h2⟩
      rw [hz] at h2
      unfold ztdevYita at h2
      split at h2
      · cases h2
      · rename_i hw
        cases rows with
        | nil => simp [width] at hw
        | cons r rows => exact ⟨r, rows, h1, by simpa [width] using hw⟩
    · rintro ⟨r, rows, h1, h2⟩
      refine ⟨r :: rows, (r :: rows).map yitaRow, h1, ?_⟩
      rw [hz]
      unfold ztdevYita
      rw [if_neg (by simp only [width]; omega)]
  · obtain ⟨rows', out, h1', h2⟩ := hf.1 hok
    have : rows' = rows := by
      obtain ⟨t, a1, a2⟩ := h1
      obtain ⟨t', b1, b2⟩ := h1'
      rw [a1] at b1; cases b1
      rw [a2] at b2; cases b2; rfl
    subst this
    obtain ⟨⟨text, e1, e2⟩, text', e3, e4⟩ := runZ_holds env title o hF ht fs h1 (.inl hy) h2
    rw [e1] at e3; cases e3
    refine ⟨out, text, ?_, e1, e2, ?_⟩
    · rw [hz] at h2
      unfold ztdevYita at h2
      split at h2
      · cases h2
      · rename_i hw
        cases h2
        rw [List.forall₂_map_right_iff, List.forall₂_same]
        intro r hr
        obtain ⟨n, hn⟩ := h1.table
        have hl := hn r hr
        have hn3 : 3 ≤ n := by
          cases rows' with
          | nil => cases hr
          | cons q rows' =>
            have := hn q (by simp)
            simp only [width] at hw
            omega
        match r, hl with
        | c :: h :: y :: x, _ => exact ⟨c, h, y, x, rfl, ztOf_eq _ _ _ _ _ rfl⟩
        | [], hl => simp at hl; omega
        | [_], hl => simp at hl; omega
        | [_, _], hl => simp at hl; omega
    · rw [e4]
      rfl

/-- **C137** `tef-ztdev` on a table `T, C, S, K` of numbers: the output, read back, is the table of `C113` to four decimals.  It has a row for every
row of the input, with the temperature of the first row as `Tc` and its own as `Th`. -/
theorem C137_ztdev {rd : ℝ → ℝ} (hF : Faithful env rd) (ht : '\n' ∉ title) (hy : o.yita = false) (fs : Files) (r0 : List ℝ) (rest : List (List ℝ))
    (h1 : Holds env fs o.inputfile (nums (r0 :: rest))) :
    ((doZtdev env title o fs).2 = .ok () ↔ ∃ out, ztdev env.search (r0 :: rest) = .ok out) ∧
    ∀ out, ztdev env.search (r0 :: rest) = .ok out → ∃ text, runZ env title o fs o.output = some text ∧ loadtxt env.float text = .ok (rounded rd out) ∧
      List.Forall₂ (fun (r : List ℝ) (s : List (Option ℝ)) => ∃ y z, s = [some (rd (r0.getD 0 0)), some (rd (r.getD 0 0)), y, z]) (r0 :: rest) (rounded rd out) ∧
      linesOf text = (if o.bare then [] else ["# ".toList ++ title, "# Tc     Th       Yita   ZTdev".toList]) ++ out.map (rowLine env.render) := by
  have hz : ztRows env o.yita (nums (r0 :: rest)) = ztdev env.search (r0 :: rest) := by
    unfold ztRows
    rw [if_neg (by rw [hy]; decide), (finite_iff _ _).2 rfl]
  have hf := (C137_ztdev_frame env title o fs).2.2.1
  refine ⟨?_, fun out hout => ?_⟩
  · rw [hf]
    constructor
    · rintro ⟨rows', out, h1', h2⟩
      have : rows' = nums (r0 :: rest) := by
        obtain ⟨t, a1, a2⟩ := h1
        obtain ⟨t', b1, b2⟩ := h1'
        rw [a1] at b1; cases b1
        rw [a2] at b2; cases b2; rfl
      subst this
      exact ⟨out, hz ▸ h2⟩
    · rintro ⟨out, h2⟩
      exact ⟨_, out, h1, by rw [hz]; exact h2⟩
  · obtain ⟨⟨text, e1, e2⟩, text', e3, e4⟩ := runZ_holds env title o hF ht fs h1 (.inr ⟨_, rfl⟩) (hz ▸ hout)
    rw [e1] at e3; cases e3
    refine ⟨text, e1, e2, ?_, ?_⟩
    · obtain ⟨n, hn⟩ := h1.table
      have hn' : Table n (r0 :: rest) := by
        intro q hq
        have := hn (q.map some) (List.mem_map.2 ⟨q, hq, rfl⟩)
        simpa using this
      obtain ⟨_, hlow, hok⟩ := C113_table env.search n r0 rest hn'
      have h4 : 4 ≤ n := by
        by_contra hc
        rw [hlow (by omega)] at hout; cases hout
      obtain ⟨g1, _, u, ys, _, _, g2⟩ := hok h4 out hout
      unfold rounded
      rw [List.forall₂_map_right_iff]
      refine List.forall₂_iff_get.2 ⟨by simp [g1], fun j a b => ?_⟩
      obtain ⟨y, _, hj⟩ := g2 j _ (List.getElem?_eq_getElem a)
      rw [List.getElem?_eq_getElem b] at hj
      injection hj with hj
      simp only [List.get_eq_getElem]
      rw [hj]
      exact ⟨_, _, rfl⟩
    · rw [e4]; rfl

/-- **C137** An output file of its own: running again with the same options changes nothing. -/
theorem C137_ztdev_again (fs : Files) (hio : o.inputfile ≠ o.output) : doZtdev env title o (runZ env title o fs) = doZtdev env title o fs := by
  have hin := (C137_ztdev_frame env title o fs).1 _ hio
  unfold doZtdev
  rw [hin]
  unfold runZ doZtdev
  cases tableText env (ztRows env o.yita) o.bare title ztLabels (fs o.inputfile) with
  | error e => rfl
  | ok text =>
    simp only
    congr 1
    funext n
    unfold Files.write
    split <;> rfl

theorem rated_rounded {rd : ℝ → ℝ} {rows out : List (List (Option ℝ))} (h : List.Forall₂ Rated rows out) :
    ∀ s ∈ rounded rd out, ∃ c h y z, s = [c, h, y, z] := by
  intro s hs
  unfold rounded at hs
  obtain ⟨q, hq, rfl⟩ := List.mem_map.1 hs
  obtain ⟨r, -, c, h', y, x, -, rfl⟩ := forall₂_mem h.flip q hq
  exact ⟨_, _, _, _, rfl⟩

/-- **C137** `tef-ztdev -y` in place: the first run writes `Tc, Th, Yita` of the input to four decimals and the device ZT of the numbers read, the
second one the device ZT of the rounded numbers, and from then on nothing changes any more. -/
theorem C137_yita_in_place {rd : ℝ → ℝ} (hF : Faithful env rd) (ht : '\n' ∉ title) (hy : o.yita = true) (hio : o.inputfile = o.output) (fs : Files)
    (r : List (Option ℝ)) (rows : List (List (Option ℝ))) (h1 : Holds env fs o.inputfile (r :: rows)) (h3 : 3 ≤ r.length) (k : Nat) :
    (doZtdev env title o ((runZ env title o)^[k] fs)).2 = .ok () ∧
    (∃ out, List.Forall₂ Rated (r :: rows) out ∧ Holds env (runZ env title o fs) o.inputfile (rounded rd out) ∧
      ∃ out', List.Forall₂ Rated (rounded rd out) out' ∧ Holds env ((runZ env title o)^[k + 2] fs) o.inputfile (rounded rd out')) ∧
    (runZ env title o)^[k + 2] fs = (runZ env title o)^[2] fs := by
  -- one step
  have step : ∀ fs' r' rows', Holds env fs' o.inputfile (r' :: rows') → 3 ≤ r'.length → ∃ q out, (doZtdev env title o fs').2 = .ok () ∧
      List.Forall₂ Rated (r' :: rows') (q :: out) ∧ Holds env (runZ env title o fs') o.inputfile (rounded rd (q :: out)) ∧
      runZ env title o fs' = fs'.write o.output (savetxt env.render (q :: out) (if o.bare then [] else title ++ '\n' :: ztLabels) ['#', ' ']) := by
    intro fs' r' rows' a1 a3
    have hok := (C137_yita env title o hF ht hy fs').1.2 ⟨r', rows', a1, a3⟩
    obtain ⟨out, text, b1, b2, b3, -⟩ := (C137_yita env title o hF ht hy fs').2 _ a1 hok
    cases b1 with
    | @cons _ q _ out c1 c2 =>
      refine ⟨q, out, hok, .cons c1 c2, ⟨text, hio ▸ b2, b3⟩, ?_⟩
      have hz : ztRows env o.yita (r' :: rows') = .ok ((r' :: rows').map yitaRow) := by
        unfold ztRows ztdevYita
        rw [if_pos hy, if_neg (by simp only [width]; omega)]
      have : (r' :: rows').map yitaRow = q :: out := by
        have hall : List.Forall₂ (fun a b => yitaRow a = b) (r' :: rows') (q :: out) := by
          refine List.Forall₂.imp ?_ (List.Forall₂.cons c1 c2)
          rintro a b ⟨c, h, y, x, ha, rfl⟩
          exact ztOf_eq _ _ _ _ _ ha
        have := List.forall₂_eq_eq_eq ▸ (List.forall₂_map_left_iff.2 hall : List.Forall₂ (fun a b => a = b) ((r' :: rows').map yitaRow) (q :: out))
        exact this
      rw [this] at hz
      unfold runZ
      rw [runZ_output env title o fs' a1 hz]
  obtain ⟨q, out, s1, s2, s3, s4⟩ := step fs r rows h1 h3
  have hq3 : 3 ≤ (q.map (Option.map rd)).length := by
    cases s2 with
    | cons c _ => obtain ⟨_, _, _, _, _, rfl⟩ := c; simp
  have hr0 : rounded rd (q :: out) = q.map (Option.map rd) :: rounded rd out := rfl
  rw [hr0] at s3
  obtain ⟨q', out', t1, t2, t3, t4⟩ := step _ _ _ s3 hq3
  have hq3' : 3 ≤ (q'.map (Option.map rd)).length := by
    cases t2 with
    | cons c _ => obtain ⟨_, _, _, _, _, rfl⟩ := c; simp
  -- the third run writes what the second one wrote
  have fix : ∀ fs', Holds env fs' o.inputfile (rounded rd (q' :: out')) →
      fs' o.output = some (savetxt env.render (q' :: out') (if o.bare then [] else title ++ '\n' :: ztLabels) ['#', ' ']) → runZ env title o fs' = fs' ∧ (doZtdev env title o fs').2 = .ok () := by
    intro fs' u1 u2
    obtain ⟨q2, out2, v1, v2, v3, v4⟩ := step fs' (q'.map (Option.map rd)) (rounded rd out') u1 hq3'
    refine ⟨?_, v1⟩
    have same : q2 :: out2 = q' :: out' := by
      have hrr : ∀ (l m n p : List (List (Option ℝ))), List.Forall₂ Rated (rounded rd l) m → List.Forall₂ Rated (rounded rd m) n → n = m := by
        intro l m n p hm hn
        have : ∀ (l' m n : List (List (Option ℝ))), (∀ s ∈ l', ∃ w : List (Option ℝ), s = w.map (Option.map rd)) → List.Forall₂ Rated l' m → List.Forall₂ Rated (rounded rd m) n → n = m := by
          intro l' m n hl hm
          induction hm generalizing n with
          | nil => intro hn; cases hn; rfl
          | @cons a b l' m hab _ ih =>
            intro hn
            have hn' : List.Forall₂ Rated (b.map (Option.map rd) :: rounded rd m) n := hn
            cases hn' with
            | @cons _ c _ n hbc hmn =>
              rw [ih n (fun s hs => hl s (by simp [hs])) hmn]
              congr 1
              obtain ⟨w, hw⟩ := hl a (by simp)
              obtain ⟨c1, h1, y1, x1, e1, rfl⟩ := hab
              obtain ⟨c2, h2, y2, x2, e2, rfl⟩ := hbc
              rw [hw] at e1
              simp only [List.map_cons, List.cons.injEq] at e2
              obtain ⟨rfl, rfl, rfl, -⟩ := e2
              match w, e1 with
              | w1 :: w2 :: w3 :: w', e1 =>
                simp only [List.map_cons, List.cons.injEq] at e1
                obtain ⟨rfl, rfl, rfl, -⟩ := e1
                have idem : ∀ v : Option ℝ, Option.map rd (Option.map rd v) = Option.map rd v := by
                  intro v; cases v <;> simp [hF.again]
                simp only [idem]
        exact this (rounded rd l) m n (fun s hs => by
          unfold rounded at hs
          obtain ⟨w, -, rfl⟩ := List.mem_map.1 hs
          exact ⟨w, rfl⟩) hm hn
      exact hrr (q :: out) (q' :: out') (q2 :: out2) [] t2 v2
    rw [v4, same]
    funext n
    unfold Files.write
    split
    · rename_i e; rw [e, u2]
    · rfl
  have h2out : runZ env title o (runZ env title o fs) o.output = some (savetxt env.render (q' :: out') (if o.bare then [] else title ++ '\n' :: ztLabels) ['#', ' ']) := by
    rw [t4]; exact if_pos rfl
  have stable : ∀ k, (runZ env title o)^[k + 2] fs = (runZ env title o)^[2] fs := by
    intro k
    induction k with
    | zero => rfl
    | succ k ih =>
      rw [Function.iterate_succ_apply', ih]
      exact (fix _ t3 h2out).1
  refine ⟨?_, ⟨q :: out, s2, s3, q' :: out', t2, ?_⟩, stable k⟩
  · match k with
    | 0 => exact s1
    | 1 => exact t1
    | k + 2 =>
      rw [stable k]
      exact (fix _ t3 h2out).2
  · rw [stable k]
    exact t3

/-- **C137** Without an output name the output is never the input (the suffix holds no slash); a name given is used as it is. -/
theorem C137_output (e : EngOptions) :
    (o.outputfile = [] → '/' ∉ o.suffix → o.output ≠ o.inputfile) ∧ (e.outputfile = [] → '/' ∉ e.suffix → e.output ≠ e.inputfile) ∧
    (o.outputfile ≠ [] → o.output = o.outputfile) ∧ (e.outputfile ≠ [] → e.output = e.outputfile) := by
  have key : ∀ inp suf : List Char, '/' ∉ suf → suffixed [] inp suf [] ≠ inp := by
    intro inp suf hs h
    obtain ⟨-, h2, h3⟩ := C57_generated inp suf [] hs (by decide)
    rw [h] at h2 h3
    exact h3 h2.symm
  refine ⟨fun h hs => ?_, fun h hs => ?_, fun h => C57_given _ _ _ _ h, fun h => C57_given _ _ _ _ h⟩
  · unfold ZtOptions.output; rw [h]; exact key _ _ hs
  · unfold EngOptions.output; rw [h]; exact key _ _ hs

/-- **C137** `tef-ztdev` and then `tef-ztdev -y` on its output, into a third file: the rows of the second output start with the `Tc`, `Th` and `Yita` of
the first one; its device ZT is the one these rounded numbers give, to four decimals. -/
theorem C137_pipeline {rd : ℝ → ℝ} (hF : Faithful env rd) (ht : '\n' ∉ title) (o' : ZtOptions) (hy : o.yita = false) (hy' : o'.yita = true)
    (hio : o'.inputfile = o.output) (fs : Files) (r0 : List ℝ) (rest : List (List ℝ)) (h1 : Holds env fs o.inputfile (nums (r0 :: rest)))
    (hok : (doZtdev env title o fs).2 = .ok ()) :
    (doZtdev env title o' (runZ env title o fs)).2 = .ok () ∧ ∃ first second, Holds env (runZ env title o fs) o.output first ∧
      Holds env (runZ env title o' (runZ env title o fs)) o'.output second ∧ first.length = rest.length + 1 ∧
      List.Forall₂ (fun a b => ∃ c h y z z', a = [c, h, y, z] ∧ b = [c, h, y, z'] ∧ z' = (ztOf c h y).map rd) first second := by
  obtain ⟨out, hout⟩ := (C137_ztdev env title o hF ht hy fs r0 rest h1).1.1 hok
  obtain ⟨text, e1, e2, e3, -⟩ := (C137_ztdev env title o hF ht hy fs r0 rest h1).2 out hout
  have hH : Holds env (runZ env title o fs) o.output (rounded rd out) := ⟨text, e1, e2⟩
  have hlen : (rounded rd out).length = rest.length + 1 := by rw [← e3.length_eq]; simp
  obtain ⟨q, l, hq⟩ : ∃ q l, rounded rd out = q :: l := List.exists_cons_of_ne_nil (by intro e; rw [e] at hlen; simp at hlen)
  have hform : ∀ s ∈ rounded rd out, ∃ w1 w2 w3 w4 : Option ℝ, s = [w1.map rd, w2.map rd, w3.map rd, w4.map rd] := by
    intro s hs
    obtain ⟨r, -, y, z, hs'⟩ := forall₂_mem e3.flip s hs
    unfold rounded at hs
    obtain ⟨w, -, rfl⟩ := List.mem_map.1 hs
    have hl : w.length = 4 := by have := congrArg List.length hs'; simpa using this
    match w, hl with
    | [w1, w2, w3, w4], _ => exact ⟨w1, w2, w3, w4, rfl⟩
  have hq3 : 3 ≤ q.length := by
    obtain ⟨_, _, _, _, rfl⟩ := hform q (by rw [hq]; simp)
    simp
  have hH' : Holds env (runZ env title o fs) o'.inputfile (rounded rd out) := by rw [hio]; exact hH
  have ok2 := (C137_yita env title o' hF ht hy' (runZ env title o fs)).1.2 ⟨q, l, hq ▸ hH', hq3⟩
  obtain ⟨out2, text2, f1, f2, f3, -⟩ := (C137_yita env title o' hF ht hy' (runZ env title o fs)).2 _ hH' ok2
  refine ⟨ok2, rounded rd out, rounded rd out2, hH, ⟨text2, f2, f3⟩, hlen, ?_⟩
  show List.Forall₂ _ (rounded rd out) (out2.map fun r => r.map (Option.map rd))
  rw [List.forall₂_map_right_iff]
  refine (TEflow.DeviceRun.with_mem f1).imp ?_
  rintro a b ⟨ha, c, h, y, x, rfl, rfl⟩
  obtain ⟨w1, w2, w3, w4, hw⟩ := hform _ ha
  simp only [List.cons.injEq] at hw
  obtain ⟨rfl, rfl, rfl, rfl⟩ := hw
  have idem : ∀ v : Option ℝ, Option.map rd (Option.map rd v) = Option.map rd v := by
    intro v; cases v <;> simp [hF.again]
  exact ⟨_, _, _, _, _, rfl, by simp only [List.map_cons, List.map_nil, idem], rfl⟩

end

/-! ## `tef-engout` -/

section
variable (env : Env) (title : List Char) (o : EngOptions)

/-- the files after a run of `tef-engout` -/
noncomputable def runE (fs : Files) : Files := (doEngout env title o fs).1

/-- **C137** A run of `tef-engout` changes no file but its output file, and nothing at all if it fails; a missing input is an `IOError`. -/
theorem C137_engout_frame (fs : Files) :
    (∀ n, n ≠ o.output → runE env title o fs n = fs n) ∧
    (∀ e, (doEngout env title o fs).2 = .error e → runE env title o fs = fs) ∧
    ((doEngout env title o fs).2 = .ok () ↔ ∃ rows out, Holds env fs o.inputfile rows ∧ engRows env o rows = .ok out) ∧
    (fs o.inputfile = none → (doEngout env title o fs).2 = .error .ioError) := by
  unfold runE doEngout
  cases h : tableText env (engRows env o) o.bare title engLabels (fs o.inputfile) with
  | error e =>
    refine ⟨fun _ _ => rfl, fun _ _ => rfl, ⟨fun h' => (by cases h'), ?_⟩, fun hn => ?_⟩
    · rintro ⟨rows, out, h1, h2⟩
      rw [(tableText_ok env _ o.bare title engLabels fs o.inputfile _).2 ⟨rows, out, h1, h2, rfl⟩] at h
      cases h
    · rw [hn] at h
      cases h; rfl
  | ok text =>
    refine ⟨fun n hn => by simp only [Files.write, if_neg hn], fun e h' => (by cases h'), ⟨fun _ => ?_, fun _ => rfl⟩, fun hn => ?_⟩
    · obtain ⟨rows, out, h1, h2, -⟩ := (tableText_ok env _ o.bare title engLabels fs o.inputfile _).1 h
      exact ⟨rows, out, h1, h2⟩
    · rw [hn] at h
      cases h

theorem engRows_nums (rows : List (List ℝ)) : engRows env o (nums rows) = (match engout o.pair o.resistivity o.length rows with
    | .error e => .error e
    | .ok out => .ok (nums out)) := by
  unfold engRows
  rw [(finite_iff _ _).2 rfl]
  rfl

theorem engout_fails (fs : Files) (rows : List (List ℝ)) (h1 : Holds env fs o.inputfile (nums rows)) {e : PyErr}
    (h2 : engout o.pair o.resistivity o.length rows = .error e) : doEngout env title o fs = (fs, .error e) := by
  obtain ⟨text, a1, a2⟩ := h1
  have : tableText env (engRows env o) o.bare title engLabels (fs o.inputfile) = .error e := by
    unfold tableText
    rw [a1]
    simp only [a2, engRows_nums, h2]
  unfold doEngout
  rw [this]

theorem nums_table {n : Nat} {rows : List (List ℝ)} (h : Table n (nums rows)) : Table n rows := by
  intro q hq
  have := h (q.map some) (List.mem_map.2 ⟨q, hq, rfl⟩)
  simpa using this

/-- the tables and options `tef-engout` takes: at least two rows, a positive length, four columns for a leg or at least seven for a pair -/
def Takes (n : Nat) (rows : List (List ℝ)) : Prop := 2 ≤ rows.length ∧ 0 < o.length ∧ ((o.pair = false ∧ n = 4) ∨ (o.pair = true ∧ 7 ≤ n))

theorem engout_six {pair R : Bool} {L : ℝ} {n : Nat} {r0 : List ℝ} {rest : List (List ℝ)} (hne : rest ≠ []) (hr : Table n (r0 :: rest)) (hL : 0 < L)
    (hn : (pair = false ∧ n = 4) ∨ (pair = true ∧ 7 ≤ n)) : ∃ out, engout pair R L (r0 :: rest) = .ok out ∧
      List.Forall₂ (fun (r s : List ℝ) => ∃ a b c d, s = [r0.getD 0 0, r.getD 0 0, a, b, c, d]) rest out := by
  rcases hn with ⟨rfl, rfl⟩ | ⟨rfl, hn⟩
  · obtain ⟨out, h1, h2, h3⟩ := C112_leg R L hL r0 rest hne hr
    refine ⟨out, h1, List.forall₂_iff_get.2 ⟨by rw [h2], fun j a b => ?_⟩⟩
    obtain ⟨i, -, h4⟩ := h3 j _ (List.getElem?_eq_getElem a)
    simp only at h4
    rw [List.getElem?_eq_getElem b] at h4
    injection h4 with h4
    exact ⟨_, _, _, _, h4⟩
  · rw [engout_pair R L hn _ hr (by simp) hL, legs_eq hn _ hr]
    have key : ∀ cp cn : Nat, ∃ out, (match Engout.Pair.valuate ((r0 :: rest).map (legData R cp)) ((r0 :: rest).map (legData R cn)) L with
        | .error e => (Except.error e : Except PyErr (List (List ℝ)))
        | .ok v => pairTable v) = .ok out ∧ List.Forall₂ (fun (r s : List ℝ) => ∃ a b c d, s = [r0.getD 0 0, r.getD 0 0, a, b, c, d]) rest out := by
      intro cp cn
      rw [List.map_cons, Engout.pair_valuate_eq _ _ _ (by simpa using hne) (by simp)]
      refine ⟨_, pairTable_result _ _ _ _, ?_⟩
      rw [List.map_map, List.forall₂_map_right_iff, List.forall₂_same]
      intro r _
      exact ⟨_, _, _, _, rfl⟩
    split_ifs
    · exact key 4 1
    · exact key 1 4

/-- **C137** `tef-engout` on a table of numbers: it succeeds exactly if the table has at least two rows, the length is positive and the table has four
columns (a leg) or at least seven (a pair).  The output, read back, is the table of `C112` to four decimals: six columns, one row for every row of
the input but the first, starting with the temperature of the first row and its own; above it the title and the names of the columns, as comments
(nothing with `--bare`). -/
theorem C137_engout {rd : ℝ → ℝ} (hF : Faithful env rd) (ht : '\n' ∉ title) (fs : Files) (n : Nat) (rows : List (List ℝ)) (hn : Table n rows)
    (h1 : Holds env fs o.inputfile (nums rows)) :
    ((doEngout env title o fs).2 = .ok () ↔ Takes o n rows) ∧
    ∀ r0 rest, rows = r0 :: rest → Takes o n rows → ∃ out text, engout o.pair o.resistivity o.length rows = .ok out ∧ runE env title o fs o.output = some text ∧
      loadtxt env.float text = .ok (nums (out.map fun r => r.map rd)) ∧
      List.Forall₂ (fun (r s : List ℝ) => ∃ a b c d, s = [r0.getD 0 0, r.getD 0 0, a, b, c, d]) rest out ∧
      linesOf text = (if o.bare then [] else ["# ".toList ++ title, "# Tc     Th       PFeng  ZTeng  Pout   Yita".toList]) ++ (nums out).map (rowLine env.render) := by
  have hok : ∀ r0 rest, rows = r0 :: rest → Takes o n rows → ∃ out, engout o.pair o.resistivity o.length rows = .ok out ∧
      List.Forall₂ (fun (r s : List ℝ) => ∃ a b c d, s = [r0.getD 0 0, r.getD 0 0, a, b, c, d]) rest out := by
    rintro r0 rest rfl ⟨a1, a2, a3⟩
    exact engout_six (by rintro rfl; simp at a1) hn a2 a3
  refine ⟨⟨fun h => ?_, fun h => ?_⟩, fun r0 rest hrows hT => ?_⟩
  · by_contra hT
    have hbad : ∃ e, engout o.pair o.resistivity o.length rows = .error e := by
      by_cases hne : rows = []
      · subst hne
        exact ⟨_, engout_bad _ _ _ _ (Or.inl (by simp [width]))⟩
      · obtain ⟨c1, c2, -⟩ := C112_errors o.pair o.resistivity o.length n rows hne hn
        by_cases hb : n < 4 ∨ (o.pair = true ∧ n < 7) ∨ o.length ≤ 0 ∨ (o.pair = false ∧ 4 < n)
        · exact ⟨_, c1 hb⟩
        · refine ⟨_, (c2 hb).1 ?_⟩
          by_contra hlen
          apply hT
          push Not at hb
          obtain ⟨b1, b2, b3, b4⟩ := hb
          refine ⟨?_, b3, ?_⟩
          · have := List.length_pos_iff.2 hne
            omega
          · cases hp : o.pair with
            | false => exact .inl ⟨rfl, by have := b4 hp; omega⟩
            | true => exact .inr ⟨rfl, b2 hp⟩
    obtain ⟨e, he⟩ := hbad
    rw [engout_fails env title o fs rows h1 he] at h
    cases h
  · cases rows with
    | nil => exact absurd h.1 (by simp)
    | cons r0 rest =>
      obtain ⟨out, h2, -⟩ := hok r0 rest rfl h
      refine (C137_engout_frame env title o fs).2.2.1.2 ⟨_, nums out, h1, ?_⟩
      rw [engRows_nums, h2]
  · obtain ⟨out, h2, h3⟩ := hok r0 rest hrows hT
    have hE : engRows env o (nums rows) = .ok (nums out) := by rw [engRows_nums, h2]
    have htab : Table 6 (nums out) := by
      intro s hs
      unfold nums at hs
      obtain ⟨q, hq, rfl⟩ := List.mem_map.1 hs
      obtain ⟨r, -, a, b, c, d, rfl⟩ := forall₂_mem h3.flip q hq
      rfl
    obtain ⟨g1, g2⟩ := saved_read hF (n := 6) (by norm_num) (nums out) htab o.bare title engLabels ht engLabels_line
    refine ⟨out, _, h2, ?_, ?_, h3, g2⟩
    · unfold runE doEngout
      rw [(tableText_ok env _ o.bare title engLabels fs o.inputfile _).2 ⟨_, _, h1, hE, rfl⟩]
      exact if_pos rfl
    · rw [g1]
      simp only [rounded, nums, List.map_map, Function.comp_def, Option.map_some]

/-- **C137** An output file of its own: running again with the same options changes nothing. -/
theorem C137_engout_again (fs : Files) (hio : o.inputfile ≠ o.output) : doEngout env title o (runE env title o fs) = doEngout env title o fs := by
  have hin := (C137_engout_frame env title o fs).1 _ hio
  unfold doEngout
  rw [hin]
  unfold runE doEngout
  cases tableText env (engRows env o) o.bare title engLabels (fs o.inputfile) with
  | error e => rfl
  | ok text =>
    simp only
    congr 1
    funext n
    unfold Files.write
    split <;> rfl

/-- **C137** `tef-engout` onto its own input works once: the input is lost, and every further run — as a leg or as a pair, with any length — fails with a
`ValueError` (the six columns written are neither four nor seven) and changes nothing. -/
theorem C137_engout_in_place {rd : ℝ → ℝ} (hF : Faithful env rd) (ht : '\n' ∉ title) (fs : Files) (n : Nat) (rows : List (List ℝ)) (hn : Table n rows)
    (h1 : Holds env fs o.inputfile (nums rows)) (hio : o.output = o.inputfile) (hok : (doEngout env title o fs).2 = .ok ())
    (o' : EngOptions) (hio' : o'.inputfile = o.inputfile) (k : Nat) :
    (doEngout env title o' ((runE env title o')^[k] (runE env title o fs))).2 = .error .valueError ∧
    (runE env title o')^[k] (runE env title o fs) = runE env title o fs := by
  have hT := (C137_engout env title o hF ht fs n rows hn h1).1.1 hok
  obtain ⟨r0, rest, hrows⟩ : ∃ r0 rest, rows = r0 :: rest := List.exists_cons_of_ne_nil (by rintro rfl; exact absurd hT.1 (by simp))
  obtain ⟨out, text, g1, g2, g3, g4, -⟩ := (C137_engout env title o hF ht fs n rows hn h1).2 r0 rest hrows hT
  have hH : Holds env (runE env title o fs) o'.inputfile (nums (out.map fun r => r.map rd)) := ⟨text, by rw [hio', ← hio]; exact g2, g3⟩
  have h6 : Table 6 (out.map fun r => r.map rd) := by
    intro s hs
    obtain ⟨q, hq, rfl⟩ := List.mem_map.1 hs
    obtain ⟨r, -, a, b, c, d, rfl⟩ := forall₂_mem g4.flip q hq
    rfl
  have hne : (out.map fun r => r.map rd) ≠ [] := by
    intro e
    have h0 : out = [] := List.map_eq_nil_iff.1 e
    rw [h0] at g4
    cases g4
    rw [hrows] at hT
    exact absurd hT.1 (by simp)
  have hbad : engout o'.pair o'.resistivity o'.length (out.map fun r => r.map rd) = .error .valueError := by
    refine (C112_errors o'.pair o'.resistivity o'.length 6 _ hne h6).1 ?_
    cases o'.pair <;> simp
  have hstep := engout_fails env title o' (runE env title o fs) _ hH hbad
  have hstable : ∀ k, (runE env title o')^[k] (runE env title o fs) = runE env title o fs := by
    intro k
    induction k with
    | zero => rfl
    | succ k ih =>
      rw [Function.iterate_succ_apply', ih]
      unfold runE at hstep ⊢
      rw [hstep]
  exact ⟨by rw [hstable k, hstep], hstable k⟩

end

/-! ## A faithful environment

Real numbers rounded to four decimals (ties upwards), NaN as `nan`. -/

/-- the nearest multiple of 1/10000 -/
noncomputable def near4 (x : ℝ) : ℚ := (round (x * 10000) : ℚ) / 10000

/-- writing and reading -/
noncomputable def demoEnv : Env where
  float t := if t = "nan".toList then .ok none else match readFixed t with
    | .ok v => .ok (some (v.val : ℝ))
    | .error e => .error e
  render x := match x with
    | none => "nan".toList
    | some x => fixed 4 (numOf (near4 x))
  search := fun _ lo _ => ⟨true, lo, none⟩
  nanZtdev _ := .error .valueError
  nanEngout _ _ _ _ := .error .valueError

theorem near4_near (x : ℝ) : |((near4 x : ℚ) : ℝ) - x| ≤ 1 / 20000 := by
  have h := abs_sub_round (x * 10000)
  have e : ((near4 x : ℚ) : ℝ) - x = -(x * 10000 - round (x * 10000)) / 10000 := by
    unfold near4
    push_cast
    field_simp
    ring
  rw [e, abs_div, abs_neg, abs_of_pos (by norm_num : (0 : ℝ) < 10000)]
  rw [div_le_iff₀ (by norm_num)]
  linarith

theorem near4_again (x : ℝ) : near4 ((near4 x : ℚ) : ℝ) = near4 x := by
  have : ((near4 x : ℚ) : ℝ) * 10000 = ((round (x * 10000) : ℤ) : ℝ) := by
    unfold near4
    push_cast
    field_simp
  unfold near4 at *
  rw [this, round_intCast]

theorem reread_near4 (x : ℝ) : ∃ v, readFixed (fixed 4 (numOf (near4 x))) = .ok v ∧ v.val = near4 x := by
  obtain ⟨v, h1, h2, ⟨n, h3, -⟩, h4, -⟩ := C111_fixed 4 (by norm_num) (numOf (near4 x))
  refine ⟨v, h1, ?_⟩
  rw [numOf_val] at h4
  obtain ⟨m, hm⟩ : ∃ m : ℤ, v.val = (m : ℚ) / 10000 := by
    unfold Num.val
    rw [h3]
    cases v.neg with
    | true => exact ⟨-(n : ℤ), by push_cast; norm_num [neg_div]⟩
    | false => exact ⟨n, by push_cast; norm_num⟩
  have hd : v.val - near4 x = ((m - round (x * 10000) : ℤ) : ℚ) / 10000 := by
    rw [hm]; unfold near4; push_cast; ring
  rw [hd, abs_div, abs_of_pos (by norm_num : (0 : ℚ) < 10000), div_le_iff₀ (by norm_num)] at h4
  have h0 : m - round (x * 10000) = 0 := by
    rw [← Int.cast_abs] at h4
    have : |m - round (x * 10000)| < 1 := by
      have : ((|m - round (x * 10000)| : ℤ) : ℚ) < 1 := lt_of_le_of_lt h4 (by norm_num)
      exact_mod_cast this
    exact Int.abs_lt_one_iff.1 this
  rw [h0] at hd
  have : v.val - near4 x = 0 := by rw [hd]; norm_num
  linarith

theorem demo_render (x : ℝ) : demoEnv.render (some x) = fixed 4 (numOf (near4 x)) := rfl
theorem demo_float (t : List Char) : demoEnv.float t = if t = "nan".toList then .ok none else match readFixed t with
    | .ok v => .ok (some (v.val : ℝ))
    | .error e => .error e := rfl

theorem nan_unreadable : ∀ v, readFixed "nan".toList ≠ .ok v := by
  have : readFixed "nan".toList = .error .valueError := by decide +kernel
  intro v h
  rw [this] at h
  cases h

theorem demo_faithful : Faithful demoEnv (fun x => ((near4 x : ℚ) : ℝ)) where
  clean x := by
    cases x with
    | none => exact ⟨(by decide : "nan".toList ≠ []), (by decide +kernel : ∀ c ∈ "nan".toList, pySpace c = false ∧ c ≠ '#')⟩
    | some x => exact fixed_clean 4 _
  reads x := by
    obtain ⟨v, h1, h2⟩ := reread_near4 x
    have hne : fixed 4 (numOf (near4 x)) ≠ "nan".toList := by
      intro e
      rw [e] at h1
      exact nan_unreadable v h1
    rw [demo_render, demo_float, if_neg hne, h1]
    simp only [h2]
  nan := by
    have : demoEnv.render none = "nan".toList := rfl
    rw [this, demo_float, if_pos rfl]
  near := near4_near
  again x := by simp only [near4_again]

/-- every table of numbers with four decimals is held by some file -/
theorem demo_holds {n : Nat} (hn : 0 < n) (rows : List (List (Option ℝ))) (hr : Table n rows) (name : List Char)
    (h : ∀ r ∈ rows, ∀ x, some x ∈ r → ∃ m : ℤ, x = m / 10000) : ∃ fs : Files, Holds demoEnv fs name rows := by
  obtain ⟨h1, -⟩ := saved_read demo_faithful hn rows hr true [] [] (by simp) (by simp)
  refine ⟨fun _ => some (savetxt demoEnv.render rows (if true = true then [] else [] ++ ['\n']) ['#', ' ']), _, rfl, ?_⟩
  rw [h1]
  congr 1
  unfold rounded
  conv_rhs => rw [← List.map_id rows]
  apply List.map_congr_left
  intro r hr'
  conv_rhs => rw [id, ← List.map_id r]
  apply List.map_congr_left
  intro v hv
  cases v with
  | none => rfl
  | some x =>
    obtain ⟨m, rfl⟩ := h r hr' x hv
    simp only [Option.map_some, id, Option.some.injEq]
    unfold near4
    rw [div_mul_cancel₀ _ (by norm_num), round_intCast]
    push_cast
    ring

/-- a table `Tc, Th, Yita` with a NaN -/
example : ∃ fs : Files, Holds demoEnv fs "a.txt".toList [[some 300, some 400, some 5], [some 300, some 500, none]] := by
  refine demo_holds (n := 3) (by norm_num) _ (by intro r hr; simp at hr; rcases hr with rfl | rfl <;> rfl) _ ?_
  intro r hr x hx
  simp at hr
  rcases hr with rfl | rfl
  · simp at hx
    rcases hx with rfl | rfl | rfl
    · exact ⟨3000000, by norm_num⟩
    · exact ⟨4000000, by norm_num⟩
    · exact ⟨50000, by norm_num⟩
  · simp at hx
    rcases hx with rfl | rfl
    · exact ⟨3000000, by norm_num⟩
    · exact ⟨5000000, by norm_num⟩

/-- a table `T, C, S, K`, taken by `tef-engout` as it is -/
example : (∃ fs : Files, Holds demoEnv fs "a.txt".toList (nums [[300, 1000, 200, 2], [400, 900, 210, 1]])) ∧
    Takes { inputfile := "a.txt".toList, outputfile := [], suffix := "engout".toList, bare := false, pair := false, resistivity := true, length := 2 } 4
      [[300, 1000, 200, 2], [400, 900, 210, 1]] := by
  refine ⟨demo_holds (n := 4) (by norm_num) _ (by intro r hr; simp [nums] at hr; rcases hr with rfl | rfl <;> rfl) _ ?_, by simp, by norm_num, .inl ⟨rfl, rfl⟩⟩
  intro r hr x hx
  have : ∃ m : ℤ, x = m := by
    simp [nums] at hr
    rcases hr with rfl | rfl
    · simp at hx
      rcases hx with rfl | rfl | rfl | rfl
      exacts [⟨300, by norm_num⟩, ⟨1000, by norm_num⟩, ⟨200, by norm_num⟩, ⟨2, by norm_num⟩]
    · simp at hx
      rcases hx with rfl | rfl | rfl | rfl
      exacts [⟨400, by norm_num⟩, ⟨900, by norm_num⟩, ⟨210, by norm_num⟩, ⟨1, by norm_num⟩]
  obtain ⟨m, rfl⟩ := this
  exact ⟨m * 10000, by push_cast; ring⟩

/-- the device ZT of a row -/
example : ztOf (some 300) (some 400) none = none ∧ ztOf (some 300) (some 400) (some 5) = some (Ztdev.calZTdev 5 300 400) := ⟨rfl, rfl⟩

end TEflow.DeviceRun
