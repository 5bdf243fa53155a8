import Verif.Props.ToolRuns

/-! # C115: runs of `tef-mixing` -/

set_option linter.unusedSimpArgs false

namespace TEflow.ToolRuns

open Loader Interface TableFile Mathext

/-! ## Specification -/

/-- the number in row `i` and column `j` of a table -/
def entryAt (r : List (List Num)) (i j : Nat) : ℚ := (((r[i]?).bind (·[j]?)).map Num.val).getD 0

/-- the weighted sum of the numbers at one place of the tables -/
def weightedAt (rs : List (List (List Num))) (w : List ℚ) (i j : Nat) : ℚ := ((rs.zip w).map fun p => p.2 * entryAt p.1 i j).sum

/-- the factor applied: the scale option, or one over the sum of the weights if that is (nearly) zero -/
def factorOf (scale : ℚ) (w : List ℚ) : ℚ := if |scale| < 1 / 10000 then 1 / w.sum else scale

/-- the weights: those given, or ones -/
def WeightsAre (float : List Char → Except PyErr Num) (o : MixOptions) (w : List ℚ) : Prop :=
  (o.weight = none ∧ w = List.replicate o.inputfile.length 1) ∨
  ∃ t, o.weight = some t ∧ mixWeight (fun t => (float t).map Num.val) (some t) = .ok (some w) ∧ w.length = o.inputfile.length

/-- the tables in the input files -/
def Inputs (float : List Char → Except PyErr Num) (fs : Files) (names : List (List Char)) (rs : List (List (List Num))) : Prop :=
  List.Forall₂ (fun f r => ∃ t, fs f = some t ∧ loadtxt float t = .ok r) names rs

/-! ## Lemmas -/

theorem flatten_at {V : Type} (n : Nat) (rows : List (List V)) (h : Table n rows) (i j : Nat) (hj : j < n) :
    rows.flatten[i * n + j]? = (rows[i]?).bind (·[j]?) := by
  induction rows generalizing i with
  | nil => simp
  | cons r rows ih =>
    have hr : r.length = n := h r (by simp)
    rw [List.flatten_cons]
    cases i with
    | zero => rw [List.getElem?_append_left (by omega)]; simp
    | succ i =>
      rw [List.getElem?_append_right (by rw [hr, Nat.succ_mul]; omega), List.getElem?_cons_succ, ← ih (fun s hs => h s (by simp [hs])) i]
      congr 1
      rw [hr, Nat.succ_mul]; omega

theorem flatten_length {V : Type} (n : Nat) (rows : List (List V)) (h : Table n rows) : rows.flatten.length = rows.length * n := by
  induction rows with
  | nil => simp
  | cons r rows ih =>
    rw [List.flatten_cons, List.length_append, ih (fun s hs => h s (by simp [hs])), h r (by simp), List.length_cons, Nat.succ_mul, Nat.add_comm]

theorem chunks_length {V : Type} (n m : Nat) (l : List V) : (chunks n m l).length = m := by
  induction m generalizing l with
  | zero => rfl
  | succ m ih => simp [chunks, ih]

theorem chunks_table {V : Type} (n m : Nat) (l : List V) (h : l.length = m * n) : Table n (chunks n m l) := by
  induction m generalizing l with
  | zero => intro r hr; cases hr
  | succ m ih =>
    rw [Nat.succ_mul] at h
    intro r hr
    rcases List.mem_cons.1 hr with rfl | hr
    · rw [List.length_take]; omega
    · exact ih _ (by rw [List.length_drop]; omega) r hr

theorem chunks_at {V : Type} (n m : Nat) (l : List V) (i j : Nat) (hi : i < m) (hj : j < n) :
    ((chunks n m l)[i]?).bind (·[j]?) = l[i * n + j]? := by
  induction m generalizing l i with
  | zero => omega
  | succ m ih =>
    cases i with
    | zero => simp [chunks, List.getElem?_take, hj]
    | succ i =>
      rw [chunks, List.getElem?_cons_succ, ih _ i (by omega), List.getElem?_drop]
      congr 1
      rw [Nat.succ_mul]; omega

theorem inputs_mapM {float : List Char → Except PyErr Num} {fs : Files} {names : List (List Char)} {rs : List (List (List Num))}
    (h : Inputs float fs names rs) :
    names.mapM (readInput float fs) = .ok (rs.map squeezed) := by
  unfold Inputs at h
  induction h with
  | nil => rfl
  | cons h _ ih =>
    obtain ⟨t, h1, h2⟩ := h
    rw [List.mapM_cons, ih]
    simp only [readInput, h1, h2, Except.map, bind, Except.bind, pure, Except.pure, List.map_cons]

/-- the mixed data as an array -/
theorem mixed_spec {float : List Char → Except PyErr Num} {fs : Files} (o : MixOptions) (rs : List (List (List Num))) (w : List ℚ)
    (hin : Inputs float fs o.inputfile rs) (hne : rs ≠ []) (hw : WeightsAre float o w) (shape : List Nat)
    (hu : Uniform shape (rs.map squeezed)) :
    ∃ a, mixedData float o fs = .ok a ∧ a.shape = shape ∧ a.vals.length = shape.prod ∧
      ∀ k, a.vals.getD k 0 = factorOf o.scale w * wsum (rs.map squeezed) w k := by
  have hlen : rs.length = o.inputfile.length := (List.Forall₂.length_eq hin).symm
  have hwl : w.length = (rs.map squeezed).length := by
    rw [List.length_map, hlen]
    rcases hw with ⟨_, rfl⟩ | ⟨t, _, _, h⟩
    · simp
    · exact h
  have hne' : rs.map squeezed ≠ [] := by simpa using hne
  have hstep : mixedData float o fs = mixing (rs.map squeezed) (some w) (mixScale o.scale) := by
    unfold mixedData
    rw [inputs_mapM hin]
    simp only [bind, Except.bind, mixCommand]
    rcases hw with ⟨h, rfl⟩ | ⟨t, h, h2, _⟩
    · rw [h]
      simp only [mixWeight]
      rw [(C31_scale shape (rs.map squeezed) (List.replicate (rs.map squeezed).length 1) 0 hne' hu (by simp)).2, List.length_map, hlen]
    · rw [h, h2]
  rw [hstep]
  unfold mixScale factorOf
  by_cases hs : |o.scale| < 1 / 10000
  · rw [if_pos hs, if_pos hs]
    obtain ⟨r, h1, h2, h3, _, h4⟩ := C31_weighted_mean shape (rs.map squeezed) w hne' hu hwl
    exact ⟨r, h1, h2, h3, fun k => by rw [h4]; ring⟩
  · rw [if_neg hs, if_neg hs]
    obtain ⟨r, h1, h2, h3, h4⟩ := (C31_scale shape (rs.map squeezed) w o.scale hne' hu hwl).1
    exact ⟨r, h1, h2, h3, h4⟩

theorem squeezed_vals (r : List (List Num)) : (squeezed r).vals = r.flatten.map Num.val := by
  unfold squeezed
  split <;> (try split) <;> rfl

theorem squeezed_int (r : List (List Num)) : (squeezed r).isInt = false := by
  unfold squeezed
  split <;> (try split) <;> rfl

theorem squeezed_shape {m n : Nat} (r : List (List Num)) (hl : r.length = m) (ht : Table n r) (hm : 2 ≤ m) (hn : 2 ≤ n) : (squeezed r).shape = [m, n] := by
  match r, hl, ht with
  | [], hl, _ => simp at hl; omega
  | [a], hl, _ => simp at hl; omega
  | a :: b :: l, hl, ht =>
    have := ht a (by simp)
    unfold squeezed
    simp only [this, if_neg (by omega : ¬ n = 1), hl]

theorem squeezed_row (a : List Num) (hn : 2 ≤ a.length) : (squeezed [a]).shape = [a.length] := by
  unfold squeezed
  simp only [if_neg (by omega : ¬ a.length = 1)]

theorem squeezed_col (r : List (List Num)) (hm : 2 ≤ r.length) (ht : Table 1 r) : (squeezed r).shape = [r.length] := by
  match r, hm, ht with
  | [], hm, _ => simp at hm
  | [a], hm, _ => simp at hm
  | a :: b :: l, hm, ht =>
    unfold squeezed
    simp only [ht a (by simp), if_true]

theorem wsum_at (n : Nat) (rs : List (List (List Num))) (w : List ℚ) (ht : ∀ r ∈ rs, Table n r) (i j : Nat) (hj : j < n) :
    wsum (rs.map squeezed) w (i * n + j) = weightedAt rs w i j := by
  unfold wsum weightedAt
  rw [List.zip_map_left, List.map_map]
  congr 1
  apply List.map_congr_left
  intro p hp
  have hp1 : p.1 ∈ rs := (List.of_mem_zip hp).1
  simp only [Function.comp, Prod.map, id, squeezed_vals, entryAt, List.getD_eq_getElem?_getD, List.getElem?_map, flatten_at n p.1 (ht _ hp1) i j hj]

/-- a written table of which the rows are known -/
theorem mixing_written {float : List Char → Except PyErr Num} (hf : Reads float) (info : List Char) (o : MixOptions) (fs : Files) (a : Arr ℚ)
    (ha : mixedData float o fs = .ok a) (ho : o.outputfile ≠ []) (rows : List (List Num)) (hs : saveRows a = .ok rows) (n : Nat) (hn : 0 < n) (ht : Table n rows) :
    ∃ text, doMixing float info o fs = (fs.write o.outputfile text, .ok []) ∧ loadtxt float text = .ok (rows.map fun r => r.map reread) := by
  obtain ⟨text, h1, h2⟩ := C111_reread (fixed_clean 4) float reread (fun x => by rw [hf x, reread_ok]) o.bare (.rows rows) "Mixed datafiles".toList info
    (.names o.labels) (.names o.labels) rows n hn rfl ht
  refine ⟨text, ?_, h2⟩
  unfold doMixing
  simp only [ha, ne_eq, ho, not_false_eq_true, if_true, hs, h1]

/-! ## C115 -/

section
variable {float : List Char → Except PyErr Num} (hf : Reads float) (info : List Char) (o : MixOptions) (fs : Files) (rs : List (List (List Num))) (w : List ℚ)

include hf in
/-- **C115** Tables with `m ≥ 2` rows and `n ≥ 2` columns: the output file is a table of the same layout, each number the scaled weighted sum of the numbers
at its place, to four decimals. -/
theorem C115_table (m n : Nat) (hm : 2 ≤ m) (hn : 2 ≤ n) (hin : Inputs float fs o.inputfile rs) (hne : rs ≠ [])
    (hw : WeightsAre float o w) (ht : ∀ r ∈ rs, r.length = m ∧ Table n r) (ho : o.outputfile ≠ []) :
    ∃ text rows, doMixing float info o fs = (fs.write o.outputfile text, .ok []) ∧ loadtxt float text = .ok rows ∧ rows.length = m ∧ Table n rows ∧
      ∀ i j, i < m → j < n → (rows[i]?).bind (·[j]?) = some (reread (numOf (factorOf o.scale w * weightedAt rs w i j))) := by
  obtain ⟨a, ha, hsh, hl, hv⟩ := mixed_spec o rs w hin hne hw [m, n] (fun d hd => by
    obtain ⟨r, hr, rfl⟩ := List.mem_map.1 hd
    have hs := squeezed_shape r (ht r hr).1 (ht r hr).2 hm hn
    refine ⟨hs, ?_, squeezed_int r⟩
    rw [Arr.WF, hs, squeezed_vals, List.length_map, flatten_length n r (ht r hr).2, (ht r hr).1]
    simp)
  have hl' : a.vals.length = m * n := by rw [hl]; simp
  have hs : saveRows a = .ok (chunks n m (a.vals.map numOf)) := by unfold saveRows; rw [hsh]
  have htab := chunks_table n m (a.vals.map numOf) (by rw [List.length_map, hl'])
  obtain ⟨text, h1, h2⟩ := mixing_written hf info o fs a ha ho _ hs n (by omega) htab
  refine ⟨text, _, h1, h2, by rw [List.length_map, chunks_length], ?_, ?_⟩
  · intro r hr
    obtain ⟨q, hq, rfl⟩ := List.mem_map.1 hr
    rw [List.length_map]; exact htab q hq
  · intro i j hi hj
    have hk : i * n + j < a.vals.length := by
      rw [hl']
      calc i * n + j < i * n + n := by omega
        _ = (i + 1) * n := by ring
        _ ≤ m * n := Nat.mul_le_mul_right n hi
    have := chunks_at n m (a.vals.map numOf) i j hi hj
    rw [List.getElem?_map, List.getElem?_eq_getElem hk] at this
    have hval : a.vals[i * n + j] = factorOf o.scale w * weightedAt rs w i j := by
      rw [← wsum_at n rs w (fun r hr => (ht r hr).2) i j hj, ← hv, List.getD_eq_getElem?_getD, List.getElem?_eq_getElem hk]
      rfl
    rw [List.getElem?_map]
    cases hc : (chunks n m (a.vals.map numOf))[i]? with
    | none => rw [hc] at this; cases this
    | some row =>
      rw [hc] at this
      simp only [Option.bind_some, Option.map_some] at this
      simp only [Option.map_some, Option.bind_some, List.getElem?_map, this, hval]

/-- a table that is one row or one column, of `n ≥ 2` numbers -/
def Flat (n : Nat) (r : List (List Num)) : Prop := 2 ≤ n ∧ ((∃ a, r = [a] ∧ a.length = n) ∨ (r.length = n ∧ Table 1 r))

theorem flat_squeezed {n : Nat} {r : List (List Num)} (h : Flat n r) : (squeezed r).shape = [n] ∧ (squeezed r).vals = r.flatten.map Num.val ∧
    r.flatten.length = n := by
  obtain ⟨hn, ⟨a, rfl, ha⟩ | ⟨hl, ht⟩⟩ := h
  · exact ⟨by rw [squeezed_row a (by omega), ha], squeezed_vals _, by simpa using ha⟩
  · exact ⟨by rw [squeezed_col r (by omega) ht, hl], squeezed_vals _, by rw [flatten_length 1 r ht, hl, Nat.mul_one]⟩

theorem flat_mixed (n : Nat) (hin : Inputs float fs o.inputfile rs) (hne : rs ≠ []) (hw : WeightsAre float o w) (hr : ∀ r ∈ rs, Flat n r) :
    ∃ a, mixedData float o fs = .ok a ∧ a.shape = [n] ∧ a.vals.length = n ∧
      ∀ k, a.vals.getD k 0 = factorOf o.scale w * ((rs.zip w).map fun p => p.2 * (p.1.flatten.map Num.val).getD k 0).sum := by
  obtain ⟨a, ha, hsh, hl, hv⟩ := mixed_spec o rs w hin hne hw [n] (fun d hd => by
    obtain ⟨r, hr', rfl⟩ := List.mem_map.1 hd
    obtain ⟨h1, h2, h3⟩ := flat_squeezed (hr r hr')
    refine ⟨h1, ?_, squeezed_int r⟩
    rw [Arr.WF, h1, h2, List.length_map, h3]
    simp)
  refine ⟨a, ha, hsh, by rw [hl]; simp, fun k => ?_⟩
  rw [hv]
  congr 1
  unfold wsum
  rw [List.zip_map_left, List.map_map]
  congr 1
  apply List.map_congr_left
  intro p _
  simp only [Function.comp, Prod.map, id, squeezed_vals]

include hf in
/-- **C115** Files that are one row or one column of numbers are not told apart: the output file is always a column.  A one-row table comes out
transposed, and a row is mixed with a column without complaint. -/
theorem C115_flat (n : Nat) (hin : Inputs float fs o.inputfile rs) (hne : rs ≠ []) (hw : WeightsAre float o w) (hr : ∀ r ∈ rs, Flat n r)
    (ho : o.outputfile ≠ []) :
    ∃ text rows, doMixing float info o fs = (fs.write o.outputfile text, .ok []) ∧ loadtxt float text = .ok rows ∧ rows.length = n ∧
      ∀ k, k < n → rows[k]? = some [reread (numOf (factorOf o.scale w * ((rs.zip w).map fun p => p.2 * (p.1.flatten.map Num.val).getD k 0).sum))] := by
  obtain ⟨a, ha, hsh, hl, hv⟩ := flat_mixed o fs rs w n hin hne hw hr
  have hs : saveRows a = .ok (a.vals.map fun v => [numOf v]) := by unfold saveRows; rw [hsh]
  obtain ⟨text, h1, h2⟩ := mixing_written hf info o fs a ha ho _ hs 1 (by norm_num) (fun r hr => by
    obtain ⟨v, _, rfl⟩ := List.mem_map.1 hr; rfl)
  refine ⟨text, _, h1, h2, by simp [hl], fun k hk => ?_⟩
  have hk' : k < a.vals.length := by omega
  have hval := hv k
  rw [List.getD_eq_getElem?_getD, List.getElem?_eq_getElem hk', Option.getD_some] at hval
  rw [List.getElem?_map, List.getElem?_map, List.getElem?_eq_getElem hk', hval]
  rfl

/-- **C115** Without an output file: a table with at least two rows and columns is shown; one row or one column of numbers is a `TypeError`. -/
theorem C115_screen (hin : Inputs float fs o.inputfile rs) (hne : rs ≠ []) (hw : WeightsAre float o w) (ho : o.outputfile = []) :
    (∀ n, (∀ r ∈ rs, Flat n r) → doMixing float info o fs = (fs, .error .typeError)) ∧
    (∀ m n, 2 ≤ m → 2 ≤ n → (∀ r ∈ rs, r.length = m ∧ Table n r) → ∃ rows, doMixing float info o fs = (fs, .ok (screenText o.labels rows)) ∧
      rows.length = m ∧ Table n rows ∧
      ∀ i j, i < m → j < n → (rows[i]?).bind (·[j]?) = some (numOf (factorOf o.scale w * weightedAt rs w i j))) := by
  constructor
  · intro n hr
    obtain ⟨a, ha, hsh, hl, hv⟩ := flat_mixed o fs rs w n hin hne hw hr
    have hn : 2 ≤ n := by
      cases rs with
      | nil => exact absurd rfl hne
      | cons r rs => exact (hr r (by simp)).1
    obtain ⟨k, rfl⟩ : ∃ k, n = k + 1 := ⟨n - 1, by omega⟩
    unfold doMixing screenRows
    simp only [ha, ho, ne_eq, not_true_eq_false, if_false, hsh]
  · intro m n hm hn ht
    obtain ⟨a, ha, hsh, hl, hv⟩ := mixed_spec o rs w hin hne hw [m, n] (fun d hd => by
      obtain ⟨r, hr, rfl⟩ := List.mem_map.1 hd
      have hs := squeezed_shape r (ht r hr).1 (ht r hr).2 hm hn
      refine ⟨hs, ?_, squeezed_int r⟩
      rw [Arr.WF, hs, squeezed_vals, List.length_map, flatten_length n r (ht r hr).2, (ht r hr).1]
      simp)
    have hl' : a.vals.length = m * n := by rw [hl]; simp
    refine ⟨chunks n m (a.vals.map numOf), ?_, chunks_length _ _ _, chunks_table n m _ (by rw [List.length_map, hl']), fun i j hi hj => ?_⟩
    · unfold doMixing screenRows
      simp only [ha, ho, ne_eq, not_true_eq_false, if_false, hsh]
    · have hk : i * n + j < a.vals.length := by
        rw [hl']
        calc i * n + j < i * n + n := by omega
          _ = (i + 1) * n := by ring
          _ ≤ m * n := Nat.mul_le_mul_right n hi
      rw [chunks_at n m _ i j hi hj, List.getElem?_map, List.getElem?_eq_getElem hk, Option.map_some]
      have hval := hv (i * n + j)
      rw [wsum_at n rs w (fun r hr => (ht r hr).2) i j hj, List.getD_eq_getElem?_getD, List.getElem?_eq_getElem hk, Option.getD_some] at hval
      rw [hval]

theorem linesGo_end (cur l : List Char) (h : '\n' ∉ l) (hne : l ≠ []) : linesGo cur l = [cur.reverse ++ l] := by
  induction l generalizing cur with
  | nil => exact absurd rfl hne
  | cons c l ih =>
    have hc : ¬ c = '\n' := fun e => h (by simp [e])
    rw [linesGo, if_neg hc]
    by_cases hl : l = []
    · subst hl
      simp [linesGo]
    · rw [ih _ (fun h' => h (by simp [h'])) hl]
      simp

/-- lines put between line ends are the lines of the text -/
theorem linesOf_join (ls : List (List Char)) (h : ∀ l ∈ ls, '\n' ∉ l ∧ l ≠ []) : linesOf (join ['\n'] ls) = ls := by
  induction ls with
  | nil => rfl
  | cons a ls ih =>
    cases ls with
    | nil =>
      have := linesGo_end [] a (h a (by simp)).1 (h a (by simp)).2
      simpa [join, linesOf] using this
    | cons b ls =>
      rw [join, List.append_assoc, List.singleton_append, linesOf_line _ _ (h a (by simp)).1, ih (fun l hl => h l (by simp [hl]))]

theorem flatten_prefix (ls : List (List Char)) (h : ls ≠ []) : (ls.map fun l => '\n' :: l).flatten = '\n' :: join ['\n'] ls := by
  induction ls with
  | nil => exact absurd rfl h
  | cons a ls ih =>
    cases ls with
    | nil => simp [join]
    | cons b ls =>
      rw [List.map_cons, List.flatten_cons, ih (by simp), join]
      simp

include hf in
/-- **C115** What the screen shows: a heading with the labels, and below it the numbers to four decimals, laid out so that they can be read as a
table again. -/
theorem C115_screen_text (labels : List (List Char)) (rows : List (List Num)) (n : Nat) (hn : 0 < n) (hr : Table n rows) (hne : rows ≠ []) :
    ∃ body, screenText labels rows = (if labels = [] then "Result:".toList else "Result[".toList ++ join [' '] labels ++ "]:".toList) ++ '\n' :: body ∧
      (linesOf body).length = rows.length ∧ (∀ l ∈ linesOf body, ∃ t, l = ' ' :: ' ' :: t ∧ ∀ c, t.head? = some c → c ≠ ' ') ∧
      loadtxt float body = .ok (rows.map fun r => r.map reread) := by
  have hc := fixed_clean 4
  have hb : linesOf (join ['\n'] (rows.map fun r => ' ' :: ' ' :: rowLine (fixed 4) r)) = rows.map fun r => ' ' :: ' ' :: rowLine (fixed 4) r := by
    refine linesOf_join _ fun l hl => ?_
    obtain ⟨r, _, rfl⟩ := List.mem_map.1 hl
    refine ⟨?_, by simp⟩
    intro h
    simp only [List.mem_cons] at h
    rcases h with h | h | h
    · exact absurd h (by decide)
    · exact absurd h (by decide)
    · exact rowLine_newline hc r h
  refine ⟨join ['\n'] (rows.map fun r => ' ' :: ' ' :: rowLine (fixed 4) r), ?_, by rw [hb, List.length_map], ?_, ?_⟩
  · unfold screenText
    congr 1
    have := flatten_prefix (rows.map fun r => ' ' :: ' ' :: rowLine (fixed 4) r) (by simpa using hne)
    rw [List.map_map] at this
    exact this
  · rw [hb]
    intro l hl
    obtain ⟨r, hr', rfl⟩ := List.mem_map.1 hl
    refine ⟨_, rfl, fun c hcc e => ?_⟩
    cases r with
    | nil => have := hr _ hr'; simp at this; omega
    | cons x r =>
      have h1 : c ∈ fixed 4 x := by
        have hx := (hc x).1
        cases hfx : fixed 4 x with
        | nil => exact absurd hfx hx
        | cons d ds =>
          cases r with
          | nil => simp [rowLine, join, hfx] at hcc; simp [hcc]
          | cons y r => simp [rowLine, join, hfx] at hcc; simp [hcc]
      have := ((hc x).2 c h1).1
      rw [e] at this
      exact absurd this (by decide +kernel)
  · unfold loadtxt
    rw [hb]
    have hw : ∀ r : List Num, words (beforeHash (' ' :: ' ' :: rowLine (fixed 4) r)) = r.map (fixed 4) := by
      intro r
      have h1 : beforeHash (' ' :: ' ' :: rowLine (fixed 4) r) = ' ' :: ' ' :: rowLine (fixed 4) r := by
        refine beforeHash_free _ fun h => ?_
        simp only [List.mem_cons] at h
        rcases h with h | h | h
        · exact absurd h (by decide)
        · exact absurd h (by decide)
        · exact rowLine_hash hc r h
      rw [h1, ← words_rowLine hc r]
      have hs : pySpace ' ' = true := by decide +kernel
      simp [words, wordsGo, hs]
    have hi : ((rows.map fun r => ' ' :: ' ' :: rowLine (fixed 4) r).map fun l => words (beforeHash l)).filter (· ≠ []) = rows.map fun r => r.map (fixed 4) := by
      rw [List.map_map]
      have : (rows.map ((fun l => words (beforeHash l)) ∘ fun r => ' ' :: ' ' :: rowLine (fixed 4) r)) = rows.map fun r => r.map (fixed 4) :=
        List.map_congr_left fun r _ => hw r
      rw [this, List.filter_eq_self]
      intro w hw'
      obtain ⟨r, hr', rfl⟩ := List.mem_map.1 hw'
      have := hr r hr'
      have : r ≠ [] := by rintro rfl; simp at this; omega
      simpa using this
    rw [hi]
    have hm : ((rows.map fun r => r.map (fixed 4)).mapM fun r => r.mapM float) = .ok (rows.map fun r => r.map reread) := by
      rw [List.mapM_map]
      apply mapM_ok_map
      intro r _
      show (r.map (fixed 4)).mapM float = _
      rw [List.mapM_map]
      exact mapM_ok_map _ _ _ fun x _ => by rw [Function.comp, hf x, reread_ok]
    have hrect : rectangular (rows.map fun r => r.map reread) = true := by
      refine rectangular_of (n := n) fun r hr' => ?_
      obtain ⟨q, hq, rfl⟩ := List.mem_map.1 hr'
      rw [List.length_map]
      exact hr q hq
    simp only [hm, bind, Except.bind, hrect, if_true, pure, Except.pure]

/-- **C115** Files of a single number each: the run fails, and an output file is left empty (whatever it held before). -/
theorem C115_single (hin : Inputs float fs o.inputfile rs) (hne : rs ≠ []) (hw : WeightsAre float o w) (hr : ∀ r ∈ rs, ∃ v, r = [[v]]) :
    (o.outputfile ≠ [] → doMixing float info o fs = (fs.write o.outputfile [], .error .valueError)) ∧
    (o.outputfile = [] → doMixing float info o fs = (fs, .error .typeError)) := by
  obtain ⟨a, ha, hsh, hl, hv⟩ := mixed_spec o rs w hin hne hw [] (fun d hd => by
    obtain ⟨r, hr', rfl⟩ := List.mem_map.1 hd
    obtain ⟨v, rfl⟩ := hr r hr'
    exact ⟨rfl, rfl, rfl⟩)
  constructor
  · intro ho
    unfold doMixing saveRows
    simp only [ha, ne_eq, ho, not_false_eq_true, if_true, hsh]
  · intro ho
    unfold doMixing screenRows
    simp only [ha, ne_eq, ho, not_true_eq_false, if_false, hsh]

/-- **C115** Tables of different layouts are refused with a `ValueError`, a missing file with an `OSError`; no file is touched then. -/
theorem C115_refused :
    (∀ r0 rest r1, rs = r0 :: rest → r1 ∈ rest → (squeezed r1).shape ≠ (squeezed r0).shape → Inputs float fs o.inputfile rs →
      WeightsAre float o w → doMixing float info o fs = (fs, .error .valueError)) ∧
    (∀ pre f post rs', o.inputfile = pre ++ f :: post → Inputs float fs pre rs' → fs f = none → doMixing float info o fs = (fs, .error .ioError)) := by
  constructor
  · rintro r0 rest r1 rfl h1 h2 hin hw
    have hlen : (r0 :: rest).length = o.inputfile.length := (List.Forall₂.length_eq hin).symm
    have : mixedData float o fs = .error .valueError := by
      unfold mixedData
      rw [inputs_mapM hin]
      simp only [bind, Except.bind, mixCommand]
      have hmix : ∀ wt, mixing ((r0 :: rest).map squeezed) wt (mixScale o.scale) = .error .valueError := fun wt =>
        (C31_errors ((r0 :: rest).map squeezed) wt (mixScale o.scale)).2.2 (squeezed r0) (rest.map squeezed) rfl (squeezed_int r0)
          ⟨squeezed r1, List.mem_map.2 ⟨r1, h1, rfl⟩, h2⟩
      rcases hw with ⟨h, _⟩ | ⟨t, h, h3, _⟩
      · rw [h]; exact hmix none
      · rw [h, h3]; exact hmix (some w)
    unfold doMixing
    rw [this]
  · intro pre f post rs' hi hin hf'
    have : mixedData float o fs = .error .ioError := by
      unfold mixedData
      rw [hi, List.mapM_append, inputs_mapM hin, List.mapM_cons]
      simp only [readInput, hf', bind, Except.bind]
    unfold doMixing
    rw [this]

/-- **C115** A run changes no file but its output file. -/
theorem C115_frame : ∀ n, n ≠ o.outputfile → (doMixing float info o fs).1 n = fs n := by
  intro n hn
  unfold doMixing
  split
  · rfl
  · split
    · split
      · simp only [Files.write, if_neg hn]
      · split
        · rfl
        · simp only [Files.write, if_neg hn]
    · split <;> rfl

end

/-- a case: one row mixed with one column -/
example : (doMixing readFixed [] ⟨["a".toList, "b".toList], "c".toList, true, [], none, 0⟩ (fun n =>
    if n = "a".toList then some "1.0 2.0 4.0\n".toList else if n = "b".toList then some "3.0\n2.0\n0.0\n".toList else none)).1 "c".toList =
    some "2.0000\n2.0000\n2.0000\n".toList := by decide +kernel
example : (doMixing readFixed [] ⟨["a".toList, "b".toList], "c".toList, true, [], some "13".toList, 0⟩ (fun n =>
    if n = "a".toList then some "1.0 2.0\n4.0 0.0".toList else if n = "b".toList then some "3.0 2.0\n0.0 8.0\n".toList else none)).1 "c".toList =
    some "2.5000 2.0000\n1.0000 6.0000\n".toList := by decide +kernel
example : Flat 3 [[numOf 1, numOf 2, numOf 4]] ∧ Flat 3 [[numOf 3], [numOf 2], [numOf 0]] :=
  ⟨⟨by norm_num, Or.inl ⟨_, rfl, rfl⟩⟩, ⟨by norm_num, Or.inr ⟨rfl, fun r hr => by fin_cases hr <;> rfl⟩⟩⟩

end TEflow.ToolRuns
