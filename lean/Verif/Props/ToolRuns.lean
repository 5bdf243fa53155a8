import Verif.Model.ToolRuns
import Verif.Props.TableFile
import Verif.Props.DeviceCli
import Verif.Props.Mixing
import Verif.Props.Interp

/-! # C114: runs of `tef-interp`, one after the other -/

set_option linter.unusedSimpArgs false

namespace TEflow.ToolRuns

open Loader Interface TableFile Mathext

/-! ## Numbers in files -/

/-- what a number becomes by writing it with four decimals and reading it again -/
def reread (x : Num) : Num :=
  match readFixed (fixed 4 x) with
  | .ok y => y
  | .error _ => x

theorem reread_ok (x : Num) : readFixed (fixed 4 x) = .ok (reread x) := by
  obtain ⟨y, h, _⟩ := C111_fixed 4 (by norm_num) x
  rw [h]
  unfold reread
  rw [h]

theorem numOf_val (q : ℚ) : (numOf q).val = q := by
  unfold numOf Num.val
  by_cases h : q < 0
  · simp [h, abs_of_neg h]
  · simp [h, abs_of_nonneg (not_lt.1 h)]

/-- **C114** What a run writes and a later run reads: the nearest multiple of `0.0001` of what was computed; a number read from a file is a fixed point. -/
theorem C114_rounding (x : Num) :
    |(reread x).val - x.val| ≤ 1 / 20000 ∧ (∃ n : Nat, (reread x).mag = n / 10000) ∧ reread (reread x) = reread x ∧
      ∀ q, |(reread (numOf q)).val - q| ≤ 1 / 20000 := by
  have near : ∀ x : Num, |(reread x).val - x.val| ≤ 1 / 20000 := by
    intro x
    obtain ⟨y, h1, _, _, h4, _⟩ := C111_fixed 4 (by norm_num) x
    have e : reread x = y := by have := reread_ok x; rw [h1] at this; cases this; rfl
    rw [e]; norm_num at h4 ⊢; exact h4
  obtain ⟨y, h1, h2, ⟨n, h3, _⟩, h4, h5⟩ := C111_fixed 4 (by norm_num) x
  have e : reread x = y := by have := reread_ok x; rw [h1] at this; cases this; rfl
  refine ⟨near x, ⟨n, by rw [e, h3]; norm_num⟩, ?_, fun q => by simpa [numOf_val] using near (numOf q)⟩
  rw [e]
  have := reread_ok y
  rw [h5, h1] at this
  exact (Except.ok.inj this).symm

/-- Python's `float` on the texts written -/
def Reads (float : List Char → Except PyErr Num) : Prop := ∀ x, float (fixed 4 x) = readFixed (fixed 4 x)

/-! ## Columns -/

section
variable {V : Type}

theorem vstackT_spec (cols : List (List V)) (n : Nat) (hne : cols ≠ []) (h : ∀ c ∈ cols, c.length = n) :
    ∃ rows, vstackT cols = .ok rows ∧ rows.length = n ∧ Table cols.length rows ∧ columnsOf cols.length rows = cols := by
  have hm : ((cols.map fun c => ("", c)) : PyDict String (List V)).map Prod.snd = cols := by
    rw [List.map_map]; exact List.map_id _
  obtain ⟨l, rows, h1, h2, h3, h4, _⟩ := (C111_columns (cols.map fun c => (("", c) : String × List V)) (.names [])).2 n (by simpa using hne)
    (fun a ha => by obtain ⟨c, hc, rfl⟩ := List.mem_map.1 ha; exact h c hc)
  refine ⟨rows, ?_, h2, by simpa using h3, by rw [hm] at h4; simpa using h4⟩
  unfold tableOf at h1
  simp only [hm] at h1
  cases hv : vstackT cols with
  | error e => rw [hv] at h1; cases h1
  | ok r => rw [hv] at h1; cases h1; rfl

theorem vstackT_inv (cols : List (List V)) (rows : List (List V)) (h : vstackT cols = .ok rows) :
    ∃ n, cols ≠ [] ∧ (∀ c ∈ cols, c.length = n) ∧ rows.length = n ∧ Table cols.length rows ∧ columnsOf cols.length rows = cols := by
  cases cols with
  | nil => cases h
  | cons c cs =>
    have ha : ∀ x ∈ c :: cs, x.length = c.length := by
      by_cases ha : ((c :: cs).all fun x => x.length == c.length) = true
      · rw [List.all_eq_true] at ha
        intro x hx
        simpa using ha x hx
      · rw [vstackT, if_neg ha] at h
        cases h
    obtain ⟨r, h1, h2, h3, h4⟩ := vstackT_spec (c :: cs) c.length (by simp) ha
    rw [h] at h1
    cases h1
    exact ⟨c.length, by simp, ha, h2, h3, h4⟩

theorem columns_of {n : Nat} {rows : List (List V)} (hr : Table n rows) (hne : rows ≠ []) : columns rows = columnsOf n rows := by
  cases rows with
  | nil => exact absurd rfl hne
  | cons r rows => unfold columns columnsOf; simp only [hr r (by simp)]

theorem columnsOf_map {W : Type} (f : V → W) (n : Nat) (rows : List (List V)) :
    columnsOf n (rows.map fun r => r.map f) = (columnsOf n rows).map fun c => c.map f := by
  unfold columnsOf
  rw [List.map_map]
  apply List.map_congr_left
  intro j _
  simp only [Function.comp]
  rw [List.filterMap_map, List.map_filterMap]
  congr 1
  funext r
  simp [Function.comp]

end

/-- a table written by the tools and read again -/
theorem written {float : List Char → Except PyErr Num} (hf : Reads float) (bare : Bool) (cols rows : List (List Num)) (hv : vstackT cols = .ok rows)
    (header info : List Char) (labels : Labels) :
    ∃ text, toFile (fixed 4) bare false (.rows rows) header info labels = .ok text ∧ loadtxt float text = .ok (rows.map fun r => r.map reread) ∧
      (rows ≠ [] → loadColumns float text = .ok (cols.map fun c => c.map reread)) ∧
      ∀ c cs, cols = c :: cs → firstColumn float text = .ok (c.map reread) := by
  obtain ⟨n, h1, h2, h3, h4, h5⟩ := vstackT_inv cols rows hv
  obtain ⟨text, ht, hl⟩ := C111_reread (fixed_clean 4) float reread (fun x => by rw [hf x, reread_ok]) bare (.rows rows) header info labels labels rows
    cols.length (by cases cols with | nil => exact absurd rfl h1 | cons => simp) rfl h4
  have hc : rows ≠ [] → loadColumns float text = .ok (cols.map fun c => c.map reread) := by
    intro hne
    unfold loadColumns
    rw [hl]
    simp only
    rw [columns_of (n := cols.length), columnsOf_map, h5]
    · intro r hr
      obtain ⟨s, hs, rfl⟩ := List.mem_map.1 hr
      rw [List.length_map]; exact h4 s hs
    · simpa using hne
  refine ⟨text, ht, hl, hc, ?_⟩
  rintro c cs rfl
  by_cases hne : rows = []
  · subst hne
    have : c = [] := by
      have := h2 c (by simp)
      rw [← h3] at this
      exact List.length_eq_zero_iff.1 this
    subst this
    unfold firstColumn loadColumns
    rw [hl]
    rfl
  · unfold firstColumn
    rw [hc hne]
    rfl

/-! ## C114 -/

section
variable (float : List Char → Except PyErr Num) (argsort : List ℚ → List Nat)
  (interp : List Char → Option ℚ → List ℚ → List ℚ → List ℚ → Except PyErr (List ℚ)) (info : List Char) (o : InterpOptions)

theorem interpColumns_vinterp (vint : List Char → Option ℚ → List ℚ → Except PyErr (List (List ℚ))) (fl : List Char → Except PyErr ℚ) (m e : List Char)
    (x2 : List ℚ) (out : List (List ℚ)) (h : interpColumns fl vint m e true x2 = .ok out) :
    m ∈ interpMethods ∧ ∃ fill, vint m fill x2 = .ok out ∧ (m = "linear".toList ∨ m = "line".toList → ∃ v, fl e = .ok v ∧ fill = some v) := by
  by_cases hm : m ∉ interpMethods
  · rw [interpColumns, if_pos hm] at h; cases h
  refine ⟨not_not.1 hm, ?_⟩
  rw [interpColumns, if_neg hm] at h
  by_cases h1 : m = "linear".toList ∨ m = "line".toList
  · by_cases h2 : e = []
    · simp only [h1, h2, if_true, ne_eq, not_true_eq_false, if_false, bind, Except.bind, pure, Except.pure] at h
      cases hv : vint m none x2 with
      | error x => simp [hv] at h
      | ok d => simp [hv] at h
    · simp only [h1, h2, if_true, ne_eq, not_false_eq_true, bind, Except.bind, pure, Except.pure] at h
      cases he : fl e with
      | error x => simp [he, Except.map] at h
      | ok v =>
        simp only [he, Except.map] at h
        cases hv : vint m (some v) x2 with
        | error x => simp [hv] at h
        | ok d =>
          simp [hv] at h
          exact ⟨some v, by rw [hv, h], fun _ => ⟨v, rfl, rfl⟩⟩
  · simp only [h1, if_false, bind, Except.bind, pure, Except.pure] at h
    cases hv : vint m none x2 with
    | error x => simp [hv] at h
    | ok d =>
      simp [hv] at h
      exact ⟨none, by rw [hv, h], fun h' => absurd h' h1⟩

/-- the value a run writes, in steps -/
theorem interpText_eq (fs : Files) (input : List Char) (x : List Num) (ys : List (List Num)) (hi : fs o.inputfile = some input)
    (hc : loadColumns float input = .ok (x :: ys)) :
    interpText float argsort interp info o fs =
      match sampling float o x (fs o.output) with
      | .error e => .error e
      | .ok x2 => match interpRows float argsort interp o x ys x2 with
        | .error e => .error e
        | .ok rows => toFile (fixed 4) o.bare false (.rows rows) ("Interpolate via ".toList ++ o.method ++ " method".toList) info (.names []) := by
  unfold interpText
  simp only [hi, hc, bind, Except.bind]
  cases sampling float o x (fs o.output) with
  | error e => rfl
  | ok x2 =>
    simp only
    cases interpRows float argsort interp o x ys x2 <;> rfl

theorem interpText_inv (fs : Files) (text : List Char) (h : interpText float argsort interp info o fs = .ok text) :
    ∃ input x ys x2 rows, fs o.inputfile = some input ∧ loadColumns float input = .ok (x :: ys) ∧ sampling float o x (fs o.output) = .ok x2 ∧
      interpRows float argsort interp o x ys x2 = .ok rows ∧
      toFile (fixed 4) o.bare false (.rows rows) ("Interpolate via ".toList ++ o.method ++ " method".toList) info (.names []) = .ok text := by
  cases hi : fs o.inputfile with
  | none => unfold interpText at h; simp [hi, bind, Except.bind] at h
  | some input =>
    cases hc : loadColumns float input with
    | error e => unfold interpText at h; simp [hi, hc, bind, Except.bind] at h
    | ok cols =>
      cases cols with
      | nil => unfold interpText at h; simp [hi, hc, bind, Except.bind] at h
      | cons x ys =>
        rw [interpText_eq float argsort interp info o fs input x ys hi hc] at h
        cases hs : sampling float o x (fs o.output) with
        | error e => rw [hs] at h; cases h
        | ok x2 =>
          rw [hs] at h
          cases hr : interpRows float argsort interp o x ys x2 with
          | error e => simp only [hr] at h; cases h
          | ok rows =>
            simp only [hr] at h
            exact ⟨input, x, ys, x2, rows, rfl, hc, hs, hr, h⟩

theorem interpRows_inv (x : List Num) (ys : List (List Num)) (x2 : List Num) (rows : List (List Num))
    (h : interpRows float argsort interp o x ys x2 = .ok rows) :
    ∃ fill datas, o.method ∈ interpMethods ∧ (o.method = "linear".toList ∨ o.method = "line".toList → ∃ v, float o.extrapolate = .ok v ∧ fill = some v.val) ∧
      callVinterp argsort interp x ys o.method fill (x2.map Num.val) = .ok datas ∧
      vstackT (if o.bare then datas.map (·.map numOf) else x2 :: datas.map (·.map numOf)) = .ok rows := by
  unfold interpRows at h
  cases hc : interpColumns (fun t => (float t).map Num.val) (callVinterp argsort interp x ys) o.method o.extrapolate true (x2.map Num.val) with
  | error e => simp [hc, bind, Except.bind] at h
  | ok datas =>
    simp only [hc, bind, Except.bind] at h
    obtain ⟨hm, fill, hv, hl⟩ := interpColumns_vinterp _ _ _ _ _ _ hc
    refine ⟨fill, datas, hm, fun hh => ?_, hv, h⟩
    obtain ⟨v, h1, h2⟩ := hl hh
    cases hf : float o.extrapolate with
    | error e => simp [hf, Except.map] at h1
    | ok w =>
      simp only [hf, Except.map, Except.ok.injEq] at h1
      exact ⟨w, rfl, by rw [h2, h1]⟩

/-- **C114** A run changes no file but its output file, and not even that if it fails. -/
theorem C114_frame (fs : Files) :
    (∀ n, n ≠ o.output → (doInterp float argsort interp info o fs).1 n = fs n) ∧
    (∀ e, (doInterp float argsort interp info o fs).2 = .error e → (doInterp float argsort interp info o fs).1 = fs) ∧
    ((doInterp float argsort interp info o fs).2 = .ok () → ∃ text, (doInterp float argsort interp info o fs).1 o.output = some text) := by
  unfold doInterp
  cases interpText float argsort interp info o fs with
  | error e => exact ⟨fun _ _ => rfl, fun _ _ => rfl, fun h => by cases h⟩
  | ok text =>
    refine ⟨fun n hn => ?_, fun e h => ?_, fun _ => ⟨text, ?_⟩⟩
    · simp only [Files.write, if_neg hn]
    · cases h
    · simp only [Files.write, if_true]

/-- the interpolation of every column -/
theorem callVinterp_spec (x : List Num) (ys : List (List Num)) (m : List Char) (fill : Option ℚ) (x2 : List ℚ) (datas : List (List ℚ))
    (h : callVinterp argsort interp x ys m fill x2 = .ok datas) (hx : (x.map Num.val).Pairwise (· ≤ ·)) :
    ys ≠ [] ∧ 2 ≤ x.length + 2 * (if x = [] then 1 else 0) ∧
      List.Forall₂ (fun y d => interp m fill (y.map Num.val) (x.map Num.val) x2 = .ok d) ys datas := by
  unfold callVinterp at h
  by_cases hy : ys = []
  · rw [if_pos hy] at h; cases h
  rw [if_neg hy] at h
  have e1 : (x.map fun v => some v.val) = (x.map Num.val).map some := by rw [List.map_map]; rfl
  have e2 : (ys.map fun r => r.map fun v => some v.val) = (ys.map (List.map Num.val)).map (List.map some) := by
    rw [List.map_map]
    apply List.map_congr_left
    intro r _
    simp [Function.comp]
  rw [e1, e2] at h
  have hl1 : x.length ≠ 1 := by
    intro hl
    unfold vinterp at h
    rw [if_pos (by simpa using hl)] at h
    cases h
  have hd : hasDescent (x.map Num.val) = false := by
    rw [Bool.eq_false_iff]
    intro hd
    obtain ⟨i, a, b, h1, h2, h3⟩ := (hasDescent_iff _).1 hd
    obtain ⟨hi1, rfl⟩ := List.getElem?_eq_some_iff.1 h1
    obtain ⟨hi2, rfl⟩ := List.getElem?_eq_some_iff.1 h2
    exact absurd (List.pairwise_iff_getElem.1 hx i (i + 1) hi1 hi2 (by omega)) (not_le.2 h3)
  refine ⟨hy, ?_, ?_⟩
  · split
    · omega
    · rename_i hne
      have : x.length ≠ 0 := fun h => hne (List.length_eq_zero_iff.1 h)
      omega
  · by_cases hany : ((ys.map (List.map Num.val)).map (List.map some)).any (fun row => row.length ≠ ((x.map Num.val).map some).length) = true
    · unfold vinterp at h
      rw [if_neg (by simpa using hl1), if_pos hany] at h
      cases h
    · unfold vinterp at h
      rw [if_neg (by simpa using hl1), if_neg hany, allFinite_map_some, mapM_allFinite, allFinite_map_some] at h
      simp only [hd, if_false, Bool.false_eq_true] at h
      rw [List.mapM_map] at h
      clear hany hy e2
      induction ys generalizing datas with
      | nil =>
        simp [pure, Except.pure] at h
        subst h; exact List.Forall₂.nil
      | cons y ys ih =>
        rw [List.mapM_cons] at h
        cases hy1 : interp m fill (y.map Num.val) (x.map Num.val) x2 with
        | error e => simp [Function.comp, hy1, bind, Except.bind] at h
        | ok d =>
          simp only [Function.comp, hy1, bind, Except.bind] at h
          cases hr : (ys.mapM ((fun row => interp m fill row (x.map Num.val) x2) ∘ List.map Num.val)) with
          | error e => rw [hr] at h; cases h
          | ok ds =>
            rw [hr] at h
            simp only [pure, Except.pure, Except.ok.injEq] at h
            subst h
            exact List.Forall₂.cons hy1 (ih ds hr)

/-- **C114** The file a successful run leaves, for abscissae in increasing order: the sampling points (left out with `--bare`) and the interpolation
of every data column at them, read back to four decimals. -/
theorem C114_table (hf : Reads float) (fs : Files) (input : List Char) (x : List Num) (ys : List (List Num))
    (hi : fs o.inputfile = some input) (hc : loadColumns float input = .ok (x :: ys)) (hx : (x.map Num.val).Pairwise (· ≤ ·))
    (h : (doInterp float argsort interp info o fs).2 = .ok ()) :
    ∃ x2 fill datas text, sampling float o x (fs o.output) = .ok x2 ∧ ys ≠ [] ∧
      List.Forall₂ (fun y d => interp o.method fill (y.map Num.val) (x.map Num.val) (x2.map Num.val) = .ok d) ys datas ∧
      (doInterp float argsort interp info o fs).1 o.output = some text ∧
      (o.bare = false → firstColumn float text = .ok (x2.map reread) ∧
        (x2 ≠ [] → loadColumns float text = .ok (x2.map reread :: datas.map fun d => d.map fun v => reread (numOf v)))) ∧
      (o.bare = true → ∀ d ds, datas = d :: ds → firstColumn float text = .ok (d.map fun v => reread (numOf v)) ∧
        (d ≠ [] → loadColumns float text = .ok (datas.map fun d => d.map fun v => reread (numOf v)))) := by
  unfold doInterp at h ⊢
  cases ht : interpText float argsort interp info o fs with
  | error e => rw [ht] at h; cases h
  | ok text =>
    obtain ⟨input', x', ys', x2, rows, h1, h2, h3, h4, h5⟩ := interpText_inv float argsort interp info o fs text ht
    rw [hi] at h1; cases h1
    rw [hc] at h2; cases h2
    obtain ⟨fill, datas, _, _, h6, h7⟩ := interpRows_inv float argsort interp o x ys x2 rows h4
    obtain ⟨hy, _, h8⟩ := callVinterp_spec argsort interp x ys o.method fill _ datas h6 hx
    obtain ⟨text', w1, _, w3, w4⟩ := written hf o.bare _ rows h7 ("Interpolate via ".toList ++ o.method ++ " method".toList) info (.names [])
    rw [h5] at w1; cases w1
    have hmap : (datas.map (·.map numOf)).map (fun c => c.map reread) = datas.map fun d => d.map fun v => reread (numOf v) := by
      rw [List.map_map]
      apply List.map_congr_left
      intro d _
      simp [Function.comp]
    obtain ⟨n, hcne, hclen, hrlen, _⟩ := vstackT_inv _ _ h7
    refine ⟨x2, fill, datas, text, h3, hy, h8, by simp [Files.write], fun hb => ?_, fun hb d ds hd => ?_⟩
    · simp only [hb, Bool.false_eq_true, if_false] at w3 w4 hclen
      refine ⟨w4 _ _ rfl, fun hne => ?_⟩
      rw [w3, List.map_cons, hmap]
      intro hr
      subst hr
      have := hclen x2 (by simp)
      rw [← hrlen] at this
      exact hne (List.length_eq_zero_iff.1 this)
    · simp only [hb, if_true] at w3 w4 hclen
      refine ⟨?_, fun hne => ?_⟩
      · have := w4 (d.map numOf) (ds.map (·.map numOf)) (by rw [hd]; rfl)
        rw [this]
        simp [Function.comp]
      · rw [w3, hmap]
        intro hr
        subst hr
        have := hclen (d.map numOf) (by rw [hd]; simp)
        rw [← hrlen] at this
        exact hne (by simpa using this)

/-- **C114** The abscissae may be in any order: the interpolation sees them sorted, each with its own data. -/
theorem C114_unsorted (ha : IsArgsort argsort) (fs : Files) (input : List Char) (x : List Num) (ys : List (List Num))
    (hi : fs o.inputfile = some input) (hc : loadColumns float input = .ok (x :: ys)) (hl : ∀ y ∈ ys, y.length = x.length)
    (h : (doInterp float argsort interp info o fs).2 = .ok ()) :
    ∃ x2 fill datas x' rows text, sampling float o x (fs o.output) = .ok x2 ∧ x'.Pairwise (· ≤ ·) ∧
      List.Forall₂ (fun y d => ∃ y', y'.length = x'.length ∧ (x'.zip y').Perm ((x.map Num.val).zip (y.map Num.val)) ∧
        interp o.method fill y' x' (x2.map Num.val) = .ok d) ys datas ∧
      vstackT (if o.bare then datas.map (·.map numOf) else x2 :: datas.map (·.map numOf)) = .ok rows ∧
      (doInterp float argsort interp info o fs).1 o.output = some text ∧
      toFile (fixed 4) o.bare false (.rows rows) ("Interpolate via ".toList ++ o.method ++ " method".toList) info (.names []) = .ok text := by
  unfold doInterp at h ⊢
  cases ht : interpText float argsort interp info o fs with
  | error e => rw [ht] at h; cases h
  | ok text =>
    obtain ⟨input', x', ys', x2, rows, h1, h2, h3, h4, h5⟩ := interpText_inv float argsort interp info o fs text ht
    rw [hi] at h1; cases h1
    rw [hc] at h2; cases h2
    obtain ⟨fill, datas, _, _, h6, h7⟩ := interpRows_inv float argsort interp o x ys x2 rows h4
    unfold callVinterp at h6
    by_cases hy : ys = []
    · rw [if_pos hy] at h6; cases h6
    rw [if_neg hy] at h6
    have e1 : (x.map fun v => some v.val) = (x.map Num.val).map some := by rw [List.map_map]; rfl
    have e2 : (ys.map fun r => r.map fun v => some v.val) = (ys.map (List.map Num.val)).map (List.map some) := by
      rw [List.map_map]
      apply List.map_congr_left
      intro r _
      simp [Function.comp]
    rw [e1, e2] at h6
    have hl1 : (x.map Num.val).length ≠ 1 := by
      intro hl
      unfold vinterp at h6
      rw [if_pos (by simpa using hl)] at h6
      cases h6
    obtain ⟨xs, r, s1, s2, s3⟩ := C36_sorted_pairs argsort ha (interp o.method fill) (x.map Num.val) (ys.map (List.map Num.val)) (x2.map Num.val) hl1
      (fun row hr => by
        obtain ⟨y, hy', rfl⟩ := List.mem_map.1 hr
        rw [List.length_map, List.length_map, hl y hy'])
    rw [s3] at h6
    refine ⟨x2, fill, datas, xs, rows, text, h3, s1, ?_, h7, by simp [Files.write], h5⟩
    rw [List.mapM_map] at h6
    have s2' : ∀ y ∈ ys, (r (y.map Num.val)).length = xs.length ∧ (xs.zip (r (y.map Num.val))).Perm ((x.map Num.val).zip (y.map Num.val)) :=
      fun y hy' => s2 _ (List.mem_map.2 ⟨y, hy', rfl⟩)
    clear s2 s3 e2 hl hy hc h4 h7
    induction ys generalizing datas with
    | nil =>
      simp [pure, Except.pure] at h6
      subst h6; exact List.Forall₂.nil
    | cons y ys ih =>
      rw [List.mapM_cons] at h6
      cases hy1 : interp o.method fill (r (y.map Num.val)) xs (x2.map Num.val) with
      | error e => simp [Function.comp, hy1, bind, Except.bind] at h6
      | ok d =>
        simp only [Function.comp, hy1, bind, Except.bind] at h6
        cases hr : (ys.mapM ((fun row => interp o.method fill (r row) xs (x2.map Num.val)) ∘ List.map Num.val)) with
        | error e => rw [hr] at h6; cases h6
        | ok ds =>
          rw [hr] at h6
          simp only [pure, Except.pure, Except.ok.injEq] at h6
          subst h6
          exact List.Forall₂.cons ⟨_, (s2' y (by simp)).1, (s2' y (by simp)).2, hy1⟩ (ih ds hr fun z hz => s2' z (by simp [hz]))

/-- **C114** Without an output file (and without a range) the sampling points are `npoints ≥ 2` equally spaced points from the first to the last abscissa. -/
theorem C114_first (x : List Num) (a b : Num) (n : Nat) (hr : o.range = []) (hn : o.npoints = (n : Int) + 2) (ha : x.head? = some a) (hb : x.getLast? = some b) :
    ∃ x2, sampling float o x none = .ok x2 ∧ x2.length = n + 2 ∧
      ∀ i, i < n + 2 → (x2[i]?).map Num.val = some (a.val + i * (b.val - a.val) / (n + 1)) := by
  have hx : ¬ (o.range = [] ∧ x = []) := by
    rintro ⟨_, rfl⟩; cases ha
  unfold sampling
  simp only [if_neg hx]
  simp only [ha, hb, hr, hn, Option.map_some, Option.getD_some, samplePoints, ne_eq, not_true_eq_false, if_false, linspace]
  rw [if_neg (by omega), if_neg (by omega)]
  simp only [Except.map]
  refine ⟨_, rfl, by simp; omega, fun i hi => ?_⟩
  have h0 : ((n : Int) + 2).toNat = n + 2 := by omega
  rw [h0, List.getElem?_map, List.getElem?_map, List.getElem?_range hi]
  simp only [Option.map_some, numOf_val, Option.some.injEq]
  push_cast
  ring

/-- **C114** If the output file exists, the sampling points are its first column: the options for the number of points and the range are not looked
at (not even a malformed range is noticed). -/
theorem C114_again (fs : Files) (text : List Char) (h : fs o.output = some text) (n : Int) (range : List Char) :
    doInterp float argsort interp info { o with npoints := n, range := range } fs = doInterp float argsort interp info o fs ∧
    ∀ x, sampling float o x (fs o.output) = firstColumn float text := by
  refine ⟨?_, fun x => by rw [h]; rfl⟩
  have : interpText float argsort interp info { o with npoints := n, range := range } fs = interpText float argsort interp info o fs := by
    have ho : InterpOptions.output { o with npoints := n, range := range } = o.output := rfl
    unfold interpText
    simp only [ho, h]
    rfl
  unfold doInterp
  rw [this]
  rfl

/-- one run, as a change of the files -/
def run (fs : Files) : Files := (doInterp float argsort interp info o fs).1

theorem write_same (fs : Files) (n text : List Char) (h : fs n = some text) : fs.write n text = fs := by
  funext m
  unfold Files.write
  split
  · rename_i e; rw [e, h]
  · rfl

theorem run_eq (fs : Files) : run float argsort interp info o fs = match interpText float argsort interp info o fs with
    | .error _ => fs
    | .ok text => fs.write o.output text := by
  unfold run doInterp
  cases interpText float argsort interp info o fs <;> rfl

/-- **C114** Without `--bare`, and with an output file other than the input file, the files settle after two runs: any number of further runs (with the
same options) leaves everything as it is.  (The second run may change the file: it samples at the rounded points.) -/
theorem C114_settles (hf : Reads float) (hb : o.bare = false) (hio : o.inputfile ≠ o.output) (fs : Files) (k : Nat) :
    (run float argsort interp info o)^[k + 2] fs = (run float argsort interp info o)^[2] fs := by
  set R := run float argsort interp info o with hR
  have key : ∀ fs, R (R (R fs)) = R (R fs) := by
    intro fs
    have hfail : ∀ gs e, interpText float argsort interp info o gs = .error e → R gs = gs := by
      intro gs e h; rw [hR, run_eq, h]
    have hok : ∀ gs text, interpText float argsort interp info o gs = .ok text → R gs = gs.write o.output text := by
      intro gs text h; rw [hR, run_eq, h]
    have hwi : ∀ (gs : Files) text, (gs.write o.output text) o.inputfile = gs o.inputfile := by
      intro gs text; simp only [Files.write, if_neg hio]
    have hwo : ∀ (gs : Files) text, (gs.write o.output text) o.output = some text := by
      intro gs text; simp only [Files.write, if_true]
    -- what a successful run leaves as sampling points
    have hcol : ∀ gs text, interpText float argsort interp info o gs = .ok text → ∃ input x ys x2, gs o.inputfile = some input ∧
        loadColumns float input = .ok (x :: ys) ∧ sampling float o x (gs o.output) = .ok x2 ∧ firstColumn float text = .ok (x2.map reread) := by
      intro gs text h
      obtain ⟨input, x, ys, x2, rows, h1, h2, h3, h4, h5⟩ := interpText_inv float argsort interp info o gs text h
      obtain ⟨fill, datas, _, _, h6, h7⟩ := interpRows_inv float argsort interp o x ys x2 rows h4
      obtain ⟨text', w1, _, w3, w4⟩ := written hf o.bare _ rows h7 ("Interpolate via ".toList ++ o.method ++ " method".toList) info (.names [])
      rw [h5] at w1; cases w1
      simp only [hb, Bool.false_eq_true, if_false] at w4
      exact ⟨input, x, ys, x2, h1, h2, h3, w4 _ _ rfl⟩
    cases h1 : interpText float argsort interp info o fs with
    | error e => rw [hfail fs e h1, hfail fs e h1, hfail fs e h1]
    | ok t1 =>
      rw [hok fs t1 h1]
      set fs1 := fs.write o.output t1 with hfs1
      cases h2 : interpText float argsort interp info o fs1 with
      | error e => rw [hfail fs1 e h2, hfail fs1 e h2]
      | ok t2 =>
        rw [hok fs1 t2 h2]
        set fs2 := fs1.write o.output t2 with hfs2
        obtain ⟨input, x, ys, x2, a1, a2, a3, a4⟩ := hcol fs t1 h1
        obtain ⟨input', x', ys', x2', b1, b2, b3, b4⟩ := hcol fs1 t2 h2
        have hin : fs1 o.inputfile = fs o.inputfile := hwi fs t1
        rw [hin, a1] at b1; cases b1
        rw [a2] at b2; cases b2
        have hx2' : x2' = x2.map reread := by
          rw [show fs1 o.output = some t1 from hwo fs t1] at b3
          have : sampling float o x (some t1) = firstColumn float t1 := rfl
          rw [this, a4] at b3
          cases b3; rfl
        have hsame : firstColumn float t2 = .ok x2' := by
          rw [b4, hx2', List.map_map]
          congr 1
          apply List.map_congr_left
          intro v _
          exact (C114_rounding v).2.2.1
        have h3 : interpText float argsort interp info o fs2 = .ok t2 := by
          rw [interpText_eq float argsort interp info o fs2 input x ys (by rw [show fs2 o.inputfile = fs1 o.inputfile from hwi fs1 t2, hin, a1]) a2]
          rw [interpText_eq float argsort interp info o fs1 input x ys (by rw [hin, a1]) a2, b3] at h2
          have : sampling float o x (fs2 o.output) = .ok x2' := by rw [show fs2 o.output = some t2 from hwo fs1 t2]; exact hsame
          rw [this]
          exact h2
        rw [hok fs2 t2 h3]
        exact write_same fs2 _ _ (hwo fs1 t2)
  induction k with
  | zero => rfl
  | succ k ih =>
    rw [show k + 1 + 2 = (k + 2) + 1 from rfl, Function.iterate_succ_apply', ih]
    exact key fs

/-- **C114** With `--bare` the sampling points are not written, and the next run takes the first data column for them: the sampling points of run two
are the results of run one. -/
theorem C114_bare (hf : Reads float) (hb : o.bare = true) (fs : Files) (input : List Char) (x : List Num) (y : List Num) (ys : List (List Num))
    (hi : fs o.inputfile = some input) (hc : loadColumns float input = .ok (x :: y :: ys)) (hx : (x.map Num.val).Pairwise (· ≤ ·))
    (h : (doInterp float argsort interp info o fs).2 = .ok ()) :
    ∃ x2 fill d, sampling float o x (fs o.output) = .ok x2 ∧ interp o.method fill (y.map Num.val) (x.map Num.val) (x2.map Num.val) = .ok d ∧
      sampling float o x ((doInterp float argsort interp info o fs).1 o.output) = .ok (d.map fun v => reread (numOf v)) := by
  obtain ⟨x2, fill, datas, text, h1, h2, h3, h4, _, h6⟩ := C114_table float argsort interp info o hf fs input x (y :: ys) hi hc hx h
  cases h3 with
  | @cons _ d _ ds hd _ => exact ⟨x2, fill, d, h1, hd, by rw [h4]; exact (h6 hb d ds rfl).1⟩

/-- **C114** Input that cannot be used: a missing file, a table of one column, a table of one row. -/
theorem C114_input (fs : Files) :
    (fs o.inputfile = none → (doInterp float argsort interp info o fs).2 = .error .ioError) ∧
    (∀ input x, fs o.inputfile = some input → loadColumns float input = .ok [x] → (doInterp float argsort interp info o fs).2 ≠ .ok ()) ∧
    (∀ input x ys, fs o.inputfile = some input → loadColumns float input = .ok (x :: ys) → x.length = 1 →
      (doInterp float argsort interp info o fs).2 ≠ .ok ()) := by
  have aux : ∀ input x ys, fs o.inputfile = some input → loadColumns float input = .ok (x :: ys) → (doInterp float argsort interp info o fs).2 = .ok () →
      ∃ fill x2 datas, callVinterp argsort interp x ys o.method fill x2 = .ok datas := by
    intro input x ys hi hc h
    unfold doInterp at h
    cases ht : interpText float argsort interp info o fs with
    | error e => rw [ht] at h; cases h
    | ok text =>
      obtain ⟨input', x', ys', x2, rows, h1, h2, h3, h4, h5⟩ := interpText_inv float argsort interp info o fs text ht
      rw [hi] at h1; cases h1
      rw [hc] at h2; cases h2
      obtain ⟨fill, datas, _, _, h6, h7⟩ := interpRows_inv float argsort interp o x ys x2 rows h4
      exact ⟨fill, _, datas, h6⟩
  refine ⟨fun h => ?_, fun input x hi hc h => ?_, fun input x ys hi hc hl h => ?_⟩
  · have : interpText float argsort interp info o fs = .error .ioError := by unfold interpText; simp only [h, bind, Except.bind]
    unfold doInterp
    rw [this]
  · obtain ⟨fill, x2, datas, hv⟩ := aux input x [] hi hc h
    unfold callVinterp at hv
    rw [if_pos rfl] at hv
    cases hv
  · obtain ⟨fill, x2, datas, hv⟩ := aux input x ys hi hc h
    unfold callVinterp at hv
    split at hv
    · cases hv
    · unfold vinterp at hv
      rw [if_pos (by simpa using hl)] at hv
      cases hv

end

/-! ### A case: two runs with `--bare` -/

/-- linear interpolation (`numpy.interp`) -/
def lineInterp (_ : List Char) (fill : Option ℚ) (y x xp : List ℚ) : Except PyErr (List ℚ) := .ok (xp.map (npInterp (x.zip y) fill fill))

/-- the options of the case -/
def demoOptions (bare : Bool) : InterpOptions :=
  { inputfile := "a.txt".toList, outputfile := "b.txt".toList, suffix := "interp".toList, bare := bare, method := "line".toList
    extrapolate := "0.0".toList, npoints := 3, range := [] }

/-- the files of the case -/
def demoFiles : Files := fun n => if n = "a.txt".toList then some "0.0 5.0\n1.0 6.0\n".toList else none

example : (doInterp readFixed (fun _ => []) lineInterp "now".toList (demoOptions true) demoFiles).1 "b.txt".toList =
    some "5.0000\n5.5000\n6.0000\n".toList := by decide +kernel
/-- the results are lost in the second run -/
example : (run readFixed (fun _ => []) lineInterp "now".toList (demoOptions true))^[2] demoFiles "b.txt".toList =
    some "0.0000\n0.0000\n0.0000\n".toList := by decide +kernel
example : (run readFixed (fun _ => []) lineInterp "now".toList (demoOptions false))^[2] demoFiles "b.txt".toList =
    some "#Interpolate via line method - now\n0.0000 5.0000\n0.5000 5.5000\n1.0000 6.0000\n".toList := by decide +kernel
example : loadColumns readFixed "0.0 5.0\n1.0 6.0\n".toList = .ok [[⟨false, 0, le_rfl⟩, ⟨false, 1, by norm_num⟩], [⟨false, 5, by norm_num⟩, ⟨false, 6, by norm_num⟩]] := by
  decide +kernel
example : (demoOptions false).inputfile ≠ (demoOptions false).output := by decide +kernel
example : Reads readFixed := fun _ => rfl
/-- the second run may change the file: a third is sampled at `0.3333` -/
example : (run readFixed (fun _ => []) lineInterp [] { demoOptions false with npoints := 4 })^[2] (fun n => if n = "a.txt".toList then some "0.0 0.0\n1.0 10.0\n".toList else none)
    "b.txt".toList ≠ (run readFixed (fun _ => []) lineInterp [] { demoOptions false with npoints := 4 }) (fun n => if n = "a.txt".toList then some "0.0 0.0\n1.0 10.0\n".toList else none)
    "b.txt".toList := by decide +kernel

end TEflow.ToolRuns
