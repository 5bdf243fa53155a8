import Verif.Model.FormatRun
import Verif.Props.ToolRuns
import Verif.Props.Instr
import Verif.Props.InterfaceDerived
import Verif.Props.InterfaceNames
import Verif.Props.InterfaceNum
import Verif.Props.DataFile
import Verif.Props.Dataset

/-! # C118: runs of `tef-format`, one after the other -/

set_option linter.unusedSimpArgs false
set_option linter.unusedVariables false

namespace TEflow.FormatRun

open Loader Interface TableFile Mathext ToolRuns

/-! ## Numbers -/

/-- what a number becomes by writing and reading it -/
def rereadFl : Fl → Fl
  | .num x => .num (reread x)
  | v => v

/-- `float` on the texts written -/
def ReadsFl (float : List Char → Except PyErr Fl) : Prop := ∀ v, float (render4 v) = .ok (rereadFl v)

theorem rereadFl_idem (v : Fl) : rereadFl (rereadFl v) = rereadFl v := by
  cases v with
  | num x => simp [rereadFl, (C114_rounding x).2.2.1]
  | nan => rfl
  | inf n => rfl

theorem render4_clean : Clean render4 := by
  intro v
  cases v with
  | num x => exact fixed_clean 4 x
  | nan => exact ⟨by decide, by decide⟩
  | inf n => cases n <;> exact ⟨by decide, by decide⟩

theorem ofRat_val (q : ℚ) : (Fl.ofRat q).val? = some q := by simp [Fl.ofRat, Fl.val?, numOf_val]

/-! ## A table written and read again -/

/-- for dictionaries of columns -/
theorem writtenD {V : Type} {render : V → List Char} (hc : Clean render) {float : List Char → Except PyErr V} (rd : V → V)
    (hf : ∀ x, float (render x) = .ok (rd x)) (bare : Bool) (out : PyDict String (List V)) (header info text : List Char)
    (h : toFile render bare false (.columns out) header info (.names []) = .ok text) :
    ∃ n, out ≠ [] ∧ (∀ c ∈ out.map Prod.snd, c.length = n) ∧
      (n ≠ 0 → loadColumns float text = .ok (out.map fun p => p.2.map rd)) ∧
      ∀ p l, out = p :: l → firstColumn float text = .ok (p.2.map rd) := by
  cases ht : tableOf (.names []) (.columns out) with
  | error e => unfold toFile at h; rw [ht] at h; cases h
  | ok q =>
    obtain ⟨l, rows⟩ := q
    have hv : vstackT (out.map Prod.snd) = .ok rows := by
      unfold tableOf at ht
      cases hv : vstackT (out.map Prod.snd) with
      | error e => simp only [hv] at ht; cases ht
      | ok r => simp only [hv] at ht; cases ht; rfl
    obtain ⟨n, h1, h2, h3, h4, h5⟩ := vstackT_inv _ rows hv
    obtain ⟨text', ht', hl⟩ := C111_reread hc float rd hf bare (.columns out) header info (.names []) l rows (out.map Prod.snd).length
      (List.length_pos_iff.2 h1) ht h4
    rw [h] at ht'; cases ht'
    have hcol : n ≠ 0 → loadColumns float text = .ok (out.map fun p => p.2.map rd) := by
      intro hn
      unfold loadColumns
      rw [hl]
      simp only
      rw [columns_of (n := (out.map Prod.snd).length), columnsOf_map, h5, List.map_map]
      · rfl
      · intro r hr
        obtain ⟨s, hs, rfl⟩ := List.mem_map.1 hr
        rw [List.length_map]; exact h4 s hs
      · intro hr
        have : rows = [] := by simpa using hr
        rw [this] at h3; exact hn h3.symm
    refine ⟨n, by rintro rfl; exact h1 rfl, h2, hcol, ?_⟩
    rintro p l rfl
    by_cases hn : n = 0
    · have e : rows = [] := List.length_eq_zero_iff.1 (by rw [h3, hn])
      have : p.2 = [] := List.length_eq_zero_iff.1 (by rw [h2 p.2 (by simp), hn])
      unfold firstColumn loadColumns
      rw [hl, e, this]
      rfl
    · unfold firstColumn
      rw [hcol hn]
      rfl

theorem toFile_bare {V : Type} (render : V → List Char) (headers : Bool) (data : Data V) (header info : List Char) (labels : Labels) :
    toFile render true headers data header info labels = toFile render true false data header info labels := rfl

/-! ## One run in steps -/

section
variable (env : Env) (info : List Char) (o : Options)

/-- **C118** A run changes no file but its output file, and not even that if it fails. -/
theorem C118_frame (fs : Files) :
    (∀ n, n ≠ o.output → (doFormat env info o fs).1 n = fs n) ∧
    (∀ e, (doFormat env info o fs).2 = .error e → (doFormat env info o fs).1 = fs) ∧
    ((doFormat env info o fs).2 = .ok () → ∃ text, (doFormat env info o fs).1 o.output = some text) := by
  unfold doFormat
  cases formatText env info o fs with
  | error e => exact ⟨fun _ _ => rfl, fun _ _ => rfl, fun h => by cases h⟩
  | ok text =>
    refine ⟨fun n hn => ?_, fun e h => ?_, fun _ => ⟨text, ?_⟩⟩
    · simp only [Files.write, if_neg hn]
    · cases h
    · simp only [Files.write, if_true]

theorem formatText_inv (fs : Files) (text : List Char) (h : formatText env info o fs = .ok text) :
    ∃ ds T out, inputData env o fs = .ok ds ∧ temperatures env o ds (fs o.output) = .ok T ∧ outColumns env o ds T = .ok out ∧
      toFile render4 o.bare o.headers (.columns out) "Formated thermoelectric data".toList info (.names []) = .ok text := by
  unfold formatText at h
  cases hd : inputData env o fs with
  | error e => rw [hd] at h; cases h
  | ok ds =>
    rw [hd] at h
    simp only at h
    cases hT : temperatures env o ds (fs o.output) with
    | error e => rw [hT] at h; cases h
    | ok T =>
      rw [hT] at h
      simp only at h
      cases ho : outColumns env o ds T with
      | error e => rw [ho] at h; cases h
      | ok out =>
        rw [ho] at h
        exact ⟨ds, T, out, rfl, hT, ho, h⟩

theorem doFormat_ok (fs : Files) (h : (doFormat env info o fs).2 = .ok ()) :
    ∃ text, formatText env info o fs = .ok text ∧ (doFormat env info o fs).1 = fs.write o.output text := by
  unfold doFormat at h ⊢
  cases ht : formatText env info o fs with
  | error e => rw [ht] at h; cases h
  | ok text => exact ⟨text, rfl, rfl⟩

theorem formatMethods_three (m : List Char) (ms : List (List Char)) (h : formatMethods m = .ok ms) : ∃ a b c, ms = [a, b, c] := by
  have key : ∀ (l : List (List Char)) r, l.mapM refineMethod = .ok r → r.length = l.length := by
    intro l
    induction l with
    | nil => intro r hr; simp [pure, Except.pure] at hr; subst hr; rfl
    | cons a l ih =>
      intro r hr
      rw [List.mapM_cons] at hr
      cases h1 : refineMethod a with
      | error e => simp [h1, bind, Except.bind] at hr
      | ok x =>
        cases h2 : l.mapM refineMethod with
        | error e => simp [h1, h2, bind, Except.bind] at hr
        | ok xs =>
          simp [h1, h2, bind, Except.bind, pure, Except.pure] at hr
          subst hr
          simp [ih xs h2]
  have h3 : ms.length = 3 := by
    unfold formatMethods at h
    split at h
    · cases h
    · exact key _ _ h
    · cases h
    · exact key _ _ h
  match ms, h3 with
  | [a, b, c], _ => exact ⟨a, b, c, rfl⟩

/-- the dictionary written -/
theorem outColumns_inv (ds : TEdata) (T : List Fl) (out : PyDict String (List Fl)) (h : outColumns env o ds T = .ok out) :
    ∃ m1 m2 m3 csk miss, formatMethods o.method = .ok [m1, m2, m3] ∧
      formatCSK (fetch ds) (interpolate env T) [("C", m1), ("S", m2), ("K", m3)] = .ok (csk, miss) ∧
      (o.calculate = false → out = ("T", T) :: csk.map fun p => (p.1, p.2.map Fl.ofRat)) ∧
      (o.calculate = true → miss = [] ∧ ∃ more, calculated env o ds T [m1, m2, m3] csk = .ok more ∧
        out = (("T", T) :: csk.map fun p => (p.1, p.2.map Fl.ofRat)) ++ more) := by
  unfold outColumns at h
  cases hm : formatMethods o.method with
  | error e => rw [hm] at h; cases h
  | ok ms =>
    obtain ⟨m1, m2, m3, rfl⟩ := formatMethods_three _ _ hm
    rw [hm] at h
    simp only [List.zip_cons_cons, List.zip_nil_left] at h
    cases hc : formatCSK (fetch ds) (interpolate env T) [("C", m1), ("S", m2), ("K", m3)] with
    | error e => simp only [hc] at h; cases h
    | ok q =>
      obtain ⟨csk, miss⟩ := q
      simp only [hc] at h
      refine ⟨m1, m2, m3, csk, miss, rfl, hc, fun hcal => ?_, fun hcal => ?_⟩
      · simp only [hcal, Bool.false_eq_true, if_false, Except.ok.injEq] at h
        exact h.symm
      · simp only [hcal, if_true] at h
        by_cases hmiss : miss ≠ []
        · rw [if_pos hmiss] at h; cases h
        · rw [if_neg hmiss] at h
          refine ⟨not_not.1 hmiss, ?_⟩
          cases hcc : calculated env o ds T [m1, m2, m3] csk with
          | error e => rw [hcc] at h; cases h
          | ok more =>
            rw [hcc] at h
            simp only [Except.map, Except.ok.injEq] at h
            exact ⟨more, rfl, h.symm⟩

theorem formatCSK_cols {τ β : Type} (fetch : String → Option τ) (interp : List Char → τ → Except PyErr β) (pm : List (String × List Char))
    (out : PyDict String β) (miss : List String) (h : formatCSK fetch interp pm = .ok (out, miss)) :
    List.Forall₂ (fun p q => q.1 = p.1 ∧ ∃ d, fetch p.1 = some d ∧ interp p.2 d = .ok q.2) (pm.filter fun p => (fetch p.1).isSome) out ∧
      miss = (pm.map Prod.fst).filter fun p => (fetch p).isNone := by
  induction pm generalizing out miss with
  | nil =>
    simp only [formatCSK, Except.ok.injEq, Prod.mk.injEq] at h
    obtain ⟨rfl, rfl⟩ := h
    exact ⟨List.Forall₂.nil, rfl⟩
  | cons a pm ih =>
    obtain ⟨p, m⟩ := a
    simp only [formatCSK] at h
    cases hf : fetch p with
    | none =>
      simp only [hf] at h
      cases hr : formatCSK fetch interp pm with
      | error e => simp [hr, Except.map] at h
      | ok q =>
        obtain ⟨o, ms⟩ := q
        simp only [hr, Except.map, Except.ok.injEq, Prod.mk.injEq] at h
        obtain ⟨rfl, rfl⟩ := h
        obtain ⟨h1, h2⟩ := ih o ms hr
        exact ⟨by simpa [hf] using h1, by simp [hf, h2]⟩
    | some d =>
      simp only [hf] at h
      cases hi : interp m d with
      | error e => simp [hi] at h
      | ok w =>
        simp only [hi] at h
        cases hr : formatCSK fetch interp pm with
        | error e => simp [hr, Except.map] at h
        | ok q =>
          obtain ⟨o, ms⟩ := q
          simp only [hr, Except.map, Except.ok.injEq, Prod.mk.injEq] at h
          obtain ⟨rfl, rfl⟩ := h
          obtain ⟨h1, h2⟩ := ih o ms hr
          refine ⟨?_, by simp [hf, h2]⟩
          rw [List.filter_cons_of_pos (by simp [hf])]
          exact List.Forall₂.cons ⟨rfl, d, hf, hi⟩ h1

/-! ## C118 -/

/-- **C118** The file a successful run (without `-c`) leaves: the temperatures, then those of C, S, K that the data have, each interpolated at the
temperatures by its own method, read back to four decimals. -/
theorem C118_table (hf : ReadsFl env.float) (hcal : o.calculate = false) (hh : o.bare = true ∨ o.headers = false) (fs : Files)
    (h : (doFormat env info o fs).2 = .ok ()) :
    ∃ ds T m1 m2 m3 cols text, inputData env o fs = .ok ds ∧ temperatures env o ds (fs o.output) = .ok T ∧
      formatMethods o.method = .ok [m1, m2, m3] ∧
      List.Forall₂ (fun p (c : List ℚ) => c.length = T.length ∧ ∃ d, fetch ds p.1 = some d ∧ interpolate env T p.2 d = .ok c)
        ([("C", m1), ("S", m2), ("K", m3)].filter fun p => (fetch ds p.1).isSome) cols ∧
      (doFormat env info o fs).1 o.output = some text ∧ firstColumn env.float text = .ok (T.map rereadFl) ∧
      (T ≠ [] → loadColumns env.float text = .ok (T.map rereadFl :: cols.map fun c => c.map fun q => rereadFl (Fl.ofRat q))) := by
  obtain ⟨text, ht, hfs⟩ := doFormat_ok env info o fs h
  obtain ⟨ds, T, out, h1, h2, h3, h4⟩ := formatText_inv env info o fs text ht
  obtain ⟨m1, m2, m3, csk, miss, h5, h6, h7, -⟩ := outColumns_inv env o ds T out h3
  obtain ⟨h8, -⟩ := formatCSK_cols _ _ _ _ _ h6
  have h4' : toFile render4 o.bare false (.columns out) "Formated thermoelectric data".toList info (.names []) = .ok text := by
    rcases hh with hh | hh
    · rw [hh] at h4 ⊢; exact h4
    · rw [hh] at h4; exact h4
  obtain ⟨n, w1, w2, w3, w4⟩ := writtenD render4_clean rereadFl hf o.bare out _ info text h4'
  rw [h7 hcal] at w2 w3 w4
  have hn : T.length = n := w2 T (by simp)
  refine ⟨ds, T, m1, m2, m3, csk.map Prod.snd, text, h1, h2, h5, ?_, by rw [hfs]; simp [Files.write], w4 _ _ rfl, fun hT => ?_⟩
  · rw [List.forall₂_map_right_iff]
    have hlen : ∀ q ∈ csk, q.2.length = T.length := by
      intro q hq
      rw [hn, ← w2 (q.2.map Fl.ofRat) (by simp only [List.map_cons, List.map_map, List.mem_cons, List.mem_map]; exact Or.inr ⟨q, hq, rfl⟩)]
      simp
    clear w2 w3 w4 h6 h7
    revert hlen
    generalize ([("C", m1), ("S", m2), ("K", m3)].filter fun p => (fetch ds p.1).isSome) = l at h8
    induction h8 with
    | nil => intro _; exact List.Forall₂.nil
    | cons hd _ ih => intro hlen; exact List.Forall₂.cons ⟨hlen _ (by simp), hd.2⟩ (ih fun q hq => hlen q (by simp [hq]))
  · rw [w3 (by rw [← hn]; simpa using hT)]
    simp [List.map_map, Function.comp]

/-- **C118** What the interpolation of one property is: the data sorted by temperature (each value still at its temperature) go to the method, at the
temperatures of the output; a single data point, a value or temperature that is not finite is a `ValueError`. -/
theorem C118_interpolate (T : List Fl) (meth : List Char) :
    (∀ (x y t : List ℚ), T.map Fl.val? = t.map some → x.length ≠ 1 → y.length = x.length → x.Pairwise (· ≤ ·) →
      interpolate env T meth (x.map some, y.map some) = env.interp meth y x t) ∧
    (∀ (x y t : List ℚ), T.map Fl.val? = t.map some → x.length ≠ 1 → y.length = x.length → IsArgsort env.argsort →
      ∃ x' y', x'.Pairwise (· ≤ ·) ∧ x'.length = y'.length ∧ (x'.zip y').Perm (x.zip y) ∧ interpolate env T meth (x.map some, y.map some) = env.interp meth y' x' t) ∧
    (∀ d, d.1.length = 1 ∨ none ∈ d.1 ∨ none ∈ d.2 ∨ (∃ v ∈ T, v.val? = none) → interpolate env T meth d = .error .valueError) := by
  have one : ∀ (r : Except PyErr (List ℚ)), (match ([()].mapM fun _ => r : Except PyErr (List (List ℚ))) with
      | .error e => (.error e : Except PyErr (List ℚ)) | .ok (r :: _) => .ok r | .ok [] => .error .valueError) = r := by
    intro r; cases r <;> rfl
  have one' : ∀ (f : List ℚ → Except PyErr (List ℚ)) (y : List ℚ), (match ([y].mapM f : Except PyErr (List (List ℚ))) with
      | .error e => (.error e : Except PyErr (List ℚ)) | .ok (r :: _) => .ok r | .ok [] => .error .valueError) = f y := by
    intro f y
    rw [List.mapM_cons, List.mapM_nil]
    cases f y <;> rfl
  refine ⟨fun x y t ht hx hy hs => ?_, fun x y t ht hx hy ha => ?_, fun d hd => ?_⟩
  · unfold interpolate
    rw [ht]
    have := vinterp_finite env.argsort (env.interp meth) x [y] t hx (by simpa using hy)
    simp only [List.map_cons, List.map_nil] at this
    simp only [this]
    have hd : hasDescent x = false := by
      rw [Bool.eq_false_iff]
      intro hd
      obtain ⟨i, a, b, h1, h2, h3⟩ := (hasDescent_iff _).1 hd
      obtain ⟨hi1, rfl⟩ := List.getElem?_eq_some_iff.1 h1
      obtain ⟨hi2, rfl⟩ := List.getElem?_eq_some_iff.1 h2
      exact absurd (List.pairwise_iff_getElem.1 hs i (i + 1) hi1 hi2 (by omega)) (not_le.2 h3)
    refine (one' _ y).trans ?_
    unfold useIdx
    simp only [hd, Bool.false_eq_true, if_false]
    rw [pick_range, ← hy, pick_range]
  · obtain ⟨x', r, s1, s2, s3⟩ := C36_sorted_pairs env.argsort ha (env.interp meth) x [y] t hx (by simpa using hy)
    refine ⟨x', r y, s1, ((s2 y (by simp)).1).symm, (s2 y (by simp)).2, ?_⟩
    unfold interpolate
    rw [ht]
    simp only [List.map_cons, List.map_nil] at s3
    simp only [s3]
    exact one' _ y
  · unfold interpolate
    rw [C36_errors]
    rcases hd with h | h | h | ⟨v, hv, h⟩
    · exact Or.inl h
    · exact Or.inr (Or.inr (Or.inl h))
    · exact Or.inr (Or.inr (Or.inr (Or.inl ⟨d.2, by simp, h⟩)))
    · exact Or.inr (Or.inr (Or.inr (Or.inr (by rw [← h]; exact List.mem_map_of_mem hv))))


/-- **C118** With `-c` a run needs C, S and K: it writes the eleven columns T, C, S, K, L, Ke, Kp, PF, ZT, ZTave, CF, in this order; if one of the three cannot
be had from the data, it fails (and leaves the files alone, `C118_frame`). -/
theorem C118_calculate (hcal : o.calculate = true) (fs : Files) (ds : TEdata) (hd : inputData env o fs = .ok ds) :
    ((∃ p ∈ ["C", "S", "K"], fetch ds p = none) → ∃ e, (doFormat env info o fs).2 = .error e) ∧
    ((doFormat env info o fs).2 = .ok () → ∃ T out text, outColumns env o ds T = .ok out ∧ temperatures env o ds (fs o.output) = .ok T ∧
      out.map Prod.fst = ["T", "C", "S", "K", "L", "Ke", "Kp", "PF", "ZT", "ZTave", "CF"] ∧
      toFile render4 o.bare o.headers (.columns out) "Formated thermoelectric data".toList info (.names []) = .ok text ∧
      (doFormat env info o fs).1 o.output = some text) := by
  have main : (doFormat env info o fs).2 = .ok () → (∀ p ∈ ["C", "S", "K"], fetch ds p ≠ none) ∧ ∃ T out text, outColumns env o ds T = .ok out ∧ temperatures env o ds (fs o.output) = .ok T ∧
      out.map Prod.fst = ["T", "C", "S", "K", "L", "Ke", "Kp", "PF", "ZT", "ZTave", "CF"] ∧
      toFile render4 o.bare o.headers (.columns out) "Formated thermoelectric data".toList info (.names []) = .ok text ∧
      (doFormat env info o fs).1 o.output = some text := by
    intro h
    obtain ⟨text, ht, hfs⟩ := doFormat_ok env info o fs h
    obtain ⟨ds', T, out, h1, h2, h3, h4⟩ := formatText_inv env info o fs text ht
    rw [hd] at h1; cases h1
    obtain ⟨m1, m2, m3, csk, miss, h5, h6, -, h7⟩ := outColumns_inv env o ds T out h3
    obtain ⟨h8, h9⟩ := formatCSK_cols _ _ _ _ _ h6
    obtain ⟨rfl, more, h10, h11⟩ := h7 hcal
    have hall : ∀ p ∈ ["C", "S", "K"], fetch ds p ≠ none := by
      intro p hp hn
      have := List.filter_eq_nil_iff.1 h9.symm p (by simpa using hp)
      rw [hn] at this
      exact this rfl
    refine ⟨hall, T, out, text, h3, h2, ?_, h4, by rw [hfs]; simp [Files.write]⟩
    have hs : ∀ p ∈ [("C", m1), ("S", m2), ("K", m3)], (fetch ds p.1).isSome = true := by
      intro p hp
      rw [Option.isSome_iff_ne_none]
      apply hall
      fin_cases hp <;> simp
    rw [List.filter_eq_self.2 hs] at h8
    have hk : csk.map Prod.fst = ["C", "S", "K"] := by
      cases h8 with
      | cons a1 t1 =>
        cases t1 with
        | cons a2 t2 =>
          cases t2 with
          | cons a3 t3 =>
            cases t3
            simp [a1.1, a2.1, a3.1]
    have hm : more.map Prod.fst = ["L", "Ke", "Kp", "PF", "ZT", "ZTave", "CF"] := by
      unfold calculated at h10
      simp only at h10
      cases hl : lorenz env o ds T [m1, m2, m3] (T.filterMap Fl.val?) ((PyDict.get? csk "C").getD []) ((PyDict.get? csk "S").getD []) ((PyDict.get? csk "K").getD []) with
      | error e => simp only [hl] at h10; cases h10
      | ok q =>
        obtain ⟨l, ke, kp⟩ := q
        simp only [hl] at h10
        cases hdv : env.derived [T.filterMap Fl.val?, (PyDict.get? csk "C").getD [], (PyDict.get? csk "S").getD [], (PyDict.get? csk "K").getD []] with
        | error e => simp only [hdv] at h10; cases h10
        | ok q =>
          obtain ⟨a, b, c, d⟩ := q
          simp only [hdv, Except.ok.injEq] at h10
          rw [← h10]
          rfl
    rw [h11]
    simp only [List.map_append, List.map_cons, List.map_map, hm]
    have : (csk.map (Prod.fst ∘ fun p : String × List ℚ => (p.1, p.2.map Fl.ofRat))) = csk.map Prod.fst := List.map_congr_left fun _ _ => rfl
    rw [this, hk]
    rfl
  refine ⟨?_, fun h => (main h).2⟩
  rintro ⟨p, hp, hn⟩
  cases h : (doFormat env info o fs).2 with
  | error e => exact ⟨e, rfl⟩
  | ok u => exact absurd hn ((main h).1 p hp)

/-- **C118** The labels: with `-c`, without `--bare` and `--headers`, the second line names the columns. -/
theorem C118_labels (hb : o.bare = false) (hh : o.headers = false) (hi : '\n' ∉ info) (hcal : o.calculate = true) (fs : Files)
    (h : (doFormat env info o fs).2 = .ok ()) :
    ∃ text rows, (doFormat env info o fs).1 o.output = some text ∧ linesOf text =
      ("#Formated thermoelectric data - ".toList ++ info) :: "#T  C  S  K  L  Ke  Kp  PF  ZT  ZTave  CF".toList :: rows := by
  obtain ⟨text, ht, hfs⟩ := doFormat_ok env info o fs h
  obtain ⟨ds', T', out', h1, h2, h3, h4⟩ := formatText_inv env info o fs text ht
  obtain ⟨-, hc⟩ := C118_calculate env info o hcal fs ds' h1
  obtain ⟨T, out, text', c1, c2, c3, c4, c5⟩ := hc h
  rw [hb, hh] at c4
  cases htab : tableOf (.names []) (.columns out) with
  | error e => unfold toFile at c4; rw [htab] at c4; cases c4
  | ok q =>
    obtain ⟨l, rows⟩ := q
    have hl : l = .names (out.map fun p => p.1.toList) := by
      unfold tableOf at htab
      cases hv : vstackT (out.map Prod.snd) with
      | error e => simp only [hv] at htab; cases htab
      | ok r => simp only [hv] at htab; cases htab; rfl
    subst hl
    have hn : (out.map fun p => p.1.toList) = ["T", "C", "S", "K", "L", "Ke", "Kp", "PF", "ZT", "ZTave", "CF"].map String.toList := by
      rw [← c3, List.map_map]; rfl
    rw [hn] at htab
    obtain ⟨-, ⟨text'', e1, e2⟩, -⟩ := C111_layout render4_clean (.columns out) "Formated thermoelectric data".toList info _ (.names []) rows htab
      ⟨_, _, rfl, by decide⟩ (by decide) hi (by decide)
    rw [c4] at e1; cases e1
    refine ⟨text', rows.map (rowLine render4), c5, ?_⟩
    rw [e2, if_neg (by decide)]
    rfl

/-- **C118** With data for L, the run takes the thermal conductivity for the Lorenz number (interpolated with the method of S), and the lattice part is
what is left of the conductivity: neither depends on the L data. -/
theorem C118_lorenz (ds ds' : TEdata) (T : List Fl) (m : List (List Char)) (t c s k : List ℚ) (l l' : Entry (List Fl) (List Fl))
    (h : PyDict.get? ds "L" = some l) (h' : PyDict.get? ds' "L" = some l') (hk : fetch ds "K" = fetch ds' "K") :
    lorenz env o ds T m t c s k = lorenz env o ds' T m t c s k ∧
    ∀ d v, fetch ds "K" = some d → interpolate env T (m.getD 1 []) d = .ok v → v.length = c.length → c.length = t.length → k.length = t.length →
      ∃ ke kp : List ℚ, lorenz env o ds T m t c s k = .ok (v.map Fl.ofRat, ke.map Fl.ofRat, kp.map Fl.ofRat) ∧ ke.length = t.length ∧ kp.length = t.length ∧
        ∀ i (hi : i < t.length) (h1 : i < v.length) (h2 : i < c.length) (h3 : i < k.length) (h4 : i < ke.length) (h5 : i < kp.length),
          ke[i] = 1 / 1000000 * v[i] * c[i] * t[i] ∧ kp[i] + ke[i] = k[i] := by
  constructor
  · unfold lorenz
    simp only [h, h', lorenzData, hk]
  · intro d v hd hv l1 l2 l3
    refine ⟨_, _, by unfold lorenz; simp only [h, lorenzData, hd, hv]; exact rfl, by simp; omega, by simp; omega, ?_⟩
    intro i hi h1 h2 h3 h4 h5
    simp

/-! ### Temperatures -/

/-- **C118** If the output file exists, the temperatures are its first column: step, maximum and `--no-rt` are not looked at. -/
theorem C118_again (fs : Files) (text : List Char) (h : fs o.output = some text) (tstep : ℚ) (tmax : Option ℚ) (noRt : Bool) :
    doFormat env info { o with tstep := tstep, tmax := tmax, noRt := noRt } fs = doFormat env info o fs ∧
    ∀ ds, temperatures env o ds (fs o.output) = firstColumn env.float text := by
  refine ⟨?_, fun ds => by rw [h]; rfl⟩
  have : formatText env info { o with tstep := tstep, tmax := tmax, noRt := noRt } fs = formatText env info o fs := by
    have ho : Options.output { o with tstep := tstep, tmax := tmax, noRt := noRt } = o.output := rfl
    unfold formatText
    simp only [ho, h]
    rfl
  unfold doFormat
  rw [this]
  rfl

/-- **C118** Without an output file the series goes up to `--tmax`, or (if that is absent or `0`) to the largest temperature of any property of the data; data
without a property, or a property without a value, are a `ValueError` then. -/
theorem C118_series (ds : TEdata) :
    (∀ t, o.tmax = some t → t ≠ 0 → temperatures env o ds none = (tempSeries o.tstep (some t) t o.noRt).map fun l => l.map Fl.ofRat) ∧
    (o.tmax = none ∨ o.tmax = some 0 →
      (∀ m, largestT ds = .ok m → temperatures env o ds none = (tempSeries o.tstep (some m) m o.noRt).map fun l => l.map Fl.ofRat) ∧
      (largestT ds = .error .valueError → temperatures env o ds none = .error .valueError)) ∧
    (∀ m, largestT ds = .ok m → (∃ p ∈ ds, ∃ v ∈ p.2.temp, v.val? = some m) ∧ ∀ p ∈ ds, ∀ v ∈ p.2.temp, ∀ t, v.val? = some t → t ≤ m) ∧
    (largestT ds = .error .valueError ↔ ds = [] ∨ ∃ p ∈ ds, p.2.temp.filterMap Fl.val? = []) := by
  have hmax : ∀ (l : List ℚ) m, maxOf l = .ok m → m ∈ l ∧ ∀ a ∈ l, a ≤ m := by
    intro l m h
    cases l with
    | nil => cases h
    | cons a l =>
      simp only [maxOf, Except.ok.injEq] at h
      subst h
      induction l generalizing a with
      | nil => simp
      | cons b l ih =>
        rw [List.foldl_cons]
        obtain ⟨i1, i2⟩ := ih (max a b)
        constructor
        · rcases List.mem_cons.1 i1 with e | e
          · rcases max_choice a b with e' | e' <;> rw [e, e'] <;> simp
          · simp [e]
        · intro c hc
          simp only [List.mem_cons] at hc
          rcases hc with rfl | rfl | hc
          · exact (le_max_left c b).trans (i2 _ (by simp))
          · exact (le_max_right a c).trans (i2 _ (by simp))
          · exact i2 c (by simp [hc])
  have hmapM : ∀ (d : TEdata), (∃ l, d.mapM (fun p => maxOf (p.2.temp.filterMap Fl.val?)) = .ok l ∧
      List.Forall₂ (fun p m => maxOf (p.2.temp.filterMap Fl.val?) = .ok m) d l) ∨
      (d.mapM (fun p => maxOf (p.2.temp.filterMap Fl.val?)) = .error .valueError ∧ ∃ p ∈ d, p.2.temp.filterMap Fl.val? = []) := by
    intro d
    induction d with
    | nil => exact Or.inl ⟨[], rfl, List.Forall₂.nil⟩
    | cons p d ih =>
      rw [List.mapM_cons]
      cases hp : p.2.temp.filterMap Fl.val? with
      | nil => exact Or.inr ⟨rfl, p, by simp, hp⟩
      | cons a l =>
        rcases ih with ⟨l', h1, h2⟩ | ⟨h1, q, hq, hq'⟩
        · refine Or.inl ⟨l.foldl max a :: l', by rw [h1]; rfl, List.Forall₂.cons (by rw [hp]; rfl) h2⟩
        · exact Or.inr ⟨by rw [h1]; rfl, q, by simp [hq], hq'⟩
  refine ⟨fun t ht h0 => ?_, fun hn => ⟨fun m hm => ?_, fun hm => ?_⟩, fun m hm => ?_, ?_⟩
  · have hg : tmaxGiven o = true := by unfold tmaxGiven; rw [ht]; simpa using h0
    unfold temperatures
    simp only [hg, if_true, ht, tempSeries, if_neg h0]
  · have hg : tmaxGiven o = false := by unfold tmaxGiven; rcases hn with h | h <;> rw [h] <;> simp
    unfold temperatures
    simp only [hg, Bool.false_eq_true, if_false, hm]
    congr 1
    rcases hn with h | h <;> simp [h, tempSeries]
  · have hg : tmaxGiven o = false := by unfold tmaxGiven; rcases hn with h | h <;> rw [h] <;> simp
    unfold temperatures
    simp only [hg, Bool.false_eq_true, if_false, hm]
  · unfold largestT at hm
    rcases hmapM ds with ⟨l, h1, h2⟩ | ⟨h1, -⟩
    · simp only [h1, bind, Except.bind] at hm
      obtain ⟨m1, m2⟩ := hmax l m hm
      have hex : ∀ {d : TEdata} {l : List ℚ}, List.Forall₂ (fun p m => maxOf (p.2.temp.filterMap Fl.val?) = .ok m) d l →
          (∀ x ∈ l, ∃ p ∈ d, maxOf (p.2.temp.filterMap Fl.val?) = .ok x) ∧ ∀ p ∈ d, ∃ x ∈ l, maxOf (p.2.temp.filterMap Fl.val?) = .ok x := by
        intro d l hl
        induction hl with
        | nil => simp
        | cons hd _ ih =>
          constructor
          · intro x hx
            rcases List.mem_cons.1 hx with rfl | hx
            · exact ⟨_, by simp, hd⟩
            · obtain ⟨p, hp, e⟩ := ih.1 x hx
              exact ⟨p, by simp [hp], e⟩
          · intro p hp
            rcases List.mem_cons.1 hp with rfl | hp
            · exact ⟨_, by simp, hd⟩
            · obtain ⟨x, hx, e⟩ := ih.2 p hp
              exact ⟨x, by simp [hx], e⟩
      obtain ⟨e1, e2⟩ := hex h2
      constructor
      · obtain ⟨p, hp, e⟩ := e1 m m1
        obtain ⟨v, hv, hv'⟩ := List.mem_filterMap.1 (hmax _ _ e).1
        exact ⟨p, hp, v, hv, hv'⟩
      · intro p hp v hv t ht
        obtain ⟨x, hx, e⟩ := e2 p hp
        exact ((hmax _ _ e).2 t (List.mem_filterMap.2 ⟨v, hv, ht⟩)).trans (m2 x hx)
    · simp only [h1, bind, Except.bind] at hm; cases hm
  · unfold largestT
    rcases hmapM ds with ⟨l, h1, h2⟩ | ⟨h1, h2⟩
    · simp only [h1, bind, Except.bind]
      constructor
      · intro h
        cases l with
        | nil => cases h2; exact Or.inl rfl
        | cons a l => cases h
      · rintro (rfl | ⟨p, hp, e⟩)
        · cases h2; rfl
        · exfalso
          have : ∀ {d : TEdata} {l : List ℚ}, List.Forall₂ (fun p m => maxOf (p.2.temp.filterMap Fl.val?) = .ok m) d l → p ∈ d → False := by
            intro d l hl
            induction hl with
            | nil => intro h; cases h
            | cons hd _ ih =>
              intro h
              rcases List.mem_cons.1 h with rfl | h
              · rw [e] at hd; cases hd
              · exact ih h
          exact this h2 hp
    · simp only [h1, bind, Except.bind]
      exact ⟨fun _ => Or.inr h2, fun _ => trivial⟩

/-! ### Runs in sequence -/

/-- one run, as a change of the files -/
def run (fs : Files) : Files := (doFormat env info o fs).1

theorem run_eq (fs : Files) : run env info o fs = match formatText env info o fs with
    | .error _ => fs
    | .ok text => fs.write o.output text := by
  unfold run doFormat
  cases formatText env info o fs <;> rfl

/-- writing the output file does not change what a run reads as data -/
def Independent (fs : Files) : Prop := ∀ text, inputData env o (fs.write o.output text) = inputData env o fs

/-- **C118** When the data do not depend on the output file: with `-d`, if input and output file differ; without, if moreover no instrument file named in
the configuration (or on the command line) is the output file. -/
theorem C118_independent (fs : Files) (hio : o.inputfile ≠ o.output) :
    (o.data = true → Independent env o fs) ∧
    (o.data = false → (∀ text entry, fs o.inputfile = some text → env.entry text = .ok (some entry) → ∀ k ∈ ["ZEM", "CTA", "LFA"], ∀ v,
        param entry (o.stored.map overriding) k = some v → startsWith "file:".toList (strip v) = true → strip ((strip v).drop 5) ≠ o.output) →
      Independent env o fs) := by
  have hr : ∀ (fs : Files) text n, n ≠ o.output → readFile (fs.write o.output text) n = readFile fs n := by
    intro fs text n hn
    unfold readFile Files.write
    simp only [if_neg hn]
  constructor
  · intro hd text
    unfold inputData
    rw [hr fs text _ hio]
    simp only [hd, if_true]
  · intro hd hfile text
    unfold inputData
    rw [hr fs text _ hio]
    cases ht : readFile fs o.inputfile with
    | error e => rfl
    | ok t =>
      have ht' : fs o.inputfile = some t := by
        unfold readFile at ht
        cases h : fs o.inputfile with
        | none => rw [h] at ht; cases ht
        | some u => rw [h] at ht; cases ht; rfl
      simp only [hd, Bool.false_eq_true, if_false]
      unfold dataFromInstruments
      cases he : env.entry t with
      | error e => rfl
      | ok entry =>
        simp only
        cases entry with
        | none => rfl
        | some entry =>
          have hrun : ∀ {δ : Type} (parser : List Char → Except PyErr δ) (k : String) (v : List Char), k ∈ ["ZEM", "CTA", "LFA"] →
              param entry (o.stored.map overriding) k = some v →
              runInstr (readFile (fs.write o.output text)) parser v = runInstr (readFile fs) parser v := by
            intro δ parser k v hk hv
            unfold runInstr instrText
            by_cases hs : startsWith "file:".toList (strip v) = true
            · simp only [hs, if_true]
              rw [hr fs text _ (hfile t entry ht' he k hk v hv hs)]
            · simp only [hs, Bool.false_eq_true, if_false]
          have hp : ∀ k, PyDict.get? (PyDict.update entry (o.stored.map overriding)) k = param entry (o.stored.map overriding) k := fun _ => rfl
          have e : ∀ (f : List Char → Option ℚ), parseTEfile (K := ℚ) ⟨readFile (fs.write o.output text), env.weight, env.eval, f⟩ (some entry) (some (o.stored.map overriding)) =
              parseTEfile ⟨readFile fs, env.weight, env.eval, f⟩ (some entry) (some (o.stored.map overriding)) := by
            intro f
            unfold parseTEfile runElectrical parseCp
            simp only [hp]
            cases h1 : param entry (o.stored.map overriding) "ZEM" with
            | none =>
              cases h2 : param entry (o.stored.map overriding) "CTA" with
              | none => rfl
              | some c =>
                simp only
                rw [hrun _ "CTA" c (by simp) h2]
                cases h3 : param entry (o.stored.map overriding) "LFA" with
                | none => rfl
                | some l => simp only; rw [hrun _ "LFA" l (by simp) h3]
            | some z =>
              cases h2 : param entry (o.stored.map overriding) "CTA" with
              | some c => rfl
              | none =>
                simp only
                rw [hrun _ "ZEM" z (by simp) h1]
                cases h3 : param entry (o.stored.map overriding) "LFA" with
                | none => rfl
                | some l => simp only; rw [hrun _ "LFA" l (by simp) h3]
          rw [e]

/-- **C118** Runs in sequence, without a plain label line: the files settle after two runs, whatever the options (also with `--bare`: the temperatures
are always the first column). -/
theorem C118_settles (hf : ReadsFl env.float) (hh : o.bare = true ∨ o.headers = false) (fs : Files) (hi : Independent env o fs) (k : Nat) :
    (run env info o)^[k + 2] fs = (run env info o)^[2] fs := by
  set R := run env info o with hR
  have key : R (R (R fs)) = R (R fs) := by
    have hfail : ∀ gs e, formatText env info o gs = .error e → R gs = gs := by
      intro gs e h; rw [hR, run_eq, h]
    have hok : ∀ gs text, formatText env info o gs = .ok text → R gs = gs.write o.output text := by
      intro gs text h; rw [hR, run_eq, h]
    have hwo : ∀ (gs : Files) text, (gs.write o.output text) o.output = some text := by
      intro gs text; simp only [Files.write, if_true]
    have hcol : ∀ gs text, formatText env info o gs = .ok text → ∃ ds T, inputData env o gs = .ok ds ∧ temperatures env o ds (gs o.output) = .ok T ∧
        firstColumn env.float text = .ok (T.map rereadFl) := by
      intro gs text h
      obtain ⟨ds, T, out, h1, h2, h3, h4⟩ := formatText_inv env info o gs text h
      have h4' : toFile render4 o.bare false (.columns out) "Formated thermoelectric data".toList info (.names []) = .ok text := by
        rcases hh with hh | hh
        · rw [hh] at h4 ⊢; exact h4
        · rw [hh] at h4; exact h4
      obtain ⟨n, w1, w2, w3, w4⟩ := writtenD render4_clean rereadFl hf o.bare out _ info text h4'
      obtain ⟨m1, m2, m3, csk, miss, h5, h6, h7, h8⟩ := outColumns_inv env o ds T out h3
      refine ⟨ds, T, h1, h2, ?_⟩
      cases hcal : o.calculate with
      | false => exact w4 _ _ (h7 hcal)
      | true =>
        obtain ⟨-, more, -, e⟩ := h8 hcal
        exact w4 ("T", T) _ (by rw [e]; rfl)
    have hsame : ∀ gs gs' : Files, inputData env o gs = inputData env o gs' → (∀ ds, temperatures env o ds (gs o.output) = temperatures env o ds (gs' o.output)) →
        formatText env info o gs = formatText env info o gs' := by
      intro gs gs' h1 h2
      unfold formatText
      simp only [h1, h2]
    cases h1 : formatText env info o fs with
    | error e => rw [hfail fs e h1, hfail fs e h1, hfail fs e h1]
    | ok t1 =>
      rw [hok fs t1 h1]
      set fs1 := fs.write o.output t1 with hfs1
      cases h2 : formatText env info o fs1 with
      | error e => rw [hfail fs1 e h2, hfail fs1 e h2]
      | ok t2 =>
        rw [hok fs1 t2 h2]
        set fs2 := fs1.write o.output t2 with hfs2
        obtain ⟨ds, T, a1, a2, a3⟩ := hcol fs t1 h1
        obtain ⟨ds', T', b1, b2, b3⟩ := hcol fs1 t2 h2
        have ex : ∀ ds text, temperatures env o ds (some text) = firstColumn env.float text := fun _ _ => rfl
        have e1 : T' = T.map rereadFl := by
          rw [show fs1 o.output = some t1 from hwo fs t1, ex, a3] at b2
          cases b2; rfl
        have e2 : firstColumn env.float t2 = firstColumn env.float t1 := by
          rw [b3, a3, e1, List.map_map]
          congr 1
          exact List.map_congr_left fun v _ => rereadFl_idem v
        have h3 : formatText env info o fs2 = .ok t2 := by
          rw [← h2]
          apply hsame
          · have e : fs2 = fs.write o.output t2 := by
              funext n
              simp only [hfs2, hfs1, Files.write]
              split <;> rfl
            rw [e, hi t2, show fs1 = fs.write o.output t1 from rfl, hi t1]
          · intro d
            rw [show fs2 o.output = some t2 from hwo fs1 t2, show fs1 o.output = some t1 from hwo fs t1, ex, ex, e2]
        rw [hok fs2 t2 h3]
        exact write_same fs2 _ _ (hwo fs1 t2)
  induction k with
  | zero => rfl
  | succ k ih =>
    rw [show k + 1 + 2 = (k + 2) + 1 from rfl, Function.iterate_succ_apply', ih]
    exact key

/-- **C118** With `--headers` (and not `--bare`) a successful run leaves a file which the next run cannot read the temperatures from: it fails with a
`ValueError`, even though it would have been able to make up the temperatures itself, and the file stays as it is. -/
theorem C118_headers (hb : o.bare = false) (hh : o.headers = true) (hT : env.float "T".toList = .error .valueError)
    (hall : ∀ t e, env.float t = .error e → e = .valueError) (fs : Files) (hi : Independent env o fs) (h : (doFormat env info o fs).2 = .ok ()) :
    (doFormat env info o (run env info o fs)).2 = .error .valueError ∧ run env info o (run env info o fs) = run env info o fs := by
  obtain ⟨text, ht, hfs⟩ := doFormat_ok env info o fs h
  obtain ⟨ds, T, out, h1, h2, h3, h4⟩ := formatText_inv env info o fs text ht
  have hl : loadtxt env.float text = .error .valueError := by
    cases htab : tableOf (.names []) (.columns out) with
    | error e => unfold toFile at h4; rw [htab] at h4; cases h4
    | ok q =>
      obtain ⟨l, rows⟩ := q
      have hl : l = .names (out.map fun p => p.1.toList) := by
        unfold tableOf at htab
        cases hv : vstackT (out.map Prod.snd) with
        | error e => simp only [hv] at htab; cases htab
        | ok r => simp only [hv] at htab; cases htab; rfl
      -- the names of the columns
      have hnames : ∃ r, (out.map fun p => p.1.toList) = "T".toList :: r ∧ ∀ w ∈ r, '\n' ∉ w := by
        obtain ⟨m1, m2, m3, csk, miss, h5, h6, h7, h8⟩ := outColumns_inv env o ds T out h3
        obtain ⟨-, c2, -⟩ := C65_columns _ _ _ _ _ h6
        have hcsk : ∀ p ∈ csk, '\n' ∉ p.1.toList := by
          intro p hp
          have : p.1 ∈ csk.map (·.1) := List.mem_map_of_mem hp
          rw [c2] at this
          have := (List.mem_filter.1 this).1
          simp only [List.map_cons, List.map_nil, List.mem_cons, List.not_mem_nil, or_false] at this
          rcases this with e | e | e <;> rw [e] <;> decide
        cases hcal : o.calculate with
        | false =>
          refine ⟨csk.map fun p => p.1.toList, by rw [h7 hcal, List.map_cons, List.map_map]; rfl, ?_⟩
          intro w hw
          obtain ⟨p, hp, rfl⟩ := List.mem_map.1 hw
          exact hcsk p hp
        | true =>
          obtain ⟨-, c⟩ := C118_calculate env info o hcal fs ds h1
          obtain ⟨T', out', text', d1, d2, d3, -, -⟩ := c h
          rw [h2] at d2; cases d2
          rw [h3] at d1; cases d1
          refine ⟨["C", "S", "K", "L", "Ke", "Kp", "PF", "ZT", "ZTave", "CF"].map String.toList, ?_, by decide⟩
          rw [show (out.map fun p => p.1.toList) = (out.map Prod.fst).map String.toList by rw [List.map_map]; rfl, d3]
          rfl
      obtain ⟨r, hr, hrn⟩ := hnames
      rw [hr] at hl
      have hj : ∃ rest, (Labels.names ("T".toList :: r)).joined = 'T' :: rest ∧ (rest = [] ∨ ∃ rest', rest = ' ' :: rest') := by
        cases r with
        | nil => exact ⟨[], rfl, Or.inl rfl⟩
        | cons a r => exact ⟨' ' :: ' ' :: join [' ', ' '] (a :: r), rfl, Or.inr ⟨_, rfl⟩⟩
      obtain ⟨rest, hj1, hj2⟩ := hj
      obtain ⟨text', e1, e2⟩ := C111_headers_unreadable render4_clean env.float (.columns out) "Formated thermoelectric data".toList info (.names []) l rows htab
        (by
          rw [hl]
          intro hm
          rcases mem_join _ _ _ hm with hm | ⟨w, hw, hm⟩
          · exact absurd hm (by decide)
          · rcases List.mem_cons.1 hw with rfl | hw
            · exact absurd hm (by decide)
            · exact hrn w hw hm) "T".toList
        (by
          rw [hl, hj1]
          rcases hj2 with rfl | ⟨rest', rfl⟩
          · decide
          · have hb : beforeHash ('T' :: ' ' :: rest') = 'T' :: ' ' :: beforeHash rest' := by
              simp [beforeHash, List.takeWhile_cons]
            rw [hb]
            unfold words
            have hT' : pySpace 'T' = false := by decide
            have hs' : pySpace ' ' = true := by decide
            simp [wordsGo, hT', hs']) hT hall
      rw [hb, hh] at h4
      rw [h4] at e1; cases e1
      exact e2
  have hrun : run env info o fs = fs.write o.output text := hfs
  have hfail : formatText env info o (run env info o fs) = .error .valueError := by
    rw [hrun]
    unfold formatText
    rw [hi text, h1]
    have : temperatures env o ds ((fs.write o.output text) o.output) = .error .valueError := by
      simp only [Files.write, if_true, temperatures, firstColumn, loadColumns, hl]
    simp only [this]
  constructor
  · unfold doFormat; rw [hfail]
  · conv_lhs => rw [run_eq]
    simp only [hfail]

/-! ### Data -/

/-- **C118** The property read: a column of that name; else, for C, `1E4/R` at the temperatures of R (interpolated afterwards, not before), or
`1.602176634 N U` when N and U belong to the same temperature column; else it is missing. -/
theorem C118_fetch (ds : TEdata) :
    (∀ p e, PyDict.get? ds p = some e → fetch ds p = some (e.temp.map Fl.val?, e.data.map Fl.val?)) ∧
    (PyDict.get? ds "C" = none → ∀ r, PyDict.get? ds "R" = some r → ∃ y, fetch ds "C" = some (r.temp.map Fl.val?, y) ∧ y.length = r.data.length ∧
      ∀ (i : Nat) (v : Fl), r.data[i]? = some v → (∀ q, v.val? = some q → q ≠ 0 → y[i]? = some (some (10000 / q))) ∧ (v.val? = none ∨ v.val? = some 0 → y[i]? = some none)) ∧
    (PyDict.get? ds "C" = none → PyDict.get? ds "R" = none → ∀ n u, PyDict.get? ds "N" = some n → PyDict.get? ds "U" = some u →
      (n.tidx ≠ u.tidx → fetch ds "C" = none) ∧
      (n.tidx = u.tidx → ∃ y, fetch ds "C" = some (n.temp.map Fl.val?, y) ∧
        ∀ (i : Nat) (a b : Fl) (p q : ℚ), n.data[i]? = some a → u.data[i]? = some b → a.val? = some p → b.val? = some q → y[i]? = some (some (1602176634 / 1000000000 * p * q)))) ∧
    (∀ p, PyDict.get? ds p = none → p ≠ "C" → fetch ds p = none) ∧
    (PyDict.get? ds "C" = none → PyDict.get? ds "R" = none → PyDict.get? ds "N" = none ∨ PyDict.get? ds "U" = none → fetch ds "C" = none) := by
  refine ⟨fun p e h => by simp [fetch, h], fun hC r hr => ⟨(r.data.map Fl.val?).map invertRat, by simp [fetch, hC, hr], by simp, fun i v hv => ?_⟩,
    fun hC hR n u hn hu => ⟨fun h => by simp [fetch, hC, hR, hn, hu, h],
      fun h => ⟨List.zipWith (mulRat qCharge) (n.data.map Fl.val?) (u.data.map Fl.val?), by simp [fetch, hC, hR, hn, hu, h], fun i a b p q ha hb hp hq => ?_⟩⟩,
    fun p hp hne => by simp [fetch, hp, hne], fun hC hR h => ?_⟩
  · constructor
    · intro q hq h0
      simp [List.getElem?_map, hv, hq, invertRat, h0]
    · rintro (h | h) <;> simp [List.getElem?_map, hv, h, invertRat]
  · simp [List.getElem?_zipWith, List.getElem?_map, ha, hb, hp, hq, mulRat, qCharge]
  · rcases h with h | h
    · simp [fetch, hC, hR, h]
    · cases hn : PyDict.get? ds "N" <;> simp [fetch, hC, hR, h, hn]

/-- splitting at single characters: the cells between them, in order -/
theorem split_cells (p : Char → Bool) (l : List (Char × List Char)) (hl : ∀ x ∈ l, p x.1 = true ∧ ∀ c ∈ x.2, p c = false) (n : Nat) (acc b a : List Char)
    (ha : ∀ c ∈ a, p c = false) (hn : (a ++ l.flatMap fun x => x.1 :: x.2).length ≤ n) :
    Re.splitGo (.cls p) n acc ⟨b, a ++ l.flatMap fun x => x.1 :: x.2⟩ = (acc.reverse ++ a) :: l.map Prod.snd := by
  induction n generalizing acc b a l with
  | zero =>
    have h0 : a ++ l.flatMap (fun x => x.1 :: x.2) = [] := List.eq_nil_of_length_eq_zero (Nat.le_zero.1 hn)
    obtain ⟨rfl, h2⟩ := List.append_eq_nil_iff.1 h0
    cases l with
    | nil => simp [Re.splitGo]
    | cons x l => simp at h2
  | succ n ih =>
    cases a with
    | nil =>
      cases l with
      | nil => simp [Re.splitGo]
      | cons x l =>
        obtain ⟨hx, hc⟩ := hl x (by simp)
        have e : ([] : List Char) ++ (x :: l).flatMap (fun x => x.1 :: x.2) = x.1 :: (x.2 ++ l.flatMap fun x => x.1 :: x.2) := by simp
        have hm : Re.matchAt (.cls p) ⟨b, x.1 :: (x.2 ++ l.flatMap fun x => x.1 :: x.2)⟩ = some ⟨x.1 :: b, x.2 ++ l.flatMap fun x => x.1 :: x.2⟩ := by
          simp [Re.matchAt, Re.run, hx]
        rw [e, Re.splitGo]
        simp only [hm]
        rw [if_pos (by simp), ih l (fun y hy => hl y (by simp [hy])) [] _ x.2 hc (by rw [e] at hn; simpa using hn)]
        simp
    | cons c a =>
      have hc := ha c (by simp)
      have hm : Re.matchAt (.cls p) ⟨b, c :: a ++ l.flatMap fun x => x.1 :: x.2⟩ = none := by
        simp [Re.matchAt, Re.run, hc]
      rw [Re.splitGo]
      rw [List.cons_append] at hm
      simp only [hm, List.cons_append]
      rw [ih l hl (c :: acc) _ a (fun y hy => ha y (by simp [hy])) (by simpa using hn)]
      simp

/-- **C118** The cells of a data row read with `-d` are what stands between tabulators, semicolons and commas - each of the three alone, whichever is used
where; empty cells count, blanks inside a cell belong to it. -/
theorem C118_separators {V : Type} (float : List Char → Option V) (nan : V) (a : List Char) (l : List (Char × List Char))
    (ha : '\t' ∉ a ∧ ';' ∉ a ∧ ',' ∉ a) (hl : ∀ x ∈ l, (x.1 = '\t' ∨ x.1 = ';' ∨ x.1 = ',') ∧ '\t' ∉ x.2 ∧ ';' ∉ x.2 ∧ ',' ∉ x.2) :
    rowOf formatDelimiter float nan (a ++ l.flatMap fun x => x.1 :: x.2) = (a :: l.map Prod.snd).map fun cell => (float cell).getD nan := by
  have hp : ∀ t : List Char, '\t' ∉ t ∧ ';' ∉ t ∧ ',' ∉ t → ∀ c ∈ t, (c == '\t' || c == ';' || c == ',') = false := by
    rintro t ⟨h1, h2, h3⟩ c hc
    have n1 : c ≠ '\t' := fun h => h1 (h ▸ hc)
    have n2 : c ≠ ';' := fun h => h2 (h ▸ hc)
    have n3 : c ≠ ',' := fun h => h3 (h ▸ hc)
    simp [n1, n2, n3]
  unfold rowOf formatDelimiter Re.split
  rw [split_cells _ l (fun x hx => ⟨by rcases (hl x hx).1 with h | h | h <;> simp [h], hp _ (hl x hx).2⟩) _ [] [] a (hp a ha) (le_refl _)]
  simp

/-- **C118** With `-d` every property comes with as many temperatures as values, all of them finite: rows with a missing or unreadable entry are left out, in
temperatures and values alike. -/
theorem C118_aligned (group text : List Char) (ds : TEdata) (h : dataFromText env group text = .ok ds) (g : String) (e : Entry (List Fl) (List Fl))
    (hg : PyDict.get? ds g = some e) : ∃ x y : List ℚ, e.temp.map Fl.val? = x.map some ∧ e.data.map Fl.val? = y.map some ∧ x.length = y.length := by
  set fin : Fl → Bool := fun v => (Fl.val? v).isSome with hfin
  unfold dataFromText at h
  simp only at h
  set groups := (Re.findAll propRe group).map String.ofList with hgr
  set table := parseDatafile (some formatDelimiter) (fun t => (env.float t).toOption) Fl.nan (linesOf text) with htab
  -- the table is rectangular
  obtain ⟨n, hrect⟩ : ∃ n, ∀ c ∈ table, c.length = n := by
    refine ⟨(dataRows ((some formatDelimiter).getD (.plus (.cls pySpace))) (fun t => (env.float t).toOption) Fl.nan (linesOf text)).length, fun c hc => ?_⟩
    simp only [htab, parseDatafile, zipLongest, List.mem_map] at hc
    obtain ⟨j, -, rfl⟩ := hc
    simp
  cases hc : columnsTE2 fin groups table with
  | error x => rw [hc] at h; cases h
  | ok out =>
    rw [hc] at h
    simp only at h
    obtain ⟨c1, c2⟩ := C24_TE2 fin groups table n hrect
    have hnot : ¬ ("T" ∉ groups ∨ ∃ t, groups[t]? = some "T" ∧ table.length ≤ t) := by
      intro hx
      rw [c1.2 hx] at hc; cases hc
    push Not at hnot
    obtain ⟨out', e1, hlen, -, hblock⟩ := c2 hnot.1 hnot.2
    rw [hc] at e1; cases e1
    obtain ⟨hgT, hgX, i, hi, hzi, -, j, hji, -, hzj, hbetween⟩ := (C21_pairing out groups ds h g e).1 hg
    have hz : ∀ (k : Nat) (p : String × List Fl), (groups.zip out)[k]? = some p → groups[k]? = some p.1 ∧ out[k]? = some p.2 := by
      intro k p hp
      rw [List.zip, List.getElem?_zipWith] at hp
      cases hgk : groups[k]? with
      | none => simp [hgk] at hp
      | some a =>
        cases hok : out[k]? with
        | none => simp [hgk, hok] at hp
        | some b => simp [hgk, hok] at hp; subst hp; exact ⟨rfl, rfl⟩
    obtain ⟨gi, oi⟩ := hz i _ hzi
    obtain ⟨gj, oj⟩ := hz j _ hzj
    have hbt : ∀ k, j < k → k < i → groups[k]? ≠ some "T" := by
      intro k h1 h2 hk
      apply hbetween k h1 h2
      have hko : k < out.length := lt_trans h2 (List.getElem?_eq_some_iff.1 oi).1
      rw [List.zip, List.getElem?_zipWith, hk, List.getElem?_eq_getElem hko]
      rfl
    -- the block
    obtain ⟨q, hq, hiq⟩ : ∃ q, IsBlock groups table.length j q ∧ i < q := by
      classical
      by_cases hex : ∃ k, j < k ∧ groups[k]? = some "T"
      · have hs := Nat.find_spec hex
        have hi' : i < Nat.find hex := by
          by_contra hle
          rcases Nat.lt_or_eq_of_le (not_lt.1 hle) with hlt | heq
          · exact hbt _ hs.1 hlt hs.2
          · rw [heq, gi] at hs; exact hgT (by simpa using hs.2)
        exact ⟨Nat.find hex, ⟨gj, hs.1, fun k h1 h2 hk => Nat.find_min hex h2 ⟨h1, hk⟩, Or.inl hs.2⟩, hi'⟩
      · push Not at hex
        by_cases hone : ∀ k : Nat, groups[k]? = some "T" → k = j
        · refine ⟨table.length, ⟨gj, ?_, fun k h1 _ => hex k h1, Or.inr (Or.inl ⟨hone, rfl⟩)⟩, ?_⟩
          · rw [← hlen]; exact lt_trans hji (List.getElem?_eq_some_iff.1 oi).1
          · rw [← hlen]; exact (List.getElem?_eq_some_iff.1 oi).1
        · push Not at hone
          exact ⟨groups.length, ⟨gj, (List.getElem?_eq_some_iff.1 gj).1, fun k h1 _ => hex k h1, Or.inr (Or.inr ⟨hone, rfl⟩)⟩, (List.getElem?_eq_some_iff.1 gi).1⟩
    have key : ∀ (k : Nat) (c : List Fl), j ≤ k → k < q → out[k]? = some c →
        ∃ x : List ℚ, c.map Fl.val? = x.map some ∧ x.length = (goodRows fin table n j q).length := by
      intro k c h1 h2 hk
      have hb := hblock j q k hq h1 h2
      rw [hk] at hb
      cases htk : table[k]? with
      | none => rw [htk] at hb; cases hb
      | some col =>
        rw [htk] at hb
        simp only [Option.map_some, Option.some.injEq] at hb
        have hgood : ∀ r ∈ goodRows fin table n j q, ∃ v, col[r]? = some v ∧ fin v = true := by
          intro r hr
          have hr2 := (List.mem_filter.1 hr).2
          rw [List.all_eq_true] at hr2
          have := hr2 k (List.mem_range.2 (List.getElem?_eq_some_iff.1 htk).1)
          simp only [not_lt.2 h1, not_le.2 h2, decide_false, Bool.false_or, htk, Option.bind_some] at this
          cases hv : col[r]? with
          | none => rw [hv] at this; cases this
          | some v => rw [hv] at this; exact ⟨v, rfl, by simpa using this⟩
        rw [hb]
        unfold pickRows
        generalize goodRows fin table n j q = rs at hgood
        induction rs with
        | nil => exact ⟨[], rfl, rfl⟩
        | cons r rs ih =>
          obtain ⟨v, hv, hfv⟩ := hgood r (by simp)
          obtain ⟨x, hx1, hx2⟩ := ih (fun r hr => hgood r (by simp [hr]))
          obtain ⟨a, ha⟩ := Option.isSome_iff_exists.1 hfv
          exact ⟨a :: x, by simp [hv, ha, hx1], by simp [hx2]⟩
    obtain ⟨x, hx1, hx2⟩ := key j e.temp le_rfl hq.2.1 oj
    obtain ⟨y, hy1, hy2⟩ := key i e.data (le_of_lt hji) hiq oi
    exact ⟨x, y, hx1, hy1, by rw [hx2, hy2]⟩

/-- **C118** A resistivity of zero makes the interpolation of C a `ValueError`. -/
theorem C118_zero_resistivity (ds : TEdata) (T : List Fl) (meth : List Char) (hC : PyDict.get? ds "C" = none) (r : Entry (List Fl) (List Fl))
    (hr : PyDict.get? ds "R" = some r) (h0 : ∃ v ∈ r.data, v.val? = some 0) : ∃ d, fetch ds "C" = some d ∧ interpolate env T meth d = .error .valueError := by
  refine ⟨(r.temp.map Fl.val?, (r.data.map Fl.val?).map invertRat), by simp [fetch, hC, hr], (C118_interpolate env T meth).2.2 _ (Or.inr (Or.inr (Or.inl ?_)))⟩
  obtain ⟨v, hv, h0⟩ := h0
  exact List.mem_map.2 ⟨some 0, List.mem_map.2 ⟨v, hv, h0⟩, by simp [invertRat]⟩

/-- **C118** What is looked at: with `-d` the group but none of the parameters of the command line; without, the parameters but not the group. -/
theorem C118_modes (fs : Files) (stored : List (String × List Char)) (group : List Char) :
    (o.data = true → doFormat env info { o with stored := stored } fs = doFormat env info o fs) ∧
    (o.data = false → doFormat env info { o with group := group } fs = doFormat env info o fs) := by
  have lift : ∀ o' : Options, o'.output = o.output → inputData env o' fs = inputData env o fs → (∀ ds e, temperatures env o' ds e = temperatures env o ds e) →
      (∀ ds T, outColumns env o' ds T = outColumns env o ds T) → o'.bare = o.bare → o'.headers = o.headers → doFormat env info o' fs = doFormat env info o fs := by
    intro o' h1 h2 h3 h4 h5 h6
    have : formatText env info o' fs = formatText env info o fs := by
      unfold formatText
      simp only [h1, h2, h3, h4, h5, h6]
    unfold doFormat
    rw [this, h1]
  constructor
  · intro h
    refine lift { o with stored := stored } rfl ?_ (fun _ _ => rfl) (fun _ _ => rfl) rfl rfl
    unfold inputData
    simp only [h, if_true]
  · intro h
    refine lift { o with group := group } rfl ?_ (fun _ _ => rfl) (fun _ _ => rfl) rfl rfl
    unfold inputData
    simp only [h, Bool.false_eq_true, if_false]

/-- **C118** An instrument file given on the command line, with or without `file:` before it, is the file that is read; the other parameters are passed on as
they are. -/
theorem C118_override (readF : List Char → Except PyErr (List Char)) (k : String) (v : List Char) :
    (k = "ZEM" ∨ k = "CTA" ∨ k = "LFA" → (overriding (k, v)).1 = k ∧
      (startsWith "file:".toList (strip v) = true → instrText readF (overriding (k, v)).2 = readF (strip ((strip v).drop 5))) ∧
      (startsWith "file:".toList (strip v) = false → instrText readF (overriding (k, v)).2 = readF (strip v))) ∧
    (¬ (k = "ZEM" ∨ k = "CTA" ∨ k = "LFA") → overriding (k, v) = (k, v)) := by
  have idem : ∀ l, strip (strip l) = strip l := by
    intro l
    have := (stripped_iff l (strip l)).1 rfl
    rw [stripped_iff]
    exact ⟨[], [], by simp, by simp, by simp, this.choose_spec.choose_spec.2.2.2⟩
  constructor
  · intro hk
    unfold overriding
    simp only [if_pos hk]
    refine ⟨trivial, fun hs => ?_, fun hs => ?_⟩
    · simp only [hs, if_true]
      unfold instrText
      simp only [idem, hs, if_true]
    · simp only [hs, Bool.false_eq_true, if_false]
      by_cases hm : strip v = []
      · rw [hm, List.append_nil]
        unfold instrText
        have e1 : strip "file: ".toList = "file:".toList := by decide
        have e2 : startsWith "file:".toList "file:".toList = true := by decide
        have e3 : strip (List.drop 5 "file:".toList) = [] := by decide
        simp only [e1, e2, e3, if_true]
      · obtain ⟨a, b, h1, h2, h3, h4, h5⟩ := (stripped_iff v (strip v)).1 rfl
        have e1 : strip ("file: ".toList ++ strip v) = "file: ".toList ++ strip v := by
          rw [stripped_iff]
          refine ⟨[], [], by simp, by simp, by simp, ?_, ?_⟩
          · intro c hc
            have : c = 'f' := by simpa using hc.symm
            rw [this]; decide
          · intro c hc
            rw [List.getLast?_append_of_ne_nil _ hm] at hc
            exact h5 c hc
        have e2 : startsWith "file:".toList ("file: ".toList ++ strip v) = true := by
          simp [startsWith, List.isPrefixOf]
        have e3 : strip (List.drop 5 ("file: ".toList ++ strip v)) = strip v := by
          rw [show List.drop 5 ("file: ".toList ++ strip v) = ' ' :: strip v from rfl, stripped_iff]
          exact ⟨[' '], [], by simp, by decide, by simp, h4, h5⟩
        unfold instrText
        simp only [e1, e2, e3, if_true]
  · intro hk
    unfold overriding
    rw [if_neg hk]

/-- **C118** The instrument cannot be changed on the command line: `--CTA` for a configuration with `ZEM` (or the other way round) is a `ValueError`. -/
theorem C118_no_switch (hd : o.data = false) (fs : Files) (text : List Char) (entry : PyDict String (List Char)) (ht : fs o.inputfile = some text)
    (he : env.entry text = .ok (some entry)) (a b : String) (hab : (a = "ZEM" ∧ b = "CTA") ∨ (a = "CTA" ∧ b = "ZEM")) (ha : a ∈ PyDict.keys entry)
    (hb : b ∈ o.stored.map Prod.fst) (sample : List Char) (w : ℚ) (hs : param entry (o.stored.map overriding) "sample" = some sample) (hw : env.weight sample = .ok w) :
    (doFormat env info o fs).2 = .error .valueError := by
  have hfst : (o.stored.map overriding).map Prod.fst = o.stored.map Prod.fst := by
    rw [List.map_map]
    apply List.map_congr_left
    intro p _
    simp only [Function.comp, overriding]
    split <;> rfl
  have hin : ∀ k, k = a ∨ k = b → ∃ v, param entry (o.stored.map overriding) k = some v := by
    intro k hk
    apply Option.isSome_iff_exists.1
    unfold param
    rw [PyDict.isSome_get?, PyDict.mem_keys_update]
    rcases hk with rfl | rfl
    · exact Or.inl ha
    · exact Or.inr (by rw [← hfst] at hb; exact hb)
  obtain ⟨z, hz⟩ : ∃ v, param entry (o.stored.map overriding) "ZEM" = some v := hin _ (by rcases hab with ⟨h, _⟩ | ⟨_, h⟩ <;> simp [h])
  obtain ⟨c, hc⟩ : ∃ v, param entry (o.stored.map overriding) "CTA" = some v := hin _ (by rcases hab with ⟨_, h⟩ | ⟨h, _⟩ <;> simp [h])
  have : inputData env o fs = .error .valueError := by
    unfold inputData readFile
    simp only [ht, hd, Bool.false_eq_true, if_false, dataFromInstruments, he]
    have := ((C27_checks (K := ℚ) ⟨readFile fs, env.weight, env.eval, fun t => ((env.float t).toOption).bind Fl.val?⟩ entry (o.stored.map overriding)).2.2 sample w hs hw).2.1 z c hz hc
    simp only [this]
  unfold doFormat formatText
  rw [this]

end

/-! ### A case -/

/-- `float` on decimal numbers, `nan` and the infinities -/
def demoFloat (t : List Char) : Except PyErr Fl :=
  if t = "nan".toList then .ok .nan
  else if t = "inf".toList then .ok (.inf false)
  else if t = "-inf".toList then .ok (.inf true)
  else (readFixed t).map Fl.num

theorem demoFloat_reads : ReadsFl demoFloat := by
  intro v
  cases v with
  | nan => decide
  | inf n => cases n <;> decide
  | num x =>
    have hchar : ∃ c r, fixed 4 x = c :: r ∧ c ≠ 'n' ∧ c ≠ 'i' ∧ (c = '-' → ∀ d r', r = d :: r' → d ≠ 'i') := by
      have hd : ∀ n, ∃ c r, padded 1 n = c :: r ∧ c ≠ 'n' ∧ c ≠ 'i' ∧ c ≠ '-' := by
        intro n
        cases hp : padded 1 n with
        | nil =>
          have := congrArg List.length hp
          simp only [padded, List.length_append, List.length_replicate, List.length_nil] at this
          omega
        | cons c r =>
          obtain ⟨m, hm, rfl⟩ := padded_chars 1 n c (by rw [hp]; simp)
          refine ⟨_, _, rfl, ?_⟩
          interval_cases m <;> decide
      obtain ⟨c, r, h1, h2, h3, h4⟩ := hd (halfEven (x.mag * 10 ^ 4) / 10 ^ 4)
      unfold fixed
      simp only [h1]
      cases x.neg with
      | true =>
        refine ⟨'-', _, rfl, by decide, by decide, fun _ d r' e => ?_⟩
        simp at e
        rw [← e.1]; exact h3
      | false => exact ⟨c, _, rfl, h2, h3, fun e => absurd e h4⟩
    obtain ⟨c, r, h1, h2, h3, h4⟩ := hchar
    have e1 : fixed 4 x ≠ "nan".toList := by rw [h1]; intro e; exact h2 (List.cons.inj e).1
    have e2 : fixed 4 x ≠ "inf".toList := by rw [h1]; intro e; exact h3 (List.cons.inj e).1
    have e3 : fixed 4 x ≠ "-inf".toList := by
      rw [h1]; intro e
      exact h4 (List.cons.inj e).1 'i' "nf".toList (List.cons.inj e).2 rfl
    show demoFloat (fixed 4 x) = .ok (.num (reread x))
    unfold demoFloat
    rw [if_neg e1, if_neg e2, if_neg e3, reread_ok]
    rfl

/-- an environment with linear interpolation and no band model -/
def demoEnv : Env :=
  { float := demoFloat, argsort := demoArgsort, interp := fun _ y x xp => .ok (xp.map (interpx1 (x.zip y) none none))
    weight := fun _ => .ok 100, eval := fun _ => .ok 5, entry := fun _ => .ok none
    band := fun _ cols => .ok ((cols.headD []).map fun _ => .nan, (cols.headD []).map fun _ => .nan, (cols.headD []).map fun _ => .nan)
    derived := fun cols => .ok ((cols.headD []).map fun _ => .nan, (cols.headD []).map fun _ => .nan, (cols.headD []).map fun _ => .nan, (cols.headD []).map fun _ => .nan) }

/-- options -/
def demoOpts : Options :=
  { inputfile := "a.csv".toList, outputfile := [], suffix := "format".toList, bare := false, headers := false, data := true, calculate := false
    gap := none, method := "linear".toList, group := "TRTS".toList, tstep := 50, tmax := none, noRt := true, stored := [] }

/-- a table with resistivities at two temperatures and a Seebeck coefficient at three -/
def demoFs : Files := fun n =>
  if n = "a.csv".toList then some "323.0,10.0,323.0,100.0\n423.0,20.0,373.0,110.0\nx,,423.0,140.0\n".toList else none

example : demoOpts.output = "a_format.txt".toList := by decide +kernel
example : (doFormat demoEnv "now".toList demoOpts demoFs).1 "a_format.txt".toList =
    some "#Formated thermoelectric data - now\n#T  C  S\n323.0000 1000.0000 100.0000\n373.0000 750.0000 110.0000\n423.0000 500.0000 140.0000\n".toList := by decide +kernel
/-- a given list of temperatures -/
example : (doFormat demoEnv "now".toList { demoOpts with bare := true } (demoFs.write "a_format.txt".toList "373.0\n348.0\n".toList)).1 "a_format.txt".toList =
    some "373.0000 750.0000 110.0000\n348.0000 875.0000 105.0000\n".toList := by decide +kernel
/-- the second run with `--headers` fails -/
example : (doFormat demoEnv "now".toList { demoOpts with headers := true } (run demoEnv "now".toList { demoOpts with headers := true } demoFs)).2 = .error .valueError := by decide +kernel
example : (doFormat demoEnv "now".toList { demoOpts with headers := true } demoFs).2 = .ok () := by decide +kernel
example : (doFormat demoEnv "now".toList { demoOpts with calculate := true } demoFs).2 = .error .valueError := by decide +kernel
example : (doFormat demoEnv "now".toList { demoOpts with calculate := true, group := "TRTSK".toList }
    (demoFs.write "a.csv".toList "323.0,10.0,323.0,100.0,2.0\n423.0,20.0,423.0,110.0,3.0\n".toList)).1 "a_format.txt".toList =
    some "#Formated thermoelectric data - now\n#T  C  S  K  L  Ke  Kp  PF  ZT  ZTave  CF\n323.0000 1000.0000 100.0000 2.0000 nan nan nan nan nan nan nan\n373.0000 750.0000 105.0000 2.5000 nan nan nan nan nan nan nan\n423.0000 500.0000 110.0000 3.0000 nan nan nan nan nan nan nan\n".toList := by decide +kernel
example : Independent demoEnv demoOpts demoFs := (C118_independent demoEnv demoOpts demoFs (by decide +kernel)).1 rfl

/-- **C118** The name of the output: a given one is used as it is; otherwise, for an input `dir/base.ext`, it is
`base_suffix.txt` in the current directory, whatever the extension was, and an input without an extension gets none. -/
theorem C118_output (o : Options) :
    (o.outputfile ≠ [] → o.output = o.outputfile) ∧
    (∀ dir base ext : List Char, o.outputfile = [] → '/' ∉ base → '/' ∉ ext → base ≠ [] → ext ≠ [] → '.' ∉ ext →
      (o.inputfile = base ++ '.' :: ext ∨ o.inputfile = dir ++ '/' :: (base ++ '.' :: ext)) →
      o.output = base ++ '_' :: (o.suffix ++ ".txt".toList)) ∧
    (∀ base : List Char, o.outputfile = [] → '/' ∉ base → base ≠ [] → '.' ∉ base → o.inputfile = base → o.output = base ++ '_' :: o.suffix) := by
  refine ⟨fun h => C57_given _ _ _ _ h, fun dir base ext h0 hb he hb' he' hd hi => ?_, fun base h0 hb hb' hd hi => ?_⟩
  · have hf : '/' ∉ base ++ '.' :: ext := by simp [hb, he]
    have hne : base ++ '.' :: ext ≠ [] := by simp
    have hne' : base ++ '.' :: ext ≠ ['.'] := by
      intro e
      have := congrArg List.length e
      simp only [List.length_append, List.length_cons, List.length_nil] at this
      have := List.length_pos_iff.2 hb'
      omega
    have e1 : suffixed [] (base ++ '.' :: ext) o.suffix ".txt".toList = base ++ '_' :: (o.suffix ++ ".txt".toList) := by
      rw [suffixed_form, pathName_free _ hf hne hne', (suffix_of_form base ext hb' he' hd).1, (suffix_of_form base ext hb' he' hd).2,
        if_neg (by simp), if_pos (by decide)]
    unfold Options.output
    rw [h0]
    rcases hi with hi | hi
    · rw [hi, e1]
    · rw [hi, C57_directory_dropped _ _ _ _ hf hne hne', e1]
  · have hne' : base ≠ ['.'] := by rintro rfl; simp at hd
    have hp := pathName_free base hb hb' hne'
    have : suffixOf (pathName base) = [] := by
      rw [hp]
      simp [suffixOf, stemLen, (lastDot_none base).2 hd]
    unfold Options.output
    rw [h0, hi, C57_no_suffix _ _ _ this, hp]

example : ({ demoOpts with inputfile := "data/x.y.csv".toList } : Options).output = "x.y_format.txt".toList :=
  (C118_output _).2.1 "data".toList "x.y".toList "csv".toList rfl (by decide) (by decide) (by decide) (by decide) (by decide) (.inr rfl)

end TEflow.FormatRun
