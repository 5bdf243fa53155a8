import Mathlib.Tactic
import Verif.Model.KappaCfg
import Verif.Lemmas.Re2
import Verif.Props.KappaVar

/-! # C106: how variables are written in a configuration for the thermal conductivity -/

namespace TEflow.KappaCfg

open Re PyDict

/-- only blanks -/
def Blank (s : List Char) : Prop := ∀ c ∈ s, pySpace c = true
/-- no blanks -/
def Word (s : List Char) : Prop := ∀ c ∈ s, pySpace c = false

instance (s : List Char) : Decidable (Blank s) := by unfold Blank; infer_instance
instance (s : List Char) : Decidable (Word s) := by unfold Word; infer_instance

/-- an empty text stands for "not given" -/
def given (w : List Char) : Option (List Char) := if w = [] then none else some w

theorem given_group {s t : Pos} {x : List Char} (h : s.rest = x ++ t.rest) : group s t = given x := by
  unfold group given
  rw [between_of h]
  cases x <;> simp

theorem word_nonSpace {w : List Char} (h : Word w) : ∀ c ∈ w, nonSpace c = true := fun c hc => by
  unfold nonSpace
  rw [h c hc]
  rfl

theorem blank_not_nonSpace (c : Char) (h : pySpace c = true) : nonSpace c = false := by
  unfold nonSpace
  rw [h]
  rfl

theorem blank_not_scale (c : Char) (h : pySpace c = true) : scaleChar c = false := by
  unfold scaleChar
  rw [h]
  rfl

theorem blank_notMem {s : List Char} (h : Blank s) {c : Char} (hc : pySpace c = false) : c ∉ s := fun hm => by
  rw [h c hm] at hc
  cases hc

/-- the head of a text put together from blanks and more -/
theorem head_stop {p : Char → Bool} {w s : List Char} {r : List Char} (hw : ∀ c ∈ w, p c = false) (he : w = [] → s = [])
    (hr : ∀ c ∈ r.head?, p c = false) : ∀ c ∈ (w ++ (s ++ r)).head?, p c = false := by
  intro c hc
  cases w with
  | nil =>
    rw [he rfl] at hc
    exact hr c hc
  | cons a w => cases hc; exact hw _ List.mem_cons_self

theorem head_stop' {p : Char → Bool} {w r : List Char} (hw : ∀ c ∈ w, p c = false)
    (hr : ∀ c ∈ r.head?, p c = false) : ∀ c ∈ (w ++ r).head?, p c = false := by
  intro c hc
  cases w with
  | nil => exact hr c hc
  | cons a w => cases hc; exact hw _ List.mem_cons_self

/-- the parts of a value `initial ? scale ...` -/
theorem parseVar_fields (s0 w s1 s2 sc s3 tail : List Char) (h0 : Blank s0) (h1 : Blank s1) (h2 : Blank s2) (h3 : Blank s3)
    (hw : Word w) (hw1 : w = [] → s1 = []) (hsc : ∀ c ∈ sc, scaleChar c = true) (hsc1 : sc = [] → s3 = [])
    (hq : '?' ∉ sc) (hq' : '?' ∉ tail) (hstop : ∀ c ∈ (s3 ++ tail).head?, scaleChar c = false)
    (hstop' : ∀ c ∈ tail.head?, pySpace c = false) :
    ∃ b, parseVar (s0 ++ (w ++ (s1 ++ '?' :: (s2 ++ (sc ++ (s3 ++ tail)))))) =
      some ⟨given w, given sc, (bounds ⟨b, tail⟩).1, (bounds ⟨b, tail⟩).2⟩ := by
  have hsq : pySpace '?' = false := by decide
  have nq : '?' ∉ s2 ++ (sc ++ (s3 ++ tail)) := by
    simp only [List.mem_append]
    rintro (h | h | h | h)
    · exact blank_notMem h2 hsq h
    · exact hq h
    · exact blank_notMem h3 hsq h
    · exact hq' h
  have scsp : ∀ c ∈ sc, pySpace c = false := fun c hc => by
    have := hsc c hc
    unfold scaleChar at this
    cases hs : pySpace c
    · rfl
    · rw [hs] at this; cases this
  have e1 : (run sp ⟨[], s0 ++ (w ++ (s1 ++ '?' :: (s2 ++ (sc ++ (s3 ++ tail)))))⟩).head? =
      some ⟨s0.reverse ++ [], w ++ (s1 ++ '?' :: (s2 ++ (sc ++ (s3 ++ tail))))⟩ :=
    head?_star h0 (head_stop hw hw1 (fun c hc => by cases hc; exact hsq))
  let b3 := '?' :: (s1.reverse ++ (w.reverse ++ (s0.reverse ++ [])))
  have e4 : (runParts [sp, opt (plus (.cls scaleChar)), sp] ⟨b3, s2 ++ (sc ++ (s3 ++ tail))⟩).head? =
      some [⟨s2.reverse ++ b3, sc ++ (s3 ++ tail)⟩, ⟨sc.reverse ++ (s2.reverse ++ b3), s3 ++ tail⟩,
        ⟨s3.reverse ++ (sc.reverse ++ (s2.reverse ++ b3)), tail⟩] :=
    head?_runParts (head?_star h2 (head_stop scsp hsc1 hstop'))
      (head?_runParts (head?_word hsc hstop)
        (head?_runParts (head?_star h3 hstop') (head?_runParts_nil _)))
  have e : (runParts varHead ⟨[], s0 ++ (w ++ (s1 ++ '?' :: (s2 ++ (sc ++ (s3 ++ tail)))))⟩).head? = some _ :=
    head?_runParts e1 (head?_word_then (word_nonSpace hw) h1 hsq blank_not_nonSpace nq e4)
  refine ⟨s3.reverse ++ (sc.reverse ++ (s2.reverse ++ b3)), ?_⟩
  unfold parseVar
  rw [e]
  simp only
  rw [given_group (x := w) rfl, given_group (x := sc) rfl]

theorem bounds_given (b t0 lo t1 t2 up t3 junk : List Char) (h0 : Blank t0) (h1 : Blank t1) (h2 : Blank t2) (h3 : Blank t3)
    (hlo : Word lo) (hlo1 : lo = [] → t1 = []) (hup : Word up) (hup1 : up = [] → t3 = []) (hc : ',' ∉ up) (hc' : ',' ∉ junk)
    (hg : '>' ∉ junk) :
    bounds ⟨b, '<' :: (t0 ++ (lo ++ (t1 ++ ',' :: (t2 ++ (up ++ (t3 ++ '>' :: junk))))))⟩ = (given lo, given up) := by
  have hsc : pySpace ',' = false := by decide
  have hsg : pySpace '>' = false := by decide
  have nc : ',' ∉ t2 ++ (up ++ (t3 ++ '>' :: junk)) := by
    simp only [List.mem_append, List.mem_cons]
    rintro (h | h | h | h | h)
    · exact blank_notMem h2 hsc h
    · exact hc h
    · exact blank_notMem h3 hsc h
    · cases h
    · exact hc' h
  have e : (runParts varBounds ⟨b, '<' :: (t0 ++ (lo ++ (t1 ++ ',' :: (t2 ++ (up ++ (t3 ++ '>' :: junk))))))⟩).head? = some _ :=
    head?_runParts (head?_chr _ _ _) (head?_runParts
      (head?_star h0 (head_stop hlo hlo1 (fun c hc => by cases hc; exact hsc)))
      (head?_word_then (word_nonSpace hlo) h1 hsc blank_not_nonSpace nc
        (head?_runParts (head?_star h2 (head_stop hup hup1 (fun c hc => by cases hc; exact hsg)))
          (head?_word_then (word_nonSpace hup) h3 hsg blank_not_nonSpace hg (head?_runParts_nil _)))))
  unfold bounds
  rw [e]
  simp only
  rw [given_group (x := lo) rfl, given_group (x := up) rfl]

theorem bounds_none (b tail : List Char) (h : tail.head? ≠ some '<' ∨ ',' ∉ tail ∨ '>' ∉ tail) :
    bounds ⟨b, tail⟩ = (none, none) := by
  have : runParts varBounds ⟨b, tail⟩ = [] := by
    by_contra hne
    obtain ⟨l, hl⟩ := List.exists_mem_of_ne_nil _ hne
    unfold varBounds at hl
    obtain ⟨p0, l0, _, m0, hl⟩ := mem_runParts_cons hl
    obtain ⟨p1, l1, _, m1, hl⟩ := mem_runParts_cons hl
    obtain ⟨p2, l2, _, m2, hl⟩ := mem_runParts_cons hl
    obtain ⟨p3, l3, _, m3, hl⟩ := mem_runParts_cons hl
    obtain ⟨p4, l4, _, m4, hl⟩ := mem_runParts_cons hl
    obtain ⟨p5, l5, _, m5, hl⟩ := mem_runParts_cons hl
    obtain ⟨p6, l6, _, m6, hl⟩ := mem_runParts_cons hl
    obtain ⟨p7, l7, _, m7, hl⟩ := mem_runParts_cons hl
    obtain ⟨p8, l8, _, m8, hl⟩ := mem_runParts_cons hl
    rw [run_opt_plus_cls] at m2 m6
    have q0 := mem_chr m0
    obtain ⟨x1, q1, _⟩ := mem_star_cls m1
    obtain ⟨x2, q2, _⟩ := mem_star_cls m2
    obtain ⟨x3, q3, _⟩ := mem_star_cls m3
    have q4 := mem_chr m4
    obtain ⟨x5, q5, _⟩ := mem_star_cls m5
    obtain ⟨x6, q6, _⟩ := mem_star_cls m6
    obtain ⟨x7, q7, _⟩ := mem_star_cls m7
    have q8 := mem_chr m8
    simp only at q0
    rw [q1, q2, q3, q4, q5, q6, q7, q8] at q0
    rcases h with h | h | h
    · exact h (by rw [q0]; rfl)
    · exact h (by rw [q0]; simp)
    · exact h (by rw [q0]; simp)
  unfold bounds
  rw [this]
  rfl

/-! ## The specification -/

/-- `<lower, upper>`, either of them may be missing, blanks anywhere between; what follows must not contain another comma or `>` -/
def BoundText (t lo up : List Char) : Prop :=
  ∃ t0 t1 t2 t3 junk, t = '<' :: (t0 ++ (lo ++ (t1 ++ ',' :: (t2 ++ (up ++ (t3 ++ '>' :: junk)))))) ∧
    Blank t0 ∧ Blank t1 ∧ Blank t2 ∧ Blank t3 ∧ Word lo ∧ (lo = [] → t1 = []) ∧ Word up ∧ (up = [] → t3 = []) ∧
    ',' ∉ up ∧ ',' ∉ junk ∧ '>' ∉ junk

/-- `initial ? scale`, either of them may be missing, blanks anywhere between, followed by nothing, by `<...` or by `@...`; a single
question mark -/
def VarText (val ini sc tail : List Char) : Prop :=
  ∃ s0 s1 s2 s3, val = s0 ++ (ini ++ (s1 ++ '?' :: (s2 ++ (sc ++ (s3 ++ tail))))) ∧
    Blank s0 ∧ Blank s1 ∧ Blank s2 ∧ Blank s3 ∧ Word ini ∧ (ini = [] → s1 = []) ∧ Word sc ∧ (sc = [] → s3 = []) ∧
    '<' ∉ sc ∧ '@' ∉ sc ∧ '?' ∉ sc ∧ '?' ∉ tail ∧ (tail = [] ∨ tail.head? = some '<' ∨ tail.head? = some '@')

/-- the number a text stands for, or the default when it is empty -/
def Reads (float : List Char → Except PyErr ℝ) (t : List Char) (dflt x : ℝ) : Prop :=
  (t = [] ∧ x = dflt) ∨ (t ≠ [] ∧ float t = .ok x)

theorem setting_reads {float : List Char → Except PyErr ℝ} {t : List Char} {d x : ℝ} (h : Reads float t d x) :
    setting float (given t) d = .ok x := by
  unfold given
  rcases h with ⟨h, rfl⟩ | ⟨h, h'⟩
  · rw [if_pos h]
    rfl
  · rw [if_neg h]
    exact h'

theorem parseVar_text {val ini sc tail : List Char} (h : VarText val ini sc tail) :
    ∃ b, parseVar val = some ⟨given ini, given sc, (bounds ⟨b, tail⟩).1, (bounds ⟨b, tail⟩).2⟩ := by
  obtain ⟨s0, s1, s2, s3, rfl, h0, h1, h2, h3, hi, hi1, hs, hs1, hl, ha, hq, hq', ht⟩ := h
  have hstop' : ∀ p : Char → Bool, p '<' = false → p '@' = false → ∀ c ∈ tail.head?, p c = false := by
    intro p pl pa c hc
    rcases ht with rfl | ht | ht
    · cases hc
    · rw [ht] at hc; cases hc; exact pl
    · rw [ht] at hc; cases hc; exact pa
  apply parseVar_fields s0 ini s1 s2 sc s3 tail h0 h1 h2 h3 hi hi1 ?_ hs1 hq hq' ?_ (hstop' pySpace (by decide) (by decide))
  · intro c hc
    unfold scaleChar
    rw [hs c hc]
    have n1 : c ≠ '<' := fun h => hl (h ▸ hc)
    have n2 : c ≠ '@' := fun h => ha (h ▸ hc)
    simp [n1, n2]
  · exact head_stop' (fun c hc => blank_not_scale c (h3 c hc)) (hstop' scaleChar (by decide) (by decide))

theorem construct_new {s : KappaVar.St} (hi : KappaVar.Inv s) (tag : List Char) (hr : s.reg tag = none) (i l u c : ℝ)
    (hb : l ≤ i ∧ i ≤ u) :
    ∃ s', KappaVar.construct s tag { initial := i, lower := l, upper := u, scale := c } = (.ok s.nobj, s') ∧
      s'.reg = Function.update s.reg tag (some s.nobj) ∧
      s'.obj = Function.update s.obj s.nobj (some ⟨i, l, u, c, [], some none, some s.npar⟩) := by
  have hn : s.obj s.nobj = none := by
    cases ho : s.obj s.nobj with
    | none => rfl
    | some o =>
      obtain ⟨t, ht⟩ := hi.objReg _ _ ho
      have := hi.regLt t _ ht
      omega
  unfold KappaVar.construct KappaVar.initVar
  simp only [hr, hn, if_pos hb, KappaVar.finishInit, KappaVar.depArgs, List.mapIdx_nil, KappaVar.newParams, KappaVar.paramsLoop,
    List.map_nil, List.nodup_nil, if_true, KappaVar.putObj, Function.update_self]
  exact ⟨_, rfl, rfl, by simp⟩

/-! ## C106 -/

/-- **C106** `tag = initial ? scale <lower, upper>` with a new tag and an initial value within the bounds makes a free variable with
exactly these settings; a missing initial value or scale is 1, missing bounds are 0 and 1000. -/
theorem C106_variable (float : List Char → Except PyErr ℝ) (tag val ini sc lo up tail : List Char) (i c l u : ℝ) (s : KappaVar.St)
    (h : KappaVar.Steps true KappaVar.St.init s) (hr : s.reg tag = none) (hv : VarText val ini sc tail)
    (ht : BoundText tail lo up ∨ (tail.head? ≠ some '<' ∧ lo = [] ∧ up = []))
    (hi : Reads float ini 1 i) (hc : Reads float sc 1 c) (hl : Reads float lo 0 l) (hu : Reads float up 1000 u) (hb : l ≤ i ∧ i ≤ u) :
    ∃ n s' o, parseVarLine float tag val s = (.ok (.var n), s') ∧ s'.reg tag = some n ∧ s'.obj n = some o ∧
      o.value = i ∧ o.scale = c ∧ o.lower = l ∧ o.upper = u ∧ KappaVar.value s' n = .ok i ∧ KappaVar.constrained s' n = .ok false ∧
      (∀ m, m ≠ n → s'.obj m = s.obj m) ∧ s.obj n = none := by
  have inv := KappaVar.steps_inv h KappaVar.inv_init.1
  obtain ⟨b, hp⟩ := parseVar_text hv
  have hbd : bounds ⟨b, tail⟩ = (given lo, given up) := by
    rcases ht with ⟨t0, t1, t2, t3, junk, rfl, h0, h1, h2, h3, h4, h5, h6, h7, h8, h9, h10⟩ | ⟨h1, rfl, rfl⟩
    · exact bounds_given _ _ _ _ _ _ _ _ h0 h1 h2 h3 h4 h5 h6 h7 h8 h9 h10
    · exact bounds_none _ _ (.inl h1)
  rw [hbd] at hp
  obtain ⟨s', e1, e2, e3⟩ := construct_new inv tag hr i l u c hb
  have ho : s'.obj s.nobj = some ⟨i, l, u, c, [], some none, some s.npar⟩ := by rw [e3, Function.update_self]
  refine ⟨s.nobj, s', _, ?_, by rw [e2, Function.update_self], ho, rfl, rfl, rfl, rfl, ?_, ?_, fun m hm => ?_, ?_⟩
  · have ha : varArgs float ⟨given ini, given sc, given lo, given up⟩ =
        .ok { initial := i, lower := l, upper := u, scale := c } := by
      unfold varArgs
      simp only [setting_reads hi, setting_reads hc, setting_reads hl, setting_reads hu]
      rfl
    unfold parseVarLine
    simp only [hp, ha, e1]
  · unfold KappaVar.value
    simp only [ho]
  · unfold KappaVar.constrained
    simp only [ho]
    rfl
  · rw [e3, Function.update_of_ne hm]
  · cases ho : s.obj s.nobj with
    | none => rfl
    | some o =>
      obtain ⟨t, ht⟩ := inv.objReg _ _ ho
      have := inv.regLt t _ ht
      omega

/-- the settings of a line, when all texts are numbers -/
theorem C106_settings {float : List Char → Except PyErr ℝ} {val ini sc lo up tail : List Char} {i c l u : ℝ} (hv : VarText val ini sc tail)
    (ht : BoundText tail lo up ∨ (tail.head? ≠ some '<' ∧ lo = [] ∧ up = []))
    (hi : Reads float ini 1 i) (hc : Reads float sc 1 c) (hl : Reads float lo 0 l) (hu : Reads float up 1000 u) (tag : List Char)
    (s : KappaVar.St) :
    parseVarLine float tag val s =
      match KappaVar.construct s tag { initial := i, lower := l, upper := u, scale := c } with
      | (.error e, s1) => (.error e, s1)
      | (.ok n, s1) => (.ok (.var n), s1) := by
  obtain ⟨b, hp⟩ := parseVar_text hv
  have hbd : bounds ⟨b, tail⟩ = (given lo, given up) := by
    rcases ht with ⟨t0, t1, t2, t3, junk, rfl, h0, h1, h2, h3, h4, h5, h6, h7, h8, h9, h10⟩ | ⟨h1, rfl, rfl⟩
    · exact bounds_given _ _ _ _ _ _ _ _ h0 h1 h2 h3 h4 h5 h6 h7 h8 h9 h10
    · exact bounds_none _ _ (.inl h1)
  rw [hbd] at hp
  have ha : varArgs float ⟨given ini, given sc, given lo, given up⟩ =
      .ok { initial := i, lower := l, upper := u, scale := c } := by
    unfold varArgs
    simp only [setting_reads hi, setting_reads hc, setting_reads hl, setting_reads hu]
    rfl
  unfold parseVarLine
  simp only [hp, ha]
  rfl

/-- **C106** An initial value outside the bounds is refused. -/
theorem C106_out_of_bounds (float : List Char → Except PyErr ℝ) (tag val ini sc lo up tail : List Char) (i c l u : ℝ) (s : KappaVar.St)
    (h : KappaVar.Steps true KappaVar.St.init s) (hr : s.reg tag = none) (hv : VarText val ini sc tail)
    (ht : BoundText tail lo up ∨ (tail.head? ≠ some '<' ∧ lo = [] ∧ up = []))
    (hi : Reads float ini 1 i) (hc : Reads float sc 1 c) (hl : Reads float lo 0 l) (hu : Reads float up 1000 u) (hb : i < l ∨ u < i) :
    (parseVarLine float tag val s).1 = .error .valueError := by
  have inv := KappaVar.steps_inv h KappaVar.inv_init.1
  rw [C106_settings hv ht hi hc hl hu]
  have hn : s.obj s.nobj = none := by
    cases ho : s.obj s.nobj with
    | none => rfl
    | some o =>
      obtain ⟨t, ht⟩ := inv.objReg _ _ ho
      have := inv.regLt t _ ht
      omega
  unfold KappaVar.construct KappaVar.initVar
  have : ¬ (l ≤ i ∧ i ≤ u) := by
    rintro ⟨h1, h2⟩
    rcases hb with h | h <;> linarith
  simp only [hr, hn, if_neg this]

/-- **C106** A text that is not a number where a number is expected is refused, and nothing is registered. -/
theorem C106_not_a_number (float : List Char → Except PyErr ℝ) (tag val ini sc lo up tail : List Char) (s : KappaVar.St)
    (hv : VarText val ini sc tail)
    (ht : BoundText tail lo up ∨ (tail.head? ≠ some '<' ∧ lo = [] ∧ up = []))
    (hbad : ∃ t ∈ [ini, sc, lo, up], t ≠ [] ∧ ∃ e, float t = .error e) :
    parseVarLine float tag val s = (.error .valueError, s) := by
  obtain ⟨b, hp⟩ := parseVar_text hv
  have hbd : bounds ⟨b, tail⟩ = (given lo, given up) := by
    rcases ht with ⟨t0, t1, t2, t3, junk, rfl, h0, h1, h2, h3, h4, h5, h6, h7, h8, h9, h10⟩ | ⟨h1, rfl, rfl⟩
    · exact bounds_given _ _ _ _ _ _ _ _ h0 h1 h2 h3 h4 h5 h6 h7 h8 h9 h10
    · exact bounds_none _ _ (.inl h1)
  rw [hbd] at hp
  have ha : ∃ e, varArgs float ⟨given ini, given sc, given lo, given up⟩ = .error e := by
    obtain ⟨t, ht, hne, e, he⟩ := hbad
    have hset : ∀ d, setting float (given t) d = .error e := fun d => by
      unfold given
      rw [if_neg hne]
      exact he
    unfold varArgs
    cases e1 : setting float (given ini) 1 with
    | error e' => exact ⟨e', rfl⟩
    | ok x1 =>
      cases e2 : setting float (given sc) 1 with
      | error e' => exact ⟨e', rfl⟩
      | ok x2 =>
        cases e3 : setting float (given lo) 0 with
        | error e' => exact ⟨e', rfl⟩
        | ok x3 =>
          cases e4 : setting float (given up) 1000 with
          | error e' => exact ⟨e', rfl⟩
          | ok x4 =>
            simp only [List.mem_cons, List.not_mem_nil, or_false] at ht
            rcases ht with rfl | rfl | rfl | rfl
            · rw [hset] at e1; cases e1
            · rw [hset] at e2; cases e2
            · rw [hset] at e3; cases e3
            · rw [hset] at e4; cases e4
  obtain ⟨e, ha⟩ := ha
  unfold parseVarLine
  simp only [hp, ha]

/-- when the pattern matches at all -/
theorem parseVar_none_iff (val : List Char) :
    parseVar val = none ↔ ¬ ∃ s0 w s1 r, val = s0 ++ (w ++ (s1 ++ '?' :: r)) ∧ Blank s0 ∧ Word w ∧ Blank s1 := by
  constructor
  · rintro h ⟨s0, w, s1, r, rfl, h0, hw, h1⟩
    have hne : runParts varHead ⟨[], s0 ++ (w ++ (s1 ++ '?' :: r))⟩ ≠ [] := by
      have key : ∀ (p : Char → Bool) (b x r : List Char) (rs : List Re), (∀ c ∈ x, p c = true) →
          runParts rs ⟨x.reverse ++ b, r⟩ ≠ [] → runParts (.star (.cls p) :: rs) ⟨b, x ++ r⟩ ≠ [] := by
        intro p b x r rs hx hne
        obtain ⟨l, hl⟩ := List.exists_mem_of_ne_nil _ hne
        apply List.ne_nil_of_mem (a := ⟨x.reverse ++ b, r⟩ :: l)
        rw [runParts, List.mem_flatMap]
        refine ⟨⟨x.reverse ++ b, r⟩, ?_, List.mem_map.mpr ⟨l, hl, rfl⟩⟩
        rw [run_star_cls, List.mem_map]
        refine ⟨x.length, ?_, adv_append _ _ _⟩
        rw [mem_downTo]
        show x.length ≤ ((x ++ r).takeWhile p).length
        rw [List.takeWhile_append_of_pos hx, List.length_append]
        omega
      have keyw : ∀ (p : Char → Bool) (b x r : List Char) (rs : List Re), (∀ c ∈ x, p c = true) →
          runParts rs ⟨x.reverse ++ b, r⟩ ≠ [] → runParts (opt (plus (.cls p)) :: rs) ⟨b, x ++ r⟩ ≠ [] := by
        intro p b x r rs hx hne
        have := key p b x r rs hx hne
        rw [runParts] at this ⊢
        rwa [run_opt_plus_cls]
      have keyc : ∀ (b r : List Char) (rs : List Re), runParts rs ⟨'?' :: b, r⟩ ≠ [] → runParts (chr '?' :: rs) ⟨b, '?' :: r⟩ ≠ [] := by
        intro b r rs hne
        obtain ⟨l, hl⟩ := List.exists_mem_of_ne_nil _ hne
        apply List.ne_nil_of_mem (a := ⟨'?' :: b, r⟩ :: l)
        rw [runParts, List.mem_flatMap]
        exact ⟨_, head?_mem (head?_chr _ _ _), List.mem_map.mpr ⟨l, hl, rfl⟩⟩
      unfold varHead
      apply key _ _ _ _ _ h0
      apply keyw _ _ _ _ _ (word_nonSpace hw)
      apply key _ _ _ _ _ h1
      apply keyc
      apply key _ _ [] _ _ (fun c hc => by cases hc)
      apply keyw _ _ [] _ _ (fun c hc => by cases hc)
      apply key _ _ [] _ _ (fun c hc => by cases hc)
      simp [runParts]
    obtain ⟨l, ls, hl⟩ := List.exists_cons_of_ne_nil hne
    have hm : l ∈ runParts varHead ⟨[], s0 ++ (w ++ (s1 ++ '?' :: r))⟩ := by rw [hl]; exact List.mem_cons_self
    unfold varHead at hm
    obtain ⟨p0, l0, rfl, m0, hm⟩ := mem_runParts_cons hm
    obtain ⟨p1, l1, rfl, m1, hm⟩ := mem_runParts_cons hm
    obtain ⟨p2, l2, rfl, m2, hm⟩ := mem_runParts_cons hm
    obtain ⟨p3, l3, rfl, m3, hm⟩ := mem_runParts_cons hm
    obtain ⟨p4, l4, rfl, m4, hm⟩ := mem_runParts_cons hm
    obtain ⟨p5, l5, rfl, m5, hm⟩ := mem_runParts_cons hm
    obtain ⟨p6, l6, rfl, m6, hm⟩ := mem_runParts_cons hm
    cases mem_runParts_nil hm
    unfold parseVar at h
    rw [hl] at h
    simp at h
  · intro h
    have : runParts varHead ⟨[], val⟩ = [] := by
      by_contra hne
      obtain ⟨l, hm⟩ := List.exists_mem_of_ne_nil _ hne
      unfold varHead at hm
      obtain ⟨p0, l0, _, m0, hm⟩ := mem_runParts_cons hm
      obtain ⟨p1, l1, _, m1, hm⟩ := mem_runParts_cons hm
      obtain ⟨p2, l2, _, m2, hm⟩ := mem_runParts_cons hm
      obtain ⟨p3, l3, _, m3, hm⟩ := mem_runParts_cons hm
      rw [run_opt_plus_cls] at m1
      obtain ⟨x0, q0, y0⟩ := mem_star_cls m0
      obtain ⟨x1, q1, y1⟩ := mem_star_cls m1
      obtain ⟨x2, q2, y2⟩ := mem_star_cls m2
      have q3 := mem_chr m3
      simp only at q0
      rw [q1, q2, q3] at q0
      refine h ⟨x0, x1, x2, p3.rest, q0, y0, fun c hc => ?_, y2⟩
      have := y1 c hc
      unfold nonSpace at this
      simpa using this
    unfold parseVar
    rw [this]
    rfl

theorem strip_prefix {p : Char → Bool} {b : Bool} {s t u v : List Char} {x : Char} (hs : ∀ c ∈ s, p c = b) (hx : p x ≠ b)
    (h : s ++ t = u ++ x :: v) : ∃ u', u = s ++ u' ∧ t = u' ++ x :: v := by
  rcases List.append_eq_append_iff.mp h with ⟨d, hd, hd'⟩ | ⟨d, hd, hd'⟩
  · exact ⟨d, hd, hd'⟩
  · cases d with
    | nil => exact ⟨[], by simpa using hd.symm, by simpa using hd'.symm⟩
    | cons z d =>
      simp only [List.cons_append, List.cons.injEq] at hd'
      exfalso
      apply hx
      apply hs
      rw [hd, ← hd'.1]
      simp

/-- **C106** Without a question mark, or with more than one word before the first one, the value is a constant: the number it stands
for, or an error when it is not a number; no variable is made. -/
theorem C106_constant (float : List Char → Except PyErr ℝ) (tag val : List Char) (s : KappaVar.St)
    (h : '?' ∉ val ∨ ∃ b x m c n y r, val = b ++ x :: (m ++ c :: (n ++ y :: r)) ∧ pySpace x = false ∧ pySpace c = true ∧
      pySpace y = false ∧ '?' ∉ b ++ x :: (m ++ c :: (n ++ [y]))) :
    (∀ x, float val = .ok x → parseVarLine float tag val s = (.ok (.const x), s)) ∧
    (∀ e, float val = .error e → parseVarLine float tag val s = (.error .valueError, s)) := by
  have hn : parseVar val = none := by
    rw [parseVar_none_iff]
    rintro ⟨s0, w, s1, r', e, h0, hw, h1⟩
    rcases h with h | ⟨b, x, m, c, n, y, r, e', hx, hc, hy, hq⟩
    · exact h (by rw [e]; simp)
    · rw [e'] at e
      obtain ⟨u1, hu1, e1⟩ := strip_prefix h0 (by rw [hx]; decide) e.symm
      have e1' : w ++ (s1 ++ '?' :: r') = (u1 ++ x :: m) ++ c :: (n ++ y :: r) := by rw [e1]; simp
      obtain ⟨u2, hu2, e2⟩ := strip_prefix hw (by rw [hc]; decide) e1'
      have e2' : s1 ++ '?' :: r' = (u2 ++ c :: n) ++ y :: r := by rw [e2]; simp
      obtain ⟨u3, hu3, e3⟩ := strip_prefix h1 (by rw [hy]; decide) e2'
      apply hq
      cases u3 with
      | nil =>
        simp only [List.nil_append, List.cons.injEq] at e3
        rw [← e3.1]
        simp
      | cons z u3 =>
        simp only [List.cons_append, List.cons.injEq] at e3
        have m3 : '?' ∈ u2 ++ c :: n := by rw [hu3, e3.1]; simp
        rcases List.mem_append.mp m3 with m3 | m3
        · have m2 : '?' ∈ u1 ++ x :: m := by rw [hu2]; exact List.mem_append_right _ m3
          rcases List.mem_append.mp m2 with m2 | m2
          · rw [hu1]
            simp [m2]
          · rcases List.mem_cons.mp m2 with m2 | m2
            · rw [← m2]; simp
            · simp [m2]
        · rcases List.mem_cons.mp m3 with m3 | m3
          · rw [← m3]; simp
          · simp [m3]
  constructor
  · intro x hx
    unfold parseVarLine
    simp only [hn, hx]
  · intro e he
    unfold parseVarLine
    simp only [hn, he]

/-- **C106** (finding) Bounds that are not closed, or have no comma, are ignored without a message: the variable gets the default
bounds 0 and 1000. -/
theorem C106_bad_bounds_ignored (float : List Char → Except PyErr ℝ) (tag val ini sc tail : List Char) (i c : ℝ) (s : KappaVar.St)
    (h : KappaVar.Steps true KappaVar.St.init s) (hr : s.reg tag = none) (hv : VarText val ini sc tail)
    (ht : ',' ∉ tail ∨ '>' ∉ tail) (hi : Reads float ini 1 i) (hc : Reads float sc 1 c) (hb : 0 ≤ i ∧ i ≤ 1000) :
    ∃ n s' o, parseVarLine float tag val s = (.ok (.var n), s') ∧ s'.obj n = some o ∧ o.lower = 0 ∧ o.upper = 1000 ∧ o.value = i := by
  have inv := KappaVar.steps_inv h KappaVar.inv_init.1
  obtain ⟨b, hp⟩ := parseVar_text hv
  rw [bounds_none b tail (.inr ht)] at hp
  have ha : varArgs float ⟨given ini, given sc, none, none⟩ = .ok { initial := i, lower := 0, upper := 1000, scale := c } := by
    unfold varArgs
    simp only [setting_reads hi, setting_reads hc]
    rfl
  obtain ⟨s', e1, e2, e3⟩ := construct_new inv tag hr i 0 1000 c hb
  refine ⟨s.nobj, s', ⟨i, 0, 1000, c, [], some none, some s.npar⟩, ?_, by rw [e3, Function.update_self], rfl, rfl, rfl⟩
  unfold parseVarLine
  simp only [hp, ha, e1]

/-- **C106** (finding) A tag that has been used before in the same program (for instance by an earlier configuration) keeps its old
variable: the new initial value, scale and bounds are ignored, even an initial value outside the bounds. -/
theorem C106_known_tag (float : List Char → Except PyErr ℝ) (tag val ini sc lo up tail : List Char) (i c l u : ℝ) (s : KappaVar.St)
    (n : Nat) (o : KappaVar.Var) (hr : s.reg tag = some n) (ho : s.obj n = some o) (hv : VarText val ini sc tail)
    (ht : BoundText tail lo up ∨ (tail.head? ≠ some '<' ∧ lo = [] ∧ up = []))
    (hi : Reads float ini 1 i) (hc : Reads float sc 1 c) (hl : Reads float lo 0 l) (hu : Reads float up 1000 u) :
    parseVarLine float tag val s = (.ok (.var n), s) := by
  rw [C106_settings hv ht hi hc hl hu, KappaVar.C83_again s tag n o hr ho]

theorem parseVarLine_reg {float : List Char → Except PyErr ℝ} {tag val : List Char} {s s' : KappaVar.St} {v : VarVal}
    (hinv : KappaVar.Inv s) (h : parseVarLine float tag val s = (.ok v, s')) :
    KappaVar.Inv s' ∧ (∀ t n, s.reg t = some n → s'.reg t = some n) ∧ (∀ n, v = .var n → s'.reg tag = some n) := by
  unfold parseVarLine at h
  cases hp : parseVar val with
  | none =>
    simp only [hp] at h
    cases hf : float val with
    | error e => rw [hf] at h; cases h
    | ok x =>
      rw [hf] at h
      cases h
      exact ⟨hinv, fun _ _ h => h, fun n hn => by cases hn⟩
  | some g =>
    simp only [hp] at h
    cases ha : varArgs float g with
    | error e => rw [ha] at h; cases h
    | ok a =>
      have hd : a.constraint = .none ∧ a.depends = [] := by
        unfold varArgs at ha
        cases e1 : setting float g.initial 1 with
        | error e => rw [e1] at ha; cases ha
        | ok x1 =>
          cases e2 : setting float g.scale 1 with
          | error e => rw [e1, e2] at ha; cases ha
          | ok x2 =>
            cases e3 : setting float g.lower 0 with
            | error e => rw [e1, e2, e3] at ha; cases ha
            | ok x3 =>
              cases e4 : setting float g.upper 1000 with
              | error e => rw [e1, e2, e3, e4] at ha; cases ha
              | ok x4 =>
                rw [e1, e2, e3, e4] at ha
                cases ha
                exact ⟨rfl, rfl⟩
      simp only [ha] at h
      have hinv' := (KappaVar.construct_inv hinv tag a (by rw [hd.2]; intro x hx; cases hx)).1
      have hreg : ∀ (s0 : KappaVar.St) (j m : Nat), (KappaVar.initVar s0 j tag a).1 = .ok m →
          m = j ∧ (KappaVar.initVar s0 j tag a).2.reg = s0.reg := by
        intro s0 j m hm
        unfold KappaVar.initVar at hm ⊢
        cases ho : s0.obj j with
        | some o =>
          simp only [ho] at hm ⊢
          cases hm
          exact ⟨rfl, trivial⟩
        | none =>
          simp only [ho, hd.1, hd.2] at hm ⊢
          by_cases hb : a.lower ≤ a.initial ∧ a.initial ≤ a.upper
          · simp only [if_pos hb, KappaVar.finishInit, KappaVar.depArgs, List.mapIdx_nil, KappaVar.newParams, KappaVar.paramsLoop,
              List.map_nil, List.nodup_nil, if_true, KappaVar.putObj, Function.update_self] at hm ⊢
            cases hm
            exact ⟨rfl, trivial⟩
          · simp only [if_neg hb] at hm
            cases hm
      cases hc : KappaVar.construct s tag a with
      | mk r s1 =>
        rw [hc] at h hinv'
        cases r with
        | error e => cases h
        | ok m =>
          cases h
          refine ⟨hinv', ?_, ?_⟩
          · intro t n ht
            unfold KappaVar.construct at hc
            cases hr : s.reg tag with
            | some j =>
              simp only [hr] at hc
              have := hreg s j m (by rw [hc])
              rw [hc] at this
              rw [this.2]
              exact ht
            | none =>
              simp only [hr] at hc
              have := hreg _ s.nobj m (by rw [hc])
              rw [hc] at this
              rw [this.2]
              simp only
              rw [Function.update_of_ne (by rintro rfl; rw [hr] at ht; cases ht)]
              exact ht
          · intro n hn
            cases hn
            unfold KappaVar.construct at hc
            cases hr : s.reg tag with
            | some j =>
              simp only [hr] at hc
              have := hreg s j m (by rw [hc])
              rw [hc] at this
              rw [this.2, hr, this.1]
            | none =>
              simp only [hr] at hc
              have := hreg _ s.nobj m (by rw [hc])
              rw [hc] at this
              rw [this.2]
              simp only
              rw [Function.update_self, this.1]

theorem parseVars_reg {float : List Char → Except PyErr ℝ} : ∀ (items : List (List Char × List Char)) {s s' : KappaVar.St}
    {l : List (List Char × VarVal)}, KappaVar.Inv s → parseVars float items s = (.ok l, s') →
    KappaVar.Inv s' ∧ (∀ t n, s.reg t = some n → s'.reg t = some n) ∧ l.map Prod.fst = items.map Prod.fst ∧
    (∀ t n, (t, VarVal.var n) ∈ l → s'.reg t = some n)
  | [], s, s', l, hi, h => by
    cases h
    exact ⟨hi, fun _ _ h => h, rfl, fun _ _ h => by cases h⟩
  | (tag, val) :: rest, s, s', l, hi, h => by
    unfold parseVars at h
    cases h1 : parseVarLine float tag val s with
    | mk r s1 =>
      rw [h1] at h
      cases r with
      | error e => cases h
      | ok v =>
        simp only at h
        cases h2 : parseVars float rest s1 with
        | mk r2 s2 =>
          rw [h2] at h
          cases r2 with
          | error e => cases h
          | ok l2 =>
            cases h
            obtain ⟨a1, a2, a3⟩ := parseVarLine_reg hi h1
            obtain ⟨b1, b2, b3, b4⟩ := parseVars_reg rest a1 h2
            refine ⟨b1, fun t n ht => b2 t n (a2 t n ht), by simp [b3], fun t n hm => ?_⟩
            rcases List.mem_cons.mp hm with hm | hm
            · cases hm
              exact b2 _ _ (a3 _ rfl)
            · exact b4 t n hm

/-- **C106** The whole section: the names keep their order, and what is fitted are pairwise different variables, one for each tag
that is a variable. -/
theorem C106_section (float : List Char → Except PyErr ℝ) (items : List (List Char × List Char)) (s s' : KappaVar.St)
    (l : List (List Char × VarVal)) (h : KappaVar.Steps true KappaVar.St.init s) (hn : (items.map Prod.fst).Nodup)
    (hok : parseVars float items s = (.ok l, s')) :
    l.map Prod.fst = items.map Prod.fst ∧ (fitting l).Nodup ∧ (∀ n, n ∈ fitting l ↔ ∃ t, (t, VarVal.var n) ∈ l) ∧
    (∀ t n, (t, VarVal.var n) ∈ l → s'.reg t = some n) := by
  obtain ⟨b1, b2, b3, b4⟩ := parseVars_reg items (KappaVar.steps_inv h KappaVar.inv_init.1) hok
  refine ⟨b3, ?_, fun n => ?_, b4⟩
  · rw [← b3] at hn
    clear hok b3 b2
    induction l with
    | nil => exact List.nodup_nil
    | cons p l ih =>
      obtain ⟨t, v⟩ := p
      rw [List.map_cons, List.nodup_cons] at hn
      have ih := ih hn.2 (fun t n hm => b4 t n (List.mem_cons_of_mem _ hm))
      cases v with
      | const x => simpa [fitting] using ih
      | var n =>
        have : fitting ((t, VarVal.var n) :: l) = n :: fitting l := by simp [fitting]
        rw [this, List.nodup_cons]
        refine ⟨fun hm => ?_, ih⟩
        unfold fitting at hm
        rw [List.mem_filterMap] at hm
        obtain ⟨⟨t', v'⟩, hm, hv⟩ := hm
        cases v' with
        | const x => cases hv
        | var n' =>
          cases hv
          have e1 := b4 t n List.mem_cons_self
          have e2 := b4 t' n (List.mem_cons_of_mem _ hm)
          have := b1.regInj t t' n e1 e2
          subst this
          exact hn.1 (List.mem_map.mpr ⟨_, hm, rfl⟩)
  · unfold fitting
    rw [List.mem_filterMap]
    constructor
    · rintro ⟨⟨t, v⟩, hm, hv⟩
      cases v with
      | const x => cases hv
      | var n' => cases hv; exact ⟨t, hm⟩
    · rintro ⟨t, hm⟩
      exact ⟨_, hm, rfl⟩

/-! ### the hypotheses can be met -/

example : VarText "5 ? 1e-16 <0, 20>".toList "5".toList "1e-16".toList "<0, 20>".toList :=
  ⟨[], [' '], [' '], [' '], by decide, by decide, by decide, by decide, by decide, by decide, by decide, by decide, by decide, by decide,
    by decide, by decide, by decide, by decide⟩

example : BoundText "<0, 20>".toList "0".toList "20".toList :=
  ⟨[], [], [' '], [], [], by decide, by decide, by decide, by decide, by decide, by decide, by decide, by decide, by decide, by decide,
    by decide, by decide⟩

example : VarText "?".toList [] [] [] :=
  ⟨[], [], [], [], by decide, by decide, by decide, by decide, by decide, by decide, by decide, by decide, by decide, by decide,
    by decide, by decide, by decide, by decide⟩

example : ∃ n s' o, parseVarLine (fun t => if t = "5".toList then .ok 5 else if t = "20".toList then .ok 20 else if t = "0".toList then .ok 0
      else .ok (1 / 10)) "G".toList "5 ? 1e-16 <0, 20>".toList KappaVar.St.init = (.ok (.var n), s') ∧ s'.obj n = some o ∧ o.value = 5 ∧
      o.scale = 1 / 10 ∧ o.upper = 20 := by
  obtain ⟨n, s', o, h1, _, h2, h3, h4, h5, h6, _⟩ := C106_variable
    (fun t => if t = "5".toList then .ok 5 else if t = "20".toList then .ok 20 else if t = "0".toList then .ok 0 else .ok (1 / 10))
    "G".toList "5 ? 1e-16 <0, 20>".toList "5".toList "1e-16".toList "0".toList "20".toList "<0, 20>".toList 5 (1 / 10) 0 20
    KappaVar.St.init (.refl _) rfl
    ⟨[], [' '], [' '], [' '], by decide, by decide, by decide, by decide, by decide, by decide, by decide, by decide, by decide,
      by decide, by decide, by decide, by decide, by decide⟩
    (.inl ⟨[], [], [' '], [], [], by decide, by decide, by decide, by decide, by decide, by decide, by decide, by decide, by decide,
      by decide, by decide, by decide⟩)
    (.inr ⟨by decide, by simp⟩) (.inr ⟨by decide, by simp⟩) (.inr ⟨by decide, by simp⟩) (.inr ⟨by decide, by simp⟩) (by norm_num)
  exact ⟨n, s', o, h1, h2, h3, h4, h6⟩

end TEflow.KappaCfg
