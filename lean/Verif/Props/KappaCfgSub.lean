import Mathlib.Tactic
import Verif.Model.KappaCfg
import Verif.Lemmas.Re2
import Verif.Props.KappaCfgVar
import Verif.Props.UtilsState
import Verif.Props.UtilsText

/-! # C96: assembling a model of the thermal conductivity from the sections of a configuration -/

namespace TEflow.KappaCfg

open Re PyDict Utils

/-! ## References -/

/-- `@ name`, with blanks anywhere around; without a name the option's own name is meant -/
def RefText (key val tag : List Char) : Prop :=
  ∃ s0 s1 w s2, val = s0 ++ '@' :: (s1 ++ (w ++ s2)) ∧ Blank s0 ∧ Blank s1 ∧ Word w ∧ Blank s2 ∧ tag = if w = [] then key else w

theorem refTag_of {key s0 s1 w s2 : List Char} (h0 : Blank s0) (h1 : Blank s1) (hw : Word w) (h2 : Blank s2) (hn : w = [] → s2 = []) :
    refTag key (s0 ++ '@' :: (s1 ++ (w ++ s2))) = some (if w = [] then key else w) := by
  have hsa : pySpace '@' = false := by decide
  have e : (runParts refParts ⟨[], s0 ++ '@' :: (s1 ++ (w ++ s2))⟩).head? = some _ :=
    head?_runParts (r := .bos) (t := ⟨[], s0 ++ '@' :: (s1 ++ (w ++ s2))⟩) rfl
      (head?_runParts (head?_star h0 (fun c hc => by cases hc; exact hsa))
        (head?_runParts (head?_chr _ _ _)
          (head?_runParts (head?_star h1 (by
              intro c hc
              cases w with
              | nil => rw [hn rfl] at hc; cases hc
              | cons a w => cases hc; exact hw _ List.mem_cons_self))
            (head?_runParts (head?_word (word_nonSpace hw) (by
                intro c hc
                cases s2 with
                | nil => cases hc
                | cons a s2 => cases hc; exact blank_not_nonSpace _ (h2 _ List.mem_cons_self)))
              (head?_runParts (t := ⟨s2.reverse ++ (w.reverse ++ (s1.reverse ++ ('@' :: (s0.reverse ++ [])))), []⟩) (by
                  have := head?_star (p := pySpace) (b := w.reverse ++ (s1.reverse ++ ('@' :: (s0.reverse ++ [])))) (x := s2) (r := []) h2
                    (fun c hc => by cases hc)
                  rw [show s2 ++ ([] : List Char) = s2 from List.append_nil _] at this
                  exact this)
                (head?_runParts (r := .eos) rfl (head?_runParts_nil _)))))))
  unfold refTag
  rw [e]
  simp only
  rw [given_group (x := w) rfl]
  unfold given
  split_ifs <;> rfl

/-- the pattern for references accepts exactly `@ name` -/
theorem refTag_iff (key val tag : List Char) : refTag key val = some tag ↔ RefText key val tag := by
  have norm : ∀ s1 w s2, Blank s1 → Blank s2 → Word w → ∃ s1' s2', s1 ++ (w ++ s2) = s1' ++ (w ++ s2') ∧ Blank s1' ∧ Blank s2' ∧
      (w = [] → s2' = []) := by
    intro s1 w s2 h1 h2 hw
    by_cases hn : w = []
    · subst hn
      refine ⟨s1 ++ s2, [], by simp, ?_, (by intro c hc; cases hc), fun _ => rfl⟩
      intro c hc
      rcases List.mem_append.mp hc with h | h
      · exact h1 c h
      · exact h2 c h
    · exact ⟨s1, s2, rfl, h1, h2, fun h => absurd h hn⟩
  constructor
  · intro h
    have h' := h
    unfold refTag at h
    cases hr : (runParts refParts ⟨[], val⟩).head? with
    | none => rw [hr] at h; cases h
    | some l =>
      have hm := head?_mem hr
      unfold refParts at hm
      obtain ⟨p0, l0, rfl, m0, hm⟩ := mem_runParts_cons hm
      obtain ⟨p1, l1, rfl, m1, hm⟩ := mem_runParts_cons hm
      obtain ⟨p2, l2, rfl, m2, hm⟩ := mem_runParts_cons hm
      obtain ⟨p3, l3, rfl, m3, hm⟩ := mem_runParts_cons hm
      obtain ⟨p4, l4, rfl, m4, hm⟩ := mem_runParts_cons hm
      obtain ⟨p5, l5, rfl, m5, hm⟩ := mem_runParts_cons hm
      obtain ⟨p6, l6, rfl, m6, hm⟩ := mem_runParts_cons hm
      have e0 : p0 = ⟨[], val⟩ := by
        rw [run] at m0
        simpa using m0
      rw [run_opt_plus_cls] at m4
      obtain ⟨x1, q1, y1⟩ := mem_star_cls m1
      have q2 := mem_chr m2
      obtain ⟨x3, q3, y3⟩ := mem_star_cls m3
      obtain ⟨x4, q4, y4⟩ := mem_star_cls m4
      obtain ⟨x5, q5, y5⟩ := mem_star_cls m5
      have q6 : Blank p5.rest := by
        rw [run] at m6
        split_ifs at m6 with hc
        · rw [Bool.or_eq_true] at hc
          rcases hc with hc | hc
          · rw [List.isEmpty_iff] at hc
            rw [hc]
            intro c hc; cases hc
          · rw [beq_iff_eq] at hc
            rw [hc]
            decide
        · cases m6
      have hv : val = x1 ++ '@' :: (x3 ++ (x4 ++ (x5 ++ p5.rest))) := by
        rw [← q5, ← q4, ← q3, ← q2, ← q1, e0]
      have hw4 : Word x4 := fun c hc => by
        have := y4 c hc
        unfold nonSpace at this
        simpa using this
      have hb5 : Blank (x5 ++ p5.rest) := by
        intro c hc
        rcases List.mem_append.mp hc with h | h
        · exact y5 c h
        · exact q6 c h
      obtain ⟨s1', s2', e, b1, b2, bn⟩ := norm x3 x4 (x5 ++ p5.rest) y3 hb5 hw4
      have := refTag_of (key := key) y1 b1 hw4 b2 bn
      rw [← e, ← hv, h'] at this
      cases this
      exact ⟨x1, x3, x4, x5 ++ p5.rest, hv, y1, y3, hw4, hb5, rfl⟩
  · rintro ⟨s0, s1, w, s2, rfl, h0, h1, hw, h2, rfl⟩
    obtain ⟨s1', s2', e, b1, b2, bn⟩ := norm s1 w s2 h1 h2 hw
    rw [e]
    exact refTag_of h0 b1 hw b2 bn

/-! ## Specification -/

/-- what the value of an option stands for, given what the names of components stand for -/
inductive Means (float : List Char → Except PyErr ℝ) (vars : List (List Char × VarVal)) (B : List Char → Obj → Prop) :
    String → List Char → Val Obj → Prop where
  /-- a list of component names -/
  | comps (val : List Char) (objs : List Obj) : ¬ Blank val → List.Forall₂ B (parseList val) objs →
      Means float vars B "components" val (.comps objs)
  /-- a reference to a variable -/
  | ref (key : String) (val tag : List Char) (v : VarVal) : key ≠ "components" → RefText key.toList val tag →
      get? vars tag = some v → Means float vars B key val (.ref v)
  /-- a number -/
  | num (key : String) (val : List Char) (x : ℝ) : key ≠ "components" → ¬ Blank val → (∀ tag, ¬ RefText key.toList val tag) →
      float val = .ok x → Means float vars B key val (.num x)
  /-- any other text -/
  | text (key : String) (val : List Char) (e : PyErr) : key ≠ "components" → ¬ Blank val → (∀ tag, ¬ RefText key.toList val tag) →
      float val = .error e → Means float vars B key val (.text val)

/-- the name of a section stands for an object, for some (hence every larger) recursion limit -/
def Built (float : List Char → Except PyErr ℝ) (cfg : Config) (vars : List (List Char × VarVal)) (name : List Char) (o : Obj) : Prop :=
  ∃ n, parseSub float cfg vars n name = .ok o

/-- the section found for `a` lists `b` among its components -/
def Uses (cfg : Config) (a b : List Char) : Prop :=
  ∃ items ty val, pmatch cfg a = .ok (items, ty) ∧ ("components", val) ∈ items ∧ b ∈ parseList val

variable {float : List Char → Except PyErr ℝ} {cfg : Config} {vars : List (List Char × VarVal)}

/-! ## Lemmas -/

theorem strip_empty (val : List Char) : (Loader.strip val).isEmpty = true ↔ Blank val := by
  have dw : ∀ l : List Char, l.dropWhile pySpace = [] ↔ Blank l := by
    intro l
    constructor
    · intro h c hc
      rw [← List.takeWhile_append_dropWhile (p := pySpace) (l := l), h, List.append_nil] at hc
      exact mem_takeWhile hc
    · intro h
      induction l with
      | nil => rfl
      | cons a l ih =>
        rw [List.dropWhile_cons, if_pos (h a List.mem_cons_self)]
        exact ih (fun c hc => h c (List.mem_cons_of_mem _ hc))
  rw [List.isEmpty_iff]
  unfold Loader.strip Loader.rstrip
  rw [List.reverse_eq_nil_iff, dw]
  constructor
  · intro h c hc
    rw [← List.takeWhile_append_dropWhile (p := pySpace) (l := val)] at hc
    rcases List.mem_append.mp hc with h1 | h1
    · exact mem_takeWhile h1
    · exact h c (List.mem_reverse.mpr h1)
  · intro h
    rw [(dw val).mpr h]
    exact fun c hc => by cases hc

theorem mapM_ok {α β : Type} {f : α → Except PyErr β} : ∀ {l : List α} {r : List β}, l.mapM f = .ok r ↔
    List.Forall₂ (fun a b => f a = .ok b) l r
  | [], r => by
    rw [List.mapM_nil]
    constructor
    · intro h; cases h; exact .nil
    · intro h; cases h; rfl
  | a :: l, r => by
    rw [List.mapM_cons]
    constructor
    · intro h
      cases ha : f a with
      | error e => rw [ha] at h; cases h
      | ok b =>
        rw [ha] at h
        cases hl : l.mapM f with
        | error e =>
          simp only [hl] at h
          cases h
        | ok bs =>
          simp only [hl] at h
          cases h
          exact .cons ha (mapM_ok.mp hl)
    · intro h
      cases h with
      | cons h1 h2 =>
        rw [h1]
        simp only [mapM_ok.mpr h2]
        rfl

theorem mapM_error {α β : Type} {f : α → Except PyErr β} {e : PyErr} : ∀ {l : List α}, l.mapM f = .error e →
    ∃ a ∈ l, f a = .error e
  | [], h => by cases h
  | a :: l, h => by
    rw [List.mapM_cons] at h
    cases ha : f a with
    | error e' =>
      rw [ha] at h
      cases h
      exact ⟨a, List.mem_cons_self, ha⟩
    | ok b =>
      rw [ha] at h
      cases hl : l.mapM f with
      | error e' =>
        simp only [hl] at h
        cases h
        obtain ⟨x, hx, h⟩ := mapM_error hl
        exact ⟨x, List.mem_cons_of_mem _ hx, h⟩
      | ok bs =>
        simp only [hl] at h
        cases h

theorem forall2_mem_left {α β : Type} {R : α → β → Prop} {l : List α} {r : List β} (h : List.Forall₂ R l r) :
    ∀ a ∈ l, ∃ b ∈ r, R a b := by
  induction h with
  | nil => intro a ha; cases ha
  | cons h1 _ ih =>
    intro a ha
    rcases List.mem_cons.mp ha with rfl | ha
    · exact ⟨_, List.mem_cons_self, h1⟩
    · obtain ⟨b, hb, hR⟩ := ih a ha
      exact ⟨b, List.mem_cons_of_mem _ hb, hR⟩

theorem forall2_mem_right {α β : Type} {R : α → β → Prop} {l : List α} {r : List β} (h : List.Forall₂ R l r) :
    ∀ b ∈ r, ∃ a ∈ l, R a b := fun b hb => forall2_mem_left h.flip b hb

theorem itemVal_ok {sub : List Char → Except PyErr Obj} {key : String} {val : List Char} {v : Val Obj} :
    itemVal float vars sub key val = .ok v ↔ Means float vars (fun a o => sub a = .ok o) key val v := by
  unfold itemVal
  by_cases hb : Blank val
  · rw [if_pos ((strip_empty val).mpr hb)]
    constructor
    · intro h; cases h
    · intro h
      cases h with
      | comps _ _ h _ => exact absurd hb h
      | ref _ _ tag _ _ h _ =>
        obtain ⟨s0, s1, w, s2, rfl, _⟩ := h
        have := hb '@' (by simp)
        exact absurd this (by decide)
      | num _ _ _ _ h => exact absurd hb h
      | text _ _ _ _ h => exact absurd hb h
  · rw [if_neg (fun h => hb ((strip_empty val).mp h))]
    by_cases hk : key = "components"
    · subst hk
      rw [if_pos rfl]
      constructor
      · intro h
        cases hm : (parseList val).mapM sub with
        | error e => rw [hm] at h; cases h
        | ok l =>
          rw [hm] at h
          cases h
          exact .comps val l hb (mapM_ok.mp hm)
      · intro h
        cases h with
        | comps _ objs _ h => rw [mapM_ok.mpr h]
        | ref _ _ _ _ h => exact absurd rfl h
        | num _ _ _ h => exact absurd rfl h
        | text _ _ _ h => exact absurd rfl h
    · rw [if_neg hk]
      cases hr : refTag key.toList val with
      | some tag =>
        have ht := (refTag_iff _ _ _).mp hr
        simp only
        constructor
        · intro h
          cases hg : get? vars tag with
          | none => rw [hg] at h; cases h
          | some w =>
            rw [hg] at h
            cases h
            exact .ref key val tag w hk ht hg
        · intro h
          cases h with
          | comps => exact absurd rfl hk
          | ref _ _ tag' w _ h hg =>
            have := (refTag_iff _ _ _).mpr h
            rw [hr] at this
            cases this
            rw [hg]
          | num _ _ _ _ _ h => exact absurd ht (h tag)
          | text _ _ _ _ _ h => exact absurd ht (h tag)
      | none =>
        have hn : ∀ tag, ¬ RefText key.toList val tag := fun tag h => by
          rw [(refTag_iff _ _ _).mpr h] at hr
          cases hr
        simp only
        constructor
        · intro h
          cases hf : float val with
          | ok x =>
            rw [hf] at h
            cases h
            exact .num key val x hk hb hn hf
          | error e =>
            rw [hf] at h
            cases h
            exact .text key val e hk hb hn hf
        · intro h
          cases h with
          | comps => exact absurd rfl hk
          | ref _ _ tag _ _ h _ => exact absurd h (hn tag)
          | num _ _ x _ _ _ h => rw [h]
          | text _ _ e _ _ _ h => rw [h]

/-- the arguments are the options with their meanings, in order -/
def Kwargs (float : List Char → Except PyErr ℝ) (vars : List (List Char × VarVal)) (B : List Char → Obj → Prop)
    (items : List (String × List Char)) (kw : PyDict String (Option (Val Obj))) : Prop :=
  List.Forall₂ (fun it kv => kv.1 = it.1 ∧ ∃ v, kv.2 = some v ∧ Means float vars B it.1 it.2 v) items kw

theorem itemVals_ok {sub : List Char → Except PyErr Obj} : ∀ {items : List (String × List Char)} {kw : PyDict String (Option (Val Obj))},
    itemVals float vars sub items = .ok kw ↔ Kwargs float vars (fun a o => sub a = .ok o) items kw
  | [], kw => by
    unfold itemVals Kwargs
    constructor
    · intro h; cases h; exact .nil
    · intro h; cases h; rfl
  | (key, val) :: rest, kw => by
    unfold itemVals Kwargs
    constructor
    · intro h
      cases h1 : itemVal float vars sub key val with
      | error e => rw [h1] at h; cases h
      | ok v =>
        rw [h1] at h
        cases h2 : itemVals float vars sub rest with
        | error e => rw [h2] at h; cases h
        | ok l =>
          rw [h2] at h
          cases h
          exact .cons ⟨rfl, v, rfl, itemVal_ok.mp h1⟩ (itemVals_ok.mp h2)
    · intro h
      cases h with
      | @cons _ kv _ l h1 h2 =>
        obtain ⟨k, v⟩ := kv
        obtain ⟨rfl, v, rfl, h1⟩ := h1
        rw [itemVal_ok.mpr h1]
        simp only
        rw [itemVals_ok.mpr h2]

theorem Means.mono {B B' : List Char → Obj → Prop} (h : ∀ a o, B a o → B' a o) {key : String} {val : List Char} {v : Val Obj}
    (hm : Means float vars B key val v) : Means float vars B' key val v := by
  cases hm with
  | comps _ objs h1 h2 => exact .comps _ _ h1 (h2.imp h)
  | ref _ _ tag w h1 h2 h3 => exact .ref _ _ tag w h1 h2 h3
  | num _ _ x h1 h2 h3 h4 => exact .num _ _ x h1 h2 h3 h4
  | text _ _ e h1 h2 h3 h4 => exact .text _ _ e h1 h2 h3 h4

theorem Kwargs.mono {B B' : List Char → Obj → Prop} (h : ∀ a o, B a o → B' a o) {items : List (String × List Char)}
    {kw : PyDict String (Option (Val Obj))} (hk : Kwargs float vars B items kw) : Kwargs float vars B' items kw :=
  hk.imp (fun _ _ ⟨h1, v, h2, h3⟩ => ⟨h1, v, h2, h3.mono h⟩)

/-- `sub'` agrees with `sub` wherever `sub` did not run into the recursion limit -/
def Refines (sub sub' : List Char → Except PyErr Obj) : Prop := ∀ a, sub a ≠ .error .recursionError → sub' a = sub a

theorem mapM_refines {sub sub' : List Char → Except PyErr Obj} (h : Refines sub sub') : ∀ (l : List (List Char)),
    l.mapM sub ≠ .error .recursionError → l.mapM sub' = l.mapM sub
  | [], _ => rfl
  | a :: l, hne => by
    rw [List.mapM_cons] at hne ⊢
    rw [List.mapM_cons]
    cases ha : sub a with
    | error e =>
      rw [ha] at hne
      have : e ≠ .recursionError := by
        rintro rfl
        exact hne rfl
      have := h a (by rw [ha]; intro hh; cases hh; exact this rfl)
      rw [this, ha]
      rfl
    | ok b =>
      rw [h a (by rw [ha]; intro hh; cases hh), ha]
      have : l.mapM sub' = l.mapM sub := by
        apply mapM_refines h
        intro hh
        apply hne
        rw [ha]
        simp only [hh]
        rfl
      rw [this]

theorem itemVal_refines {sub sub' : List Char → Except PyErr Obj} (h : Refines sub sub') (key : String) (val : List Char)
    (hne : itemVal float vars sub key val ≠ .error .recursionError) : itemVal float vars sub' key val = itemVal float vars sub key val := by
  unfold itemVal at hne ⊢
  split_ifs with h1 h2
  · rfl
  · rw [if_neg h1, if_pos h2] at hne
    have : (parseList val).mapM sub' = (parseList val).mapM sub := by
      apply mapM_refines h
      intro hh
      rw [hh] at hne
      exact hne rfl
    rw [this]
  · rfl

theorem itemVals_refines {sub sub' : List Char → Except PyErr Obj} (h : Refines sub sub') : ∀ (items : List (String × List Char)),
    itemVals float vars sub items ≠ .error .recursionError → itemVals float vars sub' items = itemVals float vars sub items
  | [], _ => rfl
  | (key, val) :: rest, hne => by
    unfold itemVals at hne ⊢
    have h1 : itemVal float vars sub' key val = itemVal float vars sub key val := by
      apply itemVal_refines h
      intro hh
      rw [hh] at hne
      exact hne rfl
    rw [h1]
    cases hv : itemVal float vars sub key val with
    | error e => rfl
    | ok v =>
      rw [hv] at hne
      have h2 : itemVals float vars sub' rest = itemVals float vars sub rest := by
        apply itemVals_refines h
        intro hh
        simp only [hh] at hne
        exact hne rfl
      simp only [h2]

theorem execSection_error {ty : String} {name : List Char} {spec : List String × List String} {kw : PyDict String (Option (Val Obj))}
    {e : PyErr} (h : execSection ty name spec kw = .error e) : e ≠ .recursionError := by
  unfold execSection Exec.execute Exec.callArgs at h
  simp only at h
  split_ifs at h with h1
  · cases h
    intro hh; cases hh
  · simp only at h
    cases hm : makeObj ty name (PyDict.update (PyDict.update (PyDict.update (Exec.init spec.1 spec.2).args
        (List.filter (fun kv => has (Exec.init (ν := Val Obj) spec.1 spec.2).args kv.1) kw))
        (List.filter (fun kv => kv.2.isSome) (Exec.init spec.1 spec.2).opts))
        (List.filter (fun kv => has (Exec.init (ν := Val Obj) spec.1 spec.2).opts kv.1) kw)) with
    | error e' =>
      rw [hm] at h
      cases h
      intro hh; cases hh
    | ok o =>
      rw [hm] at h
      cases h

theorem parseSub_refines (n : Nat) : Refines (parseSub float cfg vars n) (parseSub float cfg vars (n + 1)) := by
  induction n with
  | zero => intro a h; exact absurd rfl h
  | succ n ih =>
    intro a hne
    rw [parseSub] at hne ⊢
    rw [parseSub]
    cases hp : pmatch cfg a with
    | error e => rfl
    | ok r =>
      obtain ⟨items, ty⟩ := r
      simp only [hp] at hne ⊢
      cases hm : get? execMeta (String.ofList ty) with
      | none => rfl
      | some spec =>
        simp only [hm] at hne ⊢
        have : itemVals float vars (parseSub float cfg vars (n + 1)) items = itemVals float vars (parseSub float cfg vars n) items := by
          apply itemVals_refines ih
          intro hh
          rw [hh] at hne
          exact hne rfl
        rw [this]

/-- whatever is found below the recursion limit does not depend on the limit -/
theorem parseSub_stable {n m : Nat} (h : n ≤ m) (name : List Char) (hne : parseSub float cfg vars n name ≠ .error .recursionError) :
    parseSub float cfg vars m name = parseSub float cfg vars n name := by
  induction m with
  | zero =>
    rw [Nat.le_zero.mp h]
  | succ m ih =>
    by_cases hm : n = m + 1
    · rw [hm]
    · have := ih (by omega)
      rw [parseSub_refines m name (by rw [this]; exact hne), this]

theorem parseSub_ok {n : Nat} {name : List Char} {o : Obj} : parseSub float cfg vars (n + 1) name = .ok o ↔
    ∃ items ty spec kw, pmatch cfg name = .ok (items, ty) ∧ get? execMeta (String.ofList ty) = some spec ∧
      Kwargs float vars (fun a o => parseSub float cfg vars n a = .ok o) items kw ∧ execSection (String.ofList ty) name spec kw = .ok o := by
  rw [parseSub]
  constructor
  · intro h
    cases hp : pmatch cfg name with
    | error e => rw [hp] at h; cases h
    | ok r =>
      obtain ⟨items, ty⟩ := r
      simp only [hp] at h
      cases hm : get? execMeta (String.ofList ty) with
      | none => simp only [hm] at h; cases h
      | some spec =>
        simp only [hm] at h
        cases hi : itemVals float vars (parseSub float cfg vars n) items with
        | error e => rw [hi] at h; cases h
        | ok kw =>
          rw [hi] at h
          exact ⟨items, ty, spec, kw, rfl, hm, itemVals_ok.mp hi, h⟩
  · rintro ⟨items, ty, spec, kw, hp, hm, hk, he⟩
    simp only [hp, hm, itemVals_ok.mpr hk, he]

theorem built_limit {name : List Char} {o : Obj} {n m : Nat} (h : n ≤ m) (ho : parseSub float cfg vars n name = .ok o) :
    parseSub float cfg vars m name = .ok o := by
  rw [parseSub_stable h name (by rw [ho]; intro hh; cases hh), ho]

theorem forall2_limit {l : List (List Char)} {os : List Obj} (h : List.Forall₂ (Built float cfg vars) l os) :
    ∃ n, List.Forall₂ (fun a o => parseSub float cfg vars n a = .ok o) l os := by
  induction h with
  | nil => exact ⟨0, .nil⟩
  | cons h1 _ ih =>
    obtain ⟨n, hn⟩ := ih
    obtain ⟨m, hm⟩ := h1
    exact ⟨max n m, .cons (built_limit (le_max_right _ _) hm) (hn.imp (fun _ _ h => built_limit (le_max_left _ _) h))⟩

theorem kwargs_limit {items : List (String × List Char)} {kw : PyDict String (Option (Val Obj))}
    (h : Kwargs float vars (Built float cfg vars) items kw) :
    ∃ n, Kwargs float vars (fun a o => parseSub float cfg vars n a = .ok o) items kw := by
  unfold Kwargs at h ⊢
  induction h with
  | nil => exact ⟨0, .nil⟩
  | @cons it kv _ _ h1 _ ih =>
    obtain ⟨n, hn⟩ := ih
    obtain ⟨e, v, e', hm⟩ := h1
    have : ∃ m, Means float vars (fun a o => parseSub float cfg vars m a = .ok o) it.1 it.2 v := by
      obtain ⟨key, val⟩ := it
      simp only at hm ⊢
      cases hm with
      | comps _ objs h1 h2 =>
        obtain ⟨m, hm⟩ := forall2_limit h2
        exact ⟨m, .comps _ _ h1 hm⟩
      | ref _ _ tag w h1 h2 h3 => exact ⟨0, .ref _ _ tag w h1 h2 h3⟩
      | num _ _ x h1 h2 h3 h4 => exact ⟨0, .num _ _ x h1 h2 h3 h4⟩
      | text _ _ e h1 h2 h3 h4 => exact ⟨0, .text _ _ e h1 h2 h3 h4⟩
    obtain ⟨m, hm⟩ := this
    refine ⟨max n m, .cons ⟨e, v, e', hm.mono (fun _ _ h => built_limit (le_max_right _ _) h)⟩ ?_⟩
    exact hn.imp (fun _ _ ⟨h1, v, h2, h3⟩ => ⟨h1, v, h2, h3.mono (fun _ _ h => built_limit (le_max_left _ _) h)⟩)

theorem built_iff {name : List Char} {o : Obj} : Built float cfg vars name o ↔
    ∃ items ty spec kw, pmatch cfg name = .ok (items, ty) ∧ get? execMeta (String.ofList ty) = some spec ∧
      Kwargs float vars (Built float cfg vars) items kw ∧ execSection (String.ofList ty) name spec kw = .ok o := by
  constructor
  · rintro ⟨n, hn⟩
    cases n with
    | zero => cases hn
    | succ n =>
      obtain ⟨items, ty, spec, kw, h1, h2, h3, h4⟩ := parseSub_ok.mp hn
      exact ⟨items, ty, spec, kw, h1, h2, h3.mono (fun a o h => ⟨n, h⟩), h4⟩
  · rintro ⟨items, ty, spec, kw, h1, h2, h3, h4⟩
    obtain ⟨n, hn⟩ := kwargs_limit h3
    exact ⟨n + 1, parseSub_ok.mpr ⟨items, ty, spec, kw, h1, h2, hn, h4⟩⟩

theorem kwargs_keys {B : List Char → Obj → Prop} {items : List (String × List Char)} {kw : PyDict String (Option (Val Obj))}
    (h : Kwargs float vars B items kw) : kw.map Prod.fst = items.map Prod.fst := by
  unfold Kwargs at h
  induction h with
  | nil => rfl
  | cons h1 _ ih => rw [List.map_cons, List.map_cons, ih, h1.1]

/-! ## The object made -/

/-- the section types that stand for models of the thermal conductivity; the others are scattering mechanisms -/
def modelTypes : List String := ["DEBYE", "SLACK", "BIPOLAR", "POWERLAW", "KLEMENS"]

theorem kappaTypes_eq : kappaTypes = modelTypes := rfl

/-- what `KappaDebye` accepts as components: scattering mechanisms with different names, models with different names, and at least
one scattering mechanism -/
def DebyeList (l : List Obj) : Prop :=
  ((l.filter fun o => !(o.ty ∈ modelTypes)).map Obj.tag).Nodup ∧ ((l.filter fun o => o.ty ∈ modelTypes).map Obj.tag).Nodup ∧
  ∃ o ∈ l, o.ty ∉ modelTypes

theorem debyeOk_iff (l : List Obj) : debyeOk l = true ↔ DebyeList l := by
  unfold debyeOk DebyeList
  rw [kappaTypes_eq]
  rw [Bool.and_eq_true, Bool.and_eq_true, decide_eq_true_iff, decide_eq_true_iff, and_assoc]
  refine and_congr_right (fun _ => and_congr_right (fun _ => ?_))
  rw [Bool.not_eq_true', ← Bool.not_eq_true, List.isEmpty_iff, List.filter_eq_nil_iff]
  push Not
  simp

theorem execSection_ok {ty : String} {name : List Char} {spec : List String × List String} {kw : PyDict String (Option (Val Obj))}
    {o : Obj} (hkw : WF kw) :
    execSection ty name spec kw = .ok o ↔
      ∃ a, (Exec.init spec.1 spec.2).callArgs kw = .ok a ∧ o = .mk ty name a ∧
        (ty = "DEBYE" → ∃ l, get? a "components" = some (some (.comps l)) ∧ DebyeList l) := by
  unfold execSection
  obtain ⟨_, h2, h3, h4⟩ := C11_exec_outcome (Exec.init spec.1 spec.2) (makeObj ty name) kw
  constructor
  · intro h
    cases hc : (Exec.init spec.1 spec.2).callArgs kw with
    | error e => rw [h2 e hc] at h; cases h
    | ok a =>
      cases hm : makeObj ty name a with
      | error e => rw [h4 a e hc hm] at h; cases h
      | ok r =>
        rw [h3 a r hc hm] at h
        cases h
        refine ⟨a, rfl, ?_⟩
        unfold makeObj at hm
        by_cases ht : ty = "DEBYE"
        · rw [if_pos ht] at hm
          cases hg : get? a "components" with
          | none => rw [hg] at hm; cases hm
          | some v =>
            rw [hg] at hm
            cases v with
            | none => cases hm
            | some v =>
              cases v with
              | comps l =>
                simp only at hm
                split_ifs at hm with hd
                · cases hm
                  exact ⟨rfl, fun _ => ⟨l, rfl, (debyeOk_iff l).mp hd⟩⟩
              | num x => cases hm
              | ref v => cases hm
              | text t => cases hm
        · rw [if_neg ht] at hm
          cases hm
          exact ⟨rfl, fun h => absurd h ht⟩
  · rintro ⟨a, hc, rfl, hd⟩
    apply h3 a _ hc
    unfold makeObj
    by_cases ht : ty = "DEBYE"
    · obtain ⟨l, hl, hdl⟩ := hd ht
      rw [if_pos ht, hl]
      simp only [(debyeOk_iff l).mpr hdl, if_true]
    · rw [if_neg ht]

/-- option names are distinct in every section, as in every configuration that can be read -/
def Distinct (cfg : Config) : Prop := ∀ p ∈ cfg, (p.2.map Prod.fst).Nodup

theorem pmatch_mem {α : Type} : ∀ {cfg : List (List Char × α)} {name : List Char} {items : α} {ty : List Char},
    pmatch cfg name = .ok (items, ty) → ∃ sect, (sect, items) ∈ cfg
  | [], _, _, _, h => by cases h
  | (sect, c) :: rest, name, items, ty, h => by
    rw [pmatch] at h
    split_ifs at h with h1 h2
    · cases h; exact ⟨sect, List.mem_cons_self⟩
    · cases h; exact ⟨sect, List.mem_cons_self⟩
    · obtain ⟨s, hs⟩ := pmatch_mem h
      exact ⟨s, List.mem_cons_of_mem _ hs⟩

theorem kwargs_wf (hcfg : Distinct cfg) {name : List Char} {items : List (String × List Char)} {ty : List Char}
    (hp : pmatch cfg name = .ok (items, ty)) {B : List Char → Obj → Prop} {kw : PyDict String (Option (Val Obj))}
    (hk : Kwargs float vars B items kw) : WF kw := by
  obtain ⟨s, hs⟩ := pmatch_mem hp
  have := hcfg _ hs
  unfold WF keys
  rw [kwargs_keys hk]
  exact this

theorem callArgs_first (spec : List String × List String) (kw : PyDict String (Option (Val Obj))) (hkw : WF kw) :
    ((∃ a, (Exec.init spec.1 spec.2).callArgs kw = .ok a) ↔ ∀ k ∈ spec.1, ∃ v, get? kw k = some (some v)) ∧
    (∀ e, (Exec.init spec.1 spec.2).callArgs kw = .error e → ∃ names, e = .valueErrorNaming names ∧ names.Nodup ∧
        ∀ k, k ∈ names ↔ k ∈ spec.1 ∧ ¬ ∃ v, get? kw k = some (some v)) ∧
    (∀ a, (Exec.init spec.1 spec.2).callArgs kw = .ok a → ∀ k, get? a k = if k ∈ spec.1 ∨ k ∈ spec.2 then get? kw k else none) := by
  have h1 := C11_exec_missing spec.1 spec.2 [] kw hkw
  have hl : ∀ k, lastWrite (ν := Val Obj) [] k = none := fun k => rfl
  simp only [hl, Option.or_none] at h1
  refine ⟨h1.1, h1.2, fun a ha k => ?_⟩
  obtain ⟨_, a2, a3, a4⟩ := C10_exec_latest spec.1 spec.2 [] kw hkw a ha
  simp only [hl, Option.or_none] at a2
  simp only [hl, Option.filter_none, Option.or_none] at a3
  by_cases h1 : k ∈ spec.1
  · rw [if_pos (.inl h1)]
    exact a2 k h1
  · by_cases h2 : k ∈ spec.2
    · rw [if_pos (.inr h2)]
      exact a3 k h1 h2
    · rw [if_neg (by tauto)]
      exact a4 k h1 h2

/-- **C96** What is built from a name: the first section for that name decides the type, the tag is the name, every argument the type
knows gets the meaning of the option of the same name (components are built the same way, in the order listed), every required
argument is present, and a Debye model has scattering mechanisms with different names among its components. -/
theorem C96_built (hcfg : Distinct cfg) (name : List Char) (o : Obj) (h : Built float cfg vars name o) :
    ∃ items ty req opt kw, pmatch cfg name = .ok (items, ty) ∧ get? execMeta (String.ofList ty) = some (req, opt) ∧
      Kwargs float vars (Built float cfg vars) items kw ∧ o.ty = String.ofList ty ∧ o.tag = name ∧
      (∀ k ∈ req, ∃ v, get? kw k = some (some v)) ∧
      (∀ k, get? o.args k = if k ∈ req ∨ k ∈ opt then get? kw k else none) ∧
      (o.ty = "DEBYE" → ∃ l, get? o.args "components" = some (some (.comps l)) ∧ DebyeList l) := by
  obtain ⟨items, ty, spec, kw, h1, h2, h3, h4⟩ := built_iff.mp h
  have hkw := kwargs_wf hcfg h1 h3
  obtain ⟨a, ha, rfl, hd⟩ := (execSection_ok hkw).mp h4
  obtain ⟨c1, _, c3⟩ := callArgs_first spec kw hkw
  exact ⟨items, ty, spec.1, spec.2, kw, h1, h2, h3, rfl, rfl, c1.mp ⟨a, ha⟩, c3 a ha, hd⟩

/-- **C96** Conversely, whenever the type is known, all options have a meaning, all required arguments are among them and (for a Debye
model) the components fit, an object is built. -/
theorem C96_succeeds (hcfg : Distinct cfg) (name : List Char) (items : List (String × List Char)) (ty : List Char)
    (req opt : List String) (kw : PyDict String (Option (Val Obj))) (h1 : pmatch cfg name = .ok (items, ty))
    (h2 : get? execMeta (String.ofList ty) = some (req, opt)) (h3 : Kwargs float vars (Built float cfg vars) items kw)
    (h4 : ∀ k ∈ req, ∃ v, get? kw k = some (some v))
    (h5 : String.ofList ty = "DEBYE" → ∃ l, get? kw "components" = some (some (.comps l)) ∧ DebyeList l) :
    ∃ o, Built float cfg vars name o := by
  have hkw := kwargs_wf hcfg h1 h3
  obtain ⟨c1, _, c3⟩ := callArgs_first (req, opt) kw hkw
  obtain ⟨a, ha⟩ := c1.mpr h4
  refine ⟨_, built_iff.mpr ⟨items, ty, (req, opt), kw, h1, h2, h3, (execSection_ok hkw).mpr ⟨a, ha, rfl, fun hd => ?_⟩⟩⟩
  obtain ⟨l, hl, hdl⟩ := h5 hd
  refine ⟨l, ?_, hdl⟩
  have hreq : "components" ∈ req := by
    rw [hd] at h2
    have : get? execMeta "DEBYE" = some (["vs", "td", "components"], []) := by decide
    rw [this] at h2
    cases h2
    decide
  rw [c3 a ha, if_pos (.inl hreq)]
  exact hl

/-- **C96** The object does not depend on anything but the configuration: a name stands for at most one object. -/
theorem C96_unique (name : List Char) (o o' : Obj) (h : Built float cfg vars name o) (h' : Built float cfg vars name o') : o = o' := by
  obtain ⟨n, hn⟩ := h
  obtain ⟨m, hm⟩ := h'
  have h1 := built_limit (le_max_left n m) hn
  have h2 := built_limit (le_max_right n m) hm
  rw [h1] at h2
  cases h2
  rfl

/-! ## Errors -/

/-- building fails with a given error (other than running into the recursion limit), for some (hence every larger) limit -/
def Fails (float : List Char → Except PyErr ℝ) (cfg : Config) (vars : List (List Char × VarVal)) (name : List Char) (e : PyErr) : Prop :=
  e ≠ .recursionError ∧ ∃ n, ∀ m, n ≤ m → parseSub float cfg vars m name = .error e

theorem fails_of {n : Nat} {name : List Char} {e : PyErr} (he : e ≠ .recursionError) (h : parseSub float cfg vars n name = .error e) :
    Fails float cfg vars name e :=
  ⟨he, n, fun m hm => by rw [parseSub_stable hm name (by rw [h]; intro hh; cases hh; exact he rfl), h]⟩

/-- **C96** A name for which there is no section, and a section of unknown type. -/
theorem C96_unknown (name : List Char) :
    ((∀ p ∈ cfg, ¬ SectionMatches name p.1) → Fails float cfg vars name .noSectionError) ∧
    (∀ items ty, pmatch cfg name = .ok (items, ty) → get? execMeta (String.ofList ty) = none → Fails float cfg vars name .typeError) := by
  constructor
  · intro h
    have := (C09_pmatch_error cfg name).mpr h
    refine fails_of (n := 1) (by intro hh; cases hh) ?_
    rw [parseSub, this]
  · intro items ty h1 h2
    refine fails_of (n := 1) (by intro hh; cases hh) ?_
    rw [parseSub, h1]
    simp only [h2]

theorem itemVals_first_error {sub : List Char → Except PyErr Obj} {key : String} {val : List Char} {e : PyErr}
    (he : itemVal float vars sub key val = .error e) (post : List (String × List Char)) :
    ∀ {pre : List (String × List Char)} {kw : PyDict String (Option (Val Obj))},
      Kwargs float vars (fun a o => sub a = .ok o) pre kw → itemVals float vars sub (pre ++ (key, val) :: post) = .error e
  | [], _, _ => by
    rw [List.nil_append, itemVals, he]
  | (k, v) :: pre, kw, h => by
    cases h with
    | @cons _ kv _ l h1 h2 =>
      obtain ⟨_, w, _, h1⟩ := h1
      rw [List.cons_append, itemVals, itemVal_ok.mpr h1]
      simp only
      rw [itemVals_first_error he post h2]

/-- **C96** The first option that has no meaning decides: an empty value, a reference to an unknown variable, or a component that
cannot be built, whose error is passed on. -/
theorem C96_bad_option (name : List Char) (pre post : List (String × List Char)) (key : String) (val ty : List Char)
    (spec : List String × List String) (kw : PyDict String (Option (Val Obj)))
    (h1 : pmatch cfg name = .ok (pre ++ (key, val) :: post, ty)) (h2 : get? execMeta (String.ofList ty) = some spec)
    (h3 : Kwargs float vars (Built float cfg vars) pre kw) :
    (Blank val → Fails float cfg vars name .valueError) ∧
    (∀ tag, key ≠ "components" → RefText key.toList val tag → get? vars tag = none → Fails float cfg vars name .valueError) ∧
    (∀ before c after objs e, key = "components" → parseList val = before ++ c :: after →
      List.Forall₂ (Built float cfg vars) before objs → Fails float cfg vars c e → Fails float cfg vars name e) := by
  obtain ⟨n, hn⟩ := kwargs_limit h3
  have main : ∀ m e, n ≤ m → e ≠ .recursionError → itemVal float vars (parseSub float cfg vars m) key val = .error e →
      Fails float cfg vars name e := by
    intro m e hm he hi
    refine fails_of (n := m + 1) he ?_
    rw [parseSub]
    simp only [h1, h2]
    rw [itemVals_first_error hi post (hn.mono (fun _ _ h => built_limit hm h))]
  refine ⟨fun hb => ?_, fun tag hk hr hg => ?_, fun before c after objs e hk hl hb hf => ?_⟩
  · apply main n _ (le_refl _) (by intro hh; cases hh)
    unfold itemVal
    rw [if_pos ((strip_empty val).mpr hb)]
  · apply main n _ (le_refl _) (by intro hh; cases hh)
    unfold itemVal
    have hnb : ¬ Blank val := by
      obtain ⟨s0, s1, w, s2, rfl, _⟩ := hr
      intro hb
      have := hb '@' (by simp)
      exact absurd this (by decide)
    rw [if_neg (fun h => hnb ((strip_empty val).mp h)), if_neg hk, (refTag_iff _ _ _).mpr hr]
    simp only [hg]
  · obtain ⟨he, m1, hm1⟩ := hf
    obtain ⟨m2, hm2⟩ := forall2_limit hb
    apply main (max n (max m1 m2)) e (le_max_left _ _) he
    have hle1 : m1 ≤ max n (max m1 m2) := le_trans (le_max_left _ _) (le_max_right _ _)
    have hle2 : m2 ≤ max n (max m1 m2) := le_trans (le_max_right _ _) (le_max_right _ _)
    have hmap : (parseList val).mapM (parseSub float cfg vars (max n (max m1 m2))) = .error e := by
      rw [hl]
      have hb' := hm2.imp (fun _ _ h => built_limit hle2 h)
      have hc := hm1 _ hle1
      clear hl hm2 hb
      revert hb'
      generalize max n (max m1 m2) = M at hc
      intro hb'
      induction hb' with
      | nil =>
        rw [List.nil_append, List.mapM_cons, hc]
        rfl
      | cons h1 _ ih =>
        rw [List.cons_append, List.mapM_cons, h1]
        simp only [ih]
        rfl
    unfold itemVal
    have hnb : ¬ Blank val := by
      intro hb
      have : c ∈ parseList val := by rw [hl]; simp
      have ht : parseList val = [] := by
        rw [C06_parse_list]
        have key : ∀ l : List Char, Blank l → Tokenises isSep l [] := by
          intro l
          induction l with
          | nil => intro _; exact .nil
          | cons d l ih =>
            intro hl
            exact .sep d l [] (by unfold isSep; rw [hl d List.mem_cons_self]; simp) (ih (fun c hc => hl c (List.mem_cons_of_mem _ hc)))
        exact key val hb
      rw [ht] at this
      cases this
    rw [if_neg (fun h => hnb ((strip_empty val).mp h)), if_pos hk, hmap]

/-- **C96** When every option has a meaning but required arguments are missing, the error names exactly the missing ones; a Debye model
whose components do not fit is refused. -/
theorem C96_bad_arguments (hcfg : Distinct cfg) (name : List Char) (items : List (String × List Char)) (ty : List Char)
    (req opt : List String) (kw : PyDict String (Option (Val Obj))) (h1 : pmatch cfg name = .ok (items, ty))
    (h2 : get? execMeta (String.ofList ty) = some (req, opt)) (h3 : Kwargs float vars (Built float cfg vars) items kw) :
    ((∃ k ∈ req, get? kw k = none) → ∃ names, Fails float cfg vars name (.valueErrorNaming names) ∧
      ∀ k, k ∈ names ↔ k ∈ req ∧ get? kw k = none) ∧
    ((∀ k ∈ req, ∃ v, get? kw k = some (some v)) → String.ofList ty = "DEBYE" →
      (∀ l, get? kw "components" = some (some (.comps l)) → ¬ DebyeList l) → Fails float cfg vars name .runtimeError) := by
  have hkw := kwargs_wf hcfg h1 h3
  obtain ⟨c1, c2, c3⟩ := callArgs_first (req, opt) kw hkw
  obtain ⟨n, hn⟩ := kwargs_limit h3
  have hnone : ∀ k, (¬ ∃ v, get? kw k = some (some v)) ↔ get? kw k = none := by
    intro k
    constructor
    · intro h
      cases hg : get? kw k with
      | none => rfl
      | some v =>
        exfalso
        have hm := get?_mem hg
        obtain ⟨it, _, hit⟩ := (forall2_mem_right h3) _ hm
        obtain ⟨_, w, hw, _⟩ := hit
        exact h ⟨w, by rw [hg]; simpa using hw⟩
    · rintro h ⟨v, hv⟩
      rw [h] at hv
      cases hv
  have main : ∀ e, execSection (String.ofList ty) name (req, opt) kw = .error e → Fails float cfg vars name e := by
    intro e he
    refine fails_of (n := n + 1) (execSection_error he) ?_
    rw [parseSub]
    simp only [h1, h2, itemVals_ok.mpr hn, he]
  obtain ⟨_, x2, x3, x4⟩ := C11_exec_outcome (Exec.init req opt) (makeObj (String.ofList ty) name) kw
  constructor
  · rintro ⟨k, hk, hkn⟩
    cases hc : (Exec.init req opt).callArgs kw with
    | ok a =>
      obtain ⟨v, hv⟩ := c1.mp ⟨a, hc⟩ k hk
      rw [hkn] at hv
      cases hv
    | error e =>
      obtain ⟨names, rfl, _, hn'⟩ := c2 e hc
      refine ⟨names, main _ (x2 _ hc), fun k => ?_⟩
      rw [hn' k, hnone]
  · intro hall hd hno
    obtain ⟨a, ha⟩ := c1.mpr hall
    have hreq : "components" ∈ req := by
      rw [hd] at h2
      have : get? execMeta "DEBYE" = some (["vs", "td", "components"], []) := by decide
      rw [this] at h2
      cases h2
      decide
    have hm : ∃ e, makeObj (String.ofList ty) name a = .error e := by
      unfold makeObj
      rw [if_pos hd, c3 a ha, if_pos (.inl hreq)]
      cases hg : get? kw "components" with
      | none => exact ⟨_, rfl⟩
      | some v =>
        cases v with
        | none => exact ⟨_, rfl⟩
        | some v =>
          cases v with
          | num x => exact ⟨_, rfl⟩
          | ref x => exact ⟨_, rfl⟩
          | text x => exact ⟨_, rfl⟩
          | comps l =>
            have := hno l hg
            refine ⟨.valueError, ?_⟩
            simp only
            rw [if_neg (fun h => this ((debyeOk_iff l).mp h))]
    obtain ⟨e, hm⟩ := hm
    exact main _ (x4 a e ha hm)

/-! ## Recursion -/

theorem uses_smaller {a b : List Char} (hu : Uses cfg a b) {n : Nat} {o : Obj} (h : parseSub float cfg vars (n + 1) a = .ok o) :
    ∃ o', parseSub float cfg vars n b = .ok o' := by
  obtain ⟨items, ty, val, hp, hm, hb⟩ := hu
  obtain ⟨items', ty', spec, kw, hp', _, hk, _⟩ := parseSub_ok.mp h
  rw [hp] at hp'
  cases hp'
  obtain ⟨kv, _, _, v, _, hv⟩ := forall2_mem_left hk _ hm
  cases hv with
  | comps _ objs _ h2 =>
    obtain ⟨o', _, ho'⟩ := forall2_mem_left h2 _ hb
    exact ⟨o', ho'⟩
  | ref _ _ _ _ h => exact absurd rfl h
  | num _ _ _ h => exact absurd rfl h
  | text _ _ _ h => exact absurd rfl h

/-- **C96** A model that is, directly or through others, one of its own components is never built: every recursion limit is
exceeded or an error occurs before. -/
theorem C96_cycle (a : List Char) (h : Relation.TransGen (Uses cfg) a a) (o : Obj) : ¬ Built float cfg vars a o := by
  have step : ∀ b, Relation.TransGen (Uses cfg) a b → ∀ n o, parseSub float cfg vars n a = .ok o → ∃ m, m < n ∧ ∃ o', parseSub float cfg vars m b = .ok o' := by
    intro b hb
    induction hb with
    | single hu =>
      intro n o ho
      cases n with
      | zero => cases ho
      | succ n => exact ⟨n, Nat.lt_succ_self n, uses_smaller hu ho⟩
    | tail _ hu ih =>
      intro n o ho
      obtain ⟨m, hm, o', ho'⟩ := ih n o ho
      cases m with
      | zero => cases ho'
      | succ m => exact ⟨m, by omega, uses_smaller hu ho'⟩
  have none : ∀ n o, parseSub float cfg vars n a ≠ .ok o := by
    intro n
    induction n using Nat.strong_induction_on with
    | _ n ih =>
      intro o ho
      obtain ⟨m, hm, o', ho'⟩ := step a h n o ho
      exact ih m hm o' ho'
  rintro ⟨n, hn⟩
  exact none n o hn

/-- all component names that occur in a configuration -/
def allNames (cfg : Config) : List (List Char) := cfg.flatMap fun p => p.2.flatMap fun it => parseList it.2

theorem uses_mem {a b : List Char} (hu : Uses cfg a b) : b ∈ allNames cfg := by
  obtain ⟨items, ty, val, hp, hm, hb⟩ := hu
  obtain ⟨s, hs⟩ := pmatch_mem hp
  unfold allNames
  rw [List.mem_flatMap]
  refine ⟨_, hs, ?_⟩
  rw [List.mem_flatMap]
  exact ⟨_, hm, hb⟩

theorem mapM_recursion {n : Nat} {l : List (List Char)}
    (h : ∀ b ∈ l, parseSub float cfg vars n b ≠ .error .recursionError) : l.mapM (parseSub float cfg vars n) ≠ .error .recursionError := by
  intro hh
  obtain ⟨a, ha, he⟩ := mapM_error hh
  exact h a ha he

theorem itemVals_recursion {n : Nat} : ∀ {items : List (String × List Char)},
    (∀ val, ("components", val) ∈ items → ∀ b ∈ parseList val, parseSub float cfg vars n b ≠ .error .recursionError) →
    itemVals float vars (parseSub float cfg vars n) items ≠ .error .recursionError
  | [], _ => by intro hh; cases hh
  | (key, val) :: rest, h => by
    have ih := itemVals_recursion (fun v hv => h v (List.mem_cons_of_mem _ hv))
    intro hh
    rw [itemVals] at hh
    cases hi : itemVal float vars (parseSub float cfg vars n) key val with
    | ok v =>
      rw [hi] at hh
      simp only at hh
      cases hr : itemVals float vars (parseSub float cfg vars n) rest with
      | ok l => rw [hr] at hh; cases hh
      | error e =>
        rw [hr] at hh
        cases hh
        exact ih hr
    | error e =>
      rw [hi] at hh
      cases hh
      unfold itemVal at hi
      split_ifs at hi with h1 h2
      · cases hi
      · subst h2
        cases hm : (parseList val).mapM (parseSub float cfg vars n) with
        | ok l => rw [hm] at hi; cases hi
        | error e =>
          rw [hm] at hi
          cases hi
          exact mapM_recursion (h val List.mem_cons_self) hm
      · cases hr : refTag key.toList val with
        | some tag =>
          rw [hr] at hi
          simp only at hi
          cases hg : get? vars tag with
          | none => rw [hg] at hi; cases hi
          | some v => rw [hg] at hi; cases hi
        | none =>
          rw [hr] at hi
          simp only at hi
          cases hf : float val with
          | ok x => rw [hf] at hi; cases hi
          | error e => rw [hf] at hi; cases hi

theorem finishes_step {a : List Char}
    (h : ∀ b, Uses cfg a b → ∃ n, parseSub float cfg vars n b ≠ .error .recursionError) :
    ∃ n, parseSub float cfg vars n a ≠ .error .recursionError := by
  have bound : ∀ l : List (List Char), (∀ b ∈ l, ∃ n, parseSub float cfg vars n b ≠ .error .recursionError) →
      ∃ n, ∀ b ∈ l, ∀ m, n ≤ m → parseSub float cfg vars m b ≠ .error .recursionError := by
    intro l
    induction l with
    | nil => intro _; exact ⟨0, fun b hb => by cases hb⟩
    | cons c l ih =>
      intro hl
      obtain ⟨n1, h1⟩ := ih (fun b hb => hl b (List.mem_cons_of_mem _ hb))
      obtain ⟨n2, h2⟩ := hl c List.mem_cons_self
      refine ⟨max n1 n2, fun b hb m hm => ?_⟩
      rcases List.mem_cons.mp hb with rfl | hb
      · rw [parseSub_stable (le_trans (le_max_right _ _) hm) b h2]
        exact h2
      · exact h1 b hb m (le_trans (le_max_left _ _) hm)
  cases hp : pmatch cfg a with
  | error e =>
    refine ⟨1, ?_⟩
    rw [parseSub, hp]
    intro hh
    cases hh
    have : ∀ (l : Config), pmatch l a ≠ .error .recursionError := by
      intro l
      induction l with
      | nil => intro hh; cases hh
      | cons q l ih =>
        obtain ⟨s, c⟩ := q
        rw [pmatch]
        split_ifs
        · intro hh; cases hh
        · intro hh; cases hh
        · exact ih
    exact this cfg hp
  | ok r =>
    obtain ⟨items, ty⟩ := r
    obtain ⟨n, hn⟩ := bound (items.flatMap fun it => if it.1 = "components" then parseList it.2 else []) (by
      intro b hb
      rw [List.mem_flatMap] at hb
      obtain ⟨⟨key, val⟩, hm, hb⟩ := hb
      simp only at hb
      split_ifs at hb with hk
      · subst hk
        exact h b ⟨items, ty, val, hp, hm, hb⟩
      · cases hb)
    refine ⟨n + 1, ?_⟩
    rw [parseSub]
    simp only [hp]
    cases hs : get? execMeta (String.ofList ty) with
    | none => intro hh; cases hh
    | some spec =>
      simp only
      have hi := itemVals_recursion (float := float) (cfg := cfg) (vars := vars) (n := n) (items := items) (by
        intro val hm b hb
        apply hn b ?_ n (le_refl _)
        rw [List.mem_flatMap]
        exact ⟨_, hm, by rw [if_pos rfl]; exact hb⟩)
      cases hv : itemVals float vars (parseSub float cfg vars n) items with
      | error e =>
        simp only
        intro hh
        cases hh
        exact hi hv
      | ok kw =>
        simp only
        intro hh
        exact execSection_error hh rfl

/-- **C96** When no model that can be reached from a name is one of its own components, building it always ends, whatever the
configuration: with an object, or with an error other than the recursion limit, and both are the same for all larger limits. -/
theorem C96_finishes (name : List Char)
    (h : ∀ a, Relation.ReflTransGen (Uses cfg) name a → ¬ Relation.TransGen (Uses cfg) a a) :
    (∃ o, Built float cfg vars name o) ∨ ∃ e, Fails float cfg vars name e := by
  have main : ∃ n, parseSub float cfg vars n name ≠ .error .recursionError := by
    let S := {x : List Char // x ∈ name :: allNames cfg}
    haveI : Finite S := (name :: allNames cfg).finite_toSet.to_subtype
    let r : S → S → Prop := fun x y => Relation.ReflTransGen (Uses cfg) name y.1 ∧ Relation.TransGen (Uses cfg) y.1 x.1
    haveI : IsTrans S r := ⟨fun x y z ⟨_, h2⟩ ⟨h3, h4⟩ => ⟨h3, h4.trans h2⟩⟩
    haveI : Std.Irrefl r := ⟨fun x ⟨h1, h2⟩ => h x.1 h1 h2⟩
    have wf : WellFounded r := Finite.wellFounded_of_trans_of_irrefl r
    have : ∀ x : S, Relation.ReflTransGen (Uses cfg) name x.1 → ∃ n, parseSub float cfg vars n x.1 ≠ .error .recursionError := by
      intro x
      induction x using wf.induction with
      | _ x ih =>
        intro hx
        apply finishes_step
        intro b hb
        exact ih ⟨b, List.mem_cons_of_mem _ (uses_mem hb)⟩ ⟨hx, .single hb⟩ (hx.tail hb)
    exact this ⟨name, List.mem_cons_self⟩ .refl
  obtain ⟨n, hn⟩ := main
  cases hp : parseSub float cfg vars n name with
  | ok o => exact .inl ⟨o, n, hp⟩
  | error e => exact .inr ⟨e, fails_of (by rintro rfl; exact hn hp) hp⟩

/-- **C96** (finding) Whether a model is treated as a Debye model depends on the name of its section alone, not on its type. -/
theorem C96_debye_by_name (hcfg : Distinct cfg) (name : List Char) (o : Obj) (h : Built float cfg vars name o) :
    debyeResults o = true ↔ name = "DEBYE".toList := by
  obtain ⟨_, _, _, _, _, _, _, _, _, ht, _⟩ := C96_built hcfg name o h
  unfold debyeResults
  rw [decide_eq_true_iff, ht]

/-! ### Examples -/

/-- a Debye model under another name, and a Slack model that is called DEBYE -/
def exampleCfg : Config := [
  ("entry".toList, [("model", "M".toList)]),
  ("M.DEBYE".toList, [("vs", "@".toList), ("td", "@ theta".toList), ("note", "unknown options are ignored".toList),
    ("components", "PH, GB".toList)]),
  ("PH".toList, [("gm", "x".toList), ("vs", "@".toList), ("Va", "x".toList), ("Ma", "x".toList)]),
  ("GB".toList, [("vs", "@".toList), ("L", "x".toList)]),
  ("DEBYE.SLACK".toList, [("td", "x".toList), ("gm", "x".toList), ("Ma", "x".toList), ("Va", "x".toList), ("A", "Julian".toList)]),
  ("P.DEBYE".toList, [("vs", "@".toList), ("td", "@theta".toList), ("components", "PH Q".toList)]),
  ("Q.DEBYE".toList, [("vs", "@".toList), ("td", "@theta".toList), ("components", "GB P".toList)])]

noncomputable def exampleVars : List (List Char × VarVal) := [("vs".toList, .const 3), ("theta".toList, .var 0)]

example : Distinct exampleCfg := by unfold Distinct exampleCfg; decide

example : ∃ o, Built (fun _ => .error .valueError) exampleCfg exampleVars "M".toList o ∧ o.ty = "DEBYE" ∧ debyeResults o = false ∧
    get? o.args "note" = none ∧ (keys o.args) = ["vs", "td", "components"] :=
  ⟨_, ⟨2, rfl⟩, rfl, rfl, rfl, rfl⟩

example : ∃ o, Built (fun _ => .error .valueError) exampleCfg exampleVars "DEBYE".toList o ∧ o.ty = "SLACK" ∧ debyeResults o = true :=
  ⟨_, ⟨1, rfl⟩, rfl, rfl⟩

example : Relation.TransGen (Uses exampleCfg) "P".toList "P".toList :=
  .tail (.single ⟨_, _, _, rfl, .tail _ (.tail _ (.head _)), .tail _ (.head _)⟩)
    ⟨_, _, _, rfl, .tail _ (.tail _ (.head _)), .tail _ (.head _)⟩

end TEflow.KappaCfg
