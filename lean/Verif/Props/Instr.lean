import Mathlib.Data.List.Forall2
import Mathlib.Data.List.Infix
import Mathlib.Algebra.Field.Rat
import Verif.Spec.Instr
import Verif.Props.DataFile

/-! # Properties C25–C27: instrument files and `parse_TEfile` -/

set_option linter.unusedSimpArgs false
set_option linter.unusedSectionVars false

namespace TEflow
open Loader PyDict

section Text

theorem splitOnChar_ne (sep : Char) (s : List Char) : splitOnChar sep s ≠ [] := by
  cases s with
  | nil => simp [splitOnChar]
  | cons c r => unfold splitOnChar; split_ifs; · simp
                split <;> simp

theorem splitOnChar_pieces (sep : Char) (s : List Char) : Pieces sep s (splitOnChar sep s) := by
  induction s with
  | nil => simp [Pieces, splitOnChar]
  | cons c r ih =>
    obtain ⟨h1, h2, h3⟩ := ih
    unfold splitOnChar
    split_ifs with hc
    · subst hc
      refine ⟨by simp, by simpa using h2, ?_⟩
      cases hs : splitOnChar c r with
      | nil => exact absurd hs h1
      | cons p ps => rw [hs] at h3; rw [← h3]; simp [List.intercalate]
    · cases hs : splitOnChar sep r with
      | nil => exact absurd hs h1
      | cons p ps =>
        rw [hs] at h2 h3
        refine ⟨by simp, ?_, ?_⟩
        · intro q hq
          rcases List.mem_cons.mp hq with rfl | hq
          · intro h; rcases List.mem_cons.mp h with h | h
            · exact hc h.symm
            · exact h2 p (by simp) h
          · exact h2 q (by simp [hq])
        · rw [← h3]
          cases ps <;> simp [List.intercalate]

theorem pieces_unique (sep : Char) (s : List Char) (ps qs : List (List Char)) (hp : Pieces sep s ps) (hq : Pieces sep s qs) :
    ps = qs := by
  induction ps generalizing s qs with
  | nil => exact absurd rfl hp.1
  | cons p ps ih =>
    obtain ⟨_, p2, p3⟩ := hp
    obtain ⟨q1, q2, q3⟩ := hq
    cases qs with
    | nil => exact absurd rfl q1
    | cons q qs =>
      have tw : ∀ (a : List Char) (t : List (List Char)), sep ∉ a →
          ([sep].intercalate (a :: t)).takeWhile (· != sep) = a ∧
          ([sep].intercalate (a :: t)).dropWhile (· != sep) = match t with | [] => [] | b :: t => sep :: [sep].intercalate (b :: t) := by
        intro a t ha
        have hb : ∀ c ∈ a, (c != sep) = true := by intro c hc; simpa using fun h : c = sep => ha (h ▸ hc)
        cases t with
        | nil => 
          have e1 : a.takeWhile (· != sep) = a := by
            have := List.takeWhile_append_of_pos (l₂ := []) hb; simpa using this
          have e2 : a.dropWhile (· != sep) = [] := by
            have := List.dropWhile_append_of_pos (l₂ := []) hb; simpa using this
          simp [List.intercalate, e1, e2]
        | cons b t =>
          simp only [List.intercalate, List.intersperse_cons₂, List.flatten_cons]
          rw [List.takeWhile_append_of_pos hb, List.dropWhile_append_of_pos hb]
          simp
      have t1 := tw p ps (p2 p (by simp))
      have t2 := tw q qs (q2 q (by simp))
      rw [p3] at t1; rw [q3] at t2
      have hpq : p = q := t1.1.symm.trans t2.1
      subst hpq
      have hd := t1.2.symm.trans t2.2
      congr 1
      cases ps with
      | nil => cases qs with
        | nil => rfl
        | cons b qs => simp at hd
      | cons b ps => cases qs with
        | nil => simp at hd
        | cons b' qs =>
          simp only [List.cons.injEq, true_and] at hd
          exact ih _ _ ⟨by simp, fun x hx => p2 x (by simp [hx]), rfl⟩ ⟨by simp, fun x hx => q2 x (by simp [hx]), hd.symm⟩

theorem pieces_iff (sep : Char) (s : List Char) (ps : List (List Char)) : splitOnChar sep s = ps ↔ Pieces sep s ps :=
  ⟨fun h => h ▸ splitOnChar_pieces sep s, fun h => pieces_unique sep s _ _ (splitOnChar_pieces sep s) h⟩

theorem strip_start (p : Char → Bool) (T : List Char) :
    T = T.takeWhile p ++ T.dropWhile p ∧ (∀ c ∈ T.takeWhile p, p c = true) ∧ (∀ c, (T.dropWhile p).head? = some c → p c = false) := by
  refine ⟨List.takeWhile_append_dropWhile.symm, fun c hc => Re.mem_takeWhile hc, fun c hc => ?_⟩
  have := List.head?_dropWhile_not p T; rw [hc] at this; simpa using this

theorem stripped_iff (l m : List Char) : strip l = m ↔ Stripped l m := by
  constructor
  · rintro rfl
    obtain ⟨h1, h2, h3⟩ := strip_start pySpace l
    obtain ⟨core, post, h4, h5, h6⟩ := strip_end pySpace (l.dropWhile pySpace)
    have : strip l = core := by
      unfold strip; rw [h4, rstrip_append_space _ _ h5, rstrip_of_last _ h6]
    rw [this]
    refine ⟨l.takeWhile pySpace, post, ?_, h2, h5, ?_, h6⟩
    · rw [List.append_assoc, ← h4]; exact h1
    · intro c hc; apply h3; rw [h4, List.head?_append, hc]; rfl
  · rintro ⟨a, b, rfl, ha, hb, h1, h2⟩
    unfold strip
    rw [List.append_assoc, List.dropWhile_append_of_pos ha]
    cases m with
    | nil =>
      have e2 : b.dropWhile pySpace = [] := by
        have := List.dropWhile_append_of_pos (l₂ := []) hb; simpa using this
      rw [List.nil_append, e2]; rfl
    | cons c m =>
      rw [List.cons_append, List.dropWhile_cons_of_neg (by simp [h1 c rfl]), ← List.cons_append,
        rstrip_append_space _ _ hb, rstrip_of_last _ h2]

theorem fields_iff (sep : Char) (l : List Char) (fs : List (List Char)) : splitOnChar sep (strip l) = fs ↔ Fields sep l fs := by
  rw [pieces_iff]
  constructor
  · intro h; exact ⟨_, (stripped_iff l _).mp rfl, h⟩
  · rintro ⟨m, h1, h2⟩; rw [(stripped_iff l m).mpr h1]; exact h2

theorem hasSub_iff (sub s : List Char) : hasSub sub s = true ↔ sub <:+: s := by
  unfold hasSub
  rw [List.any_eq_true]
  simp only [List.mem_tails, List.isPrefixOf_iff_prefix]
  constructor
  · rintro ⟨t, ⟨a, rfl⟩, b, rfl⟩; exact ⟨a, b, by simp⟩
  · rintro ⟨a, b, rfl⟩; exact ⟨sub ++ b, ⟨a, by simp⟩, ⟨b, rfl⟩⟩

theorem afterHeader_spec (header : List Char → Bool) (lines : List (List Char)) :
    ((∀ l ∈ lines, header l = false) ↔ afterHeader header lines = .error .ioError) ∧
    (∀ post, afterHeader header lines = .ok post ↔ ∃ pre h, lines = pre ++ h :: post ∧ (∀ l ∈ pre, header l = false) ∧ header h = true) ∧
    (∀ e, afterHeader header lines = .error e → e = .ioError) := by
  induction lines with
  | nil => simp [afterHeader]
  | cons l ls ih =>
    obtain ⟨i1, i2, i3⟩ := ih
    unfold afterHeader
    by_cases hl : header l = true
    · simp only [hl, if_true]
      refine ⟨⟨fun h => absurd (h l (by simp)) (by simp [hl]), by simp⟩, fun post => ?_, by simp⟩
      constructor
      · intro h; injection h with h; subst h; exact ⟨[], l, rfl, by simp, hl⟩
      · rintro ⟨pre, h, h1, h2, h3⟩
        cases pre with
        | nil => simp at h1; rw [h1.2]
        | cons a pre => simp at h1; rw [← h1.1] at h2; have := h2 l (by simp); rw [hl] at this; cases this
    · have hl' : header l = false := by simpa using hl
      simp only [hl', Bool.false_eq_true, if_false]
      refine ⟨by simp [hl', i1], fun post => ?_, i3⟩
      rw [i2]
      constructor
      · rintro ⟨pre, h, rfl, h2, h3⟩; exact ⟨l :: pre, h, rfl, by simpa [hl'] using h2, h3⟩
      · rintro ⟨pre, h, h1, h2, h3⟩
        cases pre with
        | nil => simp at h1; rw [← h1.1] at h3; exact absurd h3 hl
        | cons a pre => simp at h1; exact ⟨pre, h, h1.2, fun x hx => h2 x (by simp [hx]), h3⟩

end Text

section C25
variable {K : Type} (float : List Char → Option K)

theorem ctaLoop_spec (ls : List (List Char)) (d : TRS K) :
    (∀ out, ctaLoop float ls d = .ok out ↔ ∃ rows : List (K × K × K),
      List.Forall₂ (TRSRow float) ((ls.map (fun l => splitOnChar '\t' (strip l))).filter (fun f => 5 ≤ f.length)) rows ∧
      out = ⟨d.T ++ rows.map (·.1), d.R ++ rows.map (·.2.1), d.S ++ rows.map (·.2.2)⟩) ∧
    (∀ e, ctaLoop float ls d = .error e → e = .valueError) := by
  induction ls generalizing d with
  | nil =>
    refine ⟨fun out => ?_, by simp [ctaLoop]⟩
    obtain ⟨dT, dR, dS⟩ := d
    simp [ctaLoop, eq_comm]
  | cons l ls ih =>
    rw [ctaLoop]
    simp only [List.map_cons, List.filter_cons]
    generalize splitOnChar '\t' (strip l) = f
    match f with
    | v0 :: v1 :: v2 :: v3 :: v4 :: r =>
      simp only [List.length_cons, show (5 ≤ r.length + 1 + 1 + 1 + 1 + 1) by omega, decide_true, if_true]
      have herr : ∀ out : TRS K, ¬ (∃ t r s, float v0 = some t ∧ float v1 = some r ∧ float v4 = some s) →
          ((Except.error PyErr.valueError : Except PyErr (TRS K)) = .ok out ↔ ∃ rows : List (K × K × K),
            List.Forall₂ (TRSRow float) ((v0 :: v1 :: v2 :: v3 :: v4 :: r) ::
              (ls.map (fun l => splitOnChar '\t' (strip l))).filter (fun f => 5 ≤ f.length)) rows ∧
            out = ⟨d.T ++ rows.map (·.1), d.R ++ rows.map (·.2.1), d.S ++ rows.map (·.2.2)⟩) := by
        intro out hno
        refine ⟨fun h => (by cases h), ?_⟩
        rintro ⟨rows, h, _⟩
        cases h with
        | cons h _ =>
          obtain ⟨w0, w1, w4, e0, e1, e4, f0, f1, f4⟩ := h
          simp at e0 e1 e4; subst e0 e1 e4
          exact absurd ⟨_, _, _, f0, f1, f4⟩ hno
      cases h0 : float v0 with
      | none => exact ⟨fun out => herr out (by simp [h0]), by simp⟩
      | some t =>
        cases h1 : float v1 with
        | none => exact ⟨fun out => herr out (by simp [h1]), by simp⟩
        | some x =>
          cases h4 : float v4 with
          | none => exact ⟨fun out => herr out (by simp [h4]), by simp⟩
          | some s =>
            simp only
            obtain ⟨i1, i2⟩ := ih ⟨d.T ++ [t], d.R ++ [x], d.S ++ [s]⟩
            refine ⟨fun out => ?_, i2⟩
            rw [i1]
            constructor
            · rintro ⟨rows, h, rfl⟩
              exact ⟨(t, x, s) :: rows, List.Forall₂.cons ⟨v0, v1, v4, rfl, rfl, rfl, h0, h1, h4⟩ h, by simp⟩
            · rintro ⟨rows, h, rfl⟩
              cases h with
              | @cons _ y _ rows h hr =>
                obtain ⟨w0, w1, w4, e0, e1, e4, f0, f1, f4⟩ := h
                simp at e0 e1 e4; subst e0 e1 e4
                rw [h0] at f0; rw [h1] at f1; rw [h4] at f4
                injection f0 with f0; injection f1 with f1; injection f4 with f4
                exact ⟨rows, hr, by simp [f0, f1, f4]⟩
    | [] => simpa using ih d
    | [_] => simpa using ih d
    | [_, _] => simpa using ih d
    | [_, _, _] => simpa using ih d
    | [_, _, _, _] => simpa using ih d

/-- the line names all quantities of the header -/
def HeaderLine (ids : List (List Char)) (l : List Char) : Prop := ∀ i ∈ ids, i <:+: l

theorem parseCtaZem_spec (ids : List (List Char)) (text : List Char) (lines : List (List Char)) (hl : Pieces '\n' text lines) :
    (parseCtaZem float ids text = .error .ioError ↔ ∀ l ∈ lines, ¬ HeaderLine ids l) ∧
    (∀ out, parseCtaZem float ids text = .ok out ↔ ∃ pre h post fss rows, lines = pre ++ h :: post ∧
      (∀ l ∈ pre, ¬ HeaderLine ids l) ∧ HeaderLine ids h ∧ List.Forall₂ (Fields '\t') post fss ∧
      List.Forall₂ (TRSRow float) (fss.filter (fun f => 5 ≤ f.length)) rows ∧
      out = ⟨rows.map (·.1), rows.map (·.2.1), rows.map (·.2.2)⟩) ∧
    (∀ e, parseCtaZem float ids text = .error e → e = .ioError ∨ e = .valueError) := by
  rw [← pieces_iff] at hl
  have hh : ∀ l, (ids.all (fun i => hasSub i l)) = true ↔ HeaderLine ids l := by
    intro l; simp [HeaderLine, hasSub_iff]
  have hh' : ∀ l, (ids.all (fun i => hasSub i l)) = false ↔ ¬ HeaderLine ids l := by
    intro l; rw [← hh]; simp
  obtain ⟨a1, a2, a3⟩ := afterHeader_spec (fun line => ids.all (fun i => hasSub i line)) lines
  simp only [hh, hh'] at a1 a2
  unfold parseCtaZem
  rw [hl]
  cases ha : afterHeader (fun line => ids.all (fun i => hasSub i line)) lines with
  | error e =>
    have he := a3 e ha; subst he
    simp only [true_iff]
    refine ⟨a1.mpr ha, fun out => ?_, by simp⟩
    refine ⟨fun h => (by cases h), ?_⟩
    rintro ⟨pre, h, post, fss, rows, h1, h2, h3, _⟩
    have := (a2 post).mpr ⟨pre, h, h1, h2, h3⟩
    rw [ha] at this; cases this
  | ok post =>
    simp only
    obtain ⟨c1, c2⟩ := ctaLoop_spec float post ⟨[], [], []⟩
    refine ⟨⟨fun h => (by have := c2 _ h; cases this), fun h => by rw [a1.mp h] at ha; cases ha⟩, fun out => ?_,
      fun e he => Or.inr (c2 e he)⟩
    rw [c1]
    have hf : ∀ (post : List (List Char)) (fss : List (List (List Char))), List.Forall₂ (Fields '\t') post fss ↔
        fss = post.map (fun l => splitOnChar '\t' (strip l)) := by
      intro post fss
      induction post generalizing fss with
      | nil => simp
      | cons p post ih =>
        cases fss with
        | nil => simp
        | cons f fss => rw [List.forall₂_cons, ih, ← fields_iff]; simp [eq_comm]
    constructor
    · rintro ⟨rows, h, rfl⟩
      obtain ⟨pre, h', h1, h2, h3⟩ := (a2 post).mp ha
      exact ⟨pre, h', post, _, rows, h1, h2, h3, (hf _ _).mpr rfl, h, by simp⟩
    · rintro ⟨pre, h', post', fss, rows, h1, h2, h3, h4, h5, rfl⟩
      have := (a2 post').mpr ⟨pre, h', h1, h2, h3⟩
      rw [ha] at this; injection this with this; subst this
      rw [hf] at h4; subst h4
      exact ⟨rows, h5, by simp⟩

variable [Field K]

/-- **C25 (CTA).** The data come, in order, from fields 0, 1 and 4 of exactly the lines after the first header line that have
at least five tab-separated fields; temperatures are shifted by 273; `IOError` exactly if there is no header line. -/
theorem C25_CTA (text : List Char) (lines : List (List Char)) (hl : Pieces '\n' text lines) :
    let ids := ["Temperature".toList, "Resistivity".toList, "Seebeck coefficient".toList]
    (parseCTA float text = .error .ioError ↔ ∀ l ∈ lines, ¬ HeaderLine ids l) ∧
    (∀ out, parseCTA float text = .ok out ↔ ∃ pre h post fss rows, lines = pre ++ h :: post ∧
      (∀ l ∈ pre, ¬ HeaderLine ids l) ∧ HeaderLine ids h ∧ List.Forall₂ (Fields '\t') post fss ∧
      List.Forall₂ (TRSRow float) (fss.filter (fun f => 5 ≤ f.length)) rows ∧
      out = ⟨rows.map (·.1 + 273), rows.map (·.2.1), rows.map (·.2.2)⟩) := by
  intro ids
  obtain ⟨h1, h2, h3⟩ := parseCtaZem_spec float ids text lines hl
  unfold parseCTA
  change (_ ↔ _) ∧ _
  have : ctaIds = ids := rfl
  rw [this]
  cases h : parseCtaZem float ids text with
  | error e =>
    rw [h] at h1 h2
    refine ⟨by simpa using h1, fun out => ?_⟩
    refine ⟨fun h => (by cases h), ?_⟩
    rintro ⟨pre, h, post, fss, rows, g1, g2, g3, g4, g5, _⟩
    have := (h2 _).mpr ⟨pre, h, post, fss, rows, g1, g2, g3, g4, g5, rfl⟩
    cases this
  | ok d =>
    rw [h] at h1 h2
    refine ⟨by simpa using h1, fun out => ?_⟩
    constructor
    · intro ho
      obtain ⟨pre, h, post, fss, rows, g1, g2, g3, g4, g5, g6⟩ := (h2 d).mp rfl
      refine ⟨pre, h, post, fss, rows, g1, g2, g3, g4, g5, ?_⟩
      simp only [Except.ok.injEq] at ho
      rw [← ho, g6]; simp
    · rintro ⟨pre, h, post, fss, rows, g1, g2, g3, g4, g5, g6⟩
      have := (h2 _).mpr ⟨pre, h, post, fss, rows, g1, g2, g3, g4, g5, rfl⟩
      simp only [Except.ok.injEq] at this
      rw [g6, this]; simp

/-- **C25 (ZEM).** The same, with its own header, and resistivity and Seebeck coefficient scaled by 10^6. -/
theorem C25_ZEM (text : List Char) (lines : List (List Char)) (hl : Pieces '\n' text lines) :
    let ids := ["Measurement temp".toList, "Resistivity".toList, "Seebeck coeff".toList]
    (parseZEM float text = .error .ioError ↔ ∀ l ∈ lines, ¬ HeaderLine ids l) ∧
    (∀ out, parseZEM float text = .ok out ↔ ∃ pre h post fss rows, lines = pre ++ h :: post ∧
      (∀ l ∈ pre, ¬ HeaderLine ids l) ∧ HeaderLine ids h ∧ List.Forall₂ (Fields '\t') post fss ∧
      List.Forall₂ (TRSRow float) (fss.filter (fun f => 5 ≤ f.length)) rows ∧
      out = ⟨rows.map (·.1 + 273), rows.map (·.2.1 * 1000000), rows.map (·.2.2 * 1000000)⟩) := by
  intro ids
  obtain ⟨h1, h2, h3⟩ := parseCtaZem_spec float ids text lines hl
  unfold parseZEM
  change (_ ↔ _) ∧ _
  have : zemIds = ids := rfl
  rw [this]
  cases h : parseCtaZem float ids text with
  | error e =>
    rw [h] at h1 h2
    refine ⟨by simpa using h1, fun out => ?_⟩
    refine ⟨fun h => (by cases h), ?_⟩
    rintro ⟨pre, h, post, fss, rows, g1, g2, g3, g4, g5, _⟩
    have := (h2 _).mpr ⟨pre, h, post, fss, rows, g1, g2, g3, g4, g5, rfl⟩
    cases this
  | ok d =>
    rw [h] at h1 h2
    refine ⟨by simpa using h1, fun out => ?_⟩
    constructor
    · intro ho
      obtain ⟨pre, h, post, fss, rows, g1, g2, g3, g4, g5, g6⟩ := (h2 d).mp rfl
      refine ⟨pre, h, post, fss, rows, g1, g2, g3, g4, g5, ?_⟩
      simp only [Except.ok.injEq] at ho
      rw [← ho, g6]; simp
    · rintro ⟨pre, h, post, fss, rows, g1, g2, g3, g4, g5, g6⟩
      have := (h2 _).mpr ⟨pre, h, post, fss, rows, g1, g2, g3, g4, g5, rfl⟩
      simp only [Except.ok.injEq] at this
      rw [g6, this]; simp

/-- digits as a rational number, for the examples -/
private def exNum (s : List Char) : Option ℚ := if s ≠ [] ∧ s.all isDigit then some (digitsVal s) else none

example : (parseZEM exNum "x\nMeasurement temp\tResistivity\tSeebeck coeff\n30\t2\ta\tb\t7\n\n40\t3\na\tb\tc".toList).map
    (fun d => (d.T, d.R, d.S)) = .ok ([303], [2000000], [7000000]) := by decide +kernel

end C25

section C26
variable {K : Type} (float : List Char → Option K) [Field K]

/-- the fields used of a '#Mean' line -/
def meanFields (line : List Char) : Option (List (List Char)) :=
  if "#Mean".toList <+: strip line then
    let fs := (splitOnChar ',' (strip line)).filter (fun x => !x.isEmpty)
    if 3 ≤ fs.length then some fs else none
  else none

/-- the fields used of any line -/
def anyFields (line : List Char) : Option (List (List Char)) :=
  if 3 ≤ (splitOnChar ',' (strip line)).length then some (splitOnChar ',' (strip line)) else none

theorem lfaPoint_spec (v0 v1 v2 : List Char) (r : List (List Char)) (d : TA K) :
    (∀ out, lfaPoint float v1 v2 d = .ok out ↔ ∃ x, TARow float (v0 :: v1 :: v2 :: r) x ∧ out = ⟨d.T ++ [x.1 + 273], d.A ++ [x.2]⟩) ∧
    (∀ e, lfaPoint float v1 v2 d = .error e → e = .valueError) := by
  unfold lfaPoint
  cases h1 : float v1 with
  | none => refine ⟨fun out => ⟨fun h => (by cases h), ?_⟩, by simp⟩
            rintro ⟨x, ⟨w1, w2, e1, e2, f1, f2⟩, _⟩
            simp at e1 e2; subst e1 e2; rw [h1] at f1; cases f1
  | some t =>
    cases h2 : float v2 with
    | none => refine ⟨fun out => ⟨fun h => (by cases h), ?_⟩, by simp⟩
              rintro ⟨x, ⟨w1, w2, e1, e2, f1, f2⟩, _⟩
              simp at e1 e2; subst e1 e2; rw [h2] at f2; cases f2
    | some a =>
      refine ⟨fun out => ⟨fun h => ?_, ?_⟩, by simp⟩
      · simp only [Except.ok.injEq] at h
        exact ⟨(t, a), ⟨v1, v2, rfl, rfl, h1, h2⟩, h.symm⟩
      · rintro ⟨x, ⟨w1, w2, e1, e2, f1, f2⟩, rfl⟩
        simp at e1 e2; subst e1 e2; rw [h1] at f1; rw [h2] at f2
        injection f1 with f1; injection f2 with f2; rw [f1, f2]

/-- the common shape of the two loops -/
theorem lfa_loop (loop : List (List Char) → TA K → Except PyErr (TA K)) (sel : List Char → Option (List (List Char)))
    (hsel : ∀ l f, sel l = some f → 3 ≤ f.length)
    (h0 : ∀ d, loop [] d = .ok d)
    (hnone : ∀ l ls d, sel l = none → loop (l :: ls) d = loop ls d)
    (hsome : ∀ l ls d v0 v1 v2 r, sel l = some (v0 :: v1 :: v2 :: r) → loop (l :: ls) d =
      match lfaPoint float v1 v2 d with | .error e => .error e | .ok d => loop ls d)
    (ls : List (List Char)) (d : TA K) :
    (∀ out, loop ls d = .ok out ↔ ∃ rows : List (K × K), List.Forall₂ (TARow float) (ls.filterMap sel) rows ∧
      out = ⟨d.T ++ rows.map (·.1 + 273), d.A ++ rows.map (·.2)⟩) ∧
    (∀ e, loop ls d = .error e → e = .valueError) := by
  induction ls generalizing d with
  | nil => rw [h0]; refine ⟨fun out => ?_, by simp⟩; obtain ⟨dT, dA⟩ := d; simp [eq_comm]
  | cons l ls ih =>
    rw [List.filterMap_cons]
    cases hs : sel l with
    | none => simp only; rw [hnone l ls d hs]; exact ih d
    | some f =>
      have hlen := hsel l f hs
      match f, hlen with
      | v0 :: v1 :: v2 :: r, _ =>
        simp only
        rw [hsome l ls d v0 v1 v2 r hs]
        obtain ⟨p1, p2⟩ := lfaPoint_spec float v0 v1 v2 r d
        cases hp : lfaPoint float v1 v2 d with
        | error e =>
          simp only
          refine ⟨fun out => ⟨fun h => (by cases h), ?_⟩, fun e' he => by injection he with he; rw [← he]; exact p2 e hp⟩
          rintro ⟨rows, h, _⟩
          cases h with
          | cons h _ => have := (p1 _).mpr ⟨_, h, rfl⟩; rw [hp] at this; cases this
        | ok d' =>
          simp only
          obtain ⟨x, hx, hd'⟩ := (p1 d').mp hp
          obtain ⟨i1, i2⟩ := ih d'
          refine ⟨fun out => ?_, i2⟩
          rw [i1]
          constructor
          · rintro ⟨rows, h, rfl⟩
            exact ⟨x :: rows, List.Forall₂.cons hx h, by rw [hd']; simp⟩
          · rintro ⟨rows, h, rfl⟩
            cases h with
            | @cons _ y _ rows h hr =>
              have := (p1 _).mpr ⟨y, h, rfl⟩
              rw [hp] at this; injection this with this
              exact ⟨rows, hr, by rw [this]; simp⟩

theorem lfaMean_spec (ls : List (List Char)) (d : TA K) :
    (∀ out, lfaMean float ls d = .ok out ↔ ∃ rows : List (K × K), List.Forall₂ (TARow float) (ls.filterMap meanFields) rows ∧
      out = ⟨d.T ++ rows.map (·.1 + 273), d.A ++ rows.map (·.2)⟩) ∧
    (∀ e, lfaMean float ls d = .error e → e = .valueError) := by
  have hpre : ∀ l, startsWith "#Mean".toList l = true ↔ "#Mean".toList <+: l := fun l => List.isPrefixOf_iff_prefix
  refine lfa_loop float (lfaMean float) meanFields ?_ (fun d => rfl) ?_ ?_ ls d
  · intro l f h; unfold meanFields at h; simp only at h; split_ifs at h with h1 h2; simp at h; rw [← h]; exact h2
  · intro l ls d h
    rw [lfaMean]
    unfold meanFields at h
    simp only at h ⊢
    by_cases hm : "#Mean".toList <+: strip l
    · simp only [(hpre _).mpr hm, if_true]
      rw [if_pos hm] at h
      split_ifs at h with h2
      match hf : (splitOnChar ',' (strip l)).filter (fun x => !x.isEmpty) with
      | [] => rw [hf]
      | [_] => rw [hf]
      | [_, _] => rw [hf]
      | _ :: _ :: _ :: _ => rw [hf] at h2; simp at h2
    · have : startsWith "#Mean".toList (strip l) = false := by
        rw [Bool.eq_false_iff]; intro h'; exact hm ((hpre _).mp h')
      simp only [this, Bool.false_eq_true, if_false]
  · intro l ls d v0 v1 v2 r h
    rw [lfaMean]
    unfold meanFields at h
    simp only at h ⊢
    split_ifs at h with h1 h2
    simp only [(hpre _).mpr h1, if_true]
    injection h with h
    rw [h]
    rfl

theorem lfaAll_spec (ls : List (List Char)) (d : TA K) :
    (∀ out, lfaAll float ls d = .ok out ↔ ∃ rows : List (K × K), List.Forall₂ (TARow float) (ls.filterMap anyFields) rows ∧
      out = ⟨d.T ++ rows.map (·.1 + 273), d.A ++ rows.map (·.2)⟩) ∧
    (∀ e, lfaAll float ls d = .error e → e = .valueError) := by
  refine lfa_loop float (lfaAll float) anyFields ?_ (fun d => rfl) ?_ ?_ ls d
  · intro l f h; unfold anyFields at h; split_ifs at h with h1; simp at h; rw [← h]; exact h1
  · intro l ls d h
    rw [lfaAll]
    unfold anyFields at h
    split_ifs at h with h2
    match hf : splitOnChar ',' (strip l) with
    | [] => rfl
    | [_] => rfl
    | [_, _] => rfl
    | _ :: _ :: _ :: _ => rw [hf] at h2; simp at h2
  · intro l ls d v0 v1 v2 r h
    rw [lfaAll]
    unfold anyFields at h
    split_ifs at h with h1
    injection h with h
    rw [h]
    rfl

/-- **C26 (header).** Without a line starting with `##Results`, and only in one other case (the fall-back rows do not hold
numbers), `parseLFA` raises `IOError`. -/
theorem C26_no_header (text : List Char) (lines : List (List Char)) (hl : Pieces '\n' text lines)
    (hno : ∀ l ∈ lines, ¬ "##Results".toList <+: l) : parseLFA float text = .error .ioError := by
  rw [← pieces_iff] at hl
  have := ((afterHeader_spec (startsWith "##Results".toList) lines).1).mp (fun l hm => by
    rw [Bool.eq_false_iff]; intro h; exact hno l hm (List.isPrefixOf_iff_prefix.mp h))
  unfold parseLFA
  rw [hl, this]

/-- **C26 (data).** With the first `##Results` line `h`, the title line after it skipped and `body` the lines that follow:
if some '#Mean' lines with at least three non-empty fields exist, the data are exactly those of these lines, otherwise those of
all lines with at least three fields (where a text that is no number gives `IOError`); temperatures are shifted by 273. -/
theorem C26_data (text : List Char) (pre : List (List Char)) (h : List Char) (post : List (List Char))
    (hl : Pieces '\n' text (pre ++ h :: post)) (hpre : ∀ l ∈ pre, ¬ "##Results".toList <+: l) (hh : "##Results".toList <+: h) :
    let body := post.drop 1
    (body.filterMap meanFields ≠ [] → ∀ out, parseLFA float text = .ok out ↔
      ∃ rows, List.Forall₂ (TARow float) (body.filterMap meanFields) rows ∧ out = ⟨rows.map (·.1 + 273), rows.map (·.2)⟩) ∧
    (body.filterMap meanFields ≠ [] → ∀ e, parseLFA float text = .error e → e = .valueError) ∧
    (body.filterMap meanFields = [] → ∀ out, parseLFA float text = .ok out ↔
      ∃ rows, List.Forall₂ (TARow float) (body.filterMap anyFields) rows ∧ out = ⟨rows.map (·.1 + 273), rows.map (·.2)⟩) ∧
    (body.filterMap meanFields = [] → ∀ e, parseLFA float text = .error e → e = .ioError) := by
  intro body
  rw [← pieces_iff] at hl
  have ha := ((afterHeader_spec (startsWith "##Results".toList) (pre ++ h :: post)).2.1 post).mpr
    ⟨pre, h, rfl, fun l hm => by rw [Bool.eq_false_iff]; intro h; exact hpre l hm (List.isPrefixOf_iff_prefix.mp h),
      List.isPrefixOf_iff_prefix.mpr hh⟩
  have hbody : post.drop 1 = body := rfl
  obtain ⟨m1, m2⟩ := lfaMean_spec float body ⟨[], []⟩
  unfold parseLFA
  rw [hl, ha]
  simp only [hbody]
  by_cases hm : body.filterMap meanFields = []
  · have hmean : lfaMean float body ⟨[], []⟩ = .ok ⟨[], []⟩ := (m1 _).mpr ⟨[], by rw [hm]; exact List.Forall₂.nil, rfl⟩
    rw [hmean]
    simp only [List.isEmpty_nil, Bool.not_true, Bool.and_self, Bool.false_eq_true, if_false]
    obtain ⟨n1, n2⟩ := lfaAll_spec float body ⟨[], []⟩
    refine ⟨fun h => absurd hm h, fun h => absurd hm h, fun _ out => ?_, fun _ e he => ?_⟩
    · cases hall : lfaAll float body ⟨[], []⟩ with
      | error e =>
        rw [hall] at n1
        simp only
        refine ⟨fun h => (by cases h), ?_⟩
        rintro ⟨rows, h1, h2⟩
        have := (n1 _).mpr ⟨rows, h1, rfl⟩
        cases this
      | ok d =>
        rw [hall] at n1
        simp only [List.nil_append] at n1 ⊢
        exact n1 out
    · cases hall : lfaAll float body ⟨[], []⟩ with
      | error e' => rw [hall] at he; simp only at he; injection he with he; exact he.symm
      | ok d => rw [hall] at he; cases he
  · cases hmean : lfaMean float body ⟨[], []⟩ with
    | error e =>
      rw [hmean] at m1
      simp only
      refine ⟨fun _ out => ⟨fun h => (by cases h), ?_⟩, fun _ e' he => ?_, fun h => absurd h hm, fun h => absurd h hm⟩
      · rintro ⟨rows, h1, h2⟩
        have := (m1 _).mpr ⟨rows, h1, rfl⟩
        cases this
      · injection he with he; rw [← he]; exact m2 e hmean
    | ok d =>
      rw [hmean] at m1
      obtain ⟨rows, h1, h2⟩ := (m1 d).mp rfl
      have hne : rows ≠ [] := by rintro rfl; rw [List.forall₂_nil_right_iff] at h1; exact hm h1
      have hc : (!d.T.isEmpty && !d.A.isEmpty) = true := by
        rw [h2]; cases rows with
        | nil => exact absurd rfl hne
        | cons a r => simp
      simp only [hc, if_true]
      refine ⟨fun _ out => ?_, fun _ e he => (by cases he), fun h => absurd h hm, fun h => absurd h hm⟩
      simpa using m1 out

/-- **C26 (lengths).** Temperatures and diffusivities always have the same length. -/
theorem C26_lengths (text : List Char) (out : TA K) (h : parseLFA float text = .ok out) : out.T.length = out.A.length := by
  unfold parseLFA at h
  cases ha : afterHeader (startsWith "##Results".toList) (splitOnChar '\n' text) with
  | error e => rw [ha] at h; cases h
  | ok ls =>
    rw [ha] at h
    simp only at h
    cases hmean : lfaMean float (ls.drop 1) ⟨[], []⟩ with
    | error e => rw [hmean] at h; cases h
    | ok d =>
      rw [hmean] at h
      simp only at h
      obtain ⟨rows, h1, h2⟩ := ((lfaMean_spec float (ls.drop 1) ⟨[], []⟩).1 d).mp hmean
      split_ifs at h with hc
      · injection h with h; rw [← h, h2]; simp
      · cases hall : lfaAll float (ls.drop 1) d with
        | error e => rw [hall] at h; cases h
        | ok d' =>
          rw [hall] at h; simp only at h; injection h with h
          obtain ⟨rows', h3, h4⟩ := ((lfaAll_spec float (ls.drop 1) d).1 d').mp hall
          rw [← h, h4, h2]; simp

private def exNum' (s : List Char) : Option ℚ := if s ≠ [] ∧ s.all isDigit then some (digitsVal s) else none

/-- only the mean lines count; without them every line does -/
example : (parseLFA exNum' "a\n##Results\ntitle\n1,30,2\n#Mean,,27,3\n#Mean,x".toList).map (fun d => (d.T, d.A)) =
    .ok ([300], [3]) := by decide +kernel
example : (parseLFA exNum' "##Results\ntitle\n1,30,2\n#\n4,40,3,9".toList).map (fun d => (d.T, d.A)) =
    .ok ([303, 313], [2, 3]) := by decide +kernel

end C26

section C27
variable {K : Type} [Field K]

/-- the parameter of the section `entry` after the update by `specify` -/
def param (entry : PyDict String (List Char)) (specify : List (String × List Char)) (k : String) : Option (List Char) :=
  get? (update entry specify) k

/-- **C27 (success).** `parse_TEfile` succeeds exactly when the checks succeed one after the other; the columns are then
T, R, S of the electrical measurement and T, A, K of the thermal one, with `K = A * density * Cp` point by point. -/
theorem C27_success (env : TEEnv K) (entry : PyDict String (List Char)) (specify : List (String × List Char))
    (data : List (List K)) (group : List String) :
    let p := param entry specify
    parseTEfile env (some entry) (some specify) = .ok (data, group) ↔
      ∃ sample weight el lfa th dens density cp,
        p "sample" = some sample ∧ env.weight sample = .ok weight ∧
        ((∃ z, p "ZEM" = some z ∧ p "CTA" = none ∧ runInstr env.readFile (parseZEM env.float) z = .ok el) ∨
         (∃ c, p "ZEM" = none ∧ p "CTA" = some c ∧ runInstr env.readFile (parseCTA env.float) c = .ok el)) ∧
        p "LFA" = some lfa ∧ runInstr env.readFile (parseLFA env.float) lfa = .ok th ∧
        p "density" = some dens ∧ env.eval dens = .ok density ∧
        parseCp env weight (p "Cp") th.T = .ok cp ∧
        group = ["T", "R", "S", "T", "A", "K"] ∧
        data = [el.T, el.R, el.S, th.T, th.A, List.zipWith (fun a c => a * density * c) th.A cp] := by
  intro p
  have hp : ∀ k, get? (update entry specify) k = p k := fun k => rfl
  unfold parseTEfile
  simp only [hp]
  cases h1 : p "sample" with
  | none => simp
  | some sample =>
    cases h2 : env.weight sample with
    | error e => simp [h2]
    | ok weight =>
      simp only [Option.some.injEq, exists_and_left, exists_eq_left', h2, Except.ok.injEq]
      have key : ∀ (el0 : Except PyErr (TRS K)),
          (match el0 with
          | .error e => (.error e : Except PyErr (List (List K) × List String))
          | .ok el =>
            match p "LFA" with
            | none => .error .valueError
            | some lfa =>
              match runInstr env.readFile (parseLFA env.float) lfa with
              | .error e => .error e
              | .ok th =>
                match p "density" with
                | none => .error .valueError
                | some dens => match env.eval dens with
                  | .error e => .error e
                  | .ok density =>
                    match parseCp env weight (p "Cp") th.T with
                    | .error e => .error e
                    | .ok cp =>
                      .ok ([el.T, el.R, el.S, th.T, th.A, List.zipWith (fun a c => a * density * c) th.A cp],
                        ["T", "R", "S", "T", "A", "K"])) = .ok (data, group) ↔
          ∃ el, el0 = .ok el ∧ ∃ lfa, p "LFA" = some lfa ∧ ∃ th, runInstr env.readFile (parseLFA env.float) lfa = .ok th ∧
            ∃ dens, p "density" = some dens ∧ ∃ density, env.eval dens = .ok density ∧ ∃ cp, parseCp env weight (p "Cp") th.T = .ok cp ∧
            group = ["T", "R", "S", "T", "A", "K"] ∧
            data = [el.T, el.R, el.S, th.T, th.A, List.zipWith (fun a c => a * density * c) th.A cp] := by
        intro el0
        cases el0 with
        | error e => simp
        | ok el =>
          cases p "LFA" with
          | none => simp
          | some lfa =>
            cases h3 : runInstr env.readFile (parseLFA env.float) lfa with
            | error e => simp [h3]
            | ok th =>
              cases p "density" with
              | none => simp [h3]
              | some dens =>
                cases h4 : env.eval dens with
                | error e => simp [h3, h4]
                | ok density =>
                  cases h5 : parseCp env weight (p "Cp") th.T with
                  | error e => simp [h3, h4, h5]
                  | ok cp => simp [h3, h4, h5]; exact ⟨fun h => ⟨h.2.symm, h.1.symm⟩, fun h => ⟨h.2.symm, h.1.symm⟩⟩
      cases hz : p "ZEM" with
      | none =>
        cases hc : p "CTA" with
        | none => simp
        | some c =>
          refine (key (runInstr env.readFile (parseCTA env.float) c)).trans ?_
          simp
      | some z =>
        cases hc : p "CTA" with
        | some c => simp
        | none =>
          refine (key (runInstr env.readFile (parseZEM env.float) z)).trans ?_
          simp

/-- **C27 (checks).** What is demanded, in this order: the section, `sample`, exactly one of `ZEM`/`CTA`, `LFA`, `density`. -/
theorem C27_checks (env : TEEnv K) (entry : PyDict String (List Char)) (specify : List (String × List Char)) :
    let p := param entry specify
    let run := parseTEfile env (some entry) (some specify)
    (∀ s, parseTEfile env none s = .error .keyError) ∧
    (p "sample" = none → run = .error .valueError) ∧
    (∀ sample weight, p "sample" = some sample → env.weight sample = .ok weight →
      (p "ZEM" = none → p "CTA" = none → run = .error .valueError) ∧
      (∀ z c, p "ZEM" = some z → p "CTA" = some c → run = .error .valueError) ∧
      (∀ el, (∃ z, p "ZEM" = some z ∧ p "CTA" = none ∧ runInstr env.readFile (parseZEM env.float) z = .ok el) ∨
         (∃ c, p "ZEM" = none ∧ p "CTA" = some c ∧ runInstr env.readFile (parseCTA env.float) c = .ok el) →
        (p "LFA" = none → run = .error .valueError) ∧
        ∀ lfa th, p "LFA" = some lfa → runInstr env.readFile (parseLFA env.float) lfa = .ok th →
          p "density" = none → run = .error .valueError)) := by
  intro p run
  have hp : ∀ k, get? (update entry specify) k = p k := fun k => rfl
  have hrun : run = parseTEfile env (some entry) (some specify) := rfl
  refine ⟨fun s => rfl, fun h => ?_, fun sample weight h1 h2 => ⟨fun h3 h4 => ?_, fun z c h3 h4 => ?_, fun el hel => ⟨fun h3 => ?_, fun lfa th h3 h4 h5 => ?_⟩⟩⟩
  · simp [hrun, parseTEfile, hp, h]
  · simp [hrun, parseTEfile, hp, h1, h2, h3, h4]
  · simp [hrun, parseTEfile, hp, h1, h2, h3, h4]
  · rcases hel with ⟨z, e1, e2, e3⟩ | ⟨c, e1, e2, e3⟩ <;>
      simp [hrun, parseTEfile, hp, h1, h2, h3, e1, e2, runElectrical, e3]
  · rcases hel with ⟨z, e1, e2, e3⟩ | ⟨c, e1, e2, e3⟩ <;>
      simp [hrun, parseTEfile, hp, h1, h2, h3, e1, e2, runElectrical, e3, h4, h5]

/-- **C27 (heat capacity).** One value per temperature: the given list, or `3R/M` for the Dulong-Petit law (also when the
parameter is missing). -/
theorem C27_Cp (env : TEEnv K) (weight : K) (T : List K) :
    (parseCp env weight none T = .ok (T.map (fun _ => 3 * (831446261815324 / 100000000000000) / weight))) ∧
    (∀ cp out, parseCp env weight cp T = .ok out → out.length = T.length) ∧
    (∀ cp, '@' ∉ strip cp → ∀ vals, parseCp env weight (some cp) T = .ok vals ↔
      floats env.float (Utils.parseList cp) = .ok vals ∧ vals.length = T.length) := by
  refine ⟨?_, ?_, ?_⟩
  · have h1 : strip ((none : Option (List Char)).getD "@Dulong-Petit".toList) = "@Dulong-Petit".toList := by decide
    have h2 : rsplitAt "@Dulong-Petit".toList = ([], "Dulong-Petit".toList) := by decide
    have h3 : strip "Dulong-Petit".toList = "Dulong-Petit".toList := by decide
    have h4 : (Re.split (.plus (.cls Utils.isSep)) []).filter (fun x : List Char => !x.isEmpty) = [] := by decide
    unfold parseCp
    simp only [h1, h2, h3, h4, floats]
    rw [if_pos (by decide)]
    simp [parseCpT]
  · intro cp out h
    unfold parseCp at h
    simp only at h
    split_ifs at h with hat
    · cases hf : floats env.float ((Re.split (.plus (.cls Utils.isSep)) (rsplitAt (strip (cp.getD "@Dulong-Petit".toList))).1).filter (fun x => !x.isEmpty)) with
      | error e => rw [hf] at h; cases h
      | ok v =>
        rw [hf] at h; simp only at h
        unfold parseCpT at h
        split_ifs at h
        injection h with h; rw [← h]; simp
    · cases hf : floats env.float (Utils.parseList (cp.getD [])) with
      | error e => rw [hf] at h; cases h
      | ok v =>
        rw [hf] at h; simp only at h
        split_ifs at h with hl
        · injection h with h; rw [← h]; exact not_not.mp hl
  · intro cp hat vals
    unfold parseCp
    simp only [Option.getD_some, hat, if_false]
    cases hf : floats env.float (Utils.parseList cp) with
    | error e => simp
    | ok v =>
      simp only
      split_ifs with hl
      · simp; rintro rfl; exact hl
      · simp; rintro rfl; simpa using hl

theorem floats_all {float : List Char → Option K} {ts : List (List Char)} (h : ∀ t ∈ ts, float t ≠ none) : ∃ vs, floats float ts = .ok vs := by
  induction ts with
  | nil => exact ⟨[], rfl⟩
  | cons t ts ih =>
    obtain ⟨vs, hv⟩ := ih (fun x hx => h x (by simp [hx]))
    cases ht : float t with
    | none => exact absurd ht (h t (by simp))
    | some v => exact ⟨v :: vs, by simp only [floats, ht, hv]⟩

theorem floats_bad {float : List Char → Option K} {ts : List (List Char)} (h : ∃ t ∈ ts, float t = none) : floats float ts = .error .valueError := by
  induction ts with
  | nil => obtain ⟨t, ht, -⟩ := h; cases ht
  | cons t ts ih =>
    cases ht : float t with
    | none => simp only [floats, ht]
    | some v =>
      obtain ⟨x, hx, hn⟩ := h
      rcases List.mem_cons.1 hx with rfl | hx
      · rw [ht] at hn; cases hn
      · simp only [floats, ht, ih ⟨x, hx, hn⟩]

theorem strip_at (a m : List Char) : strip (a ++ '@' :: m) = a.dropWhile pySpace ++ '@' :: rstrip m := by
  have h1 : ∀ a m : List Char, (a ++ '@' :: m).dropWhile pySpace = a.dropWhile pySpace ++ '@' :: m := by
    intro a m
    induction a with
    | nil => rw [List.nil_append, List.dropWhile_cons_of_neg (by decide)]; rfl
    | cons c a ih =>
      by_cases hc : pySpace c = true
      · rw [List.cons_append, List.dropWhile_cons_of_pos hc, List.dropWhile_cons_of_pos hc, ih]
      · rw [List.cons_append, List.dropWhile_cons_of_neg hc, List.dropWhile_cons_of_neg hc]; rfl
  rw [strip, h1, rstrip, List.reverse_append, List.reverse_cons, List.append_assoc, List.singleton_append, h1, rstrip]
  simp

theorem rsplit_at (a m : List Char) (hm : '@' ∉ m) : rsplitAt (a ++ '@' :: m) = (a, m) := by
  have e : (a ++ '@' :: m).reverse = m.reverse ++ '@' :: a.reverse := by simp
  have hm' : ∀ c ∈ m.reverse, (c != '@') = true := by
    intro c hc; simp only [bne_iff_ne]; rintro rfl; exact hm (List.mem_reverse.1 hc)
  have h1 : (m.reverse ++ '@' :: a.reverse).dropWhile (· != '@') = '@' :: a.reverse := by
    rw [List.dropWhile_append_of_pos hm']; rfl
  have h2 : (m.reverse ++ '@' :: a.reverse).takeWhile (· != '@') = m.reverse := by
    rw [List.takeWhile_append_of_pos hm']; simp
  rw [rsplitAt, e, h1, h2]; simp

theorem rstrip_mem {m : List Char} {c : Char} (h : c ∈ rstrip m) : c ∈ m := by
  have := (List.dropWhile_sublist (p := pySpace) (l := m.reverse)).subset (List.mem_reverse.1 h)
  exact List.mem_reverse.1 this

theorem strip_rstrip (m : List Char) : strip (rstrip m) = strip m := by
  have idem : ∀ l : List Char, (l.dropWhile pySpace).dropWhile pySpace = l.dropWhile pySpace := fun l => by
    induction l with
    | nil => rfl
    | cons c l ih =>
      by_cases hc : pySpace c = true
      · rw [List.dropWhile_cons_of_pos hc, ih]
      · rw [List.dropWhile_cons_of_neg hc, List.dropWhile_cons_of_neg hc]
  have lem : ∀ l : List Char, rstrip (l.dropWhile pySpace) = (rstrip l).dropWhile pySpace := by
    intro l
    induction l with
    | nil => rfl
    | cons c l ih =>
      by_cases hc : pySpace c = true
      · rw [List.dropWhile_cons_of_pos hc, ih]
        have : rstrip (c :: l) = if rstrip l = [] then [] else c :: rstrip l := by
          unfold rstrip
          rw [List.reverse_cons, List.dropWhile_append]
          by_cases h0 : (l.reverse.dropWhile pySpace) = []
          · simp [h0, hc]
          · simp [h0]
        rw [this]
        split_ifs with h0
        · rw [h0]
        · rw [List.dropWhile_cons_of_pos hc]
      · rw [List.dropWhile_cons_of_neg hc]
        have : rstrip (c :: l) = c :: rstrip l := by
          unfold rstrip
          rw [List.reverse_cons, List.dropWhile_append]
          by_cases h0 : (l.reverse.dropWhile pySpace) = []
          · simp [h0, hc]
          · simp [h0]
        rw [this, List.dropWhile_cons_of_neg hc]
  rw [strip, strip, lem, lem]
  congr 1
  rw [rstrip, rstrip, List.reverse_reverse, idem]

/-- **C27 (models of the heat capacity).** `numbers @ model`: the part after the last `@`, without the blanks around it, names the model; the
words before it have to be numbers (separated by blanks or commas), but their values do not matter.  The Dulong-Petit law has three names;
the model `Mg3Sb2` is announced but not implemented; any other name is an error. -/
theorem C27_model (env : TEEnv K) (weight : K) (T : List K) (a m : List Char) (hm : '@' ∉ m) (ts : List (List Char))
    (ht : Tokenises Utils.isSep a ts) :
    ((∃ t ∈ ts, env.float t = none) → parseCp env weight (some (a ++ '@' :: m)) T = .error .valueError) ∧
    ((∀ t ∈ ts, env.float t ≠ none) →
      (strip m ∈ ["Dulong-Petit".toList, "DP".toList, "3R".toList] →
        parseCp env weight (some (a ++ '@' :: m)) T = .ok (T.map fun _ => 3 * (831446261815324 / 100000000000000) / weight)) ∧
      (strip m = "Mg3Sb2".toList → parseCp env weight (some (a ++ '@' :: m)) T = .error .notImplementedError) ∧
      (strip m ∉ ["Dulong-Petit".toList, "DP".toList, "3R".toList, "Mg3Sb2".toList] →
        parseCp env weight (some (a ++ '@' :: m)) T = .error .valueError)) := by
  have hlead : ∀ c, pySpace c = true → Utils.isSep c = true := by
    intro c hc; simp [Utils.isSep, hc]
  have htoks : toks Utils.isSep [] (a.dropWhile pySpace) = ts := by
    rw [← ht.eq_toks]
    have : ∀ l : List Char, toks Utils.isSep [] (l.dropWhile pySpace) = toks Utils.isSep [] l := by
      intro l
      induction l with
      | nil => rfl
      | cons c l ih =>
        by_cases hc : pySpace c = true
        · rw [List.dropWhile_cons_of_pos hc, ih]
          simp [toks, hlead c hc, flush]
        · rw [List.dropWhile_cons_of_neg hc]
    exact this a
  have hargs : (Re.split (.plus (.cls Utils.isSep)) (a.dropWhile pySpace)).filter (fun x => !x.isEmpty) = ts := by
    rw [Re.split_plus_cls, htoks]
  have hrun : parseCp env weight (some (a ++ '@' :: m)) T = match floats env.float ts with
      | .error e => .error e
      | .ok _ => parseCpT weight (strip m) T := by
    unfold parseCp
    simp only [Option.getD_some, strip_at]
    rw [if_pos (by simp), rsplit_at _ _ (fun h => hm (rstrip_mem h))]
    simp only [hargs, strip_rstrip]
    cases floats env.float ts <;> rfl
  rw [hrun]
  refine ⟨fun h => by rw [floats_bad h], fun h => ?_⟩
  obtain ⟨vs, hv⟩ := floats_all h
  rw [hv]
  simp only
  have d1 : "Mg3Sb2".toList ≠ "Dulong-Petit".toList := by decide
  have d2 : "Mg3Sb2".toList ≠ "DP".toList := by decide
  have d3 : "Mg3Sb2".toList ≠ "3R".toList := by decide
  refine ⟨fun hs => ?_, fun hs => ?_, fun hs => ?_⟩
  · simp only [List.mem_cons, List.not_mem_nil, or_false] at hs
    rw [parseCpT, if_pos hs]; simp
  · rw [parseCpT, if_neg (by rw [hs]; simp only [d1, d2, d3, or_self, not_false_iff]), if_pos hs]
  · simp only [List.mem_cons, List.not_mem_nil, or_false, not_or] at hs
    rw [parseCpT, if_neg (by simp only [hs.1, hs.2.1, hs.2.2.1, or_self, not_false_iff]), if_neg hs.2.2.2]

/-- **C27 (thermal conductivity).** On success the last column has one entry per diffusivity, namely
`A[i] * density * Cp[i]`. -/
theorem C27_kappa (env : TEEnv K) (entry : PyDict String (List Char)) (specify : List (String × List Char))
    (data : List (List K)) (group : List String) (h : parseTEfile env (some entry) (some specify) = .ok (data, group)) :
    ∃ (T R S Th A kappa Cp : List K) (density : K), data = [T, R, S, Th, A, kappa] ∧ A.length = Th.length ∧ Cp.length = Th.length ∧
      kappa.length = A.length ∧ ∀ (i : Nat) (a c : K), A[i]? = some a → Cp[i]? = some c → kappa[i]? = some (a * density * c) := by
  obtain ⟨sample, weight, el, lfa, th, dens, density, cp, _, _, _, _, h5, _, _, h8, _, h10⟩ := (C27_success env entry specify data group).mp h
  have hcp := (C27_Cp env weight th.T).2.1 _ cp h8
  have hA : th.T.length = th.A.length := by
    unfold runInstr at h5
    cases ht : instrText env.readFile lfa with
    | error e => rw [ht] at h5; cases h5
    | ok t => rw [ht] at h5; exact C26_lengths env.float t th h5
  refine ⟨_, _, _, _, _, _, cp, density, h10, hA.symm, hcp, by simp [hcp, hA], ?_⟩
  intro i a c ha hc
  rw [List.getElem?_zipWith, ha, hc]

private def exEnv : TEEnv ℚ := ⟨fun _ => .error .ioError, fun _ => .ok 100, fun _ => .ok 5, exNum'⟩

/-- `C27_model` on `1, 2 @ DP` -/
example : parseCp exEnv 100 (some " 1, 2 @ DP ".toList) [300, 400] =
    .ok [3 * (831446261815324 / 100000000000000) / 100, 3 * (831446261815324 / 100000000000000) / 100] := by decide +kernel

/-- a complete entry with inline data -/
example : (parseTEfile exEnv (some [("sample", "Bi2Te3".toList), ("density", "5".toList), ("Cp", "2".toList),
    ("ZEM", "Measurement temp\tResistivity\tSeebeck coeff\n30\t2\ta\tb\t7".toList),
    ("LFA", "##Results\ntitle\n1,30,2".toList)]) (some [("Cp", "3".toList)])) =
    .ok ([[303], [2000000], [7000000], [303], [2], [30]], ["T", "R", "S", "T", "A", "K"]) := by decide +kernel

end C27
end TEflow
