import Mathlib.Data.Rat.Floor
import Verif.Lemmas.UtilsText

/-!
# Properties C06–C08: text converters of `CfgParser`

`Tokenises sep text ts` (Lemmas/Re.lean) is the specification "`ts` are the maximal non-empty runs of
non-separators of `text`, in order".  `isSep` is "whitespace or comma".
-/

set_option linter.unusedSimpArgs false

namespace TEflow
open Utils

/-- **C06.** `parse_list` returns exactly the tokens of its text. -/
theorem C06_parse_list (text : List Char) (ts : List (List Char)) :
    parseList text = ts ↔ Tokenises isSep text ts := by
  rw [parseList_eq_toks, tokenises_iff]

/-- **C06 (round trip).** Any tokens, joined by any non-empty mixtures of blanks and commas (and with any such
mixture in front), are parsed back. -/
theorem C06_round_trip (lead : List Char) (hlead : ∀ c ∈ lead, isSep c = true)
    (ws : List (List Char × List Char)) (hw : ∀ p ∈ ws, p.1 ≠ [] ∧ (∀ c ∈ p.1, isSep c = false) ∧
      p.2 ≠ [] ∧ ∀ c ∈ p.2, isSep c = true)
    (last : List Char) (hlast : ∀ c ∈ last, isSep c = false) :
    parseList (lead ++ (ws.flatMap (fun p => p.1 ++ p.2)) ++ last) =
      ws.map Prod.fst ++ (if last = [] then [] else [last]) := by
  have hsep : ∀ s r : List Char, (∀ c ∈ s, isSep c = true) → toks isSep [] (s ++ r) = toks isSep [] r := by
    intro s r hs
    induction s with
    | nil => rfl
    | cons c s ih =>
      simp only [List.cons_append, toks, hs c (by simp), if_true, flush, List.isEmpty_nil, List.nil_append]
      exact ih (fun d hd => hs d (by simp [hd]))
  rw [parseList_eq_toks, List.append_assoc, hsep _ _ hlead]
  induction ws with
  | nil =>
    have := toks_word isSep last [] [] hlast
    simp only [List.append_nil] at this
    simp only [List.flatMap_nil, List.nil_append, List.map_nil, this, toks, flush]
    by_cases h : last = [] <;> simp [h]
  | cons p ws ih =>
    obtain ⟨h1, h2, h3, h4⟩ := hw p (by simp)
    rw [List.flatMap_cons, List.append_assoc, List.append_assoc, toks_word isSep _ _ _ h2]
    rw [toks_head_sep]
    · rw [hsep _ _ h4, ih (fun q hq => hw q (by simp [hq]))]
      simp [flush, h1]
    · intro c hc
      cases hp : p.2 with
      | nil => exact absurd hp h3
      | cons d s =>
        rw [hp] at hc; simp at hc; subst hc
        exact h4 d (by simp [hp])

theorem mapM_ok_iff {α β : Type} (conv : α → Except PyErr β) (ts : List α) (vs : List β) :
    ts.mapM conv = .ok vs ↔ List.Forall₂ (fun t v => conv t = .ok v) ts vs := by
  induction ts generalizing vs with
  | nil =>
    simp only [List.mapM_nil, pure, Except.pure, Except.ok.injEq]
    constructor
    · rintro rfl; exact .nil
    · rintro ⟨⟩; rfl
  | cons t ts ih =>
    simp only [List.mapM_cons, bind, Except.bind, pure, Except.pure]
    constructor
    · intro h
      cases ht : conv t with
      | error e => rw [ht] at h; cases h
      | ok v =>
        rw [ht] at h
        cases hr : ts.mapM conv with
        | error e => rw [hr] at h; cases h
        | ok w =>
          rw [hr] at h
          cases h
          exact .cons ht ((ih w).1 hr)
    · intro h
      cases h with
      | cons h1 h2 => rw [h1, (ih _).2 h2]

theorem mapM_error_iff {α β : Type} (conv : α → Except PyErr β) (ts : List α) (e : PyErr) :
    ts.mapM conv = .error e ↔
      ∃ pre t post, ts = pre ++ t :: post ∧ (∀ s ∈ pre, ∃ v, conv s = .ok v) ∧ conv t = .error e := by
  induction ts with
  | nil => simp [pure, Except.pure]
  | cons t ts ih =>
    simp only [List.mapM_cons, bind, Except.bind, pure, Except.pure]
    cases ht : conv t with
    | error e' =>
      constructor
      · intro h; cases h; exact ⟨[], t, ts, rfl, by simp, ht⟩
      · rintro ⟨pre, s, post, h1, h2, h3⟩
        cases pre with
        | nil => cases h1; rw [ht] at h3; cases h3; rfl
        | cons a pre =>
          cases h1
          obtain ⟨v, hv⟩ := h2 t (by simp)
          rw [ht] at hv; cases hv
    | ok v =>
      constructor
      · intro h
        cases hr : ts.mapM conv with
        | ok w => rw [hr] at h; cases h
        | error e' =>
          rw [hr] at h
          cases h
          obtain ⟨pre, s, post, h1, h2, h3⟩ := ih.1 hr
          refine ⟨t :: pre, s, post, by rw [h1]; rfl, ?_, h3⟩
          intro x hx
          rcases List.mem_cons.1 hx with rfl | hx
          · exact ⟨v, ht⟩
          · exact h2 x hx
      · rintro ⟨pre, s, post, h1, h2, h3⟩
        cases pre with
        | nil => cases h1; rw [ht] at h3; cases h3
        | cons a pre =>
          cases h1
          rw [ih.2 ⟨pre, s, post, rfl, fun x hx => h2 x (by simp [hx]), h3⟩]

/-- **C06 (numbers).** `parse_list_float` / `parse_list_int` give one number per token, in the order of the text, and
fail exactly if a token is not a number, with the error of the first such token. -/
theorem C06_converters {α : Type} (conv : List Char → Except PyErr α) (text : List Char) (ts : List (List Char))
    (h : Tokenises isSep text ts) :
    (∀ vs, parseListWith conv text = .ok vs ↔ List.Forall₂ (fun t v => conv t = .ok v) ts vs) ∧
    (∀ e, parseListWith conv text = .error e ↔
      ∃ pre t post, ts = pre ++ t :: post ∧ (∀ s ∈ pre, ∃ v, conv s = .ok v) ∧ conv t = .error e) := by
  have hp := (C06_parse_list text ts).2 h
  have e : parseListWith conv text = ts.mapM conv := by rw [← hp]; rfl
  rw [e]
  exact ⟨fun vs => mapM_ok_iff conv ts vs, fun e => mapM_error_iff conv ts e⟩

example : parseList " 1, 2.5 ,,x\t7".toList = ["1".toList, "2.5".toList, "x".toList, "7".toList] := by decide +kernel

section Numbers
variable {K : Type} [Field K] [LinearOrder K] [IsStrictOrderedRing K] [FloorRing K]

/-- **C07 (a:b).** The values are exactly the numbers `a, a+1, a+2, …` that lie below `b + 1E-4`, in ascending
order. -/
theorem C07_range_two (a b : K) :
    (∀ x, x ∈ rangeUp a b ↔ ∃ i : ℕ, x = a + i ∧ x < b + 1 / 10000) ∧
    (rangeUp a b).Pairwise (· < ·) := by
  rw [rangeUp_eq]
  constructor
  · intro x
    simp only [List.mem_map, List.mem_range]
    constructor
    · rintro ⟨i, hi, rfl⟩
      refine ⟨i, rfl, ?_⟩
      have : (i : ℤ) < ⌈b + 1 / 10000 - a⌉ := by omega
      have := Int.lt_ceil.1 this
      push_cast at this; linarith
    · rintro ⟨i, rfl, h⟩
      refine ⟨i, ?_, rfl⟩
      have : (i : ℤ) < ⌈b + 1 / 10000 - a⌉ := Int.lt_ceil.2 (by push_cast; linarith)
      omega
  · rw [List.pairwise_map]
    refine List.pairwise_lt_range.imp ?_
    intro i j h
    have : (i : K) < j := by exact_mod_cast h
    linarith

/-- **C07 (a:b, whole distance).** If `b = a + n` the values are `a, a+1, …, b` (both ends included). -/
theorem C07_range_two_whole (a : K) (n : ℕ) :
    rangeUp a (a + n) = (List.range (n + 1)).map (fun i : ℕ => a + i) := by
  rw [rangeUp_eq]
  have : ⌈a + n + 1 / 10000 - a⌉ = (n : ℤ) + 1 := by
    rw [Int.ceil_eq_iff]; push_cast; constructor <;> linarith
  rw [this]
  congr 2

/-- **C07 (a:s:b).** A zero step is `ZeroDivisionError`; a step pointing away from `b` gives nothing; otherwise the
values are `a, a+s, …, a+n*s` with `n = ⌊(b-a)/s + 1E-4⌋`. -/
theorem C07_range_three (a s b : K) :
    (s = 0 → rangeStep a s b = .error .zeroDivisionError) ∧
    (s ≠ 0 → (b - a) / s < 0 → rangeStep a s b = .ok []) ∧
    (s ≠ 0 → 0 ≤ (b - a) / s →
      rangeStep a s b = .ok ((List.range (⌊(b - a) / s + 1 / 10000⌋.toNat + 1)).map (fun i : ℕ => a + i * s))) := by
  refine ⟨fun h => by simp [rangeStep, h], fun h h' => by simp [rangeStep, h, h'], fun h h' => ?_⟩
  unfold rangeStep
  rw [if_neg h]
  simp only [if_neg (not_lt.2 h')]
  rw [rangeBy_eq]
  have h1 : (0 : K) ≤ (b - a) / s + 1 / 10000 := by
    have : (0 : K) < 1 / 10000 := by norm_num
    linarith
  have h2 : 0 ≤ ⌊(b - a) / s + 1 / 10000⌋ := Int.floor_nonneg.2 h1
  unfold pyInt
  rw [if_pos h1]
  congr 4
  omega

/-- **C07 (a:s:b, bounds).** Every value lies between `a` and `b`, overshooting `b` by at most 1E-4 steps, and the last
one is less than one step away from `b`. -/
theorem C07_range_three_bounds (a s b : K) (xs : List K) (h : rangeStep a s b = .ok xs) :
    (∀ x ∈ xs, ∃ t : K, 0 ≤ t ∧ x = a + t * s ∧ t ≤ (b - a) / s + 1 / 10000) ∧
    (0 ≤ (b - a) / s → ∃ x, xs.getLast? = some x ∧ ∃ t : K, x = a + t * s ∧ (b - a) / s + 1 / 10000 - 1 < t) := by
  by_cases hs : s = 0
  · rw [(C07_range_three a s b).1 hs] at h; cases h
  by_cases hn : (b - a) / s < 0
  · rw [(C07_range_three a s b).2.1 hs hn] at h
    cases h
    exact ⟨by simp, fun h => absurd hn (not_lt.2 h)⟩
  · rw [(C07_range_three a s b).2.2 hs (not_lt.1 hn)] at h
    cases h
    have h1 : (0 : K) ≤ (b - a) / s + 1 / 10000 := by
      have : (0 : K) < 1 / 10000 := by norm_num
      linarith [not_lt.1 hn]
    have h2 : 0 ≤ ⌊(b - a) / s + 1 / 10000⌋ := Int.floor_nonneg.2 h1
    constructor
    · intro x hx
      obtain ⟨i, hi, rfl⟩ := List.mem_map.1 hx
      refine ⟨i, Nat.cast_nonneg i, rfl, ?_⟩
      have hi' : (i : ℤ) ≤ ⌊(b - a) / s + 1 / 10000⌋ := by have := List.mem_range.1 hi; omega
      have := Int.le_floor.1 hi'
      exact_mod_cast this
    · intro _
      refine ⟨_, by rw [List.range_succ, List.map_append, List.map_singleton, List.getLast?_append,
        List.getLast?_singleton]; rfl, _, rfl, ?_⟩
      have h3 := Int.sub_one_lt_floor ((b - a) / s + 1 / 10000)
      have h4 : ((⌊(b - a) / s + 1 / 10000⌋.toNat : ℕ) : K) = ((⌊(b - a) / s + 1 / 10000⌋ : ℤ) : K) := by
        rw [← Int.cast_natCast, Int.toNat_of_nonneg h2]
      rw [h4]; linarith

/-- **C07 (a:s:b, whole number of steps).** If `b = a + n*s` the last value is exactly `b`. -/
theorem C07_range_three_whole (a s : K) (hs : s ≠ 0) (n : ℕ) :
    rangeStep a s (a + n * s) = .ok ((List.range (n + 1)).map (fun i : ℕ => a + i * s)) := by
  have e : (a + n * s - a) / s = n := by field_simp; ring
  rw [(C07_range_three a s (a + n * s)).2.2 hs (by rw [e]; exact Nat.cast_nonneg n), e]
  have : ⌊(n : K) + 1 / 10000⌋ = (n : ℤ) := by
    rw [Int.floor_eq_iff]; push_cast; constructor <;> linarith
  rw [this]; simp

example : rangeUp (1 : ℚ) (37 / 10) = [1, 2, 3] := by
  rw [rangeUp_eq]
  have : ⌈(37 / 10 : ℚ) + 1 / 10000 - 1⌉ = 3 := by rw [Int.ceil_eq_iff]; norm_num
  rw [this]; show List.map _ (List.range 3) = _; norm_num [List.range_succ]

/-- **C08 (splitting).** `parse_seq` cuts its text exactly at the maximal runs of *free* separators, a separator being
free when neither neighbour is a colon, and expands the pieces one after the other. -/
theorem C08_split (float : List Char → Except PyErr K) (text : List Char) (pieces : List (List (Char × Bool)))
    (h : Tokenises (fun x => x.2) (markFree none text) pieces) :
    parseSeq float text = parseParts float (pieces.map (fun p => p.map Prod.fst)) := by
  unfold parseSeq
  rw [split_seqSep, h.eq_toks]

/-- an item that is never cut: every separator in it touches a colon, and its ends are neither separator nor colon -/
def SeqItem (w : List Char) : Prop :=
  (∀ x ∈ markFree none w, x.2 = false) ∧ (∃ c, w.head? = some c ∧ c ≠ ':' ∧ isSep c = false) ∧
    ∃ c, w.getLast? = some c ∧ c ≠ ':' ∧ isSep c = false

/-- **C08 (items).** Items joined by any non-empty runs of blanks and commas (with optional runs at both ends) are
expanded item by item. -/
theorem C08_items (float : List Char → Except PyErr K) (lead : List Char) (hlead : ∀ c ∈ lead, isSep c = true)
    (ws : List (List Char × List Char))
    (hw : ∀ p ∈ ws, SeqItem p.1 ∧ p.2 ≠ [] ∧ ∀ c ∈ p.2, isSep c = true)
    (last : List Char) (hlast : SeqItem last) :
    parseSeq float (lead ++ (ws.flatMap (fun p => p.1 ++ p.2)) ++ last) =
      parseParts float (ws.map Prod.fst ++ [last]) := by
  -- facts about the head of what follows a separator run
  have hhead : ∀ (ws : List (List Char × List Char)), (∀ p ∈ ws, SeqItem p.1 ∧ p.2 ≠ [] ∧ ∀ c ∈ p.2, isSep c = true) →
      (ws.flatMap (fun p => p.1 ++ p.2) ++ last).head? ≠ some ':' := by
    intro ws hw
    cases ws with
    | nil =>
      obtain ⟨_, ⟨c, h1, h2, _⟩, _⟩ := hlast
      simp [h1, h2]
    | cons p ws =>
      obtain ⟨⟨_, ⟨c, h1, h2, _⟩, _⟩, _⟩ := hw p (by simp)
      cases hp : p.1 with
      | nil => rw [hp] at h1; simp at h1
      | cons d w => rw [hp] at h1; simp at h1; subst h1; simp [hp, h2]
  have hsepHead : ∀ (s : List Char), s ≠ [] → (∀ c ∈ s, isSep c = true) → ∀ r : List Char, (s ++ r).head? ≠ some ':' := by
    intro s hs h r
    cases s with
    | nil => exact absurd rfl hs
    | cons c s =>
      have := h c (by simp)
      simp only [List.cons_append, List.head?_cons, ne_eq, Option.some.injEq]
      intro e; subst e; rw [isSep_colon] at this; cases this
  have htoksSep : ∀ (s : List Char) (r : List (Char × Bool)),
      toks (fun x : Char × Bool => x.2) [] (s.map (fun c => (c, true)) ++ r) = toks (fun x : Char × Bool => x.2) [] r := by
    intro s r
    induction s with
    | nil => rfl
    | cons c s ih => simpa [toks, flush] using ih
  have hitem : ∀ (w : List Char) (prev : Option Char) (r : List (Char × Bool)), SeqItem w →
      toks (fun x : Char × Bool => x.2) [] (markFree prev w ++ r) =
        toks (fun x : Char × Bool => x.2) (w.map (fun c => (c, false))).reverse r := by
    intro w prev r ⟨h1, ⟨c, h2, h3, h4⟩, _⟩
    rw [markFree_prev w prev none c h2 h4, map_const_of_all h1, markFree_map_fst]
    have := toks_word (fun x : Char × Bool => x.2) (w.map (fun c => (c, false))) r [] (by simp)
    simpa using this
  have hne : ∀ w : List Char, SeqItem w → w ≠ [] := by
    rintro w ⟨_, ⟨c, h2, _⟩, _⟩ e; subst e; simp at h2
  have main : ∀ (ws : List (List Char × List Char)) (_ : ∀ p ∈ ws, SeqItem p.1 ∧ p.2 ≠ [] ∧ ∀ c ∈ p.2, isSep c = true)
      (prev : Option Char),
      toks (fun x : Char × Bool => x.2) [] (markFree prev (ws.flatMap (fun p => p.1 ++ p.2) ++ last)) =
        (ws.map Prod.fst ++ [last]).map (fun w => w.map (fun c => (c, false))) := by
    intro ws hw
    induction ws with
    | nil =>
      intro prev
      have := hitem last prev [] hlast
      simp only [List.append_nil] at this
      simp only [List.flatMap_nil, List.nil_append, this, toks, flush]
      simp [hne last hlast]
    | cons p ws ih =>
      intro prev
      obtain ⟨hp1, hp2, hp3⟩ := hw p (by simp)
      have hw' := fun q (hq : q ∈ ws) => hw q (by simp [hq])
      obtain ⟨_, _, c, hl1, hl2, hl3⟩ := id hp1
      rw [List.flatMap_cons, List.append_assoc, List.append_assoc,
        markFree_append p.1 _ prev c hl1 (hsepHead p.2 hp2 hp3 _), hitem p.1 prev _ hp1]
      obtain ⟨e, he⟩ : ∃ e, p.2.getLast? = some e := by
        cases h : p.2.getLast? with
        | none => exact absurd (List.getLast?_eq_none_iff.1 h) hp2
        | some e => exact ⟨e, rfl⟩
      have hmark : markFree (some c) (p.2 ++ (ws.flatMap (fun p => p.1 ++ p.2) ++ last)) =
          p.2.map (fun c => (c, true)) ++ markFree (some e) (ws.flatMap (fun p => p.1 ++ p.2) ++ last) := by
        rw [markFree_append p.2 _ (some c) e he (hhead ws hw'), markFree_seps p.2 (some c) hp3 (by simpa using hl2)]
      rw [hmark, toks_head_sep]
      · rw [htoksSep, ih hw']
        simp [flush, hne p.1 hp1]
      · intro x hx
        cases h : p.2 with
        | nil => exact absurd h hp2
        | cons d s => rw [h] at hx; simp at hx; subst hx; rfl
  have hfst : ∀ l : List (List Char), (l.map (fun w => w.map (fun c => (c, false)))).map (fun p => p.map Prod.fst) = l := by
    intro l; induction l with
    | nil => rfl
    | cons w l ih => simp only [List.map_cons, ih]; congr 1; simp [Function.comp_def]
  unfold parseSeq
  rw [split_seqSep, List.append_assoc]
  cases hl : lead.getLast? with
  | none =>
    have : lead = [] := List.getLast?_eq_none_iff.1 hl
    subst this
    rw [List.nil_append, main ws hw none, hfst]
  | some e =>
    rw [markFree_append lead _ none e hl (hhead ws hw), markFree_seps lead none hlead (by simp), htoksSep,
      main ws hw (some e), hfst]

/-- a field: non-empty, no separator and no colon -/
def SeqField (w : List Char) : Prop := w ≠ [] ∧ ∀ c ∈ w, c ≠ ':' ∧ isSep c = false

/-- nothing, or a single blank -/
def OptBlank (w : List Char) : Prop := w = [] ∨ ∃ c, w = [c] ∧ pySpace c = true

theorem pySpace_isSep {c : Char} (h : pySpace c = true) : isSep c = true := by simp [isSep, h]
theorem not_isSep_pySpace {c : Char} (h : isSep c = false) : pySpace c = false := by
  simp only [isSep, Bool.or_eq_false_iff] at h; exact h.1

theorem SeqField.fieldToks {w : List Char} (h : SeqField w) : ∀ c ∈ w, (c == ':' || pySpace c) = false := by
  intro c hc
  simp [(h.2 c hc).1, not_isSep_pySpace (h.2 c hc).2]

theorem SeqField.head {w : List Char} (h : SeqField w) : ∃ c, w.head? = some c ∧ c ≠ ':' ∧ isSep c = false := by
  cases w with
  | nil => exact absurd rfl h.1
  | cons c w => exact ⟨c, rfl, h.2 c (by simp)⟩

theorem SeqField.last {w : List Char} (h : SeqField w) : ∃ c, w.getLast? = some c ∧ c ≠ ':' ∧ isSep c = false := by
  cases hw : w.getLast? with
  | none => exact absurd (List.getLast?_eq_none_iff.1 hw) h.1
  | some c => exact ⟨c, rfl, h.2 c (List.mem_of_mem_getLast? hw)⟩

theorem SeqField.marks {w : List Char} (h : ∀ c ∈ w, isSep c = false) (prev : Option Char) :
    ∀ x ∈ markFree prev w, x.2 = false := by
  induction w generalizing prev with
  | nil => simp [markFree]
  | cons c w ih =>
    intro x hx
    rw [markFree] at hx
    rcases List.mem_cons.1 hx with e | e
    · subst e; simp [h c (by simp)]
    · exact ih (fun d hd => h d (by simp [hd])) _ x e

/-- the marks of the text around one colon -/
theorem marks_colon (a o1 o2 r : List Char) (ha : ∀ c ∈ a, isSep c = false) (h1 : OptBlank o1) (h2 : OptBlank o2)
    (hr : ∀ prev, ∀ x ∈ markFree prev r, x.2 = false) (prev : Option Char) :
    ∀ x ∈ markFree prev (a ++ o1 ++ ':' :: o2 ++ r), x.2 = false := by
  induction a generalizing prev with
  | nil =>
    intro x hx
    rcases h1 with rfl | ⟨b, rfl, hb⟩ <;> rcases h2 with rfl | ⟨e, rfl, he⟩ <;>
      simp [markFree, isSep_colon] at hx
    · rcases hx with rfl | hx
      · rfl
      · exact hr _ x hx
    · rcases hx with rfl | rfl | hx
      · rfl
      · rfl
      · exact hr _ x hx
    · rcases hx with rfl | rfl | hx
      · rfl
      · rfl
      · exact hr _ x hx
    · rcases hx with rfl | rfl | rfl | hx
      · rfl
      · rfl
      · rfl
      · exact hr _ x hx
  | cons c a ih =>
    intro x hx
    simp only [List.cons_append, markFree] at hx
    rcases List.mem_cons.1 hx with e | e
    · subst e; simp [ha c (by simp)]
    · exact ih (fun d hd => ha d (by simp [hd])) _ x (by simpa using e)

theorem head?_of_field {w r : List Char} (h : ∃ c, w.head? = some c ∧ c ≠ ':' ∧ isSep c = false) :
    ∃ c, (w ++ r).head? = some c ∧ c ≠ ':' ∧ isSep c = false := by
  obtain ⟨c, h1, h2⟩ := h
  cases w with
  | nil => simp at h1
  | cons d w => exact ⟨c, by simpa using h1, h2⟩

theorem getLast?_of_field {w r : List Char} (h : ∃ c, w.getLast? = some c ∧ c ≠ ':' ∧ isSep c = false) :
    ∃ c, (r ++ w).getLast? = some c ∧ c ≠ ':' ∧ isSep c = false := by
  obtain ⟨c, h1, h2⟩ := h
  exact ⟨c, by simp [List.getLast?_append, h1], h2⟩

theorem toks_colon (o1 o2 r acc : List Char) (h1 : OptBlank o1) (h2 : OptBlank o2) :
    toks (fun c => c == ':' || pySpace c) acc (o1 ++ ':' :: o2 ++ r) =
      flush acc ++ toks (fun c => c == ':' || pySpace c) [] r := by
  rcases h1 with rfl | ⟨b, rfl, hb⟩ <;> rcases h2 with rfl | ⟨e, rfl, he⟩ <;> simp [toks, flush, *]

/-- **C08 (one field).** A single number. -/
theorem C08_single (float : List Char → Except PyErr K) (a : List Char) (ha : SeqField a) (x : K)
    (hx : float a = .ok x) : SeqItem a ∧ parseSeq float a = .ok [x] := by
  have hi : SeqItem a := ⟨SeqField.marks (fun c hc => (ha.2 c hc).2) none, ha.head, ha.last⟩
  refine ⟨hi, ?_⟩
  have := C08_items float [] (by simp) [] (by simp) a hi
  simp only [List.flatMap_nil, List.nil_append, List.map_nil] at this
  rw [this]
  have ht := toks_word (fun c => c == ':' || pySpace c) a [] [] ha.fieldToks
  simp only [List.append_nil, toks, flush] at ht
  have hne : a.reverse.isEmpty = false := by simp [ha.1]
  simp [parseParts, parsePart, fields_eq_toks, ht, hne, hx, ha.1]

/-- **C08 (two fields).** `a:b`, with at most one blank on each side of the colon, is expanded as a unit-step range. -/
theorem C08_two_fields (float : List Char → Except PyErr K) (a b o1 o2 : List Char) (ha : SeqField a) (hb : SeqField b)
    (h1 : OptBlank o1) (h2 : OptBlank o2) (x y : K) (hx : float a = .ok x) (hy : float b = .ok y) :
    SeqItem (a ++ o1 ++ ':' :: o2 ++ b) ∧ parseSeq float (a ++ o1 ++ ':' :: o2 ++ b) = .ok (rangeUp x y) := by
  have hi : SeqItem (a ++ o1 ++ ':' :: o2 ++ b) := by
    refine ⟨marks_colon a o1 o2 b (fun c hc => (ha.2 c hc).2) h1 h2
      (fun prev => SeqField.marks (fun c hc => (hb.2 c hc).2) prev) none, ?_, getLast?_of_field hb.last⟩
    rw [List.append_assoc, List.append_assoc]; exact head?_of_field ha.head
  refine ⟨hi, ?_⟩
  have := C08_items float [] (by simp) [] (by simp) _ hi
  simp only [List.flatMap_nil, List.nil_append, List.map_nil] at this
  rw [this]
  have ht : toks (fun c => c == ':' || pySpace c) [] (a ++ o1 ++ ':' :: o2 ++ b) = [a, b] := by
    rw [List.append_assoc, List.append_assoc, toks_word _ a _ _ ha.fieldToks, ← List.append_assoc, toks_colon _ _ _ _ h1 h2]
    have hb' := toks_word (fun c => c == ':' || pySpace c) b [] [] hb.fieldToks
    simp only [List.append_nil] at hb'
    rw [hb']
    simp [flush, toks, ha.1, hb.1]
  simp only [parseParts, parsePart, fields_eq_toks, ht, hx, hy, List.append_nil]

/-- **C08 (three fields).** `a:s:b` likewise. -/
theorem C08_three_fields (float : List Char → Except PyErr K) (a s b o1 o2 o3 o4 : List Char) (ha : SeqField a)
    (hs : SeqField s) (hb : SeqField b) (h1 : OptBlank o1) (h2 : OptBlank o2) (h3 : OptBlank o3) (h4 : OptBlank o4)
    (x z y : K) (hx : float a = .ok x) (hz : float s = .ok z) (hy : float b = .ok y) :
    SeqItem (a ++ o1 ++ ':' :: o2 ++ (s ++ o3 ++ ':' :: o4 ++ b)) ∧
    parseSeq float (a ++ o1 ++ ':' :: o2 ++ (s ++ o3 ++ ':' :: o4 ++ b)) = rangeStep x z y := by
  have hi : SeqItem (a ++ o1 ++ ':' :: o2 ++ (s ++ o3 ++ ':' :: o4 ++ b)) := by
    refine ⟨marks_colon a o1 o2 _ (fun c hc => (ha.2 c hc).2) h1 h2
      (fun prev => marks_colon s o3 o4 b (fun c hc => (hs.2 c hc).2) h3 h4
        (fun prev => SeqField.marks (fun c hc => (hb.2 c hc).2) prev) prev) none, ?_,
        getLast?_of_field (getLast?_of_field hb.last)⟩
    rw [List.append_assoc, List.append_assoc]; exact head?_of_field ha.head
  refine ⟨hi, ?_⟩
  have := C08_items float [] (by simp) [] (by simp) _ hi
  simp only [List.flatMap_nil, List.nil_append, List.map_nil] at this
  rw [this]
  have ht : toks (fun c => c == ':' || pySpace c) [] (a ++ o1 ++ ':' :: o2 ++ (s ++ o3 ++ ':' :: o4 ++ b)) = [a, s, b] := by
    rw [List.append_assoc, List.append_assoc a, toks_word _ a _ _ ha.fieldToks, ← List.append_assoc o1,
      toks_colon _ _ _ _ h1 h2]
    rw [List.append_assoc, List.append_assoc s, toks_word _ s _ _ hs.fieldToks, ← List.append_assoc o3,
      toks_colon _ _ _ _ h3 h4]
    have hb' := toks_word (fun c => c == ':' || pySpace c) b [] [] hb.fieldToks
    simp only [List.append_nil] at hb'
    rw [hb']
    simp [flush, toks, ha.1, hb.1, hs.1]
  simp only [parseParts, parsePart, fields_eq_toks, ht, hx, hy, hz, List.append_nil]
  cases rangeStep x z y <;> simp

/-- **C08 (too many fields).** A piece with no field or more than three is a `ValueError`. -/
theorem C08_field_count (float : List Char → Except PyErr K) (part : List Char) (fs : List (List Char))
    (h : Tokenises (fun c => c == ':' || pySpace c) part fs) (hl : fs.length = 0 ∨ 3 < fs.length) :
    parsePart float part = .error .valueError := by
  unfold parsePart
  rw [fields_eq_toks, h.eq_toks]
  match fs, hl with
  | [], _ => rfl
  | [_], h => simp at h
  | [_, _], h => simp at h
  | [_, _, _], h => simp at h
  | _ :: _ :: _ :: _ :: _, _ => rfl

/-- **C08 (two blanks before a colon).** The item is cut in two: what follows is handed to `float` with its colon, so
`a  :b` is an error for every `float` that refuses colons. -/
theorem C08_two_blanks (float : List Char → Except PyErr K)
    (hfl : ∀ t, ':' ∈ t → float t = .error .valueError)
    (a b : List Char) (ha : SeqField a) (hb : SeqField b) (x : K) (hx : float a = .ok x) (p q : Char)
    (hp : pySpace p = true) (hq : pySpace q = true) :
    parseSeq float (a ++ [p, q] ++ ':' :: b) = .error .valueError := by
  have hsp := pySpace_isSep hp
  have hsq := pySpace_isSep hq
  have hpc : p ≠ ':' := by intro e; subst e; simp [isSep_colon] at hsp
  have hqc : q ≠ ':' := by intro e; subst e; simp [isSep_colon] at hsq
  obtain ⟨c, hl1, hl2, hl3⟩ := ha.last
  have hbm : ∀ x ∈ markFree (some ':') b, x.2 = false := SeqField.marks (fun c hc => (hb.2 c hc).2) _
  have ham : ∀ x ∈ markFree none a, x.2 = false := SeqField.marks (fun c hc => (ha.2 c hc).2) _
  have hm : markFree none (a ++ [p, q] ++ ':' :: b) =
      a.map (fun c => (c, false)) ++ ((p, true) :: (q, false) :: (':', false) :: b.map (fun c => (c, false))) := by
    rw [List.append_assoc, markFree_append a _ none c hl1 (by simp [hpc])]
    have e1 := map_const_of_all ham
    have e2 := map_const_of_all hbm
    rw [markFree_map_fst] at e1 e2
    rw [e1]
    simp only [List.cons_append, List.nil_append, markFree, e2]
    simp [hsp, hl2, hqc, isSep_colon]
  have ht : Tokenises (fun x : Char × Bool => x.2) (markFree none (a ++ [p, q] ++ ':' :: b))
      [a.map (fun c => (c, false)), (q, false) :: (':', false) :: b.map (fun c => (c, false))] := by
    rw [tokenises_iff, hm, toks_word _ _ _ _ (by simp)]
    have := toks_word (fun x : Char × Bool => x.2) (b.map (fun c => (c, false))) [] [(':', false), (q, false)] (by simp)
    simp only [List.append_nil] at this
    simp [toks, flush, ha.1, this]
  rw [C08_split float _ _ ht]
  have hf1 : toks (fun c => c == ':' || pySpace c) [] a = [a] := by
    have := toks_word (fun c => c == ':' || pySpace c) a [] [] ha.fieldToks
    simp only [List.append_nil] at this
    rw [this]; simp [toks, flush, ha.1]
  have hf2 : toks (fun c => c == ':' || pySpace c) [] (q :: ':' :: b) = [b] := by
    have := toks_word (fun c => c == ':' || pySpace c) b [] [] hb.fieldToks
    simp only [List.append_nil] at this
    simp [toks, flush, hq, this, hb.1]
  have e : ([a.map (fun c => (c, false)), (q, false) :: (':', false) :: b.map (fun c => (c, false))] :
      List (List (Char × Bool))).map (fun p => p.map Prod.fst) = [a, q :: ':' :: b] := by
    simp [Function.comp_def]
  rw [e]
  simp only [parseParts, parsePart, fields_eq_toks, hf1, hf2, hx, hfl (q :: ':' :: b) (by simp)]

end Numbers

example : SeqField "300".toList ∧ OptBlank " ".toList ∧ OptBlank [] ∧ SeqItem "300 : 5 :400".toList :=
  ⟨⟨by decide, by decide⟩, Or.inr ⟨' ', rfl, by decide⟩, Or.inl rfl,
    ⟨by decide, ⟨'3', rfl, by decide, by decide⟩, ⟨'0', rfl, by decide, by decide⟩⟩⟩

end TEflow
