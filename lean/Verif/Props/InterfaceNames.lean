import Mathlib.Data.List.Basic
import Verif.Model.Interface

/-! # C57, C58: output names and dispatch of the command line -/

namespace TEflow.Interface
open TEflow.Loader (splitOnChar startsWith)

/-! ## C57 -/

theorem splitOnChar_ne_nil (c : Char) (s : List Char) : splitOnChar c s ≠ [] := by
  induction s with
  | nil => simp [splitOnChar]
  | cons a s ih =>
    simp only [splitOnChar]
    split
    · simp
    · split <;> simp

theorem splitOnChar_free (c : Char) : ∀ s : List Char, c ∉ s → splitOnChar c s = [s]
  | [], _ => rfl
  | a :: s, h => by
    simp only [List.mem_cons, not_or] at h
    simp only [splitOnChar, if_neg (Ne.symm h.1), splitOnChar_free c s h.2]

theorem splitOnChar_append (c : Char) (d f : List Char) :
    splitOnChar c (d ++ c :: f) = splitOnChar c d ++ splitOnChar c f := by
  induction d with
  | nil => simp [splitOnChar]
  | cons a d ih =>
    simp only [List.cons_append, splitOnChar, ih]
    split
    · simp
    · have := splitOnChar_ne_nil c d
      revert this
      cases splitOnChar c d <;> simp

theorem pathName_free (g : List Char) (h1 : '/' ∉ g) (h2 : g ≠ []) (h3 : g ≠ ['.']) : pathName g = g := by
  simp [pathName, splitOnChar_free _ _ h1, h2, h3]

theorem splitOnChar_mem_free (c : Char) (s p : List Char) (h : p ∈ splitOnChar c s) : c ∉ p := by
  induction s generalizing p with
  | nil => simp [splitOnChar] at h; simp [h]
  | cons a s ih =>
    simp only [splitOnChar] at h
    split at h
    · simp only [List.mem_cons] at h
      rcases h with rfl | h
      · simp
      · exact ih _ h
    · rename_i hne
      cases hs : splitOnChar c s with
      | nil => simp [hs] at h; simp [h, Ne.symm hne]
      | cons q qs =>
        simp only [hs, List.mem_cons] at h
        rcases h with rfl | h
        · have := ih q (by simp [hs])
          simp [this, Ne.symm hne]
        · exact ih _ (by simp [hs, h])

theorem pathName_noslash (g : List Char) : '/' ∉ pathName g := by
  unfold pathName
  cases h : ((splitOnChar '/' g).filter fun c => c ≠ [] ∧ c ≠ ['.']).getLast? with
  | none => simp
  | some p =>
    have := List.mem_of_getLast? h
    simp only [List.mem_filter] at this
    exact splitOnChar_mem_free _ _ _ this.1

theorem stem_append (p : List Char) : stem p ++ suffixOf p = p := by
  simp [stem, suffixOf]

theorem lastDot_none (s : List Char) : lastDot s = none ↔ '.' ∉ s := by
  induction s with
  | nil => simp [lastDot]
  | cons c cs ih =>
    simp only [lastDot]
    cases h : lastDot cs with
    | some i => simp [h] at ih; simp [ih]
    | none =>
      have := ih.1 h
      by_cases hc : c = '.'
      · simp [hc]
      · simp [hc, this, Ne.symm hc]

/-- the last dot of a text: nothing after it is a dot -/
theorem lastDot_some (s : List Char) (i : Nat) : lastDot s = some i ↔ ∃ a t, s = a ++ '.' :: t ∧ '.' ∉ t ∧ a.length = i := by
  induction s generalizing i with
  | nil => simp [lastDot]
  | cons c cs ih =>
    simp only [lastDot]
    cases h : lastDot cs with
    | some j =>
      obtain ⟨a, t, h1, h2, h3⟩ := (ih j).1 h
      simp only [Option.some.injEq]
      constructor
      · rintro rfl
        exact ⟨c :: a, t, by simp [h1], h2, by simp [h3]⟩
      · rintro ⟨b, u, e1, e2, e3⟩
        match b, e1 with
        | [], e1 =>
          simp only [List.nil_append, List.cons.injEq] at e1
          exact absurd (by rw [← e1.2, h1]; simp) e2
        | d :: b, e1 =>
          simp only [List.cons_append, List.cons.injEq] at e1
          have := (ih b.length).2 ⟨b, u, e1.2, e2, rfl⟩
          rw [h] at this
          simp only [Option.some.injEq] at this
          rw [this, ← e3]; rfl
    | none =>
      have hn := (lastDot_none cs).1 h
      constructor
      · intro hh
        by_cases hc : c = '.'
        swap
        · simp [hc] at hh
        simp only [hc, if_true] at hh
        simp only [Option.some.injEq] at hh
        exact ⟨[], cs, by simp [hc], hn, by simp [hh]⟩
      · rintro ⟨b, u, e1, e2, e3⟩
        match b, e1 with
        | [], e1 =>
          simp only [List.nil_append, List.cons.injEq] at e1
          simp [e1.1, ← e3]
        | d :: b, e1 =>
          simp only [List.cons_append, List.cons.injEq] at e1
          exact absurd (by rw [e1.2]; simp) hn

/-- a non-empty suffix is a dot and at least one more character, none of them a dot, after a non-empty stem -/
theorem suffixOf_spec (p : List Char) (h : suffixOf p ≠ []) :
    ∃ t, suffixOf p = '.' :: t ∧ t ≠ [] ∧ '.' ∉ t ∧ stem p ≠ [] := by
  unfold suffixOf stem stemLen at *
  cases hl : lastDot p with
  | none => simp [hl] at h
  | some i =>
    simp only [hl] at h ⊢
    by_cases hc : 0 < i ∧ i < p.length - 1
    swap
    · rw [if_neg hc] at h; simp at h
    obtain ⟨a, t, h1, h2, h3⟩ := (lastDot_some p i).1 hl
    subst h3
    refine ⟨t, ?_, ?_, h2, ?_⟩
    · rw [if_pos hc, h1]; simp
    · rintro rfl
      simp [h1] at hc
    · rw [if_pos hc, h1]
      simpa [← List.length_pos_iff] using hc.1

/-- and every text of this form is cut there -/
theorem suffix_of_form (a t : List Char) (ha : a ≠ []) (ht : t ≠ []) (hd : '.' ∉ t) :
    stem (a ++ '.' :: t) = a ∧ suffixOf (a ++ '.' :: t) = '.' :: t := by
  have hl : lastDot (a ++ '.' :: t) = some a.length := (lastDot_some _ _).2 ⟨a, t, rfl, hd, rfl⟩
  have h1 := List.length_pos_iff.2 ha
  have h2 := List.length_pos_iff.2 ht
  have : stemLen (a ++ '.' :: t) = a.length := by
    simp only [stemLen, hl]
    rw [if_pos ⟨h1, by simp; omega⟩]
  simp [stem, suffixOf, this]

/-- **C57** A given output name is used as it is. -/
theorem C57_given (out inp suf ext : List Char) (h : out ≠ []) : suffixed out inp suf ext = out := by
  simp [suffixed, h]

/-- the generated name is the stem, an underscore and more -/
theorem suffixed_form (inp suf ext : List Char) :
    suffixed [] inp suf ext = stem (pathName inp) ++ '_' :: (suf ++
      if suffixOf (pathName inp) = [] then [] else if ext ≠ [] then ext else suffixOf (pathName inp)) := by
  by_cases h : suffixOf (pathName inp) = [] <;> simp [suffixed, h]

/-- **C57** The generated name (suffix and extension without a slash) is a plain file name in the current directory and
differs from the input's own file name, wherever the input is. -/
theorem C57_generated (inp suf ext : List Char) (hs : '/' ∉ suf) (he : '/' ∉ ext) :
    let g := suffixed [] inp suf ext
    '/' ∉ g ∧ pathName g = g ∧ g ≠ pathName inp := by
  intro g
  have hp := pathName_noslash inp
  have hsp := stem_append (pathName inp)
  have h1 : '/' ∉ g := by
    have a1 : '/' ∉ stem (pathName inp) := fun h => hp (by rw [← hsp]; simp [h])
    have a2 : '/' ∉ suffixOf (pathName inp) := fun h => hp (by rw [← hsp]; simp [h])
    simp only [g, suffixed_form, List.mem_append, List.mem_cons, not_or]
    refine ⟨a1, by decide, hs, ?_⟩
    split <;> [simp; (split <;> assumption)]
  refine ⟨h1, pathName_free g h1 (by simp [g, suffixed_form]) ?_, ?_⟩
  · intro h
    have : '_' ∈ g := by simp [g, suffixed_form]
    rw [h] at this
    simp at this
  · intro h
    have : g = stem (pathName inp) ++ suffixOf (pathName inp) := by rw [hsp]; exact h
    simp only [g, suffixed_form, List.append_cancel_left_eq] at this
    by_cases hn : suffixOf (pathName inp) = []
    · rw [hn] at this; simp at this
    · obtain ⟨t, ht, -⟩ := suffixOf_spec _ hn
      rw [ht] at this
      simp at this

/-- **C57** The five files of `tef-kappa` have five different names, whatever the output and input are called. -/
theorem C57_kappa_distinct (out inp suf : List Char) : ((kappaOutputs out inp suf).map pathName).Nodup := by
  simp only [kappaOutputs]
  generalize suffixed out inp suf ".txt".toList = o
  have hr := C57_generated o "rate".toList [] (by decide) (by decide)
  have hs := C57_generated o "spec".toList [] (by decide) (by decide)
  have hc := C57_generated o "cumu".toList [] (by decide) (by decide)
  have hb := C57_generated o "subs".toList ".cfg".toList (by decide) (by decide)
  simp only [List.map_cons, List.map_nil, hr.2.1, hs.2.1, hc.2.1, hb.2.1]
  simp only [List.nodup_cons, List.mem_cons, not_or, List.not_mem_nil, not_false_eq_true, List.nodup_nil, and_true]
  refine ⟨⟨hr.2.2.symm, hs.2.2.symm, hc.2.2.symm, hb.2.2.symm⟩, ⟨?_, ?_, ?_⟩, ⟨?_, ?_⟩, ?_⟩ <;>
    · simp only [suffixed_form]
      simp

/-- **C57** With an automatic output name no file of `tef-kappa` has the input's file name. -/
theorem C57_kappa_auto (inp suf : List Char) (hs : '/' ∉ suf) :
    pathName inp ∉ (kappaOutputs [] inp suf).map pathName := by
  simp only [kappaOutputs]
  set o := suffixed [] inp suf ".txt".toList with ho
  have h0 := C57_generated inp suf ".txt".toList hs (by decide)
  have hr := C57_generated o "rate".toList [] (by decide) (by decide)
  have hsp := C57_generated o "spec".toList [] (by decide) (by decide)
  have hc := C57_generated o "cumu".toList [] (by decide) (by decide)
  have hb := C57_generated o "subs".toList ".cfg".toList (by decide) (by decide)
  simp only [List.map_cons, List.map_nil, hr.2.1, hsp.2.1, hc.2.1, hb.2.1]
  simp only [List.mem_cons, not_or, List.not_mem_nil, not_false_eq_true, and_true]
  have key : ∀ s e : List Char, e = [] ∨ e = '.' :: "cfg".toList → suffixed [] o s e ≠ pathName inp := by
    intro s e hee h
    have hpo : pathName o = o := h0.2.1
    rw [suffixed_form, hpo] at h
    by_cases hn : suffixOf (pathName inp) = []
    · -- the input has no suffix: the output is longer
      have e1 : o = pathName inp ++ '_' :: suf := by
        have := stem_append (pathName inp)
        rw [hn, List.append_nil] at this
        rw [ho, suffixed_form, if_pos hn, this, List.append_nil]
      by_cases hm : suffixOf o = []
      · have e2 : stem o = o := by simpa [hm] using stem_append o
        rw [if_pos hm, e2, e1] at h
        have := congrArg List.length h
        simp at this
      · by_cases he : e = []
        · rw [if_neg hm, if_neg (by simp [he])] at h
          have := congrArg List.length h
          have l1 := congrArg List.length (stem_append o)
          rw [e1] at l1
          simp at this l1; rw [e1] at this; omega
        · have he' := hee.resolve_left he
          rw [if_neg hm, if_pos he, he'] at h
          have := (suffix_of_form (stem o ++ '_' :: s) "cfg".toList (by simp) (by decide) (by decide)).2
          rw [List.append_assoc, List.cons_append, h, hn] at this
          exact absurd this (by simp)
    · obtain ⟨t, ht, -⟩ := suffixOf_spec _ hn
      have e1 : o = (stem (pathName inp) ++ '_' :: suf) ++ '.' :: "txt".toList := by
        rw [ho, suffixed_form, if_neg hn, if_pos (by decide)]
        simp
      have e2 := (suffix_of_form (stem (pathName inp) ++ '_' :: suf) "txt".toList (by simp) (by decide) (by decide)).1
      rw [← e1] at e2
      have e3 := stem_append (pathName inp)
      rw [ht] at e3
      rw [e2] at h
      have h' := h.trans e3.symm
      simp at h'
  exact ⟨fun h => h0.2.2 (h0.2.1 ▸ h.symm), fun h => key _ _ (.inl rfl) h.symm, fun h => key _ _ (.inl rfl) h.symm,
    fun h => key _ _ (.inl rfl) h.symm, fun h => key _ _ (.inr rfl) h.symm⟩

/-- **C57** A given output name protects nothing: the derived names of `tef-kappa` can hit the input, which is then
overwritten. -/
theorem C57_overwrite :
    "x_subs.cfg".toList ∈ kappaOutputs "x.txt".toList "x_subs.cfg".toList "kappa".toList := by decide

/-- **C57** The directory of the input (or of the main output of `tef-kappa`) is dropped from every generated name. -/
theorem C57_directory_dropped (d f suf ext : List Char) (h1 : '/' ∉ f) (h2 : f ≠ []) (h3 : f ≠ ['.']) :
    suffixed [] (d ++ '/' :: f) suf ext = suffixed [] f suf ext := by
  have : pathName (d ++ '/' :: f) = pathName f := by
    rw [pathName_free f h1 h2 h3]
    simp only [pathName, splitOnChar_append, splitOnChar_free '/' f h1, List.filter_append]
    simp [h2, h3]
  simp only [suffixed, this]

/-- **C57** An input without a suffix gives an output without a suffix: the extension asked for is ignored. -/
theorem C57_no_suffix (inp suf ext : List Char) (h : suffixOf (pathName inp) = []) :
    suffixed [] inp suf ext = pathName inp ++ '_' :: suf := by
  have := stem_append (pathName inp)
  rw [h, List.append_nil] at this
  simp [suffixed_form, h, this]

example : suffixed [] "data/a.b.dat".toList "interp".toList [] = "a.b_interp.dat".toList := by decide
example : suffixed [] "run.cfg".toList "kappa".toList ".txt".toList = "run_kappa.txt".toList := by decide
example : suffixed [] ".hidden".toList "format".toList ".txt".toList = ".hidden_format".toList := by decide
example : kappaOutputs "out/k.txt".toList "a.cfg".toList "kappa".toList =
    ["out/k.txt".toList, "k_rate.txt".toList, "k_spec.txt".toList, "k_cumu.txt".toList, "k_subs.cfg".toList] := by decide

/-! ## C58 -/

theorem startsWith_iff (c s : List Char) : startsWith c s = true ↔ ∃ t, s = c ++ t := by
  simp only [startsWith, List.isPrefixOf_iff_prefix]
  constructor
  · rintro ⟨t, h⟩; exact ⟨t, h.symm⟩
  · rintro ⟨t, h⟩; exact ⟨t, h.symm⟩

/-- the sub-commands do not depend on the order in which they are tried: no name begins with another one -/
theorem commands_unique (s c c' : List Char) (hc : c ∈ commands) (hc' : c' ∈ commands) (h : startsWith c s = true)
    (h' : startsWith c' s = true) : c = c' := by
  have key : ∀ a ∈ commands, ∀ b ∈ commands, a.isPrefixOf b = true → a = b := by decide
  simp only [startsWith, List.isPrefixOf_iff_prefix] at h h' key
  rcases Nat.le_total c.length c'.length with hl | hl
  · exact key c hc c' hc' (List.prefix_of_prefix_length_le h h' hl)
  · exact (key c' hc' c hc (List.prefix_of_prefix_length_le h' h hl)).symm

/-- the documented sub-commands -/
def subcommands : List String := ["interp", "mixing", "ztdev", "engout", "format", "cutoff", "refine", "band", "kappa"]

/-- `c` is the letter `n` in either case (the Kelvin sign counts as a k) -/
def SameLetter (c n : Char) : Prop := c.toLower = n ∨ (n = 'k' ∧ c = '\u212a')

/-- the text begins with the name, in any case -/
def BeginsWith (a name : List Char) : Prop := ∃ u t, a = u ++ t ∧ List.Forall₂ SameLetter u name

theorem commands_eq : commands = subcommands.map String.toList := by decide

theorem lowerC_iff {c n : Char} (hn : n ≠ '\u212a') : lowerC c = n ↔ SameLetter c n := by
  unfold lowerC SameLetter
  by_cases h : c = '\u212a'
  · subst h
    have : ('\u212a' : Char).toLower = '\u212a' := by decide
    rw [if_pos rfl, this]
    constructor
    · intro e; exact .inr ⟨e.symm, rfl⟩
    · rintro (e | e)
      · exact absurd e.symm hn
      · exact e.1.symm
  · rw [if_neg h]
    simp [h]

theorem begins_iff (a c : List Char) (hc : '\u212a' ∉ c) : (∃ t, a.map lowerC = c ++ t) ↔ BeginsWith a c := by
  induction c generalizing a with
  | nil => exact ⟨fun _ => ⟨[], a, rfl, .nil⟩, fun _ => ⟨_, rfl⟩⟩
  | cons n c ih =>
    simp only [List.mem_cons, not_or] at hc
    cases a with
    | nil =>
      constructor
      · rintro ⟨t, h⟩; simp at h
      · rintro ⟨u, t, h, h2⟩
        cases h2
        simp at h
    | cons x a =>
      have ih := ih a hc.2
      constructor
      · rintro ⟨t, h⟩
        simp only [List.map_cons, List.cons_append, List.cons.injEq] at h
        obtain ⟨u, t', e, h2⟩ := ih.1 ⟨t, h.2⟩
        exact ⟨x :: u, t', by rw [e]; rfl, .cons ((lowerC_iff (Ne.symm hc.1)).1 h.1) h2⟩
      · rintro ⟨u, t, h, h2⟩
        cases h2 with
        | cons h3 h4 =>
          rename_i y u
          simp only [List.cons_append, List.cons.injEq] at h
          obtain ⟨t', e⟩ := ih.2 ⟨u, t, h.2, h4⟩
          refine ⟨t', ?_⟩
          rw [List.map_cons, e, h.1, (lowerC_iff (Ne.symm hc.1)).2 h3]
          rfl

theorem begins_command (a : List Char) (n : String) (hn : n ∈ subcommands) :
    (∃ t, a.map lowerC = n.toList ++ t) ↔ BeginsWith a n.toList :=
  begins_iff a _ (by revert n; decide)

/-- **C58** The first argument selects the sub-command with whose name it begins, in any case of letters; the other arguments are passed
on unchanged. -/
theorem C58_run (a : List Char) (rest argv : List (List Char)) (c : List Char) (r : List (List Char)) :
    doMain (a :: rest) argv = .run c r ↔ r = rest ∧ ∃ n ∈ subcommands, c = n.toList ∧ BeginsWith a n.toList := by
  have key : doMain (a :: rest) argv = .run c r ↔ r = rest ∧ c ∈ commands ∧ ∃ t, a.map lowerC = c ++ t := by
    simp only [doMain, ne_eq, reduceCtorEq, not_false_eq_true, if_true]
    cases h : commands.find? fun c => startsWith c (a.map lowerC) with
    | none =>
      simp only [reduceCtorEq, false_iff, not_and]
      rintro - hc ⟨t, ht⟩
      have := List.find?_eq_none.1 h c hc
      exact this ((startsWith_iff _ _).2 ⟨t, ht⟩)
    | some d =>
      have hd := List.mem_of_find?_eq_some h
      have hs : startsWith d (a.map lowerC) = true := by simpa using List.find?_some h
      simp only [Action.run.injEq]
      constructor
      · rintro ⟨rfl, rfl⟩
        exact ⟨rfl, hd, (startsWith_iff _ _).1 hs⟩
      · rintro ⟨rfl, hc, ht⟩
        exact ⟨commands_unique _ _ _ hd hc hs ((startsWith_iff _ _).2 ht), rfl⟩
  rw [key, commands_eq]
  constructor
  · rintro ⟨hr, hc, ht⟩
    obtain ⟨n, hn, rfl⟩ := List.mem_map.1 hc
    exact ⟨hr, n, hn, rfl, (begins_command a n hn).1 ht⟩
  · rintro ⟨hr, n, hn, rfl, hb⟩
    exact ⟨hr, List.mem_map_of_mem hn, (begins_command a n hn).2 hb⟩

/-- **C58** Any other first argument prints the help; no argument at all prints the version line; an empty argument list
is replaced by the process arguments. -/
theorem C58_other (a : List Char) (rest argv : List (List Char)) :
    (doMain (a :: rest) argv = .help ↔ ∀ n ∈ subcommands, ¬ BeginsWith a n.toList) ∧
    doMain [] [] = .version ∧ doMain (a :: rest) argv ≠ .version ∧ doMain [] (a :: rest) = doMain (a :: rest) [] := by
  have hv : doMain (a :: rest) argv ≠ .version := by
    simp only [doMain, ne_eq, reduceCtorEq, not_false_eq_true, if_true]
    split <;> simp
  refine ⟨?_, rfl, hv, rfl⟩
  cases h : doMain (a :: rest) argv with
  | version => exact absurd h hv
  | run c r =>
    obtain ⟨-, n, hn, -, hb⟩ := (C58_run a rest argv c r).1 h
    simp only [reduceCtorEq, false_iff, not_forall, not_not]
    exact ⟨n, hn, hb⟩
  | help =>
    simp only [true_iff]
    intro n hn hb
    have := (C58_run a rest argv n.toList rest).2 ⟨rfl, n, hn, rfl, hb⟩
    rw [h] at this
    cases this

example : doMain ["Format-data".toList, "x".toList] [] = .run "format".toList ["x".toList] := by decide
example : doMain ["help".toList] [] = .help := by decide
example : doMain [] ["KAPPA".toList] = .run "kappa".toList [] := by decide

end TEflow.Interface
