import Verif.Props.KappaRun

/-! # C124: the options of `tef-kappa` -/

namespace TEflow.KappaRun

open PyDict Re Loader Interface TableFile ToolRuns KappaCfg

/-! ## Specification: the setting in force -/

/-- what counts for an option: the command line if it is given there, otherwise the section `entry` -/
def setting (o : Options) (e : Entry) (k : String) : Option (List Char) :=
  if k = "npoints" then o.npoints.or (get? e k)
  else if k = "margin" then o.margin.or (get? e k)
  else if k = "predict" then o.predict.or (get? e k)
  else if k = "temperature" then o.temperature.or (get? e k)
  else if k = "frequnit" then o.frequnit.or (get? e k)
  else if k = "substituted" then (if o.substituted then some "true".toList else get? e k)
  else if k = "splitkappa" ∨ k = "scattering" ∨ k = "spectral" ∨ k = "cumulate" then (if o.less then some "false".toList else get? e k)
  else get? e k

theorem update_append (a b e : Entry) : update (a ++ b) e = update b (update a e) := by simp [update, List.foldl_append]

theorem update_given (k : String) (v : Option (List Char)) (e : Entry) (j : String) :
    get? (update (given k v) e) j = if k = j then v.or (get? e j) else get? e j := by
  cases v with
  | none => simp [given, update]
  | some t =>
    rw [given, Option.map_some, Option.toList_some]
    show get? (PyDict.set e k t) j = _
    rw [get?_set]
    rfl

theorem update_if (b : Bool) (k : String) (t : List Char) (e : Entry) (j : String) :
    get? (update (if b then [(k, t)] else []) e) j = if k = j then (if b then some t else get? e j) else get? e j := by
  cases b
  · simp [update]
  · show get? (PyDict.set e k t) j = _
    rw [get?_set]
    rfl

theorem get_setting (o : Options) (e : Entry) (k : String) : get? (update o.specify e) k = setting o e k := by
  unfold Options.specify
  rw [update_append, update_append, update_append, update_append, update_append, update_append]
  have h4 : ∀ e : Entry, get? (update (if o.less = true then [("splitkappa", "false".toList), ("scattering", "false".toList), ("spectral", "false".toList),
      ("cumulate", "false".toList)] else []) e) k =
      if k = "splitkappa" ∨ k = "scattering" ∨ k = "spectral" ∨ k = "cumulate" then (if o.less then some "false".toList else get? e k) else get? e k := by
    intro e
    cases o.less
    · simp [update]
    · show get? (PyDict.set (PyDict.set (PyDict.set (PyDict.set e "splitkappa" "false".toList) "scattering" "false".toList) "spectral" "false".toList) "cumulate" "false".toList) k = _
      simp only [get?_set, if_true]
      by_cases h1 : "cumulate" = k
      · subst h1; simp
      · by_cases h2 : "spectral" = k
        · subst h2; simp
        · by_cases h3 : "scattering" = k
          · subst h3; simp
          · by_cases h4 : "splitkappa" = k
            · subst h4; simp
            · simp [h1, h2, h3, h4, Ne.symm h1, Ne.symm h2, Ne.symm h3, Ne.symm h4]
  rw [h4, update_if, update_given, update_given, update_given, update_given, update_given]
  unfold setting
  by_cases h1 : k = "npoints"
  · subst h1; simp
  by_cases h2 : k = "margin"
  · subst h2; simp
  by_cases h3 : k = "predict"
  · subst h3; simp
  by_cases h4 : k = "temperature"
  · subst h4; simp
  by_cases h5 : k = "frequnit"
  · subst h5; simp
  by_cases h6 : k = "substituted"
  · subst h6; simp
  simp only [if_neg h1, if_neg h2, if_neg h3, if_neg h4, if_neg h5, if_neg h6, if_neg (Ne.symm h1), if_neg (Ne.symm h2), if_neg (Ne.symm h3),
    if_neg (Ne.symm h4), if_neg (Ne.symm h5), if_neg (Ne.symm h6)]

/-! ## Where the options are used -/

theorem entry_congr {E : Env} {fs : Files} {lines : List (List Char)} {cfg : Config} {e e' : Entry} (h : ∀ k, get? e k = get? e' k) :
    parseRest E fs lines cfg e = parseRest E fs lines cfg e' := by
  have hb : getBoolean e = getBoolean e' := by
    funext k d
    unfold getBoolean
    rw [h]
  have hc : ∀ {α : Type} (conv : List Char → Except PyErr α), getConv conv e = getConv conv e' := by
    intro α conv
    funext k d
    unfold getConv
    rw [h]
  unfold parseRest modelStep fitStep expdata subsStep npoints pointsStep detailStep splitStep unitStep rateStep specStep cumuStep
  simp only [hb, hc, h]

/-- the two configurations have the same sections but for the contents of `entry` -/
def SameButEntry (cfg cfg' : Config) : Prop := List.Forall₂ (fun a b => a.1 = b.1 ∧ (a.1 ≠ "entry".toList → a.2 = b.2)) cfg cfg'

theorem SameButEntry.get {cfg cfg' : Config} (h : SameButEntry cfg cfg') {n : List Char} (hn : n ≠ "entry".toList) : get? cfg n = get? cfg' n := by
  induction h with
  | nil => rfl
  | @cons a b l l' h1 _ ih =>
    obtain ⟨ka, va⟩ := a
    obtain ⟨kb, vb⟩ := b
    obtain ⟨h0, h1⟩ := h1
    simp only at h0 h1
    subst h0
    rw [get?_cons, get?_cons, ih]
    by_cases hk : ka = n
    · subst hk; rw [if_pos rfl, if_pos rfl, h1 hn]
    · rw [if_neg hk, if_neg hk]

theorem SameButEntry.pmatch {cfg cfg' : Config} (h : SameButEntry cfg cfg') (name : List Char) :
    Utils.pmatch cfg name = Utils.pmatch cfg' name ∨
      ∃ i i', Utils.pmatch cfg name = .ok (i, "entry".toList) ∧ Utils.pmatch cfg' name = .ok (i', "entry".toList) := by
  induction h with
  | nil => exact .inl rfl
  | @cons a b l l' h1 _ ih =>
    obtain ⟨ka, va⟩ := a
    obtain ⟨kb, vb⟩ := b
    obtain ⟨h0, h1⟩ := h1
    simp only at h0 h1
    subst h0
    simp only [Utils.pmatch]
    by_cases hp : (name ++ ['.']).isPrefixOf ka = true
    · rw [if_pos hp, if_pos hp]
      left
      rw [h1]
      rintro rfl
      obtain ⟨r, hr⟩ := List.isPrefixOf_iff_prefix.1 hp
      have : '.' ∈ "entry".toList := by rw [← hr]; simp
      exact absurd this (by decide)
    · rw [if_neg hp, if_neg hp]
      by_cases hk : ka = name
      · subst hk
        rw [if_pos rfl, if_pos rfl]
        by_cases he : ka = "entry".toList
        · subst he
          exact .inr ⟨va, vb, rfl, rfl⟩
        · left
          rw [h1 he]
      · rw [if_neg hk, if_neg hk]
        exact ih

theorem SameButEntry.parseSub {cfg cfg' : Config} (h : SameButEntry cfg cfg') (float : List Char → Except PyErr ℝ) (vars : List (List Char × VarVal)) :
    ∀ n, KappaCfg.parseSub float cfg vars n = KappaCfg.parseSub float cfg' vars n
  | 0 => rfl
  | n + 1 => by
    funext name
    rw [KappaCfg.parseSub, KappaCfg.parseSub, parseSub h float vars n]
    rcases h.pmatch name with e | ⟨i, i', e1, e2⟩
    · rw [e]
    · rw [e1, e2]
      have : get? execMeta (String.ofList "entry".toList) = none := by decide
      simp only [this]

theorem cfg_congr {E : Env} {fs fs' : Files} {lines lines' : List (List Char)} {cfg cfg' : Config} {e : Entry} (h : SameButEntry cfg cfg')
    (hd : ∀ t, get? e "expdata" = some t → parseArray E.float fs' t = parseArray E.float fs t)
    (hs : lines' = lines ∨ getBoolean e "substituted" false = .ok false) :
    parseRest E fs lines cfg e = parseRest E fs' lines' cfg' e := by
  rw [rest_congr hd]
  have h1 : varsStep E cfg = varsStep E cfg' := by
    unfold varsStep
    rw [h.get (by decide)]
  have h2 : modelStep E cfg = modelStep E cfg' := by
    funext e l
    unfold modelStep
    rw [h.parseSub]
  have h3 : ∀ l s, subsStep E e l s lines = subsStep E e l s lines' := by
    intro l s
    rcases hs with rfl | hs
    · rfl
    · unfold subsStep
      rw [hs]
  unfold parseRest
  simp only [h1, h2, h3]

theorem updateCfg_same {cfg cfg' : Config} (h : SameButEntry cfg cfg') (sp sp' : Entry) : SameButEntry (updateCfg sp cfg) (updateCfg sp' cfg') := by
  unfold SameButEntry updateCfg
  rw [List.forall₂_map_left_iff, List.forall₂_map_right_iff]
  refine h.imp ?_
  rintro a b ⟨h1, h2⟩
  by_cases ha : a.1 = "entry".toList
  · rw [if_pos ha, if_pos (h1 ▸ ha)]
    exact ⟨h1, fun hn => absurd ha hn⟩
  · rw [if_neg ha, if_neg (h1 ▸ ha)]
    exact ⟨h1, h2⟩

/-! ## C124 -/

/-- **C124** The command line and the section `entry`: two runs whose configurations differ in the section `entry` only, with the same
settings in force (from the command line if given there, otherwise from the file), that read the same data, have the same results; with
the same text of the configuration this includes the substituted configuration. -/
theorem C124_command_line (E : Env) (o o' : Options) (fs fs' : Files) (text text' : List Char) (p p' : CfgText.Parsed) (e e' : Entry)
    (ht : fs o.inputfile = some text) (ht' : fs' o'.inputfile = some text')
    (hp : CfgText.readCfg (rawLines text) = .ok p) (hp' : CfgText.readCfg (rawLines text') = .ok p')
    (he : get? p.items "entry".toList = some e) (he' : get? p'.items "entry".toList = some e')
    (hsame : SameButEntry p.items p'.items) (hset : ∀ k, setting o e k = setting o' e' k)
    (hdata : ∀ t, get? e "expdata" = some t → ∀ rest, strip t = "file:".toList ++ rest → fs' (strip rest) = fs (strip rest))
    (hs : text' = text ∨ setting o e "substituted" ∈ [none, some "false".toList]) :
    parseKappa E o.specify fs o.inputfile = parseKappa E o'.specify fs' o'.inputfile := by
  unfold parseKappa
  rw [ht, ht']
  simp only [hp, hp']
  rw [(updateCfg_entry o.specify p.items _).2 ⟨e, he, rfl⟩, (updateCfg_entry o'.specify p'.items _).2 ⟨e', he', rfl⟩]
  simp only
  rw [← entry_congr (e := update o.specify e) (e' := update o'.specify e') fun k => by rw [get_setting, get_setting, hset]]
  rw [cfg_congr (updateCfg_same hsame o.specify o'.specify)]
  · intro t h
    rw [update_get _ _ _ (fun q hq he => absurd (specify_keys o q hq) (by rw [he]; decide))] at h
    exact parseArray_congr (hdata t h)
  · rcases hs with rfl | hs
    · exact .inl rfl
    · right
      unfold getBoolean
      rw [get_setting]
      simp only [List.mem_cons, List.not_mem_nil, or_false] at hs
      rcases hs with hs | hs <;> rw [hs] <;> rfl

/-- the columns of the prediction in the file -/
def MainFile (E : Env) (o : Options) (fs' : Files) (xs : List ℝ) (cols : Cols) : Prop :=
  ∃ t, tableText E o "Predict kappa" "Xcolumn" xs cols = .ok t ∧ fs' o.main = some t

/-- **C124** With `-Q` only the main file (and the substituted configuration) is written: the detail files, also those of an earlier run, are as before, and the
main file has one column besides the abscissas, labelled by the name of the model. -/
theorem C124_less (E : Env) (o : Options) (fs : Files) (ho : o.less = true) (h : (doKappa E o fs).2 = .ok ()) :
    (doKappa E o fs).1 o.rate = fs o.rate ∧ (doKappa E o fs).1 o.spec = fs o.spec ∧ (doKappa E o fs).1 o.cumu = fs o.cumu ∧
    ∃ xs name ys, MainFile E o (doKappa E o fs).1 xs [("Kappa-".toList ++ name, ys)] := by
  obtain ⟨r, h1, h2, h3, h4, h5, -, -⟩ := C124_files E o fs h
  obtain ⟨text, p, e, -, -, he, hr⟩ := parse_steps h1
  obtain ⟨e0, -, rfl⟩ := (updateCfg_entry _ _ _).1 he
  have hb : ∀ k d, k = "splitkappa" ∨ k = "scattering" ∨ k = "spectral" ∨ k = "cumulate" → getBoolean (update o.specify e0) k d = .ok false := by
    intro k d hk
    unfold getBoolean
    rw [get_setting]
    unfold setting
    rcases hk with rfl | rfl | rfl | rfl <;> simp [ho] <;> decide
  obtain ⟨l, s0, ob, data, s, subs, n, xs, ys, -, -, -, -, -, -, -, h8⟩ := rest_steps hr
  have hrr : r = { predX := xs, pred := [("Kappa-".toList ++ ob.tag, ys)], subs := subs } := by
    rcases detail_steps h8 with ⟨-, rfl⟩ | ⟨-, d, pred, T, u, rate, spec, cumu, -, b2, -, -, b5, b6, b7, rfl⟩
    · rfl
    · rw [splitStep, hb _ _ (.inl rfl)] at b2
      rw [rateStep, hb _ _ (.inr (.inl rfl))] at b5
      rw [specStep, hb _ _ (.inr (.inr (.inl rfl)))] at b6
      rw [cumuStep, hb _ _ (.inr (.inr (.inr rfl)))] at b7
      cases b2; cases b5; cases b6; cases b7
      rfl
  subst hrr
  exact ⟨h3, h4, h5, xs, ob.tag, ys, h2⟩

/-- **C124** Incomplete configurations: without `model` in the section `entry` a run is a `ValueError` (unless already the variables are wrong),
and with variables to fit and no `expdata` as well. -/
theorem C124_incomplete (E : Env) (o : Options) (fs : Files) (text : List Char) (p : CfgText.Parsed) (e : Entry) (l : List (List Char × VarVal))
    (s : KappaVar.St) (hf : fs o.inputfile = some text) (hp : CfgText.readCfg (rawLines text) = .ok p)
    (he : get? (updateCfg o.specify p.items) "entry".toList = some e) (hv : varsStep E (updateCfg o.specify p.items) = .ok (l, s)) :
    (get? e "model" = none → doKappa E o fs = (fs, .error (.py .valueError))) ∧
    (∀ ob, modelStep E (updateCfg o.specify p.items) e l = .ok ob → fitting l ≠ [] → get? e "expdata" = none →
      doKappa E o fs = (fs, .error (.py .valueError))) := by
  constructor
  · intro hm
    have h1 : modelStep E (updateCfg o.specify p.items) e l = .error .valueError := by rw [modelStep, hm]
    have h2 : parseRest E fs (rawLines text) (updateCfg o.specify p.items) e = .error .valueError := by
      simp only [parseRest, bind, Except.bind, hv, h1]
    rw [doKappa, parseKappa, hf]
    simp only [hp, he, h2, liftErr]
  · intro ob hm hn hx
    have h1 : fitStep E fs e ob (fitting l) s = .error .valueError := by
      rw [fitStep, if_neg hn, expdata, hx]
    have h2 : parseRest E fs (rawLines text) (updateCfg o.specify p.items) e = .error .valueError := by
      simp only [parseRest, bind, Except.bind, hv, hm, h1]
    rw [doKappa, parseKappa, hf]
    simp only [hp, he, h2, liftErr]

end TEflow.KappaRun
