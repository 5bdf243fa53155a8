import Verif.Props.KappaRunPred
import Verif.Props.CfgSubstModel

/-! # C124: a run on the substituted configuration of an earlier run -/

namespace TEflow.KappaRun

open PyDict Re Loader Interface TableFile ToolRuns KappaCfg CfgText

/-! ## Lines of a file -/

/-- the lines of a text, with their line ends; the last one may have none -/
inductive Lined : List (List Char) → Prop where
  | nil : Lined []
  | last (l : List Char) (hne : l ≠ []) (h : '\n' ∉ l) : Lined [l]
  | cons (x : List Char) (h : '\n' ∉ x) (rest : List (List Char)) (hr : Lined rest) : Lined ((x ++ ['\n']) :: rest)

theorem rawGo_append : ∀ (x cur rest : List Char), '\n' ∉ x → rawGo cur (x ++ rest) = rawGo (x.reverse ++ cur) rest
  | [], _, _, _ => rfl
  | c :: x, cur, rest, h => by
    rw [List.mem_cons, not_or] at h
    rw [List.cons_append, rawGo, if_neg (Ne.symm h.1), rawGo_append x _ _ h.2]
    simp

theorem rawGo_lined : ∀ (text cur : List Char), '\n' ∉ cur → Lined (rawGo cur text)
  | [], cur, h => by
    rw [rawGo]
    split_ifs with hc
    · exact .nil
    · exact .last _ (by simpa using hc) (by simpa using h)
  | c :: cs, cur, h => by
    rw [rawGo]
    split_ifs with hc
    · subst hc
      rw [List.reverse_cons]
      exact .cons _ (by simpa using h) _ (rawGo_lined cs [] (by simp))
    · exact rawGo_lined cs (c :: cur) (by rw [List.mem_cons, not_or]; exact ⟨Ne.symm hc, h⟩)

/-- the lines of a file are lines of a text -/
theorem lined_raw (text : List Char) : Lined (rawLines text) := rawGo_lined text [] (by simp)

/-- lines written and read again -/
theorem raw_lined {ls : List (List Char)} (h : Lined ls) : rawLines ls.flatten = ls := by
  unfold rawLines
  induction h with
  | nil => rfl
  | last l hne h =>
    have := rawGo_append l [] [] h
    simp only [List.append_nil] at this
    rw [List.flatten_cons, List.flatten_nil, List.append_nil, this, rawGo, if_neg (by simpa using hne), List.reverse_reverse]
  | cons x h rest hr ih =>
    rw [List.flatten_cons, List.append_assoc, rawGo_append _ _ _ h, List.singleton_append, rawGo, if_pos rfl, ih]
    simp

theorem lined_dropLast {ls : List (List Char)} (h : Lined ls) : ∀ l ∈ ls, '\n' ∉ l.dropLast := by
  induction h with
  | nil => intro l hl; cases hl
  | last l hne h =>
    intro l' hl hm
    rw [List.mem_singleton.1 hl] at hm
    exact h (List.mem_of_mem_dropLast hm)
  | cons x h rest hr ih =>
    intro l hl
    rcases List.mem_cons.1 hl with rfl | hl
    · simpa using h
    · exact ih l hl

theorem num_no_newline {v : List Char} (h : NumText v) : '\n' ∉ v := fun hm => absurd (h.2.1 _ hm) (by decide)

theorem newText_lined {tag value l l' : List Char} (hv : '\n' ∉ value) (h : NewText tag value l l') :
    ('\n' ∉ l → l' ≠ [] ∧ '\n' ∉ l') ∧ ∀ x, l = x ++ ['\n'] → '\n' ∉ x → ∃ x', l' = x' ++ ['\n'] ∧ '\n' ∉ x' := by
  obtain ⟨ind, s, pre, post, -, -, -, rfl, rfl⟩ := h
  refine ⟨fun hn => ⟨by simp, ?_⟩, fun x hx hn => ?_⟩
  · simp only [List.mem_append, List.mem_cons, not_or] at hn ⊢
    obtain ⟨h1, h2, h3, -, h4, -, h5⟩ := hn
    exact ⟨h1, h2, h3, by decide, by decide, hv, by decide, h5⟩
  · have hpost : ∃ post', post = post' ++ ['\n'] := by
      rcases List.eq_nil_or_concat post with rfl | ⟨p, c, rfl⟩
      · have := congrArg List.getLast? hx
        simp only [List.getLast?_append, List.getLast?_singleton, Option.some_or] at this
        simp [List.getLast?_cons] at this
      · have := congrArg List.getLast? hx
        rw [List.concat_eq_append] at this
        simp [List.getLast?_append, List.getLast?_cons] at this
        subst this
        exact ⟨p, by simp⟩
    obtain ⟨post', rfl⟩ := hpost
    refine ⟨ind ++ (tag ++ (s ++ '=' :: (' ' :: (value ++ (" # ?".toList ++ post'))))), by simp, ?_⟩
    have hx' : x = ind ++ (tag ++ (s ++ '=' :: (pre ++ '?' :: post'))) := by
      have : (ind ++ (tag ++ (s ++ '=' :: (pre ++ '?' :: post')))) ++ ['\n'] = x ++ ['\n'] := by rw [← hx]; simp
      exact (List.append_cancel_right this).symm
    subst hx'
    simp only [List.mem_append, List.mem_cons, not_or] at hn ⊢
    obtain ⟨h1, h2, h3, -, h4, -, h5⟩ := hn
    exact ⟨h1, h2, h3, by decide, by decide, hv, by decide, h5⟩

theorem lined_changed {vars : List (List Char × List Char)} (hv : ∀ p ∈ vars, '\n' ∉ p.2) {ls ls' : List (List Char)} (hl : Lined ls)
    (h : List.Forall₂ (fun l l' => l' = l ∨ ∃ p ∈ vars, NewText p.1 p.2 l l') ls ls') : Lined ls' := by
  induction hl generalizing ls' with
  | nil => cases h; exact .nil
  | last l hne hn =>
    cases h with
    | @cons _ l' _ ls' h1 h2 =>
      cases h2
      rcases h1 with rfl | ⟨p, hp, hnew⟩
      · exact .last _ hne hn
      · obtain ⟨a, b⟩ := (newText_lined (hv p hp) hnew).1 hn
        exact .last _ a b
  | cons x hx rest hr ih =>
    cases h with
    | @cons _ l' _ ls' h1 h2 =>
      rcases h1 with rfl | ⟨p, hp, hnew⟩
      · exact .cons x hx _ (ih h2)
      · obtain ⟨x', rfl, hx'⟩ := (newText_lined (hv p hp) hnew).2 x rfl hx
        exact .cons x' hx' _ (ih h2)

/-! ## The second run -/

/-- the texts written for the variables of a configuration -/
theorem fitted_texts (fmt : ℝ → List Char) (l : List (List Char × VarVal)) (s : KappaVar.St) (h : ∀ i ∈ fitting l, s.obj i ≠ none) :
    ((fittedVars l s).map fun p => (p.1, fmt (p.2.value * p.2.scale))) = l.filterMap fun p => match p.2 with
      | .const _ => none
      | .var i => some (p.1, fmt (envOf s i)) := by
  unfold fittedVars
  rw [List.map_filterMap]
  refine List.filterMap_congr fun p hp => ?_
  obtain ⟨t, v⟩ := p
  cases v with
  | const x => rfl
  | var i =>
    have hi : i ∈ fitting l := by
      unfold fitting
      rw [List.mem_filterMap]
      exact ⟨_, hp, rfl⟩
    simp only
    cases ho : s.obj i with
    | none => exact absurd ho (h i hi)
    | some o => simp [envOf, ho]

theorem var_question {float : List Char → Except PyErr ℝ} : ∀ {items : List (List Char × List Char)} {s s' : KappaVar.St} {l : List (List Char × VarVal)},
    parseVars float items s = (.ok l, s') → ∀ t i, (t, VarVal.var i) ∈ l → ∃ v, (t, v) ∈ items ∧ '?' ∈ v
  | [], _, _, _, h, t, i, hm => by cases h; cases hm
  | (tag, val) :: rest, s, s', l, h, t, i, hm => by
    rw [parseVars] at h
    cases h1 : parseVarLine float tag val s with
    | mk r s1 =>
      rw [h1] at h
      cases r with
      | error e => cases h
      | ok v =>
        simp only at h
        cases h2 : parseVars float rest s1 with
        | mk r2 s2 =>
          rw [h2] at h
          cases r2 with
          | error e => cases h
          | ok l2 =>
            cases h
            rcases List.mem_cons.1 hm with hm | hm
            · cases hm
              refine ⟨val, List.mem_cons_self, ?_⟩
              unfold parseVarLine at h1
              cases hp : parseVar val with
              | none =>
                rw [hp] at h1
                simp only at h1
                split at h1 <;> cases h1
              | some g =>
                by_contra hq
                have : parseVar val = none := by
                  rw [parseVar_none_iff]
                  rintro ⟨s0, w, s1, r, rfl, -⟩
                  exact hq (by simp)
                rw [this] at hp
                cases hp
            · obtain ⟨v, hv, hq⟩ := var_question h2 t i hm
              exact ⟨v, List.mem_cons_of_mem _ hv, hq⟩

theorem get?_items {cfg : List (List Char × List (List Char × List Char))} {n : List Char} (hn : n ≠ defaultName) :
    get? (Parsed.items { sections := cfg, defaults := [] }) n = (get? cfg n).map fun opts => opts.map fun d => (String.ofList d.1, d.2) := by
  unfold Parsed.items
  rw [get?_cons, if_neg (Ne.symm hn)]
  induction cfg with
  | nil => rfl
  | cons s cfg ih =>
    obtain ⟨k, v⟩ := s
    rw [List.map_cons, get?_cons, get?_cons, ih]
    by_cases h : k = n
    · simp [h]
    · simp [h]

theorem varsStep_items {E : Env} {cfg : List (List Char × List (List Char × List Char))} {opts : List (List Char × List Char)}
    (h : get? cfg "variables".toList = some opts) : varsStep E (Parsed.items { sections := cfg, defaults := [] }) =
      match parseVars E.float opts KappaVar.St.init with
      | (.error e, _) => .error e
      | (.ok l, s) => .ok (l, s) := by
  unfold varsStep
  rw [get?_items (by decide), h]
  simp only [Option.map_some, List.map_map]
  have : (opts.map ((fun p : String × List Char => (p.1.toList, p.2)) ∘ fun d : List Char × List Char => (String.ofList d.1, d.2))) = opts := by
    conv_rhs => rw [← List.map_id opts]
    refine List.map_congr_left fun d _ => ?_
    simp
  rw [this]
  rfl

/-- the settings of a configuration a substituted file can be made for: the section `variables` with values on one line, names of variables that mean themselves as
patterns, and nothing but section headers looks like one -/
structure Substitutable (text : List Char) (cfg : List (List Char × List (List Char × List Char))) (opts : List (List Char × List Char)) : Prop where
  shows : FileShows cfg (rawLines text)
  listed : ("variables".toList, opts) ∈ cfg
  oneline : ∀ q ∈ opts, '\n' ∉ q.2
  plain : ∀ q ∈ opts, '?' ∈ q.2 → Plain q.1 ∧ '#' ∉ q.1
  headers : ∀ l ∈ rawLines text, SectLine l → ∃ n, HeaderLine n l

/-- **C124** The substituted configuration of a run, used in a second run: it has nothing to fit and writes no configuration itself; it predicts with the model of the first run at the
values the first run has found, as they were written; the points must be given (`predict`), otherwise it ends with a `RuntimeError`. -/
theorem C124_subs (E : Env) (o : Options) (fs : Files) (text : List Char) (cfg : List (List Char × List (List Char × List Char)))
    (opts : List (List Char × List Char)) (ht : fs o.inputfile = some text) (hS : Substitutable text cfg opts)
    (rd : ℝ → ℝ) (hfmt : ∀ x, NumText (E.fmt x) ∧ E.float (E.fmt x) = .ok (rd x))
    (h : (doKappa E o fs).2 = .ok ()) (r : Results) (hr : parseKappa E o.specify fs o.inputfile = .ok r) (hsub : r.subs ≠ none)
    (o2 : Options) (hi : o2.inputfile = o.subs) :
    ∃ e l ob s0 s f e2, Predicted E o fs r e l ob s0 s f ∧ fitting l ≠ [] ∧ (∃ e0, get? cfg "entry".toList = some e0 ∧
        ∀ k, get? e2 k = setting o2 (e0.map fun q => (String.ofList q.1, q.2)) k) ∧
      (∀ r2, parseKappa E o2.specify (doKappa E o fs).1 o2.inputfile = .ok r2 →
        r2.subs = none ∧ ∃ f2 c, kappaOf E.quad (fun i => rd (envOf s i)) E.limit ob = .ok f2 ∧ r2.pred.head? = some (c, r2.predX.map f2) ∧
          getConv (Utils.parseSeq E.float) e2 "predict" [] = .ok r2.predX ∧ r2.predX ≠ []) ∧
      (∀ n f2 x xs, npoints E e2 = .ok n → getConv (Utils.parseSeq E.float) e2 "predict" [] = .ok (x :: xs) →
        kappaOf E.quad (fun i => rd (envOf s i)) E.limit ob = .ok f2 → ob.tag ≠ "DEBYE".toList →
        parseKappa E o2.specify (doKappa E o fs).1 o2.inputfile = .ok { predX := x :: xs, pred := [("Kappa-".toList ++ ob.tag, (x :: xs).map f2)] }) ∧
      (∀ n m, npoints E e2 = .ok n → getConv (Utils.parseSeq E.float) e2 "predict" [] = .ok [] → getConv E.float e2 "margin" (5 / 100) = .ok m →
        parseKappa E o2.specify (doKappa E o fs).1 o2.inputfile = .error (.py .runtimeError)) := by
  have hread := C121_reads _ _ hS.shows
  obtain ⟨hnd, hnd2⟩ := C121_distinct _ _ hread
  obtain ⟨text', p, e, ht', hp, he, hrest⟩ := parse_steps hr
  rw [ht] at ht'
  cases ht'
  rw [hread] at hp
  cases hp
  obtain ⟨e0', he0, rfl⟩ := (updateCfg_entry _ _ _).1 he
  obtain ⟨l, s0, ob, data, s, subs, n, xs, ys, c1, c2, c3, c4, c5, c6, c7, c8⟩ := rest_steps hrest
  obtain ⟨m1, mb, m3, m4⟩ := varsStep_made hread c1
  -- the first run again
  have hsame := updateCfg_vars o.specify (Parsed.items { sections := cfg, defaults := [] })
  have hgv : get? cfg "variables".toList = some opts := (mem_iff_get? hnd).1 hS.listed
  have c1' : varsStep E (Parsed.items { sections := cfg, defaults := [] }) = .ok (l, s0) := by
    rw [← c1]
    unfold varsStep
    rw [hsame.get (by decide)]
  have hparse : parseVars E.float opts KappaVar.St.init = (.ok l, s0) := by
    rw [varsStep_items hgv] at c1'
    split at c1'
    · cases c1'
    · rename_i hh
      cases c1'
      exact hh
  obtain ⟨model, hmod, hob⟩ : ∃ model, get? (update o.specify e0') "model" = some model ∧
      parseSub E.float (Parsed.items { sections := cfg, defaults := [] }) l E.limit model = .ok ob := by
    unfold modelStep at c2
    split at c2
    · cases c2
    · rename_i model hm
      rw [hsame.parseSub] at c2
      exact ⟨model, hm, c2⟩
  have hmod0 : get? e0' "model" = some model := by
    rw [update_get _ _ _ (fun q hq he => absurd (specify_keys o q hq) (by rw [he]; decide))] at hmod
    exact hmod
  have hrs : r.subs = subs := by
    rcases detail_steps c8 with ⟨-, rfl⟩ | ⟨-, d, pred, T, u, rate, spec, cumu, -, -, -, -, -, -, -, rfl⟩ <;> rfl
  rw [hrs] at hsub
  have hfit : fitting l ≠ [] := by
    intro h0
    unfold subsStep at c4
    rw [if_pos h0] at c4
    cases c4
    exact hsub rfl
  -- the objects after the fit
  have hobj : ∀ i ∈ fitting l, s.obj i ≠ none := by
    intro i hi
    obtain ⟨ov, ho, -⟩ := m4 i hi
    have hal : KappaVar.Alike s0 s := by
      rcases fit_spec m1 m3 m4 c3 with ⟨-, -, rfl⟩ | ⟨-, x, y, os, qs, -, -, ⟨-, found, hd⟩, -⟩
      · exact .refl _
      · exact (KappaVar.dialogue_shape hd).2.1
    have := hal i
    rw [ho] at this
    obtain ⟨x, hx⟩ := this
    rw [hx]
    simp
  -- the texts
  obtain ⟨vars, hvars⟩ : ∃ vars, vars = l.filterMap fun p => match p.2 with
      | .const _ => none
      | .var i => some (p.1, E.fmt (envOf s i)) := ⟨_, rfl⟩
  have hmem : ∀ p ∈ vars, ∃ i, (p.1, VarVal.var i) ∈ l ∧ p.2 = E.fmt (envOf s i) := by
    intro p hp
    rw [hvars, List.mem_filterMap] at hp
    obtain ⟨⟨t, v⟩, hm, hv⟩ := hp
    cases v with
    | const x => cases hv
    | var i => cases hv; exact ⟨i, hm, rfl⟩
  have hval : ∀ t i, (t, VarVal.var i) ∈ l → ∃ v, (t, v) ∈ vars ∧ E.float v = .ok (rd (envOf s i)) := by
    intro t i hm
    refine ⟨E.fmt (envOf s i), ?_, (hfmt _).2⟩
    rw [hvars, List.mem_filterMap]
    exact ⟨_, hm, rfl⟩
  have htags : l.map Prod.fst = opts.map Prod.fst := CfgSubst.parseVars_keys hparse
  have hfitted : CfgSubst.Fitted vars opts := by
    refine ⟨?_, fun p hp => ?_⟩
    · have hsl : (vars.map Prod.fst).Sublist (l.map Prod.fst) := by
        rw [hvars, List.map_filterMap]
        clear * -
        induction l with
        | nil => exact .slnil
        | cons q l ih =>
          obtain ⟨t, v⟩ := q
          cases v with
          | const x => simpa using ih.cons _
          | var i => simpa using ih
      rw [htags] at hsl
      exact hsl.nodup (hnd2 _ hS.listed)
    · obtain ⟨i, hm, hp2⟩ := hmem p hp
      obtain ⟨v, hv, hq⟩ := var_question hparse _ _ hm
      obtain ⟨a, b⟩ := hS.plain _ hv hq
      exact ⟨a, b, by rw [hp2]; exact (hfmt _).1, v, hv, hq⟩
  have hnl := lined_dropLast (lined_raw text)
  obtain ⟨lines', hsubst, hshow', hch⟩ := CfgSubst.shows_lines cfg _ hS.shows opts vars hS.listed hfitted hS.oneline hnl hS.headers
  obtain ⟨lines2, p', opts', l', o', g1, g2, g3, g4, g5, g6, g7⟩ := CfgSubst.C122_prediction E.float E.quad cfg _ hS.shows opts vars hS.listed hfitted
    hS.oneline hnl hS.headers _ _ l hparse (fun i => rd (envOf s i)) hval (fun p hp => by obtain ⟨i, hm, -⟩ := hmem p hp; exact ⟨i, hm⟩) E.limit model ob hob
  rw [hsubst] at g1
  cases g1
  rw [C121_reads _ _ hshow'] at g2
  cases g2
  have hlined := lined_changed (fun p hp => num_no_newline (hfitted.2 p hp).2.2.1) (lined_raw text) hch
  -- the file
  have hfile : (doKappa E o fs).1 o.subs = some lines'.flatten := by
    obtain ⟨r', h1, -, -, -, -, h6, -⟩ := C124_files E o fs h
    rw [hr] at h1
    cases h1
    rw [hrs] at h6
    have hs : subs = some lines' := by
      unfold subsStep at c4
      rw [if_neg hfit] at c4
      split at c4
      · cases c4
      · cases c4; exact absurd rfl hsub
      · rw [substitutedFile, fitted_texts E.fmt l s hobj, ← hvars, hsubst] at c4
        simp only [Option.getD_some] at c4
        cases c4
        rfl
    subst hs
    simp only at h6
    rw [h6, if_neg]
    rintro rfl
    have h0 : rawLines text = [] := by
      generalize rawLines text = q at hch
      cases hch
      rfl
    rw [h0] at hread
    cases hread
    cases hgv
  have hentry : get? (Parsed.items { sections := CfgSubst.fixedCfg vars cfg, defaults := [] }) "entry".toList = some e0' := by
    have : ∀ c : List (List Char × List (List Char × List Char)), get? (CfgSubst.fixedCfg vars c) "entry".toList = get? c "entry".toList := by
      intro c
      induction c with
      | nil => rfl
      | cons q c ih =>
        obtain ⟨k, v⟩ := q
        rw [CfgSubst.fixedCfg, List.map_cons]
        rw [CfgSubst.fixedCfg] at ih
        by_cases hk : k = "variables".toList
        · have hne : k ≠ "entry".toList := by rw [hk]; decide
          rw [if_pos hk, get?_cons, get?_cons, ih, if_neg hne, if_neg hne]
        · rw [if_neg hk, get?_cons, get?_cons, ih]
    rw [get?_items (by decide), this, ← get?_items (by decide)]
    exact he0
  obtain ⟨eraw, heraw, hee⟩ : ∃ eraw, get? cfg "entry".toList = some eraw ∧ e0' = eraw.map fun q => (String.ofList q.1, q.2) := by
    rw [get?_items (by decide)] at he0
    cases hc : get? cfg "entry".toList with
    | none => rw [hc] at he0; cases he0
    | some er => rw [hc] at he0; cases he0; exact ⟨er, rfl, rfl⟩
  have hrun : parseKappa E o2.specify (doKappa E o fs).1 o2.inputfile = liftErr (parseRest E (doKappa E o fs).1 lines'
      (updateCfg o2.specify (Parsed.items { sections := CfgSubst.fixedCfg vars cfg, defaults := [] })) (update o2.specify e0')) := by
    unfold parseKappa
    rw [hi, hfile]
    simp only
    rw [raw_lined hlined, C121_reads _ _ hshow']
    simp only
    rw [(updateCfg_entry _ _ _).2 ⟨e0', hentry, rfl⟩]
  have hsame2 := updateCfg_vars o2.specify (Parsed.items { sections := CfgSubst.fixedCfg vars cfg, defaults := [] })
  have v2 : varsStep E (updateCfg o2.specify (Parsed.items { sections := CfgSubst.fixedCfg vars cfg, defaults := [] })) = .ok (l', KappaVar.St.init) := by
    have : varsStep E (Parsed.items { sections := CfgSubst.fixedCfg vars cfg, defaults := [] }) = .ok (l', KappaVar.St.init) := by
      rw [varsStep_items g3, g4]
    rw [← this]
    unfold varsStep
    rw [hsame2.get (by decide)]
  have mo2 : modelStep E (updateCfg o2.specify (Parsed.items { sections := CfgSubst.fixedCfg vars cfg, defaults := [] })) (update o2.specify e0') l' = .ok o' := by
    unfold modelStep
    rw [update_get _ _ _ (fun q hq he => absurd (specify_keys o2 q hq) (by rw [he]; decide)), hmod0]
    simp only
    rw [hsame2.parseSub]
    exact g6
  have ki := fun (s : KappaVar.St) (m : Nat) => g7 (envOf s) m
  have htag : o'.tag = ob.tag := by
    have a1 : ob.tag = model := by
      obtain ⟨_, _, _, _, _, _, _, _, _, a, _⟩ := C96_built (CfgSubst.items_distinct hread) model ob ⟨_, hob⟩
      exact a
    have a2 : o'.tag = model := by
      obtain ⟨_, _, _, _, _, _, _, _, _, a, _⟩ := C96_built (CfgSubst.items_distinct (C121_reads _ _ hshow')) model o' ⟨_, g6⟩
      exact a
    rw [a1, a2]
  obtain ⟨f, hP⟩ := predicted_steps ht hread he0 c1 c2 c6 c7 c8
  have hfit2 : ∀ fs', fitStep E fs' (update o2.specify e0') o' (fitting l') KappaVar.St.init = .ok (none, KappaVar.St.init) := by
    intro fs'
    unfold fitStep
    rw [if_pos g5]
  have hsub2 : subsStep E (update o2.specify e0') l' KappaVar.St.init lines' = .ok none := by
    unfold subsStep
    rw [if_pos g5]
  refine ⟨update o.specify e0', l, ob, s0, s, f, update o2.specify e0', hP, hfit, ⟨eraw, heraw, fun k => by rw [get_setting, hee]⟩, ?_, ?_, ?_⟩
  · intro r2 hr2
    rw [hrun] at hr2
    cases hpr : parseRest E (doKappa E o fs).1 lines'
      (updateCfg o2.specify (Parsed.items { sections := CfgSubst.fixedCfg vars cfg, defaults := [] })) (update o2.specify e0') with
    | error e => rw [hpr] at hr2; cases hr2
    | ok r2' =>
      rw [hpr] at hr2
      cases hr2
      obtain ⟨l2, s02, ob2, data2, s2, subs2, n2, xs2, ys2, d1, d2, d3, d4, d5, d6, d7, d8⟩ := rest_steps hpr
      rw [v2] at d1
      cases d1
      rw [mo2] at d2
      cases d2
      rw [hfit2] at d3
      cases d3
      rw [hsub2] at d4
      cases d4
      obtain ⟨f2, hf2, rfl⟩ : ∃ f, kappaOf E.quad (envOf KappaVar.St.init) E.limit o' = .ok f ∧ ys2 = xs2.map f := by
        unfold evalAt at d7
        split at d7
        · cases d7
        · rename_i f hf
          cases d7
          exact ⟨f, hf, rfl⟩
      have hk2 : kappaOf E.quad (fun i => rd (envOf s i)) E.limit ob = .ok f2 := by rw [← hf2, g7]
      have hpts : getConv (Utils.parseSeq E.float) (update o2.specify e0') "predict" [] = .ok xs2 ∧ xs2 ≠ [] := by
        unfold pointsStep at d6
        split at d6
        · cases d6
        · rename_i hp
          cases d6
          exact ⟨hp, by simp⟩
        · split at d6 <;> cases d6
      rcases detail_steps d8 with ⟨-, rfl⟩ | ⟨-, d, pred, T, u, rate, spec, cumu, b1, b2, -, -, -, -, -, rfl⟩
      · exact ⟨rfl, f2, _, hk2, rfl, hpts⟩
      · rcases split_spec b1 hf2 b2 with ⟨-, hc⟩ | ⟨-, names, sums, sb, -, -, hc, -⟩
        · simp only at hc
          subst hc
          exact ⟨rfl, f2, _, hk2, rfl, hpts⟩
        · simp only at hc
          subst hc
          exact ⟨rfl, f2, _, hk2, rfl, hpts⟩
  · intro n2 f2 x xs2 hn hpr hk hnt
    rw [hrun]
    have hpt : pointsStep E (update o2.specify e0') n2 none = .ok (x :: xs2) := by
      unfold pointsStep
      rw [hpr]
    have hev : evalAt E o' (x :: xs2) KappaVar.St.init = .ok ((x :: xs2).map f2) := by
      unfold evalAt
      rw [g7, hk]
    have hdt : debyeResults o' = false := by
      unfold debyeResults
      rw [htag]
      simpa using hnt
    unfold parseRest
    rw [v2]
    simp only [bind, Except.bind, mo2, hfit2, hsub2, hn, hpt, hev, detailStep, hdt, htag]
    rfl
  · intro n2 m hn hpr hm
    rw [hrun]
    have hpt : pointsStep E (update o2.specify e0') n2 none = .error .runtimeError := by
      unfold pointsStep
      rw [hpr]
      simp only [hm]
    unfold parseRest
    rw [v2]
    simp only [bind, Except.bind, mo2, hfit2, hsub2, hn, hpt]
    rfl

/-! ## An example -/

namespace Demo

/-- a configuration with a variable to fit -/
def text : List Char := "[entry]\nmodel = M1\npredict = 2\nexpdata = 1 2\nsubstituted = yes\n[variables]\nA = 1 ? 1 <0, 9> # note\n[M1.POWERLAW]\nKamb = @A\n".toList

/-- what it shows -/
def cfg : List (List Char × List (List Char × List Char)) :=
  [("entry".toList, [("model".toList, "M1".toList), ("predict".toList, "2".toList), ("expdata".toList, "1 2".toList), ("substituted".toList, "yes".toList)]),
   ("variables".toList, [("A".toList, "1 ? 1 <0, 9>".toList)]), ("M1.POWERLAW".toList, [("Kamb".toList, "@A".toList)])]

/-- the numbers in it, a search that asks about the value 2, and a format that always writes 2 -/
noncomputable def env : Env where
  float t := if t = "1".toList then .ok 1 else if t = "0".toList then .ok 0 else if t = "9".toList then .ok 9 else if t = "2".toList then .ok 2 else .error .valueError
  int _ := .error .valueError
  quad _ _ _ := 0
  search _ _ _ _ _ := .ask [2] fun _ => .stop (.ok [2])
  fmt _ := "2".toList
  render _ := "2".toList
  limit := 5
  pattern _ _ := .error .valueError
  info := []

def opt : Options := ⟨"in.cfg".toList, [], "kappa".toList, true, false, none, none, none, none, none, false, false⟩

def files : Files := fun n => if n = "in.cfg".toList then some text else none

/-- the line `name = value` -/
theorem option_of {name value : List Char} (h : (Blank ([] : List Char) ∧ (name ++ " = ".toList ++ value) ≠ [] ∧ (((name ++ " = ".toList ++ value).head?.map pySpace) = some false ∧
    ((name ++ " = ".toList ++ value).getLast?.map pySpace) = some false) ∧ cutComment none (name ++ " = ".toList ++ value) = name ++ " = ".toList ++ value))
    (tail : List Char) (ht : Tail tail) (hne : name ≠ []) (h1 : Trim name) (h2 : Trim value) (heq : '=' ∉ name) (hbr : name.head? ≠ some '[') :
    OptionLine 0 name value (name ++ " = ".toList ++ value ++ tail) := by
  refine ⟨" ".toList, " ".toList, ?_, by decide, by decide, hne, h1, h2, heq, hbr⟩
  have := CfgText.shows_of [] (name ++ " = ".toList ++ value) tail h ht
  simpa using this

theorem lines_eq : rawLines text = ["[entry]\n".toList, "model = M1\n".toList, "predict = 2\n".toList, "expdata = 1 2\n".toList, "substituted = yes\n".toList,
    "[variables]\n".toList, "A = 1 ? 1 <0, 9> # note\n".toList, "[M1.POWERLAW]\n".toList, "Kamb = @A\n".toList] := by decide +kernel

theorem shows : FileShows cfg (rawLines text) := by
  rw [lines_eq]
  refine ⟨[], [["[entry]\n".toList, "model = M1\n".toList, "predict = 2\n".toList, "expdata = 1 2\n".toList, "substituted = yes\n".toList],
    ["[variables]\n".toList, "A = 1 ? 1 <0, 9> # note\n".toList], ["[M1.POWERLAW]\n".toList, "Kamb = @A\n".toList]], rfl, (by intro l hl; cases hl), ?_, by decide⟩
  refine .cons ?_ (.cons ?_ (.cons ?_ .nil))
  · refine ⟨"[entry]\n".toList, [], 0, [["model = M1\n".toList], ["predict = 2\n".toList], ["expdata = 1 2\n".toList], ["substituted = yes\n".toList]], rfl, ?_,
      (by intro l hl; cases hl), .cons ?_ (.cons ?_ (.cons ?_ (.cons ?_ .nil))), by decide, by decide⟩
    · exact CfgSubst.header_of "entry".toList "\n".toList (by decide +kernel) (.inl (by decide)) (by decide) (by decide) (by decide) (by decide)
    · refine ⟨"model = M1\n".toList, [], "M1".toList, [], [], rfl, ?_, .nil, rfl, by decide, fun d hd => by cases hd; decide⟩
      exact option_of (name := "model".toList) (value := "M1".toList) (by decide +kernel) "\n".toList (.inl (by decide)) (by decide) (trim_of (by decide)) (trim_of (by decide)) (by decide) (by decide)
    · refine ⟨"predict = 2\n".toList, [], "2".toList, [], [], rfl, ?_, .nil, rfl, by decide, fun d hd => by cases hd; decide⟩
      exact option_of (name := "predict".toList) (value := "2".toList) (by decide +kernel) "\n".toList (.inl (by decide)) (by decide) (trim_of (by decide)) (trim_of (by decide)) (by decide) (by decide)
    · refine ⟨"expdata = 1 2\n".toList, [], "1 2".toList, [], [], rfl, ?_, .nil, rfl, by decide, fun d hd => by cases hd; decide⟩
      exact option_of (name := "expdata".toList) (value := "1 2".toList) (by decide +kernel) "\n".toList (.inl (by decide)) (by decide) (trim_of (by decide)) (trim_of (by decide)) (by decide) (by decide)
    · refine ⟨"substituted = yes\n".toList, [], "yes".toList, [], [], rfl, ?_, .nil, rfl, by decide, fun d hd => by cases hd; decide⟩
      exact option_of (name := "substituted".toList) (value := "yes".toList) (by decide +kernel) "\n".toList (.inl (by decide)) (by decide) (trim_of (by decide)) (trim_of (by decide)) (by decide) (by decide)
  · refine ⟨"[variables]\n".toList, [], 0, [["A = 1 ? 1 <0, 9> # note\n".toList]], rfl, ?_, (by intro l hl; cases hl), .cons ?_ .nil, by decide, by decide⟩
    · exact CfgSubst.header_of "variables".toList "\n".toList (by decide +kernel) (.inl (by decide)) (by decide) (by decide) (by decide) (by decide)
    · refine ⟨"A = 1 ? 1 <0, 9> # note\n".toList, [], "1 ? 1 <0, 9>".toList, [], [], rfl, ?_, .nil, rfl, by decide, fun d hd => by cases hd; decide⟩
      exact option_of (name := "A".toList) (value := "1 ? 1 <0, 9>".toList) (by decide +kernel) " # note\n".toList (.inr ⟨[], ' ', " note\n".toList, rfl, by decide, by decide⟩)
        (by decide) (trim_of (by decide)) (trim_of (by decide)) (by decide) (by decide)
  · refine ⟨"[M1.POWERLAW]\n".toList, [], 0, [["Kamb = @A\n".toList]], rfl, ?_, (by intro l hl; cases hl), .cons ?_ .nil, by decide, by decide⟩
    · exact CfgSubst.header_of "M1.POWERLAW".toList "\n".toList (by decide +kernel) (.inl (by decide)) (by decide) (by decide) (by decide) (by decide)
    · refine ⟨"Kamb = @A\n".toList, [], "@A".toList, [], [], rfl, ?_, .nil, rfl, by decide, fun d hd => by cases hd; decide⟩
      exact option_of (name := "Kamb".toList) (value := "@A".toList) (by decide +kernel) "\n".toList (.inl (by decide)) (by decide) (trim_of (by decide)) (trim_of (by decide)) (by decide) (by decide)

theorem headers : ∀ l ∈ rawLines text, SectLine l → ∃ n, HeaderLine n l := by
  have hno : ∀ l, KappaCfg.headerOf l = none → SectLine l → ∃ n, HeaderLine n l := by
    intro l h hs
    have := KappaCfg.headerOf_isSome_iff.2 hs
    rw [h] at this
    cases this
  intro l hl
  rw [lines_eq] at hl
  simp only [List.mem_cons, List.not_mem_nil, or_false] at hl
  rcases hl with rfl | rfl | rfl | rfl | rfl | rfl | rfl | rfl | rfl
  · exact fun _ => ⟨_, CfgSubst.header_of "entry".toList "\n".toList (by decide +kernel) (.inl (by decide)) (by decide) (by decide) (by decide) (by decide)⟩
  · exact hno _ (by decide +kernel)
  · exact hno _ (by decide +kernel)
  · exact hno _ (by decide +kernel)
  · exact hno _ (by decide +kernel)
  · exact fun _ => ⟨_, CfgSubst.header_of "variables".toList "\n".toList (by decide +kernel) (.inl (by decide)) (by decide) (by decide) (by decide) (by decide)⟩
  · exact hno _ (by decide +kernel)
  · exact fun _ => ⟨_, CfgSubst.header_of "M1.POWERLAW".toList "\n".toList (by decide +kernel) (.inl (by decide)) (by decide) (by decide) (by decide) (by decide)⟩
  · exact hno _ (by decide +kernel)

/-- the configuration can be substituted -/
theorem substitutable : Substitutable text cfg [("A".toList, "1 ? 1 <0, 9>".toList)] where
  shows := shows
  listed := by decide
  oneline := by decide
  plain := by decide
  headers := headers

/-- the data -/
theorem data : expdata env files [("model", "M1".toList), ("predict", "2".toList), ("expdata", "1 2".toList), ("substituted", "yes".toList)] = .ok ([1], [2]) := by
  rfl

theorem points : getConv (Utils.parseSeq env.float) [("model", "M1".toList), ("predict", "2".toList), ("expdata", "1 2".toList), ("substituted", "yes".toList)] "predict" [] = .ok [2] := by
  rfl

/-- a run that fits `A`: the value is 2 and the substituted configuration is written -/
theorem run : ∃ r, parseKappa env opt.specify files opt.inputfile = .ok r ∧ r.subs ≠ none := by
  obtain ⟨n, s', o, h1, h2, h3, h4, h5, h6, h7, h8, h9, -⟩ := C106_variable env.float "A".toList "1 ? 1 <0, 9>".toList "1".toList "1".toList "0".toList "9".toList "<0, 9>".toList
    1 1 0 9 KappaVar.St.init (.refl _) rfl
    ⟨[], [' '], [' '], [' '], by decide, by decide, by decide, by decide, by decide, by decide, by decide, by decide, by decide,
      by decide, by decide, by decide, by decide, by decide⟩
    (.inl ⟨[], [], [' '], [], [], by decide, by decide, by decide, by decide, by decide, by decide, by decide, by decide, by decide,
      by decide, by decide, by decide⟩)
    (.inr ⟨by decide, rfl⟩) (.inr ⟨by decide, rfl⟩) (.inr ⟨by decide, rfl⟩)
    (.inr ⟨by decide, rfl⟩) (by norm_num)
  have hv : varsStep env (updateCfg opt.specify (Parsed.items ⟨cfg, []⟩)) = .ok ([("A".toList, .var n)], s') := by
    have : get? (updateCfg opt.specify (Parsed.items ⟨cfg, []⟩)) "variables".toList = some [("A", "1 ? 1 <0, 9>".toList)] := by decide +kernel
    unfold varsStep
    rw [this]
    simp only [List.map_cons, List.map_nil, parseVars]
    rw [show ("A" : String).toList = "A".toList from rfl, h1]
  unfold parseKappa
  have hf : files opt.inputfile = some text := if_pos rfl
  rw [hf]
  simp only
  rw [C121_reads _ _ shows]
  simp only
  have he : get? (updateCfg opt.specify (Parsed.items ⟨cfg, []⟩)) "entry".toList =
    some [("model", "M1".toList), ("predict", "2".toList), ("expdata", "1 2".toList), ("substituted", "yes".toList)] := by decide +kernel
  rw [he]
  simp only
  have hm : modelStep env (updateCfg opt.specify (Parsed.items ⟨cfg, []⟩)) [("model", "M1".toList), ("predict", "2".toList), ("expdata", "1 2".toList), ("substituted", "yes".toList)]
    [("A".toList, .var n)] = .ok (.mk "POWERLAW" "M1".toList [("Kamb", some (.ref (.var n)))]) := by rfl
  have hk : ∀ s, evalAt env (.mk "POWERLAW" "M1".toList [("Kamb", some (.ref (.var n)))]) [1] s = .ok [Kappa.powerLaw (envOf s n) (-1) 0 1] := fun s => rfl
  have hk2 : ∀ s, evalAt env (.mk "POWERLAW" "M1".toList [("Kamb", some (.ref (.var n)))]) [2] s = .ok [Kappa.powerLaw (envOf s n) (-1) 0 2] := fun s => rfl
  obtain ⟨-, -, -, m4⟩ := varsStep_made (C121_reads _ _ shows) hv
  obtain ⟨o', m5, m6, m7⟩ := m4 n (List.mem_singleton.2 rfl)
  rw [h3] at m5
  cases m5
  have hfit : ∃ t, KappaVar.fit (evalAt env (.mk "POWERLAW" "M1".toList [("Kamb", some (.ref (.var n)))]) [1]) (env.search [1] [2]) [some n] false {} s' =
      (.ok (.found [2]), ⟨[n], []⟩, t) ∧ (∃ o, t.obj n = some o) := by
    obtain ⟨vars, ders, os, qs, r', t, hf, e⟩ := KappaVar.C123_fit (evalAt env (.mk "POWERLAW" "M1".toList [("Kamb", some (.ref (.var n)))]) [1]) (env.search [1] [2]) [n] {} s'
      (fun i hi => by rw [List.mem_singleton.1 hi]; exact ⟨_, h8⟩) ⟨n, List.mem_singleton.2 rfl, h9⟩
    have hvars : vars = [n] := by rw [hf.free]; simp [h9]
    have hders : ders = [] := by rw [hf.dependent]; simp [h9]
    subst hvars hders
    have hcal : ∃ u, KappaVar.cal [n] [] [2] s' = (.ok (), u) := by
      have : o.lower ≤ 2 ∧ (2 : ℝ) ≤ o.upper := by rw [h6, h7]; norm_num
      exact ⟨_, by simp [KappaVar.cal, KappaVar.assignLoop, KappaVar.refreshLoop, KappaVar.setValue, h3, this, KappaVar.sync, KappaVar.putObj, KappaVar.syncLoop, m7]; rfl⟩
    obtain ⟨u, hu⟩ := hcal
    have hce : KappaVar.calEval (evalAt env (.mk "POWERLAW" "M1".toList [("Kamb", some (.ref (.var n)))]) [1]) [n] [] [2] s' = (.ok [Kappa.powerLaw (envOf u n) (-1) 0 1], u) := by
      unfold KappaVar.calEval
      rw [hu]
      simp only [hk]
    have hdia : KappaVar.Dialogue (KappaVar.calEval (evalAt env (.mk "POWERLAW" "M1".toList [("Kamb", some (.ref (.var n)))]) [1]) [n] [])
        (.ask [2] fun _ => .stop (.ok [2])) s' [([2], .ok [Kappa.powerLaw (envOf u n) (-1) 0 1])] (.ok [2]) u := .answered _ _ _ _ _ hce _ _ _ (.stop _ _)
    obtain ⟨-, hr, ht⟩ := KappaVar.dialogue_unique hf.dialogue hdia
    subst hr ht
    refine ⟨_, e, ?_⟩
    have := (KappaVar.dialogue_shape hdia).2.1 n
    rw [h3] at this
    obtain ⟨x, hx⟩ := this
    exact ⟨_, hx⟩
  obtain ⟨t, hfit, ot, hot⟩ := hfit
  have hstep : fitStep env files [("model", "M1".toList), ("predict", "2".toList), ("expdata", "1 2".toList), ("substituted", "yes".toList)]
      (.mk "POWERLAW" "M1".toList [("Kamb", some (.ref (.var n)))]) (fitting [("A".toList, .var n)]) s' = .ok (some [1], t) := by
    unfold fitStep
    rw [if_neg (by intro h; cases h), data]
    simp only
    rw [if_pos (show (Obj.mk "POWERLAW" "M1".toList [("Kamb", some (.ref (.var n)))]).ty ∈ kappaTypes from (by decide : "POWERLAW" ∈ kappaTypes)), show (fitting [("A".toList, .var n)]).map some = [some n] from rfl, hfit]
  have hsub : ∃ ls, subsStep env [("model", "M1".toList), ("predict", "2".toList), ("expdata", "1 2".toList), ("substituted", "yes".toList)]
      [("A".toList, .var n)] t (rawLines text) = .ok (some ls) := by
    have hb : getBoolean [("model", "M1".toList), ("predict", "2".toList), ("expdata", "1 2".toList), ("substituted", "yes".toList)] "substituted" false = .ok true := by decide +kernel
    have hfv : fittedVars [("A".toList, .var n)] t = [("A".toList, ot)] := by simp [fittedVars, hot]
    have hl : substitutedTags [("A".toList, "2".toList)] (rawLines text) = some (.ok ["[entry]\n".toList, "model = M1\n".toList, "predict = 2\n".toList, "expdata = 1 2\n".toList,
      "substituted = yes\n".toList, "[variables]\n".toList, "A = 2 # ? 1 <0, 9> # note\n".toList, "[M1.POWERLAW]\n".toList, "Kamb = @A\n".toList]) := by decide +kernel
    refine ⟨["[entry]\n".toList, "model = M1\n".toList, "predict = 2\n".toList, "expdata = 1 2\n".toList,
      "substituted = yes\n".toList, "[variables]\n".toList, "A = 2 # ? 1 <0, 9> # note\n".toList, "[M1.POWERLAW]\n".toList, "Kamb = @A\n".toList], ?_⟩
    unfold subsStep
    rw [if_neg (by intro h; cases h), hb]
    simp only
    rw [hfv, substitutedFile, List.map_cons, List.map_nil, show env.fmt (ot.value * ot.scale) = "2".toList from rfl, hl]
    rfl
  obtain ⟨ls, hsub⟩ := hsub
  refine ⟨{ predX := [2], pred := [("Kappa-M1".toList, [Kappa.powerLaw (envOf t n) (-1) 0 2])], subs := some ls }, ?_, by simp⟩
  have hrest : parseRest env files (rawLines text) (updateCfg opt.specify (Parsed.items ⟨cfg, []⟩))
      [("model", "M1".toList), ("predict", "2".toList), ("expdata", "1 2".toList), ("substituted", "yes".toList)] =
      .ok { predX := [2], pred := [("Kappa-M1".toList, [Kappa.powerLaw (envOf t n) (-1) 0 2])], subs := some ls } := by
    unfold parseRest
    simp only [hv, hm, bind, Except.bind, hstep, hsub]
    rfl
  rw [hrest]
  rfl

/-- the hypotheses of `C124_subs` hold of this run: a second run with its substituted configuration predicts with 2 for `A` -/
example (o2 : Options) (hi : o2.inputfile = opt.subs) (hp : o2.specify = []) :
    parseKappa env o2.specify (doKappa env opt files).1 o2.inputfile = .ok { predX := [2], pred := [("Kappa-M1".toList, [Kappa.powerLaw 2 (-1) 0 2])] } := by
  obtain ⟨r, hr, hs⟩ := run
  have hok : (doKappa env opt files).2 = .ok () := by
    rcases run_cases env opt files with ⟨e, h, -⟩ | ⟨r', -, h, -⟩
    · rw [hr] at h; cases h
    · rw [h]
  obtain ⟨e, l, ob, s0, s, f, e2, h1, h2, ⟨e0, h3, h3'⟩, h4, h5, h6⟩ := C124_subs env opt files text cfg _ (if_pos rfl) substitutable (fun _ => 2)
    (fun x => by rw [show env.fmt x = "2".toList from rfl]; exact ⟨by unfold NumText Word; decide, rfl⟩) hok r hr hs o2 hi
  have he0 : e0 = [("model".toList, "M1".toList), ("predict".toList, "2".toList), ("expdata".toList, "1 2".toList), ("substituted".toList, "yes".toList)] := by
    have : get? cfg "entry".toList = some [("model".toList, "M1".toList), ("predict".toList, "2".toList), ("expdata".toList, "1 2".toList), ("substituted".toList, "yes".toList)] := by decide
    rw [this] at h3
    cases h3
    rfl
  have he2 : ∀ k, get? e2 k = get? [("model", "M1".toList), ("predict", "2".toList), ("expdata", "1 2".toList), ("substituted", "yes".toList)] k := by
    intro k
    rw [h3', he0, ← get_setting, hp]
    rfl
  obtain ⟨text', p, e1, c1, c2, c3, c4, c5, c6⟩ := h1.config
  rw [show files opt.inputfile = some text from if_pos rfl] at c1
  have hct := Option.some.inj c1
  subst hct
  rw [C121_reads _ _ shows] at c2
  have hcp := Except.ok.inj c2
  subst hcp
  have hob : ∃ n, ob = .mk "POWERLAW" "M1".toList [("Kamb", some (.ref (.var n)))] := by
    have hl : ∃ n, l = [("A".toList, .var n)] := by
      unfold varsStep at c5
      rw [show get? (Parsed.items ⟨cfg, []⟩) "variables".toList = some [("A", "1 ? 1 <0, 9>".toList)] by decide +kernel] at c5
      simp only [List.map_cons, List.map_nil, parseVars] at c5
      split at c5
      · cases c5
      · rename_i hq
        cases c5
        split at hq
        · cases hq
        · rename_i v s2 hq2
          cases hq
          cases v with
          | var n => exact ⟨n, rfl⟩
          | const x => exact absurd rfl h2
    obtain ⟨n, rfl⟩ := hl
    have hm : get? e "model" = some "M1".toList := by
      rw [c4, ← get_setting]
      have : e1 = [("model", "M1".toList), ("predict", "2".toList), ("expdata", "1 2".toList), ("substituted", "yes".toList)] := by
        rw [show get? (Parsed.items ⟨cfg, []⟩) "entry".toList = some [("model", "M1".toList), ("predict", "2".toList), ("expdata", "1 2".toList), ("substituted", "yes".toList)] by
          decide +kernel] at c3
        cases c3
        rfl
      rw [this]
      rfl
    refine ⟨n, ?_⟩
    unfold modelStep at c6
    rw [hm] at c6
    exact (Except.ok.inj (c6.symm.trans rfl) : _)
  obtain ⟨n, rfl⟩ := hob
  exact h5 101 (Kappa.powerLaw 2 (-1) 0) 2 [] (by unfold npoints getConv; rw [he2]; rfl) (by unfold getConv; rw [he2]; exact points) rfl (show "M1".toList ≠ "DEBYE".toList by decide)

end Demo

end TEflow.KappaRun
