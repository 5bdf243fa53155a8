import Verif.Props.KappaRunOpt
import Verif.Props.KappaDebye
import Verif.Props.CfgText
import Verif.Props.KappaCfgSub
import Verif.Props.KappaCfgVar

/-! # C124: what a run of `tef-kappa` predicts -/

namespace TEflow.KappaRun

open PyDict Re Loader Interface TableFile ToolRuns KappaCfg

/-! ## The variables of a configuration -/

/-- all variables are free and nothing is registered for them -/
def Bare (s : KappaVar.St) : Prop := ∀ i o, s.obj i = some o → o.compute = some none ∧ o.subs = []

theorem initVar_bare {s : KappaVar.St} (hb : Bare s) (i : Nat) (tag : List Char) (a : KappaVar.Args) (hc : a.constraint = .none) (hd : a.depends = []) :
    Bare (KappaVar.initVar s i tag a).2 ∧ (∀ j, s.obj j ≠ none → (KappaVar.initVar s i tag a).2.obj j ≠ none) ∧
    ∀ m, (KappaVar.initVar s i tag a).1 = .ok m → (KappaVar.initVar s i tag a).2.obj m ≠ none := by
  unfold KappaVar.initVar
  cases ho : s.obj i with
  | some o =>
    refine ⟨hb, fun _ h => h, fun m hm => ?_⟩
    cases hm
    show s.obj i ≠ none
    rw [ho]
    simp
  | none =>
    simp only [hc, hd]
    split_ifs with h
    · simp only [KappaVar.finishInit, KappaVar.depArgs, List.mapIdx_nil, KappaVar.newParams, KappaVar.paramsLoop, List.map_nil, List.nodup_nil, if_true,
        KappaVar.putObj, Function.update_self]
      refine ⟨?_, ?_, ?_⟩
      · intro j o hj
        simp only [Function.update_apply] at hj
        split_ifs at hj
        · cases hj; exact ⟨rfl, rfl⟩
        · exact hb j o hj
      · intro j hj
        simp only [Function.update_apply]
        split_ifs
        · simp
        · exact hj
      · intro m hm
        cases hm
        simp
    · exact ⟨hb, fun _ h => h, fun m hm => by cases hm⟩

theorem varArgs_plain {float : List Char → Except PyErr ℝ} {g : Groups} {a : KappaVar.Args} (ha : varArgs float g = .ok a) :
    a.constraint = .none ∧ a.depends = [] := by
  unfold varArgs at ha
  cases e1 : KappaCfg.setting float g.initial 1 with
  | error e => rw [e1] at ha; cases ha
  | ok x1 =>
    cases e2 : KappaCfg.setting float g.scale 1 with
    | error e => rw [e1, e2] at ha; cases ha
    | ok x2 =>
      cases e3 : KappaCfg.setting float g.lower 0 with
      | error e => rw [e1, e2, e3] at ha; cases ha
      | ok x3 =>
        cases e4 : KappaCfg.setting float g.upper 1000 with
        | error e => rw [e1, e2, e3, e4] at ha; cases ha
        | ok x4 =>
          rw [e1, e2, e3, e4] at ha
          cases ha
          exact ⟨rfl, rfl⟩

theorem line_made {float : List Char → Except PyErr ℝ} {tag val : List Char} {s s' : KappaVar.St} {v : VarVal} (hb : Bare s)
    (h : parseVarLine float tag val s = (.ok v, s')) :
    KappaVar.Steps false s s' ∧ Bare s' ∧ (∀ j, s.obj j ≠ none → s'.obj j ≠ none) ∧ ∀ n, v = .var n → s'.obj n ≠ none := by
  unfold parseVarLine at h
  cases hp : parseVar val with
  | none =>
    simp only [hp] at h
    cases hf : float val with
    | error e => rw [hf] at h; cases h
    | ok x =>
      rw [hf] at h
      cases h
      exact ⟨.refl _, hb, fun _ h => h, fun n hn => by cases hn⟩
  | some g =>
    simp only [hp] at h
    cases ha : varArgs float g with
    | error e => rw [ha] at h; cases h
    | ok a =>
      obtain ⟨hc, hd⟩ := varArgs_plain ha
      simp only [ha] at h
      have hst : KappaVar.Steps false s (KappaVar.construct s tag a).2 :=
        .tail (.refl s) (.construct s tag a (by rw [hd]; intro x hx; cases hx))
      have hin : Bare (KappaVar.construct s tag a).2 ∧ (∀ j, s.obj j ≠ none → (KappaVar.construct s tag a).2.obj j ≠ none) ∧
          ∀ m, (KappaVar.construct s tag a).1 = .ok m → (KappaVar.construct s tag a).2.obj m ≠ none := by
        unfold KappaVar.construct
        cases s.reg tag with
        | some i => exact initVar_bare hb i tag a hc hd
        | none => exact initVar_bare (s := { s with reg := Function.update s.reg tag (some s.nobj), nobj := s.nobj + 1 }) hb s.nobj tag a hc hd
      cases hcon : KappaVar.construct s tag a with
      | mk r s1 =>
        rw [hcon] at h hst hin
        cases r with
        | error e => cases h
        | ok i =>
          cases h
          exact ⟨hst, hin.1, hin.2.1, fun n hn => by cases hn; exact hin.2.2 i rfl⟩

theorem vars_made {float : List Char → Except PyErr ℝ} : ∀ {items : List (List Char × List Char)} {s s' : KappaVar.St} {l : List (List Char × VarVal)},
    Bare s → parseVars float items s = (.ok l, s') →
    KappaVar.Steps false s s' ∧ Bare s' ∧ (∀ j, s.obj j ≠ none → s'.obj j ≠ none) ∧ ∀ i ∈ fitting l, s'.obj i ≠ none
  | [], s, s', l, hb, h => by
    cases h
    exact ⟨.refl _, hb, fun _ h => h, fun i hi => by cases hi⟩
  | (tag, val) :: rest, s, s', l, hb, h => by
    rw [parseVars] at h
    cases h1 : parseVarLine float tag val s with
    | mk r s1 =>
      rw [h1] at h
      cases r with
      | error e => cases h
      | ok v =>
        obtain ⟨a1, a2, a3, a4⟩ := line_made hb h1
        simp only at h
        cases h2 : parseVars float rest s1 with
        | mk r2 s2 =>
          rw [h2] at h
          cases r2 with
          | error e => cases h
          | ok l2 =>
            cases h
            obtain ⟨b1, b2, b3, b4⟩ := vars_made a2 h2
            refine ⟨a1.trans b1, b2, fun j hj => b3 j (a3 j hj), fun i hi => ?_⟩
            cases v with
            | const x => exact b4 i (by simpa [fitting] using hi)
            | var n =>
              have : fitting ((tag, VarVal.var n) :: l2) = n :: fitting l2 := by simp [fitting]
              rw [this, List.mem_cons] at hi
              rcases hi with rfl | hi
              · exact b3 _ (a4 _ rfl)
              · exact b4 i hi

/-- the items of a configuration: option names are different -/
theorem items_nodup {lines : List (List Char)} {p : CfgText.Parsed} (h : CfgText.readCfg lines = .ok p) : KappaCfg.Distinct p.items := by
  have hd : (p.defaults.map Prod.fst).Nodup := by
    unfold CfgText.readCfg at h
    cases hr : CfgText.St.start.run lines with
    | error e => rw [hr] at h; cases h
    | ok s =>
      rw [hr] at h
      obtain ⟨-, -, h3⟩ := CfgText.run_distinct (s := CfgText.St.start) ⟨WF_nil, by intro p hp; simp [CfgText.St.start] at hp, WF_nil⟩ hr
      simp only [CfgText.St.finish] at h
      split at h
      · cases h
      · cases h
        simp only [CfgText.values, List.map_map]
        exact h3
  obtain ⟨-, h2⟩ := CfgText.C121_distinct _ _ h
  have key : ∀ d : PyDict (List Char) (List Char), (d.map Prod.fst).Nodup → ((d.map fun q => (String.ofList q.1, q.2)).map Prod.fst).Nodup := by
    intro d hd
    have e : ((d.map fun q => (String.ofList q.1, q.2)).map Prod.fst) = (d.map Prod.fst).map String.ofList := by
      rw [List.map_map, List.map_map]; rfl
    rw [e]
    exact hd.map (fun _ _ h => String.ofList_injective h)
  intro q hq
  unfold CfgText.Parsed.items at hq
  rcases List.mem_cons.1 hq with rfl | hq
  · exact key _ hd
  · obtain ⟨q', hq', rfl⟩ := List.mem_map.1 hq
    refine key _ ?_
    rw [List.map_append, List.nodup_append]
    refine ⟨h2 _ hq', (List.filter_sublist.map _).nodup hd, ?_⟩
    intro a ha b hb hab
    subst hab
    obtain ⟨⟨b, v⟩, hm, rfl⟩ := List.mem_map.1 hb
    rw [List.mem_filter] at hm
    have : has q'.2 b = true := by
      rw [has_iff]
      exact ha
    simp [this] at hm

theorem varsStep_made {E : Env} {lines : List (List Char)} {p : CfgText.Parsed} {sp : Entry} (h : CfgText.readCfg lines = .ok p) {l : List (List Char × VarVal)}
    {s0 : KappaVar.St} (hv : varsStep E (updateCfg sp p.items) = .ok (l, s0)) :
    KappaVar.Steps false KappaVar.St.init s0 ∧ Bare s0 ∧ (fitting l).Nodup ∧ ∀ i ∈ fitting l, ∃ o, s0.obj i = some o ∧ o.compute = some none ∧ o.subs = [] := by
  have hg : get? (updateCfg sp p.items) "variables".toList = get? p.items "variables".toList := by
    have hs : SameButEntry p.items p.items := by
      unfold SameButEntry
      rw [List.forall₂_same]
      exact fun _ _ => ⟨rfl, fun _ => rfl⟩
    have e := (updateCfg_same hs sp []).get (n := "variables".toList) (by decide)
    rw [e]
    congr 1
    unfold updateCfg update
    simp
  have hb0 : Bare KappaVar.St.init := by
    intro i o h
    simp [KappaVar.St.init] at h
  unfold varsStep at hv
  rw [hg] at hv
  cases ho : get? p.items "variables".toList with
  | none =>
    rw [ho] at hv
    cases hv
    exact ⟨.refl _, hb0, List.nodup_nil, fun i hi => by cases hi⟩
  | some opts =>
    rw [ho] at hv
    simp only at hv
    cases hp : parseVars E.float (opts.map fun p => (p.1.toList, p.2)) KappaVar.St.init with
    | mk r s1 =>
      rw [hp] at hv
      cases r with
      | error e => cases hv
      | ok l' =>
        cases hv
        obtain ⟨a1, a2, -, a4⟩ := vars_made hb0 hp
        have hn : ((opts.map fun p => (p.1.toList, p.2)).map Prod.fst).Nodup := by
          have := items_nodup h _ (get?_mem ho)
          have e : ((opts.map fun p => (p.1.toList, p.2)).map Prod.fst) = (opts.map Prod.fst).map String.toList := by
            rw [List.map_map, List.map_map]; rfl
          rw [e]
          exact this.map (fun a b hab => String.toList_injective hab)
        obtain ⟨-, b2, -⟩ := C106_section E.float _ _ _ _ (.refl _) hn hp
        refine ⟨a1, a2, b2, fun i hi => ?_⟩
        cases hoi : s0.obj i with
        | none => exact absurd hoi (a4 i hi)
        | some o => exact ⟨o, rfl, a2 i o hoi⟩

/-! ## The fit -/

theorem constrained_bare {s : KappaVar.St} {i : Nat} {o : KappaVar.Var} (h : s.obj i = some o) (hc : o.compute = some none) :
    KappaVar.constrained s i = .ok false ∧ KappaVar.Readable s i := by
  constructor
  · unfold KappaVar.constrained
    simp only [h, hc]
    rfl
  · unfold KappaVar.Readable KappaVar.value
    simp only [h, hc]
    exact ⟨_, rfl⟩

/-- a fit of variables `vars` to the data `x`, `y` from the state `s0` to the state `s`: the search asks for values of the model; `qs` are the questions and answers -/
structure Fit (E : Env) (ob : Obj) (x y : List ℝ) (vars : List Nat) (s0 : KappaVar.St) (os : List KappaVar.Var)
    (qs : List (List ℝ × Except PyErr (List ℝ))) (s : KappaVar.St) : Prop where
  objs : List.Forall₂ (fun i o => s0.obj i = some o) vars os
  search : ∃ found, KappaVar.Dialogue (KappaVar.calEval (evalAt E ob x) vars [])
    (E.search x y (os.map KappaVar.Var.value) (os.map KappaVar.Var.lower) (os.map KappaVar.Var.upper)) s0 qs (.ok found) s

theorem fit_spec {E : Env} {fs : Files} {e : Entry} {ob : Obj} {vars : List Nat} {s0 s : KappaVar.St} {data : Option (List ℝ)}
    (hs : KappaVar.Steps false KappaVar.St.init s0) (hn : vars.Nodup) (hv : ∀ i ∈ vars, ∃ o, s0.obj i = some o ∧ o.compute = some none ∧ o.subs = [])
    (h : fitStep E fs e ob vars s0 = .ok (data, s)) :
    (vars = [] ∧ data = none ∧ s = s0) ∨
    (vars ≠ [] ∧ ∃ x y os qs, expdata E fs e = .ok (x, y) ∧ data = some x ∧ Fit E ob x y vars s0 os qs s ∧
      (∀ j, j ∉ vars → s.obj j = s0.obj j) ∧
      ∀ last ans, qs.getLast? = some (last, .ok ans) → last.length = vars.length ∧ evalAt E ob x s = .ok ans ∧
        ∀ (k i : Nat) (v : ℝ), vars[k]? = some i → last[k]? = some v → ∃ o, os[k]? = some o ∧ o.lower ≤ v ∧ v ≤ o.upper ∧ envOf s i = v * o.scale) := by
  unfold fitStep at h
  by_cases h0 : vars = []
  · rw [if_pos h0] at h
    cases h
    exact .inl ⟨h0, rfl, rfl⟩
  rw [if_neg h0] at h
  right
  refine ⟨h0, ?_⟩
  split at h
  · cases h
  · rename_i x y hxy
    by_cases hty : ob.ty ∈ kappaTypes
    swap
    · rw [if_neg hty] at h
      cases h
    rw [if_pos hty] at h
    have hread : ∀ i ∈ vars, KappaVar.Readable s0 i := fun i hi => by
      obtain ⟨o, a1, a2, -⟩ := hv i hi
      exact (constrained_bare a1 a2).2
    have hfree : ∃ i ∈ vars, KappaVar.constrained s0 i = .ok false := by
      obtain ⟨i, hi⟩ := List.exists_mem_of_ne_nil _ h0
      obtain ⟨o, a1, a2, -⟩ := hv i hi
      exact ⟨i, hi, (constrained_bare a1 a2).1⟩
    obtain ⟨fv, ders, os, qs, r, t, hf, hfit⟩ := KappaVar.C123_fit (evalAt E ob x) (E.search x y) vars {} s0 hread hfree
    rw [hfit] at h
    cases r with
    | error e => cases h
    | ok found =>
      cases h
      have e1 : fv = vars := by
        rw [hf.free, List.filter_eq_self]
        intro i hi
        obtain ⟨o, a1, a2, -⟩ := hv i hi
        rw [(constrained_bare a1 a2).1]
        decide
      have e2 : ders = [] := by
        rw [hf.dependent, List.filter_eq_nil_iff]
        intro i hi
        obtain ⟨o, a1, a2, -⟩ := hv i hi
        rw [(constrained_bare a1 a2).1]
        decide
      have hp : vars.Pairwise fun i j => ¬ KappaVar.Feeds s0 j i := by
        refine List.pairwise_of_forall_mem_list fun i _ j hj => ?_
        rintro ⟨oj, oi, p, k, b1, -, -, b2⟩
        obtain ⟨o, a1, -, a3⟩ := hv j hj
        rw [a1] at b1
        cases b1
        rw [a3] at b2
        cases b2
      have hlast := KappaVar.C123_last (evalAt E ob x) (E.search x y) vars fv ders os s0 qs (.ok found) s hf hs hn hread hp
      subst e1 e2
      obtain ⟨-, -, hrest⟩ := KappaVar.dialogue_shape hf.dialogue
      refine ⟨x, y, os, qs, hxy, rfl, ⟨hf.objs, found, hf.dialogue⟩, hrest, fun last ans hl => ?_⟩
      obtain ⟨c1, c2, c3, -, -⟩ := hlast last ans hl
      refine ⟨c2, c3, fun k i v hk hvv => ?_⟩
      obtain ⟨o, d1, d2, d3, d4, -⟩ := c1 k i v hk hvv
      have hko : os[k]? = some o := by
        obtain ⟨hk', rfl⟩ := List.getElem?_eq_some_iff.1 hk
        have hlen := hf.objs.length_eq
        have := (List.forall₂_iff_get.1 hf.objs).2 k hk' (hlen ▸ hk')
        simp only [List.get_eq_getElem] at this
        rw [this] at d1
        rw [List.getElem?_eq_getElem (hlen ▸ hk')]
        exact d1
      refine ⟨o, hko, d2, d3, ?_⟩
      unfold envOf
      rw [d4]

/-! ## The columns -/

theorem debye_call {E : Env} {ob : Obj} {s : KappaVar.St} {d : Kappa.Debye} {f : ℝ → ℝ} (hd : debyeObj E ob s = .ok (some d))
    (hf : kappaOf E.quad (envOf s) E.limit ob = .ok f) : f = (fun T => d.call E.quad T none) ∧ d.Good := by
  unfold debyeObj at hd
  split_ifs at hd with hty
  · cases hl : E.limit with
    | zero => rw [hl] at hf; cases hf
    | succ n =>
      rw [hl] at hf hd
      rw [kappaOf, if_pos hty] at hf
      simp only [Nat.add_sub_cancel] at hd
      unfold makeDebye at hf
      unfold debyeOf at hd
      cases h1 : posarg (envOf s) ob "vs" with
      | error e => rw [h1] at hf; cases hf
      | ok vs =>
      cases h2 : posarg (envOf s) ob "td" with
      | error e => rw [h1] at hf; simp only [bind, Except.bind, h2] at hf; cases hf
      | ok td =>
      cases h3 : ob.components.mapM (component (envOf s) (kappaOf E.quad (envOf s) n)) with
      | error e => rw [h1] at hf; simp only [bind, Except.bind, h2, h3] at hf; cases hf
      | ok cs =>
      cases h4 : Kappa.Debye.make vs td cs with
      | error e => rw [h1] at hf; simp only [bind, Except.bind, h2, h3, h4] at hf; cases hf
      | ok d' =>
        rw [h1] at hf hd
        simp only [bind, Except.bind, h2, h3, h4] at hf hd
        cases hf
        cases hd
        exact ⟨rfl, Kappa.make_good h4⟩
  · cases hd

/-- the columns of a Debye model that is split: the total, the mechanisms added up one after another, and the sub-models; in every row the total is the last sum of mechanisms plus the
sub-models -/
def Split (xs : List ℝ) (f : ℝ → ℝ) (cols : Cols) : Prop :=
  ∃ (names : List (List Char)) (sums : Nat → ℝ → ℝ) (subs : List (List Char × (ℝ → ℝ))), names ≠ [] ∧ names.Nodup ∧
    cols = ("Kappa-Total".toList, xs.map f) ::
      ((List.range names.length).map fun i => (join ['+'] (names.take (i + 1)), xs.map (sums i))) ++ subs.map (fun p => (p.1, xs.map p.2)) ∧
    ∀ T, f T = sums (names.length - 1) T + (subs.map fun p => p.2 T).sum

theorem intercalate_join (sep : List Char) : ∀ l : List (List Char), sep.intercalate l = join sep l
  | [] => rfl
  | [a] => by simp [List.intercalate, join]
  | a :: b :: l => by
    have := intercalate_join sep (b :: l)
    rw [join, ← this]
    simp [List.intercalate, List.intersperse]

theorem split_spec {E : Env} {e : Entry} {ob : Obj} {s : KappaVar.St} {d : Option Kappa.Debye} {f : ℝ → ℝ} {xs : List ℝ} {cols cols' : Cols}
    (hd : debyeObj E ob s = .ok d) (hf : kappaOf E.quad (envOf s) E.limit ob = .ok f) (h : splitStep E e d xs cols = .ok cols') :
    (getBoolean e "splitkappa" true = .ok false ∧ cols' = cols) ∨ (getBoolean e "splitkappa" true = .ok true ∧ Split xs f cols') := by
  unfold splitStep at h
  split at h
  · cases h
  · rename_i hb
    cases h
    exact .inl ⟨hb, rfl⟩
  · rename_i hb
    refine .inr ⟨hb, ?_⟩
    cases d with
    | none => cases h
    | some d =>
      simp only [asDebye] at h
      cases h
      obtain ⟨rfl, hg⟩ := debye_call hd hf
      refine ⟨keys d.scat, fun i T => d.call E.quad T (some (i + 1)), d.add, ?_, hg.1, ?_, ?_⟩
      · intro hk
        exact hg.2.2 (List.map_eq_nil_iff.1 hk)
      · unfold debyeColumns
        simp only [if_true, List.map_append, List.map_cons, List.map_map, keys, List.length_map]
        congr 2
        refine List.map_congr_left fun i _ => ?_
        simp only [Function.comp, intercalate_join]
      · intro T
        have h1 : 0 < d.scat.length := List.length_pos_iff.2 hg.2.2
        have : (keys d.scat).length - 1 + 1 = d.scat.length := by
          rw [keys, List.length_map]
          omega
        simp only [this]
        exact (Kappa.C85_call E.quad d T).1

/-- what a run has computed, in terms of its configuration: the section `entry` with the options of the command line `e`, the model `ob`, the variables before
the fit `s0` and after it `s`, and the curve `f` -/
structure Predicted (E : Env) (o : Options) (fs : Files) (r : Results) (e : Entry) (l : List (List Char × VarVal)) (ob : Obj) (s0 s : KappaVar.St) (f : ℝ → ℝ) : Prop where
  config : ∃ text p e0, fs o.inputfile = some text ∧ CfgText.readCfg (rawLines text) = .ok p ∧ get? p.items "entry".toList = some e0 ∧
    (∀ k, get? e k = setting o e0 k) ∧ varsStep E p.items = .ok (l, s0) ∧ modelStep E p.items e l = .ok ob
  curve : kappaOf E.quad (envOf s) E.limit ob = .ok f
  columns : r.pred = [("Kappa-".toList ++ ob.tag, r.predX.map f)] ∨ (ob.tag = "DEBYE".toList ∧ Split r.predX f r.pred)
  split : ob.tag = "DEBYE".toList → (Split r.predX f r.pred ↔ getBoolean e "splitkappa" true = .ok true)
  points : ∀ p ps, getConv (Utils.parseSeq E.float) e "predict" [] = .ok (p :: ps) → r.predX = p :: ps

theorem not_split {xs : List ℝ} {f : ℝ → ℝ} {t : List Char} {ys : List ℝ} : ¬ Split xs f [(t, ys)] := by
  rintro ⟨names, sums, subs, h1, -, h2, -⟩
  have : 0 < names.length := List.length_pos_iff.2 h1
  have h3 := congrArg List.length h2
  simp only [List.length_cons, List.length_nil, List.length_append, List.length_map, List.length_range] at h3
  omega

theorem updateCfg_vars (sp : Entry) (cfg : Config) : SameButEntry (updateCfg sp cfg) cfg := by
  have hs : SameButEntry cfg cfg := by
    unfold SameButEntry
    rw [List.forall₂_same]
    exact fun _ _ => ⟨rfl, fun _ => rfl⟩
  have := updateCfg_same hs sp []
  have e : updateCfg [] cfg = cfg := by
    unfold updateCfg update
    simp
  rwa [e] at this

/-- the steps of a run give a prediction -/
theorem predicted_steps {E : Env} {o : Options} {fs : Files} {r : Results} {text : List Char} {p : CfgText.Parsed} {e0 : Entry} {l : List (List Char × VarVal)} {s0 s : KappaVar.St} {ob : Obj}
    {data : Option (List ℝ)} {subs : Option (List (List Char))} {n : Int} {xs ys : List ℝ} (ht : fs o.inputfile = some text) (hp : CfgText.readCfg (rawLines text) = .ok p)
    (he0 : get? p.items "entry".toList = some e0) (c1 : varsStep E (updateCfg o.specify p.items) = .ok (l, s0))
    (c2 : modelStep E (updateCfg o.specify p.items) (update o.specify e0) l = .ok ob) (c6 : pointsStep E (update o.specify e0) n data = .ok xs) (c7 : evalAt E ob xs s = .ok ys)
    (c8 : detailStep E (update o.specify e0) ob s n { predX := xs, pred := [("Kappa-".toList ++ ob.tag, ys)], subs := subs } = .ok r) :
    ∃ f, Predicted E o fs r (update o.specify e0) l ob s0 s f := by
  have hsame := updateCfg_vars o.specify p.items
  have c1' : varsStep E p.items = .ok (l, s0) := by
    rw [← c1]
    unfold varsStep
    rw [hsame.get (by decide)]
  have c2' : modelStep E p.items (update o.specify e0) l = .ok ob := by
    rw [← c2]
    unfold modelStep
    rw [hsame.parseSub]
  obtain ⟨f, hf, hys⟩ : ∃ f, kappaOf E.quad (envOf s) E.limit ob = .ok f ∧ ys = xs.map f := by
    unfold evalAt at c7
    split at c7
    · cases c7
    · rename_i f hf
      cases c7
      exact ⟨f, hf, rfl⟩
  subst hys
  have hpts : ∀ p ps, getConv (Utils.parseSeq E.float) (update o.specify e0) "predict" [] = .ok (p :: ps) → xs = p :: ps := by
    intro p ps hpp
    unfold pointsStep at c6
    rw [hpp] at c6
    cases c6
    rfl
  refine ⟨f, ?_⟩
  have hcfg : ∃ text p e', fs o.inputfile = some text ∧ CfgText.readCfg (rawLines text) = .ok p ∧ get? p.items "entry".toList = some e' ∧
      (∀ k, get? (update o.specify e0) k = setting o e' k) ∧ varsStep E p.items = .ok (l, s0) ∧ modelStep E p.items (update o.specify e0) l = .ok ob :=
    ⟨text, p, e0, ht, hp, he0, fun k => get_setting o e0 k, c1', c2'⟩
  rcases detail_steps c8 with ⟨hnd, rfl⟩ | ⟨hd, d, pred, T, u, rate, spec, cumu, b1, b2, -, -, -, -, -, rfl⟩
  · refine ⟨hcfg, hf, .inl rfl, fun htag => ?_, hpts⟩
    unfold debyeResults at hnd
    simp [htag] at hnd
  · have htag : ob.tag = "DEBYE".toList := by
      unfold debyeResults at hd
      simpa using hd
    rcases split_spec b1 hf b2 with ⟨hb, hc⟩ | ⟨hb, hc⟩
    · simp only at hc
      subst hc
      refine ⟨hcfg, hf, .inl rfl, fun _ => ⟨fun hs => absurd hs not_split, fun hs => ?_⟩, hpts⟩
      rw [hb] at hs
      cases hs
    · exact ⟨hcfg, hf, .inr ⟨htag, hc⟩, fun _ => ⟨fun _ => hb, fun _ => hc⟩, hpts⟩

/-- the data to fit: the first two columns of the file (`file:`) or of the text of the option `expdata` -/
def DataOf (E : Env) (fs : Files) (e : Entry) (x y : List ℝ) : Prop :=
  ∃ t text more, get? e "expdata" = some t ∧ loadColumns E.float text = .ok (x :: y :: more) ∧
    ((∃ name, strip t = "file:".toList ++ name ∧ fs (strip name) = some text) ∨ (∃ rest, strip t = "array:".toList ++ rest ∧ text = strip rest) ∨
     ((∀ rest, strip t ≠ "file:".toList ++ rest ∧ strip t ≠ "array:".toList ++ rest) ∧ text = strip t))

theorem drop_prefix {p l : List Char} (h : p.isPrefixOf l = true) : l = p ++ l.drop p.length := by
  obtain ⟨t, rfl⟩ := List.isPrefixOf_iff_prefix.1 h
  simp

theorem data_of {E : Env} {fs : Files} {e : Entry} {x y : List ℝ} (h : expdata E fs e = .ok (x, y)) : DataOf E fs e x y := by
  unfold expdata at h
  split at h
  · cases h
  · rename_i t ht
    split at h
    · cases h
    · rename_i x' y' more hc
      cases h
      unfold parseArray at hc
      by_cases h1 : "file:".toList.isPrefixOf (strip t) = true
      · rw [if_pos h1] at hc
        split at hc
        · cases hc
        · rename_i text hx
          exact ⟨t, text, more, ht, hc, .inl ⟨_, drop_prefix h1, hx⟩⟩
      · rw [if_neg h1] at hc
        by_cases h2 : "array:".toList.isPrefixOf (strip t) = true
        · rw [if_pos h2] at hc
          exact ⟨t, _, more, ht, hc, .inr (.inl ⟨_, drop_prefix h2, rfl⟩)⟩
        · rw [if_neg h2] at hc
          refine ⟨t, _, more, ht, hc, .inr (.inr ⟨fun rest => ⟨fun hr => h1 ?_, fun hr => h2 ?_⟩, rfl⟩)⟩
          · rw [hr]; exact List.isPrefixOf_iff_prefix.2 (List.prefix_append _ _)
          · rw [hr]; exact List.isPrefixOf_iff_prefix.2 (List.prefix_append _ _)
    · cases h

/-- **C124** What a run predicts.  The curve belongs to the model and the variables of the configuration, with the settings in force; the column (or, for a split Debye model, the first one) holds
its values at the points, which are those asked for if `predict` is given.  Without variables to fit nothing else happens.  Otherwise the search is asked once, with the data, the initial values and
the bounds of the variables in the order of the file; the prediction belongs to the values the search asked for last, within their bounds, and at the measured
points it is the answer the search has got last. -/
theorem C124_prediction (E : Env) (o : Options) (fs : Files) (r : Results) (h : parseKappa E o.specify fs o.inputfile = .ok r) :
    ∃ e l ob s0 s f, Predicted E o fs r e l ob s0 s f ∧
      ((fitting l = [] ∧ s = s0) ∨
       (fitting l ≠ [] ∧ ∃ x y os qs, DataOf E fs e x y ∧ Fit E ob x y (fitting l) s0 os qs s ∧
        ∀ last ans, qs.getLast? = some (last, .ok ans) → last.length = (fitting l).length ∧ x.map f = ans ∧
          ∀ (k i : Nat) (v : ℝ), (fitting l)[k]? = some i → last[k]? = some v → ∃ o, os[k]? = some o ∧ o.lower ≤ v ∧ v ≤ o.upper ∧ envOf s i = v * o.scale)) := by
  obtain ⟨text, p, e, ht, hp, he, hr⟩ := parse_steps h
  obtain ⟨e0, he0, rfl⟩ := (updateCfg_entry _ _ _).1 he
  obtain ⟨l, s0, ob, data, s, subs, n, xs, ys, c1, c2, c3, -, -, c6, c7, c8⟩ := rest_steps hr
  obtain ⟨m1, -, m3, m4⟩ := varsStep_made hp c1
  obtain ⟨f, hP⟩ := predicted_steps ht hp he0 c1 c2 c6 c7 c8
  refine ⟨update o.specify e0, l, ob, s0, s, f, hP, ?_⟩
  rcases fit_spec m1 m3 m4 c3 with ⟨a1, -, a3⟩ | ⟨a1, x, y, os, qs, a2, -, a3, -, a4⟩
  · exact .inl ⟨a1, a3⟩
  · refine .inr ⟨a1, x, y, os, qs, data_of a2, a3, fun last ans hl => ?_⟩
    obtain ⟨d1, d2, d3⟩ := a4 last ans hl
    refine ⟨d1, ?_, d3⟩
    unfold evalAt at d2
    rw [hP.curve] at d2
    cases d2
    rfl

/-- **C124** The main file read again gives the points and the columns, every number as the reading of its text (without `--headers`). -/
theorem C124_reread (E : Env) (o : Options) (fs : Files) (h : (doKappa E o fs).2 = .ok ()) (hc : Clean E.render) (rd : ℝ → ℝ) (hr : ∀ x, E.float (E.render x) = .ok (rd x))
    (hh : o.headers = false) :
    ∃ r t, parseKappa E o.specify fs o.inputfile = .ok r ∧ (doKappa E o fs).1 o.main = some t ∧
      (r.predX ≠ [] → loadColumns E.float t = .ok ((r.predX :: r.pred.map Prod.snd).map fun c => c.map rd)) := by
  obtain ⟨r, h1, ⟨t, h2, h3⟩, -⟩ := C124_files E o fs h
  refine ⟨r, t, h1, h3, fun hne => ?_⟩
  obtain ⟨rows, a1, a2, a3, a4⟩ := table_rows (parse_even h1).pred
  unfold tableText at h2
  rw [a1] at h2
  simp only [hh] at h2
  obtain ⟨t', b1, b2⟩ := C111_reread hc E.float rd hr o.bare (.rows rows) "Predict kappa".toList E.info (.names ("Xcolumn".toList :: r.pred.map Prod.fst))
    (.names ("Xcolumn".toList :: r.pred.map Prod.fst)) rows (r.pred.length + 1) (by omega) rfl a3
  rw [b1] at h2
  cases h2
  unfold loadColumns
  rw [b2]
  simp only
  congr 1
  rw [← a4]
  cases hrows : rows with
  | nil =>
    rw [hrows] at a2
    exact absurd (List.length_eq_zero_iff.1 a2.symm) hne
  | cons r0 rest =>
    have hlen : r0.length = r.pred.length + 1 := a3 r0 (by rw [hrows]; exact List.mem_cons_self)
    rw [List.map_cons, columns, List.length_map, hlen, columnsOf, List.map_map]
    refine List.map_congr_left fun j _ => ?_
    simp only [Function.comp, ← List.map_cons]
    rw [List.filterMap_map, List.map_filterMap]
    refine List.filterMap_congr fun s _ => ?_
    simp

end TEflow.KappaRun
