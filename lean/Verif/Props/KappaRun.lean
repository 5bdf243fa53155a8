import Verif.Model.KappaRun
import Verif.Props.ToolRuns
import Verif.Props.InterfaceNames
import Verif.Props.KappaFit

/-! # C124: whole runs of `tef-kappa` -/

namespace TEflow.KappaRun

open PyDict Re Loader Interface TableFile ToolRuns KappaCfg

/-! ## Tables -/

/-- all columns are as long as the abscissas -/
def Even (xs : List ℝ) (cols : Cols) : Prop := ∀ p ∈ cols, p.2.length = xs.length

/-- the same for a detail file -/
def EvenDetail : Detail → Prop
  | none => True
  | some (xs, cols) => Even xs cols

/-- the same for all results -/
structure Results.Even (r : Results) : Prop where
  pred : KappaRun.Even r.predX r.pred
  rate : EvenDetail r.rate
  spec : EvenDetail r.spec
  cumu : EvenDetail r.cumu

/-- the rows of a table -/
theorem table_rows {xs : List ℝ} {cols : Cols} (h : Even xs cols) :
    ∃ rows, vstackT (xs :: cols.map Prod.snd) = .ok rows ∧ rows.length = xs.length ∧ Table (cols.length + 1) rows ∧
      columnsOf (cols.length + 1) rows = xs :: cols.map Prod.snd := by
  obtain ⟨rows, h1, h2, h3, h4⟩ := vstackT_spec (xs :: cols.map Prod.snd) xs.length (by simp) (by
    intro c hc
    rcases List.mem_cons.1 hc with rfl | hc
    · rfl
    · obtain ⟨p, hp, rfl⟩ := List.mem_map.1 hc
      exact h p hp)
  simp only [List.length_cons, List.length_map] at h3 h4
  exact ⟨rows, h1, h2, h3, h4⟩

theorem tableText_ok (E : Env) (o : Options) (header first : String) {xs : List ℝ} {cols : Cols} (h : Even xs cols) :
    ∃ t, tableText E o header first xs cols = .ok t := by
  obtain ⟨rows, h1, -⟩ := table_rows h
  unfold tableText toFile
  rw [h1]
  simp only [tableOf]
  cases o.bare <;> exact ⟨_, rfl⟩

/-- which results make columns of equal length -/
theorem colsOf_even (f : ℝ → PyDict Kappa.Tag ℝ) (xs : List ℝ) : Even xs (colsOf f xs) := by
  intro p hp
  obtain ⟨k, -, rfl⟩ := List.mem_map.1 hp
  simp

theorem split_even {E : Env} {e : Entry} {d : Option Kappa.Debye} {xs : List ℝ} {pred cols : Cols} (h : splitStep E e d xs pred = .ok cols)
    (hp : Even xs pred) : Even xs cols := by
  unfold splitStep at h
  split at h
  · cases h
  · cases h; exact hp
  · split at h
    · cases h
    · cases h
      intro p hp
      obtain ⟨q, -, rfl⟩ := List.mem_map.1 hp
      simp

theorem rate_even {e : Entry} {d : Option Kappa.Debye} {n : Int} {T u : ℝ} {r : Detail} (h : rateStep e d n T u = .ok r) : EvenDetail r := by
  unfold rateStep at h
  split at h
  · cases h
  · cases h; trivial
  · split at h
    · cases h
    · split at h
      · cases h
      · cases h
        intro p hp
        rw [colsOf_even _ _ p hp, List.length_map]

theorem spec_even {e : Entry} {d : Option Kappa.Debye} {n : Int} {T u : ℝ} {r : Detail} (h : specStep e d n T u = .ok r) : EvenDetail r := by
  unfold specStep at h
  split at h
  · cases h
  · cases h; trivial
  · split at h
    · cases h
    · split at h
      · cases h
      · cases h
        intro p hp
        obtain ⟨q, hq, rfl⟩ := List.mem_map.1 hp
        simp only [List.length_map]
        exact colsOf_even _ _ q hq

theorem cumu_even {e : Entry} {d : Option Kappa.Debye} {n : Int} {T : ℝ} {r : Detail} (h : cumuStep e d n T = .ok r) : EvenDetail r := by
  unfold cumuStep at h
  split at h
  · cases h
  · cases h; trivial
  · split at h
    · cases h
    · split at h
      · cases h
      · split at h
        · cases h
        · cases h
          exact colsOf_even _ _

/-- the steps of `detailStep` -/
theorem detail_steps {E : Env} {e : Entry} {o : Obj} {s : KappaVar.St} {n : Int} {r r' : Results} (h : detailStep E e o s n r = .ok r') :
    (debyeResults o = false ∧ r' = r) ∨ (debyeResults o = true ∧ ∃ d pred T u rate spec cumu, debyeObj E o s = .ok d ∧
      splitStep E e d r.predX r.pred = .ok pred ∧ getConv E.float e "temperature" 300 = .ok T ∧ unitStep E e d T = .ok u ∧
      rateStep e d n T u = .ok rate ∧ specStep e d n T u = .ok spec ∧ cumuStep e d n T = .ok cumu ∧
      r' = { r with pred := pred, rate := rate, spec := spec, cumu := cumu }) := by
  unfold detailStep at h
  cases hd : debyeResults o with
  | false =>
    rw [hd] at h
    cases h
    exact .inl ⟨rfl, rfl⟩
  | true =>
    rw [hd] at h
    simp only [if_true] at h
    refine .inr ⟨rfl, ?_⟩
    cases h1 : debyeObj E o s with
    | error e => rw [h1] at h; cases h
    | ok d =>
    cases h2 : splitStep E e d r.predX r.pred with
    | error e => rw [h1] at h; simp only [bind, Except.bind, h2] at h; cases h
    | ok pred =>
    cases h3 : getConv E.float e "temperature" 300 with
    | error e => rw [h1] at h; simp only [bind, Except.bind, h2, h3] at h; cases h
    | ok T =>
    cases h4 : unitStep E e d T with
    | error e => rw [h1] at h; simp only [bind, Except.bind, h2, h3, h4] at h; cases h
    | ok u =>
    cases h5 : rateStep e d n T u with
    | error e => rw [h1] at h; simp only [bind, Except.bind, h2, h3, h4, h5] at h; cases h
    | ok rate =>
    cases h6 : specStep e d n T u with
    | error e => rw [h1] at h; simp only [bind, Except.bind, h2, h3, h4, h5, h6] at h; cases h
    | ok spec =>
    cases h7 : cumuStep e d n T with
    | error e => rw [h1] at h; simp only [bind, Except.bind, h2, h3, h4, h5, h6, h7] at h; cases h
    | ok cumu =>
    rw [h1] at h
    simp only [bind, Except.bind, h2, h3, h4, h5, h6, h7] at h
    cases h
    exact ⟨d, pred, T, u, rate, spec, cumu, rfl, h2, rfl, h4, h5, h6, h7, rfl⟩

/-- the steps of `parseRest` -/
theorem rest_steps {E : Env} {fs : Files} {lines : List (List Char)} {cfg : Config} {e : Entry} {r : Results} (h : parseRest E fs lines cfg e = .ok r) :
    ∃ l s0 o data s subs n xs ys, varsStep E cfg = .ok (l, s0) ∧ modelStep E cfg e l = .ok o ∧ fitStep E fs e o (fitting l) s0 = .ok (data, s) ∧
      subsStep E e l s lines = .ok subs ∧ npoints E e = .ok n ∧ pointsStep E e n data = .ok xs ∧ evalAt E o xs s = .ok ys ∧
      detailStep E e o s n { predX := xs, pred := [("Kappa-".toList ++ o.tag, ys)], subs := subs } = .ok r := by
  unfold parseRest at h
  cases h1 : varsStep E cfg with
  | error e => rw [h1] at h; cases h
  | ok p =>
  obtain ⟨l, s0⟩ := p
  cases h2 : modelStep E cfg e l with
  | error e => rw [h1] at h; simp only [bind, Except.bind, h2] at h; cases h
  | ok o =>
  cases h3 : fitStep E fs e o (fitting l) s0 with
  | error e => rw [h1] at h; simp only [bind, Except.bind, h2, h3] at h; cases h
  | ok p =>
  obtain ⟨data, s⟩ := p
  cases h4 : subsStep E e l s lines with
  | error e => rw [h1] at h; simp only [bind, Except.bind, h2, h3, h4] at h; cases h
  | ok subs =>
  cases h5 : npoints E e with
  | error e => rw [h1] at h; simp only [bind, Except.bind, h2, h3, h4, h5] at h; cases h
  | ok n =>
  cases h6 : pointsStep E e n data with
  | error e => rw [h1] at h; simp only [bind, Except.bind, h2, h3, h4, h5, h6] at h; cases h
  | ok xs =>
  cases h7 : evalAt E o xs s with
  | error e => rw [h1] at h; simp only [bind, Except.bind, h2, h3, h4, h5, h6, h7] at h; cases h
  | ok ys =>
  rw [h1] at h
  simp only [bind, Except.bind, h2, h3, h4, h5, h6, h7] at h
  exact ⟨l, s0, o, data, s, subs, n, xs, ys, rfl, h2, h3, h4, rfl, h6, h7, h⟩

theorem eval_length {E : Env} {o : Obj} {xs ys : List ℝ} {s : KappaVar.St} (h : evalAt E o xs s = .ok ys) : ys.length = xs.length := by
  unfold evalAt at h
  split at h
  · cases h
  · cases h; simp

theorem rest_even {E : Env} {fs : Files} {lines : List (List Char)} {cfg : Config} {e : Entry} {r : Results} (h : parseRest E fs lines cfg e = .ok r) :
    r.Even := by
  obtain ⟨l, s0, o, data, s, subs, n, xs, ys, -, -, -, -, -, -, h7, h8⟩ := rest_steps h
  have hp : Even xs [("Kappa-".toList ++ o.tag, ys)] := by
    intro p hp
    rw [List.mem_singleton] at hp
    subst hp
    exact eval_length h7
  rcases detail_steps h8 with ⟨-, rfl⟩ | ⟨-, d, pred, T, u, rate, spec, cumu, -, b2, -, -, b5, b6, b7, rfl⟩
  · exact ⟨hp, trivial, trivial, trivial⟩
  · exact ⟨split_even b2 hp, rate_even b5, spec_even b6, cumu_even b7⟩

/-- what has been read if `parseKappa` succeeds -/
theorem parse_steps {E : Env} {sp : Entry} {fs : Files} {file : List Char} {r : Results} (h : parseKappa E sp fs file = .ok r) :
    ∃ text p e, fs file = some text ∧ CfgText.readCfg (rawLines text) = .ok p ∧ get? (updateCfg sp p.items) "entry".toList = some e ∧
      parseRest E fs (rawLines text) (updateCfg sp p.items) e = .ok r := by
  unfold parseKappa at h
  split at h
  · cases h
  · rename_i text ht
    split at h
    · cases h
    · rename_i p hp
      split at h
      · cases h
      · rename_i e he
        refine ⟨text, p, e, ht, hp, he, ?_⟩
        cases hr : parseRest E fs (rawLines text) (updateCfg sp p.items) e with
        | error e => rw [hr] at h; cases h
        | ok r' => rw [hr] at h; cases h; rfl

theorem parse_even {E : Env} {sp : Entry} {fs : Files} {file : List Char} {r : Results} (h : parseKappa E sp fs file = .ok r) : r.Even := by
  obtain ⟨text, p, e, -, -, -, h4⟩ := parse_steps h
  exact rest_even h4

/-! ## Writing -/

/-- the names of the files written -/
theorem writes_names (E : Env) (o : Options) (r : Results) :
    (writes E o r).map Prod.fst = o.main :: ((r.rate.map fun _ => o.rate).toList ++ (r.spec.map fun _ => o.spec).toList ++ (r.cumu.map fun _ => o.cumu).toList ++
      (match r.subs with
        | none => []
        | some lines => if lines = [] then [] else [o.subs])) := by
  unfold writes
  rcases r with ⟨x, p, rate, spec, cumu, subs⟩
  simp only [List.map_cons, List.map_append]
  congr 1
  congr 1
  · congr 1
    · congr 1
      · rcases rate with _ | ⟨a, b⟩ <;> rfl
      · rcases spec with _ | ⟨a, b⟩ <;> rfl
    · rcases cumu with _ | ⟨a, b⟩ <;> rfl
  · cases subs with
    | none => rfl
    | some l =>
      simp only
      split_ifs <;> rfl

theorem outputs_eq (o : Options) : kappaOutputs o.outputfile o.inputfile o.suffix = [o.main, o.rate, o.spec, o.cumu, o.subs] := rfl

theorem names_nodup (o : Options) : [o.main, o.rate, o.spec, o.cumu, o.subs].Nodup := by
  have := C57_kappa_distinct o.outputfile o.inputfile o.suffix
  rw [outputs_eq] at this
  exact List.Nodup.of_map _ this

theorem writes_sublist (E : Env) (o : Options) (r : Results) : ((writes E o r).map Prod.fst).Sublist [o.main, o.rate, o.spec, o.cumu, o.subs] := by
  rw [writes_names]
  refine .cons_cons _ ?_
  have h : [o.rate, o.spec, o.cumu, o.subs] = [o.rate] ++ [o.spec] ++ [o.cumu] ++ [o.subs] := rfl
  rw [h]
  refine (((?_ : List.Sublist _ _).append ?_).append ?_).append ?_
  · cases r.rate <;> simp
  · cases r.spec <;> simp
  · cases r.cumu <;> simp
  · split
    · simp
    · split_ifs <;> simp

/-- all writes succeed -/
theorem writes_ok {E : Env} {o : Options} {r : Results} (h : r.Even) : ∀ w ∈ writes E o r, ∃ t, w.2 = .ok t := by
  have hd : ∀ (name : List Char) (hd f : String) (d : Detail), EvenDetail d → ∀ w ∈ detailWrite E o name hd f d, ∃ t, w.2 = .ok t := by
    intro name hd f d hE w hw
    rcases d with _ | ⟨xs, cols⟩
    · cases hw
    · rw [detailWrite, List.mem_singleton] at hw
      subst hw
      exact tableText_ok E o hd f hE
  intro w hw
  unfold writes at hw
  simp only [List.mem_cons, List.mem_append] at hw
  rcases hw with rfl | ((hw | hw) | hw) | hw
  · exact tableText_ok E o _ _ h.pred
  · exact hd _ _ _ _ h.rate w hw
  · exact hd _ _ _ _ h.spec w hw
  · exact hd _ _ _ _ h.cumu w hw
  · split at hw
    · cases hw
    · split_ifs at hw
      · cases hw
      · rw [List.mem_singleton] at hw
        subst hw
        exact ⟨_, rfl⟩

/-- files after a list of writes with different names -/
theorem run_spec : ∀ (ws : List (List Char × Except PyErr (List Char))) (fs : Files), (∀ w ∈ ws, ∃ t, w.2 = .ok t) → (ws.map Prod.fst).Nodup →
    (runWrites ws fs).2 = .ok () ∧ (∀ n t, (n, Except.ok t) ∈ ws → (runWrites ws fs).1 n = some t) ∧
    ∀ n, n ∉ ws.map Prod.fst → (runWrites ws fs).1 n = fs n
  | [], fs, _, _ => ⟨rfl, (fun _ _ h => by cases h), fun _ _ => rfl⟩
  | (m, .error e) :: ws, fs, h, _ => by
    obtain ⟨t, ht⟩ := h _ List.mem_cons_self
    cases ht
  | (m, .ok t) :: ws, fs, h, hn => by
    rw [List.map_cons, List.nodup_cons] at hn
    obtain ⟨h1, h2, h3⟩ := run_spec ws (fs.write m t) (fun w hw => h w (List.mem_cons_of_mem _ hw)) hn.2
    refine ⟨h1, fun n t' hm => ?_, fun n hm => ?_⟩
    · rcases List.mem_cons.1 hm with hm | hm
      · obtain ⟨e1, e2⟩ := Prod.mk.inj hm
        cases e2
        subst e1
        show (runWrites ws (fs.write n t)).1 n = _
        rw [h3 n hn.1]
        simp [Files.write]
      · exact h2 n t' hm
    · rw [List.map_cons, List.mem_cons, not_or] at hm
      show (runWrites ws (fs.write m t)).1 n = _
      rw [h3 n hm.2]
      simp [Files.write, hm.1]

theorem nodup_names (E : Env) (o : Options) (r : Results) : ((writes E o r).map Prod.fst).Nodup := (writes_sublist E o r).nodup (names_nodup o)

/-- a successful run -/
theorem run_cases (E : Env) (o : Options) (fs : Files) :
    (∃ e, parseKappa E o.specify fs o.inputfile = .error e ∧ doKappa E o fs = (fs, .error e)) ∨
    ∃ r, parseKappa E o.specify fs o.inputfile = .ok r ∧ (doKappa E o fs).2 = .ok () ∧ (doKappa E o fs).1 = (runWrites (writes E o r) fs).1 := by
  unfold doKappa
  cases h : parseKappa E o.specify fs o.inputfile with
  | error e => exact .inl ⟨e, rfl, rfl⟩
  | ok r => exact .inr ⟨r, rfl, (run_spec _ fs (writes_ok (parse_even h)) (nodup_names E o r)).1, rfl⟩

/-! ## C124: the files -/

/-- **C124** A run that fails changes no file. -/
theorem C124_failed (E : Env) (o : Options) (fs : Files) (e : RunErr) (h : (doKappa E o fs).2 = .error e) : (doKappa E o fs).1 = fs := by
  rcases run_cases E o fs with ⟨e', -, h2⟩ | ⟨r, -, h2, -⟩
  · rw [h2]
  · rw [h2] at h; cases h

/-- what has become of the file `name`: it holds the table if there are results, otherwise it is as before -/
def DetailFile (E : Env) (o : Options) (fs fs' : Files) (name : List Char) (header first : String) : Detail → Prop
  | none => fs' name = fs name
  | some (xs, cols) => ∃ t, tableText E o header first xs cols = .ok t ∧ fs' name = some t

/-- **C124** The files a successful run writes: the main table always, each detail table and the substituted configuration if
there are results for it; every other file (also a detail file of an earlier run) is as before. -/
theorem C124_files (E : Env) (o : Options) (fs : Files) (h : (doKappa E o fs).2 = .ok ()) :
    ∃ r, parseKappa E o.specify fs o.inputfile = .ok r ∧
      (∃ t, tableText E o "Predict kappa" "Xcolumn" r.predX r.pred = .ok t ∧ (doKappa E o fs).1 o.main = some t) ∧
      DetailFile E o fs (doKappa E o fs).1 o.rate "Scattering rate" "freq" r.rate ∧
      DetailFile E o fs (doKappa E o fs).1 o.spec "Spectral kappa" "freq" r.spec ∧
      DetailFile E o fs (doKappa E o fs).1 o.cumu "Cumulative kappa" "mfp" r.cumu ∧
      ((doKappa E o fs).1 o.subs = match r.subs with
        | none => fs o.subs
        | some lines => if lines = [] then fs o.subs else some lines.flatten) ∧
      ∀ n, n ∉ kappaOutputs o.outputfile o.inputfile o.suffix → (doKappa E o fs).1 n = fs n := by
  rcases run_cases E o fs with ⟨e, h1, h2⟩ | ⟨r, h1, h2, h3⟩
  · rw [h2] at h; cases h
  · have hE := parse_even h1
    obtain ⟨-, a2, a3⟩ := run_spec (writes E o r) fs (writes_ok hE) (nodup_names E o r)
    have hnd := names_nodup o
    simp only [List.nodup_cons, List.mem_cons, List.not_mem_nil, or_false, not_or] at hnd
    obtain ⟨⟨n1, n2, n3, n4⟩, ⟨n5, n6, n7⟩, ⟨n8, n9⟩, n10, -⟩ := hnd
    have hnot : ∀ n, (n = o.rate → r.rate = none) → (n = o.spec → r.spec = none) → (n = o.cumu → r.cumu = none) →
        (n = o.subs → r.subs = none ∨ r.subs = some []) → n ≠ o.main → n ∉ (writes E o r).map Prod.fst := by
      intro n c1 c2 c3 c4 c5 hm
      rw [writes_names] at hm
      simp only [List.mem_cons, List.mem_append] at hm
      rcases hm with hm | ((hm | hm) | hm) | hm
      · exact c5 hm
      · cases hr : r.rate with
        | none => rw [hr] at hm; cases hm
        | some p => rw [hr] at hm; rw [List.mem_singleton.1 hm] at c1; rw [c1 rfl] at hr; cases hr
      · cases hr : r.spec with
        | none => rw [hr] at hm; cases hm
        | some p => rw [hr] at hm; rw [List.mem_singleton.1 hm] at c2; rw [c2 rfl] at hr; cases hr
      · cases hr : r.cumu with
        | none => rw [hr] at hm; cases hm
        | some p => rw [hr] at hm; rw [List.mem_singleton.1 hm] at c3; rw [c3 rfl] at hr; cases hr
      · cases hr : r.subs with
        | none => rw [hr] at hm; cases hm
        | some l =>
          rw [hr] at hm
          simp only at hm
          split_ifs at hm with hl
          · cases hm
          · rw [List.mem_singleton.1 hm, hr] at c4
            rcases c4 rfl with c4 | c4 <;> cases c4
            exact hl rfl
    have hdet : ∀ (name : List Char) (hd f : String) (d : Detail), EvenDetail d → (∀ w ∈ detailWrite E o name hd f d, w ∈ writes E o r) →
        (d = none → name ∉ (writes E o r).map Prod.fst) → DetailFile E o fs (doKappa E o fs).1 name hd f d := by
      intro name hd f d hE hsub hnone
      rcases d with _ | ⟨xs, cols⟩
      · show (doKappa E o fs).1 name = _
        rw [h3]
        exact a3 _ (hnone rfl)
      · obtain ⟨t, ht⟩ := tableText_ok E o hd f hE
        refine ⟨t, ht, ?_⟩
        rw [h3]
        refine a2 _ _ (hsub _ ?_)
        rw [detailWrite, ht]
        exact List.mem_singleton.2 rfl
    refine ⟨r, h1, ?_, ?_, ?_, ?_, ?_, ?_⟩
    · obtain ⟨t, ht⟩ := tableText_ok E o "Predict kappa" "Xcolumn" hE.pred
      refine ⟨t, ht, ?_⟩
      rw [h3]
      refine a2 _ _ ?_
      unfold writes
      rw [ht]
      exact List.mem_cons_self
    · refine hdet _ _ _ _ hE.rate (fun w hw => ?_) fun hr => hnot _ (fun _ => hr) (fun e => absurd e n5) (fun e => absurd e n6) (fun e => absurd e n7) (fun e => n1 e.symm)
      unfold writes
      simp only [List.mem_cons, List.mem_append]
      exact .inr (.inl (.inl (.inl hw)))
    · refine hdet _ _ _ _ hE.spec (fun w hw => ?_) fun hr => hnot _ (fun e => absurd e.symm n5) (fun _ => hr) (fun e => absurd e n8) (fun e => absurd e n9) (fun e => n2 e.symm)
      unfold writes
      simp only [List.mem_cons, List.mem_append]
      exact .inr (.inl (.inl (.inr hw)))
    · refine hdet _ _ _ _ hE.cumu (fun w hw => ?_) fun hr => hnot _ (fun e => absurd e.symm n6) (fun e => absurd e.symm n8) (fun _ => hr) (fun e => absurd e n10) (fun e => n3 e.symm)
      unfold writes
      simp only [List.mem_cons, List.mem_append]
      exact .inr (.inl (.inr hw))
    · have hno : r.subs = none ∨ r.subs = some [] → (doKappa E o fs).1 o.subs = fs o.subs := by
        intro hs
        rw [h3]
        exact a3 _ (hnot _ (fun e => absurd e.symm n7) (fun e => absurd e.symm n9) (fun e => absurd e.symm n10) (fun _ => hs) (fun e => n4 e.symm))
      cases hs : r.subs with
      | none => exact hno (.inl hs)
      | some l =>
        simp only
        split_ifs with hl
        · subst hl
          exact hno (.inr hs)
        · rw [h3]
          refine a2 _ _ ?_
          unfold writes
          simp only [List.mem_cons, List.mem_append]
          refine .inr (.inr ?_)
          rw [hs]
          simp only [if_neg hl]
          exact List.mem_singleton.2 rfl
    · intro n hn
      rw [h3]
      refine a3 n fun hm => hn ?_
      rw [outputs_eq]
      exact (writes_sublist E o r).subset hm

/-! ## Repetition and recovery -/

/-- the files a run reads: the configuration and the data file it names -/
def Reads (o : Options) (fs : Files) (n : List Char) : Prop :=
  n = o.inputfile ∨ ∃ text p e t rest, fs o.inputfile = some text ∧ CfgText.readCfg (rawLines text) = .ok p ∧ get? p.items "entry".toList = some e ∧
    get? e "expdata" = some t ∧ strip t = "file:".toList ++ rest ∧ n = strip rest

/-- the files a run with the results `r` writes -/
def Writes (o : Options) (r : Results) (n : List Char) : Prop :=
  n = o.main ∨ (n = o.rate ∧ r.rate ≠ none) ∨ (n = o.spec ∧ r.spec ≠ none) ∨ (n = o.cumu ∧ r.cumu ≠ none) ∨ (n = o.subs ∧ r.subs ≠ none)

theorem update_get (sp : Entry) : ∀ (e : Entry) (k : String), (∀ p ∈ sp, p.1 ≠ k) → get? (update sp e) k = get? e k := by
  induction sp with
  | nil => exact fun _ _ _ => rfl
  | cons p sp ih =>
    intro e k h
    show get? (update sp (PyDict.set e p.1 p.2)) k = _
    rw [ih _ k fun q hq => h q (List.mem_cons_of_mem _ hq), get?_set, if_neg (h p List.mem_cons_self)]

/-- the options that can be given on the command line -/
def cliKeys : List String := ["npoints", "margin", "predict", "temperature", "frequnit", "substituted", "splitkappa", "scattering", "spectral", "cumulate"]

theorem specify_keys (o : Options) : ∀ p ∈ o.specify, p.1 ∈ cliKeys := by
  intro p hp
  have hg : ∀ (k : String) (v : Option (List Char)), p ∈ given k v → p.1 = k := by
    intro k v h
    cases v with
    | none => cases h
    | some t => rw [given, Option.map_some, Option.toList_some, List.mem_singleton] at h; rw [h]
  unfold Options.specify at hp
  simp only [List.mem_append] at hp
  rcases hp with (((((hp | hp) | hp) | hp) | hp) | hp) | hp
  · rw [hg _ _ hp]; decide
  · rw [hg _ _ hp]; decide
  · rw [hg _ _ hp]; decide
  · rw [hg _ _ hp]; decide
  · rw [hg _ _ hp]; decide
  · split_ifs at hp
    · rw [List.mem_singleton.1 hp]; decide
    · cases hp
  · split_ifs at hp
    · simp only [List.mem_cons, List.not_mem_nil, or_false] at hp
      rcases hp with rfl | rfl | rfl | rfl <;> decide
    · cases hp

theorem updateCfg_entry (sp : Entry) : ∀ (cfg : Config) (e : Entry), get? (updateCfg sp cfg) "entry".toList = some e ↔
    ∃ e0, get? cfg "entry".toList = some e0 ∧ e = update sp e0
  | [], e => by simp [updateCfg, get?]
  | (n, i) :: cfg, e => by
    have ih := updateCfg_entry sp cfg e
    unfold updateCfg at ih ⊢
    rw [List.map_cons]
    by_cases h : n = "entry".toList
    · subst h
      simp only [if_true, get?_cons]
      constructor
      · intro he; cases he; exact ⟨i, rfl, rfl⟩
      · rintro ⟨e0, he, rfl⟩; cases he; rfl
    · simp only [if_neg h, get?_cons]
      exact ih

theorem prefix_append {p t : List Char} (h : p.isPrefixOf t = true) : t = p ++ t.drop p.length := by
  obtain ⟨r, rfl⟩ := List.isPrefixOf_iff_prefix.1 h
  simp

theorem parseArray_congr {float : List Char → Except PyErr ℝ} {fs fs' : Files} {t : List Char}
    (h : ∀ rest, strip t = "file:".toList ++ rest → fs' (strip rest) = fs (strip rest)) : parseArray float fs' t = parseArray float fs t := by
  unfold parseArray
  split_ifs with h1
  · have := h _ (prefix_append h1)
    have e : ("file:".toList).length = 5 := by decide
    rw [e] at this
    rw [this]
  · rfl
  · rfl

theorem rest_congr {E : Env} {fs fs' : Files} {lines : List (List Char)} {cfg : Config} {e : Entry}
    (h : ∀ t, get? e "expdata" = some t → parseArray E.float fs' t = parseArray E.float fs t) :
    parseRest E fs' lines cfg e = parseRest E fs lines cfg e := by
  have h1 : expdata E fs' e = expdata E fs e := by
    unfold expdata
    cases ht : get? e "expdata" with
    | none => rfl
    | some t => simp only [h t ht]
  have h2 : ∀ o vars s, fitStep E fs' e o vars s = fitStep E fs e o vars s := by
    intro o vars s
    unfold fitStep
    rw [h1]
  unfold parseRest
  simp only [h2]

theorem parse_congr {E : Env} {o : Options} {fs fs' : Files} (h : ∀ n, Reads o fs n → fs' n = fs n) :
    parseKappa E o.specify fs' o.inputfile = parseKappa E o.specify fs o.inputfile := by
  unfold parseKappa
  rw [h _ (.inl rfl)]
  cases h1 : fs o.inputfile with
  | none => rfl
  | some text =>
    simp only
    cases h2 : CfgText.readCfg (rawLines text) with
    | error e => rfl
    | ok p =>
      simp only
      cases h3 : get? (updateCfg o.specify p.items) "entry".toList with
      | none => rfl
      | some e =>
        simp only
        rw [rest_congr]
        intro t ht
        refine parseArray_congr fun rest hr => h _ (.inr ?_)
        obtain ⟨e0, he0, rfl⟩ := (updateCfg_entry _ _ _).1 h3
        rw [update_get _ _ _ (fun q hq he => absurd (specify_keys o q hq) (by rw [he]; decide))] at ht
        exact ⟨text, p, e0, t, rest, h1, h2, he0, ht, hr, rfl⟩

theorem mem_writes {E : Env} {o : Options} {r : Results} {n : List Char} (h : n ∈ (writes E o r).map Prod.fst) : Writes o r n := by
  rw [writes_names] at h
  simp only [List.mem_cons, List.mem_append] at h
  rcases h with h | ((h | h) | h) | h
  · exact .inl h
  · cases hr : r.rate with
    | none => rw [hr] at h; cases h
    | some p => rw [hr] at h; exact .inr (.inl ⟨List.mem_singleton.1 h, by rw [hr]; simp⟩)
  · cases hr : r.spec with
    | none => rw [hr] at h; cases h
    | some p => rw [hr] at h; exact .inr (.inr (.inl ⟨List.mem_singleton.1 h, by rw [hr]; simp⟩))
  · cases hr : r.cumu with
    | none => rw [hr] at h; cases h
    | some p => rw [hr] at h; exact .inr (.inr (.inr (.inl ⟨List.mem_singleton.1 h, by rw [hr]; simp⟩)))
  · cases hr : r.subs with
    | none => rw [hr] at h; cases h
    | some l =>
      rw [hr] at h
      simp only at h
      split_ifs at h
      · cases h
      · exact .inr (.inr (.inr (.inr ⟨List.mem_singleton.1 h, by rw [hr]; simp⟩)))

/-- the substituted configuration has lines -/
theorem subs_nonempty {E : Env} {sp : Entry} {fs : Files} {file : List Char} {r : Results} (h : parseKappa E sp fs file = .ok r)
    (hp : ∀ v lines l, E.pattern v lines = .ok l → lines ≠ [] → l ≠ []) : r.subs ≠ some [] := by
  obtain ⟨text, p, e, -, h2, h3, h4⟩ := parse_steps h
  obtain ⟨l, s0, o, data, s, subs, n, xs, ys, -, -, -, c4, -, -, -, c8⟩ := rest_steps h4
  have hs : r.subs = subs := by
    rcases detail_steps c8 with ⟨-, rfl⟩ | ⟨-, d, pred, T, u, rate, spec, cumu, -, -, -, -, -, -, -, rfl⟩ <;> rfl
  rw [hs]
  rintro rfl
  have hlines : rawLines text ≠ [] := by
    intro he
    rw [he] at h2
    cases h2
    obtain ⟨e0, he0, -⟩ := (updateCfg_entry _ _ _).1 h3
    rw [show CfgText.Parsed.items _ = [(CfgText.defaultName, [])] from rfl, get?_cons, if_neg (by decide)] at he0
    cases he0
  unfold subsStep at c4
  split_ifs at c4
  · cases c4
  split at c4
  · cases c4
  · cases c4
  · split at c4
    · cases c4
    · rename_i r' hr
      cases c4
      cases hf : substitutedFile E.fmt (fittedVars l s) (rawLines text) with
      | none => rw [hf] at hr; exact hp _ _ _ hr hlines rfl
      | some q =>
        rw [hf] at hr
        simp only [Option.getD_some] at hr
        subst hr
        unfold substitutedFile substitutedTags at hf
        split at hf
        · cases hf
        · rename_i vs hvs
          cases hq : sectionRange 0 none (rawLines text) with
          | mk a b =>
            cases a with
            | none => simp only [substituted, hq] at hf; cases hf
            | some a =>
              simp only [substituted, hq, Option.some.injEq] at hf
              have : ∀ (vs : List (Re × List Char)) (ls : List (List Char)), ls ≠ [] → replaceVars a b vs ls ≠ .ok [] := by
                intro vs
                induction vs with
                | nil => intro ls h1 h2; cases h2; exact h1 rfl
                | cons v vs ih =>
                  intro ls h1 h2
                  obtain ⟨tag, val⟩ := v
                  rw [replaceVars] at h2
                  split at h2
                  · cases h2
                  · rename_i ls' hl
                    refine ih ls' ?_ h2
                    rintro rfl
                    unfold replaceVar at hl
                    split at hl
                    · cases hl
                    · rename_i r' hr'
                      simp only [Except.ok.injEq, List.append_eq_nil_iff] at hl
                      obtain ⟨-, rfl⟩ := hl
                      generalize b - a = k at hr'
                      generalize ls.drop a = m at hr'
                      cases k with
                      | zero => cases hr'
                      | succ k =>
                        cases m with
                        | nil => cases hr'
                        | cons x m =>
                          rw [replaceLine] at hr'
                          split_ifs at hr'
                          · cases hr'
                          · split at hr' <;> cases hr'
              exact this vs _ hlines hf

theorem writes_mem {E : Env} {o : Options} {r : Results} {n : List Char} (hs : r.subs ≠ some []) (h : Writes o r n) : n ∈ (writes E o r).map Prod.fst := by
  rw [writes_names]
  simp only [List.mem_cons, List.mem_append]
  rcases h with h | ⟨rfl, h⟩ | ⟨rfl, h⟩ | ⟨rfl, h⟩ | ⟨rfl, h⟩
  · exact .inl h
  · refine .inr (.inl (.inl (.inl ?_)))
    cases hr : r.rate with
    | none => exact absurd hr h
    | some p => exact List.mem_singleton.2 rfl
  · refine .inr (.inl (.inl (.inr ?_)))
    cases hr : r.spec with
    | none => exact absurd hr h
    | some p => exact List.mem_singleton.2 rfl
  · refine .inr (.inl (.inr ?_))
    cases hr : r.cumu with
    | none => exact absurd hr h
    | some p => exact List.mem_singleton.2 rfl
  · refine .inr (.inr ?_)
    cases hr : r.subs with
    | none => exact absurd hr h
    | some l =>
      simp only
      rw [if_neg (fun e => hs (by rw [hr, e]))]
      exact List.mem_singleton.2 rfl

/-- **C124** Recovery: if the files a run writes have any contents at all (a run that was interrupted at any point, even while writing a file)
and none of them is read, running again gives exactly the files of the complete run. -/
theorem C124_recover (E : Env) (hE : ∀ v lines l, E.pattern v lines = .ok l → lines ≠ [] → l ≠ []) (o : Options) (fs fs' : Files) (r : Results)
    (hr : parseKappa E o.specify fs o.inputfile = .ok r) (hread : ∀ n, Reads o fs n → ¬ Writes o r n) (h : ∀ n, ¬ Writes o r n → fs' n = fs n) :
    doKappa E o fs' = doKappa E o fs := by
  have hp := parse_congr (E := E) fun n hn => h n (hread n hn)
  unfold doKappa
  rw [hp, hr]
  simp only
  obtain ⟨a1, a2, a3⟩ := run_spec (writes E o r) fs (writes_ok (parse_even hr)) (nodup_names E o r)
  obtain ⟨b1, b2, b3⟩ := run_spec (writes E o r) fs' (writes_ok (parse_even hr)) (nodup_names E o r)
  refine Prod.ext ?_ (b1.trans a1.symm)
  funext n
  by_cases hn : n ∈ (writes E o r).map Prod.fst
  · obtain ⟨w, hw, rfl⟩ := List.mem_map.1 hn
    obtain ⟨t, ht⟩ := writes_ok (parse_even hr) w hw
    obtain ⟨n, c⟩ := w
    simp only at ht
    subst ht
    rw [a2 n t hw, b2 n t hw]
  · rw [a3 n hn, b3 n hn, h]
    exact fun hw => hn (writes_mem (subs_nonempty hr hE) hw)

/-- **C124** Repeating a run changes nothing, unless an output is read. -/
theorem C124_repeat (E : Env) (hE : ∀ v lines l, E.pattern v lines = .ok l → lines ≠ [] → l ≠ []) (o : Options) (fs : Files)
    (hread : ∀ n, Reads o fs n → n ∉ kappaOutputs o.outputfile o.inputfile o.suffix) :
    doKappa E o (doKappa E o fs).1 = doKappa E o fs := by
  rcases run_cases E o fs with ⟨e, -, h2⟩ | ⟨r, h1, h2, h3⟩
  · rw [h2]; exact h2
  · have hsub : ∀ n, Writes o r n → n ∈ kappaOutputs o.outputfile o.inputfile o.suffix := by
      intro n hn
      rw [outputs_eq]
      exact (writes_sublist E o r).subset (writes_mem (subs_nonempty h1 hE) hn)
    refine C124_recover E hE o fs _ r h1 (fun n hn hw => hread n hn (hsub n hw)) fun n hn => ?_
    rw [h3]
    exact (run_spec (writes E o r) fs (writes_ok (parse_even h1)) (nodup_names E o r)).2.2 n fun hm => hn (mem_writes hm)

end TEflow.KappaRun
