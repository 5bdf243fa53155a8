import Verif.Model.BandRun
import Verif.Props.BandCfgMain
import Verif.Props.KappaRunSubs
import Verif.Props.CfgText
import Verif.Props.ToolRuns
import Verif.Props.InterfaceNames

/-! # C125: whole runs of `tef-band`: files, command line, simulation -/

namespace TEflow.BandRun

open PyDict Loader Interface TableFile ToolRuns KappaRun

variable {E : Env} {o : Options} {fs : Files}

/-! ## Files -/

/-- **C125** A run that fails changes no file. -/
theorem C125_failed (E : Env) (o : Options) (fs : Files) (e : RunErr) (h : (doBand E o fs).2 = .error e) : (doBand E o fs).1 = fs := by
  unfold doBand at h ⊢
  split
  · rfl
  · rename_i t ht
    rw [ht] at h
    cases h

/-- **C125** A successful run writes one file, the one named on the command line, or else made of the name of the input, and no other. -/
theorem C125_files (E : Env) (o : Options) (fs : Files) (h : (doBand E o fs).2 = .ok ()) :
    ∃ t, text E o fs = .ok t ∧ (doBand E o fs).1 (suffixed o.outputfile o.inputfile o.suffix (if o.modelling = none then ".txt".toList else [])) = some t ∧
      ∀ n, n ≠ suffixed o.outputfile o.inputfile o.suffix (if o.modelling = none then ".txt".toList else []) → (doBand E o fs).1 n = fs n := by
  unfold doBand at h ⊢
  cases ht : text E o fs with
  | error e => rw [ht] at h; cases h
  | ok t =>
    exact ⟨t, rfl, by simp [Files.write, Options.output], fun n hn => if_neg hn⟩

theorem text_congr {fs fs' : Files} (h : fs' o.inputfile = fs o.inputfile) : text E o fs' = text E o fs := by
  unfold text simText modelText modelTable
  rw [h]

/-- **C125** Recovery: whatever an interrupted run has left in the output file, running again gives exactly the files of the complete run, as long as the output is not the
input. -/
theorem C125_recover (E : Env) (o : Options) (fs fs' : Files) (hne : o.output ≠ o.inputfile) (hok : (doBand E o fs).2 = .ok ()) (h : ∀ n, n ≠ o.output → fs' n = fs n) :
    doBand E o fs' = doBand E o fs := by
  unfold doBand at hok ⊢
  rw [text_congr (h _ hne.symm)]
  cases ht : text E o fs with
  | error e => rw [ht] at hok; cases hok
  | ok t =>
    refine Prod.ext (funext fun n => ?_) rfl
    by_cases hn : n = o.output
    · simp [Files.write, hn]
    · simp [Files.write, hn, h n hn]

/-- **C125** Repeating a run changes nothing, as long as the output is not the input. -/
theorem C125_repeat (E : Env) (o : Options) (fs : Files) (hne : o.output ≠ o.inputfile) : doBand E o (doBand E o fs).1 = doBand E o fs := by
  cases h : (doBand E o fs).2 with
  | error e => rw [C125_failed E o fs e h]
  | ok _ =>
    refine C125_recover E o fs _ hne h fun n hn => ?_
    obtain ⟨t, -, -, h3⟩ := C125_files E o fs h
    exact h3 n hn

/-- **C125** Without an output name the output is never the input (the suffix holds no slash). -/
theorem C125_auto (o : Options) (ho : o.outputfile = []) (hs : '/' ∉ o.suffix) : o.output ≠ o.inputfile := by
  intro h
  unfold Options.output at h
  rw [ho] at h
  obtain ⟨-, h2, h3⟩ := C57_generated o.inputfile o.suffix (if o.modelling = none then ".txt".toList else []) hs (by split <;> decide)
  rw [h] at h2 h3
  exact h3 h2.symm

/-! ## The command line -/

/-- the value of an option on the command line: the last one given -/
def onLine (o : Options) (k : String) : Option (List Char) := get? o.stored.reverse k

theorem specify_get (o : Options) (k : String) : get? o.specify.reverse k = onLine o k := by
  have hw : WF o.specify := WF_ofPairs _
  have : get? o.specify.reverse k = get? o.specify k := by
    refine (get?_perm ?_ (List.reverse_perm _) k)
    exact hw.perm (List.reverse_perm _).symm
  rw [this]
  unfold Options.specify onLine ofPairs
  rw [get?_update]
  simp [get?]

/-- the setting in force: the command line, otherwise the section `entry` -/
def setting (o : Options) (e : List (String × List Char)) (k : String) : Option (List Char) := (onLine o k).or (get? e k)

theorem entryOf_get {cfg : BandCfg.Config} {e : List (String × List Char)} (h : get? cfg "entry".toList = some e) :
    ∃ e', BandCfg.entryOf cfg o.specify = .ok e' ∧ ∀ k, get? e' k = setting o e k := by
  obtain ⟨e', h1, h2⟩ := (BandCfg.C109_settings (float := fun _ => .error .valueError) (root := fun _ _ => .error .valueError) (specify := o.specify) e).1 h
  exact ⟨e', h1, fun k => by rw [h2, specify_get]; rfl⟩

theorem pmatch_same {cfg cfg' : BandCfg.Config} (h : SameButEntry cfg cfg') (name : List Char) (hn : name ≠ "entry".toList) :
    Utils.pmatch cfg name = Utils.pmatch cfg' name := by
  induction h with
  | nil => rfl
  | @cons a b l l' h1 _ ih =>
    obtain ⟨ka, va⟩ := a
    obtain ⟨kb, vb⟩ := b
    obtain ⟨h0, h1⟩ := h1
    simp only at h0 h1
    subst h0
    unfold Utils.pmatch
    by_cases hk : ka = "entry".toList
    · subst hk
      have e1 : (name ++ ['.']).isPrefixOf "entry".toList = false := by
        by_contra hc
        rw [Bool.not_eq_false] at hc
        obtain ⟨t, ht⟩ := List.isPrefixOf_iff_prefix.1 hc
        have : '.' ∈ "entry".toList := by rw [← ht]; simp
        exact absurd this (by decide)
      simp only [e1, Ne.symm hn, if_false, Bool.false_eq_true, ih]
    · rw [h1 hk, ih]

theorem simulate_congr {float : List Char → Except PyErr ℝ} {root : (ℝ → Except PyErr ℝ) → ℝ → Except PyErr ℝ} {cfg cfg' : BandCfg.Config}
    {s s' : List (String × List Char)} {e e' : PyDict String (List Char)} (he : BandCfg.entryOf cfg s = .ok e) (he' : BandCfg.entryOf cfg' s' = .ok e')
    (h : ∀ k, get? e k = get? e' k) (hc : SameButEntry cfg cfg') (hb : ∀ t, get? e "bands" = some t → "entry".toList ∉ Utils.parseList t) :
    BandCfg.simulate float root cfg s = BandCfg.simulate float root cfg' s' := by
  have e1 : BandCfg.bandsOf float cfg e = BandCfg.bandsOf float cfg' e' := by
    unfold BandCfg.bandsOf
    rw [← h]
    cases ht : get? e "bands" with
    | none => rfl
    | some t =>
      simp only
      have hb' := hb t ht
      have : ∀ l : List (List Char), "entry".toList ∉ l → l.mapM (BandCfg.parseBand float cfg) = l.mapM (BandCfg.parseBand float cfg') := by
        intro l hl
        induction l with
        | nil => rfl
        | cons a l ih =>
          rw [List.mem_cons, not_or] at hl
          rw [List.mapM_cons, List.mapM_cons, ih hl.2]
          have : BandCfg.parseBand float cfg a = BandCfg.parseBand float cfg' a := by
            unfold BandCfg.parseBand
            rw [pmatch_same hc a (Ne.symm hl.1)]
          rw [this]
      exact this _ hb'
  have e2 : ∀ bands, BandCfg.modelOf float bands e = BandCfg.modelOf float bands e' := by
    intro bands
    unfold BandCfg.modelOf BandCfg.deltasOf
    simp only [h]
  have e3 : ∀ solve, BandCfg.pointsOf float solve e = BandCfg.pointsOf float solve e' := by
    intro solve
    unfold BandCfg.pointsOf BandCfg.solved BandCfg.initialOf
    simp only [h]
  have e4 : BandCfg.propsOf e = BandCfg.propsOf e' := by
    unfold BandCfg.propsOf
    rw [h]
  unfold BandCfg.simulate BandCfg.parseBands
  simp only [he, he', e1, e2, e3, e4]

/-- **C125** The command line and the section `entry` of the file: two simulations whose configurations differ in the section `entry` only, with the same settings in force
(the last one on the command line, otherwise that of the file), write the same text. -/
theorem C125_command_line (E : Env) (o o' : Options) (fs fs' : Files) (text text' : List Char) (p p' : CfgText.Parsed) (e e' : List (String × List Char))
    (hm : o.modelling = none) (hm' : o'.modelling = none) (hb : o.bare = o'.bare) (hh : o.headers = o'.headers)
    (ht : fs o.inputfile = some text) (ht' : fs' o'.inputfile = some text')
    (hp : CfgText.readCfg (rawLines text) = .ok p) (hp' : CfgText.readCfg (rawLines text') = .ok p')
    (he : get? p.items "entry".toList = some e) (he' : get? p'.items "entry".toList = some e')
    (hsame : SameButEntry p.items p'.items) (hset : ∀ k, setting o e k = setting o' e' k)
    (hn : ∀ t, setting o e "bands" = some t → "entry".toList ∉ Utils.parseList t) :
    BandRun.text E o fs = BandRun.text E o' fs' := by
  obtain ⟨f, a1, a2⟩ := entryOf_get (o := o) he
  obtain ⟨f', b1, b2⟩ := entryOf_get (o := o') he'
  have := simulate_congr (float := E.float) (root := E.root) a1 b1 (fun k => by rw [a2, b2, hset]) hsame (fun t h => hn t (by rw [← a2]; exact h))
  unfold BandRun.text simText
  simp only [hm, hm', ht, ht', hp, hp', this, hb, hh]

/-! ## The simulation -/

/-- the options of the section `entry` of a configuration -/
def entryIn (cfg : List (List Char × List (List Char × List Char))) (e : List (String × List Char)) : Prop :=
  ∃ opts, ("entry".toList, opts) ∈ cfg ∧ e = opts.map fun q => (String.ofList q.1, q.2)

/-- **C125** A simulation never starts without its configuration: no file is an `IOError`, a text that is no configuration the error of its reader, no section `entry` a `KeyError`; and what stops
the simulation stops the run. -/
theorem C125_broken (E : Env) (o : Options) (fs : Files) (hm : o.modelling = none) :
    (fs o.inputfile = none → (doBand E o fs).2 = .error (.py .ioError)) ∧
    (∀ text, fs o.inputfile = some text →
      (∀ e, CfgText.readCfg (rawLines text) = .error e → (doBand E o fs).2 = .error (.cfg e)) ∧
      (∀ p, CfgText.readCfg (rawLines text) = .ok p → get? p.items "entry".toList = none → (doBand E o fs).2 = .error (.py .keyError)) ∧
      (∀ p e, CfgText.readCfg (rawLines text) = .ok p → BandCfg.simulate E.float E.root p.items o.specify = .error e → (doBand E o fs).2 = .error (.py e))) := by
  have key : ∀ e, simText E o fs = .error e → (doBand E o fs).2 = .error e := by
    intro e h
    unfold doBand BandRun.text
    simp only [hm, h]
  refine ⟨fun h => key _ ?_, fun text h => ⟨fun e h' => key _ ?_, fun p h' hn => key _ ?_, fun p e h' hs => key _ ?_⟩⟩
  · simp only [simText, h]
  · simp only [simText, h, h']
  · have h1 := (BandCfg.C109_settings (float := E.float) (root := E.root) (cfg := p.items) (specify := o.specify) []).2 hn
    simp only [simText, h, h', h1, bind, Except.bind]
    rfl
  · simp only [simText, h, h', hs, bind, Except.bind]
    rfl

/-- the table written: labels and one line per point, the numbers of a line in the order of the labels -/
def Holds (E : Env) (render : ℝ → List Char) (o : Options) (title : String) (t : List Char) (labels : List String) (cols : List (List ℝ)) (n : Nat) : Prop :=
  ∃ rows : List (List ℝ), rows.length = n ∧ (∀ r ∈ rows, r.length = labels.length) ∧ columnsOf labels.length rows = cols ∧
    linesOf t = (if o.bare then [] else if o.headers then [join [' ', ' '] (labels.map String.toList)]
      else [('#' :: title.toList) ++ " - ".toList ++ E.info, '#' :: join [' ', ' '] (labels.map String.toList)]) ++
      rows.map fun r => join [' '] (r.map render)

theorem toFile_holds {render : ℝ → List Char} (hc : Clean render) (hi : '\n' ∉ E.info) (title : String) (htl : '\n' ∉ title.toList) (htn : title.toList ≠ [])
    (d : PyDict String (List ℝ)) (n : Nat) (hne : d ≠ []) (hl : ∀ a ∈ d, a.2.length = n) (hk : ∀ k ∈ keys d, k ≠ "" ∧ '\n' ∉ k.toList) :
    ∃ t, toFile render o.bare o.headers (.columns d) title.toList E.info (.names []) = .ok t ∧ Holds E render o title t (keys d) (d.map Prod.snd) n := by
  obtain ⟨l, rows, h1, h2, h3, h4, h5⟩ := (C111_columns d (.names [])).2 n hne hl
  have h5' : l = .names (d.map fun p => p.1.toList) := h5.1 (.inl rfl)
  subst h5'
  have hnames : (d.map fun p => p.1.toList) = (keys d).map String.toList := by
    unfold keys
    rw [List.map_map]
    rfl
  have hlen : (keys d).length = d.length := by unfold keys; simp
  obtain ⟨a1, a2, a3⟩ := C111_layout hc (.columns d) title.toList E.info (d.map fun p => p.1.toList) (.names []) rows h1 (by
      cases d with
      | nil => exact absurd rfl hne
      | cons p d => exact ⟨_, _, rfl, fun h => (hk p.1 (by simp [keys])).1 (String.toList_inj.1 h)⟩) htl hi (by
      intro a ha
      rw [hnames] at ha
      obtain ⟨k, hk', rfl⟩ := List.mem_map.1 ha
      exact (hk k hk').2)
  cases hb : o.bare with
  | true =>
    obtain ⟨t, t1, t2⟩ := a1
    refine ⟨t, ?_, rows, h2, by rw [hlen]; exact h3, by rw [hlen]; exact h4, ?_⟩
    · rw [← t1]
      unfold toFile
      rfl
    · rw [t2, hb]; rfl
  | false =>
    cases hh : o.headers with
    | false =>
      obtain ⟨t, t1, t2⟩ := a2
      refine ⟨t, t1, rows, h2, by rw [hlen]; exact h3, by rw [hlen]; exact h4, ?_⟩
      rw [t2, hb, hh, if_neg htn, hnames]
      rfl
    | true =>
      obtain ⟨t, t1, t2⟩ := a3
      refine ⟨t, t1, rows, h2, by rw [hlen]; exact h3, by rw [hlen]; exact h4, ?_⟩
      rw [t2, hb, hh, hnames]
      rfl

theorem asked_congr {e e' : PyDict String (List Char)} {props : List String} (h : ∀ k, get? e k = get? e' k) (ha : BandCfg.Asked e props) : BandCfg.Asked e' props := by
  unfold BandCfg.Asked at ha ⊢
  rw [h] at ha
  exact ha

theorem setup_congr {float : List Char → Except PyErr ℝ} {cfg : BandCfg.Config} {e e' : PyDict String (List Char)} {bands : List BandCfg.BandObj} {signs deltas : List ℝ}
    (h : ∀ k, get? e k = get? e' k) (hs : BandCfg.Setup float cfg e bands signs deltas) : BandCfg.Setup float cfg e' bands signs deltas := by
  obtain ⟨h1, h2, h3, h4, h5⟩ := hs
  rw [h] at h2 h4
  simp only [h] at h1 h2
  exact ⟨h1, h2, h3, h4, h5⟩

theorem points_congr {float : List Char → Except PyErr ℝ} {root : (ℝ → Except PyErr ℝ) → ℝ → Except PyErr ℝ} {ls : List BandCfg.Line} {e e' : PyDict String (List Char)}
    {pts : List (ℝ × ℝ)} (h : ∀ k, get? e k = get? e' k) (hp : BandCfg.Points float root ls e pts) : BandCfg.Points float root ls e' pts := by
  cases hp with
  | given hT hTs hEF hat hEFs hp => exact .given (h _ ▸ hT) hTs (h _ ▸ hEF) hat hEFs hp
  | solved hT hTs hEF ha hb href hp hne hi hs =>
    refine .solved (h _ ▸ hT) hTs (h _ ▸ hEF) ha hb href hp hne ?_ hs
    simp only [h] at hi
    exact hi

theorem clean_name {ls : List BandCfg.Line} {k : String} {EF T : ℝ} (h : (BandCfg.output ls k EF T).isSome) : k ≠ "" ∧ '\n' ∉ k.toList := by
  unfold BandCfg.output at h
  by_cases k1 : k = "EF"
  · subst k1; decide
  by_cases k2 : k = "T"
  · subst k2; decide
  by_cases k3 : k = "Kbip"
  · subst k3; decide
  rw [if_neg k1, if_neg k2, if_neg k3, Option.isSome_map] at h
  obtain ⟨q, hq⟩ := Option.isSome_iff_exists.1 h
  have := List.find?_some hq
  simp only [decide_eq_true_eq] at this
  subst this
  cases q <;> decide

theorem nodup_eraseDups {α : Type} [DecidableEq α] (l : List α) : l.eraseDups.Nodup := by
  have : l.eraseDups = keys (ofPairs (l.map fun k => (k, ()))) := (BandCfg.keys_ofPairs_eraseDups (fun _ => ()) l).symm
  rw [this]
  exact WF_ofPairs _

/-- **C125** A simulation: for a configuration whose bands, offsets, types and points are as written (`Setup`, `Points`), with the settings of the command line before those of
the section `entry`, the output file has one column for every property asked for, in this order and under its name (once if it is repeated), and one line for every point, with the
values of the property at the points: sums over the bands. -/
theorem C125_simulation (E : Env) (o : Options) (fs : Files) (text : List Char) (cfg : List (List Char × List (List Char × List Char))) (e : List (String × List Char))
    (hm : o.modelling = none) (hin : fs o.inputfile = some text) (hcfg : CfgText.FileShows cfg (rawLines text)) (he : entryIn cfg e)
    (hc : Clean E.sci) (hi : '\n' ∉ E.info)
    {bands : List BandCfg.BandObj} {signs deltas : List ℝ} {pts : List (ℝ × ℝ)} {props : List String} {entry : PyDict String (List Char)}
    (hset : ∀ k, get? entry k = setting o e k) (ha : BandCfg.Asked entry props) (hp0 : props ≠ [])
    (hsetup : BandCfg.Setup E.float (CfgText.Parsed.items ⟨cfg, []⟩) entry bands signs deltas) (hh : BandCfg.HallBands bands)
    (hp : BandCfg.Points E.float E.root (BandCfg.linesOf bands signs deltas) entry pts)
    (hk : ∀ k ∈ props, ∀ EF T, (BandCfg.output (BandCfg.linesOf bands signs deltas) k EF T).isSome) :
    (doBand E o fs).2 = .ok () ∧ ∃ t cols, (doBand E o fs).1 o.output = some t ∧ Holds E E.sci o "Simulating carrier transport" t props.eraseDups cols pts.length ∧
      List.Forall₂ (fun k col => List.Forall₂ (fun (q : ℝ × ℝ) v => BandCfg.output (BandCfg.linesOf bands signs deltas) k q.1 q.2 = some v) pts col) props.eraseDups cols := by
  obtain ⟨opts, ho, rfl⟩ := he
  have hread := CfgText.C121_reads cfg _ hcfg
  obtain ⟨-, -, -, -, -, hnd⟩ := hcfg
  have hget : get? (CfgText.Parsed.items ⟨cfg, []⟩) "entry".toList = some (opts.map fun q => (String.ofList q.1, q.2)) := by
    rw [get?_items (by decide), (mem_iff_get? hnd).1 ho]
    rfl
  obtain ⟨entry', h1, h2⟩ := entryOf_get (o := o) hget
  have hgets : ∀ k, get? entry k = get? entry' k := fun k => by rw [hset, h2]
  obtain ⟨table, t1, t2, t3⟩ := BandCfg.C109_simulation h1 (asked_congr hgets ha) (setup_congr hgets hsetup) hh (points_congr hgets hp) hk
  have hlen : ∀ a ∈ table, a.2.length = pts.length := by
    intro a hm
    have hak : a.1 ∈ props := by
      have : a.1 ∈ keys table := List.mem_map.2 ⟨a, hm, rfl⟩
      rw [t2] at this
      exact List.mem_eraseDups.1 this
    obtain ⟨col, c1, c2⟩ := t3 a.1 hak
    have hw : WF table := by unfold WF; rw [t2]; exact nodup_eraseDups _
    rw [(mem_iff_get? hw).1 hm] at c1
    cases c1
    exact c2.length_eq.symm
  have hne : table ≠ [] := by
    rintro rfl
    obtain ⟨k, hk'⟩ := List.exists_mem_of_ne_nil _ hp0
    have : k ∈ props.eraseDups := List.mem_eraseDups.2 hk'
    rw [← t2] at this
    cases this
  obtain ⟨t, w1, w2⟩ := toFile_holds (o := o) hc hi "Simulating carrier transport" (by decide) (by decide) table pts.length hne hlen (by
    intro k hkm
    rw [t2] at hkm
    exact clean_name (hk k (List.mem_eraseDups.1 hkm) 0 0))
  have hrun : doBand E o fs = (fs.write o.output t, .ok ()) := by
    unfold doBand BandRun.text simText
    simp only [hm, hin, hread, t1, bind, Except.bind, w1, liftErr]
  rw [hrun]
  refine ⟨rfl, t, table.map Prod.snd, by simp [Files.write], by rw [← t2]; exact w2, ?_⟩
  rw [← t2]
  unfold keys
  rw [List.forall₂_map_left_iff, List.forall₂_map_right_iff, List.forall₂_same]
  intro a hm
  have hak : a.1 ∈ props := by
    have : a.1 ∈ keys table := List.mem_map.2 ⟨a, hm, rfl⟩
    rw [t2] at this
    exact List.mem_eraseDups.1 this
  obtain ⟨col, c1, c2⟩ := t3 a.1 hak
  have hw : WF table := by unfold WF; rw [t2]; exact nodup_eraseDups _
  rw [(mem_iff_get? hw).1 hm] at c1
  cases c1
  exact c2

/-- **C125** The output of a run (without `--headers`, at least one line) read again gives the columns, every number as the reading of its text. -/
theorem C125_reread (float : List Char → Except PyErr ℝ) (render : ℝ → List Char) (hc : Clean render) (rd : ℝ → ℝ) (hr : ∀ x, float (render x) = .ok (rd x))
    (title : String) (t : List Char) (labels : List String) (cols : List (List ℝ)) (n : Nat) (h : Holds E render o title t labels cols n) (hh : o.headers = false)
    (hl : labels ≠ []) (hn : n ≠ 0) : loadColumns float t = .ok (cols.map fun c => c.map rd) := by
  obtain ⟨rows, h1, h2, h3, h4⟩ := h
  rw [hh] at h4
  have hlines : ∃ hs : List (List Char), linesOf t = hs ++ rows.map (rowLine render) ∧ ∀ x ∈ hs, x.head? = some '#' := by
    refine ⟨_, h4, ?_⟩
    cases o.bare <;> simp
  obtain ⟨hs, g1, g2⟩ := hlines
  have hne : rows ≠ [] := by rintro rfl; exact hn h1.symm
  have htab : Table labels.length (rows.map fun r => r.map rd) := by
    intro r hr
    obtain ⟨q, hq, rfl⟩ := List.mem_map.1 hr
    rw [List.length_map]
    exact h2 q hq
  have hload : loadtxt float t = .ok (rows.map fun r => r.map rd) := by
    unfold loadtxt
    rw [g1, fileItems hc (List.length_pos_iff.2 hl) h2 g2]
    have hm : ((rows.map fun r => r.map render).mapM fun r => r.mapM float) = .ok (rows.map fun r => r.map rd) := by
      rw [List.mapM_map]
      apply mapM_ok_map
      intro r _
      show (r.map render).mapM float = _
      rw [List.mapM_map]
      exact mapM_ok_map _ _ _ fun x _ => hr x
    simp only [hm, bind, Except.bind, rectangular_of htab, if_true, pure, Except.pure]
  unfold loadColumns
  rw [hload]
  simp only
  rw [columns_of htab (by simpa using hne), columnsOf_map, h3]

end TEflow.BandRun
