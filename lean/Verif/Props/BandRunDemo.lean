import Verif.Props.BandRunModel

/-! # C125: concrete runs of `tef-band` -/

namespace TEflow.BandRun.Demo

open PyDict Loader Interface TableFile ToolRuns KappaRun CfgText KappaCfg

/-- numbers of a few texts; formats that always write 2 -/
noncomputable def env : Env where
  float := BandCfg.exFloat
  number t := if t = "-200".toList then some (-200) else if t = "300".toList then some 300 else if t = "10".toList then some 10 else if t = "400".toList then some 400 else none
  root _ _ := .error .valueError
  solve _ _ := 0
  solveK _ _ _ := 0
  setOrder := id
  sci _ := "2".toList
  fix _ := "2".toList
  info := "now".toList
  uneven _ _ _ _ _ := .error .valueError

/-! ## A simulation -/

/-- the configuration of C109's example -/
def cfgText : List Char :=
  "[entry]\nbands = cb vb\ndeltas = 0.2, -0.2\nT = 300 # note\nEF = 0 0.2\nproperties = EF S Kbip\n[cb.APSSPB]\nm_d = 2\n[vb.APSSKB]\nEg = 0.2\n".toList

def cfg : List (List Char × List (List Char × List Char)) :=
  [("entry".toList, [("bands".toList, "cb vb".toList), ("deltas".toList, "0.2, -0.2".toList), ("T".toList, "300".toList), ("EF".toList, "0 0.2".toList),
    ("properties".toList, "EF S Kbip".toList)]),
   ("cb.APSSPB".toList, [("m_d".toList, "2".toList)]), ("vb.APSSKB".toList, [("Eg".toList, "0.2".toList)])]

theorem lines_eq : rawLines cfgText = ["[entry]\n".toList, "bands = cb vb\n".toList, "deltas = 0.2, -0.2\n".toList, "T = 300 # note\n".toList, "EF = 0 0.2\n".toList,
    "properties = EF S Kbip\n".toList, "[cb.APSSPB]\n".toList, "m_d = 2\n".toList, "[vb.APSSKB]\n".toList, "Eg = 0.2\n".toList] := by decide +kernel

theorem shows : FileShows cfg (rawLines cfgText) := by
  rw [lines_eq]
  refine ⟨[], [["[entry]\n".toList, "bands = cb vb\n".toList, "deltas = 0.2, -0.2\n".toList, "T = 300 # note\n".toList, "EF = 0 0.2\n".toList, "properties = EF S Kbip\n".toList],
    ["[cb.APSSPB]\n".toList, "m_d = 2\n".toList], ["[vb.APSSKB]\n".toList, "Eg = 0.2\n".toList]], rfl, (by intro l hl; cases hl), ?_, by decide⟩
  refine .cons ?_ (.cons ?_ (.cons ?_ .nil))
  · refine ⟨"[entry]\n".toList, [], 0, [["bands = cb vb\n".toList], ["deltas = 0.2, -0.2\n".toList], ["T = 300 # note\n".toList], ["EF = 0 0.2\n".toList], ["properties = EF S Kbip\n".toList]],
      rfl, ?_, (by intro l hl; cases hl), .cons ?_ (.cons ?_ (.cons ?_ (.cons ?_ (.cons ?_ .nil)))), by decide, by decide⟩
    · exact CfgSubst.header_of "entry".toList "\n".toList (by decide +kernel) (.inl (by decide)) (by decide) (by decide) (by decide) (by decide)
    · refine ⟨"bands = cb vb\n".toList, [], "cb vb".toList, [], [], rfl, ?_, .nil, rfl, by decide, fun d hd => by cases hd; decide⟩
      exact KappaRun.Demo.option_of (name := "bands".toList) (value := "cb vb".toList) (by decide +kernel) "\n".toList (.inl (by decide)) (by decide) (trim_of (by decide)) (trim_of (by decide)) (by decide) (by decide)
    · refine ⟨"deltas = 0.2, -0.2\n".toList, [], "0.2, -0.2".toList, [], [], rfl, ?_, .nil, rfl, by decide, fun d hd => by cases hd; decide⟩
      exact KappaRun.Demo.option_of (name := "deltas".toList) (value := "0.2, -0.2".toList) (by decide +kernel) "\n".toList (.inl (by decide)) (by decide) (trim_of (by decide)) (trim_of (by decide)) (by decide) (by decide)
    · refine ⟨"T = 300 # note\n".toList, [], "300".toList, [], [], rfl, ?_, .nil, rfl, by decide, fun d hd => by cases hd; decide⟩
      exact KappaRun.Demo.option_of (name := "T".toList) (value := "300".toList) (by decide +kernel) " # note\n".toList (.inr ⟨[], ' ', " note\n".toList, rfl, by decide, by decide⟩)
        (by decide) (trim_of (by decide)) (trim_of (by decide)) (by decide) (by decide)
    · refine ⟨"EF = 0 0.2\n".toList, [], "0 0.2".toList, [], [], rfl, ?_, .nil, rfl, by decide, fun d hd => by cases hd; decide⟩
      exact KappaRun.Demo.option_of (name := "EF".toList) (value := "0 0.2".toList) (by decide +kernel) "\n".toList (.inl (by decide)) (by decide) (trim_of (by decide)) (trim_of (by decide)) (by decide) (by decide)
    · refine ⟨"properties = EF S Kbip\n".toList, [], "EF S Kbip".toList, [], [], rfl, ?_, .nil, rfl, by decide, fun d hd => by cases hd; decide⟩
      exact KappaRun.Demo.option_of (name := "properties".toList) (value := "EF S Kbip".toList) (by decide +kernel) "\n".toList (.inl (by decide)) (by decide) (trim_of (by decide)) (trim_of (by decide)) (by decide) (by decide)
  · refine ⟨"[cb.APSSPB]\n".toList, [], 0, [["m_d = 2\n".toList]], rfl, ?_, (by intro l hl; cases hl), .cons ?_ .nil, by decide, by decide⟩
    · exact CfgSubst.header_of "cb.APSSPB".toList "\n".toList (by decide +kernel) (.inl (by decide)) (by decide) (by decide) (by decide) (by decide)
    · refine ⟨"m_d = 2\n".toList, [], "2".toList, [], [], rfl, ?_, .nil, rfl, by decide, fun d hd => by cases hd; decide⟩
      exact KappaRun.Demo.option_of (name := "m_d".toList) (value := "2".toList) (by decide +kernel) "\n".toList (.inl (by decide)) (by decide) (trim_of (by decide)) (trim_of (by decide)) (by decide) (by decide)
  · refine ⟨"[vb.APSSKB]\n".toList, [], 0, [["Eg = 0.2\n".toList]], rfl, ?_, (by intro l hl; cases hl), .cons ?_ .nil, by decide, by decide⟩
    · exact CfgSubst.header_of "vb.APSSKB".toList "\n".toList (by decide +kernel) (.inl (by decide)) (by decide) (by decide) (by decide) (by decide)
    · refine ⟨"Eg = 0.2\n".toList, [], "0.2".toList, [], [], rfl, ?_, .nil, rfl, by decide, fun d hd => by cases hd; decide⟩
      exact KappaRun.Demo.option_of (name := "Eg".toList) (value := "0.2".toList) (by decide +kernel) "\n".toList (.inl (by decide)) (by decide) (trim_of (by decide)) (trim_of (by decide)) (by decide) (by decide)

/-- `tef-band in.cfg -p "S Kbip S"` -/
def opt : Options := ⟨"in.cfg".toList, [], "band".toList, false, false, [("properties", "T".toList), ("properties", "S Kbip S".toList)], none, none, "STCNK".toList⟩

def files : Files := fun n => if n = "in.cfg".toList then some cfgText else none

theorem clean_env : Clean env.sci ∧ Clean env.fix := by
  have : ("2".toList ≠ [] ∧ ∀ c ∈ "2".toList, pySpace c = false ∧ c ≠ '#') := by decide +kernel
  exact ⟨fun _ => this, fun _ => this⟩

/-- the properties of the command line, each once, with one line per Fermi level -/
example : (doBand env opt files).2 = .ok () ∧ ∃ t cols, (doBand env opt files).1 "in_band.txt".toList = some t ∧
    Holds env env.sci opt "Simulating carrier transport" t ["S", "Kbip"] cols 2 := by
  have he : ∀ k, k ≠ "properties" → get? (("properties", "S Kbip S".toList) :: BandCfg.exEntry) k = get? BandCfg.exEntry k := by
    intro k hk
    rw [get?_cons, if_neg (Ne.symm hk)]
  obtain ⟨h1, t, cols, h2, h3, -⟩ := C125_simulation env opt files cfgText cfg BandCfg.exEntry rfl (by rfl) shows
    ⟨_, List.mem_cons_self, by decide +kernel⟩ clean_env.1 (by decide)
    (bands := BandCfg.exBands) (signs := [-1, 1]) (deltas := [1 / 5, -1 / 5]) (pts := [(0, 300), (1 / 5, 300)]) (props := ["S", "Kbip", "S"])
    (entry := ("properties", "S Kbip S".toList) :: BandCfg.exEntry)
    (by
      intro k
      by_cases e1 : k = "properties"
      · subst e1; rfl
      · rw [he k e1]
        unfold setting
        rw [show onLine opt k = none by
          unfold onLine opt
          simp only [List.reverse_cons, List.reverse_nil, List.nil_append, List.cons_append, get?, Ne.symm e1, if_false]]
        rfl)
    (.inr ⟨_, rfl, by decide +kernel⟩) (by simp)
    (by
      have : CfgText.Parsed.items ⟨cfg, []⟩ = BandCfg.exCfg := by decide +kernel
      rw [this]
      exact BandCfg.exSetup he)
    BandCfg.exHall
    (BandCfg.exPoints he)
    (by
      intro k hk EF T
      simp only [List.mem_cons, List.not_mem_nil, or_false] at hk
      rcases hk with rfl | rfl | rfl <;> rfl)
  refine ⟨h1, t, cols, ?_, ?_⟩
  · rw [show "in_band.txt".toList = opt.output by decide +kernel]
    exact h2
  · exact h3

/-! ## A model run -/

def data : List Char := "# S T R\n-200 300 10\n\n  -200 400   10 # hot\n".toList

theorem data_lines : DataLines env.number (linesOf data) [[-200, 300, 10], [-200, 400, 10]] := by
  rw [show linesOf data = ["# S T R".toList, "-200 300 10".toList, "".toList, "  -200 400   10 # hot".toList] by decide +kernel]
  have n1 : env.number "-200".toList = some (-200) := by simp only [env]; rw [if_pos trivial]
  have n2 : env.number "300".toList = some 300 := by simp only [env]; rw [if_neg (by decide), if_pos trivial]
  have n3 : env.number "10".toList = some 10 := by simp only [env]; rw [if_neg (by decide), if_neg (by decide), if_pos trivial]
  have n4 : env.number "400".toList = some 400 := by simp only [env]; rw [if_neg (by decide), if_neg (by decide), if_neg (by decide), if_pos trivial]
  refine .skip ((C23_rowtext _ _).1 (by decide +kernel)) (.row (core := "-200 300 10".toList) (ws := ["-200".toList, "300".toList, "10".toList]) ((C23_rowtext _ _).1 (by decide +kernel))
    (by decide) (by decide) ((tokenises_iff _ _ _).2 (by decide +kernel)) (.cons n1 (.cons n2 (.cons n3 .nil))) (.skip ((C23_rowtext _ _).1 (by decide +kernel))
    (.row (core := "-200 400   10".toList) (ws := ["-200".toList, "400".toList, "10".toList]) ((C23_rowtext _ _).1 (by decide +kernel))
      (by decide) (by decide) ((tokenises_iff _ _ _).2 (by decide +kernel)) (.cons n1 (.cons n4 (.cons n3 .nil))) .nil)))

/-- `tef-band -m SPB data.txt -g "STR"` -/
def optM : Options := ⟨"data.txt".toList, [], "band".toList, false, false, [], some .spb, none, "STR".toList⟩

def filesM : Files := fun n => if n = "data.txt".toList then some data else none

theorem measured_C (a b c : ℝ) : measured ["S", "T", "R"] [a, b, c] "C" = some (10000 / c) := by
  unfold measured cell
  simp [get?]

theorem some_pair {α β : Type} {R : α → β → Prop} {a : List α} {b : List β} (h : List.Forall₂ R a b) (hne : a ≠ []) : ∃ x y, x ∈ a ∧ y ∈ b ∧ R x y := by
  cases h with
  | nil => exact absurd rfl hne
  | cons h _ => exact ⟨_, _, List.mem_cons_self, List.mem_cons_self, h⟩

/-- two lines of numbers; the conductivity of the output comes from the resistivity -/
example : (doBand env optM filesM).2 = .ok () ∧ ∃ t, (doBand env optM filesM).1 "data_band.txt".toList = some t ∧ (linesOf t).length = 4 ∧
    (linesOf t).head? = some "#Modeling carrier transport - now".toList := by
  obtain ⟨table, names, h1, h2, -, h3⟩ := C125_modelling (E := env) (o := optM) (fs := filesM) (fun l => List.Perm.refl l) rfl clean_env.2 (by decide) (by rfl)
    (ids := ["S".toList, "T".toList, "R".toList]) (by
      show Except.ok (Re.findAll propRe "STR".toList) = _
      rw [show Re.findAll propRe "STR".toList = ["S".toList, "T".toList, "R".toList] by decide +kernel]) data_lines (w := 3) (by simp) (by simp) (by intro h; cases h)
    (by
      intro k hk r hr
      simp only [BandModel.required, List.mem_singleton] at hk
      subst hk
      simp only [List.mem_cons, List.not_mem_nil, or_false] at hr
      rcases hr with rfl | rfl <;> simp [measured, cell, get?])
  have hlen := h1.length_eq
  have hne : names ≠ [] := by
    obtain ⟨r, t, hr, ht, out, kept, -, -, e⟩ := some_pair h1 (List.cons_ne_nil _ _)
    rw [← h2 t ht, e]
    intro h
    have hd := (List.append_eq_nil_iff.1 (List.map_eq_nil_iff.1 h)).1
    rw [if_neg (by decide)] at hd
    have hS : ("S", r.headD 0) ∈ dataPart (["S".toList, "T".toList, "R".toList].map String.ofList) r := by
      refine List.mem_filterMap.2 ⟨"S", by simp, ?_⟩
      simp only [List.mem_cons, List.not_mem_nil, or_false] at hr
      rcases hr with rfl | rfl <;> simp [measured, cell, get?]
    rw [hd] at hS
    cases hS
  obtain ⟨a1, t, a2, a3⟩ := h3 hne
  refine ⟨a1, t, ?_, ?_, ?_⟩
  · rw [show "data_band.txt".toList = optM.output by decide +kernel]
    exact a2
  · rw [a3, List.length_append, List.length_map, ← hlen]
    rfl
  · rw [a3]
    rfl

/-- the Kane model without a temperature -/
example : (doBand env { optM with modelling := some .skb, gap := some 1, group := "SXR".toList } filesM).2 = .error (.py (.valueErrorNaming ["dataT"])) := by
  refine C125_missing (fun l => List.Perm.refl l) rfl (by rfl) (ids := ["S".toList, "X".toList, "R".toList]) (by
      show Except.ok (Re.findAll propRe "SXR".toList) = _
      rw [show Re.findAll propRe "SXR".toList = ["S".toList, "X".toList, "R".toList] by decide +kernel]) data_lines (w := 3) (by simp) [-200, 300, 10] (by simp)
    (fun _ => ⟨1, rfl, by norm_num⟩) ?_ (by simp)
  simp [BandModel.required, measured, cell, get?]

end TEflow.BandRun.Demo
