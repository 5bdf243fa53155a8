import Mathlib.Tactic
import Verif.Model.BandCfg
import Verif.Props.UtilsState

/-! # C109: sections of a band configuration -/

set_option linter.unusedSimpArgs false

namespace TEflow.BandCfg

open PyDict Utils Bandlib

variable {float : List Char → Except PyErr ℝ}

/-! ## Specification -/

/-- the number given for an option of a section, if it is given -/
noncomputable def given (float : List Char → Except PyErr ℝ) (items : List (String × List Char)) (k : String) : Option ℝ :=
  match get? items k with
  | none => none
  | some t => match float t with
    | .ok x => some x
    | .error _ => none

/-- the number given for an option, or a default -/
noncomputable def givenOr (float : List Char → Except PyErr ℝ) (items : List (String × List Char)) (k : String) (d : ℝ) : ℝ :=
  (given float items k).getD d

/-- every option of the section is a number -/
def AllNumbers (float : List Char → Except PyErr ℝ) (items : List (String × List Char)) : Prop :=
  ∀ k t, (k, t) ∈ items → ∃ x, float t = .ok x

/-- the name leads to a section of the type with these options, whose names are pairwise different -/
def SectionOf (cfg : Config) (name : List Char) (ty : String) (items : List (String × List Char)) : Prop :=
  pmatch cfg name = .ok (items, ty.toList) ∧ WF items

/-! ## Lemmas -/

theorem floats_ok {items : List (String × List Char)} (h : AllNumbers float items) :
    ∃ l, floats float items = .ok l ∧ keys l = keys items ∧ ∀ k, get? l k = (given float items k).map some := by
  induction items with
  | nil => exact ⟨[], rfl, rfl, fun k => rfl⟩
  | cons p rest ih =>
    obtain ⟨k0, t⟩ := p
    obtain ⟨x, hx⟩ := h k0 t (by simp)
    obtain ⟨l, h1, h2, h3⟩ := ih fun k t hm => h k t (List.mem_cons_of_mem _ hm)
    refine ⟨(k0, some x) :: l, by simp only [floats, hx, h1], by simp [keys] at h2 ⊢; exact h2, fun k => ?_⟩
    by_cases e : k0 = k
    · simp only [given, get?, e, if_true, hx, Option.map_some]
    · have := h3 k
      simp only [given] at this
      simp only [given, get?, e, if_false, this]

theorem callArgs_opts {ν : Type} (opts : List String) (kw : PyDict String (Option ν)) (hkw : WF kw) :
    ∃ a, (Exec.init [] opts).callArgs kw = .ok a ∧ ∀ k, get? a k = if k ∈ opts then get? kw k else none := by
  have h1 := C11_exec_missing [] opts [] kw hkw
  have hl : ∀ k, lastWrite (ν := ν) [] k = none := fun k => rfl
  simp only [hl, Option.or_none] at h1
  obtain ⟨a, ha⟩ := h1.1.2 (fun k hk => by simp at hk)
  have ha' : (Exec.init [] opts).callArgs kw = .ok a := ha
  refine ⟨a, ha', fun k => ?_⟩
  obtain ⟨a1, a2, a3, a4⟩ := C10_exec_latest [] opts [] kw hkw a ha
  simp only [hl, Option.filter_none, Option.or_none] at a3
  by_cases h2 : k ∈ opts
  · rw [if_pos h2]
    exact a3 k (by simp) h2
  · rw [if_neg h2]
    exact a4 k (by simp) h2

theorem argOr_given {opts : List String} {items : List (String × List Char)} {a l : PyDict String (Option ℝ)}
    (ha : ∀ k, get? a k = if k ∈ opts then get? l k else none) (hl : ∀ k, get? l k = (given float items k).map some)
    (k : String) (hk : k ∈ opts) (d : ℝ) : argOr a k d = givenOr float items k d := by
  unfold argOr givenOr
  rw [ha, if_pos hk, hl]
  cases given float items k <;> rfl

theorem argOpt_given {opts : List String} {items : List (String × List Char)} {a l : PyDict String (Option ℝ)}
    (ha : ∀ k, get? a k = if k ∈ opts then get? l k else none) (hl : ∀ k, get? l k = (given float items k).map some)
    (k : String) (hk : k ∈ opts) : argOpt a k = given float items k := by
  unfold argOpt
  rw [ha, if_pos hk, hl]
  cases given float items k <;> rfl

/-- the callable of the type is called with the options of the section that it knows -/
theorem parseBand_call {cfg : Config} {name : List Char} {ty : String} {items : List (String × List Char)}
    (h : SectionOf cfg name ty items) (hn : AllNumbers float items) {opts : List String} (hm : get? bandMeta ty = some opts) :
    ∃ a, (∀ k ∈ opts, ∀ d, argOr a k d = givenOr float items k d) ∧ (∀ k ∈ opts, argOpt a k = given float items k) ∧
      parseBand float cfg name = match bandCall ty a with
        | .ok b => .ok b
        | .error _ => .error .runtimeError := by
  obtain ⟨l, h1, h2, h3⟩ := floats_ok hn
  obtain ⟨a, ha, hak⟩ := callArgs_opts opts l (by unfold WF; rw [h2]; exact h.2)
  refine ⟨a, fun k hk d => argOr_given hak h3 k hk d, fun k hk => argOpt_given hak h3 k hk, ?_⟩
  unfold parseBand
  rw [h.1]
  simp only [h1, String.ofList_toList, hm, Exec.execute, ha]
  cases bandCall ty a <;> rfl

/-! ## The band types -/

/-- **C109** A section of type `APSSPB` is the parabolic band with the numbers given, 1 for those not given. -/
theorem C109_APSSPB {cfg : Config} {name : List Char} {items : List (String × List Char)}
    (h : SectionOf cfg name "APSSPB" items) (hn : AllNumbers float items) :
    parseBand float cfg name = .ok (.spb { m_d := givenOr float items "m_d" 1, sigma0 := givenOr float items "sigma0" 1, Kmass := givenOr float items "Kmass" 1 }) := by
  obtain ⟨a, h1, h2, h3⟩ := parseBand_call h hn (opts := ["m_d", "sigma0", "Kmass"]) (by decide)
  rw [h3]
  unfold bandCall
  simp only [if_true, h1 "m_d" (by decide), h1 "sigma0" (by decide), h1 "Kmass" (by decide)]

/-- **C109** A section of type `APSSPB_UWT` is the parabolic band with the weighted mobility given. -/
theorem C109_APSSPB_UWT {cfg : Config} {name : List Char} {items : List (String × List Char)}
    (h : SectionOf cfg name "APSSPB_UWT" items) (hn : AllNumbers float items) :
    parseBand float cfg name = .ok (.spb (Spb.fromUWT (m_d := givenOr float items "m_d" 1) (UWT := givenOr float items "UWT" 1)
      (Kmass := givenOr float items "Kmass" 1))) := by
  obtain ⟨a, h1, h2, h3⟩ := parseBand_call h hn (opts := ["m_d", "UWT", "Kmass"]) (by decide)
  rw [h3]
  unfold bandCall
  simp only [show ¬ ("APSSPB_UWT" = "APSSPB") by decide, if_false, if_true, h1 "m_d" (by decide), h1 "UWT" (by decide),
    h1 "Kmass" (by decide)]

/-- **C109** A section of type `APSSPB_DP` is the parabolic band of the deformation-potential theory; `m2` not given means `m1`.
A zero mass or deformation potential is an error. -/
theorem C109_APSSPB_DP {cfg : Config} {name : List Char} {items : List (String × List Char)}
    (h : SectionOf cfg name "APSSPB_DP" items) (hn : AllNumbers float items) :
    (dpOk (givenOr float items "m1" 1) (given float items "m2") (givenOr float items "Ed" 1) →
      parseBand float cfg name = .ok (.spb (Spb.fromDP (m1 := givenOr float items "m1" 1) (m2 := given float items "m2")
        (Nv := givenOr float items "Nv" 1) (Cii := givenOr float items "Cii" 1) (Ed := givenOr float items "Ed" 1)))) ∧
    (givenOr float items "m1" 1 = 0 ∨ givenOr float items "Ed" 1 = 0 ∨
      (∃ m2, given float items "m2" = some m2 ∧ m2 ≠ 0 ∧ 1 / givenOr float items "m1" 1 + 2 / m2 = 0) →
      parseBand float cfg name = .error .runtimeError) := by
  obtain ⟨a, h1, h2, h3⟩ := parseBand_call h hn (opts := ["m1", "m2", "Nv", "Cii", "Ed"]) (by decide)
  rw [h3]
  unfold bandCall
  simp only [show ¬ ("APSSPB_DP" = "APSSPB") by decide, show ¬ ("APSSPB_DP" = "APSSPB_UWT") by decide, if_false, if_true,
    h1 "m1" (by decide), h2 "m2" (by decide), h1 "Nv" (by decide), h1 "Cii" (by decide), h1 "Ed" (by decide)]
  constructor
  · intro hd
    rw [← h1 "m1" (by decide), ← h2 "m2" (by decide), ← h1 "Ed" (by decide)] at hd
    simp only [if_pos hd]
  · intro hd
    rw [← h1 "m1" (by decide), ← h1 "Ed" (by decide), ← h2 "m2" (by decide)] at hd
    rw [if_neg]
    rintro ⟨d1, d2, d3⟩
    rcases hd with h | h | ⟨m2, h3, h4, h5⟩
    · exact d1 h
    · exact d3 h
    · rw [h3] at d2
      simp only [orMass, h4, if_false] at d2
      exact d2 h5

/-- **C109** A section of type `APSSKB` is the Kane band with the numbers given, 1 for those not given; a gap that is not positive is
an error. -/
theorem C109_APSSKB {cfg : Config} {name : List Char} {items : List (String × List Char)}
    (h : SectionOf cfg name "APSSKB" items) (hn : AllNumbers float items) :
    (0 < givenOr float items "Eg" 1 → parseBand float cfg name = .ok (.skb { m_d := givenOr float items "m_d" 1, sigma0 := givenOr float items "sigma0" 1, Eg := givenOr float items "Eg" 1, Kmass := givenOr float items "Kmass" 1 })) ∧
    (givenOr float items "Eg" 1 ≤ 0 → parseBand float cfg name = .error .runtimeError) := by
  obtain ⟨a, h1, h2, h3⟩ := parseBand_call h hn (opts := ["m_d", "sigma0", "Eg", "Kmass"]) (by decide)
  rw [h3]
  unfold bandCall
  simp only [show ¬ ("APSSKB" = "APSSPB") by decide, show ¬ ("APSSKB" = "APSSPB_UWT") by decide,
    show ¬ ("APSSKB" = "APSSPB_DP") by decide, if_false, if_true, h1 "m_d" (by decide), h1 "sigma0" (by decide),
    h1 "Eg" (by decide), h1 "Kmass" (by decide), Skb.make]
  constructor
  · intro hd
    simp only [if_pos hd, Except.map]
  · intro hd
    simp only [if_neg (not_lt.2 hd), Except.map]

/-- **C109** A section of type `APSSKB_UWT` is the Kane band with the weighted mobility given. -/
theorem C109_APSSKB_UWT {cfg : Config} {name : List Char} {items : List (String × List Char)}
    (h : SectionOf cfg name "APSSKB_UWT" items) (hn : AllNumbers float items) :
    (0 < givenOr float items "Eg" 1 → parseBand float cfg name = .ok (.skb { m_d := givenOr float items "m_d" 1, sigma0 := uwtToSigma0 * givenOr float items "UWT" 1, Eg := givenOr float items "Eg" 1, Kmass := givenOr float items "Kmass" 1 })) ∧
    (givenOr float items "Eg" 1 ≤ 0 → parseBand float cfg name = .error .runtimeError) := by
  obtain ⟨a, h1, h2, h3⟩ := parseBand_call h hn (opts := ["m_d", "UWT", "Eg", "Kmass"]) (by decide)
  rw [h3]
  unfold bandCall
  simp only [show ¬ ("APSSKB_UWT" = "APSSPB") by decide, show ¬ ("APSSKB_UWT" = "APSSPB_UWT") by decide,
    show ¬ ("APSSKB_UWT" = "APSSPB_DP") by decide, show ¬ ("APSSKB_UWT" = "APSSKB") by decide, if_false, if_true,
    h1 "m_d" (by decide), h1 "UWT" (by decide), h1 "Eg" (by decide), h1 "Kmass" (by decide), Skb.fromUWT, Skb.make]
  constructor
  · intro hd
    simp only [if_pos hd, Except.map]
  · intro hd
    simp only [if_neg (not_lt.2 hd), Except.map]

/-- **C109** A section of type `APSSKB_DP` is the Kane band with the mass, conductivity and anisotropy of the parabolic band of the
deformation-potential theory with the same numbers. -/
theorem C109_APSSKB_DP {cfg : Config} {name : List Char} {items : List (String × List Char)}
    (h : SectionOf cfg name "APSSKB_DP" items) (hn : AllNumbers float items)
    (hd : dpOk (givenOr float items "m1" 1) (given float items "m2") (givenOr float items "Ed" 1)) :
    let p := Spb.fromDP (m1 := givenOr float items "m1" 1) (m2 := given float items "m2") (Nv := givenOr float items "Nv" 1)
      (Cii := givenOr float items "Cii" 1) (Ed := givenOr float items "Ed" 1)
    (0 < givenOr float items "Eg" 1 → parseBand float cfg name = .ok (.skb { m_d := p.m_d, sigma0 := p.sigma0, Eg := givenOr float items "Eg" 1, Kmass := p.Kmass })) ∧
    (givenOr float items "Eg" 1 ≤ 0 → parseBand float cfg name = .error .runtimeError) := by
  obtain ⟨a, h1, h2, h3⟩ := parseBand_call h hn (opts := ["m1", "m2", "Nv", "Cii", "Ed", "Eg"]) (by decide)
  intro p
  rw [h3]
  rw [← h1 "m1" (by decide), ← h2 "m2" (by decide), ← h1 "Ed" (by decide)] at hd
  unfold bandCall
  simp only [show ¬ ("APSSKB_DP" = "APSSPB") by decide, show ¬ ("APSSKB_DP" = "APSSPB_UWT") by decide,
    show ¬ ("APSSKB_DP" = "APSSPB_DP") by decide, show ¬ ("APSSKB_DP" = "APSSKB") by decide,
    show ¬ ("APSSKB_DP" = "APSSKB_UWT") by decide, if_false, if_true,
    h1 "m1" (by decide), h2 "m2" (by decide), h1 "Nv" (by decide), h1 "Cii" (by decide), h1 "Ed" (by decide), h1 "Eg" (by decide),
    Skb.fromDP, Skb.make, if_pos hd]
  constructor
  · intro hd
    simp only [if_pos hd, Except.map]
    rfl
  · intro hd
    simp only [if_neg (not_lt.2 hd), Except.map]

/-- **C109** A section of type `LinearBand` is the linear band with the size of the Fermi velocity given. -/
theorem C109_LinearBand {cfg : Config} {name : List Char} {items : List (String × List Char)}
    (h : SectionOf cfg name "LinearBand" items) (hn : AllNumbers float items) :
    parseBand float cfg name = .ok (.lin { vF := |givenOr float items "vF" 1|, sigma0 := givenOr float items "sigma0" 1 }) := by
  obtain ⟨a, h1, h2, h3⟩ := parseBand_call h hn (opts := ["vF", "sigma0"]) (by decide)
  rw [h3]
  unfold bandCall
  simp only [show ¬ ("LinearBand" = "APSSPB") by decide, show ¬ ("LinearBand" = "APSSPB_UWT") by decide,
    show ¬ ("LinearBand" = "APSSPB_DP") by decide, show ¬ ("LinearBand" = "APSSKB") by decide,
    show ¬ ("LinearBand" = "APSSKB_UWT") by decide, show ¬ ("LinearBand" = "APSSKB_DP") by decide, if_false, if_true,
    h1 "vF" (by decide), h1 "sigma0" (by decide), Lin.make]

/-- **C109** Options a type does not know have no influence (as long as they are numbers): sections of the same type that agree on
the options the type knows give the same band. -/
theorem C109_unknown_option {cfg cfg' : Config} {name name' : List Char} {ty : String} {items items' : List (String × List Char)}
    (h : SectionOf cfg name ty items) (h' : SectionOf cfg' name' ty items') (hn : AllNumbers float items)
    (hn' : AllNumbers float items') {opts : List String} (hm : get? bandMeta ty = some opts)
    (hsame : ∀ k ∈ opts, get? items k = get? items' k) : parseBand float cfg name = parseBand float cfg' name' := by
  have hg : ∀ k ∈ opts, given float items k = given float items' k := fun k hk => by unfold given; rw [hsame k hk]
  obtain ⟨a, a1, a2, a3⟩ := parseBand_call h hn hm
  obtain ⟨b, b1, b2, b3⟩ := parseBand_call h' hn' hm
  have e1 : ∀ k ∈ opts, ∀ d, argOr a k d = argOr b k d := fun k hk d => by
    rw [a1 k hk, b1 k hk]; unfold givenOr; rw [hg k hk]
  have e2 : ∀ k ∈ opts, argOpt a k = argOpt b k := fun k hk => by rw [a2 k hk, b2 k hk, hg k hk]
  rw [a3, b3]
  have hc : bandCall ty a = bandCall ty b := by
    classical
    have hmem : (ty, opts) ∈ bandMeta := get?_mem hm
    simp only [bandMeta, List.mem_cons, Prod.mk.injEq, List.not_mem_nil, or_false] at hmem
    unfold bandCall
    rcases hmem with ⟨rfl, rfl⟩ | ⟨rfl, rfl⟩ | ⟨rfl, rfl⟩ | ⟨rfl, rfl⟩ | ⟨rfl, rfl⟩ | ⟨rfl, rfl⟩ | ⟨rfl, rfl⟩ <;>
      simp only [List.mem_cons, List.not_mem_nil, or_false, forall_eq_or_imp, forall_eq] at e1 e2 <;>
      simp [e1, e2]
  rw [hc]

/-- **C109** An option that is no number is an error, even if the type does not know it: the first one decides. -/
theorem C109_no_number {cfg : Config} {name ty : List Char} {before after : List (String × List Char)} {k : String} {t : List Char}
    {e : PyErr} (h : pmatch cfg name = .ok (before ++ (k, t) :: after, ty)) (hb : AllNumbers float before)
    (ht : float t = .error e) : parseBand float cfg name = .error e := by
  have key : ∀ l, AllNumbers float l → floats float (l ++ (k, t) :: after) = .error e := by
    intro l
    induction l with
    | nil => intro _; simp only [List.nil_append, floats, ht]
    | cons p l ih =>
      intro hl
      obtain ⟨k0, t0⟩ := p
      obtain ⟨x, hx⟩ := hl k0 t0 (by simp)
      simp only [List.cons_append, floats, hx, ih fun k t hm => hl k t (List.mem_cons_of_mem _ hm)]
  unfold parseBand
  rw [h]
  simp only [key before hb]

/-- **C109** The seven types; a section of another type (or none) is a `KeyError`.  (The three entries for `tef-band -m` make no band
either; which error they give is not claimed.) -/
theorem C109_types {cfg : Config} {name : List Char} {ty : String} {items : List (String × List Char)}
    (h : SectionOf cfg name ty items) (hn : AllNumbers float items)
    (hty : ty ∉ ["APSSPB", "APSSPB_UWT", "APSSPB_DP", "APSSKB", "APSSKB_UWT", "APSSKB_DP", "LinearBand", "valuate.APSSPB", "valuate.APSSKB", "valuate.RSPB"]) :
    parseBand float cfg name = .error .keyError := by
  obtain ⟨l, h1, h2, h3⟩ := floats_ok hn
  have hm : get? bandMeta ty = none := (get?_eq_none _ _).2 fun h => hty (by
    simp [bandMeta] at h ⊢
    tauto)
  unfold parseBand
  rw [h.1]
  simp only [h1, String.ofList_toList, hm]

end TEflow.BandCfg
