import Verif.Props.CfgSubst
import Verif.Model.KappaWire

/-! # C122, second part: the model described by the substituted configuration -/

set_option linter.unusedSimpArgs false
set_option linter.unusedVariables false

namespace TEflow.CfgSubst

open Re PyDict CfgText Utils
open KappaCfg

noncomputable section

/-! ## Objects that evaluate equally -/

/-- two arguments with the same number, text or components; `env`, `env'` are the values of the variables -/
inductive SameVal (env env' : Nat → ℝ) (R : Obj → Obj → Prop) : Option (Option (Val Obj)) → Option (Option (Val Obj)) → Prop where
  | none : SameVal env env' R none none
  | unset : SameVal env env' R (some none) (some none)
  | num (x : ℝ) : SameVal env env' R (some (some (.num x))) (some (some (.num x)))
  | text (t : List Char) : SameVal env env' R (some (some (.text t))) (some (some (.text t)))
  | ref (v w : VarVal) : numVal env (.ref v) = numVal env' (.ref w) → SameVal env env' R (some (some (.ref v))) (some (some (.ref w)))
  | comps (l m : List Obj) : List.Forall₂ R l m → SameVal env env' R (some (some (.comps l))) (some (some (.comps m)))

/-- two objects with the same type, tag and arguments, down to a given depth -/
def SameObj (env env' : Nat → ℝ) : Nat → Obj → Obj → Prop
  | 0, _, _ => True
  | n + 1, o, o' => o.ty = o'.ty ∧ o.tag = o'.tag ∧ ∀ k, SameVal env env' (SameObj env env' n) (get? o.args k) (get? o'.args k)

/-- the same at every depth -/
def Same (env env' : Nat → ℝ) (o o' : Obj) : Prop := ∀ n, SameObj env env' n o o'

variable {env env' : Nat → ℝ}

theorem SameVal.mono {R R' : Obj → Obj → Prop} (h : ∀ o o', R o o' → R' o o') {a b : Option (Option (Val Obj))} (hs : SameVal env env' R a b) :
    SameVal env env' R' a b := by
  cases hs with
  | none => exact .none
  | unset => exact .unset
  | num x => exact .num x
  | text t => exact .text t
  | ref v w h => exact .ref v w h
  | comps l m hl => exact .comps l m (hl.imp h)

theorem Same.args {o o' : Obj} (h : Same env env' o o') (k : String) : SameVal env env' (Same env env') (get? o.args k) (get? o'.args k) := by
  have h1 := (h 1).2.2 k
  have key : ∀ n, SameVal env env' (SameObj env env' n) (get? o.args k) (get? o'.args k) := fun n => (h (n + 1)).2.2 k
  generalize get? o.args k = a at *
  generalize get? o'.args k = b at *
  cases h1 with
  | none => exact .none
  | unset => exact .unset
  | num x => exact .num x
  | text t => exact .text t
  | ref v w h => exact .ref v w h
  | comps l m hl =>
    refine .comps l m ?_
    rw [List.forall₂_iff_get]
    refine ⟨hl.length_eq, fun i h1 h2 n => ?_⟩
    have := key n
    cases this with
    | comps _ _ hl => exact (List.forall₂_iff_get.1 hl).2 i h1 h2

theorem Same.mk {o o' : Obj} (h1 : o.ty = o'.ty) (h2 : o.tag = o'.tag) (h3 : ∀ k, SameVal env env' (Same env env') (get? o.args k) (get? o'.args k)) :
    Same env env' o o' := by
  intro n
  cases n with
  | zero => trivial
  | succ n => exact ⟨h1, h2, fun k => (h3 k).mono fun o o' h => h n⟩

theorem Same.ty {o o' : Obj} (h : Same env env' o o') : o.ty = o'.ty := (h 1).1
theorem Same.tag {o o' : Obj} (h : Same env env' o o') : o.tag = o'.tag := (h 1).2.1

theorem Same.kwarg {o o' : Obj} (h : Same env env' o o') (k : String) (d : Option ℝ) : KappaCfg.kwarg env o k d = KappaCfg.kwarg env' o' k d := by
  unfold KappaCfg.kwarg
  have := h.args k
  generalize get? o.args k = a at *
  generalize get? o'.args k = b at *
  cases this with
  | none => rfl
  | unset => rfl
  | num x => rfl
  | text t => rfl
  | ref v w h => simp only [h]
  | comps l m hl => rfl

theorem Same.numarg {o o' : Obj} (h : Same env env' o o') (k : String) (d : ℝ) : KappaCfg.numarg env o k d = KappaCfg.numarg env' o' k d := by
  unfold KappaCfg.numarg
  have := h.args k
  generalize get? o.args k = a at *
  generalize get? o'.args k = b at *
  cases this with
  | none => rfl
  | unset => rfl
  | num x => rfl
  | text t => rfl
  | ref v w h => simp only [h]
  | comps l m hl => rfl

theorem Same.posarg {o o' : Obj} (h : Same env env' o o') (k : String) : KappaCfg.posarg env o k = KappaCfg.posarg env' o' k := by
  unfold KappaCfg.posarg
  have := h.args k
  generalize get? o.args k = a at *
  generalize get? o'.args k = b at *
  cases this with
  | none => rfl
  | unset => rfl
  | num x => rfl
  | text t => rfl
  | ref v w h => simp only [h]
  | comps l m hl => rfl

theorem Same.slackA {o o' : Obj} (h : Same env env' o o') : KappaCfg.slackA env o = KappaCfg.slackA env' o' := by
  unfold KappaCfg.slackA
  have := h.args "A"
  generalize get? o.args "A" = a at *
  generalize get? o'.args "A" = b at *
  cases this with
  | none => rfl
  | unset => rfl
  | num x => rfl
  | text t => rfl
  | ref v w h => simp only [h]
  | comps l m hl => rfl

theorem Same.components {o o' : Obj} (h : Same env env' o o') : List.Forall₂ (Same env env') o.components o'.components := by
  unfold Obj.components
  have := h.args "components"
  generalize get? o.args "components" = a at *
  generalize get? o'.args "components" = b at *
  cases this with
  | none => exact .nil
  | unset => exact .nil
  | num x => exact .nil
  | text t => exact .nil
  | ref v w h => exact .nil
  | comps l m hl => exact hl

theorem Same.rate {o o' : Obj} (h : Same env env' o o') : rateOf env o = rateOf env' o' := by
  unfold rateOf makePh makePd makeGb makeNp makeDl makeSf makeEp makeCahill
  simp only [h.ty, h.kwarg, h.posarg, h.numarg]

theorem Same.component {sub sub' : Obj → Except PyErr (ℝ → ℝ)} (hs : ∀ o o', Same env env' o o' → sub o = sub' o') {o o' : Obj} (h : Same env env' o o') :
    KappaCfg.component env sub o = KappaCfg.component env' sub' o' := by
  unfold KappaCfg.component
  rw [h.ty, h.tag, hs o o' h, h.rate]

theorem mapM_same {sub sub' : Obj → Except PyErr (ℝ → ℝ)} (hs : ∀ o o', Same env env' o o' → sub o = sub' o') {l l' : List Obj}
    (h : List.Forall₂ (Same env env') l l') : l.mapM (KappaCfg.component env sub) = l'.mapM (KappaCfg.component env' sub') := by
  induction h with
  | nil => rfl
  | cons h1 _ ih => rw [List.mapM_cons, List.mapM_cons, h1.component hs, ih]

/-- objects that are the same have the same thermal conductivity -/
theorem Same.kappa (quad : (ℝ → ℝ) → ℝ → ℝ → ℝ) : ∀ (n : Nat) {o o' : Obj}, Same env env' o o' → kappaOf quad env n o = kappaOf quad env' n o'
  | 0, _, _, _ => rfl
  | n + 1, o, o', h => by
    have hd : makeDebye quad env (kappaOf quad env n) o = makeDebye quad env' (kappaOf quad env' n) o' := by
      unfold makeDebye
      rw [h.posarg, h.posarg, mapM_same (fun a b hab => Same.kappa quad n hab) h.components]
    unfold kappaOf
    rw [hd]
    unfold makeSlack makeBipolar makePowerLaw makeKlemens
    simp only [h.ty, h.kwarg, h.posarg, h.numarg, h.slackA]

/-! ## Building the objects -/

/-- two sets of variables with the same values -/
def SameVars (env env' : Nat → ℝ) (l l' : List (List Char × VarVal)) : Prop :=
  List.Forall₂ (fun a b => a.1 = b.1 ∧ numVal env (.ref a.2) = numVal env' (.ref b.2)) l l'

theorem SameVars.get {l l' : List (List Char × VarVal)} (h : SameVars env env' l l') (t : List Char) {v : VarVal} (hv : get? l t = some v) :
    ∃ w, get? l' t = some w ∧ numVal env (.ref v) = numVal env' (.ref w) := by
  induction h with
  | nil => cases hv
  | @cons a b l l' h1 _ ih =>
    obtain ⟨ka, va⟩ := a
    obtain ⟨kb, vb⟩ := b
    obtain ⟨rfl, h1⟩ := h1
    rw [get?_cons] at hv ⊢
    by_cases hk : ka = t
    · rw [if_pos hk] at hv ⊢
      cases hv
      exact ⟨_, rfl, h1⟩
    · rw [if_neg hk] at hv ⊢
      exact ih hv

/-- two configurations which differ in the section `variables` only -/
def SameBut (cfg cfg' : Config) : Prop := List.Forall₂ (fun a b => a.1 = b.1 ∧ (a.1 ≠ "variables".toList → a.2 = b.2)) cfg cfg'

theorem pmatch_same {cfg cfg' : Config} (h : SameBut cfg cfg') {name : List Char} {items : List (String × List Char)} {ty : List Char}
    (hp : pmatch cfg name = .ok (items, ty)) (ht : ty ≠ "variables".toList) : pmatch cfg' name = .ok (items, ty) := by
  induction h with
  | nil => cases hp
  | @cons a b cfg cfg' h1 _ ih =>
    obtain ⟨sa, ia⟩ := a
    obtain ⟨sb, ib⟩ := b
    obtain ⟨h0, h1⟩ := h1
    simp only at h0 h1
    subst h0
    rw [pmatch] at hp ⊢
    split at hp
    · rename_i hpre
      rw [if_pos hpre]
      have : sa ≠ "variables".toList := by
        rintro rfl
        rw [List.isPrefixOf_iff_prefix] at hpre
        have hm : '.' ∈ "variables".toList := hpre.subset (by simp)
        exact absurd hm (by decide)
      rw [← h1 this]
      exact hp
    · rename_i hpre
      rw [if_neg hpre]
      split at hp
      · rename_i he
        rw [if_pos he]
        cases hp
        rw [← h1 ht]
      · rename_i he
        rw [if_neg he]
        exact ih hp

theorem forall2_sub {B B' : List Char → Obj → Prop} (h : ∀ a o, B a o → ∃ o', B' a o' ∧ Same env env' o o') {l : List (List Char)} {os : List Obj}
    (hl : List.Forall₂ B l os) : ∃ os', List.Forall₂ B' l os' ∧ List.Forall₂ (Same env env') os os' := by
  induction hl with
  | nil => exact ⟨[], .nil, .nil⟩
  | cons h1 _ ih =>
    obtain ⟨o', h2, h3⟩ := h _ _ h1
    obtain ⟨os', h4, h5⟩ := ih
    exact ⟨o' :: os', .cons h2 h4, .cons h3 h5⟩

theorem means_same {float : List Char → Except PyErr ℝ} {l l' : List (List Char × VarVal)} (hl : SameVars env env' l l') {B B' : List Char → Obj → Prop}
    (h : ∀ a o, B a o → ∃ o', B' a o' ∧ Same env env' o o') {key : String} {val : List Char} {v : Val Obj} (hm : Means float l B key val v) :
    ∃ v', Means float l' B' key val v' ∧ SameVal env env' (Same env env') (some (some v)) (some (some v')) := by
  cases hm with
  | comps _ objs h1 h2 =>
    obtain ⟨os', h3, h4⟩ := forall2_sub h h2
    exact ⟨.comps os', .comps _ _ h1 h3, .comps _ _ h4⟩
  | ref _ _ tag w h1 h2 h3 =>
    obtain ⟨w', h4, h5⟩ := hl.get tag h3
    exact ⟨.ref w', .ref _ _ tag w' h1 h2 h4, .ref _ _ h5⟩
  | num _ _ x h1 h2 h3 h4 => exact ⟨.num x, .num _ _ x h1 h2 h3 h4, .num x⟩
  | text _ _ e h1 h2 h3 h4 => exact ⟨.text val, .text _ _ e h1 h2 h3 h4, .text val⟩

theorem kwargs_same {float : List Char → Except PyErr ℝ} {l l' : List (List Char × VarVal)} (hl : SameVars env env' l l') {B B' : List Char → Obj → Prop}
    (h : ∀ a o, B a o → ∃ o', B' a o' ∧ Same env env' o o') {items : List (String × List Char)} {kw : PyDict String (Option (Val Obj))}
    (hk : Kwargs float l B items kw) :
    ∃ kw', Kwargs float l' B' items kw' ∧ ∀ k, SameVal env env' (Same env env') (get? kw k) (get? kw' k) := by
  unfold Kwargs at hk ⊢
  induction hk with
  | nil => exact ⟨[], .nil, fun k => .none⟩
  | @cons it kv items kw h1 _ ih =>
    obtain ⟨kw', h4, h5⟩ := ih
    obtain ⟨k0, v0⟩ := kv
    obtain ⟨e, v, e', hm⟩ := h1
    simp only at e e'
    subst e'
    obtain ⟨v', hm', hs⟩ := means_same hl h hm
    refine ⟨(k0, some v') :: kw', .cons ⟨e, v', rfl, hm'⟩ h4, fun k => ?_⟩
    rw [get?_cons, get?_cons]
    by_cases hk : k0 = k
    · rw [if_pos hk, if_pos hk]; exact hs
    · rw [if_neg hk, if_neg hk]; exact h5 k

theorem debye_same {l l' : List Obj} (h : List.Forall₂ (Same env env') l l') (hd : DebyeList l) : DebyeList l' := by
  have hf : ∀ p : String → Bool, ((l.filter fun o => p o.ty).map Obj.tag) = ((l'.filter fun o => p o.ty).map Obj.tag) := by
    intro p
    clear hd
    induction h with
    | nil => rfl
    | @cons o o' l l' h1 _ ih =>
      rw [List.filter_cons, List.filter_cons, h1.ty]
      split
      · rw [List.map_cons, List.map_cons, ih, h1.tag]
      · exact ih
  obtain ⟨h1, h2, o, ho, h3⟩ := hd
  have e1 := hf fun t => !(t ∈ modelTypes)
  have e2 := hf fun t => t ∈ modelTypes
  obtain ⟨o', ho', hs⟩ := forall2_mem_left h o ho
  exact ⟨by rw [← e1]; exact h1, by rw [← e2]; exact h2, o', ho', by rw [← hs.ty]; exact h3⟩

/-- the same configuration with other names for the values of the variables gives the same object -/
theorem parse_same {float : List Char → Except PyErr ℝ} {cfg cfg' : Config} {l l' : List (List Char × VarVal)} (hl : SameVars env env' l l')
    (hc : SameBut cfg cfg') (hcd : KappaCfg.Distinct cfg) (hcd' : KappaCfg.Distinct cfg') : ∀ (n : Nat) (name : List Char) (o : Obj),
    parseSub float cfg l n name = .ok o → ∃ o', parseSub float cfg' l' n name = .ok o' ∧ Same env env' o o'
  | 0, _, _, h => by cases h
  | n + 1, name, o, h => by
    obtain ⟨items, ty, spec, kw, h1, h2, h3, h4⟩ := parseSub_ok.1 h
    have ht : ty ≠ "variables".toList := by
      rintro rfl
      have : get? execMeta (String.ofList "variables".toList) = none := by decide +kernel
      rw [this] at h2
      cases h2
    have h1' := pmatch_same hc h1 ht
    obtain ⟨kw', h3', hs⟩ := kwargs_same hl (fun a o ho => parse_same hl hc hcd hcd' n a o ho) h3
    have hw := kwargs_wf hcd h1 h3
    have hw' := kwargs_wf hcd' h1' h3'
    obtain ⟨a, ha, rfl, hdb⟩ := (execSection_ok hw).1 h4
    obtain ⟨c1, -, c3⟩ := callArgs_first spec kw hw
    obtain ⟨c1', -, c3'⟩ := callArgs_first spec kw' hw'
    have hargs := c3 a ha
    obtain ⟨a', ha'⟩ := c1'.2 (fun k hk => by
      obtain ⟨v, hv⟩ := c1.1 ⟨a, ha⟩ k hk
      have := hs k
      rw [hv] at this
      cases hk' : get? kw' k with
      | none => rw [hk'] at this; cases this
      | some w =>
        cases w with
        | none => rw [hk'] at this; cases this
        | some w => exact ⟨w, rfl⟩)
    have hsame : ∀ k, SameVal env env' (Same env env') (get? a k) (get? a' k) := by
      intro k
      rw [hargs, c3' a' ha']
      split
      · exact hs k
      · exact .none
    refine ⟨.mk (String.ofList ty) name a', parseSub_ok.2 ⟨items, ty, spec, kw', h1', h2, h3', (execSection_ok hw').2 ⟨a', ha', rfl, fun hD => ?_⟩⟩,
      Same.mk rfl rfl hsame⟩
    obtain ⟨cs, hcs, hdl⟩ := hdb hD
    have := hsame "components"
    rw [hcs] at this
    generalize hg : get? a' "components" = x at *
    cases this with
    | comps _ m hm => exact ⟨m, rfl, debye_same hm hdl⟩

/-! ## The variables -/

theorem parseVarLine_const {float : List Char → Except PyErr ℝ} {tag val : List Char} {s s1 : KappaVar.St} {x : ℝ}
    (h : parseVarLine float tag val s = (.ok (.const x), s1)) (s2 : KappaVar.St) : parseVarLine float tag val s2 = (.ok (.const x), s2) := by
  unfold parseVarLine at h ⊢
  cases hp : parseVar val with
  | some g =>
    rw [hp] at h
    simp only at h
    split at h
    · cases h
    · split at h <;> cases h
  | none =>
    rw [hp] at h
    simp only at h ⊢
    cases hf : float val with
    | error e => rw [hf] at h; cases h
    | ok y => rw [hf] at h; cases h; rfl

theorem parseVars_keys {float : List Char → Except PyErr ℝ} : ∀ {items : List (List Char × List Char)} {s s' : KappaVar.St} {l : List (List Char × VarVal)},
    parseVars float items s = (.ok l, s') → l.map Prod.fst = items.map Prod.fst
  | [], _, _, _, h => by cases h; rfl
  | (tag, val) :: rest, s, s', l, h => by
    rw [parseVars] at h
    split at h
    · cases h
    · split at h
      · cases h
      · rename_i hr
        cases h
        rw [List.map_cons, List.map_cons, parseVars_keys hr]

/-- what the section `variables` with the fitted values means -/
theorem vars_fixed {float : List Char → Except PyErr ℝ} {vars : List (List Char × List Char)} (hnum : ∀ p ∈ vars, NumText p.2) :
    ∀ {items : List (List Char × List Char)} {s s' : KappaVar.St} {l : List (List Char × VarVal)}, parseVars float items s = (.ok l, s') →
      (∀ t i, (t, VarVal.var i) ∈ l → ∃ v, get? vars t = some v ∧ float v = .ok (env i)) → (∀ t x, (t, VarVal.const x) ∈ l → get? vars t = none) →
      ∃ l', (∀ s2, parseVars float (fixedOpts vars items) s2 = (.ok l', s2)) ∧ fitting l' = [] ∧ ∀ env', SameVars env env' l l'
  | [], _, _, _, h, _, _ => by cases h; exact ⟨[], fun s2 => rfl, rfl, fun _ => .nil⟩
  | (tag, val) :: rest, s, s', l, h, h1, h2 => by
    rw [parseVars] at h
    cases hv : parseVarLine float tag val s with
    | mk r s1 =>
      rw [hv] at h
      cases r with
      | error e => cases h
      | ok v =>
        simp only at h
        cases hr : parseVars float rest s1 with
        | mk r2 s3 =>
          rw [hr] at h
          cases r2 with
          | error e => cases h
          | ok l0 =>
            cases h
            obtain ⟨l', e, hfit, hs⟩ := vars_fixed hnum hr (fun t i ht => h1 t i (List.mem_cons_of_mem _ ht)) (fun t x ht => h2 t x (List.mem_cons_of_mem _ ht))
            have hx : ∃ x, numVal env (.ref v) = .ok x ∧ ∀ s2, parseVarLine float tag ((get? vars tag).getD val) s2 = (.ok (.const x), s2) := by
              cases v with
              | const x =>
                refine ⟨x, rfl, fun s2 => ?_⟩
                rw [h2 tag x List.mem_cons_self]
                exact parseVarLine_const hv s2
              | var i =>
                obtain ⟨w, hw, hfl⟩ := h1 tag i List.mem_cons_self
                refine ⟨env i, rfl, fun s2 => ?_⟩
                rw [hw]
                exact (C106_constant float tag w s2 (.inl (hnum _ (get?_mem hw)).2.2.1)).1 _ hfl
            obtain ⟨x, hx1, hx2⟩ := hx
            refine ⟨(tag, .const x) :: l', fun s2 => ?_, ?_, fun env' => .cons ⟨rfl, by rw [hx1]; rfl⟩ (hs env')⟩
            · rw [fixedOpts, List.map_cons, parseVars]
              simp only
              rw [hx2 s2]
              simp only
              have := e s2
              rw [fixedOpts] at this
              rw [this]
            · unfold fitting at hfit ⊢
              rw [List.filterMap_cons]
              exact hfit

/-! ## The configurations -/

theorem items_same (vars : List (List Char × List Char)) (cfg : List (List Char × List (List Char × List Char))) :
    SameBut (Parsed.items { sections := cfg, defaults := [] }) (Parsed.items { sections := fixedCfg vars cfg, defaults := [] }) := by
  unfold Parsed.items
  refine .cons ⟨rfl, fun _ => rfl⟩ ?_
  simp only [List.filter_nil, List.append_nil]
  induction cfg with
  | nil => exact .nil
  | cons s cfg ih =>
    rw [fixedCfg, List.map_cons, List.map_cons, List.map_cons]
    refine .cons ⟨?_, fun hne => ?_⟩ ih
    · simp only; split <;> rfl
    · simp only at hne ⊢
      rw [if_neg hne]

theorem items_distinct {lines : List (List Char)} {cfg : List (List Char × List (List Char × List Char))} (h : readCfg lines = .ok { sections := cfg, defaults := [] }) :
    KappaCfg.Distinct (Parsed.items { sections := cfg, defaults := [] }) := by
  obtain ⟨-, h2⟩ := C121_distinct _ _ h
  intro p hp
  unfold Parsed.items at hp
  rcases List.mem_cons.1 hp with rfl | hp
  · exact List.nodup_nil
  · obtain ⟨q, hq, rfl⟩ := List.mem_map.1 hp
    have := h2 q hq
    simp only [List.filter_nil, List.append_nil, List.map_map]
    have e : (q.2.map ((fun x : String × List Char => x.1) ∘ fun d : List Char × List Char => (String.ofList d.1, d.2))) = (q.2.map Prod.fst).map String.ofList := by
      rw [List.map_map]; rfl
    have h3 : ((q.2.map Prod.fst).map String.ofList).Nodup := this.map (fun _ _ h => String.ofList_injective h)
    exact e ▸ h3

theorem get?_fixed {cfg : List (List Char × List (List Char × List Char))} {opts : List (List Char × List Char)} (hn : (cfg.map Prod.fst).Nodup)
    (hv : ("variables".toList, opts) ∈ cfg) (vars : List (List Char × List Char)) : get? (fixedCfg vars cfg) "variables".toList = some (fixedOpts vars opts) := by
  induction cfg with
  | nil => cases hv
  | cons s cfg ih =>
    rw [List.map_cons, List.nodup_cons] at hn
    rw [fixedCfg, List.map_cons]
    rcases List.mem_cons.1 hv with rfl | hv
    · simp [get?]
    · have : s.1 ≠ "variables".toList := fun e => hn.1 (by rw [e]; exact List.mem_map.2 ⟨_, hv, rfl⟩)
      rw [if_neg this, get?_cons, if_neg this]
      exact ih hn.2 hv

/-- **C122** The model of the substituted configuration: whatever model the configuration describes (with variables `l`), the substituted
file can be read, its section `variables` makes no variable at all (there is nothing to fit), and it describes a model which gives
the thermal conductivity of the first one with the fitted values as written, for whatever values variables have then. -/
theorem C122_prediction (float : List Char → Except PyErr ℝ) (quad : (ℝ → ℝ) → ℝ → ℝ → ℝ)
    (cfg : List (List Char × List (List Char × List Char))) (lines : List (List Char)) (hs : FileShows cfg lines)
    (opts vars : List (List Char × List Char)) (hv : ("variables".toList, opts) ∈ cfg) (hf : Fitted vars opts)
    (hone : ∀ o ∈ opts, '\n' ∉ o.2) (hnl : ∀ l ∈ lines, '\n' ∉ l.dropLast) (hb : ∀ l ∈ lines, SectLine l → ∃ n, HeaderLine n l)
    (s s' : KappaVar.St) (l : List (List Char × VarVal)) (hl : parseVars float opts s = (.ok l, s'))
    (env : Nat → ℝ) (hval : ∀ t i, (t, VarVal.var i) ∈ l → ∃ v, (t, v) ∈ vars ∧ float v = .ok (env i)) (hvars : ∀ p ∈ vars, ∃ i, (p.1, VarVal.var i) ∈ l)
    (n : Nat) (model : List Char) (o : Obj) (ho : parseSub float (Parsed.items { sections := cfg, defaults := [] }) l n model = .ok o) :
    ∃ lines' p' opts' l' o', substitutedTags vars lines = some (.ok lines') ∧ readCfg lines' = .ok p' ∧
      get? p'.sections "variables".toList = some opts' ∧ (∀ s2, parseVars float opts' s2 = (.ok l', s2)) ∧ fitting l' = [] ∧
      parseSub float p'.items l' n model = .ok o' ∧ ∀ env' m, kappaOf quad env' m o' = kappaOf quad env m o := by
  have hcfg : (cfg.map Prod.fst).Nodup ∧ ∀ x ∈ cfg, (x.2.map Prod.fst).Nodup := C121_distinct lines _ (C121_reads _ _ hs)
  obtain ⟨hr, lines', e, hr'⟩ := C122_reads cfg lines hs opts vars hv hf hone hnl hb
  have hnd : (l.map Prod.fst).Nodup := by
    rw [parseVars_keys hl]; exact hcfg.2 _ hv
  have hconst : ∀ t x, (t, VarVal.const x) ∈ l → get? vars t = none := by
    intro t x ht
    cases hg : get? vars t with
    | none => rfl
    | some v =>
      exfalso
      obtain ⟨i, hi⟩ := hvars _ (get?_mem hg)
      simp only at hi
      have hwf : WF l := hnd
      have e1 := (mem_iff_get? hwf).1 ht
      have e2 := (mem_iff_get? hwf).1 hi
      rw [e1] at e2
      cases e2
  obtain ⟨l', hp', hfit, hsv⟩ := vars_fixed (env := env) (fun p hp => (hf.2 p hp).2.2.1) hl (fun t i ht => by
    obtain ⟨v, hv, hfl⟩ := hval t i ht
    exact ⟨v, get?_of_nodup hf.1 hv, hfl⟩) hconst
  obtain ⟨o', ho', -⟩ := parse_same (hsv env) (items_same vars cfg) (items_distinct hr) (items_distinct hr') n model o ho
  refine ⟨lines', _, fixedOpts vars opts, l', o', e, hr', get?_fixed hcfg.1 hv vars, hp', hfit, ho', fun env' m => ?_⟩
  obtain ⟨o2, ho2, hsame⟩ := parse_same (hsv env') (items_same vars cfg) (items_distinct hr) (items_distinct hr') n model o ho
  rw [ho'] at ho2
  cases ho2
  exact (hsame.kappa quad m).symm

end

/-! ## A file -/

/-- a configuration with variables -/
def demoLines : List (List Char) :=
  ["[entry]\n".toList, "model = M1\n".toList, "[ variables ]\n".toList, "# fitted\n".toList, "A = 1 ? 1E-3 <0, 9> # note\n".toList, "\n".toList, "B = 2\n".toList,
   "[M1.POWERLAW]\n".toList, "Kamb = @A\n".toList]

/-- what it shows -/
def demoCfg : List (List Char × List (List Char × List Char)) :=
  [("entry".toList, [("model".toList, "M1".toList)]), ("variables".toList, [("A".toList, "1 ? 1E-3 <0, 9>".toList), ("B".toList, "2".toList)]),
   ("M1.POWERLAW".toList, [("Kamb".toList, "@A".toList)])]

/-- the value found -/
def demoVars : List (List Char × List Char) := [("A".toList, "0.5".toList)]

theorem header_of (n rest : List Char) (h : Blank ([] : List Char) ∧ '[' :: (n ++ [']']) ≠ [] ∧ ((('[' :: (n ++ [']'])).head?.map pySpace) = some false ∧
    (('[' :: (n ++ [']'])).getLast?.map pySpace) = some false) ∧ cutComment none ('[' :: (n ++ [']'])) = '[' :: (n ++ [']'])) (hr : Tail rest) (hne : n ≠ []) (hb : ']' ∉ n)
    (h1 : n.head? ≠ some ' ') (h2 : n.getLast? ≠ some ' ') : HeaderLine n ('[' :: (n ++ ']' :: rest)) := by
  refine ⟨[], [], [], ?_, (by intro c hc; cases hc), (by intro c hc; cases hc), hne, hb, h1, h2⟩
  have := shows_of [] ('[' :: (n ++ [']'])) rest h hr
  simpa using this

theorem demo_shows : FileShows demoCfg demoLines := by
  refine ⟨[], [["[entry]\n".toList, "model = M1\n".toList], ["[ variables ]\n".toList, "# fitted\n".toList, "A = 1 ? 1E-3 <0, 9> # note\n".toList, "\n".toList, "B = 2\n".toList],
    ["[M1.POWERLAW]\n".toList, "Kamb = @A\n".toList]], rfl, (by intro l hl; cases hl), ?_, by decide⟩
  refine .cons ?_ (.cons ?_ (.cons ?_ .nil))
  · refine ⟨"[entry]\n".toList, [], 0, [["model = M1\n".toList]], rfl, ?_, (by intro l hl; cases hl), .cons ?_ .nil, by decide, by decide⟩
    · exact header_of "entry".toList "\n".toList (by decide +kernel) (.inl (by decide)) (by decide) (by decide) (by decide) (by decide)
    · refine ⟨"model = M1\n".toList, [], "M1".toList, [], [], rfl, ?_, .nil, rfl, by decide, fun d hd => by cases hd; decide⟩
      refine ⟨" ".toList, " ".toList, ?_, by decide, by decide, by decide, trim_of (by decide), trim_of (by decide), by decide, by decide⟩
      exact shows_of [] "model = M1".toList "\n".toList (by decide +kernel) (.inl (by decide))
  · refine ⟨"[ variables ]\n".toList, ["# fitted\n".toList], 0, [["A = 1 ? 1E-3 <0, 9> # note\n".toList, "\n".toList], ["B = 2\n".toList]], rfl, ?_, ?_,
      .cons ?_ (.cons ?_ .nil), by decide, by decide⟩
    · refine ⟨" ".toList, " ".toList, [], ?_, by decide, by decide, by decide, by decide, by decide, by decide⟩
      exact shows_of [] "[ variables ]".toList "\n".toList (by decide +kernel) (.inl (by decide))
    · intro l hl
      rw [List.mem_singleton.1 hl]
      exact .inl ⟨[], " fitted\n".toList, rfl, by decide⟩
    · refine ⟨"A = 1 ? 1E-3 <0, 9> # note\n".toList, ["\n".toList], "1 ? 1E-3 <0, 9>".toList, [[[]]], "\n".toList, rfl, ?_, .cons (.inr (.inl ⟨by decide, rfl⟩)) .nil,
        by decide, by decide, fun d hd => by cases hd; decide⟩
      refine ⟨" ".toList, " ".toList, ?_, by decide, by decide, by decide, trim_of (by decide), trim_of (by decide), by decide, by decide⟩
      exact shows_of [] "A = 1 ? 1E-3 <0, 9>".toList " # note\n".toList (by decide +kernel) (.inr ⟨[], ' ', " note\n".toList, rfl, by decide, by decide⟩)
    · refine ⟨"B = 2\n".toList, [], "2".toList, [], [], rfl, ?_, .nil, rfl, by decide, fun d hd => by cases hd; decide⟩
      refine ⟨" ".toList, " ".toList, ?_, by decide, by decide, by decide, trim_of (by decide), trim_of (by decide), by decide, by decide⟩
      exact shows_of [] "B = 2".toList "\n".toList (by decide +kernel) (.inl (by decide))
  · refine ⟨"[M1.POWERLAW]\n".toList, [], 0, [["Kamb = @A\n".toList]], rfl, ?_, (by intro l hl; cases hl), .cons ?_ .nil, by decide, by decide⟩
    · exact header_of "M1.POWERLAW".toList "\n".toList (by decide +kernel) (.inl (by decide)) (by decide) (by decide) (by decide) (by decide)
    · refine ⟨"Kamb = @A\n".toList, [], "@A".toList, [], [], rfl, ?_, .nil, rfl, by decide, fun d hd => by cases hd; decide⟩
      refine ⟨" ".toList, " ".toList, ?_, by decide, by decide, by decide, trim_of (by decide), trim_of (by decide), by decide, by decide⟩
      exact shows_of [] "Kamb = @A".toList "\n".toList (by decide +kernel) (.inl (by decide))

theorem demo_fitted : Fitted demoVars [("A".toList, "1 ? 1E-3 <0, 9>".toList), ("B".toList, "2".toList)] := by
  refine ⟨by decide, fun p hp => ?_⟩
  rw [demoVars, List.mem_singleton] at hp
  subst hp
  exact ⟨by decide, by decide, ⟨by decide, by decide, by decide, by decide⟩, "1 ? 1E-3 <0, 9>".toList, by decide, by decide⟩

theorem demo_headers : ∀ l ∈ demoLines, SectLine l → ∃ n, HeaderLine n l := by
  have hno : ∀ l, KappaCfg.headerOf l = none → SectLine l → ∃ n, HeaderLine n l := by
    intro l h hs
    have := KappaCfg.headerOf_isSome_iff.2 hs
    rw [h] at this
    cases this
  intro l hl
  simp only [demoLines, List.mem_cons, List.not_mem_nil, or_false] at hl
  rcases hl with rfl | rfl | rfl | rfl | rfl | rfl | rfl | rfl | rfl
  · exact fun _ => ⟨_, header_of "entry".toList "\n".toList (by decide +kernel) (.inl (by decide)) (by decide) (by decide) (by decide) (by decide)⟩
  · exact hno _ (by decide +kernel)
  · refine fun _ => ⟨"variables".toList, " ".toList, " ".toList, [], ?_, by decide, by decide, by decide, by decide, by decide, by decide⟩
    exact shows_of [] "[ variables ]".toList "\n".toList (by decide +kernel) (.inl (by decide))
  · exact hno _ (by decide +kernel)
  · exact hno _ (by decide +kernel)
  · exact hno _ (by decide +kernel)
  · exact hno _ (by decide +kernel)
  · exact fun _ => ⟨_, header_of "M1.POWERLAW".toList "\n".toList (by decide +kernel) (.inl (by decide)) (by decide) (by decide) (by decide) (by decide)⟩
  · exact hno _ (by decide +kernel)

/-- the hypotheses hold of a file -/
example : ∃ lines', substitutedTags demoVars demoLines = some (.ok lines') ∧ FileShows (fixedCfg demoVars demoCfg) lines' :=
  C122_shows demoCfg demoLines demo_shows _ demoVars (by decide) demo_fitted (by decide) (by decide) demo_headers

example : fixedCfg demoVars demoCfg = [("entry".toList, [("model".toList, "M1".toList)]), ("variables".toList, [("A".toList, "0.5".toList), ("B".toList, "2".toList)]),
   ("M1.POWERLAW".toList, [("Kamb".toList, "@A".toList)])] := by decide

/-- numbers of the example -/
noncomputable def demoFloat (t : List Char) : Except PyErr ℝ :=
  if t = "1".toList then .ok 1 else if t = "1E-3".toList then .ok (1 / 1000) else if t = "0".toList then .ok 0
  else if t = "9".toList then .ok 9 else if t = "2".toList then .ok 2 else if t = "0.5".toList then .ok (1 / 2) else .error .valueError

/-- the model of the example: before, `@A` is the variable, afterwards it is the number 0.5 -/
example : ∃ n lines' p' opts' l' o', substitutedTags demoVars demoLines = some (.ok lines') ∧ readCfg lines' = .ok p' ∧
      get? p'.sections "variables".toList = some opts' ∧ (∀ s2, parseVars demoFloat opts' s2 = (.ok l', s2)) ∧ fitting l' = [] ∧
      parseSub demoFloat p'.items l' 1 "M1".toList = .ok o' ∧
      ∀ quad env' m, kappaOf quad env' m o' = kappaOf quad (fun _ => 1 / 2) m (.mk "POWERLAW" "M1".toList [("Kamb", some (.ref (.var n)))]) := by
  obtain ⟨n, s', o, h1, -⟩ := C106_variable demoFloat "A".toList "1 ? 1E-3 <0, 9>".toList "1".toList "1E-3".toList "0".toList "9".toList "<0, 9>".toList
    1 (1 / 1000) 0 9 KappaVar.St.init (.refl _) rfl
    ⟨[], [' '], [' '], [' '], by decide, by decide, by decide, by decide, by decide, by decide, by decide, by decide, by decide,
      by decide, by decide, by decide, by decide, by decide⟩
    (.inl ⟨[], [], [' '], [], [], by decide, by decide, by decide, by decide, by decide, by decide, by decide, by decide, by decide,
      by decide, by decide, by decide⟩)
    (.inr ⟨by decide, by simp [demoFloat]⟩) (.inr ⟨by decide, by simp [demoFloat]⟩) (.inr ⟨by decide, by simp [demoFloat]⟩)
    (.inr ⟨by decide, by simp [demoFloat]⟩) (by norm_num)
  have h2 : ∀ s, parseVarLine demoFloat "B".toList "2".toList s = (.ok (.const 2), s) := by
    intro s
    have : parseVar "2".toList = none := by decide +kernel
    unfold parseVarLine
    rw [this]
    simp [demoFloat]
  have hl : parseVars demoFloat [("A".toList, "1 ? 1E-3 <0, 9>".toList), ("B".toList, "2".toList)] KappaVar.St.init =
      (.ok [("A".toList, .var n), ("B".toList, .const 2)], s') := by
    simp only [parseVars, h1, h2]
  have hp : ∀ quad, _ := fun quad => C122_prediction demoFloat quad demoCfg demoLines demo_shows _ demoVars (by decide) demo_fitted (by decide) (by decide) demo_headers
    KappaVar.St.init s' _ hl (fun _ => 1 / 2) (by
      intro t i ht
      simp only [List.mem_cons, List.not_mem_nil, or_false, Prod.mk.injEq, VarVal.var.injEq, reduceCtorEq, and_false] at ht
      rw [ht.1]
      exact ⟨"0.5".toList, by decide, by simp [demoFloat]⟩) (by
      intro p hp
      rw [demoVars, List.mem_singleton] at hp
      subst hp
      exact ⟨n, by simp⟩) 1 "M1".toList (.mk "POWERLAW" "M1".toList [("Kamb", some (.ref (.var n)))]) (by rfl)
  obtain ⟨lines', p', opts', l', o', a1, a2, a3, a4, a5, a6, -⟩ := hp (fun _ _ _ => 0)
  refine ⟨n, lines', p', opts', l', o', a1, a2, a3, a4, a5, a6, fun quad env' m => ?_⟩
  obtain ⟨lines2, p2, opts2, l2, o2, b1, b2, b3, b4, b5, b6, b7⟩ := hp quad
  rw [a1] at b1; cases b1
  rw [a2] at b2; cases b2
  rw [a3] at b3; cases b3
  have e := (a4 KappaVar.St.init).symm.trans (b4 KappaVar.St.init)
  cases e
  rw [a6] at b6; cases b6
  exact b7 env' m

/-! ## Files for which the substitution goes wrong -/

/-- **C122** (finding) Bounds on a line of their own: the file can be read, but the substituted one cannot be used — the value is then the
number followed by the old bounds. -/
theorem C122_bounds_below :
    readCfg ["[variables]\n".toList, "a = 3 ?\n".toList, "  <0, 5>\n".toList] =
      .ok { sections := [("variables".toList, [("a".toList, "3 ?\n<0, 5>".toList)])], defaults := [] } ∧
    substitutedTags [("a".toList, "3.2".toList)] ["[variables]\n".toList, "a = 3 ?\n".toList, "  <0, 5>\n".toList] =
      some (.ok ["[variables]\n".toList, "a = 3.2 # ?\n".toList, "  <0, 5>\n".toList]) ∧
    readCfg ["[variables]\n".toList, "a = 3.2 # ?\n".toList, "  <0, 5>\n".toList] =
      .ok { sections := [("variables".toList, [("a".toList, "3.2\n<0, 5>".toList)])], defaults := [] } := by
  refine ⟨by decide +kernel, by decide +kernel, by decide +kernel⟩

/-- **C122** (finding) A line of a value which looks like the header of the section is taken for it: the file can be read, but no
substituted configuration is made. -/
theorem C122_header_in_value :
    readCfg ["[entry]\n".toList, "note = see\n".toList, "  [variables] below\n".toList, "[variables]\n".toList, "a = 3 ?\n".toList] =
      .ok { sections := [("entry".toList, [("note".toList, "see\n[variables] below".toList)]), ("variables".toList, [("a".toList, "3 ?".toList)])], defaults := [] } ∧
    substitutedTags [("a".toList, "3.2".toList)] ["[entry]\n".toList, "note = see\n".toList, "  [variables] below\n".toList, "[variables]\n".toList, "a = 3 ?\n".toList] =
      some (.error .runtimeError) := by
  refine ⟨by decide +kernel, by decide +kernel⟩

end TEflow.CfgSubst
