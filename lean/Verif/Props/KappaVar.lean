import Mathlib.Tactic
import Verif.Lemmas.KappaVarInv

/-! # C82-C84: variables, parameter sets and the fitting loop -/

namespace TEflow.KappaVar

open PyDict

/-! ## Construction -/

theorem inv_putNew {s : St} (hi : Inv s) {i : Nat} (hn : s.obj i = none) {t : Tag} (hr : s.reg t = some i) {o : Var}
    (hb : o.lower ≤ o.value ∧ o.value ≤ o.upper) (hsub : o.subs = []) (hd : o.deps = none) : Inv (putObj s i o) := by
  have key : ∀ j o', (putObj s i o).obj j = some o' → (j = i ∧ o' = o) ∨ (j ≠ i ∧ s.obj j = some o') := by
    intro j o' h
    rw [putObj_obj] at h
    by_cases hj : j = i
    · rw [if_pos hj] at h
      exact .inl ⟨hj, (Option.some.inj h).symm⟩
    · rw [if_neg hj] at h
      exact .inr ⟨hj, h⟩
  refine ⟨hi.regLt, hi.regInj, ?_, ?_, ?_, ?_, ?_, ?_, hi.fresh⟩
  · intro j o' h
    rcases key j o' h with ⟨rfl, rfl⟩ | ⟨_, h⟩
    · exact ⟨t, hr⟩
    · exact hi.objReg j o' h
  · intro j o' h
    rcases key j o' h with ⟨rfl, rfl⟩ | ⟨_, h⟩
    · exact hb
    · exact hi.bounds j o' h
  · intro j o' p k h hk
    rcases key j o' h with ⟨rfl, rfl⟩ | ⟨_, h⟩
    · rw [hsub] at hk; cases hk
    · exact hi.subsLt j o' p k h hk
  · intro j o' j' o'' p k h h' hk hk'
    rcases key j o' h with ⟨rfl, rfl⟩ | ⟨_, h⟩
    · rw [hsub] at hk; cases hk
    · rcases key j' o'' h' with ⟨rfl, rfl⟩ | ⟨_, h'⟩
      · rw [hsub] at hk'; cases hk'
      · exact hi.uniq j o' j' o'' p k h h' hk hk'
  · intro j o' p h hd'
    rcases key j o' h with ⟨rfl, rfl⟩ | ⟨_, h⟩
    · rw [hd] at hd'; cases hd'
    · exact hi.depsLt j o' p h hd'
  · intro j o' p k h hd'
    rcases key j o' h with ⟨rfl, rfl⟩ | ⟨_, h⟩
    · rw [hd] at hd'; cases hd'
    · exact hi.noSelf j o' p k h hd'

theorem synced_putNew {s : St} (hs : Synced s) {i : Nat} {o : Var} (hsub : o.subs = []) : Synced (putObj s i o) := by
  intro j o' p k h hc hk
  rw [putObj_obj] at h
  by_cases hj : j = i
  · rw [if_pos hj] at h
    cases h
    rw [hsub] at hk
    cases hk
  · rw [if_neg hj] at h
    exact hs j o' p k h hc hk

theorem depArgs_mem {tag : Tag} {deps : List Arg} {k : Key} {a : Arg} (h : (k, a) ∈ depArgs tag deps) : a ∈ deps := by
  unfold depArgs at h
  rw [List.mem_mapIdx] at h
  obtain ⟨n, hn, he⟩ := h
  rw [← (Prod.mk.inj he).2]
  exact List.getElem_mem hn

theorem depArgs_nodup (tag : Tag) (deps : List Arg) : ((depArgs tag deps).map Prod.fst).Nodup := by
  unfold depArgs
  have : ((deps.mapIdx fun i a => (Key.dep tag i, a)).map Prod.fst) = (List.range deps.length).map (Key.dep tag) := by
    apply List.ext_getElem
    · simp
    · intro n h1 h2
      simp
  rw [this]
  apply List.Nodup.map _ List.nodup_range
  intro a b h
  cases h
  rfl

/-- the caller only has objects that exist -/
def Held (s : St) (args : List Arg) : Prop := ∀ i, Arg.var i ∈ args → s.obj i ≠ none

/-- `finishInit` on an object that was blank before: what it does -/
theorem finishInit_inv {s : St} (hi : Inv s) (hs : Synced s ∨ True) {i : Nat} {o : Var} (c : Option (List ℝ → ℝ)) {tag t : Tag}
    {deps : List Arg} (hn : s.obj i = none) (hr : s.reg t = some i) (hb : o.lower ≤ o.value ∧ o.value ≤ o.upper)
    (hsub : o.subs = []) (hd : o.deps = none) (hne : Arg.var i ∉ deps) :
    Inv (finishInit s i o c tag deps).2 ∧ (Synced s → Synced (finishInit s i o c tag deps).2) := by
  have hi1 : Inv (putObj s i { o with compute := some c }) := inv_putNew hi hn hr hb hsub hd
  have hs1 : Synced s → Synced (putObj s i { o with compute := some c }) := fun h => synced_putNew h hsub
  set s1 := putObj s i { o with compute := some c } with hs1def
  have hi2 := inv_newParams hi1 (depArgs tag deps)
  have hs2 : Synced s → Synced (newParams s1 (depArgs tag deps)).2 := fun h => synced_newParams hi1 (hs1 h) _
  obtain ⟨a1, a2, a3, a4, a5, a6⟩ := newParams_effect s1 (depArgs tag deps)
  have hok := @newParams_ok s1 hi1 (depArgs tag deps)
  unfold finishInit
  cases hp : newParams s1 (depArgs tag deps) with
  | mk r s2 =>
    rw [hp] at hi2 hs2 a3 a4 a5 a6 hok
    cases r with
    | error e => exact ⟨hi2, hs2⟩
    | ok p =>
      have ho1 : s1.obj i = some { o with compute := some c } := by rw [hs1def, putObj_obj, if_pos rfl]
      obtain ⟨l, hl1, hl2⟩ := a6 i _ ho1
      have hl : l = [] := by
        rcases l with _ | ⟨q, l⟩
        · rfl
        · exact absurd (depArgs_mem (hl2 q List.mem_cons_self).2.2.2) hne
      subst hl
      have hl1' : s2.obj i = some { o with subs := [], compute := some c } := by
        have h := hl1
        simp only [hsub, List.append_nil] at h
        exact h
      simp only [hl1']
      obtain ⟨e1, e2, _⟩ := hok rfl
      have hi2 : Inv s2 := hi2
      have hs2 : Synced s → Synced s2 := hs2
      have key : ∀ j o', (putObj s2 i { o with subs := [], compute := some c, deps := some p }).obj j = some o' →
          (j = i ∧ o' = { o with subs := [], compute := some c, deps := some p }) ∨ (j ≠ i ∧ s2.obj j = some o') := by
        intro j o' h
        rw [putObj_obj] at h
        by_cases hj : j = i
        · rw [if_pos hj] at h
          exact .inl ⟨hj, (Option.some.inj h).symm⟩
        · rw [if_neg hj] at h
          exact .inr ⟨hj, h⟩
      constructor
      · refine ⟨hi2.regLt, hi2.regInj, ?_, ?_, ?_, ?_, ?_, ?_, hi2.fresh⟩
        · intro j o' h
          rcases key j o' h with ⟨rfl, rfl⟩ | ⟨_, h⟩
          · exact hi2.objReg j _ hl1'
          · exact hi2.objReg j o' h
        · intro j o' h
          rcases key j o' h with ⟨rfl, rfl⟩ | ⟨_, h⟩
          · exact hb
          · exact hi2.bounds j o' h
        · intro j o' q k h hk
          rcases key j o' h with ⟨rfl, rfl⟩ | ⟨_, h⟩
          · cases hk
          · exact hi2.subsLt j o' q k h hk
        · intro j o' j' o'' q k h h' hk hk'
          rcases key j o' h with ⟨rfl, rfl⟩ | ⟨_, h⟩
          · cases hk
          · rcases key j' o'' h' with ⟨rfl, rfl⟩ | ⟨_, h'⟩
            · cases hk'
            · exact hi2.uniq j o' j' o'' q k h h' hk hk'
        · intro j o' q h hd'
          rcases key j o' h with ⟨rfl, rfl⟩ | ⟨_, h⟩
          · cases hd'
            simp only at e2 ⊢
            show p < s2.npar
            omega
          · exact hi2.depsLt j o' q h hd'
        · intro j o' q k h hd'
          rcases key j o' h with ⟨rfl, rfl⟩ | ⟨_, h⟩
          · exact List.not_mem_nil
          · exact hi2.noSelf j o' q k h hd'
      · intro h j o' q k hj hc hk
        rcases key j o' hj with ⟨rfl, rfl⟩ | ⟨_, hj⟩
        · cases hk
        · exact hs2 h j o' q k hj hc hk

theorem initVar_inv {s : St} (hi : Inv s) {i : Nat} {tag : Tag} (hr : s.reg tag = some i) (a : Args) (hh : Held s a.depends) :
    Inv (initVar s i tag a).2 ∧ (Synced s → Synced (initVar s i tag a).2) := by
  unfold initVar
  cases ho : s.obj i with
  | some o => exact ⟨hi, id⟩
  | none =>
    have hne : Arg.var i ∉ a.depends := fun h => hh i h ho
    simp only
    split_ifs with hb
    · cases a.constraint with
      | notCallable => exact ⟨inv_putNew hi ho hr hb rfl rfl, fun h => synced_putNew h rfl⟩
      | none => exact finishInit_inv hi (.inr trivial) none ho hr hb rfl rfl hne
      | fn f => exact finishInit_inv hi (.inr trivial) (some f) ho hr hb rfl rfl hne
    · exact ⟨hi, id⟩

theorem construct_inv {s : St} (hi : Inv s) (tag : Tag) (a : Args) (hh : Held s a.depends) :
    Inv (construct s tag a).2 ∧ (Synced s → Synced (construct s tag a).2) := by
  unfold construct
  cases hr : s.reg tag with
  | some i => exact initVar_inv hi hr a hh
  | none =>
    have hi' : Inv { s with reg := Function.update s.reg tag (some s.nobj), nobj := s.nobj + 1 } := by
      refine ⟨?_, ?_, ?_, hi.bounds, hi.subsLt, hi.uniq, hi.depsLt, hi.noSelf, hi.fresh⟩
      · intro t i h
        simp only [Function.update_apply] at h ⊢
        split_ifs at h
        · cases h; omega
        · have := hi.regLt t i h; omega
      · intro t t' i h h'
        simp only [Function.update_apply] at h h'
        split_ifs at h h' with h1 h2 h2
        · rw [h1, h2]
        · cases h
          have := hi.regLt t' _ h'; omega
        · cases h'
          have := hi.regLt t _ h; omega
        · exact hi.regInj t t' i h h'
      · intro i o h
        obtain ⟨t, ht⟩ := hi.objReg i o h
        refine ⟨t, ?_⟩
        simp only [Function.update_apply]
        rw [if_neg]
        · exact ht
        · rintro rfl
          rw [hr] at ht
          cases ht
    exact initVar_inv hi' (by simp) a hh

/-! ## Histories -/

/-- one operation on variables and parameter sets, whether it succeeds or raises an error.  `direct` allows the program to change
an entry of a parameter set behind the variables' back. -/
inductive Step (direct : Bool) : St → St → Prop where
  | construct (s : St) (tag : Tag) (a : Args) (h : Held s a.depends) : Step direct s (construct s tag a).2
  | params (s : St) (args : List (Key × Arg)) : Step direct s (newParams s args).2
  | assign (s : St) (i : Nat) (x : ℝ) : Step direct s (setValue s i x).2
  | sync (s : St) (i : Nat) : Step direct s (sync s i).2
  | overwrite (s : St) (p : Nat) (k : Key) (x : ℝ) (h : p < s.npar) (hd : direct = true) : Step direct s (store s p k x)

/-- histories -/
inductive Steps (direct : Bool) : St → St → Prop where
  | refl (s : St) : Steps direct s s
  | tail {s t u : St} : Steps direct s t → Step direct t u → Steps direct s u

theorem Steps.trans {d : Bool} {a b c : St} (h1 : Steps d a b) (h2 : Steps d b c) : Steps d a c := by
  induction h2 with
  | refl => exact h1
  | tail _ hs ih => exact .tail ih hs

theorem step_inv {d : Bool} {s s' : St} (h : Step d s s') (hi : Inv s) : Inv s' := by
  cases h with
  | construct tag a hh => exact (construct_inv hi tag a hh).1
  | params args => exact inv_newParams hi args
  | assign i x => exact inv_setValue hi i x
  | sync i => exact inv_sync hi i
  | overwrite p k x hp _ => exact inv_objs (s := s) (s' := store s p k x) ⟨rfl, rfl, rfl, rfl⟩ (fun q hq => store_par s p k x q (by omega)) hi

theorem step_synced {s s' : St} (h : Step false s s') (hi : Inv s) (hs : Synced s) : Synced s' := by
  cases h with
  | construct tag a hh => exact (construct_inv hi tag a hh).2 hs
  | params args => exact synced_newParams hi hs args
  | assign i x => exact synced_setValue hi hs i x
  | sync i => exact synced_sync hi hs i
  | overwrite p k x hp hd => cases hd

theorem steps_inv {d : Bool} {s s' : St} (h : Steps d s s') (hi : Inv s) : Inv s' := by
  induction h with
  | refl => exact hi
  | tail _ hs ih => exact step_inv hs ih

theorem steps_synced {s s' : St} (h : Steps false s s') (hi : Inv s) (hs : Synced s) : Synced s' := by
  induction h with
  | refl => exact hs
  | tail h1 h2 ih => exact step_synced h2 (steps_inv h1 hi) ih

/-- **C82** Whatever has happened before (errors and direct changes of parameter sets included), the stored value of every
variable lies between its bounds. -/
theorem C82_bounds {s : St} (h : Steps true St.init s) (i : Nat) (o : Var) (ho : s.obj i = some o) :
    o.lower ≤ o.value ∧ o.value ≤ o.upper := (steps_inv h inv_init.1).bounds i o ho

/-- **C82** A rejected assignment changes nothing at all; it is rejected exactly outside the bounds. -/
theorem C82_rejected (s : St) (i : Nat) (o : Var) (ho : s.obj i = some o) (x : ℝ) :
    (x < o.lower ∨ o.upper < x → setValue s i x = (.error .valueError, s)) ∧
    ((setValue s i x).1 = .error .valueError → x < o.lower ∨ o.upper < x) := by
  unfold setValue
  rw [ho]
  simp only
  constructor
  · intro h
    rw [if_neg]
    rintro ⟨h1, h2⟩
    rcases h with h | h <;> linarith
  · intro h
    split_ifs at h with hb
    · exfalso
      unfold sync at h
      simp only [putObj_obj, if_pos] at h
      have : ∀ (l : List (Nat × Key)) (t : St) (sc : ℝ), (syncLoop t i sc l).1 ≠ .error .valueError := by
        intro l
        induction l with
        | nil => intro t sc h; cases h
        | cons q l ih =>
          intro t sc h
          obtain ⟨p, k⟩ := q
          unfold syncLoop at h
          cases hv : value t i with
          | ok v => rw [hv] at h; exact ih _ _ h
          | error e =>
            rw [hv] at h
            simp only at h
            cases h
            unfold value at hv
            split at hv
            · cases hv
            · split at hv
              · cases hv
              · cases hv
              · split at hv <;> cases hv
      exact this _ _ _ h
    · by_contra hc
      push Not at hc
      exact hb ⟨hc.1, hc.2⟩

/-! ## What persists -/

/-- an object only gains subscribers; keys of parameter sets do not vanish; settings other than the value stay -/
def Grows (s s' : St) : Prop :=
  s.npar ≤ s'.npar ∧
  (∀ p k, p < s.npar → (get? (s.par p) k).isSome → (get? (s'.par p) k).isSome) ∧
  (∀ i o, s.obj i = some o → ∃ o', s'.obj i = some o' ∧ o'.lower = o.lower ∧ o'.upper = o.upper ∧ o'.scale = o.scale ∧
    o'.compute = o.compute ∧ o'.deps = o.deps ∧ ∀ q ∈ o.subs, q ∈ o'.subs) ∧
  (∀ t i, s.reg t = some i → s'.reg t = some i)

theorem grows_refl (s : St) : Grows s s :=
  ⟨le_refl _, fun _ _ _ h => h, fun i o h => ⟨o, h, rfl, rfl, rfl, rfl, rfl, fun _ h => h⟩, fun _ _ h => h⟩

theorem grows_trans {a b c : St} (h1 : Grows a b) (h2 : Grows b c) : Grows a c := by
  refine ⟨h1.1.trans h2.1, fun p k hp h => h2.2.1 p k (lt_of_lt_of_le hp h1.1) (h1.2.1 p k hp h), fun i o h => ?_,
    fun t i h => h2.2.2.2 t i (h1.2.2.2 t i h)⟩
  obtain ⟨o1, e1, e2, e3, e4, e5, e6, e7⟩ := h1.2.2.1 i o h
  obtain ⟨o2, f1, f2, f3, f4, f5, f6, f7⟩ := h2.2.2.1 i o1 e1
  exact ⟨o2, f1, f2.trans e2, f3.trans e3, f4.trans e4, f5.trans e5, f6.trans e6, fun q hq => f7 q (e7 q hq)⟩

theorem grows_sync (s : St) (i : Nat) : Grows s (sync s i).2 := by
  have h := sync_objs s i
  refine ⟨h.npar.ge, fun p k _ hk => ?_, fun j o hj => ⟨o, by rw [h.obj, hj], rfl, rfl, rfl, rfl, rfl, fun _ h => h⟩,
    fun t j hj => by rw [h.reg, hj]⟩
  unfold sync
  cases s.obj i with
  | none => exact hk
  | some o => exact syncLoop_keys i o.scale o.subs s p k hk

theorem grows_putObj {s : St} {i : Nat} {o o' : Var} (ho : s.obj i = some o) (h1 : o'.lower = o.lower) (h2 : o'.upper = o.upper)
    (h3 : o'.scale = o.scale) (h4 : o'.compute = o.compute) (h5 : o'.deps = o.deps) (h6 : ∀ q ∈ o.subs, q ∈ o'.subs) :
    Grows s (putObj s i o') := by
  refine ⟨le_refl _, fun _ _ _ h => h, fun j oj hj => ?_, fun _ _ h => h⟩
  rw [putObj_obj]
  by_cases hji : j = i
  · subst hji
    rw [ho] at hj
    cases hj
    exact ⟨o', by rw [if_pos rfl], h1, h2, h3, h4, h5, h6⟩
  · exact ⟨oj, by rw [if_neg hji, hj], rfl, rfl, rfl, rfl, rfl, fun _ h => h⟩

theorem grows_setValue (s : St) (i : Nat) (x : ℝ) : Grows s (setValue s i x).2 := by
  unfold setValue
  cases ho : s.obj i with
  | none => exact grows_refl s
  | some o =>
    simp only
    split_ifs
    · exact grows_trans (grows_putObj (o' := { o with value := x }) ho rfl rfl rfl rfl rfl (fun _ h => h)) (grows_sync _ i)
    · exact grows_refl s

theorem grows_newParams (s : St) (args : List (Key × Arg)) : Grows s (newParams s args).2 := by
  obtain ⟨a1, a2, a3, a4, a5, a6⟩ := newParams_effect s args
  refine ⟨a3, fun p k hp h => by rw [a4 p (by omega)]; exact h, fun j o hj => ?_, fun t j h => by rw [a1, h]⟩
  obtain ⟨l, h1, _⟩ := a6 j o hj
  exact ⟨_, h1, rfl, rfl, rfl, rfl, rfl, fun q hq => List.mem_append_left _ hq⟩

theorem grows_blank {s : St} {i : Nat} (hn : s.obj i = none) (o : Var) : Grows s (putObj s i o) := by
  refine ⟨le_refl _, fun _ _ _ h => h, fun j oj hj => ⟨oj, ?_, rfl, rfl, rfl, rfl, rfl, fun _ h => h⟩, fun _ _ h => h⟩
  rw [putObj_obj, if_neg, hj]
  rintro rfl
  rw [hn] at hj
  cases hj

theorem grows_finishInit {s : St} {i : Nat} (hn : s.obj i = none) (o : Var) (c : Option (List ℝ → ℝ)) (tag : Tag) (deps : List Arg) :
    Grows s (finishInit s i o c tag deps).2 := by
  have g1 := grows_trans (grows_blank hn { o with compute := some c })
    (grows_newParams (putObj s i { o with compute := some c }) (depArgs tag deps))
  unfold finishInit
  cases hp : newParams (putObj s i { o with compute := some c }) (depArgs tag deps) with
  | mk r s2 =>
    rw [hp] at g1
    cases r with
    | error e => exact g1
    | ok p =>
      simp only
      cases ho2 : s2.obj i with
      | none => exact g1
      | some o2 =>
        refine ⟨g1.1, g1.2.1, fun j oj hj => ?_, g1.2.2.2⟩
        have hji : j ≠ i := by rintro rfl; rw [hn] at hj; cases hj
        obtain ⟨o', e1, e⟩ := g1.2.2.1 j oj hj
        exact ⟨o', by rw [putObj_obj, if_neg hji]; exact e1, e⟩

theorem grows_initVar (s : St) (i : Nat) (tag : Tag) (a : Args) : Grows s (initVar s i tag a).2 := by
  unfold initVar
  cases ho : s.obj i with
  | some o => exact grows_refl s
  | none =>
    simp only
    split_ifs
    · cases a.constraint with
      | notCallable => exact grows_blank ho _
      | none => exact grows_finishInit ho _ _ _ _
      | fn f => exact grows_finishInit ho _ _ _ _
    · exact grows_refl s

theorem grows_construct {s : St} (tag : Tag) (a : Args) : Grows s (construct s tag a).2 := by
  unfold construct
  cases hr : s.reg tag with
  | some i => exact grows_initVar s i tag a
  | none =>
    refine grows_trans ?_ (grows_initVar _ s.nobj tag a)
    refine ⟨le_refl _, fun _ _ _ h => h, fun j o hj => ⟨o, hj, rfl, rfl, rfl, rfl, rfl, fun _ h => h⟩, fun t i h => ?_⟩
    simp only [Function.update_apply]
    rw [if_neg, h]
    rintro rfl
    rw [hr] at h
    cases h

theorem step_grows {d : Bool} {s s' : St} (h : Step d s s') : Grows s s' := by
  cases h with
  | construct tag a hh => exact grows_construct tag a
  | params args => exact grows_newParams s args
  | assign i x => exact grows_setValue s i x
  | sync i => exact grows_sync s i
  | overwrite p k x hp _ =>
    refine ⟨le_refl _, fun q k' _ h => ?_, fun j o hj => ⟨o, hj, rfl, rfl, rfl, rfl, rfl, fun _ h => h⟩, fun _ _ h => h⟩
    rw [store_get]
    split_ifs
    · rfl
    · exact h

theorem steps_grows {d : Bool} {s s' : St} (h : Steps d s s') : Grows s s' := by
  induction h with
  | refl => exact grows_refl _
  | tail _ hs ih => exact grows_trans ih (step_grows hs)

/-- **C82** A parameter set made from variables stays in step with them: after any further history without direct changes, the
entry made from an unconstrained variable is that variable's current value times its scale. -/
theorem C82_in_sync {s s' : St} (h : Steps false St.init s) (args : List (Key × Arg)) (p : Nat)
    (hp : (newParams s args).1 = .ok p) (h' : Steps false (newParams s args).2 s') (k : Key) (i : Nat) (hk : (k, Arg.var i) ∈ args)
    (hc : constrained s' i = .ok false) :
    ∃ o v, s'.obj i = some o ∧ value s' i = .ok v ∧ get? (s'.par p) k = some (v * o.scale) := by
  have hi := steps_inv h inv_init.1
  have hs := steps_synced h inv_init.1 inv_init.2
  have hi1 := inv_newParams hi args
  have hs1 := synced_newParams hi hs args
  have hi2 := steps_inv h' hi1
  have hs2 := steps_synced h' hi1 hs1
  have g := steps_grows h'
  obtain ⟨e1, e2, e3, e4, e5⟩ := newParams_ok hi hp
  obtain ⟨o, ho, hm⟩ := e5 k i hk
  obtain ⟨v, _, hg⟩ := e4 k _ hk
  obtain ⟨o', ho', _, _, _, _, _, hsub⟩ := g.2.2.1 i o ho
  have hcc : o'.compute = some none := by
    unfold constrained at hc
    rw [ho'] at hc
    simp only at hc
    cases hcm : o'.compute with
    | none => rw [hcm] at hc; cases hc
    | some c =>
      rw [hcm] at hc
      cases c with
      | none => rfl
      | some f => cases hc
  refine ⟨o', o'.value, ho', value_free ho' hcc, ?_⟩
  have hkey := g.2.1 p k (by omega) (by rw [hg]; rfl)
  rcases hs2 i o' p k ho' hcc (hsub _ hm) with h0 | h0
  · rw [h0] at hkey
    cases hkey
  · exact h0

/-- **C82** An accepted assignment to an unconstrained variable brings all entries registered for it up to date, also those that
had been changed directly. -/
theorem C82_assign {s : St} (h : Steps true St.init s) (i : Nat) (o : Var) (ho : s.obj i = some o) (hc : o.compute = some none)
    (x : ℝ) (hx : o.lower ≤ x ∧ x ≤ o.upper) :
    (setValue s i x).1 = .ok () ∧ value (setValue s i x).2 i = .ok x ∧
    (∀ p k, (p, k) ∈ o.subs → get? ((setValue s i x).2.par p) k = some (x * o.scale)) ∧
    (∀ p k, (p, k) ∉ o.subs → get? ((setValue s i x).2.par p) k = get? (s.par p) k) ∧
    (∀ j, j ≠ i → (setValue s i x).2.obj j = s.obj j) := by
  have hi := steps_inv h inv_init.1
  have e : setValue s i x = sync (putObj s i { o with value := x }) i := by
    unfold setValue
    rw [ho]
    simp only [if_pos hx]
  have ho' : (putObj s i { o with value := x }).obj i = some { o with value := x } := by rw [putObj_obj, if_pos rfl]
  obtain ⟨h1, h2, h3, _⟩ := sync_get (inv_putValue hi ho hx) i _ ho' x (value_free ho' hc)
  rw [e]
  refine ⟨h1, ?_, h2, h3, fun j hj => ?_⟩
  · have hob : (sync (putObj s i { o with value := x }) i).2.obj i = some { o with value := x } := by
      rw [(sync_objs _ i).obj, ho']
    exact value_free hob hc
  · rw [(sync_objs _ i).obj, putObj_obj, if_neg hj]

/-! ## C83 -/

/-- **C83** One object per tag: two constructions with the same tag, however far apart and whatever happened in between, return the
same object; constructions with different tags return different objects. -/
theorem C83_identity {s s' : St} {d : Bool} (h : Steps d St.init s) (tag tag' : Tag) (a a' : Args) (i i' : Nat)
    (hh : Held s a.depends) (h1 : (construct s tag a).1 = .ok i) (h' : Steps d (construct s tag a).2 s')
    (h2 : (construct s' tag' a').1 = .ok i') : i = i' ↔ tag = tag' := by
  have fin : ∀ (t : St) (j : Nat) (o : Var) (c : Option (List ℝ → ℝ)) (tg : Tag) (ds : List Arg) (r : Nat),
      (finishInit t j o c tg ds).1 = .ok r → r = j ∧ (finishInit t j o c tg ds).2.reg = t.reg := by
    intro t j o c tg ds r hr
    obtain ⟨b1, _⟩ := newParams_effect (putObj t j { o with compute := some c }) (depArgs tg ds)
    unfold finishInit at hr ⊢
    cases hp : newParams (putObj t j { o with compute := some c }) (depArgs tg ds) with
    | mk x s2 =>
      rw [hp] at hr b1
      cases x with
      | error e => cases hr
      | ok p =>
        simp only at hr ⊢
        cases ho : s2.obj j with
        | none => rw [ho] at hr; exact ⟨(Except.ok.inj hr).symm, b1⟩
        | some o2 => rw [ho] at hr; exact ⟨(Except.ok.inj hr).symm, b1⟩
  have ini : ∀ (t : St) (j : Nat) (tg : Tag) (a : Args) (r : Nat), (initVar t j tg a).1 = .ok r →
      r = j ∧ (initVar t j tg a).2.reg = t.reg := by
    intro t j tg a r hr
    unfold initVar at hr ⊢
    cases ho : t.obj j with
    | some o => rw [ho] at hr; exact ⟨(Except.ok.inj hr).symm, rfl⟩
    | none =>
      rw [ho] at hr
      simp only at hr ⊢
      split_ifs at hr ⊢
      cases hcon : a.constraint with
      | notCallable => rw [hcon] at hr; cases hr
      | none => rw [hcon] at hr; exact fin _ _ _ _ _ _ r hr
      | fn f => rw [hcon] at hr; exact fin _ _ _ _ _ _ r hr
  have con : ∀ (t : St) (tg : Tag) (a : Args) (r : Nat), (construct t tg a).1 = .ok r → (construct t tg a).2.reg tg = some r := by
    intro t tg a r hr
    unfold construct at hr ⊢
    cases hreg : t.reg tg with
    | some j =>
      rw [hreg] at hr
      obtain ⟨rfl, e⟩ := ini t j tg a r hr
      simp only [e, hreg]
    | none =>
      rw [hreg] at hr
      obtain ⟨rfl, e⟩ := ini _ _ tg a r hr
      simp only [e, Function.update_self]
  have r1 := con s tag a i h1
  have r1' : s'.reg tag = some i := (steps_grows h').2.2.2 tag i r1
  have r2 : (construct s' tag' a').2.reg tag = some i := (grows_construct tag' a').2.2.2 tag i r1'
  have r3 := con s' tag' a' i' h2
  constructor
  · rintro rfl
    -- injectivity of the registry after the second construction
    have hi0 : Inv s := steps_inv h inv_init.1
    have hi1 : Inv (construct s tag a).2 := (construct_inv hi0 tag a hh).1
    have hi2 : Inv s' := steps_inv h' hi1
    by_contra hne
    unfold construct at h2 r3
    cases hreg : s'.reg tag' with
    | some j =>
      rw [hreg] at h2
      obtain ⟨rfl, _⟩ := ini s' j tag' a' i h2
      exact hne (hi2.regInj tag tag' i r1' hreg)
    | none =>
      rw [hreg] at h2
      obtain ⟨e, _⟩ := ini _ _ tag' a' i h2
      have := hi2.regLt tag i r1'
      omega
  · rintro rfl
    rw [r2] at r3
    exact Option.some.inj r3

/-- **C83** Constructing a variable again returns the existing object and changes nothing: neither the settings nor the value nor
anything else, whatever the new arguments are (out of bounds or not callable included). -/
theorem C83_again (s : St) (tag : Tag) (i : Nat) (o : Var) (hr : s.reg tag = some i) (ho : s.obj i = some o) (a : Args) :
    construct s tag a = (.ok i, s) := by
  unfold construct initVar
  simp only [hr, ho]

/-- **C83** A construction whose initial value is out of bounds can be repeated: it leaves an object without attributes, which the
next construction fills as if nothing had happened. -/
theorem C83_retry (s : St) (hi : Inv s) (tag : Tag) (hr : s.reg tag = none) (a a' : Args) (hb : a.initial < a.lower ∨ a.upper < a.initial)
    (hb' : a'.lower ≤ a'.initial ∧ a'.initial ≤ a'.upper) (hc : a'.constraint = .none) (hd : a'.depends = []) :
    (construct s tag a).1 = .error .valueError ∧ (construct (construct s tag a).2 tag a').1 = .ok s.nobj ∧
    value (construct (construct s tag a).2 tag a').2 s.nobj = .ok a'.initial := by
  have hn : s.obj s.nobj = none := by
    cases ho : s.obj s.nobj with
    | none => rfl
    | some o =>
      obtain ⟨t, ht⟩ := hi.objReg _ _ ho
      have := hi.regLt t _ ht
      omega
  have e1 : construct s tag a = (.error .valueError, { s with reg := Function.update s.reg tag (some s.nobj), nobj := s.nobj + 1 }) := by
    unfold construct initVar
    simp only [hr, hn]
    rw [if_neg]
    rintro ⟨h1, h2⟩
    rcases hb with h | h <;> linarith
  rw [e1]
  refine ⟨rfl, ?_⟩
  unfold construct initVar
  simp only [Function.update_self, hn, hc, hd, if_pos hb', finishInit, depArgs, List.mapIdx_nil, newParams, paramsLoop, List.map_nil,
    List.nodup_nil, if_true, putObj_obj, value]
  simp

/-- **C83** (finding) A construction with a `constraint` that is not callable leaves an object behind that looks finished but cannot
be read: the next `Variable(tag, ...)` returns it without complaint, reading its value fails, a new assignment to it is accepted as
long as no parameter set uses it, and no parameter set can use it. -/
theorem C83_broken (s : St) (hi : Inv s) (tag : Tag) (hr : s.reg tag = none) (a a' : Args) (hb : a.lower ≤ a.initial ∧ a.initial ≤ a.upper)
    (hc : a.constraint = .notCallable) (x : ℝ) (hx : a.lower ≤ x ∧ x ≤ a.upper) (k : Key) :
    let s1 := (construct s tag a).2
    (construct s tag a).1 = .error .valueError ∧ construct s1 tag a' = (.ok s.nobj, s1) ∧
    value s1 s.nobj = .error .attributeError ∧ constrained s1 s.nobj = .error .attributeError ∧
    (setValue s1 s.nobj x).1 = .ok () ∧ (newParams s1 [(k, .var s.nobj)]).1 = .error .attributeError := by
  have hn : s.obj s.nobj = none := by
    cases ho : s.obj s.nobj with
    | none => rfl
    | some o =>
      obtain ⟨t, ht⟩ := hi.objReg _ _ ho
      have := hi.regLt t _ ht
      omega
  have e1 : construct s tag a = (.error .valueError,
      putObj { s with reg := Function.update s.reg tag (some s.nobj), nobj := s.nobj + 1 } s.nobj
        ⟨a.initial, a.lower, a.upper, a.scale, [], none, none⟩) := by
    unfold construct initVar
    simp only [hr, hn, hc, if_pos hb]
  intro s1
  have hs1 : s1 = putObj { s with reg := Function.update s.reg tag (some s.nobj), nobj := s.nobj + 1 } s.nobj
        ⟨a.initial, a.lower, a.upper, a.scale, [], none, none⟩ := by
    show (construct s tag a).2 = _
    rw [e1]
  have ho : s1.obj s.nobj = some ⟨a.initial, a.lower, a.upper, a.scale, [], none, none⟩ := by rw [hs1, putObj_obj, if_pos rfl]
  refine ⟨by rw [e1], C83_again s1 tag s.nobj _ ?_ ho a', ?_, ?_, ?_, ?_⟩
  · rw [hs1]
    unfold putObj
    simp
  · unfold value
    rw [ho]
  · unfold constrained
    rw [ho]
  · unfold setValue
    rw [ho]
    simp only [if_pos hx, sync, putObj_obj, if_true, syncLoop]
  · unfold newParams paramsLoop
    simp only [ho, value, putObj_obj, if_true, List.map_cons, List.map_nil, List.nodup_cons, List.not_mem_nil, not_false_eq_true,
      List.nodup_nil, and_self]

/-! ## C84 -/

/-- `i` feeds the constraint of `j`: some entry of the private set of `j` is registered for `i` -/
def Feeds (s : St) (i j : Nat) : Prop :=
  ∃ oi oj p k, s.obj i = some oi ∧ s.obj j = some oj ∧ oj.deps = some p ∧ (p, k) ∈ oi.subs

/-- everything registered for object `i` holds its current value times its scale -/
def UpToDate (s : St) (i : Nat) : Prop :=
  ∃ o v, s.obj i = some o ∧ value s i = .ok v ∧ ∀ p k, (p, k) ∈ o.subs → get? (s.par p) k = some (v * o.scale)

/-- the value can be read -/
def Readable (s : St) (i : Nat) : Prop := ∃ v, value s i = .ok v

theorem readable_congr {s s' : St} (h : s'.obj = s.obj) (i : Nat) (hr : Readable s i) : Readable s' i := by
  obtain ⟨v, hv⟩ := hr
  unfold value at hv
  unfold Readable value
  rw [h]
  cases ho : s.obj i with
  | none => rw [ho] at hv; cases hv
  | some o =>
    simp only [ho] at hv ⊢
    cases hc : o.compute with
    | none => rw [hc] at hv; cases hv
    | some c =>
      rw [hc] at hv
      cases c with
      | none => exact ⟨_, rfl⟩
      | some f =>
        cases hd : o.deps with
        | none => rw [hd] at hv; cases hv
        | some p => exact ⟨_, rfl⟩

theorem feeds_congr {s s' : St} (h : s'.obj = s.obj) (i j : Nat) : Feeds s' i j ↔ Feeds s i j := by
  unfold Feeds
  rw [h]

/-- refreshing `i` does not spoil `j` unless `i` feeds `j` -/
theorem upToDate_sync {s : St} (hi : Inv s) (i j : Nat) (hr : Readable s i) (hj : UpToDate s j) (hf : ¬ Feeds s i j) :
    UpToDate (sync s i).2 j := by
  obtain ⟨v, hv⟩ := hr
  cases hoi : s.obj i with
  | none => unfold value at hv; rw [hoi] at hv; cases hv
  | some oi =>
    obtain ⟨_, h2, h3, h4⟩ := sync_get hi i oi hoi v hv
    obtain ⟨o, w, ho, hw, hall⟩ := hj
    have hval : value (sync s i).2 j = .ok w := by
      rw [← hw]
      refine value_congr (o := o) (o' := o) ho (by rw [(sync_objs s i).obj, ho]) rfl rfl rfl (fun p hp => ?_)
      apply h4
      intro k hk
      exact hf ⟨oi, o, p, k, hoi, ho, hp, hk⟩
    refine ⟨o, w, by rw [(sync_objs s i).obj, ho], hval, fun p k hk => ?_⟩
    by_cases hm : (p, k) ∈ oi.subs
    · have : j = i := hi.uniq j o i oi p k ho hoi hk hm
      subst this
      rw [hoi] at ho
      cases ho
      rw [hv] at hw
      cases hw
      exact h2 p k hm
    · rw [h3 p k hm]
      exact hall p k hk

theorem sync_upToDate {s : St} (hi : Inv s) (i : Nat) (hr : Readable s i) :
    (sync s i).1 = .ok () ∧ UpToDate (sync s i).2 i := by
  obtain ⟨v, hv⟩ := hr
  cases hoi : s.obj i with
  | none => unfold value at hv; rw [hoi] at hv; cases hv
  | some oi =>
    obtain ⟨h1, h2, h3, h4⟩ := sync_get hi i oi hoi v hv
    refine ⟨h1, oi, v, by rw [(sync_objs s i).obj, hoi], ?_, h2⟩
    rw [← hv]
    refine value_congr (o := oi) (o' := oi) hoi (by rw [(sync_objs s i).obj, hoi]) rfl rfl rfl (fun p hp => ?_)
    apply h4
    intro k
    exact hi.noSelf i oi p k hoi hp

/-- **C84** (the refreshing loop) When no constrained variable feeds one listed before it, then after the loop every listed variable
is up to date, and so is every other variable that was before and is not fed by a listed one. -/
theorem C84_refresh : ∀ (ders : List Nat) (s : St), Inv s → (∀ i ∈ ders, Readable s i) →
    ders.Pairwise (fun i j => ¬ Feeds s j i) →
    (refreshLoop ders s).1 = .ok () ∧ Inv (refreshLoop ders s).2 ∧ (refreshLoop ders s).2.obj = s.obj ∧
    (∀ j, (j ∈ ders ∨ UpToDate s j) → (∀ i ∈ ders, j ∉ ders → ¬ Feeds s i j) → UpToDate (refreshLoop ders s).2 j)
  | [], s, hi, _, _ => ⟨rfl, hi, rfl, fun j h _ => by
      rcases h with h | h
      · cases h
      · exact h⟩
  | i :: rest, s, hi, hr, hp => by
    obtain ⟨h1, h2⟩ := sync_upToDate hi i (hr i List.mem_cons_self)
    have hob := (sync_objs s i).obj
    have hi' := inv_sync hi i
    rw [List.pairwise_cons] at hp
    have ih := C84_refresh rest (sync s i).2 hi' (fun j hj => readable_congr hob j (hr j (List.mem_cons_of_mem _ hj)))
      (hp.2.imp (fun h => by rw [feeds_congr hob]; exact h))
    obtain ⟨g1, g2, g3, g4⟩ := ih
    have e : refreshLoop (i :: rest) s = refreshLoop rest (sync s i).2 := by
      conv_lhs => unfold refreshLoop
      cases hsy : sync s i with
      | mk r s1 =>
        rw [hsy] at h1
        simp only at h1
        rw [h1]
    rw [e]
    refine ⟨g1, g2, g3.trans hob, fun j hj hf => ?_⟩
    by_cases hjr : j ∈ rest
    · exact g4 j (.inl hjr) (fun k _ hn => absurd hjr hn)
    · apply g4 j
      · right
        by_cases hji : j = i
        · rw [hji]; exact h2
        · rcases hj with hj | hj
          · rcases List.mem_cons.mp hj with hj | hj
            · exact absurd hj hji
            · exact absurd hj hjr
          · apply upToDate_sync hi i j (hr i List.mem_cons_self) hj
            apply hf i List.mem_cons_self
            intro hm
            rcases List.mem_cons.mp hm with hm | hm
            · exact hji hm
            · exact hjr hm
      · intro k hk _
        rw [feeds_congr hob]
        by_cases hji : j = i
        · rw [hji]
          exact hp.1 k hk
        · apply hf k (List.mem_cons_of_mem _ hk)
          intro hm
          rcases List.mem_cons.mp hm with hm | hm
          · exact hji hm
          · exact hjr hm

/-- an unconstrained variable -/
def Free (s : St) (i : Nat) : Prop := ∃ o, s.obj i = some o ∧ o.compute = some none

/-- all keys registered for a variable exist (the parameter sets were completed) -/
def Complete (s : St) (i : Nat) : Prop := ∀ o p k, s.obj i = some o → (p, k) ∈ o.subs → (get? (s.par p) k).isSome

theorem assign_shape (s : St) (i : Nat) (x : ℝ) (j : Nat) :
    (setValue s i x).2.obj j = s.obj j ∨
      ∃ o, s.obj j = some o ∧ j = i ∧ (setValue s i x).2.obj j = some { o with value := x } := by
  unfold setValue
  cases ho : s.obj i with
  | none => exact .inl rfl
  | some o =>
    simp only
    split_ifs
    · rw [(sync_objs _ i).obj, putObj_obj]
      by_cases hj : j = i
      · subst hj
        exact .inr ⟨o, ho, rfl, by rw [if_pos rfl]⟩
      · exact .inl (by rw [if_neg hj])
    · exact .inl rfl

/-- assignments leave everything but values alone -/
theorem assignLoop_shape : ∀ (l : List (Nat × ℝ)) (s : St) (j : Nat),
    match s.obj j with
    | none => (assignLoop l s).2.obj j = none
    | some o => ∃ x, (assignLoop l s).2.obj j = some { o with value := x } ∧ (j ∉ l.map Prod.fst → x = o.value)
  | [], s, j => by
    cases ho : s.obj j with
    | none => exact ho
    | some o => exact ⟨o.value, ho, fun _ => rfl⟩
  | (i, x) :: rest, s, j => by
    have hs := assign_shape s i x j
    unfold assignLoop
    cases hsv : setValue s i x with
    | mk r s1 =>
      rw [hsv] at hs
      simp only at hs
      have ih := assignLoop_shape rest s1 j
      cases ho : s.obj j with
      | none =>
        have h1 : s1.obj j = none := by
          rcases hs with h | ⟨o, h, _⟩
          · rw [h, ho]
          · rw [ho] at h; cases h
        rw [h1] at ih
        cases r with
        | error e => exact h1
        | ok u => exact ih
      | some o =>
        have h1 : ∃ y, s1.obj j = some { o with value := y } ∧ (j ≠ i → y = o.value) := by
          rcases hs with h | ⟨o', h, hji, h2⟩
          · exact ⟨o.value, by rw [h, ho], fun _ => rfl⟩
          · rw [ho] at h
            cases h
            exact ⟨x, h2, fun hne => absurd hji hne⟩
        obtain ⟨y, h1, hy⟩ := h1
        rw [h1] at ih
        cases r with
        | error e => exact ⟨y, h1, fun hn => hy (fun h => hn (by rw [h]; simp))⟩
        | ok u =>
          obtain ⟨z, hz, hz'⟩ := ih
          refine ⟨z, hz, fun hn => ?_⟩
          simp only [List.map_cons, List.mem_cons, not_or] at hn
          rw [hz' hn.2]
          exact hy hn.1

theorem assignLoop_inv : ∀ (l : List (Nat × ℝ)) (s : St), Inv s → Synced s →
    Inv (assignLoop l s).2 ∧ Synced (assignLoop l s).2 ∧ Grows s (assignLoop l s).2
  | [], s, hi, hs => ⟨hi, hs, grows_refl s⟩
  | (i, x) :: rest, s, hi, hs => by
    have h1 := inv_setValue hi i x
    have h2 := synced_setValue hi hs i x
    have h3 := grows_setValue s i x
    unfold assignLoop
    cases hsv : setValue s i x with
    | mk r s1 =>
      rw [hsv] at h1 h2 h3
      cases r with
      | error e => exact ⟨h1, h2, h3⟩
      | ok u =>
        obtain ⟨g1, g2, g3⟩ := assignLoop_inv rest s1 h1 h2
        exact ⟨g1, g2, grows_trans h3 g3⟩

/-- **C84** (the number of values) A wrong number of values is rejected before anything is changed. -/
theorem C84_count (vars ders : List Nat) (args : List ℝ) (s : St) (h : args.length ≠ vars.length) :
    cal vars ders args s = (.error .valueError, s) := by
  unfold cal
  rw [if_pos h]

/-- **C84** One evaluation of the fit function: when the values are accepted and no listed constrained variable feeds one listed
before it, then after the call every free variable of the program and every listed constrained variable is up to date - its
current value times its scale is what every parameter set built from it holds, and what the constraints of others are computed
from. -/
theorem C84_consistent (vars ders : List Nat) (args : List ℝ) (s : St) (h : Steps false St.init s)
    (hl : args.length = vars.length) (hok : (assignLoop (vars.zip args) s).1 = .ok ())
    (hr : ∀ i ∈ ders, Readable s i) (hp : ders.Pairwise (fun i j => ¬ Feeds s j i)) :
    (cal vars ders args s).1 = .ok () ∧
    (∀ i ∈ ders, UpToDate (cal vars ders args s).2 i) ∧
    (∀ i, Free s i → Complete s i → UpToDate (cal vars ders args s).2 i) := by
  have hi := steps_inv h inv_init.1
  have hs := steps_synced h inv_init.1 inv_init.2
  obtain ⟨a1, a2, a3⟩ := assignLoop_inv (vars.zip args) s hi hs
  have shape := assignLoop_shape (vars.zip args) s
  have e : cal vars ders args s = refreshLoop ders (assignLoop (vars.zip args) s).2 := by
    unfold cal
    rw [if_neg (by simpa using hl)]
    cases ha : assignLoop (vars.zip args) s with
    | mk r s1 =>
      rw [ha] at hok
      simp only at hok
      rw [hok]
  set s1 := (assignLoop (vars.zip args) s).2 with hs1
  have hfe : ∀ i j, Feeds s1 i j → Feeds s i j := by
    rintro i j ⟨oi, oj, p, k, hoi, hoj, hd, hk⟩
    have si := shape i
    have sj := shape j
    cases h1 : s.obj i with
    | none => rw [h1] at si; rw [si] at hoi; cases hoi
    | some o1 =>
      rw [h1] at si
      obtain ⟨x, hx, _⟩ := si
      rw [hx] at hoi
      cases hoi
      cases h2 : s.obj j with
      | none => rw [h2] at sj; rw [sj] at hoj; cases hoj
      | some o2 =>
        rw [h2] at sj
        obtain ⟨y, hy, _⟩ := sj
        rw [hy] at hoj
        cases hoj
        exact ⟨o1, o2, p, k, h1, h2, hd, hk⟩
  have hre : ∀ i, Readable s i → Readable s1 i := by
    rintro i ⟨v, hv⟩
    have si := shape i
    cases h1 : s.obj i with
    | none => unfold value at hv; rw [h1] at hv; cases hv
    | some o1 =>
      rw [h1] at si
      obtain ⟨x, hx, _⟩ := si
      unfold value at hv
      simp only [h1] at hv
      unfold Readable value
      simp only [hx]
      cases hc : o1.compute with
      | none => rw [hc] at hv; cases hv
      | some c =>
        rw [hc] at hv
        cases c with
        | none => exact ⟨_, rfl⟩
        | some f =>
          cases hd : o1.deps with
          | none => rw [hd] at hv; cases hv
          | some p => exact ⟨_, rfl⟩
  have hpw : ders.Pairwise (fun i j => ¬ Feeds s1 j i) := hp.imp (fun hn hf => hn (hfe _ _ hf))
  obtain ⟨g1, g2, g3, g4⟩ := C84_refresh ders s1 a1 (fun i hi' => hre i (hr i hi')) hpw
  rw [e]
  refine ⟨g1, fun i hi' => g4 i (.inl hi') (fun _ _ hn => absurd hi' hn), fun i hfree hcomp => ?_⟩
  by_cases hmem : i ∈ ders
  · exact g4 i (.inl hmem) (fun _ _ hn => absurd hmem hn)
  · obtain ⟨o, ho, hc⟩ := hfree
    have si := shape i
    rw [ho] at si
    obtain ⟨x, hx, _⟩ := si
    -- a free variable is up to date after the assignments
    have hup : UpToDate s1 i := by
      refine ⟨_, x, hx, value_free hx hc, fun p k hk => ?_⟩
      have hk0 : (p, k) ∈ o.subs := hk
      have hkey := a3.2.1 p k (hi.subsLt i o p k ho hk0) (hcomp o p k ho hk0)
      rcases a2 i _ p k hx hc hk with h0 | h0
      · rw [h0] at hkey; cases hkey
      · exact h0
    -- refreshing others never touches its entries, and it has no constraint
    have hobj : (refreshLoop ders s1).2.obj i = some { o with value := x } := by rw [g3, hx]
    have keep : ∀ (l : List Nat) (t : St), Inv t → (∀ j ∈ l, Readable t j) → t.obj i = some { o with value := x } → i ∉ l →
        ∀ p k, (p, k) ∈ o.subs → get? ((refreshLoop l t).2.par p) k = get? (t.par p) k := by
      intro l
      induction l with
      | nil => intros; rfl
      | cons j l ih =>
        intro t ht hrl hot hni p k hk
        have hji : j ≠ i := fun hh => hni (by rw [hh]; exact List.mem_cons_self)
        obtain ⟨v, hv⟩ := hrl j List.mem_cons_self
        cases hoj : t.obj j with
        | none => unfold value at hv; rw [hoj] at hv; cases hv
        | some oj =>
          obtain ⟨b1, b2, b3, b4⟩ := sync_get ht j oj hoj v hv
          have hnm : (p, k) ∉ oj.subs := fun hm => hji (ht.uniq j oj i _ p k hoj hot hm hk)
          have e2 : refreshLoop (j :: l) t = refreshLoop l (sync t j).2 := by
            conv_lhs => unfold refreshLoop
            cases hsy : sync t j with
            | mk r s2 =>
              rw [hsy] at b1
              simp only at b1
              rw [b1]
          have hob := (sync_objs t j).obj
          rw [e2, ih (sync t j).2 (inv_sync ht j) (fun q hq => readable_congr hob q (hrl q (List.mem_cons_of_mem _ hq)))
            (by rw [hob, hot]) (fun hm => hni (List.mem_cons_of_mem _ hm)) p k hk]
          exact b3 p k hnm
    obtain ⟨o1, v1, ho1, hv1, hall⟩ := hup
    rw [hx] at ho1
    cases ho1
    rw [value_free hx hc] at hv1
    cases hv1
    refine ⟨_, x, hobj, value_free hobj hc, fun p k hk => ?_⟩
    rw [keep ders s1 a1 (fun j hj => hre j (hr j hj)) hx hmem p k hk]
    exact hall p k hk

/-- **C84** (finding) Values are assigned one after another: when a later one is out of bounds the earlier ones have already been
changed. -/
theorem C84_earlier_changed (s : St) (i j : Nat) (oi oj : Var) (hij : i ≠ j) (hi : s.obj i = some oi) (hj : s.obj j = some oj)
    (hnf : oi.subs = []) (x y : ℝ) (hx : oi.lower ≤ x ∧ x ≤ oi.upper) (hy : y < oj.lower) (ders : List Nat) :
    (cal [i, j] ders [x, y] s).1 = .error .valueError ∧
    (cal [i, j] ders [x, y] s).2.obj i = some { oi with value := x } := by
  have e1 : setValue s i x = (.ok (), putObj s i { oi with value := x }) := by
    unfold setValue
    rw [hi]
    simp only [if_pos hx, sync, putObj_obj, if_true, hnf, syncLoop]
  have hj' : (putObj s i { oi with value := x }).obj j = some oj := by rw [putObj_obj, if_neg (Ne.symm hij), hj]
  have e2 := (C82_rejected (putObj s i { oi with value := x }) j oj hj' y).1 (.inl hy)
  unfold cal
  simp only [List.length_cons, List.length_nil, ne_eq, not_true_eq_false, if_false, List.zip_cons_cons, List.zip_nil_right,
    assignLoop, e1, e2, putObj_obj, if_true]
  exact ⟨trivial, trivial⟩

/-- **C84** `fit` sorts the given variables into free and constrained ones, keeping their order. -/
theorem C84_partition (s : St) : ∀ (l v d : List Nat), partitionVars s l = .ok (v, d) →
    v = l.filter (fun i => constrained s i == .ok false) ∧ d = l.filter (fun i => constrained s i == .ok true)
  | [], v, d, h => by cases h; exact ⟨rfl, rfl⟩
  | i :: rest, v, d, h => by
    unfold partitionVars at h
    cases hc : constrained s i with
    | error e => rw [hc] at h; cases h
    | ok c =>
      rw [hc] at h
      cases hp : partitionVars s rest with
      | error e => rw [hp] at h; cases h
      | ok q =>
        obtain ⟨v', d'⟩ := q
        rw [hp] at h
        obtain ⟨h1, h2⟩ := C84_partition s rest v' d' hp
        simp only [bind, Except.bind, pure, Except.pure] at h
        rw [List.filter_cons, List.filter_cons, hc]
        cases c with
        | true =>
          cases h
          exact ⟨by rw [if_neg (by decide)]; exact h1, by rw [if_pos (by decide), h2]⟩
        | false =>
          cases h
          exact ⟨by rw [if_pos (by decide), h1], by rw [if_neg (by decide)]; exact h2⟩

/-! ## The example of the documentation -/

/-- `A = Variable('A', 10)`, `B = Variable('B', constraint=lambda x: x*2, depends=(A,))`,
`C = Variable('C', constraint=lambda x, y: x+y, depends=(A, B))` -/
noncomputable def doc1 : St := (construct St.init ['A'] { initial := 10 }).2
noncomputable def doc2 : St :=
  (construct doc1 ['B'] { constraint := .fn fun l => l.getD 0 0 * 2, depends := [.var 0] }).2
noncomputable def doc3 : St :=
  (construct doc2 ['C'] { constraint := .fn fun l => l.getD 0 0 + l.getD 1 0, depends := [.var 0, .var 1] }).2

theorem doc1_eq : doc1 = ⟨Function.update (fun _ => none) ['A'] (some 0), 1,
    Function.update (fun _ => none) 0 (some ⟨10, 0, 1000, 1, [], some none, some 0⟩), 1, fun _ => []⟩ := by
  have h : (0 : ℝ) ≤ 10 ∧ (10 : ℝ) ≤ 1000 := by norm_num
  unfold doc1 construct initVar finishInit newParams
  simp only [St.init, if_pos h, depArgs, List.mapIdx_nil, List.map_nil, List.nodup_nil, if_true, paramsLoop, putObj, Function.update_self,
    Function.update_idem]
  congr 1
  · funext p
    by_cases hp : p = 0 <;> simp [Function.update_apply, hp]

/-- the constraint of `B` -/
noncomputable def docB : List ℝ → ℝ := fun l => l.getD 0 0 * 2
/-- the constraint of `C` -/
noncomputable def docC : List ℝ → ℝ := fun l => l.getD 0 0 + l.getD 1 0

theorem doc2_eq : doc2 = ⟨Function.update (Function.update (fun _ => none) ['A'] (some 0)) ['B'] (some 1), 2,
    Function.update (Function.update (fun _ => none) 0 (some ⟨10, 0, 1000, 1, [(1, .dep ['B'] 0)], some none, some 0⟩)) 1
      (some ⟨1, 0, 1000, 1, [], some (some docB), some 1⟩), 2,
    Function.update (fun _ => []) 1 [(.dep ['B'] 0, 10)]⟩ := by
  have h : (0 : ℝ) ≤ 1 ∧ (1 : ℝ) ≤ 1000 := by norm_num
  have hn : (['B'] : Tag) ≠ ['A'] := by decide
  unfold doc2
  rw [doc1_eq]
  unfold construct initVar finishInit newParams
  simp [depArgs, paramsLoop, putObj, value, Function.update_apply]
  funext p
  by_cases h0 : p = 0 <;> by_cases h1 : p = 1 <;> simp [h0, h1, Function.update_apply]
  funext l
  simp [docB]

theorem doc3_eq : doc3 = ⟨Function.update (Function.update (Function.update (fun _ => none) ['A'] (some 0)) ['B'] (some 1)) ['C'] (some 2), 3,
    Function.update (Function.update (Function.update (fun _ => none)
      0 (some ⟨10, 0, 1000, 1, [(1, .dep ['B'] 0), (2, .dep ['C'] 0)], some none, some 0⟩))
      1 (some ⟨1, 0, 1000, 1, [(2, .dep ['C'] 1)], some (some docB), some 1⟩))
      2 (some ⟨1, 0, 1000, 1, [], some (some docC), some 2⟩), 3,
    Function.update (Function.update (fun _ => []) 1 [(.dep ['B'] 0, 10)]) 2 [(.dep ['C'] 0, 10), (.dep ['C'] 1, 20)]⟩ := by
  have h : (0 : ℝ) ≤ 1 ∧ (1 : ℝ) ≤ 1000 := by norm_num
  unfold doc3
  rw [doc2_eq]
  unfold construct initVar finishInit newParams
  simp [depArgs, paramsLoop, putObj, value, Function.update_apply, docB]
  constructor
  · funext p
    by_cases h0 : p = 0 <;> by_cases h1 : p = 1 <;> by_cases h2 : p = 2 <;> simp [h0, h1, h2, Function.update_apply]
    funext l
    simp [docC]
  · norm_num

/-- the state after `A.value = 20` -/
noncomputable def doc4 : St := (setValue doc3 0 20).2

/-- **C84** The example of the documentation: after `A.value = 20` the values are 20, 40 and 40 (the chained variable is stale),
after `B.sync()` they are 20, 40 and 60; and one evaluation with the constrained variables in order does both. -/
theorem C84_doc :
    Steps false St.init doc3 ∧
    (value doc3 0 = .ok 10 ∧ value doc3 1 = .ok 20 ∧ value doc3 2 = .ok 30) ∧
    (setValue doc3 0 20).1 = .ok () ∧ (value doc4 0 = .ok 20 ∧ value doc4 1 = .ok 40 ∧ value doc4 2 = .ok 40) ∧
    (value (sync doc4 1).2 0 = .ok 20 ∧ value (sync doc4 1).2 1 = .ok 40 ∧ value (sync doc4 1).2 2 = .ok 60) ∧
    value (cal [0] [1, 2] [20] doc3).2 2 = .ok 60 := by
  have e1 : (20 : ℝ) ≤ 1000 := by norm_num
  refine ⟨?_, ?_, ?_, ?_, ?_, ?_⟩
  · refine .tail (.tail (.tail (.refl _) (.construct _ ['A'] _ ?_)) (.construct _ ['B'] _ ?_)) (.construct _ ['C'] _ ?_)
    · intro i hi; cases hi
    · intro i hi
      simp at hi
      subst hi
      show doc1.obj 0 ≠ none
      rw [doc1_eq]
      simp
    · intro i hi
      simp at hi
      show doc2.obj i ≠ none
      rw [doc2_eq]
      rcases hi with rfl | rfl <;> simp [Function.update_apply]
  · rw [doc3_eq]
    simp [value, Function.update_apply, docB, docC]
    norm_num
  · rw [doc3_eq]
    simp [e1, setValue, sync, syncLoop, putObj, store, value, Function.update_apply, PyDict.set]
  · unfold doc4
    rw [doc3_eq]
    simp [e1, setValue, sync, syncLoop, putObj, store, value, Function.update_apply, PyDict.set, docB, docC]
    norm_num
  · unfold doc4
    rw [doc3_eq]
    simp [e1, setValue, sync, syncLoop, putObj, store, value, Function.update_apply, PyDict.set, docB, docC]
    norm_num
  · rw [doc3_eq]
    simp [e1, cal, assignLoop, refreshLoop, setValue, sync, syncLoop, putObj, store, value, Function.update_apply, PyDict.set, docB, docC]
    norm_num

end TEflow.KappaVar
