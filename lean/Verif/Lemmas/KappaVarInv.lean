import Mathlib.Tactic
import Verif.Lemmas.KappaVar

/-! # Invariants of variables and parameter sets -/

namespace TEflow.KappaVar

open PyDict

/-- what holds in every state of the program, whatever is done (including direct changes of parameter sets) -/
structure Inv (s : St) : Prop where
  regLt : ∀ t i, s.reg t = some i → i < s.nobj
  regInj : ∀ t t' i, s.reg t = some i → s.reg t' = some i → t = t'
  objReg : ∀ i o, s.obj i = some o → ∃ t, s.reg t = some i
  bounds : ∀ i o, s.obj i = some o → o.lower ≤ o.value ∧ o.value ≤ o.upper
  subsLt : ∀ i o p k, s.obj i = some o → (p, k) ∈ o.subs → p < s.npar
  uniq : ∀ i o i' o' p k, s.obj i = some o → s.obj i' = some o' → (p, k) ∈ o.subs → (p, k) ∈ o'.subs → i = i'
  depsLt : ∀ i o p, s.obj i = some o → o.deps = some p → p < s.npar
  noSelf : ∀ i o p k, s.obj i = some o → o.deps = some p → (p, k) ∉ o.subs
  fresh : ∀ p, s.npar ≤ p → s.par p = []

/-- unconstrained variables: no entry registered for them holds anything else than value times scale -/
def Synced (s : St) : Prop :=
  ∀ i o p k, s.obj i = some o → o.compute = some none → (p, k) ∈ o.subs →
    get? (s.par p) k = none ∨ get? (s.par p) k = some (o.value * o.scale)

theorem inv_init : Inv St.init ∧ Synced St.init := by
  refine ⟨⟨?_, ?_, ?_, ?_, ?_, ?_, ?_, ?_, ?_⟩, ?_⟩
  all_goals simp [St.init, Synced]

/-! ## `sync` -/

theorem inv_objs {s s' : St} (h : SameObjs s s') (hp : ∀ p, s.npar ≤ p → s'.par p = s.par p) (hi : Inv s) : Inv s' := by
  obtain ⟨h1, h2, h3, h4⟩ := h
  refine ⟨?_, ?_, ?_, ?_, ?_, ?_, ?_, ?_, ?_⟩
  · rw [h1, h2]; exact hi.regLt
  · rw [h1]; exact hi.regInj
  · rw [h1, h3]; exact hi.objReg
  · rw [h3]; exact hi.bounds
  · rw [h3, h4]; exact hi.subsLt
  · rw [h3]; exact hi.uniq
  · rw [h3, h4]; exact hi.depsLt
  · rw [h3]; exact hi.noSelf
  · rw [h4]
    intro p hp'
    rw [hp p hp', hi.fresh p hp']

theorem sync_objs (s : St) (i : Nat) : SameObjs s (sync s i).2 := by
  unfold sync
  cases s.obj i with
  | none => exact SameObjs.refl s
  | some o => exact syncLoop_objs i o.scale o.subs s

theorem inv_sync {s : St} (hi : Inv s) (i : Nat) : Inv (sync s i).2 := by
  apply inv_objs (sync_objs s i) _ hi
  intro p hp
  unfold sync
  cases ho : s.obj i with
  | none => rfl
  | some o =>
    apply syncLoop_par
    intro k hk
    have := hi.subsLt i o p k ho hk
    omega

/-- `sync` writes the current value to every subscriber of the object and nothing else -/
theorem sync_get {s : St} (hi : Inv s) (i : Nat) (o : Var) (ho : s.obj i = some o) (v : ℝ) (hv : value s i = .ok v) :
    (sync s i).1 = .ok () ∧ (∀ p k, (p, k) ∈ o.subs → get? ((sync s i).2.par p) k = some (v * o.scale)) ∧
    (∀ p k, (p, k) ∉ o.subs → get? ((sync s i).2.par p) k = get? (s.par p) k) ∧
    (∀ p, (∀ k, (p, k) ∉ o.subs) → (sync s i).2.par p = s.par p) := by
  unfold sync
  rw [ho]
  obtain ⟨h1, h2⟩ := syncLoop_ok i o.scale v o o.subs s ho hv (fun p hp k => hi.noSelf i o p k ho hp)
  exact ⟨h1, h2, fun p k h => syncLoop_get i o.scale o.subs s p k h, fun p h => syncLoop_par i o.scale o.subs s p h⟩

theorem value_free {s : St} {i : Nat} {o : Var} (ho : s.obj i = some o) (hc : o.compute = some none) : value s i = .ok o.value := by
  unfold value
  rw [ho]
  simp only [hc]

theorem synced_sync {s : St} (hi : Inv s) (hs : Synced s) (i : Nat) : Synced (sync s i).2 := by
  intro j o p k hj hc hk
  rw [(sync_objs s i).obj] at hj
  cases ho : s.obj i with
  | none =>
    have : (sync s i).2 = s := by unfold sync; rw [ho]
    rw [this]
    exact hs j o p k hj hc hk
  | some oi =>
    cases hv : value s i with
    | error e =>
      have : (sync s i).2 = s := by
        unfold sync
        rw [ho]
        exact syncLoop_error i oi.scale e oi.subs s hv
      rw [this]
      exact hs j o p k hj hc hk
    | ok v =>
      obtain ⟨_, h2, h3, _⟩ := sync_get hi i oi ho v hv
      by_cases hm : (p, k) ∈ oi.subs
      · have : j = i := hi.uniq j o i oi p k hj ho hk hm
        subst this
        rw [hj] at ho
        cases ho
        rw [value_free hj hc] at hv
        cases hv
        right
        exact h2 p k hm
      · rw [h3 p k hm]
        exact hs j o p k hj hc hk

/-! ## Assigning -/

theorem inv_putValue {s : St} (hi : Inv s) {i : Nat} {o : Var} (ho : s.obj i = some o) {x : ℝ} (hx : o.lower ≤ x ∧ x ≤ o.upper) :
    Inv (putObj s i { o with value := x }) := by
  have key : ∀ j o', (putObj s i { o with value := x }).obj j = some o' →
      ∃ o1, s.obj j = some o1 ∧ o'.subs = o1.subs ∧ o'.deps = o1.deps ∧ o'.lower ≤ o'.value ∧ o'.value ≤ o'.upper := by
    intro j o' h
    rw [putObj_obj] at h
    by_cases hj : j = i
    · subst hj
      rw [if_pos rfl] at h
      cases h
      exact ⟨o, ho, rfl, rfl, hx.1, hx.2⟩
    · rw [if_neg hj] at h
      exact ⟨o', h, rfl, rfl, hi.bounds j o' h⟩
  refine ⟨hi.regLt, hi.regInj, ?_, ?_, ?_, ?_, ?_, ?_, hi.fresh⟩
  · intro j o' h
    obtain ⟨o1, h1, _⟩ := key j o' h
    exact hi.objReg j o1 h1
  · intro j o' h
    obtain ⟨o1, _, _, _, h4⟩ := key j o' h
    exact h4
  · intro j o' p k h hk
    obtain ⟨o1, h1, h2, _⟩ := key j o' h
    exact hi.subsLt j o1 p k h1 (h2 ▸ hk)
  · intro j o' j' o'' p k h h' hk hk'
    obtain ⟨o1, h1, h2, _⟩ := key j o' h
    obtain ⟨o2, h1', h2', _⟩ := key j' o'' h'
    exact hi.uniq j o1 j' o2 p k h1 h1' (h2 ▸ hk) (h2' ▸ hk')
  · intro j o' p h hd
    obtain ⟨o1, h1, _, h3, _⟩ := key j o' h
    exact hi.depsLt j o1 p h1 (h3 ▸ hd)
  · intro j o' p k h hd
    obtain ⟨o1, h1, h2, h3, _⟩ := key j o' h
    rw [h2]
    exact hi.noSelf j o1 p k h1 (h3 ▸ hd)

theorem inv_setValue {s : St} (hi : Inv s) (i : Nat) (x : ℝ) : Inv (setValue s i x).2 := by
  unfold setValue
  cases ho : s.obj i with
  | none => exact hi
  | some o =>
    simp only
    split_ifs with h
    · exact inv_sync (inv_putValue hi ho h) i
    · exact hi

theorem synced_setValue {s : St} (hi : Inv s) (hs : Synced s) (i : Nat) (x : ℝ) : Synced (setValue s i x).2 := by
  unfold setValue
  cases ho : s.obj i with
  | none => exact hs
  | some o =>
    simp only
    split_ifs with h
    · have hi' := inv_putValue hi ho h
      have ho' : (putObj s i { o with value := x }).obj i = some { o with value := x } := by rw [putObj_obj, if_pos rfl]
      intro j oj p k hj hc hk
      rw [(sync_objs _ i).obj] at hj
      by_cases hji : j = i
      · subst hji
        rw [ho'] at hj
        cases hj
        have hv := value_free ho' hc
        obtain ⟨_, h2, _⟩ := sync_get hi' j _ ho' _ hv
        right
        exact h2 p k hk
      · have hnm : (p, k) ∉ o.subs := fun hm => hji (hi'.uniq j oj i _ p k hj ho' hk hm)
        have hj0 : s.obj j = some oj := by rwa [putObj_obj, if_neg hji] at hj
        have e : get? ((sync (putObj s i { o with value := x }) i).2.par p) k = get? (s.par p) k := by
          unfold sync
          rw [ho']
          exact syncLoop_get i _ _ _ p k hnm
        rw [e]
        exact hs j oj p k hj0 hc hk
    · exact hs

/-! ## `Parameters` -/

/-- what `newParams` does to the objects -/
theorem newParams_effect (s : St) (args : List (Key × Arg)) :
    let s' := (newParams s args).2
    s'.reg = s.reg ∧ s'.nobj = s.nobj ∧ s.npar ≤ s'.npar ∧ (∀ p, p ≠ s.npar → s'.par p = s.par p) ∧
    (∀ j, s.obj j = none → s'.obj j = none) ∧
    (∀ j o, s.obj j = some o → ∃ l, s'.obj j = some { o with subs := o.subs ++ l } ∧
      ∀ q ∈ l, q.1 = s.npar ∧ s'.npar = s.npar + 1 ∧ (args.map Prod.fst).Nodup ∧ (q.2, Arg.var j) ∈ args) := by
  unfold newParams
  split_ifs with hn
  · obtain ⟨a1, a2, a3, a4⟩ := paramsLoop_same s.npar args [] { s with npar := s.npar + 1 }
    have hnone := paramsLoop_none s.npar args [] { s with npar := s.npar + 1 }
    have hobj := paramsLoop_obj s.npar args [] { s with npar := s.npar + 1 }
    cases hr : paramsLoop s.npar args [] { s with npar := s.npar + 1 } with
    | mk r s1 =>
      rw [hr] at a1 a2 a3 a4 hnone hobj
      cases r with
      | error e =>
        refine ⟨a1, a2, ?_, fun p _ => by rw [a4], hnone, fun j o h => ?_⟩
        · rw [a3]; exact Nat.le_succ _
        · obtain ⟨l, h1, h2⟩ := hobj j o h
          exact ⟨l, h1, fun q hq => ⟨(h2 q hq).1, a3, hn, (h2 q hq).2⟩⟩
      | ok d =>
        refine ⟨a1, a2, ?_, fun p hp => ?_, hnone, fun j o h => ?_⟩
        · simp only
          rw [a3]; exact Nat.le_succ _
        · simp only
          rw [Function.update_of_ne hp, a4]
        · obtain ⟨l, h1, h2⟩ := hobj j o h
          exact ⟨l, h1, fun q hq => ⟨(h2 q hq).1, a3, hn, (h2 q hq).2⟩⟩
  · exact ⟨rfl, rfl, le_refl _, fun _ _ => rfl, fun _ h => h, fun j o h => ⟨[], by rw [List.append_nil]; exact h, fun q hq => (by cases hq)⟩⟩

theorem nodup_arg {args : List (Key × Arg)} (h : (args.map Prod.fst).Nodup) {k : Key} {a b : Arg} (ha : (k, a) ∈ args)
    (hb : (k, b) ∈ args) : a = b := by
  induction args with
  | nil => cases ha
  | cons q rest ih =>
    rw [List.map_cons, List.nodup_cons] at h
    rcases List.mem_cons.mp ha with h1 | h1 <;> rcases List.mem_cons.mp hb with h2 | h2
    · rw [← h1] at h2
      exact ((Prod.mk.inj h2).2).symm
    · exact absurd (List.mem_map.mpr ⟨_, h2, by rw [← h1]⟩) h.1
    · exact absurd (List.mem_map.mpr ⟨_, h1, by rw [← h2]⟩) h.1
    · exact ih h.2 h1 h2

theorem inv_newParams {s : St} (hi : Inv s) (args : List (Key × Arg)) : Inv (newParams s args).2 := by
  obtain ⟨a1, a2, a3, a4, a5, a6⟩ := newParams_effect s args
  set s' := (newParams s args).2
  have back : ∀ j o', s'.obj j = some o' → ∃ o l, s.obj j = some o ∧ o' = { o with subs := o.subs ++ l } ∧
      ∀ q ∈ l, q.1 = s.npar ∧ s'.npar = s.npar + 1 ∧ (args.map Prod.fst).Nodup ∧ (q.2, Arg.var j) ∈ args := by
    intro j o' h
    cases ho : s.obj j with
    | none => rw [a5 j ho] at h; cases h
    | some o =>
      obtain ⟨l, h1, h2⟩ := a6 j o ho
      rw [h1] at h
      cases h
      exact ⟨o, l, rfl, rfl, h2⟩
  refine ⟨?_, ?_, ?_, ?_, ?_, ?_, ?_, ?_, ?_⟩
  · rw [a1, a2]; exact hi.regLt
  · rw [a1]; exact hi.regInj
  · intro j o' h
    obtain ⟨o, l, ho, _, _⟩ := back j o' h
    rw [a1]
    exact hi.objReg j o ho
  · intro j o' h
    obtain ⟨o, l, ho, rfl, _⟩ := back j o' h
    exact hi.bounds j o ho
  · intro j o' p k h hk
    obtain ⟨o, l, ho, rfl, hl⟩ := back j o' h
    rcases List.mem_append.mp hk with hk | hk
    · exact lt_of_lt_of_le (hi.subsLt j o p k ho hk) a3
    · obtain ⟨h1, h2, _⟩ := hl _ hk
      simp only at h1
      omega
  · intro j o' j' o'' p k h h' hk hk'
    obtain ⟨o, l, ho, rfl, hl⟩ := back j o' h
    obtain ⟨o1, l1, ho1, rfl, hl1⟩ := back j' o'' h'
    rcases List.mem_append.mp hk with hk | hk <;> rcases List.mem_append.mp hk' with hk' | hk'
    · exact hi.uniq j o j' o1 p k ho ho1 hk hk'
    · have := hi.subsLt j o p k ho hk
      have := (hl1 _ hk').1
      simp only at this
      omega
    · have := hi.subsLt j' o1 p k ho1 hk'
      have := (hl _ hk).1
      simp only at this
      omega
    · obtain ⟨_, _, hn, m1⟩ := hl _ hk
      obtain ⟨_, _, _, m2⟩ := hl1 _ hk'
      have := nodup_arg hn m1 m2
      cases this
      rfl
  · intro j o' p h hd
    obtain ⟨o, l, ho, rfl, _⟩ := back j o' h
    exact lt_of_lt_of_le (hi.depsLt j o p ho hd) a3
  · intro j o' p k h hd hk
    obtain ⟨o, l, ho, rfl, hl⟩ := back j o' h
    rcases List.mem_append.mp hk with hk | hk
    · exact hi.noSelf j o p k ho hd hk
    · have := hi.depsLt j o p ho hd
      have := (hl _ hk).1
      simp only at this
      omega
  · intro p hp
    by_cases hps : p = s.npar
    · -- the fresh number is used up unless the call failed at once
      have : s'.npar = s.npar := by omega
      have e : s' = s := by
        show (newParams s args).2 = s
        have hnpar : (newParams s args).2.npar = s.npar := this
        unfold newParams at hnpar ⊢
        split_ifs with hn
        · exfalso
          rw [if_pos hn] at hnpar
          obtain ⟨_, _, b3, _⟩ := paramsLoop_same s.npar args [] { s with npar := s.npar + 1 }
          cases hr : paramsLoop s.npar args [] { s with npar := s.npar + 1 } with
          | mk r s1 =>
            rw [hr] at hnpar b3
            cases r <;> simp only at hnpar b3 <;> omega
        · rfl
      rw [e]
      exact hi.fresh p (by omega)
    · rw [a4 p hps]
      exact hi.fresh p (by omega)

/-- a completed construction: the set holds exactly the given keys, with the value (times scale) of each argument, and every
variable passed knows about it -/
theorem newParams_ok {s : St} (hi : Inv s) {args : List (Key × Arg)} {p : Nat} (h : (newParams s args).1 = .ok p) :
    p = s.npar ∧ (newParams s args).2.npar = p + 1 ∧ keys ((newParams s args).2.par p) = args.map Prod.fst ∧
    (∀ k a, (k, a) ∈ args → ∃ v, argValue s a = .ok v ∧ get? ((newParams s args).2.par p) k = some v) ∧
    (∀ k j, (k, Arg.var j) ∈ args → ∃ o, (newParams s args).2.obj j = some o ∧ (p, k) ∈ o.subs) := by
  unfold newParams at h ⊢
  split_ifs at h ⊢ with hn
  obtain ⟨b1, b2, b3, b4⟩ := paramsLoop_same s.npar args [] { s with npar := s.npar + 1 }
  have hok := paramsLoop_ok s.npar args [] { s with npar := s.npar + 1 }
  cases hr : paramsLoop s.npar args [] { s with npar := s.npar + 1 } with
  | mk r s1 =>
    rw [hr] at h hok b3
    cases r with
    | error e => cases h
    | ok d =>
      obtain ⟨vs, h1, h2, h3, h4⟩ := hok d rfl
      have hp : s.npar = p := Except.ok.inj h
      subst hp
      simp only [Function.update_self]
      have hk : keys d = args.map Prod.fst := by
        rw [h1]
        show (([] : PyDict Key ℝ) ++ (args.map Prod.fst).zip vs).map Prod.fst = _
        rw [List.nil_append, List.map_fst_zip]
        rw [List.length_map, h2]
      refine ⟨trivial, b3, hk, fun k a ha => ?_, h4⟩
      obtain ⟨v, hv, hm⟩ := h3 k a ha
      refine ⟨v, hv, ?_⟩
      apply mem_get? (show WF d by unfold WF; rw [hk]; exact hn)
      rw [h1]
      exact List.mem_append_right _ hm

theorem synced_newParams {s : St} (hi : Inv s) (hs : Synced s) (args : List (Key × Arg)) : Synced (newParams s args).2 := by
  obtain ⟨a1, a2, a3, a4, a5, a6⟩ := newParams_effect s args
  intro j o' p k hj hc hk
  cases ho : s.obj j with
  | none => rw [a5 j ho] at hj; cases hj
  | some o =>
    obtain ⟨l, h1, h2⟩ := a6 j o ho
    rw [h1] at hj
    cases hj
    rcases List.mem_append.mp hk with hk | hk
    · have hlt := hi.subsLt j o p k ho hk
      rw [a4 p (by omega)]
      exact hs j o p k ho hc hk
    · obtain ⟨q1, q2, q3, q4⟩ := h2 _ hk
      simp only at q1 q4
      subst q1
      cases hr : (newParams s args).1 with
      | ok p =>
        obtain ⟨e1, _, _, e4, _⟩ := newParams_ok hi hr
        obtain ⟨v, hv, hg⟩ := e4 k _ q4
        right
        rw [← e1, hg]
        unfold argValue at hv
        simp only [ho, value_free ho hc] at hv
        cases hv
        rfl
      | error e =>
        left
        have : (newParams s args).2.par s.npar = s.par s.npar := by
          unfold newParams at hr ⊢
          rw [if_pos q3] at hr ⊢
          obtain ⟨b1, b2, b3, b4⟩ := paramsLoop_same s.npar args [] { s with npar := s.npar + 1 }
          cases hp : paramsLoop s.npar args [] { s with npar := s.npar + 1 } with
          | mk r s1 =>
            rw [hp] at hr b4
            cases r with
            | ok d => cases hr
            | error e' => rw [b4]
        rw [this, hi.fresh _ (le_refl _)]
        rfl

end TEflow.KappaVar
