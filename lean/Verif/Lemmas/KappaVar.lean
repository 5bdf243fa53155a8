import Mathlib.Tactic
import Verif.Model.KappaVar
import Verif.Lemmas.Dict

/-! # Effects of the operations on variables and parameter sets -/

namespace TEflow.KappaVar

open PyDict

/-! ## Reading -/

/-- reading a value only looks at the object and its private parameter set -/
theorem value_congr {s s' : St} {i : Nat} {o o' : Var} (h : s.obj i = some o) (h' : s'.obj i = some o')
    (hv : o'.value = o.value) (hc : o'.compute = o.compute) (hd : o'.deps = o.deps)
    (hp : ∀ p, o.deps = some p → s'.par p = s.par p) : value s' i = value s i := by
  unfold value
  rw [h, h']
  simp only [hc, hd, hv]
  cases hcc : o.compute with
  | none => rfl
  | some c =>
    cases c with
    | none => rfl
    | some f =>
      cases hdd : o.deps with
      | none => rfl
      | some p => simp only [hp p hdd]

/-! ## `store` -/

theorem store_par (s : St) (p : Nat) (k : Key) (x : ℝ) (p' : Nat) (h : p' ≠ p) : (store s p k x).par p' = s.par p' := by
  unfold store
  simp only
  rw [Function.update_of_ne h]

theorem store_get (s : St) (p : Nat) (k : Key) (x : ℝ) (p' : Nat) (k' : Key) :
    get? ((store s p k x).par p') k' = if p' = p ∧ k' = k then some x else get? (s.par p') k' := by
  by_cases h : p' = p
  · subst h
    unfold store
    simp only [Function.update_self, true_and]
    rw [get?_set]
    by_cases hk : k = k' <;> by_cases hk' : k' = k <;> simp_all
  · rw [store_par s p k x p' h, if_neg (fun h' => h h'.1)]

/-! ## `sync` -/

/-- what two states have in common when only entries of parameter sets have been written -/
structure SameObjs (s s' : St) : Prop where
  reg : s'.reg = s.reg
  nobj : s'.nobj = s.nobj
  obj : s'.obj = s.obj
  npar : s'.npar = s.npar

theorem SameObjs.refl (s : St) : SameObjs s s := ⟨rfl, rfl, rfl, rfl⟩
theorem SameObjs.trans {a b c : St} (h1 : SameObjs a b) (h2 : SameObjs b c) : SameObjs a c :=
  ⟨h2.reg.trans h1.reg, h2.nobj.trans h1.nobj, h2.obj.trans h1.obj, h2.npar.trans h1.npar⟩

theorem syncLoop_objs (i : Nat) (sc : ℝ) : ∀ (l : List (Nat × Key)) (s : St), SameObjs s (syncLoop s i sc l).2
  | [], s => SameObjs.refl s
  | (p, k) :: rest, s => by
    unfold syncLoop
    cases value s i with
    | error e => exact SameObjs.refl s
    | ok v => exact SameObjs.trans (b := store s p k (v * sc)) ⟨rfl, rfl, rfl, rfl⟩ (syncLoop_objs i sc rest _)

theorem syncLoop_par (i : Nat) (sc : ℝ) : ∀ (l : List (Nat × Key)) (s : St) (p : Nat), (∀ k, (p, k) ∉ l) →
    (syncLoop s i sc l).2.par p = s.par p
  | [], s, p, _ => rfl
  | (q, k) :: rest, s, p, h => by
    unfold syncLoop
    cases value s i with
    | error e => rfl
    | ok v =>
      simp only
      rw [syncLoop_par i sc rest _ p (fun k' hk' => h k' (List.mem_cons_of_mem _ hk'))]
      apply store_par
      rintro rfl
      exact h k List.mem_cons_self

theorem syncLoop_get (i : Nat) (sc : ℝ) : ∀ (l : List (Nat × Key)) (s : St) (p : Nat) (k : Key), (p, k) ∉ l →
    get? ((syncLoop s i sc l).2.par p) k = get? (s.par p) k
  | [], s, p, k, _ => rfl
  | (q, k') :: rest, s, p, k, h => by
    unfold syncLoop
    cases value s i with
    | error e => rfl
    | ok v =>
      simp only
      rw [syncLoop_get i sc rest _ p k (fun hk => h (List.mem_cons_of_mem _ hk)), store_get, if_neg]
      rintro ⟨rfl, rfl⟩
      exact h List.mem_cons_self

theorem syncLoop_keys (i : Nat) (sc : ℝ) : ∀ (l : List (Nat × Key)) (s : St) (p : Nat) (k : Key),
    (get? (s.par p) k).isSome → (get? ((syncLoop s i sc l).2.par p) k).isSome
  | [], s, p, k, h => h
  | (q, k') :: rest, s, p, k, h => by
    unfold syncLoop
    cases value s i with
    | error e => exact h
    | ok v =>
      simp only
      apply syncLoop_keys
      rw [store_get]
      split_ifs
      · rfl
      · exact h

/-- when the value can be read and the object does not write to its own private set, all subscribers get the value -/
theorem syncLoop_ok (i : Nat) (sc v : ℝ) (o : Var) : ∀ (l : List (Nat × Key)) (s : St), s.obj i = some o → value s i = .ok v →
    (∀ p, o.deps = some p → ∀ k, (p, k) ∉ l) →
    (syncLoop s i sc l).1 = .ok () ∧ ∀ p k, (p, k) ∈ l → get? ((syncLoop s i sc l).2.par p) k = some (v * sc)
  | [], s, _, _, _ => ⟨rfl, fun p k h => by cases h⟩
  | (q, k') :: rest, s, ho, hv, hd => by
    have hv' : value (store s q k' (v * sc)) i = .ok v := by
      rw [← hv]
      refine value_congr (s := s) (s' := store s q k' (v * sc)) (o := o) (o' := o) ho ho rfl rfl rfl ?_
      intro p hp
      apply store_par
      rintro rfl
      exact hd p hp k' List.mem_cons_self
    obtain ⟨h1, h2⟩ := syncLoop_ok i sc v o rest (store s q k' (v * sc)) ho hv'
      (fun p hp k hk => hd p hp k (List.mem_cons_of_mem _ hk))
    have e : syncLoop s i sc ((q, k') :: rest) = syncLoop (store s q k' (v * sc)) i sc rest := by
      conv_lhs => unfold syncLoop
      rw [hv]
    rw [e]
    refine ⟨h1, fun p k h => ?_⟩
    by_cases hr : (p, k) ∈ rest
    · exact h2 p k hr
    · rcases List.mem_cons.mp h with h | h
      · obtain ⟨rfl, rfl⟩ := Prod.mk.inj h
        rw [syncLoop_get i sc rest _ p k hr, store_get, if_pos ⟨rfl, rfl⟩]
      · exact absurd h hr

/-- when the value cannot be read nothing is written -/
theorem syncLoop_error (i : Nat) (sc : ℝ) (e : PyErr) (l : List (Nat × Key)) (s : St) (hv : value s i = .error e) :
    (syncLoop s i sc l).2 = s := by
  cases l with
  | nil => rfl
  | cons q rest =>
    obtain ⟨p, k⟩ := q
    unfold syncLoop
    rw [hv]

/-! ## `Parameters` -/

/-- `o'` is `o` with more subscribers -/
def MoreSubs (o o' : Var) (l : List (Nat × Key)) : Prop := o' = { o with subs := o.subs ++ l }

theorem paramsLoop_same (p : Nat) : ∀ (args : List (Key × Arg)) (acc : PyDict Key ℝ) (s : St),
    (paramsLoop p args acc s).2.reg = s.reg ∧ (paramsLoop p args acc s).2.nobj = s.nobj ∧
    (paramsLoop p args acc s).2.npar = s.npar ∧ (paramsLoop p args acc s).2.par = s.par
  | [], acc, s => ⟨rfl, rfl, rfl, rfl⟩
  | (k, .const x) :: rest, acc, s => paramsLoop_same p rest _ s
  | (k, .var i) :: rest, acc, s => by
    unfold paramsLoop
    cases ho : s.obj i with
    | none => exact ⟨rfl, rfl, rfl, rfl⟩
    | some o =>
      simp only
      cases value (putObj s i { o with subs := o.subs ++ [(p, k)] }) i with
      | error e => exact ⟨rfl, rfl, rfl, rfl⟩
      | ok v => exact paramsLoop_same p rest _ _

theorem putObj_obj (s : St) (i j : Nat) (o : Var) : (putObj s i o).obj j = if j = i then some o else s.obj j := by
  unfold putObj
  simp only [Function.update_apply]

theorem paramsLoop_none (p : Nat) : ∀ (args : List (Key × Arg)) (acc : PyDict Key ℝ) (s : St) (j : Nat), s.obj j = none →
    (paramsLoop p args acc s).2.obj j = none
  | [], acc, s, j, h => h
  | (k, .const x) :: rest, acc, s, j, h => paramsLoop_none p rest _ s j h
  | (k, .var i) :: rest, acc, s, j, h => by
    unfold paramsLoop
    cases ho : s.obj i with
    | none => exact h
    | some o =>
      have hne : j ≠ i := by rintro rfl; rw [h] at ho; cases ho
      have h' : (putObj s i { o with subs := o.subs ++ [(p, k)] }).obj j = none := by rw [putObj_obj, if_neg hne, h]
      simp only
      cases value (putObj s i { o with subs := o.subs ++ [(p, k)] }) i with
      | error e => exact h'
      | ok v => exact paramsLoop_none p rest _ _ j h'

/-- every object keeps its attributes; it gets new subscribers only in the new set, and only under keys it was passed for -/
theorem paramsLoop_obj (p : Nat) : ∀ (args : List (Key × Arg)) (acc : PyDict Key ℝ) (s : St) (j : Nat) (o : Var),
    s.obj j = some o → ∃ l, (paramsLoop p args acc s).2.obj j = some { o with subs := o.subs ++ l } ∧
      ∀ q ∈ l, q.1 = p ∧ (q.2, Arg.var j) ∈ args
  | [], acc, s, j, o, h => ⟨[], by rw [List.append_nil]; exact h, fun q hq => by cases hq⟩
  | (k, .const x) :: rest, acc, s, j, o, h => by
    obtain ⟨l, h1, h2⟩ := paramsLoop_obj p rest (acc ++ [(k, x)]) s j o h
    exact ⟨l, h1, fun q hq => ⟨(h2 q hq).1, List.mem_cons_of_mem _ (h2 q hq).2⟩⟩
  | (k, .var i) :: rest, acc, s, j, o, h => by
    unfold paramsLoop
    cases ho : s.obj i with
    | none => exact ⟨[], by rw [List.append_nil]; exact h, fun q hq => by cases hq⟩
    | some o1 =>
      simp only
      by_cases hji : j = i
      · subst hji
        rw [h] at ho
        cases ho
        have h' : (putObj s j { o with subs := o.subs ++ [(p, k)] }).obj j = some { o with subs := o.subs ++ [(p, k)] } := by
          rw [putObj_obj, if_pos rfl]
        cases value (putObj s j { o with subs := o.subs ++ [(p, k)] }) j with
        | error e =>
          refine ⟨[(p, k)], h', fun q hq => ?_⟩
          rw [List.mem_singleton] at hq
          subst hq
          exact ⟨rfl, List.mem_cons_self⟩
        | ok v =>
          obtain ⟨l, h1, h2⟩ := paramsLoop_obj p rest (acc ++ [(k, v * o.scale)]) _ j _ h'
          refine ⟨(p, k) :: l, ?_, fun q hq => ?_⟩
          · simp only
            rw [h1]
            simp
          · rcases List.mem_cons.mp hq with rfl | hq
            · exact ⟨rfl, List.mem_cons_self⟩
            · exact ⟨(h2 q hq).1, List.mem_cons_of_mem _ (h2 q hq).2⟩
      · have h' : (putObj s i { o1 with subs := o1.subs ++ [(p, k)] }).obj j = some o := by
          rw [putObj_obj, if_neg hji, h]
        cases value (putObj s i { o1 with subs := o1.subs ++ [(p, k)] }) i with
        | error e => exact ⟨[], by rw [List.append_nil]; exact h', fun q hq => by cases hq⟩
        | ok v =>
          obtain ⟨l, h1, h2⟩ := paramsLoop_obj p rest (acc ++ [(k, v * o1.scale)]) _ j o h'
          exact ⟨l, h1, fun q hq => ⟨(h2 q hq).1, List.mem_cons_of_mem _ (h2 q hq).2⟩⟩

/-- the value of an argument and the factor it is stored with -/
def argValue (s : St) : Arg → Except PyErr ℝ
  | .const x => .ok x
  | .var i =>
    match s.obj i with
    | none => .error .attributeError
    | some o => (value s i).map (· * o.scale)

theorem argValue_putObj (s : St) (i : Nat) (o : Var) (l : List (Nat × Key)) (h : s.obj i = some o) (a : Arg) :
    argValue (putObj s i { o with subs := l }) a = argValue s a := by
  cases a with
  | const x => rfl
  | var j =>
    unfold argValue
    simp only [putObj_obj]
    by_cases hji : j = i
    · subst hji
      rw [if_pos rfl, h]
      simp only
      congr 1
      exact value_congr (o := o) (o' := { o with subs := l }) h (by rw [putObj_obj, if_pos rfl]) rfl rfl rfl (fun p _ => rfl)
    · rw [if_neg hji]
      cases hj : s.obj j with
      | none => rfl
      | some oj =>
        simp only
        congr 1
        exact value_congr (o := oj) (o' := oj) hj (by rw [putObj_obj, if_neg hji, hj]) rfl rfl rfl (fun p _ => rfl)

/-- a completed loop: the keys in order, the values, and all subscriptions -/
theorem paramsLoop_ok (p : Nat) : ∀ (args : List (Key × Arg)) (acc : PyDict Key ℝ) (s : St) (d : PyDict Key ℝ),
    (paramsLoop p args acc s).1 = .ok d →
    ∃ vs : List ℝ, d = acc ++ (args.map Prod.fst).zip vs ∧ vs.length = args.length ∧
      (∀ k a, (k, a) ∈ args → ∃ v, argValue s a = .ok v ∧ (k, v) ∈ (args.map Prod.fst).zip vs) ∧
      (∀ k j, (k, Arg.var j) ∈ args → ∃ o, (paramsLoop p args acc s).2.obj j = some o ∧ (p, k) ∈ o.subs)
  | [], acc, s, d, h => by
    refine ⟨[], ?_, rfl, fun k a h => (by cases h), fun k j h => (by cases h)⟩
    have : acc = d := Except.ok.inj h
    simp [this]
  | (k, .const x) :: rest, acc, s, d, h => by
    obtain ⟨vs, h1, h2, h3, h4⟩ := paramsLoop_ok p rest (acc ++ [(k, x)]) s d h
    refine ⟨x :: vs, ?_, by simp [h2], ?_, ?_⟩
    · rw [h1]; simp
    · intro k' a hk
      rcases List.mem_cons.mp hk with hk | hk
      · obtain ⟨rfl, rfl⟩ := Prod.mk.inj hk
        exact ⟨x, rfl, by simp⟩
      · obtain ⟨v, hv, hm⟩ := h3 k' a hk
        refine ⟨v, hv, ?_⟩
        simp only [List.map_cons, List.zip_cons_cons]
        exact List.mem_cons_of_mem _ hm
    · intro k' j hk
      rcases List.mem_cons.mp hk with hk | hk
      · cases (Prod.mk.inj hk).2
      · exact h4 k' j hk
  | (k, .var i) :: rest, acc, s, d, h => by
    unfold paramsLoop at h ⊢
    cases ho : s.obj i with
    | none => rw [ho] at h; cases h
    | some o =>
      rw [ho] at h
      simp only at h ⊢
      cases hv : value (putObj s i { o with subs := o.subs ++ [(p, k)] }) i with
      | error e => rw [hv] at h; cases h
      | ok v =>
        rw [hv] at h
        simp only at h ⊢
        obtain ⟨vs, h1, h2, h3, h4⟩ := paramsLoop_ok p rest (acc ++ [(k, v * o.scale)]) _ d h
        have hpi : (putObj s i { o with subs := o.subs ++ [(p, k)] }).obj i = some { o with subs := o.subs ++ [(p, k)] } := by
          rw [putObj_obj, if_pos rfl]
        refine ⟨(v * o.scale) :: vs, ?_, by simp [h2], ?_, ?_⟩
        · rw [h1]; simp
        · intro k' a hk
          rcases List.mem_cons.mp hk with hk | hk
          · obtain ⟨rfl, rfl⟩ := Prod.mk.inj hk
            refine ⟨v * o.scale, ?_, by simp⟩
            rw [← argValue_putObj s i o (o.subs ++ [(p, k')]) ho]
            unfold argValue
            simp only [hpi, hv]
            rfl
          · obtain ⟨v', hv', hm⟩ := h3 k' a hk
            rw [argValue_putObj s i o _ ho] at hv'
            refine ⟨v', hv', ?_⟩
            simp only [List.map_cons, List.zip_cons_cons]
            exact List.mem_cons_of_mem _ hm
        · intro k' j hk
          rcases List.mem_cons.mp hk with hk | hk
          · obtain ⟨e1, e2⟩ := Prod.mk.inj hk
            cases e2
            subst e1
            obtain ⟨l, hl, _⟩ := paramsLoop_obj p rest (acc ++ [(k', v * o.scale)]) _ i _ hpi
            exact ⟨_, hl, by simp⟩
          · exact h4 k' j hk

end TEflow.KappaVar
