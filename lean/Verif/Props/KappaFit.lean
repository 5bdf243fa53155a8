import Verif.Model.KappaFit
import Verif.Props.KappaVar

/-! # C123: fitting with any search -/

namespace TEflow.KappaVar

open PyDict

variable {α : Type}

/-! ## Specification: the dialogue between the search and the model -/

/-- The questions of a search and the answers of the model (`f` tells how a question is answered and how the state changes):
all questions but possibly the last were answered; an error of the model ends the search with this error. -/
inductive Dialogue (f : List ℝ → St → Except PyErr α × St) : Search α → St → List (List ℝ × Except PyErr α) → Except PyErr (List ℝ) → St → Prop where
  | stop (r : Except PyErr (List ℝ)) (s : St) : Dialogue f (.stop r) s [] r s
  | failed (args : List ℝ) (next : α → Search α) (s : St) (e : PyErr) (s1 : St) (h : f args s = (.error e, s1)) :
      Dialogue f (.ask args next) s [(args, .error e)] (.error e) s1
  | answered (args : List ℝ) (next : α → Search α) (s : St) (y : α) (s1 : St) (h : f args s = (.ok y, s1))
      (qs : List (List ℝ × Except PyErr α)) (r : Except PyErr (List ℝ)) (s2 : St) (hd : Dialogue f (next y) s1 qs r s2) :
      Dialogue f (.ask args next) s ((args, .ok y) :: qs) r s2

theorem run_dialogue (f : List ℝ → St → Except PyErr α × St) (q : Search α) : ∀ s, ∃ qs, Dialogue f q s qs (q.run f s).1 (q.run f s).2 := by
  induction q with
  | stop r => exact fun s => ⟨[], .stop r s⟩
  | ask args next ih =>
    intro s
    unfold Search.run
    cases h : f args s with
    | mk r s1 =>
      cases r with
      | error e => exact ⟨_, .failed args next s e s1 h⟩
      | ok y =>
        obtain ⟨qs, hq⟩ := ih y s1
        exact ⟨_, .answered args next s y s1 h qs _ _ hq⟩

/-- a search and a state have one dialogue -/
theorem dialogue_unique {f : List ℝ → St → Except PyErr α × St} {q : Search α} {s : St} {qs qs' : List (List ℝ × Except PyErr α)}
    {r r' : Except PyErr (List ℝ)} {t t' : St} (h : Dialogue f q s qs r t) (h' : Dialogue f q s qs' r' t') : qs = qs' ∧ r = r' ∧ t = t' := by
  induction h generalizing qs' r' t' with
  | stop r s => cases h'; exact ⟨rfl, rfl, rfl⟩
  | failed args next s e s1 h =>
    cases h' with
    | failed _ _ _ e' s1' h2 => rw [h] at h2; cases h2; exact ⟨rfl, rfl, rfl⟩
    | answered _ _ _ y s1' h2 => rw [h] at h2; cases h2
  | answered args next s y s1 h qs r s2 hd ih =>
    cases h' with
    | failed _ _ _ e' s1' h2 => rw [h] at h2; cases h2
    | answered _ _ _ y' s1' h2 qs2 _ _ hd2 =>
      rw [h] at h2
      cases h2
      obtain ⟨e1, e2, e3⟩ := ih hd2
      exact ⟨by rw [e1], e2, e3⟩

/-! ## One evaluation -/

/-- the variables are the same but for their values -/
def Alike (s s' : St) : Prop :=
  ∀ j, match s.obj j with
    | none => s'.obj j = none
    | some o => ∃ x, s'.obj j = some { o with value := x }

theorem Alike.refl (s : St) : Alike s s := by
  intro j
  cases h : s.obj j with
  | none => rfl
  | some o => exact ⟨o.value, rfl⟩

theorem Alike.trans {a b c : St} (h1 : Alike a b) (h2 : Alike b c) : Alike a c := by
  intro j
  have e1 := h1 j
  have e2 := h2 j
  cases h : a.obj j with
  | none => rw [h] at e1; simp only at e1; rw [e1] at e2; exact e2
  | some o =>
    rw [h] at e1
    obtain ⟨x, e1⟩ := e1
    rw [e1] at e2
    obtain ⟨y, e2⟩ := e2
    exact ⟨y, e2⟩

theorem Alike.symm {a b : St} (h : Alike a b) : Alike b a := by
  intro j
  have e := h j
  cases ha : a.obj j with
  | none => rw [ha] at e; simp only at e; rw [e]
  | some o =>
    rw [ha] at e
    obtain ⟨x, e⟩ := e
    rw [e]
    exact ⟨o.value, rfl⟩

theorem Alike.of_obj {s s' : St} (h : s'.obj = s.obj) : Alike s s' := by
  intro j
  rw [h]
  cases s.obj j with
  | none => rfl
  | some o => exact ⟨o.value, rfl⟩

theorem Alike.feeds {s s' : St} (h : Alike s s') {i j : Nat} (hf : Feeds s' i j) : Feeds s i j := by
  obtain ⟨oi, oj, p, k, hi, hj, hd, hk⟩ := hf
  have e1 := h.symm i
  have e2 := h.symm j
  rw [hi] at e1
  rw [hj] at e2
  obtain ⟨x, e1⟩ := e1
  obtain ⟨y, e2⟩ := e2
  exact ⟨_, _, p, k, e1, e2, hd, hk⟩

theorem Alike.readable {s s' : St} (h : Alike s s') {i : Nat} (hr : Readable s i) : Readable s' i := by
  obtain ⟨v, hv⟩ := hr
  have e := h i
  unfold value at hv
  unfold Readable value
  cases ho : s.obj i with
  | none => rw [ho] at hv; cases hv
  | some o =>
    rw [ho] at e hv
    obtain ⟨x, e⟩ := e
    simp only [e] at hv ⊢
    cases hc : o.compute with
    | none => rw [hc] at hv; cases hv
    | some c =>
      rw [hc] at hv
      cases c with
      | none => exact ⟨_, rfl⟩
      | some f =>
        cases hd : o.deps with
        | none => rw [hd] at hv; cases hv
        | some p => exact ⟨_, rfl⟩

theorem Alike.free {s s' : St} (h : Alike s s') {i : Nat} (hf : Free s i) : Free s' i := by
  obtain ⟨o, ho, hc⟩ := hf
  have e := h i
  rw [ho] at e
  obtain ⟨x, e⟩ := e
  exact ⟨_, e, hc⟩

theorem Alike.complete {s s' : St} (h : Alike s s') (hi : Inv s) (hg : Grows s s') {i : Nat} (hc : Complete s i) : Complete s' i := by
  intro o p k ho hk
  have e := h.symm i
  rw [ho] at e
  obtain ⟨x, e⟩ := e
  exact hg.2.1 p k (hi.subsLt i _ p k e hk) (hc _ p k e hk)

theorem assignLoop_alike (l : List (Nat × ℝ)) (s : St) : Alike s (assignLoop l s).2 := by
  intro j
  have := assignLoop_shape l s j
  cases h : s.obj j with
  | none => rw [h] at this; exact this
  | some o =>
    rw [h] at this
    obtain ⟨x, hx, _⟩ := this
    exact ⟨x, hx⟩

theorem assignLoop_steps : ∀ (l : List (Nat × ℝ)) (s : St), Steps false s (assignLoop l s).2
  | [], s => .refl s
  | (i, x) :: rest, s => by
    have h := Steps.tail (.refl s) (Step.assign (direct := false) s i x)
    unfold assignLoop
    cases hs : setValue s i x with
    | mk r s1 =>
      rw [hs] at h
      cases r with
      | error e => exact h
      | ok u => exact h.trans (assignLoop_steps rest s1)

theorem refreshLoop_steps : ∀ (l : List Nat) (s : St), Steps false s (refreshLoop l s).2 ∧ (refreshLoop l s).2.obj = s.obj
  | [], s => ⟨.refl s, rfl⟩
  | i :: rest, s => by
    have h := Steps.tail (.refl s) (Step.sync (direct := false) s i)
    have ho := (sync_objs s i).obj
    unfold refreshLoop
    cases hs : sync s i with
    | mk r s1 =>
      rw [hs] at h ho
      cases r with
      | error e => exact ⟨h, ho⟩
      | ok u =>
        obtain ⟨h1, h2⟩ := refreshLoop_steps rest s1
        exact ⟨h.trans h1, h2.trans ho⟩

theorem cal_shape (vars ders : List Nat) (args : List ℝ) (s : St) :
    Steps false s (cal vars ders args s).2 ∧ Alike s (cal vars ders args s).2 ∧
    ∀ j, j ∉ vars → (cal vars ders args s).2.obj j = s.obj j := by
  unfold cal
  split_ifs with h
  · exact ⟨.refl s, .refl s, fun _ _ => rfl⟩
  · have a1 := assignLoop_steps (vars.zip args) s
    have a2 := assignLoop_alike (vars.zip args) s
    have a3 : ∀ j, j ∉ vars → (assignLoop (vars.zip args) s).2.obj j = s.obj j := by
      intro j hj
      have := assignLoop_shape (vars.zip args) s j
      cases ho : s.obj j with
      | none => rw [ho] at this; exact this
      | some o =>
        rw [ho] at this
        obtain ⟨x, hx, hn⟩ := this
        rw [hx, hn]
        intro hm
        obtain ⟨p, hp, rfl⟩ := List.mem_map.1 hm
        exact hj (List.of_mem_zip hp).1
    cases hs : assignLoop (vars.zip args) s with
    | mk r s1 =>
      rw [hs] at a1 a2 a3
      cases r with
      | error e => exact ⟨a1, a2, a3⟩
      | ok u =>
        obtain ⟨b1, b2⟩ := refreshLoop_steps ders s1
        exact ⟨a1.trans b1, a2.trans (.of_obj b2), fun j hj => by rw [b2]; exact a3 j hj⟩

theorem setValue_ok {s : St} {i : Nat} {x : ℝ} {s1 : St} (h : setValue s i x = (.ok (), s1)) :
    ∃ o, s.obj i = some o ∧ o.lower ≤ x ∧ x ≤ o.upper ∧ s1.obj i = some { o with value := x } ∧ ∀ j, j ≠ i → s1.obj j = s.obj j := by
  unfold setValue at h
  cases ho : s.obj i with
  | none => rw [ho] at h; cases h
  | some o =>
    rw [ho] at h
    simp only at h
    split_ifs at h with hb
    · have e := (sync_objs (putObj s i { o with value := x }) i).obj
      rw [h] at e
      simp only at e
      refine ⟨o, rfl, hb.1, hb.2, by rw [e, putObj_obj, if_pos rfl], fun j hj => by rw [e, putObj_obj, if_neg hj]⟩
    · cases h

theorem assignLoop_ok : ∀ (l : List (Nat × ℝ)) (s : St), (l.map Prod.fst).Nodup → (assignLoop l s).1 = .ok () →
    ∀ p ∈ l, ∃ o, s.obj p.1 = some o ∧ o.lower ≤ p.2 ∧ p.2 ≤ o.upper ∧ (assignLoop l s).2.obj p.1 = some { o with value := p.2 }
  | [], s, _, _ => fun p hp => by cases hp
  | (i, x) :: rest, s, hn, h => by
    intro p hp
    rw [List.map_cons, List.nodup_cons] at hn
    have hsh : ∀ s1, setValue s i x = (.ok (), s1) → assignLoop ((i, x) :: rest) s = assignLoop rest s1 := by
      intro s1 e
      conv_lhs => unfold assignLoop
      rw [e]
    cases hs : setValue s i x with
    | mk r s1 =>
      cases r with
      | error e =>
        unfold assignLoop at h
        rw [hs] at h
        cases h
      | ok u =>
        obtain ⟨o, ho, hl, hu, hi', hoth⟩ := setValue_ok hs
        rw [hsh s1 hs] at h ⊢
        rcases List.mem_cons.1 hp with rfl | hp
        · refine ⟨o, ho, hl, hu, ?_⟩
          have := assignLoop_shape rest s1 i
          rw [hi'] at this
          obtain ⟨y, hy, hyn⟩ := this
          rw [hy, hyn hn.1]
        · obtain ⟨o2, h2, h3, h4, h5⟩ := assignLoop_ok rest s1 hn.2 h p hp
          have hne : p.1 ≠ i := fun e => hn.1 (by rw [← e]; exact List.mem_map.2 ⟨p, hp, rfl⟩)
          rw [hoth _ hne] at h2
          exact ⟨o2, h2, h3, h4, h5⟩

theorem cal_ok {vars ders : List Nat} {args : List ℝ} {s : St} (h : (cal vars ders args s).1 = .ok ()) :
    args.length = vars.length ∧ (assignLoop (vars.zip args) s).1 = .ok () ∧ (cal vars ders args s).2.obj = (assignLoop (vars.zip args) s).2.obj := by
  by_cases hl : args.length = vars.length
  · refine ⟨hl, ?_⟩
    unfold cal at h ⊢
    rw [if_neg (by simpa using hl)] at h ⊢
    cases hs : assignLoop (vars.zip args) s with
    | mk r s1 =>
      rw [hs] at h
      cases r with
      | error e => cases h
      | ok u => exact ⟨rfl, (refreshLoop_steps ders s1).2⟩
  · rw [C84_count vars ders args s hl] at h
    cases h

/-- the variables that were asked about hold the values of the question -/
theorem cal_values {vars ders : List Nat} {args : List ℝ} {s : St} (hn : vars.Nodup) (h : (cal vars ders args s).1 = .ok ())
    (k : Nat) (i : Nat) (x : ℝ) (hi : vars[k]? = some i) (hx : args[k]? = some x) :
    ∃ o, s.obj i = some o ∧ o.lower ≤ x ∧ x ≤ o.upper ∧ (cal vars ders args s).2.obj i = some { o with value := x } := by
  obtain ⟨hl, h1, h2⟩ := cal_ok h
  rw [h2]
  refine assignLoop_ok (vars.zip args) s ?_ h1 (i, x) ?_
  · rw [List.map_fst_zip (le_of_eq hl.symm)]
    exact hn
  · refine List.mem_of_getElem? (i := k) ?_
    rw [List.getElem?_zip_eq_some]
    exact ⟨hi, hx⟩

/-! ## The whole search -/

theorem calEval_shape (eval : St → Except PyErr α) (vars ders : List Nat) (args : List ℝ) (s : St) :
    Steps false s (calEval eval vars ders args s).2 ∧ Alike s (calEval eval vars ders args s).2 ∧
    ∀ j, j ∉ vars → (calEval eval vars ders args s).2.obj j = s.obj j := by
  have := cal_shape vars ders args s
  unfold calEval
  cases hc : cal vars ders args s with
  | mk r s1 =>
    rw [hc] at this
    cases r <;> exact this

theorem dialogue_shape {eval : St → Except PyErr α} {vars ders : List Nat} {q : Search α} {s : St} {qs : List (List ℝ × Except PyErr α)}
    {r : Except PyErr (List ℝ)} {t : St} (h : Dialogue (calEval eval vars ders) q s qs r t) :
    Steps false s t ∧ Alike s t ∧ ∀ j, j ∉ vars → t.obj j = s.obj j := by
  induction h with
  | stop r s => exact ⟨.refl s, .refl s, fun _ _ => rfl⟩
  | failed args next s e s1 h =>
    have := calEval_shape eval vars ders args s
    rw [h] at this
    exact this
  | answered args next s y s1 h qs r s2 hd ih =>
    have := calEval_shape eval vars ders args s
    rw [h] at this
    exact ⟨this.1.trans ih.1, this.2.1.trans ih.2.1, fun j hj => (ih.2.2 j hj).trans (this.2.2 j hj)⟩

/-- the state in which the last question was put -/
theorem dialogue_last {eval : St → Except PyErr α} {vars ders : List Nat} {q : Search α} {s : St} {qs : List (List ℝ × Except PyErr α)}
    {r : Except PyErr (List ℝ)} {t : St} (h : Dialogue (calEval eval vars ders) q s qs r t) {args : List ℝ} {a : Except PyErr α}
    (hl : qs.getLast? = some (args, a)) :
    ∃ sb, Steps false s sb ∧ Alike s sb ∧ calEval eval vars ders args sb = (a, t) := by
  induction h with
  | stop r s => cases hl
  | failed args' next s e s1 h =>
    simp only [List.getLast?_singleton, Option.some.injEq, Prod.mk.injEq] at hl
    obtain ⟨h1, h2⟩ := hl
    subst h1 h2
    exact ⟨s, .refl s, .refl s, h⟩
  | answered args' next s y s1 h qs r s2 hd ih =>
    have hsh := calEval_shape eval vars ders args' s
    rw [h] at hsh
    cases qs with
    | nil =>
      simp only [List.getLast?_singleton, Option.some.injEq, Prod.mk.injEq] at hl
      obtain ⟨h1, h2⟩ := hl
      subst h1 h2
      generalize next y = q' at hd
      cases hd with
      | stop => exact ⟨s, .refl s, .refl s, h⟩
    | cons p qs =>
      rw [List.getLast?_cons_cons] at hl
      obtain ⟨sb, b1, b2, b3⟩ := ih hl
      exact ⟨sb, hsh.1.trans b1, hsh.2.1.trans b2, b3⟩

/-! ## C123 -/

/-- the fit of a model: all listed objects are variables, the free ones among them are `vars` (not empty), the constrained ones `ders` -/
structure Fits (eval : St → Except PyErr α) (search : List ℝ → List ℝ → List ℝ → Search α) (listed vars ders : List Nat) (os : List Var)
    (s : St) (qs : List (List ℝ × Except PyErr α)) (r : Except PyErr (List ℝ)) (t : St) : Prop where
  free : vars = listed.filter fun i => constrained s i == .ok false
  dependent : ders = listed.filter fun i => constrained s i == .ok true
  nonempty : vars ≠ []
  objs : List.Forall₂ (fun i o => s.obj i = some o) vars os
  dialogue : Dialogue (calEval eval vars ders) (search (os.map Var.value) (os.map Var.lower) (os.map Var.upper)) s qs r t

theorem partition_ok {s : St} : ∀ {l : List Nat}, (∀ i ∈ l, Readable s i) → ∃ v d, partitionVars s l = .ok (v, d)
  | [], _ => ⟨[], [], rfl⟩
  | i :: l, h => by
    obtain ⟨v, d, e⟩ := partition_ok (l := l) fun j hj => h j (List.mem_cons_of_mem _ hj)
    obtain ⟨x, hx⟩ := h i List.mem_cons_self
    have hc : ∃ c, constrained s i = .ok c := by
      unfold value at hx
      unfold constrained
      cases ho : s.obj i with
      | none => rw [ho] at hx; cases hx
      | some o =>
        rw [ho] at hx
        simp only at hx ⊢
        cases hc : o.compute with
        | none => rw [hc] at hx; cases hx
        | some c => exact ⟨_, rfl⟩
    obtain ⟨c, hc⟩ := hc
    unfold partitionVars
    rw [hc, e]
    cases c with
    | true => exact ⟨v, i :: d, rfl⟩
    | false => exact ⟨i :: v, d, rfl⟩

theorem mapM_attrs {s : St} : ∀ {l : List Nat}, (∀ i ∈ l, s.obj i ≠ none) → ∃ os, l.mapM (attrs s) = .ok os ∧ List.Forall₂ (fun i o => s.obj i = some o) l os
  | [], _ => ⟨[], rfl, .nil⟩
  | i :: l, h => by
    obtain ⟨os, e, hf⟩ := mapM_attrs (l := l) fun j hj => h j (List.mem_cons_of_mem _ hj)
    cases ho : s.obj i with
    | none => exact absurd ho (h i List.mem_cons_self)
    | some o =>
      refine ⟨o :: os, ?_, .cons ho hf⟩
      rw [List.mapM_cons, e]
      simp [attrs, ho]
      rfl

theorem mapM_some : ∀ (l : List Nat), (l.map some).mapM id = some l
  | [] => rfl
  | i :: l => by
    rw [List.map_cons, List.mapM_cons, mapM_some l]
    rfl

/-- **C123** What a fit is: with at least one free variable among those listed (and neither `p0` nor `bounds` given), the search
starts at the current values of the free ones, within their bounds, in the order of the list; every question is answered by
the model with these values; the fit ends as the search does. -/
theorem C123_fit (eval : St → Except PyErr α) (search : List ℝ → List ℝ → List ℝ → Search α) (listed : List Nat) (m : Fitter) (s : St)
    (hr : ∀ i ∈ listed, Readable s i) (hfree : ∃ i ∈ listed, constrained s i = .ok false) :
    ∃ vars ders os qs r t, Fits eval search listed vars ders os s qs r t ∧
      fit eval search (listed.map some) false m s = (r.map .found, ⟨vars, ders⟩, t) := by
  obtain ⟨v, d, e⟩ := partition_ok hr
  obtain ⟨h1, h2⟩ := C84_partition s listed v d e
  obtain ⟨i, hi, hc⟩ := hfree
  have hiv : i ∈ v := by
    rw [h1, List.mem_filter]
    exact ⟨hi, by rw [hc]; decide⟩
  have hobj : ∀ j ∈ v, s.obj j ≠ none := by
    intro j hj
    rw [h1, List.mem_filter] at hj
    obtain ⟨x, hx⟩ := hr j hj.1
    intro hn
    unfold value at hx
    rw [hn] at hx
    cases hx
  obtain ⟨os, eo, hos⟩ := mapM_attrs hobj
  obtain ⟨qs, hq⟩ := run_dialogue (calEval eval v d) (search (os.map Var.value) (os.map Var.lower) (os.map Var.upper)) s
  refine ⟨v, d, os, qs, _, _, ⟨h1, h2, List.ne_nil_of_mem hiv, hos, hq⟩, ?_⟩
  unfold fit
  rw [mapM_some]
  cases v with
  | nil => cases hiv
  | cons a v => simp only [e, eo, Bool.false_eq_true, if_false]

/-- **C123** After the fit the free variables have the values of the *last question* of the search, whatever it returned: every
free variable listed holds the value it had in the last answered question (which is within its bounds), the model gives at the
data exactly the last answer, and every parameter set built from these variables and from the constrained ones listed is up
to date. -/
theorem C123_last (eval : St → Except PyErr α) (search : List ℝ → List ℝ → List ℝ → Search α) (listed vars ders : List Nat) (os : List Var)
    (s : St) (qs : List (List ℝ × Except PyErr α)) (r : Except PyErr (List ℝ)) (t : St) (h : Fits eval search listed vars ders os s qs r t)
    (hs : Steps false St.init s) (hn : listed.Nodup) (hr : ∀ i ∈ listed, Readable s i) (hp : listed.Pairwise fun i j => ¬ Feeds s j i)
    (last : List ℝ) (y : α) (hlast : qs.getLast? = some (last, .ok y)) :
    (∀ (k i : Nat) (x : ℝ), vars[k]? = some i → last[k]? = some x → ∃ o, s.obj i = some o ∧ o.lower ≤ x ∧ x ≤ o.upper ∧ t.obj i = some { o with value := x } ∧
      value t i = .ok x) ∧
    last.length = vars.length ∧ eval t = .ok y ∧ (∀ i ∈ ders, UpToDate t i) ∧ (∀ i, Free s i → Complete s i → UpToDate t i) := by
  obtain ⟨sb, b1, b2, b3⟩ := dialogue_last h.dialogue hlast
  have hsb := hs.trans b1
  have hvn : vars.Nodup := by rw [h.free]; exact hn.filter _
  have hdr : ∀ i ∈ ders, Readable sb i := by
    intro i hi
    rw [h.dependent, List.mem_filter] at hi
    exact b2.readable (hr i hi.1)
  have hdp : ders.Pairwise fun i j => ¬ Feeds sb j i := by
    rw [h.dependent]
    exact (hp.filter _).imp fun hf hf' => hf (b2.feeds hf')
  unfold calEval at b3
  cases hc : cal vars ders last sb with
  | mk c s1 =>
    rw [hc] at b3
    cases c with
    | error e => cases b3
    | ok u =>
      simp only [Prod.mk.injEq] at b3
      obtain ⟨b3, b4⟩ := b3
      subst b4
      have hok : (cal vars ders last sb).1 = .ok () := by rw [hc]
      obtain ⟨c1, c2, -⟩ := cal_ok hok
      obtain ⟨-, d2, d3⟩ := C84_consistent vars ders last sb hsb c1 c2 hdr hdp
      rw [hc] at d2 d3
      refine ⟨fun k i x hk hx => ?_, c1, b3, d2, fun i hi hcpl => d3 i (b2.free hi) ?_⟩
      · obtain ⟨o, e1, e2, e3, e4⟩ := cal_values hvn hok k i x hk hx
        rw [hc] at e4
        have e5 := b2 i
        cases ho : s.obj i with
        | none => rw [ho] at e5; simp only at e5; rw [e5] at e1; cases e1
        | some o0 =>
          rw [ho] at e5
          obtain ⟨z, e5⟩ := e5
          rw [e1] at e5
          cases e5
          refine ⟨o0, rfl, e2, e3, e4, ?_⟩
          have hcst : constrained s i = .ok false := by
            have := List.mem_of_getElem? hk
            rw [h.free, List.mem_filter] at this
            simpa using this.2
          have hcc : o0.compute = some none := by
            unfold constrained at hcst
            rw [ho] at hcst
            simp only at hcst
            cases hcm : o0.compute with
            | none => rw [hcm] at hcst; cases hcst
            | some c =>
              rw [hcm] at hcst
              cases c with
              | none => rfl
              | some f => cases hcst
          exact value_free e4 hcc
      · exact b2.complete (steps_inv hs inv_init.1) (steps_grows b1) hcpl

/-- **C123** What a fit does not touch, successful or not: nothing is registered or made, bounds, scales, constraints and subscribers of all
variables stay, variables that are not listed (and constrained ones) keep their stored value, and every stored value is
within its bounds. -/
theorem C123_rest (eval : St → Except PyErr α) (search : List ℝ → List ℝ → List ℝ → Search α) (listed : List (Option Nat)) (given : Bool)
    (m : Fitter) (s : St) (hs : Steps false St.init s) :
    Steps false s (fit eval search listed given m s).2.2 ∧ Alike s (fit eval search listed given m s).2.2 ∧
    (∀ j, some j ∉ listed ∨ constrained s j ≠ .ok false → (fit eval search listed given m s).2.2.obj j = s.obj j) ∧
    (∀ i o, (fit eval search listed given m s).2.2.obj i = some o → o.lower ≤ o.value ∧ o.value ≤ o.upper) := by
  have main : Steps false s (fit eval search listed given m s).2.2 ∧ Alike s (fit eval search listed given m s).2.2 ∧
      ∀ j, some j ∉ listed ∨ constrained s j ≠ .ok false → (fit eval search listed given m s).2.2.obj j = s.obj j := by
    have same : Steps false s s ∧ Alike s s ∧ ∀ j, some j ∉ listed ∨ constrained s j ≠ .ok false → s.obj j = s.obj j :=
      ⟨.refl s, .refl s, fun _ _ => rfl⟩
    unfold fit
    cases hl : listed.mapM id with
    | none => exact same
    | some l =>
      simp only
      cases hp : partitionVars s l with
      | error e => exact same
      | ok p =>
        obtain ⟨vs, ds⟩ := p
        cases vs with
        | nil => exact same
        | cons v vs =>
          simp only
          split_ifs
          · exact same
          · cases ha : (v :: vs).mapM (attrs s) with
            | error e => exact same
            | ok os =>
              simp only
              obtain ⟨qs, hq⟩ := run_dialogue (calEval eval (v :: vs) ds) (search (os.map Var.value) (os.map Var.lower) (os.map Var.upper)) s
              obtain ⟨a1, a2, a3⟩ := dialogue_shape hq
              refine ⟨a1, a2, fun j hj => a3 j fun hm => ?_⟩
              obtain ⟨h1, -⟩ := C84_partition s l _ _ hp
              rw [h1, List.mem_filter] at hm
              rcases hj with hj | hj
              · apply hj
                have : ∀ (a : List (Option Nat)) (b : List Nat), a.mapM id = some b → a = b.map some := by
                  intro a
                  induction a with
                  | nil => intro b hb; cases hb; rfl
                  | cons x a ih =>
                    intro b hb
                    rw [List.mapM_cons] at hb
                    cases x with
                    | none => cases hb
                    | some x =>
                      cases hm' : a.mapM id with
                      | none => rw [hm'] at hb; cases hb
                      | some b' => rw [hm'] at hb; cases hb; rw [ih b' hm']; rfl
                rw [this listed l hl]
                exact List.mem_map.2 ⟨j, hm.1, rfl⟩
              · exact hj (by simpa using hm.2)
  exact ⟨main.1, main.2.1, main.2.2, fun i o ho => (steps_inv (hs.trans main.1) inv_init.1).bounds i o ho⟩

/-- **C123** Errors: something that is not a variable in the list, or a start value or bounds given, is a `ValueError` and nothing changes; with
nothing to fit, the values of the model are returned and nothing changes, no search is made, and the lists of an earlier fit
stay. -/
theorem C123_nothing (eval : St → Except PyErr α) (search : List ℝ → List ℝ → List ℝ → Search α) (m : Fitter) (s : St) :
    (∀ listed given, none ∈ listed → fit eval search listed given m s = (.error .valueError, m, s)) ∧
    (∀ listed : List Nat, (∀ i ∈ listed, Readable s i) → (∃ i ∈ listed, constrained s i = .ok false) →
      (fit eval search (listed.map some) true m s).1 = .error .valueError ∧ (fit eval search (listed.map some) true m s).2.2 = s) ∧
    (∀ (listed : List Nat) given, (∀ i ∈ listed, constrained s i = .ok true) →
      fit eval search (listed.map some) given m s = ((eval s).map .values, m, s)) := by
  refine ⟨fun listed given hn => ?_, fun listed hr hfree => ?_, fun listed given hc => ?_⟩
  · have : ∀ a : List (Option Nat), none ∈ a → a.mapM id = none := by
      intro a
      induction a with
      | nil => intro h; cases h
      | cons x a ih =>
        intro h
        rw [List.mapM_cons]
        cases x with
        | none => rfl
        | some x =>
          rcases List.mem_cons.1 h with h | h
          · cases h
          · rw [ih h]; rfl
    unfold fit
    rw [this listed hn]
  · obtain ⟨v, d, e⟩ := partition_ok hr
    obtain ⟨h1, h2⟩ := C84_partition s listed v d e
    obtain ⟨i, hi, hc⟩ := hfree
    have hiv : i ∈ v := by
      rw [h1, List.mem_filter]
      exact ⟨hi, by rw [hc]; decide⟩
    unfold fit
    rw [mapM_some]
    cases v with
    | nil => cases hiv
    | cons a v => simp only [e, if_true]; exact ⟨trivial, trivial⟩
  · have : ∃ d, partitionVars s listed = .ok ([], d) := by
      induction listed with
      | nil => exact ⟨[], rfl⟩
      | cons i l ih =>
        obtain ⟨d, e⟩ := ih fun j hj => hc j (List.mem_cons_of_mem _ hj)
        refine ⟨i :: d, ?_⟩
        unfold partitionVars
        rw [hc i List.mem_cons_self, e]
        rfl
    obtain ⟨d, e⟩ := this
    unfold fit
    rw [mapM_some]
    simp only [e]

/-- **C123** A second fit starts where the search of the first one ended, not at the values it returned. -/
theorem C123_again (eval : St → Except PyErr α) (search : List ℝ → List ℝ → List ℝ → Search α) (listed vars ders : List Nat) (os : List Var)
    (s : St) (qs : List (List ℝ × Except PyErr α)) (r : Except PyErr (List ℝ)) (t : St) (h : Fits eval search listed vars ders os s qs r t)
    (hs : Steps false St.init s) (hn : listed.Nodup) (hr : ∀ i ∈ listed, Readable s i) (hp : listed.Pairwise fun i j => ¬ Feeds s j i)
    (last : List ℝ) (y : α) (hlast : qs.getLast? = some (last, .ok y))
    (search' : List ℝ → List ℝ → List ℝ → Search α) (vars' ders' : List Nat) (os' : List Var)
    (qs' : List (List ℝ × Except PyErr α)) (r' : Except PyErr (List ℝ)) (t' : St) (h' : Fits eval search' listed vars' ders' os' t qs' r' t') :
    vars' = vars ∧ os'.map Var.value = last ∧ os'.map Var.lower = os.map Var.lower ∧ os'.map Var.upper = os.map Var.upper := by
  obtain ⟨a1, a2, -⟩ := C123_last eval search listed vars ders os s qs r t h hs hn hr hp last y hlast
  obtain ⟨b1, b2, b3⟩ := dialogue_shape h.dialogue
  have hcon : ∀ i, constrained t i = constrained s i := by
    intro i
    have e := b2 i
    unfold constrained
    cases ho : s.obj i with
    | none => rw [ho] at e; simp only at e; rw [e]
    | some o => rw [ho] at e; obtain ⟨x, e⟩ := e; rw [e]
  have hv : vars' = vars := by
    rw [h'.free, h.free]
    simp only [hcon]
  subst hv
  have key : ∀ (k i : Nat) (o o' : Var), vars'[k]? = some i → os[k]? = some o → os'[k]? = some o' → s.obj i = some o → t.obj i = some o' →
      last[k]? = some o'.value ∧ o'.lower = o.lower ∧ o'.upper = o.upper := by
    intro k i o o' hk _ _ ho ho'
    have hkl : k < last.length := by
      rw [a2]
      exact (List.getElem?_eq_some_iff.1 hk).1
    obtain ⟨o2, c1, -, -, c2, -⟩ := a1 k i last[k] hk (List.getElem?_eq_getElem hkl)
    rw [ho] at c1
    cases c1
    rw [ho'] at c2
    cases c2
    exact ⟨by rw [List.getElem?_eq_getElem hkl], rfl, rfl⟩
  have l1 := h.objs.length_eq
  have l2 := h'.objs.length_eq
  have hall : ∀ k (hk : k < vars'.length), last[k]? = some (os'[k]'(by omega)).value ∧ (os'[k]'(by omega)).lower = (os[k]'(by omega)).lower ∧
      (os'[k]'(by omega)).upper = (os[k]'(by omega)).upper := by
    intro k hk
    have e1 := (List.forall₂_iff_get.1 h.objs).2 k hk (by omega)
    have e2 := (List.forall₂_iff_get.1 h'.objs).2 k hk (by omega)
    simp only [List.get_eq_getElem] at e1 e2
    exact key k _ _ _ (List.getElem?_eq_getElem hk) (List.getElem?_eq_getElem (by omega)) (List.getElem?_eq_getElem (by omega)) e1 e2
  refine ⟨rfl, ?_, ?_, ?_⟩
  · apply List.ext_getElem?
    intro k
    by_cases hk : k < vars'.length
    · rw [(hall k hk).1, List.getElem?_map, List.getElem?_eq_getElem (by omega)]
      rfl
    · rw [List.getElem?_eq_none (by rw [List.length_map]; omega), List.getElem?_eq_none (by omega)]
  · apply List.ext_getElem (by simp only [List.length_map]; omega)
    intro k h1 h2
    rw [List.length_map] at h1 h2
    simp only [List.getElem_map]
    exact (hall k (by omega)).2.1
  · apply List.ext_getElem (by simp only [List.length_map]; omega)
    intro k h1 h2
    rw [List.length_map] at h1 h2
    simp only [List.getElem_map]
    exact (hall k (by omega)).2.2

/-- **C123** (finding) The values returned are not the ones in use afterwards: a search that, as scipy's does to find derivatives, asks
about a second point `y` close to the best one `x` and returns `x`, leaves the variable (and with it the model, the
predictions and the values reported) at `y`. -/
theorem C123_not_returned (eval : St → Except PyErr α) (s : St) (hs : Steps false St.init s) (i : Nat) (o : Var) (ho : s.obj i = some o)
    (hf : o.compute = some none) (x y : ℝ) (hx : o.lower ≤ x ∧ x ≤ o.upper) (hy : o.lower ≤ y ∧ y ≤ o.upper) (m : Fitter)
    (he : ∀ t, Alike s t → ∃ z, eval t = .ok z) :
    ∃ t, fit eval (fun _ _ _ => .ask [x] fun _ => .ask [y] fun _ => .stop (.ok [x])) [some i] false m s = (.ok (.found [x]), ⟨[i], []⟩, t) ∧
      value t i = .ok y := by
  have step : ∀ (u : St) (w : ℝ), Steps false St.init u → Alike s u → o.lower ≤ w ∧ w ≤ o.upper →
      ∃ v z, calEval eval [i] [] [w] u = (.ok z, v) ∧ Steps false St.init v ∧ Alike s v ∧ value v i = .ok w := by
    intro u w hu hau hw
    have e := hau i
    rw [ho] at e
    obtain ⟨x0, e⟩ := e
    have hdir : Steps true St.init u := by
      have : ∀ {a b : St}, Steps false a b → Steps true a b := by
        intro a b h
        induction h with
        | refl => exact .refl _
        | tail _ h2 ih =>
          refine .tail ih ?_
          cases h2 with
          | construct tag a hh => exact .construct _ tag a hh
          | params args => exact .params _ args
          | assign j x => exact .assign _ j x
          | sync j => exact .sync _ j
          | overwrite p k x hp hd => cases hd
      exact this hu
    obtain ⟨c1, c2, -⟩ := C82_assign hdir i _ e hf w hw
    have hc : cal [i] [] [w] u = (.ok (), (setValue u i w).2) := by
      unfold cal
      simp only [List.length_singleton, ne_eq, not_true_eq_false, if_false, List.zip_cons_cons, List.zip_nil_left, assignLoop]
      cases hsv : setValue u i w with
      | mk r u1 =>
        rw [hsv] at c1
        simp only at c1
        rw [c1]
        rfl
    have hsh := cal_shape [i] [] [w] u
    rw [hc] at hsh
    obtain ⟨z, hz⟩ := he (setValue u i w).2 (hau.trans hsh.2.1)
    refine ⟨(setValue u i w).2, z, ?_, hu.trans hsh.1, hau.trans hsh.2.1, c2⟩
    unfold calEval
    rw [hc]
    simp only [hz]
  obtain ⟨v, z, e1, e2, e3, -⟩ := step s x hs (.refl s) hx
  obtain ⟨v2, z2, f1, -, -, f4⟩ := step v y e2 e3 hy
  refine ⟨v2, ?_, f4⟩
  have hp : partitionVars s [i] = .ok ([i], []) := by
    have : constrained s i = .ok false := by
      unfold constrained
      rw [ho]
      simp only [hf]
      rfl
    unfold partitionVars
    rw [this]
    rfl
  unfold fit
  have hm : ([some i] : List (Option Nat)).mapM id = some [i] := rfl
  have ha : [i].mapM (attrs s) = .ok [o] := by
    simp [attrs, ho]
  simp only [hm, hp, ha, Bool.false_eq_true, if_false, Search.run, e1, f1]
  rfl

/-! ## The example of the documentation -/

theorem doc_feeds : ([0, 1, 2] : List Nat).Pairwise fun i j => ¬ Feeds doc3 j i := by
  have h : ∀ i j, Feeds doc3 j i → j < i := by
    rintro i j ⟨oj, oi, p, k, hj, hi, hd, hk⟩
    rw [doc3_eq] at hj hi
    simp only [Function.update_apply] at hj hi
    split_ifs at hj hi <;> first | (cases hj; cases hi; simp_all) | cases hj | cases hi
    all_goals omega
  refine .cons ?_ (.cons ?_ (.cons ?_ .nil)) <;> intro a ha hf <;> have := h _ _ hf <;> simp at ha <;> omega

/-- A free variable and two constrained ones: after a search that asks about 20 (and returns whatever), the variables are 20,
40 and 60. -/
example (r : Except PyErr (List ℝ)) : ∃ t, (fit (fun u => value u 2) (fun _ _ _ => .ask [20] fun _ => .stop r)
    [some 0, some 1, some 2] false {} doc3).2.2 = t ∧ value t 0 = .ok 20 ∧ value t 2 = .ok 60 := by
  have hread : ∀ i ∈ ([0, 1, 2] : List Nat), Readable doc3 i := by
    intro i hi
    obtain ⟨-, ⟨h0, h1, h2⟩, -⟩ := C84_doc
    simp only [List.mem_cons, List.not_mem_nil, or_false] at hi
    rcases hi with rfl | rfl | rfl
    · exact ⟨_, h0⟩
    · exact ⟨_, h1⟩
    · exact ⟨_, h2⟩
  have hc0 : constrained doc3 0 = .ok false := by rw [doc3_eq]; simp [constrained, Function.update_apply]
  have hc1 : constrained doc3 1 = .ok true := by rw [doc3_eq]; simp [constrained, Function.update_apply]
  have hc2 : constrained doc3 2 = .ok true := by rw [doc3_eq]; simp [constrained, Function.update_apply]
  obtain ⟨vars, ders, os, qs, r', t, hf, e⟩ := C123_fit (fun u => value u 2) (fun _ _ _ => .ask [20] fun _ => .stop r)
    [0, 1, 2] {} doc3 hread ⟨0, by simp, hc0⟩
  refine ⟨t, by simp only [List.map_cons, List.map_nil] at e; rw [e], ?_⟩
  have hv : vars = [0] := by rw [hf.free]; simp [hc0, hc1, hc2]
  have hd : ders = [1, 2] := by rw [hf.dependent]; simp [hc0, hc1, hc2]
  subst hv hd
  have e1 : (20 : ℝ) ≤ 1000 := by norm_num
  have e20 : calEval (fun u => value u 2) [0] [1, 2] [20] doc3 = (.ok 60, (cal [0] [1, 2] [20] doc3).2) := by
    have h1 : (cal [0] [1, 2] [20] doc3).1 = .ok () := by
      rw [doc3_eq]
      simp [e1, cal, assignLoop, refreshLoop, setValue, sync, syncLoop, putObj, store, value, Function.update_apply, PyDict.set, docB, docC]
    have h2 := C84_doc.2.2.2.2.2
    unfold calEval
    cases hc : cal [0] [1, 2] [20] doc3 with
    | mk c u =>
      rw [hc] at h1 h2
      simp only at h1 h2
      rw [h1]
      simp only [h2]
  have hdia : Dialogue (calEval (fun u => value u 2) [0] [1, 2]) (.ask [20] fun _ => .stop r) doc3
      [([20], .ok 60)] r (cal [0] [1, 2] [20] doc3).2 := .answered _ _ _ _ _ e20 _ _ _ (.stop r _)
  obtain ⟨hq, -, -⟩ := dialogue_unique hf.dialogue hdia
  obtain ⟨h1, -, h2, -⟩ := C123_last _ _ _ _ _ _ _ _ _ _ hf C84_doc.1 (by decide) hread doc_feeds [20] 60 (by rw [hq]; rfl)
  obtain ⟨o, -, -, -, -, h3⟩ := h1 0 0 20 rfl rfl
  exact ⟨h3, h2⟩

/-- the values found and the values in use differ -/
example : ∃ t, fit (fun u => value u 0) (fun _ _ _ => .ask [5] fun _ => .ask [6] fun _ => .stop (.ok [5])) [some 0] false {} doc1 =
    (.ok (.found [5]), ⟨[0], []⟩, t) ∧ value t 0 = .ok 6 := by
  have ho : doc1.obj 0 = some ⟨10, 0, 1000, 1, [], some none, some 0⟩ := by rw [doc1_eq]; simp
  refine C123_not_returned _ doc1 ?_ 0 _ ho rfl 5 6 (by norm_num) (by norm_num) {} fun t ht => ?_
  · exact .tail (.refl _) (.construct _ ['A'] _ fun i hi => by cases hi)
  · have := ht 0
    rw [ho] at this
    obtain ⟨x, hx⟩ := this
    exact ⟨x, value_free hx rfl⟩

end TEflow.KappaVar
