import Mathlib.Data.List.Induction
import Verif.Lemmas.UtilsDict

/-!
# Properties C09–C12: section lookup, `ExecWrapper`, `get_root_logger`
-/

set_option linter.unusedSimpArgs false
set_option linter.unusedSectionVars false

namespace TEflow
open PyDict Utils

/-- a section is meant by `name` if it is called `name` or `name.<anything>` -/
def SectionMatches (name sect : List Char) : Prop := sect = name ∨ ∃ t, sect = name ++ '.' :: t

theorem prefix_iff (name sect : List Char) : (name ++ ['.']).isPrefixOf sect = true ↔ ∃ t, sect = name ++ '.' :: t := by
  rw [List.isPrefixOf_iff_prefix]
  constructor
  · rintro ⟨t, rfl⟩; exact ⟨t, by simp⟩
  · rintro ⟨t, rfl⟩; exact ⟨t, by simp⟩

theorem afterFirstDot_spec (s : List Char) (h : '.' ∈ s) : ∃ u, s = u ++ '.' :: afterFirstDot s ∧ '.' ∉ u := by
  induction s with
  | nil => simp at h
  | cons c s ih =>
    by_cases hc : c = '.'
    · subst hc; exact ⟨[], by simp [afterFirstDot], by simp⟩
    · obtain ⟨u, h1, h2⟩ := ih (by simpa [Ne.symm hc] using h)
      refine ⟨c :: u, by simp only [afterFirstDot, hc, if_false]; rw [List.cons_append, ← h1], ?_⟩
      simp [h2, Ne.symm hc]

theorem firstDot_unique {u v a b : List Char} (hu : '.' ∉ u) (hv : '.' ∉ v) (e : u ++ '.' :: a = v ++ '.' :: b) :
    u = v ∧ a = b := by
  induction u generalizing v with
  | nil =>
    cases v with
    | nil => simpa using e
    | cons d v => simp only [List.nil_append, List.cons_append, List.cons.injEq] at e; simp [← e.1] at hv
  | cons c u ih =>
    cases v with
    | nil => simp only [List.nil_append, List.cons_append, List.cons.injEq] at e; simp [e.1] at hu
    | cons d v =>
      simp only [List.cons_append, List.cons.injEq] at e
      obtain ⟨h1, h2⟩ := ih (fun h => hu (by simp [h])) (fun h => hv (by simp [h])) e.2
      exact ⟨by rw [e.1, h1], h2⟩

/-- **C09 (found).** `pmatch` returns the first matching section; the type is the name itself for an exact match,
else the text after the first dot of the section name. -/
theorem C09_pmatch_ok {α : Type} (sections : List (List Char × α)) (name : List Char) (content : α) (ty : List Char) :
    pmatch sections name = .ok (content, ty) ↔
      ∃ pre sect post, sections = pre ++ (sect, content) :: post ∧ (∀ p ∈ pre, ¬ SectionMatches name p.1) ∧
        ((sect = name ∧ ty = sect) ∨
          ((∃ t, sect = name ++ '.' :: t) ∧ ∃ u, sect = u ++ '.' :: ty ∧ '.' ∉ u)) := by
  induction sections with
  | nil => simp [pmatch]
  | cons p rest ih =>
    obtain ⟨s, c⟩ := p
    unfold pmatch
    by_cases h1 : (name ++ ['.']).isPrefixOf s = true
    · rw [if_pos h1]
      have hm := (prefix_iff name s).1 h1
      obtain ⟨t, ht⟩ := hm
      have hne : s ≠ name := by
        intro e; rw [e] at ht
        have := congrArg List.length ht; simp at this
      have hdot : '.' ∈ s := by rw [ht]; simp
      constructor
      · intro h
        simp only [Except.ok.injEq, Prod.mk.injEq] at h
        obtain ⟨rfl, rfl⟩ := h
        exact ⟨[], s, rest, rfl, by simp, Or.inr ⟨⟨t, ht⟩, afterFirstDot_spec s hdot⟩⟩
      · rintro ⟨pre, sect, post, he, hpre, hty⟩
        cases pre with
        | cons q pre =>
          simp only [List.cons_append, List.cons.injEq] at he
          exact absurd (Or.inr ⟨t, ht⟩ : SectionMatches name s) (by have := hpre q (by simp); rwa [← he.1] at this)
        | nil =>
          simp only [List.nil_append, List.cons.injEq, Prod.mk.injEq] at he
          obtain ⟨⟨rfl, rfl⟩, _⟩ := he
          rcases hty with ⟨h, _⟩ | ⟨_, u, hu, hud⟩
          · exact absurd h hne
          · obtain ⟨u', hu', hud'⟩ := afterFirstDot_spec s hdot
            have : afterFirstDot s = ty := (firstDot_unique hud' hud (hu'.symm.trans hu)).2
            rw [this]
    · rw [if_neg h1]
      have hnt : ¬ ∃ t, s = name ++ '.' :: t := fun h => h1 ((prefix_iff name s).2 h)
      by_cases h2 : s = name
      · rw [if_pos h2]
        constructor
        · intro h
          simp only [Except.ok.injEq, Prod.mk.injEq] at h
          obtain ⟨rfl, rfl⟩ := h
          exact ⟨[], s, rest, rfl, by simp, Or.inl ⟨h2, rfl⟩⟩
        · rintro ⟨pre, sect, post, he, hpre, hty⟩
          cases pre with
          | cons q pre =>
            simp only [List.cons_append, List.cons.injEq] at he
            exact absurd (Or.inl h2 : SectionMatches name s) (by have := hpre q (by simp); rwa [← he.1] at this)
          | nil =>
            simp only [List.nil_append, List.cons.injEq, Prod.mk.injEq] at he
            obtain ⟨⟨rfl, rfl⟩, _⟩ := he
            rcases hty with ⟨_, h⟩ | ⟨h, _⟩
            · rw [h]
            · exact absurd h hnt
      · rw [if_neg h2, ih]
        constructor
        · rintro ⟨pre, sect, post, he, hpre, hty⟩
          refine ⟨(s, c) :: pre, sect, post, by simp [he], ?_, hty⟩
          intro p hp
          rcases List.mem_cons.1 hp with e | e
          · subst e; rintro (h | h)
            · exact h2 h
            · exact hnt h
          · exact hpre p e
        · rintro ⟨pre, sect, post, he, hpre, hty⟩
          cases pre with
          | nil =>
            simp only [List.nil_append, List.cons.injEq, Prod.mk.injEq] at he
            obtain ⟨⟨rfl, rfl⟩, _⟩ := he
            rcases hty with ⟨h, _⟩ | ⟨h, _⟩
            · exact absurd h h2
            · exact absurd h hnt
          | cons q pre =>
            simp only [List.cons_append, List.cons.injEq] at he
            exact ⟨pre, sect, post, he.2, fun p hp => hpre p (by simp [hp]), hty⟩

/-- **C09 (not found).** `NoSectionError` exactly when no section matches. -/
theorem C09_pmatch_error {α : Type} (sections : List (List Char × α)) (name : List Char) :
    pmatch sections name = .error .noSectionError ↔ ∀ p ∈ sections, ¬ SectionMatches name p.1 := by
  induction sections with
  | nil => simp [pmatch]
  | cons p rest ih =>
    obtain ⟨s, c⟩ := p
    unfold pmatch
    by_cases h1 : (name ++ ['.']).isPrefixOf s = true
    · rw [if_pos h1]
      have := (prefix_iff name s).1 h1
      constructor
      · intro h; cases h
      · intro h; exact absurd (Or.inr this) (h (s, c) (by simp))
    · rw [if_neg h1]
      have hnt : ¬ ∃ t, s = name ++ '.' :: t := fun h => h1 ((prefix_iff name s).2 h)
      by_cases h2 : s = name
      · rw [if_pos h2]
        constructor
        · intro h; cases h
        · intro h; exact absurd (Or.inl h2) (h (s, c) (by simp))
      · rw [if_neg h2, ih]
        constructor
        · intro h q hq
          rcases List.mem_cons.1 hq with e | e
          · subst e; rintro (h | h)
            · exact h2 h
            · exact hnt h
          · exact h q e
        · intro h q hq; exact h q (by simp [hq])

/-- **C09 (dot-free names).** For a name without dots the reported type is what follows `name.`. -/
theorem C09_pmatch_type {α : Type} (sections : List (List Char × α)) (name : List Char) (hn : '.' ∉ name) (content : α)
    (ty : List Char) (h : pmatch sections name = .ok (content, ty)) :
    (ty = name ∧ (name, content) ∈ sections) ∨ (name ++ '.' :: ty, content) ∈ sections := by
  obtain ⟨pre, sect, post, he, _, hty⟩ := (C09_pmatch_ok sections name content ty).1 h
  rcases hty with ⟨h1, h2⟩ | ⟨⟨t, ht⟩, u, hu, hud⟩
  · left; subst h1; exact ⟨h2, by simp [he]⟩
  · right
    have : sect = name ++ '.' :: ty := by
      rw [ht, (firstDot_unique hn hud (ht.symm.trans hu)).2]
    rw [← this, he]; simp

example : pmatch [("DEFAULT".toList, 0), ("kappaX.A".toList, 1), ("kappa.Debye.x".toList, 2), ("kappa".toList, 3)]
    "kappa".toList = .ok (2, "Debye.x".toList) := by decide +kernel

/-! ## ExecWrapper -/

section Exec
variable {ν : Type}

/-- all keyword arguments of a history of `update` calls, in order; `lastWrite` is the last value assigned to `k` -/
def lastWrite (hist : List (PyDict String (Option ν))) (k : String) : Option (Option ν) :=
  get? hist.flatten.reverse k

/-- the wrapper after a history of `update` calls -/
def execAfter (args opts : List String) (hist : List (PyDict String (Option ν))) : Exec ν :=
  hist.foldl Exec.update (Exec.init args opts)

theorem foldl_update_flatten (w : Exec ν) (hist : List (PyDict String (Option ν))) :
    hist.foldl Exec.update w = hist.flatten.foldl Exec.update1 w := by
  induction hist generalizing w with
  | nil => rfl
  | cons h hist ih => simp [ih, Exec.update, List.foldl_append]

theorem exec_inv (args opts : List String) (l : List (String × Option ν)) :
    let w := l.foldl Exec.update1 (Exec.init args opts)
    WF w.args ∧ WF w.opts ∧
    (keys w.args = keys (ofPairs (args.map (fun k => (k, (none : Option ν)))))) ∧
    (∀ k, k ∈ keys w.args ↔ k ∈ args) ∧ (∀ k, k ∈ keys w.opts ↔ k ∈ opts) ∧
    (∀ k ∈ args, get? w.args k = some ((get? l.reverse k).getD none)) ∧
    (∀ k ∈ opts, get? w.opts k = some (if k ∈ args then none else (get? l.reverse k).getD none)) := by
  induction l using List.reverseRecOn with
  | nil =>
    simp only [List.foldl_nil, Exec.init, List.reverse_nil, get?_nil, Option.getD_none, ite_self]
    refine ⟨WF_ofPairs _, WF_ofPairs _, trivial, fun k => mem_keys_ofPairs_map _ _ _, fun k => mem_keys_ofPairs_map _ _ _,
      fun k hk => get?_ofPairs_map _ _ _ hk, fun k hk => get?_ofPairs_map _ _ _ hk⟩
  | append_singleton l p ih =>
    obtain ⟨k0, v0⟩ := p
    simp only [List.foldl_append, List.foldl_cons, List.foldl_nil] at ih ⊢
    obtain ⟨h1, h2, h3, h4, h5, h6, h7⟩ := ih
    generalize hw : l.foldl Exec.update1 (Exec.init args opts) = w at *
    have hrev : ∀ k, get? (l ++ [(k0, v0)]).reverse k = if k0 = k then some v0 else get? l.reverse k := by
      intro k; simp [get?_cons]
    by_cases ha : k0 ∈ args
    · have hu : w.update1 (k0, v0) = { w with args := PyDict.set w.args k0 v0 } := by
        simp [Exec.update1, has_iff, h4, ha]
      rw [hu]
      refine ⟨h1.set _ _, h2, ?_, ?_, h5, ?_, ?_⟩
      · simp only; rw [keys_set, if_pos ((h4 k0).2 ha)]; exact h3
      · intro k; simp only; rw [keys_set, if_pos ((h4 k0).2 ha)]; exact h4 k
      · intro k hk
        simp only
        rw [get?_set, hrev]
        split
        · simp
        · exact h6 k hk
      · intro k hk
        rw [hrev]
        by_cases hka : k ∈ args
        · simp only [hka, if_true]; have := h7 k hk; simpa [hka] using this
        · have : k0 ≠ k := fun e => hka (e ▸ ha)
          simp only [hka, if_false, this]; have := h7 k hk; simpa [hka] using this
    · by_cases ho : k0 ∈ opts
      · have hu : w.update1 (k0, v0) = { w with opts := PyDict.set w.opts k0 v0 } := by
          simp [Exec.update1, has_iff, h4, h5, ha, ho]
        rw [hu]
        refine ⟨h1, h2.set _ _, h3, h4, ?_, ?_, ?_⟩
        · intro k; simp only; rw [keys_set, if_pos ((h5 k0).2 ho)]; exact h5 k
        · intro k hk
          have : k0 ≠ k := fun e => ha (e ▸ hk)
          rw [hrev, if_neg this]; exact h6 k hk
        · intro k hk
          simp only
          rw [get?_set, hrev]
          by_cases e : k0 = k
          · subst e; simp [ha]
          · simp only [e, if_false]; exact h7 k hk
      · have hu : w.update1 (k0, v0) = w := by
          simp [Exec.update1, has_iff, h4, h5, ha, ho]
        rw [hu]
        refine ⟨h1, h2, h3, h4, h5, ?_, ?_⟩
        · intro k hk
          have : k0 ≠ k := fun e => ha (e ▸ hk)
          rw [hrev, if_neg this]; exact h6 k hk
        · intro k hk
          have : k0 ≠ k := fun e => ho (e ▸ hk)
          rw [hrev, if_neg this]; exact h7 k hk

theorem callArgs_values (args opts : List String) (hist : List (PyDict String (Option ν))) (kw : PyDict String (Option ν))
    (hkw : WF kw) :
    let w := execAfter args opts hist
    ∀ k, get? (PyDict.update w.args (kw.filter (fun kv => has w.args kv.1))) k =
      if k ∈ args then some (((get? kw k).or (lastWrite hist k)).getD none) else none := by
  intro w k
  obtain ⟨h1, h2, _, h4, h5, h6, h7⟩ := exec_inv args opts hist.flatten
  have hw : w = hist.flatten.foldl Exec.update1 (Exec.init args opts) := foldl_update_flatten _ _
  rw [← hw] at h1 h2 h4 h5 h6 h7
  rw [get?_update, get?_reverse (hkw.filter _), get?_filter_keys kw (fun q => has w.args q) k]
  by_cases hk : k ∈ args
  · have : has w.args k = true := (has_iff _ _).2 ((h4 k).2 hk)
    simp only [this, if_true, h6 k hk, hk]
    cases hx : get? kw k with
    | none => simp [lastWrite]
    | some v => simp
  · have h8 : ¬ has w.args k = true := fun h => hk ((h4 k).1 ((has_iff _ _).1 h))
    have h9 : get? w.args k = none := (get?_eq_none _ _).2 (fun h => hk ((h4 k).1 h))
    simp [h8, h9, hk]

/-- **C10.** After any history of `update` calls, the object receives for every required argument the value given in the
call, else the last updated one; for every optional argument the value given in the call, else the last updated one, if
any; and nothing else. -/
theorem C10_exec_latest (args opts : List String) (hist : List (PyDict String (Option ν)))
    (kw : PyDict String (Option ν)) (hkw : WF kw) (a : PyDict String (Option ν))
    (h : (execAfter args opts hist).callArgs kw = .ok a) :
    WF a ∧
    (∀ k ∈ args, get? a k = (get? kw k).or (lastWrite hist k)) ∧
    (∀ k ∉ args, k ∈ opts →
      get? a k = (get? kw k).or ((lastWrite hist k).filter (fun v => v.isSome))) ∧
    (∀ k ∉ args, k ∉ opts → get? a k = none) := by
  obtain ⟨h1, h2, _, h4, h5, h6, h7⟩ := exec_inv args opts hist.flatten
  have hw : execAfter args opts hist = hist.flatten.foldl Exec.update1 (Exec.init args opts) := foldl_update_flatten _ _
  rw [← hw] at h1 h2 h4 h5 h6 h7
  have hv := callArgs_values args opts hist kw hkw
  simp only at hv
  generalize execAfter args opts hist = w at *
  simp only [Exec.callArgs] at h
  split at h
  · cases h
  · rename_i hun
    simp only [Except.ok.injEq] at h
    subst h
    set A := PyDict.update w.args (kw.filter (fun kv => has w.args kv.1)) with hA
    have hAwf : WF A := h1.update _
    have hAset : ∀ k ∈ args, ∃ v, ((get? kw k).or (lastWrite hist k)) = some (some v) := by
      intro k hk
      cases hx : ((get? kw k).or (lastWrite hist k)).getD none with
      | some v =>
        refine ⟨v, ?_⟩
        cases hy : (get? kw k).or (lastWrite hist k) with
        | none => rw [hy] at hx; simp at hx
        | some z => rw [hy] at hx; simp at hx; rw [hx]
      | none =>
        exfalso
        apply hun
        have hm : (k, none) ∈ A := by
          apply get?_mem; rw [hv k, if_pos hk, hx]
        intro hnil
        have : (k, (none : Option ν)) ∈ A.filter (fun kv => kv.2.isNone) := List.mem_filter.2 ⟨hm, rfl⟩
        rw [List.map_eq_nil_iff] at hnil
        rw [hnil] at this; simp at this
    refine ⟨(hAwf.update _).update _, ?_, ?_, ?_⟩
    · intro k hk
      obtain ⟨v, hkv⟩ := hAset k hk
      rw [get?_update, get?_update, get?_reverse (hkw.filter _), get?_filter_keys kw (fun q => has w.opts q) k,
        get?_reverse (h2.filter _)]
      have hop : get? (w.opts.filter (fun kv => kv.2.isSome)) k = none := by
        rw [get?_eq_none]
        intro hm
        obtain ⟨p, hp, hpk⟩ := List.mem_map.1 hm
        obtain ⟨hp1, hp2⟩ := List.mem_filter.1 hp
        have hko : k ∈ opts := (h5 k).1 (List.mem_map.2 ⟨p, hp1, hpk⟩)
        have := h7 k hko
        rw [if_pos hk] at this
        have h8 := mem_get? h2 (k := p.1) (v := p.2) hp1
        rw [hpk, this] at h8
        simp only [Option.some.injEq] at h8
        rw [← h8] at hp2; simp at hp2
      rw [hop, hv k, if_pos hk, hkv]
      split
      · cases hx : get? kw k with
        | none => simp
        | some z => rw [hx] at hkv; simp at hkv; simp [hkv]
      · simp
    · intro k hk hko
      rw [get?_update, get?_update, get?_reverse (hkw.filter _), get?_filter_keys kw (fun q => has w.opts q) k,
        get?_reverse (h2.filter _), hv k, if_neg hk, (has_iff _ _).2 ((h5 k).2 hko)]
      simp only [if_true, Option.or_none]
      congr 1
      have h8 := h7 k hko
      rw [if_neg hk] at h8
      cases hl : lastWrite hist k with
      | none =>
        have hl' : get? hist.flatten.reverse k = none := hl
        rw [hl'] at h8
        rw [Option.filter_none, get?_eq_none]
        intro hm
        obtain ⟨p, hp, hpk⟩ := List.mem_map.1 hm
        obtain ⟨hp1, hp2⟩ := List.mem_filter.1 hp
        have h9 := mem_get? h2 (k := p.1) (v := p.2) hp1
        rw [hpk, h8] at h9
        simp only [Option.some.injEq, Option.getD_none] at h9
        rw [← h9] at hp2; simp at hp2
      | some z =>
        have hl' : get? hist.flatten.reverse k = some z := hl
        rw [hl'] at h8
        simp only [Option.getD_some] at h8
        cases z with
        | none =>
          simp only [Option.filter_some, Option.isSome_none]
          rw [if_neg (by simp), get?_eq_none]
          intro hm
          obtain ⟨p, hp, hpk⟩ := List.mem_map.1 hm
          obtain ⟨hp1, hp2⟩ := List.mem_filter.1 hp
          have h9 := mem_get? h2 (k := p.1) (v := p.2) hp1
          rw [hpk, h8] at h9
          simp only [Option.some.injEq] at h9
          rw [← h9] at hp2; simp at hp2
        | some z =>
          simp only [Option.filter_some, Option.isSome_some, if_true]
          exact mem_get? (h2.filter _) (List.mem_filter.2 ⟨get?_mem h8, rfl⟩)
    · intro k hk hko
      rw [get?_update, get?_update, get?_reverse (hkw.filter _), get?_filter_keys kw (fun q => has w.opts q) k,
        get?_reverse (h2.filter _), hv k, if_neg hk]
      have h8 : ¬ has w.opts k = true := fun h => hko ((h5 k).1 ((has_iff _ _).1 h))
      have h9 : get? (w.opts.filter (fun kv => kv.2.isSome)) k = none := by
        rw [get?_eq_none]
        intro hm
        obtain ⟨p, hp, hpk⟩ := List.mem_map.1 hm
        exact hko ((h5 k).1 (List.mem_map.2 ⟨p, (List.mem_filter.1 hp).1, hpk⟩))
      simp [h8, h9]

/-- **C11 (missing arguments).** The call is refused exactly when some required argument has no value, with a `ValueError`
naming exactly the required arguments without value (each once). -/
theorem C11_exec_missing (args opts : List String) (hist : List (PyDict String (Option ν)))
    (kw : PyDict String (Option ν)) (hkw : WF kw) :
    ((∃ a, (execAfter args opts hist).callArgs kw = .ok a) ↔
      ∀ k ∈ args, ∃ v, (get? kw k).or (lastWrite hist k) = some (some v)) ∧
    (∀ e, (execAfter args opts hist).callArgs kw = .error e →
      ∃ names, e = .valueErrorNaming names ∧ names.Nodup ∧
        ∀ k, k ∈ names ↔ k ∈ args ∧ ¬ ∃ v, (get? kw k).or (lastWrite hist k) = some (some v)) := by
  obtain ⟨h1, h2, _, h4, h5, h6, h7⟩ := exec_inv args opts hist.flatten
  have hw : execAfter args opts hist = hist.flatten.foldl Exec.update1 (Exec.init args opts) := foldl_update_flatten _ _
  rw [← hw] at h1 h2 h4 h5 h6 h7
  have hv := callArgs_values args opts hist kw hkw
  simp only at hv
  generalize execAfter args opts hist = w at *
  set A := PyDict.update w.args (kw.filter (fun kv => has w.args kv.1)) with hA
  have hAwf : WF A := h1.update _
  have hunset : ∀ k, k ∈ (A.filter (fun kv => kv.2.isNone)).map Prod.fst ↔
      k ∈ args ∧ ¬ ∃ v, (get? kw k).or (lastWrite hist k) = some (some v) := by
    intro k
    constructor
    · intro hm
      obtain ⟨p, hp, hpk⟩ := List.mem_map.1 hm
      obtain ⟨hp1, hp2⟩ := List.mem_filter.1 hp
      have h9 := mem_get? hAwf (k := p.1) (v := p.2) hp1
      rw [hpk, hv k] at h9
      split at h9
      · rename_i hk
        refine ⟨hk, ?_⟩
        rintro ⟨v, hvv⟩
        rw [hvv] at h9
        simp only [Option.getD_some, Option.some.injEq] at h9
        rw [← h9] at hp2; simp at hp2
      · cases h9
    · rintro ⟨hk, hno⟩
      have : get? A k = some none := by
        rw [hv k, if_pos hk]
        congr 1
        cases hx : (get? kw k).or (lastWrite hist k) with
        | none => rfl
        | some z =>
          cases z with
          | none => rfl
          | some z => exact absurd ⟨z, hx⟩ hno
      exact List.mem_map.2 ⟨(k, none), List.mem_filter.2 ⟨get?_mem this, rfl⟩, rfl⟩
  have hnd : ((A.filter (fun kv => kv.2.isNone)).map Prod.fst).Nodup := hAwf.filter _
  constructor
  · constructor
    · rintro ⟨a, ha⟩ k hk
      simp only [Exec.callArgs, ← hA] at ha
      split at ha
      · cases ha
      · rename_i hun
        by_contra hno
        have := (hunset k).2 ⟨hk, hno⟩
        rw [not_not] at hun
        rw [hun] at this; simp at this
    · intro hall
      have : (A.filter (fun kv => kv.2.isNone)).map Prod.fst = [] := by
        rw [List.eq_nil_iff_forall_not_mem]
        intro k hk
        obtain ⟨hk1, hk2⟩ := (hunset k).1 hk
        exact hk2 (hall k hk1)
      simp only [Exec.callArgs, ← hA, this, ne_eq, not_true_eq_false, if_false]
      exact ⟨_, rfl⟩
  · intro e he
    simp only [Exec.callArgs, ← hA] at he
    split at he
    · simp only [Except.error.injEq] at he
      exact ⟨_, he.symm, hnd, hunset⟩
    · cases he

/-- **C11 (outcome and isolation).** `execute` never changes the stored values; the outcome is the object's result, or
`RuntimeError` whatever the object raised, or the `ValueError` for missing arguments (and then the object is not
called). -/
theorem C11_exec_outcome {ρ : Type} (w : Exec ν) (obj : PyDict String (Option ν) → Except PyErr ρ)
    (kw : PyDict String (Option ν)) :
    (w.execute obj kw).1 = w ∧
    (∀ e, w.callArgs kw = .error e → (w.execute obj kw).2 = .error e) ∧
    (∀ a r, w.callArgs kw = .ok a → obj a = .ok r → (w.execute obj kw).2 = .ok r) ∧
    (∀ a e, w.callArgs kw = .ok a → obj a = .error e → (w.execute obj kw).2 = .error .runtimeError) := by
  refine ⟨?_, ?_, ?_, ?_⟩
  · unfold Exec.execute; split
    · rfl
    · split <;> rfl
  · intro e h; simp [Exec.execute, h]
  · intro a r h h'; simp [Exec.execute, h, h']
  · intro a e h h'; simp [Exec.execute, h, h']

example : (execAfter ["x", "y"] ["z"] [[("x", some 1), ("u", some 7)], [("z", some 3), ("x", some 2)]]).callArgs
    [("y", some 5)] = .ok [("x", some 2), ("y", some 5), ("z", some 3)] := by decide +kernel
example : (execAfter ["x", "y"] ["z"] [[("z", some 3)]]).callArgs [("y", some 5)] =
    .error (.valueErrorNaming ["x"]) := by decide +kernel

end Exec

/-! ## get_root_logger -/

/-- the registry token under which a handler of this target is filed -/
def tokOf (t : Option String) : String := t.getD "console"

/-- every handler on a logger is the registered one for its target, all objects are older than `next` -/
structure LogInv (s : LogState) : Prop where
  registered : ∀ pkg, ∀ h ∈ s.handlers pkg, get? s.registry (pkg, tokOf h.target) = some h
  nodup : ∀ pkg, (s.handlers pkg).Nodup
  fresh : ∀ pkg, ∀ h ∈ s.handlers pkg, h.uid < s.next
  regFresh : ∀ k h, get? s.registry k = some h → h.uid < s.next
  regTok : ∀ k h, get? s.registry k = some h → tokOf h.target = k.2

theorem handlers_install (s : LogState) (pkg token pkg' : String) (t : Option String) :
    (s.install pkg token t).handlers pkg' =
      if pkg = pkg' then
        (match get? s.registry (pkg, token) with
          | some h => (s.handlers pkg).erase h
          | none => s.handlers pkg) ++ [⟨s.next, t⟩]
      else s.handlers pkg' := by
  unfold LogState.install LogState.handlers
  simp only [get?_set]
  split <;> rfl

theorem LogInv.mem_install {s : LogState} (hs : LogInv s) (pkg : String) (t : Option String) (h : Handler) :
    h ∈ (s.install pkg (tokOf t) t).handlers pkg ↔
      h = ⟨s.next, t⟩ ∨ (h ∈ s.handlers pkg ∧ tokOf h.target ≠ tokOf t) := by
  rw [handlers_install, if_pos rfl, List.mem_append, List.mem_singleton, or_comm]
  apply or_congr Iff.rfl
  cases hr : get? s.registry (pkg, tokOf t) with
  | none =>
    simp only
    constructor
    · intro hh
      refine ⟨hh, fun e => ?_⟩
      have := hs.registered pkg h hh
      rw [e, hr] at this; cases this
    · exact fun hh => hh.1
  | some g =>
    simp only
    rw [(hs.nodup pkg).mem_erase_iff]
    constructor
    · rintro ⟨hne, hh⟩
      refine ⟨hh, fun e => ?_⟩
      have := hs.registered pkg h hh
      rw [e, hr] at this
      exact hne (Option.some.inj this).symm
    · rintro ⟨hh, hne⟩
      refine ⟨fun e => ?_, hh⟩
      subst e
      exact hne (hs.regTok _ _ hr)

theorem LogInv.init : LogInv LogState.init :=
  ⟨by simp [LogState.init, LogState.handlers], by simp [LogState.init, LogState.handlers],
    by simp [LogState.init, LogState.handlers], by simp [LogState.init], by simp [LogState.init]⟩

theorem LogInv.install {s : LogState} (hs : LogInv s) (pkg : String) (t : Option String) :
    LogInv (s.install pkg (tokOf t) t) := by
  have hreg : ∀ k, get? (s.install pkg (tokOf t) t).registry k =
      if (pkg, tokOf t) = k then some ⟨s.next, t⟩ else get? s.registry k := by
    intro k; simp only [LogState.install, get?_set]
  have hnext : (s.install pkg (tokOf t) t).next = s.next + 1 := rfl
  have hother : ∀ p, pkg ≠ p → (s.install pkg (tokOf t) t).handlers p = s.handlers p := by
    intro p hp; rw [handlers_install, if_neg hp]
  refine ⟨?_, ?_, ?_, ?_, ?_⟩
  · intro p h hh
    rw [hreg]
    by_cases hp : pkg = p
    · subst hp
      rcases (hs.mem_install pkg t h).1 hh with rfl | ⟨h1, h2⟩
      · simp
      · rw [if_neg (by simpa using Ne.symm h2)]; exact hs.registered _ h h1
    · rw [hother p hp] at hh
      rw [if_neg (by simp [hp])]; exact hs.registered _ h hh
  · intro p
    by_cases hp : pkg = p
    · subst hp
      rw [handlers_install, if_pos rfl]
      have hsub : ∀ l : List Handler, l.Sublist (s.handlers pkg) → (l ++ [(⟨s.next, t⟩ : Handler)]).Nodup := by
        intro l hl
        refine List.nodup_append.2 ⟨(hs.nodup pkg).sublist hl, by simp, ?_⟩
        intro a ha b hb e
        rw [List.mem_singleton] at hb
        subst hb; subst e
        exact absurd (hs.fresh pkg _ (hl.subset ha)) (by simp)
      split
      · exact hsub _ (List.erase_sublist)
      · exact hsub _ (List.Sublist.refl _)
    · rw [hother p hp]; exact hs.nodup p
  · intro p h hh
    rw [hnext]
    by_cases hp : pkg = p
    · subst hp
      rcases (hs.mem_install pkg t h).1 hh with rfl | ⟨h1, h2⟩
      · simp
      · have := hs.fresh _ h h1; omega
    · rw [hother p hp] at hh; have := hs.fresh _ h hh; omega
  · intro k h hk
    rw [hreg] at hk; rw [hnext]
    split at hk
    · cases hk; simp
    · have := hs.regFresh k h hk; omega
  · intro k h hk
    rw [hreg] at hk
    split at hk
    · rename_i e; cases hk; rw [← e]
    · exact hs.regTok k h hk

theorem LogInv.call {s : LogState} (hs : LogInv s) (c : LogCall) : LogInv (s.call c) := by
  unfold LogState.call
  have h1 : LogInv (if c.stdout then s.install c.pkg "console" none else s) := by
    split
    · exact hs.install c.pkg none
    · exact hs
  cases c.filename with
  | none => exact h1
  | some f => exact h1.install c.pkg (some f)

/-- the state after a history of calls -/
def logAfter (cs : List LogCall) : LogState := cs.foldl LogState.call LogState.init

theorem logAfter_inv (cs : List LogCall) : LogInv (logAfter cs) := by
  unfold logAfter
  have : ∀ s, LogInv s → LogInv (cs.foldl LogState.call s) := by
    induction cs with
    | nil => intro s hs; exact hs
    | cons c cs ih => intro s hs; exact ih _ (hs.call c)
  exact this _ LogInv.init

/-- **C12 (no duplicates).** After any history of calls, every logger has at most one handler per target. -/
theorem C12_no_duplicates (cs : List LogCall) (pkg : String) :
    (((logAfter cs).handlers pkg).map Handler.target).Nodup := by
  have h := logAfter_inv cs
  refine List.Nodup.map_on ?_ (h.nodup pkg)
  intro x hx y hy e
  have h1 := h.registered pkg x hx
  have h2 := h.registered pkg y hy
  rw [e, h2] at h1
  exact (Option.some.inj h1).symm

/-- **C12 (latest).** After a call asking for a file, the logger has exactly one handler for it, created by that call;
after a call asking for the console (and not for a file literally named "console") exactly one console handler, created
by that call.  Handlers for other targets, and other loggers, are untouched. -/
theorem C12_latest (cs : List LogCall) (c : LogCall) :
    let s := logAfter cs
    let s' := logAfter (cs ++ [c])
    (∀ f, c.filename = some f → ∃ h, (s'.handlers c.pkg).filter (fun h => h.target = some f) = [h] ∧ s.next ≤ h.uid) ∧
    (c.stdout = true → c.filename ≠ some "console" →
      ∃ h, (s'.handlers c.pkg).filter (fun h => h.target = none) = [h] ∧ s.next ≤ h.uid) ∧
    (∀ h, (∀ f, c.filename = some f → tokOf h.target ≠ f) → (c.stdout = true → tokOf h.target ≠ "console") →
      (h ∈ s'.handlers c.pkg ↔ h ∈ s.handlers c.pkg)) ∧
    (∀ pkg, pkg ≠ c.pkg → s'.handlers pkg = s.handlers pkg) := by
  intro s s'
  have hs : LogInv s := logAfter_inv cs
  have hs' : LogInv s' := logAfter_inv _
  have e : s' = s.call c := by simp [s', s, logAfter]
  -- the only handler of a target
  have only : ∀ h ∈ s'.handlers c.pkg, (s'.handlers c.pkg).filter (fun g => g.target = h.target) = [h] := by
    intro h hh
    have hp : ((s'.handlers c.pkg).filter (fun g => g.target = h.target)).Perm [h] := by
      refine (List.perm_ext_iff_of_nodup ((hs'.nodup c.pkg).filter _) (by simp)).2 ?_
      intro a
      simp only [List.mem_filter, decide_eq_true_eq, List.mem_singleton]
      constructor
      · rintro ⟨h1, h2⟩
        have h3 := hs'.registered _ a h1
        rw [h2, hs'.registered _ h hh] at h3
        exact (Option.some.inj h3).symm
      · rintro rfl; exact ⟨hh, rfl⟩
    exact List.perm_singleton.1 hp
  set s1 := if c.stdout then s.install c.pkg "console" none else s with hs1
  have hs1i : LogInv s1 := by
    rw [hs1]; split
    · exact hs.install c.pkg none
    · exact hs
  have hnext : s.next ≤ s1.next := by
    rw [hs1]; split
    · exact Nat.le_succ _
    · exact le_refl _
  have hc : s' = match c.filename with
      | none => s1
      | some f => s1.install c.pkg f (some f) := by rw [e]; rfl
  refine ⟨?_, ?_, ?_, ?_⟩
  · intro f hf
    have hm : (⟨s1.next, some f⟩ : Handler) ∈ s'.handlers c.pkg := by
      rw [hc, hf]; exact (hs1i.mem_install c.pkg (some f) _).2 (Or.inl rfl)
    exact ⟨_, only _ hm, hnext⟩
  · intro hst hfc
    have hm1 : (⟨s.next, none⟩ : Handler) ∈ s1.handlers c.pkg := by
      rw [hs1, if_pos hst]; exact (hs.mem_install c.pkg none _).2 (Or.inl rfl)
    have hm : (⟨s.next, none⟩ : Handler) ∈ s'.handlers c.pkg := by
      rw [hc]
      cases hf : c.filename with
      | none => exact hm1
      | some f =>
        refine (hs1i.mem_install c.pkg (some f) _).2 (Or.inr ⟨hm1, ?_⟩)
        simp only [tokOf, Option.getD_none, Option.getD_some]
        intro e2; exact hfc (by rw [hf, e2])
    exact ⟨_, only _ hm, le_refl _⟩
  · intro h hf hst
    have hA : h ∈ s1.handlers c.pkg ↔ h ∈ s.handlers c.pkg := by
      rw [hs1]
      split
      · rename_i hh
        rw [show ("console" : String) = tokOf none from rfl, hs.mem_install c.pkg none h]
        constructor
        · rintro (h1 | h1)
          · exact absurd (by rw [h1]; rfl) (hst hh)
          · exact h1.1
        · intro h1; exact Or.inr ⟨h1, hst hh⟩
      · exact Iff.rfl
    rw [hc]
    cases hff : c.filename with
    | none => exact hA
    | some f =>
      simp only
      rw [show s1.install c.pkg f (some f) = s1.install c.pkg (tokOf (some f)) (some f) from rfl,
        hs1i.mem_install c.pkg (some f) h, hA]
      constructor
      · rintro (h1 | h1)
        · exact absurd (by rw [h1]; rfl) (hf f hff)
        · exact h1.1
      · intro h1; exact Or.inr ⟨h1, hf f hff⟩
  · intro pkg hp
    have h1 : s1.handlers pkg = s.handlers pkg := by
      rw [hs1]; split
      · rw [handlers_install, if_neg (Ne.symm hp)]
      · rfl
    rw [hc]
    cases c.filename with
    | none => exact h1
    | some f => simp only; rw [handlers_install, if_neg (Ne.symm hp), h1]

/-- **C12 (limit of the above).** A log file literally named "console" evicts the console handler. -/
theorem C12_console_file_collision :
    ((logAfter [⟨"teflow", true, none⟩, ⟨"teflow", false, some "console"⟩]).handlers "teflow").map Handler.target =
      [some "console"] := by decide +kernel

example : ((logAfter [⟨"teflow", true, none⟩, ⟨"teflow", true, some "a.log"⟩, ⟨"teflow", true, some "a.log"⟩,
    ⟨"other", true, none⟩]).handlers "teflow").map Handler.target = [none, some "a.log"] := by decide +kernel

end TEflow
