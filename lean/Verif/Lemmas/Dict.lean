import Mathlib.Data.List.Nodup
import Mathlib.Data.List.Perm.Basic
import Verif.Model.Basic

/-! # Lemmas about insertion-ordered dictionaries -/

set_option linter.unusedSectionVars false
set_option linter.unusedSimpArgs false

namespace TEflow.PyDict
variable {κ ν : Type} [DecidableEq κ]

@[simp] theorem keys_nil : keys ([] : PyDict κ ν) = [] := rfl
@[simp] theorem keys_cons (p : κ × ν) (d : PyDict κ ν) : keys (p :: d) = p.1 :: keys d := rfl
@[simp] theorem keys_append (a b : PyDict κ ν) : keys (a ++ b) = keys a ++ keys b := by simp [keys]
@[simp] theorem get?_nil (k : κ) : get? ([] : PyDict κ ν) k = none := rfl
theorem get?_cons (p : κ × ν) (d : PyDict κ ν) (k : κ) :
    get? (p :: d) k = if p.1 = k then some p.2 else get? d k := rfl

theorem isSome_get? (d : PyDict κ ν) (k : κ) : (get? d k).isSome ↔ k ∈ keys d := by
  induction d with
  | nil => simp
  | cons p d ih =>
    by_cases h : p.1 = k
    · simp [get?_cons, h]
    · have : ¬ k = p.1 := fun e => h e.symm
      simp [get?_cons, h, ih, this]

theorem has_iff (d : PyDict κ ν) (k : κ) : has d k = true ↔ k ∈ keys d := isSome_get? d k

theorem get?_eq_none (d : PyDict κ ν) (k : κ) : get? d k = none ↔ k ∉ keys d := by
  rw [← isSome_get?]; cases get? d k <;> simp

theorem get?_mem {d : PyDict κ ν} {k : κ} {v : ν} (h : get? d k = some v) : (k, v) ∈ d := by
  induction d with
  | nil => simp at h
  | cons p d ih =>
    rw [get?_cons] at h
    split at h
    · rename_i hk; cases p; simp_all
    · simp [ih h]

theorem mem_get? {d : PyDict κ ν} (hd : WF d) {k : κ} {v : ν} (h : (k, v) ∈ d) : get? d k = some v := by
  induction d with
  | nil => simp at h
  | cons p d ih =>
    simp only [WF, keys_cons, List.nodup_cons] at hd
    rw [get?_cons]
    rcases List.mem_cons.1 h with h | h
    · subst h; simp
    · have : k ∈ keys d := List.mem_map.2 ⟨_, h, rfl⟩
      rw [if_neg (fun e : p.1 = k => hd.1 (e ▸ this))]
      exact ih hd.2 h

theorem mem_iff_get? {d : PyDict κ ν} (hd : WF d) {k : κ} {v : ν} : (k, v) ∈ d ↔ get? d k = some v :=
  ⟨mem_get? hd, get?_mem⟩

theorem get?_append (a b : PyDict κ ν) (k : κ) : get? (a ++ b) k = (get? a k).or (get? b k) := by
  induction a with
  | nil => simp
  | cons p a ih => simp only [List.cons_append, get?_cons, ih]; split <;> simp

theorem get?_set (d : PyDict κ ν) (k k' : κ) (v : ν) :
    get? (set d k v) k' = if k = k' then some v else get? d k' := by
  induction d with
  | nil => simp [set, get?_cons]
  | cons p d ih =>
    obtain ⟨q, w⟩ := p
    simp only [set]
    by_cases h : q = k
    · subst h; simp only [if_true, get?_cons]; split <;> rfl
    · simp only [if_neg h, get?_cons, ih]
      by_cases h2 : q = k'
      · subst h2; simp [Ne.symm h]
      · simp [h2]

theorem keys_set (d : PyDict κ ν) (k : κ) (v : ν) :
    keys (set d k v) = if k ∈ keys d then keys d else keys d ++ [k] := by
  induction d with
  | nil => simp [set]
  | cons p d ih =>
    obtain ⟨q, w⟩ := p
    simp only [set]
    by_cases h : q = k
    · subst h; simp
    · have h' : ¬ k = q := fun e => h e.symm
      simp only [if_neg h, keys_cons, ih, List.mem_cons, h', false_or]
      split <;> simp

theorem mem_keys_set (d : PyDict κ ν) (k k' : κ) (v : ν) : k' ∈ keys (set d k v) ↔ k' = k ∨ k' ∈ keys d := by
  rw [keys_set]; split
  · constructor
    · intro h; exact Or.inr h
    · rintro (h | h)
      · subst h; assumption
      · exact h
  · simp [or_comm]

theorem WF.set {d : PyDict κ ν} (h : WF d) (k : κ) (v : ν) : WF (set d k v) := by
  unfold WF at *
  rw [keys_set]; split
  · exact h
  · rename_i hk; exact List.nodup_append.2 ⟨h, by simp, by
    intro a ha b hb e; rw [List.mem_singleton] at hb; subst hb; subst e; exact hk ha⟩

theorem set_of_not_mem {d : PyDict κ ν} {k : κ} (h : k ∉ keys d) (v : ν) : set d k v = d ++ [(k, v)] := by
  induction d with
  | nil => rfl
  | cons p d ih =>
    simp only [keys_cons, List.mem_cons, not_or] at h
    simp [set, Ne.symm h.1, ih h.2]

theorem erase_eq_filter {d : PyDict κ ν} (h : WF d) (k : κ) :
    erase d k = d.filter (fun p => p.1 ≠ k) := by
  induction d with
  | nil => rfl
  | cons p d ih =>
    obtain ⟨q, w⟩ := p
    simp only [WF, keys_cons, List.nodup_cons] at h
    by_cases hq : q = k
    · subst hq
      have : d.filter (fun p => p.1 ≠ q) = d := by
        rw [List.filter_eq_self]
        intro a ha
        have : a.1 ∈ keys d := List.mem_map.2 ⟨a, ha, rfl⟩
        simp only [ne_eq, decide_not, Bool.not_eq_eq_eq_not, Bool.not_true, decide_eq_false_iff_not]
        exact fun e => h.1 (e ▸ this)
      simp only [ne_eq, decide_not] at this
      simp [erase, List.filter_cons, this]
    · simp [erase, hq, ih h.2, List.filter_cons]

theorem WF.filter {d : PyDict κ ν} (h : WF d) (p : κ × ν → Bool) : WF (d.filter p) :=
  List.Nodup.sublist (List.Sublist.map _ (List.filter_sublist)) h

theorem WF.sublist {d e : PyDict κ ν} (h : WF d) (hs : e.Sublist d) : WF e :=
  List.Nodup.sublist (List.Sublist.map _ hs) h

theorem WF.erase {d : PyDict κ ν} (h : WF d) (k : κ) : WF (erase d k) := by
  rw [erase_eq_filter h]; exact h.filter _

theorem keys_filter_keys (d : PyDict κ ν) (p : κ → Bool) :
    keys (d.filter (fun e => p e.1)) = (keys d).filter p := by
  simp [keys, List.filter_map, Function.comp_def]

theorem keys_erase {d : PyDict κ ν} (h : WF d) (k : κ) :
    keys (erase d k) = (keys d).filter (fun q => decide (q ≠ k)) := by
  rw [erase_eq_filter h]; exact keys_filter_keys d (fun q => decide (q ≠ k))

theorem get?_filter_keys (d : PyDict κ ν) (p : κ → Bool) (k : κ) :
    get? (d.filter (fun e => p e.1)) k = if p k then get? d k else none := by
  induction d with
  | nil => simp
  | cons e d ih =>
    by_cases h : p e.1
    · simp only [List.filter_cons, h, if_true, get?_cons, ih]
      by_cases hk : e.1 = k
      · subst hk; simp [h]
      · simp [hk]
    · simp only [List.filter_cons, h, get?_cons, if_false, Bool.false_eq_true]
      by_cases hk : e.1 = k
      · subst hk; simpa [h] using ih
      · simpa [hk] using ih

theorem get?_erase {d : PyDict κ ν} (h : WF d) (k k' : κ) :
    get? (erase d k) k' = if k = k' then none else get? d k' := by
  rw [erase_eq_filter h]
  have := get?_filter_keys d (fun q => decide (q ≠ k)) k'
  simp only [ne_eq, decide_not, Bool.not_eq_eq_eq_not, Bool.not_true, decide_eq_false_iff_not] at this ⊢
  rw [this]
  by_cases hk : k = k'
  · subst hk; simp
  · simp [hk, Ne.symm hk]

theorem update_nil (d : PyDict κ ν) : update d [] = d := rfl
theorem update_cons (d : PyDict κ ν) (p : κ × ν) (ps : List (κ × ν)) :
    update d (p :: ps) = update (set d p.1 p.2) ps := rfl
theorem update_append (d : PyDict κ ν) (ps qs : List (κ × ν)) :
    update d (ps ++ qs) = update (update d ps) qs := by simp [update]

theorem WF.update {d : PyDict κ ν} (h : WF d) (ps : List (κ × ν)) : WF (update d ps) := by
  induction ps generalizing d with
  | nil => exact h
  | cons p ps ih => exact ih (h.set _ _)

theorem WF_nil : WF ([] : PyDict κ ν) := by simp [WF]
theorem WF_ofPairs (ps : List (κ × ν)) : WF (ofPairs ps) := WF_nil.update ps

theorem mem_keys_update (d : PyDict κ ν) (ps : List (κ × ν)) (k : κ) :
    k ∈ keys (update d ps) ↔ k ∈ keys d ∨ k ∈ keys ps := by
  induction ps generalizing d with
  | nil => simp [update_nil]
  | cons p ps ih =>
    rw [update_cons, ih, mem_keys_set]; simp only [keys_cons, List.mem_cons]; tauto

/-- the value after `update` is the last one assigned -/
theorem get?_update (d : PyDict κ ν) (ps : List (κ × ν)) (k : κ) :
    get? (update d ps) k = (get? ps.reverse k).or (get? d k) := by
  induction ps generalizing d with
  | nil => simp [update_nil]
  | cons p ps ih =>
    rw [update_cons, ih, get?_set, List.reverse_cons, get?_append]
    cases get? ps.reverse k with
    | some x => simp
    | none => simp [get?_cons]; split <;> simp

theorem get?_reverse {d : PyDict κ ν} (h : WF d) (k : κ) : get? d.reverse k = get? d k := by
  have h2 : WF (d.reverse : PyDict κ ν) := by
    unfold WF keys at *; rw [List.map_reverse]; exact List.nodup_reverse.2 h
  cases hx : get? d k with
  | some v => exact mem_get? h2 (List.mem_reverse.2 (get?_mem hx))
  | none =>
    rw [get?_eq_none] at hx ⊢
    simpa [keys] using hx

theorem update_of_disjoint {d ps : PyDict κ ν} (h : WF ps) (hd : ∀ k ∈ keys ps, k ∉ keys d) :
    update d ps = d ++ ps := by
  induction ps generalizing d with
  | nil => simp [update_nil]
  | cons p ps ih =>
    simp only [WF, keys_cons, List.nodup_cons] at h
    rw [update_cons, set_of_not_mem (hd _ (by simp)), ih h.2]
    · simp
    · intro k hk
      simp only [keys_append, keys_cons, keys_nil, List.mem_append, List.mem_singleton, not_or]
      exact ⟨hd k (by simp [hk]), fun e => h.1 (e ▸ hk)⟩

theorem ofPairs_of_WF {ps : PyDict κ ν} (h : WF ps) : ofPairs ps = ps := by
  unfold ofPairs; rw [update_of_disjoint h (by simp)]; rfl

/-- two dictionaries with the same key order and the same values are equal -/
theorem ext {d e : PyDict κ ν} (hd : WF d) (hk : keys d = keys e)
    (h : ∀ k ∈ keys d, get? d k = get? e k) : d = e := by
  induction d generalizing e with
  | nil => cases e with
    | nil => rfl
    | cons p e => simp at hk
  | cons p d ih =>
    cases e with
    | nil => simp at hk
    | cons q e =>
      simp only [keys_cons, List.cons.injEq] at hk
      simp only [WF, keys_cons, List.nodup_cons] at hd
      obtain ⟨a, b⟩ := p
      obtain ⟨a', b'⟩ := q
      simp only at hk
      obtain ⟨rfl, hk⟩ := hk
      have h1 := h a (by simp)
      simp only [get?_cons, if_true] at h1
      cases h1
      congr 1
      apply ih hd.2 hk
      intro k hkk
      have := h k (by simp [hkk])
      have hne : a ≠ k := fun e => hd.1 (e ▸ hkk)
      simpa [get?_cons, hne] using this

theorem perm_of_get? {d e : PyDict κ ν} (hd : WF d) (he : WF e) (h : ∀ k, get? d k = get? e k) : d.Perm e := by
  have nd : ∀ {d : PyDict κ ν}, WF d → d.Nodup := fun {d} hd => List.Nodup.of_map _ hd
  refine (List.perm_ext_iff_of_nodup (nd hd) (nd he)).2 ?_
  rintro ⟨k, v⟩
  rw [mem_iff_get? hd, mem_iff_get? he, h]

theorem WF.nodup {d : PyDict κ ν} (hd : WF d) : d.Nodup := List.Nodup.of_map _ hd

theorem WF.perm {d e : PyDict κ ν} (hd : WF d) (h : d.Perm e) : WF e :=
  (List.Perm.nodup_iff (h.map Prod.fst)).1 hd

theorem get?_perm {d e : PyDict κ ν} (hd : WF d) (h : d.Perm e) (k : κ) : get? d k = get? e k := by
  have he := hd.perm h
  cases hx : get? d k with
  | some v => exact (mem_get? he (h.mem_iff.1 (get?_mem hx))).symm
  | none =>
    symm; rw [get?_eq_none] at hx ⊢
    intro hk; exact hx ((h.map Prod.fst).mem_iff.2 hk)

end TEflow.PyDict
