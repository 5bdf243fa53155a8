import Mathlib.Data.List.Sort
import Mathlib.Data.List.Perm.Basic
import Verif.Lemmas.Dict
import Verif.Model.Utils

/-! # Lemmas for `AttrDict` and `ListDict` -/

set_option linter.unusedSectionVars false
set_option linter.unusedSimpArgs false

namespace TEflow.Utils
open PyDict
variable {κ ν : Type} [DecidableEq κ]

theorem popAll_spec (ks : List κ) (d popped : PyDict κ ν) (hd : WF d) (hp : WF popped)
    (hn : ks.Nodup) (hin : ∀ k ∈ ks, k ∈ keys d) (hdis : ∀ k ∈ keys d, k ∉ keys popped) :
    ∃ p', popAll d popped ks = (d.filter (fun e => e.1 ∉ ks), .ok p') ∧ WF p' ∧
      p'.Perm (popped ++ d.filter (fun e => e.1 ∈ ks)) := by
  induction ks generalizing d popped with
  | nil => exact ⟨popped, by simp [popAll], hp, by simp⟩
  | cons k ks ih =>
    obtain ⟨v, hv⟩ := Option.isSome_iff_exists.1 ((isSome_get? d k).2 (hin k (by simp)))
    have hkp : k ∉ keys popped := hdis k (hin k (by simp))
    have hn' := List.nodup_cons.1 hn
    obtain ⟨p', h1, h2, h3⟩ := ih (erase d k) (PyDict.set popped k v) (hd.erase k) (hp.set k v) hn'.2
      (by
        intro q hq
        have hqk : q ≠ k := fun e => hn'.1 (e ▸ hq)
        rw [keys_erase hd]
        simp [hin q (by simp [hq]), hqk])
      (by
        intro q hq
        rw [keys_erase hd] at hq
        simp only [ne_eq, decide_not, List.mem_filter, Bool.not_eq_eq_eq_not, Bool.not_true,
          decide_eq_false_iff_not] at hq
        rw [mem_keys_set]
        exact fun h => h.elim hq.2 (hdis q hq.1))
    refine ⟨p', ?_, h2, h3.trans ?_⟩
    · simp only [popAll, hv]
      rw [h1, erase_eq_filter hd, List.filter_filter]
      congr 1
      apply List.filter_congr
      intro e _
      by_cases h : e.1 = k <;> simp [h]
    · rw [set_of_not_mem hkp, List.append_assoc]
      refine List.Perm.append_left _ ?_
      rw [erase_eq_filter hd, List.filter_filter]
      apply (List.perm_ext_iff_of_nodup ?_ ?_).2
      · rintro ⟨q, w⟩
        by_cases h : q = k
        · subst h
          have : (q, w) ∈ d ↔ w = v := by rw [mem_iff_get? hd, hv]; simp [eq_comm]
          simp [this]
        · simp [h]
      · refine List.nodup_append.2 ⟨by simp, hd.nodup.filter _, ?_⟩
        rintro a ha ⟨q, w⟩ hb e
        simp only [List.mem_singleton] at ha
        subst ha
        cases e
        simp at hb
      · exact hd.nodup.filter _

theorem numberOf_ok (indices : PyDict κ Nat) (f : κ → Nat) (l : List κ) (h : ∀ k ∈ l, get? indices k = some (f k)) :
    numberOf indices l = .ok (l.map (fun k => (f k, k))) := by
  induction l with
  | nil => rfl
  | cons k l ih =>
    simp only [numberOf, h k (by simp)]
    rw [ih (fun q hq => h q (by simp [hq]))]
    rfl

theorem sortNum_perm (l : List (Nat × κ)) : (sortNum l).Perm l := List.perm_insertionSort _ _

theorem sortNum_pairwise (l : List (Nat × κ)) : (sortNum l).Pairwise (fun a b => a.1 ≤ b.1) := by
  have : Std.Total (fun a b : Nat × κ => a.1 ≤ b.1) := ⟨fun a b => by omega⟩
  have : IsTrans (Nat × κ) (fun a b : Nat × κ => a.1 ≤ b.1) := ⟨fun a b c => by omega⟩
  exact List.pairwise_insertionSort _ l

/-- strictly increasing lists with the same elements are equal -/
theorem eq_of_perm_strict {l m : List (Nat × κ)} (h : l.Perm m)
    (hl : l.Pairwise (fun a b => a.1 < b.1)) (hm : m.Pairwise (fun a b => a.1 < b.1)) : l = m := by
  refine h.eq_of_pairwise ?_ hl hm
  intro a b _ _ h1 h2
  omega

theorem strict_of_le {l : List (Nat × κ)} (h : l.Pairwise (fun a b => a.1 ≤ b.1))
    (hn : (l.map Prod.fst).Nodup) : l.Pairwise (fun a b => a.1 < b.1) := by
  rw [List.nodup_iff_pairwise_ne, List.pairwise_map] at hn
  exact (h.and hn).imp (by intro a b h; omega)

theorem sortNum_strict {l : List (Nat × κ)} (hn : (l.map Prod.fst).Nodup) :
    (sortNum l).Pairwise (fun a b => a.1 < b.1) :=
  strict_of_le (sortNum_pairwise l) (((sortNum_perm l).map Prod.fst).nodup_iff.2 hn)

/-- The scan never fails; the entries it does not move are, in order, a prefix of the sorted list. -/
theorem scan_spec (s : List (Nat × κ)) (hs : s.Pairwise (fun a b => a.1 < b.1))
    (rest : List (Nat × κ)) (hr : ∀ x ∈ rest, x ∈ s) (m : Nat) (toMove : List (Nat × κ))
    (hlen : m + rest.length ≤ s.length) :
    ∃ m' moved, scan s m toMove rest = .ok (toMove ++ moved) ∧ m ≤ m' ∧ moved.Sublist rest ∧
      m' ≤ s.length ∧
      rest.Perm ((s.take m').drop m ++ moved) ∧
      ((rest.map Prod.fst).Nodup → (rest.filter (fun x => x ∉ moved)) = (s.take m').drop m) := by
  induction rest generalizing m toMove with
  | nil => exact ⟨m, [], by simp [scan], le_refl _, by simp, by simpa using hlen, by simp, by simp⟩
  | cons x rest ih =>
    obtain ⟨num, key⟩ := x
    simp only [List.length_cons] at hlen
    have hm : m < s.length := by omega
    have hsm : s[m]? = some s[m] := by simp [hm]
    simp only [scan, hsm]
    by_cases hx : num = s[m].1
    · -- the entry is in place
      have hxs : (num, key) = s[m] := by
        have hmem := hr (num, key) (by simp)
        obtain ⟨i, hi, hi2⟩ := List.mem_iff_getElem.1 hmem
        have : i = m := by
          rcases Nat.lt_trichotomy i m with h | h | h
          · have := List.pairwise_iff_getElem.1 hs i m hi hm h
            rw [hi2] at this; simp at this; omega
          · exact h
          · have := List.pairwise_iff_getElem.1 hs m i hm hi h
            rw [hi2] at this; simp at this; omega
        subst this; exact hi2.symm
      obtain ⟨m', moved, h1, h2, h3, hl, h4, h5⟩ :=
        ih (fun y hy => hr y (by simp [hy])) (m + 1) toMove (by omega)
      have hdrop : (s.take m').drop m = (num, key) :: (s.take m').drop (m + 1) := by
        rw [hxs]
        have hlt : m < (s.take m').length := by simp; omega
        rw [List.drop_eq_getElem_cons hlt]
        simp
      refine ⟨m', moved, by simp [hx, h1], by omega, h3.trans (by simp), hl, ?_, ?_⟩
      · rw [hdrop]; simpa using h4
      · intro hn
        simp only [List.map_cons, List.nodup_cons] at hn
        rw [hdrop, List.filter_cons, if_pos, h5 hn.2]
        simp only [decide_not, Bool.not_eq_eq_eq_not, Bool.not_true, decide_eq_false_iff_not]
        intro hmv
        exact hn.1 (List.mem_map.2 ⟨(num, key), h3.subset hmv, rfl⟩)
    · obtain ⟨m', moved, h1, h2, h3, hl, h4, h5⟩ :=
        ih (fun y hy => hr y (by simp [hy])) m (toMove ++ [(num, key)]) (by omega)
      refine ⟨m', (num, key) :: moved, by simp [hx, h1], h2, ?_, hl, ?_, ?_⟩
      · simpa using h3
      · exact (List.Perm.cons _ h4).trans List.perm_middle.symm
      · intro hn
        simp only [List.map_cons, List.nodup_cons] at hn
        rw [List.filter_cons, if_neg (by simp), ← h5 hn.2]
        apply List.filter_congr
        intro y hy
        have : y ≠ (num, key) := by
          intro e; subst e; exact hn.1 (List.mem_map.2 ⟨_, hy, rfl⟩)
        simp [this]

/-- moving keys to the end one after the other -/
theorem moveAll_spec (ks : List κ) (hn : ks.Nodup) (d : PyDict κ ν) (hd : WF d) (hin : ∀ k ∈ ks, k ∈ keys d) :
    ∃ d', moveAll d ks = (d', .ok ()) ∧ keys d' = (keys d).filter (fun k => k ∉ ks) ++ ks ∧
      d'.Perm d := by
  induction ks generalizing d with
  | nil => exact ⟨d, by simp [moveAll], by simp, List.Perm.refl _⟩
  | cons k ks ih =>
    have hn' := List.nodup_cons.1 hn
    obtain ⟨v, hv⟩ := Option.isSome_iff_exists.1 ((isSome_get? d k).2 (hin k (by simp)))
    have hkk : keys (erase d k) = (keys d).filter (fun q => decide (q ≠ k)) := keys_erase hd k
    have hwf : WF (erase d k ++ [(k, v)]) := by
      unfold WF; rw [keys_append, hkk]
      refine List.nodup_append.2 ⟨List.Nodup.filter _ hd, by simp, ?_⟩
      intro a ha b hb e
      simp only [keys_cons, keys_nil, List.mem_singleton] at hb
      subst hb; subst e; simp at ha
    obtain ⟨d', h1, h2, h3⟩ := ih hn'.2 (erase d k ++ [(k, v)]) hwf (by
      intro q hq
      have hqk : q ≠ k := fun e => hn'.1 (e ▸ hq)
      rw [keys_append, hkk]
      simp [hin q (by simp [hq]), hqk])
    refine ⟨d', by simp [moveAll, moveToEnd, hv, h1], ?_, h3.trans ?_⟩
    · rw [h2, keys_append, hkk]
      simp only [List.filter_append, List.filter_filter, keys_cons, keys_nil]
      have : List.filter (fun q => decide (q ∉ ks)) [k] = [k] := by simp [hn'.1]
      rw [this, List.append_assoc, List.singleton_append]
      congr 1
      apply List.filter_congr
      intro q _
      by_cases h : q = k <;> simp [h]
    · apply perm_of_get? hwf hd
      intro q
      rw [get?_append, get?_erase hd]
      by_cases h : k = q
      · subst h; simp [get?_cons, hv]
      · cases get? d q <;> simp [get?_cons, h]

theorem lastIndex_get (ks : List κ) (n : Nat) (d : PyDict κ Nat) (k : κ) (h : k ∈ ks) :
    ∃ i, ks[i]? = some k ∧ (∀ j, i < j → ks[j]? ≠ some k) ∧
      get? (update d (ks.zipIdx n)) k = some (n + i) := by
  induction ks generalizing n d with
  | nil => simp at h
  | cons a ks ih =>
    rw [List.zipIdx_cons, update_cons]
    by_cases hk : k ∈ ks
    · obtain ⟨i, h1, h2, h3⟩ := ih (n + 1) (PyDict.set d a n) hk
      refine ⟨i + 1, by simpa using h1, ?_, by rw [h3]; congr 1; omega⟩
      intro j hj
      cases j with
      | zero => omega
      | succ j => simpa using h2 j (by omega)
    · have hka : k = a := by simpa [hk] using h
      subst hka
      refine ⟨0, by simp, ?_, ?_⟩
      · intro j hj
        cases j with
        | zero => omega
        | succ j =>
          simp only [List.getElem?_cons_succ, ne_eq]
          intro e; exact hk (List.mem_of_getElem? e)
      · rw [get?_update]
        have : get? (ks.zipIdx (n + 1)).reverse k = none := by
          rw [get?_eq_none]; simp [keys, hk]
        rw [this]; simp [get?_set]

end TEflow.Utils

namespace TEflow.Utils
open PyDict
variable {κ ν : Type} [DecidableEq κ]

theorem column_ok_iff (k : κ) (objs : List (PyDict κ ν)) (c : List ν) :
    column k objs = .ok c ↔ objs.map (fun o => get? o k) = c.map some := by
  induction objs generalizing c with
  | nil => cases c <;> simp [column]
  | cons o os ih =>
    simp only [column, item, List.map_cons]
    cases h : get? o k with
    | none => cases c <;> simp
    | some v =>
      simp only
      cases hc : column k os with
      | error e =>
        simp only [reduceCtorEq, false_iff]
        intro h2
        cases c with
        | nil => simp at h2
        | cons x c =>
          simp only [List.map_cons, List.cons.injEq] at h2
          rw [(ih c).2 h2.2] at hc; simp at hc
      | ok vs =>
        have := (ih vs).1 hc
        rw [this]
        cases c with
        | nil => simp
        | cons x c =>
          simp only [Except.ok.injEq, List.cons.injEq, List.map_cons, Option.some.injEq]
          constructor
          · rintro ⟨rfl, rfl⟩; exact ⟨rfl, rfl⟩
          · rintro ⟨rfl, h⟩
            exact ⟨rfl, List.map_injective_iff.2 (Option.some_injective _) h⟩

theorem column_error (k : κ) (objs : List (PyDict κ ν)) (e : PyErr) :
    column k objs = .error e → e = .keyError ∧ ∃ o ∈ objs, k ∉ keys o := by
  induction objs with
  | nil => simp [column]
  | cons o os ih =>
    simp only [column, item]
    cases h : get? o k with
    | none =>
      intro he
      simp only [Except.error.injEq] at he
      exact ⟨he.symm, o, by simp, (get?_eq_none o k).1 h⟩
    | some v =>
      simp only
      cases hc : column k os with
      | error e' =>
        intro he
        simp only [Except.error.injEq] at he
        subst he
        obtain ⟨h1, o', h2, h3⟩ := ih hc
        exact ⟨h1, o', by simp [h2], h3⟩
      | ok vs => simp

theorem column_exists (k : κ) (objs : List (PyDict κ ν)) (h : ∀ o ∈ objs, k ∈ keys o) :
    ∃ c, column k objs = .ok c := by
  cases hc : column k objs with
  | ok c => exact ⟨c, rfl⟩
  | error e =>
    obtain ⟨_, o, h2, h3⟩ := column_error k objs e hc
    exact absurd (h o h2) h3

theorem column_append (k : κ) (a b : List (PyDict κ ν)) (ca cb : List ν) (ha : column k a = .ok ca)
    (hb : column k b = .ok cb) : column k (a ++ b) = .ok (ca ++ cb) := by
  rw [column_ok_iff] at *; simp [ha, hb]

/-- the column as a total function (only used where it exists) -/
noncomputable def colF (objs : List (PyDict κ ν)) (k : κ) : List ν :=
  match column k objs with
  | .ok c => c
  | .error _ => []

theorem colF_eq {objs : List (PyDict κ ν)} {k : κ} {c : List ν} (h : column k objs = .ok c) : colF objs k = c := by
  simp [colF, h]

theorem columns_ok (objs : List (PyDict κ ν)) (ks : List κ) (h : ∀ k ∈ ks, ∀ o ∈ objs, k ∈ keys o) :
    columns objs ks = .ok (ks.map (fun k => (k, colF objs k))) := by
  induction ks with
  | nil => rfl
  | cons k ks ih =>
    obtain ⟨c, hc⟩ := column_exists k objs (h k (by simp))
    simp only [columns, hc, ih (fun q hq => h q (by simp [hq])), List.map_cons, colF_eq hc]

theorem columns_error (objs : List (PyDict κ ν)) (ks : List κ) (k : κ) (o : PyDict κ ν) (hk : k ∈ ks) (ho : o ∈ objs)
    (h : k ∉ keys o) : columns objs ks = .error .keyError := by
  induction ks with
  | nil => simp at hk
  | cons q ks ih =>
    simp only [columns]
    cases hc : column q objs with
    | error e => simp [(column_error q objs e hc).1]
    | ok c =>
      have hq : ∀ o ∈ objs, q ∈ keys o := by
        intro o' ho'
        rw [column_ok_iff] at hc
        have : get? o' q ∈ c.map some := by rw [← hc]; exact List.mem_map.2 ⟨o', ho', rfl⟩
        obtain ⟨v, _, hv⟩ := List.mem_map.1 this
        rw [← isSome_get?, ← hv]; rfl
      have hkq : k ≠ q := fun e => h (e ▸ hq o ho)
      have hk' : k ∈ ks := by
        rcases List.mem_cons.1 hk with h | h
        · exact absurd h hkq
        · exact h
      simp [ih hk']

theorem sums_ok [Add ν] (start : ν) (objs : List (PyDict κ ν)) (ks : List κ) (h : ∀ k ∈ ks, ∀ o ∈ objs, k ∈ keys o) :
    sums start objs ks = .ok (ks.map (fun k => (k, (colF objs k).foldl (· + ·) start))) := by
  induction ks with
  | nil => rfl
  | cons k ks ih =>
    obtain ⟨c, hc⟩ := column_exists k objs (h k (by simp))
    simp only [sums, hc, ih (fun q hq => h q (by simp [hq])), List.map_cons, colF_eq hc]

theorem sums_error [Add ν] (start : ν) (objs : List (PyDict κ ν)) (ks : List κ) (k : κ) (o : PyDict κ ν) (hk : k ∈ ks) (ho : o ∈ objs)
    (h : k ∉ keys o) : sums start objs ks = .error .keyError := by
  induction ks with
  | nil => simp at hk
  | cons q ks ih =>
    simp only [sums]
    cases hc : column q objs with
    | error e => simp [(column_error q objs e hc).1]
    | ok c =>
      have hq : ∀ o ∈ objs, q ∈ keys o := by
        intro o' ho'
        rw [column_ok_iff] at hc
        have : get? o' q ∈ c.map some := by rw [← hc]; exact List.mem_map.2 ⟨o', ho', rfl⟩
        obtain ⟨v, _, hv⟩ := List.mem_map.1 this
        rw [← isSome_get?, ← hv]; rfl
      have hkq : k ≠ q := fun e => h (e ▸ hq o ho)
      have hk' : k ∈ ks := by
        rcases List.mem_cons.1 hk with h | h
        · exact absurd h hkq
        · exact h
      simp [ih hk']

theorem keys_map_pair (f : κ → ν) (ks : List κ) : keys (ks.map (fun k => (k, f k))) = ks := by
  simp [keys, Function.comp_def]

theorem get?_map_pair (f : κ → ν) (ks : List κ) (k : κ) (h : k ∈ ks) :
    get? (ks.map (fun k => (k, f k))) k = some (f k) := by
  induction ks with
  | nil => simp at h
  | cons q ks ih =>
    rw [List.map_cons, get?_cons]
    by_cases hq : q = k
    · subst hq; simp
    · simp only [hq, if_false]; exact ih (by simpa [Ne.symm hq] using h)

theorem get?_ofPairs_map (f : κ → ν) (ks : List κ) (k : κ) (h : k ∈ ks) :
    get? (ofPairs (ks.map (fun k => (k, f k)))) k = some (f k) := by
  unfold ofPairs
  rw [get?_update, ← List.map_reverse, get?_map_pair f _ k (List.mem_reverse.2 h)]; simp

theorem mem_keys_ofPairs_map (f : κ → ν) (ks : List κ) (k : κ) :
    k ∈ keys (ofPairs (ks.map (fun k => (k, f k)))) ↔ k ∈ ks := by
  unfold ofPairs
  rw [mem_keys_update, keys_map_pair]; simp

/-- the key order of `dict` of pairs depends on the keys only -/
theorem keys_update_congr {ν' : Type} (d : PyDict κ ν) (d' : PyDict κ ν') (ps : List (κ × ν)) (qs : List (κ × ν'))
    (h0 : keys d = keys d') (h : keys ps = keys qs) : keys (update d ps) = keys (update d' qs) := by
  induction ps generalizing d d' qs with
  | nil => cases qs with
    | nil => simpa [update_nil]
    | cons q qs => simp at h
  | cons p ps ih =>
    cases qs with
    | nil => simp at h
    | cons q qs =>
      simp only [keys_cons, List.cons.injEq] at h
      rw [update_cons, update_cons]
      apply ih _ _ _ _ h.2
      rw [keys_set, keys_set, h0, h.1]

theorem keys_ofPairs_map {ν' : Type} (f : κ → ν) (g : κ → ν') (ks : List κ) :
    keys (ofPairs (ks.map (fun k => (k, f k)))) = keys (ofPairs (ks.map (fun k => (k, g k)))) :=
  keys_update_congr _ _ _ _ rfl (by rw [keys_map_pair, keys_map_pair])

theorem appendGo_ok (o : PyDict κ ν) (d : PyDict κ (List ν)) (hd : WF d) (h : ∀ k ∈ keys d, k ∈ keys o) :
    ∃ d', appendGo o d = (d', .ok ()) ∧ keys d' = keys d ∧
      ∀ k l v, get? d k = some l → get? o k = some v → get? d' k = some (l ++ [v]) := by
  induction d with
  | nil => exact ⟨[], rfl, rfl, by simp⟩
  | cons p d ih =>
    obtain ⟨q, l⟩ := p
    simp only [WF, keys_cons, List.nodup_cons] at hd
    obtain ⟨v, hv⟩ := Option.isSome_iff_exists.1 ((isSome_get? o q).2 (h q (by simp)))
    obtain ⟨d', h1, h2, h3⟩ := ih hd.2 (fun k hk => h k (by simp [hk]))
    refine ⟨(q, l ++ [v]) :: d', by simp [appendGo, hv, h1], by simp [h2], ?_⟩
    intro k l' v' hk hv'
    rw [get?_cons] at hk ⊢
    by_cases hq : q = k
    · subst hq
      simp only [if_true, Option.some.injEq] at hk ⊢
      rw [hv'] at hv; cases hv; rw [hk]
    · simp only [hq, if_false] at hk ⊢; exact h3 k l' v' hk hv'

theorem extendGo_ok (o : PyDict κ (List ν)) (d : PyDict κ (List ν)) (hd : WF d) (h : ∀ k ∈ keys d, k ∈ keys o) :
    ∃ d', extendGo o d = (d', .ok ()) ∧ keys d' = keys d ∧
      ∀ k l v, get? d k = some l → get? o k = some v → get? d' k = some (l ++ v) := by
  induction d with
  | nil => exact ⟨[], rfl, rfl, by simp⟩
  | cons p d ih =>
    obtain ⟨q, l⟩ := p
    simp only [WF, keys_cons, List.nodup_cons] at hd
    obtain ⟨v, hv⟩ := Option.isSome_iff_exists.1 ((isSome_get? o q).2 (h q (by simp)))
    obtain ⟨d', h1, h2, h3⟩ := ih hd.2 (fun k hk => h k (by simp [hk]))
    refine ⟨(q, l ++ v) :: d', by simp [extendGo, hv, h1], by simp [h2], ?_⟩
    intro k l' v' hk hv'
    rw [get?_cons] at hk ⊢
    by_cases hq : q = k
    · subst hq
      simp only [if_true, Option.some.injEq] at hk ⊢
      rw [hv'] at hv; cases hv; rw [hk]
    · simp only [hq, if_false] at hk ⊢; exact h3 k l' v' hk hv'

theorem appendGo_error (o : PyDict κ ν) (pre post : List (κ × List ν)) (k : κ) (l : List ν)
    (hpre : ∀ q ∈ keys pre, q ∈ keys o) (hk : k ∉ keys o) :
    ∃ pre', appendGo o (pre ++ (k, l) :: post) = (pre' ++ (k, l) :: post, .error .keyError) ∧
      List.Forall₂ (fun a b => b.1 = a.1 ∧ ∃ v, get? o a.1 = some v ∧ b.2 = a.2 ++ [v]) pre pre' := by
  induction pre with
  | nil => exact ⟨[], by simp [appendGo, (get?_eq_none o k).2 hk], List.Forall₂.nil⟩
  | cons p pre ih =>
    obtain ⟨q, m⟩ := p
    obtain ⟨v, hv⟩ := Option.isSome_iff_exists.1 ((isSome_get? o q).2 (hpre q (by simp)))
    obtain ⟨pre', h1, h2⟩ := ih (fun r hr => hpre r (by simp [hr]))
    exact ⟨(q, m ++ [v]) :: pre', by simp [appendGo, hv, h1], List.Forall₂.cons ⟨rfl, v, hv, rfl⟩ h2⟩

theorem extendGo_error (o : PyDict κ (List ν)) (pre post : List (κ × List ν)) (k : κ) (l : List ν)
    (hpre : ∀ q ∈ keys pre, q ∈ keys o) (hk : k ∉ keys o) :
    ∃ pre', extendGo o (pre ++ (k, l) :: post) = (pre' ++ (k, l) :: post, .error .keyError) ∧
      List.Forall₂ (fun a b => b.1 = a.1 ∧ ∃ v, get? o a.1 = some v ∧ b.2 = a.2 ++ v) pre pre' := by
  induction pre with
  | nil => exact ⟨[], by simp [extendGo, (get?_eq_none o k).2 hk], List.Forall₂.nil⟩
  | cons p pre ih =>
    obtain ⟨q, m⟩ := p
    obtain ⟨v, hv⟩ := Option.isSome_iff_exists.1 ((isSome_get? o q).2 (hpre q (by simp)))
    obtain ⟨pre', h1, h2⟩ := ih (fun r hr => hpre r (by simp [hr]))
    exact ⟨(q, m ++ v) :: pre', by simp [extendGo, hv, h1], List.Forall₂.cons ⟨rfl, v, hv, rfl⟩ h2⟩

theorem allDicts_map_some (os : List (PyDict κ ν)) : allDicts (os.map some) = some os := by
  induction os with
  | nil => rfl
  | cons o os ih => simp [allDicts, ih]

theorem allDicts_none (objs : List (Option (PyDict κ ν))) (h : none ∈ objs) : allDicts objs = none := by
  induction objs with
  | nil => simp at h
  | cons o os ih =>
    cases o with
    | none => rfl
    | some o => simp only [allDicts]; rw [ih (by simpa using h)]; rfl

theorem merge_ok (os : List (PyDict κ ν)) (ks : List κ) (h : ∀ k ∈ ks, ∀ o ∈ os, k ∈ keys o) :
    merge (os.map some) (some ks) = .ok (ofPairs (ks.map (fun k => (k, colF os k)))) := by
  simp [merge, allDicts_map_some, keysOr, columns_ok os ks h]

theorem merge_error (os : List (PyDict κ ν)) (ks : List κ) (k : κ) (o : PyDict κ ν) (hk : k ∈ ks) (ho : o ∈ os)
    (h : k ∉ keys o) : merge (os.map some) (some ks) = .error .keyError := by
  simp [merge, allDicts_map_some, keysOr, columns_error os ks k o hk ho h]

theorem merge_ok_iff (os : List (PyDict κ ν)) (ks : List κ) :
    (∃ m, merge (os.map some) (some ks) = .ok m) ↔ ∀ k ∈ ks, ∀ o ∈ os, k ∈ keys o := by
  constructor
  · rintro ⟨m, hm⟩ k hk o ho
    by_contra h
    rw [merge_error os ks k o hk ho h] at hm; cases hm
  · intro h; exact ⟨_, merge_ok os ks h⟩

theorem foldl_add_eq [AddCommMonoid ν] (s : ν) (l : List ν) : l.foldl (· + ·) s = s + l.sum := by
  induction l generalizing s with
  | nil => simp
  | cons a l ih => simp [ih, add_assoc]

theorem colF_perm (a b : List (PyDict κ ν)) (h : a.Perm b) (k : κ) (hk : ∀ o ∈ a, k ∈ keys o) :
    (colF a k).Perm (colF b k) := by
  obtain ⟨ca, ha⟩ := column_exists k a hk
  obtain ⟨cb, hb⟩ := column_exists k b (fun o ho => hk o (h.mem_iff.2 ho))
  rw [colF_eq ha, colF_eq hb]
  rw [column_ok_iff] at ha hb
  have := h.map (fun o => get? o k)
  rw [ha, hb] at this
  simpa using this.filterMap id

end TEflow.Utils
