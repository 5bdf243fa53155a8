import Verif.Lemmas.UtilsDict

/-!
# Properties C01–C05: `AttrDict.retain` and `ListDict`

`d.get? k` is `d[k]`, `keys d` the key order, `WF d` (distinct keys) holds of every Python dictionary.
`setOrder` is the unknown iteration order of a Python `set`; all that is assumed is that it enumerates
the elements.
-/

namespace TEflow
open PyDict Utils
variable {κ ν : Type} [DecidableEq κ]

/-- `i` is the last position of `k` in `ks`. -/
def LastPos (ks : List κ) (k : κ) (i : Nat) : Prop := ks[i]? = some k ∧ ∀ j, i < j → ks[j]? ≠ some k

/-- **C01.** After `popped = d.retain(keys)` the dictionary is the old one restricted to `keys` (same
relative order, same values), `popped` consists of exactly the other entries. -/
theorem C01_retain_keeps (setOrder : List κ → List κ) (hso : ∀ l, (setOrder l).Perm l)
    (d : PyDict κ ν) (hd : WF d) (ks : List κ) (isSeq : Bool) :
    ∃ d' popped, retain setOrder d (.iterable ks isSeq) false = (d', .ok popped) ∧
      d' = d.filter (fun e => e.1 ∈ ks) ∧
      WF popped ∧ popped.Perm (d.filter (fun e => e.1 ∉ ks)) ∧
      (d' ++ popped).Perm d := by
  have hn : (setOrder ((keys d).filter (fun k => k ∉ ks))).Nodup := (hso _).nodup_iff.2 (List.Nodup.filter _ hd)
  have hmem : ∀ k, k ∈ setOrder ((keys d).filter (fun k => k ∉ ks)) ↔ k ∈ keys d ∧ k ∉ ks := by
    intro k; rw [(hso _).mem_iff]; simp
  obtain ⟨p', h1, h2, h3⟩ := popAll_spec (setOrder ((keys d).filter (fun k => k ∉ ks))) d [] hd WF_nil hn
    (fun k hk => ((hmem k).1 hk).1) (by simp)
  have e1 : d.filter (fun e => decide (e.1 ∉ setOrder ((keys d).filter (fun k => k ∉ ks)))) =
      d.filter (fun e => decide (e.1 ∈ ks)) := by
    apply List.filter_congr
    intro e he
    have : e.1 ∈ keys d := List.mem_map.2 ⟨e, he, rfl⟩
    simp only [hmem, this, true_and, not_not]
  have e2 : d.filter (fun e => decide (e.1 ∈ setOrder ((keys d).filter (fun k => k ∉ ks)))) =
      d.filter (fun e => decide (e.1 ∉ ks)) := by
    apply List.filter_congr
    intro e he
    have : e.1 ∈ keys d := List.mem_map.2 ⟨e, he, rfl⟩
    simp only [hmem, this, true_and]
  rw [e2, List.nil_append] at h3
  rw [e1] at h1
  refine ⟨_, p', by simp only [retain, h1]; rfl, rfl, h2, h3, ?_⟩
  refine (List.Perm.append_left _ h3).trans ?_
  have := List.filter_append_perm (fun e : κ × ν => decide (e.1 ∈ ks)) d
  simpa using this

example : ∃ d' popped, retain id [("b", 2), ("g", 3), ("note", 9), ("c", 2)]
    (.iterable ["a", "b", "c"] false) false = (d', .ok popped) ∧ d' = [("b", 2), ("c", 2)] ∧
    popped = [("g", 3), ("note", 9)] := ⟨_, _, by decide +kernel, rfl, rfl⟩
example : WF [("b", 2), ("g", 3), ("note", 9), ("c", 2)] ∧ ∀ l : List String, (id l).Perm l :=
  ⟨by decide, fun _ => List.Perm.refl _⟩

/-- **C02.** With `match_order=True` (and a sequence of keys) `retain` succeeds, the surviving entries are the
same as without `match_order`, and they are ordered by the last position of their key in `keys`. -/
theorem C02_retain_match_order (setOrder : List κ → List κ) (hso : ∀ l, (setOrder l).Perm l)
    (d : PyDict κ ν) (hd : WF d) (ks : List κ) :
    ∃ d' popped, retain setOrder d (.iterable ks true) true = (d', .ok popped) ∧
      d'.Perm (d.filter (fun e => e.1 ∈ ks)) ∧
      (keys d').Pairwise (fun k k' => ∃ i j, LastPos ks k i ∧ LastPos ks k' j ∧ i < j) ∧
      WF popped ∧ popped.Perm (d.filter (fun e => e.1 ∉ ks)) := by
  obtain ⟨d1, p', hr, hd1, hwf, hp, _⟩ := C01_retain_keeps setOrder hso d hd ks true
  -- the state after popping
  have hpop : popAll d [] (setOrder ((keys d).filter (fun k => k ∉ ks))) = (d1, .ok p') := by
    unfold retain at hr
    cases hx : popAll d [] (setOrder ((keys d).filter (fun k => k ∉ ks))) with
    | mk a b => cases b <;> simp_all
  have hd1wf : WF d1 := by rw [hd1]; exact hd.filter _
  have hd1k : ∀ k ∈ keys d1, k ∈ ks := by
    intro k hk
    rw [hd1] at hk
    obtain ⟨e, he, rfl⟩ := List.mem_map.1 hk
    simpa using (List.mem_filter.1 he).2
  classical
  have hidx : ∀ k ∈ ks, ∃ i, LastPos ks k i ∧ get? (ofPairs (ks.zipIdx)) k = some i := by
    intro k hk
    obtain ⟨i, h1, h2, h3⟩ := lastIndex_get ks 0 [] k hk
    exact ⟨i, ⟨h1, h2⟩, by simpa [ofPairs] using h3⟩
  let f : κ → Nat := fun k => (get? (ofPairs (ks.zipIdx)) k).getD 0
  have hf : ∀ k ∈ ks, get? (ofPairs (ks.zipIdx)) k = some (f k) := by
    intro k hk; obtain ⟨i, _, h⟩ := hidx k hk; simp [f, h]
  have hfl : ∀ k ∈ ks, LastPos ks k (f k) := by
    intro k hk; obtain ⟨i, h, h'⟩ := hidx k hk
    have : f k = i := by simp [f, h']
    rw [this]; exact h
  have hinj : ∀ k ∈ ks, ∀ k' ∈ ks, f k = f k' → k = k' := by
    intro k hk k' hk' he
    have a := (hfl k hk).1
    have b := (hfl k' hk').1
    rw [he, b] at a; exact (Option.some.inj a).symm
  have hnum := numberOf_ok (ofPairs (ks.zipIdx)) f (keys d1) (fun k hk => hf k (hd1k k hk))
  let number := (keys d1).map (fun k => (f k, k))
  have hnn : (number.map Prod.fst).Nodup := by
    simp only [number, List.map_map]
    refine List.Nodup.map_on ?_ hd1wf
    intro x hx y hy h
    exact hinj x (hd1k x hx) y (hd1k y hy) h
  have hss := sortNum_strict hnn
  obtain ⟨m, moved, hs1, _, hs3, hs4, hs5, hs6⟩ := scan_spec (sortNum number) hss number
    (fun x hx => (sortNum_perm number).mem_iff.2 hx) 0 []
    (by rw [(sortNum_perm number).length_eq]; omega)
  have hs6 := hs6 hnn
  rw [List.drop_zero] at hs5 hs6
  have hmn : (moved.map Prod.fst).Nodup := hnn.sublist (hs3.map _)
  have hsm : sortNum moved = (sortNum number).drop m := by
    apply eq_of_perm_strict
    · refine (sortNum_perm moved).trans ?_
      have h1 : ((sortNum number).take m ++ moved).Perm ((sortNum number).take m ++ (sortNum number).drop m) := by
        rw [List.take_append_drop]; exact hs5.symm.trans (sortNum_perm number).symm
      exact (List.perm_append_left_iff _).1 h1
    · exact sortNum_strict hmn
    · exact hss.sublist (List.drop_sublist _ _)
  have hsnd : ∀ l : List κ, (l.map (fun k => (f k, k))).map Prod.snd = l := by
    intro l; simp [Function.comp_def]
  have hmk : ∀ x ∈ moved, x ∈ number := fun x hx => hs3.subset hx
  have hnd2 : ((sortNum moved).map Prod.snd).Nodup := by
    rw [((sortNum_perm moved).map _).nodup_iff]
    have : (number.map Prod.snd).Nodup := by rw [hsnd]; exact hd1wf
    exact this.sublist (hs3.map _)
  obtain ⟨d2, hm1, hm2, hm3⟩ := moveAll_spec ((sortNum moved).map Prod.snd) hnd2 d1 hd1wf (by
    intro k hk
    obtain ⟨x, hx, rfl⟩ := List.mem_map.1 hk
    obtain ⟨q, hq, rfl⟩ := List.mem_map.1 (hmk x ((sortNum_perm moved).mem_iff.1 hx))
    exact hq)
  have hkeys : keys d2 = (sortNum number).map Prod.snd := by
    rw [hm2]
    have e1 : (keys d1).filter (fun k => k ∉ (sortNum moved).map Prod.snd) = ((sortNum number).take m).map Prod.snd := by
      rw [← hs6, ← hsnd (keys d1)]
      simp only [number]
      rw [List.filter_map]
      congr 1
      apply List.filter_congr
      intro x hx
      simp only [Function.comp_apply, decide_not]
      congr 1
      apply decide_eq_decide.2
      rw [((sortNum_perm moved).map _).mem_iff]
      constructor
      · intro h
        obtain ⟨y, hy, hyx⟩ := List.mem_map.1 h
        obtain ⟨q, hq, rfl⟩ := List.mem_map.1 (hmk y hy)
        obtain ⟨r, hr, rfl⟩ := List.mem_map.1 hx
        simp only at hyx; subst hyx; exact hy
      · intro h; exact List.mem_map.2 ⟨x, h, rfl⟩
    rw [e1, hsm, ← List.map_append, List.take_append_drop]
  refine ⟨d2, p', ?_, ?_, ?_, hwf, hp⟩
  · simp only [retain, hpop, if_true, Bool.not_true, Bool.false_eq_true, if_false, hnum]
    rw [hs1]
    simp only [List.nil_append, hm1]
  · rw [← hd1]; exact hm3
  · rw [hkeys, List.pairwise_map]
    refine (hss.imp_of_mem ?_)
    intro a b ha hb hab
    obtain ⟨q, hq, rfl⟩ := List.mem_map.1 ((sortNum_perm number).mem_iff.1 ha)
    obtain ⟨r, hr, rfl⟩ := List.mem_map.1 ((sortNum_perm number).mem_iff.1 hb)
    exact ⟨f q, f r, hfl q (hd1k q hq), hfl r (hd1k r hr), hab⟩

example : retain id [("b", 2), ("g", 3), ("note", 9), ("c", 2)]
    (.iterable ["g", "a", "b", "c", "d", "g"] true) true =
      ([("b", 2), ("c", 2), ("g", 3)], .ok [("note", 9)]) := by decide +kernel

/-- **C03.** Error behaviour.  A non-iterable is refused without any effect; with `match_order=True` an iterable that
is not a sequence is refused with `TypeError`, but the unlisted entries are already gone. -/
theorem C03_retain_errors (setOrder : List κ → List κ) (hso : ∀ l, (setOrder l).Perm l)
    (d : PyDict κ ν) (hd : WF d) :
    (∀ mo, retain setOrder d .nonIterable mo = (d, .error .typeError)) ∧
    (∀ ks, retain setOrder d (.iterable ks false) true =
      (d.filter (fun e => e.1 ∈ ks), .error .typeError)) ∧
    (∀ ks isSeq mo e, (retain setOrder d (.iterable ks isSeq) mo).2 = .error e →
      isSeq = false ∧ mo = true ∧ e = .typeError) := by
  have key : ∀ ks, retain setOrder d (.iterable ks false) true =
      (d.filter (fun e => e.1 ∈ ks), .error .typeError) := by
    intro ks
    obtain ⟨d1, p', hr, hd1, hwf, hp, _⟩ := C01_retain_keeps setOrder hso d hd ks true
    have hpop : popAll d [] (setOrder ((keys d).filter (fun k => k ∉ ks))) = (d1, .ok p') := by
      unfold retain at hr
      cases hx : popAll d [] (setOrder ((keys d).filter (fun k => k ∉ ks))) with
      | mk a b => cases b <;> simp_all
    simp only [retain, hpop, if_true, Bool.not_false, hd1]
  refine ⟨fun _ => rfl, key, ?_⟩
  intro ks isSeq mo e he
  cases mo with
  | false =>
    obtain ⟨d1, p', hr, _⟩ := C01_retain_keeps setOrder hso d hd ks isSeq
    rw [hr] at he; cases he
  | true =>
    cases isSeq with
    | true =>
      obtain ⟨d1, p', hr, _⟩ := C02_retain_match_order setOrder hso d hd ks
      rw [hr] at he; cases he
    | false => rw [key ks] at he; cases he; exact ⟨rfl, rfl, rfl⟩

/-- **C03 (negative part).** `retain` is not exception safe: there is a call that raises and has changed the
dictionary. -/
theorem C03_retain_not_exception_safe :
    ∃ (d : PyDict String Nat) (ks : List String), WF d ∧
      (retain id d (.iterable ks false) true).2 = .error .typeError ∧
      (retain id d (.iterable ks false) true).1 ≠ d :=
  ⟨[("a", 1), ("b", 2)], ["a"], by decide, by decide +kernel, by decide +kernel⟩

/-- **C04 (merge).** `ListDict.merge(objs, keys)` succeeds exactly when every object has every requested key
(otherwise `KeyError`); then each requested key maps to the list of its values in the order of the objects,
there are no other keys, and the key order is that of `keys` if these are distinct. -/
theorem C04_merge (os : List (PyDict κ ν)) (ks : List κ) :
    ((∀ k ∈ ks, ∀ o ∈ os, k ∈ keys o) →
      ∃ m, merge (os.map some) (some ks) = .ok m ∧ WF m ∧ (∀ k, k ∈ keys m ↔ k ∈ ks) ∧
        (ks.Nodup → keys m = ks) ∧
        ∀ k ∈ ks, ∃ c, get? m k = some c ∧ os.map (fun o => get? o k) = c.map some) ∧
    ((∃ k ∈ ks, ∃ o ∈ os, k ∉ keys o) → merge (os.map some) (some ks) = .error .keyError) := by
  constructor
  · intro h
    refine ⟨_, merge_ok os ks h, WF_ofPairs _, fun k => mem_keys_ofPairs_map _ _ _, ?_, ?_⟩
    · intro hn
      rw [ofPairs_of_WF (by unfold WF; rw [keys_map_pair]; exact hn), keys_map_pair]
    · intro k hk
      refine ⟨colF os k, get?_ofPairs_map _ _ _ hk, ?_⟩
      obtain ⟨c, hc⟩ := column_exists k os (h k hk)
      rw [colF_eq hc]; exact (column_ok_iff k os c).1 hc
  · rintro ⟨k, hk, o, ho, h⟩
    exact merge_error os ks k o hk ho h

/-- **C04 (defaults and refusals).** Without `keys` the keys of the first object are used, an empty list of objects is
then an `IndexError`; a non-dictionary among the objects is a `ValueError`. -/
theorem C04_merge_defaults (o : PyDict κ ν) (os : List (PyDict κ ν)) :
    merge ((o :: os).map some) none = merge ((o :: os).map some) (some (keys o)) ∧
    merge ([] : List (Option (PyDict κ ν))) none = .error .indexError ∧
    ∀ (objs : List (Option (PyDict κ ν))) (ks : Option (List κ)), none ∈ objs → merge objs ks = .error .valueError := by
  refine ⟨by simp only [merge, allDicts_map_some, keysOr], rfl, ?_⟩
  intro objs ks h
  simp [merge, allDicts_none objs h]

/-- **C04 (append law).** Merging one more object is the same as appending it to the merged dictionary, including
the failure case. -/
theorem C04_merge_append (os : List (PyDict κ ν)) (o : PyDict κ ν) (ks : List κ) (m : PyDict κ (List ν))
    (hm : merge (os.map some) (some ks) = .ok m) :
    merge ((os ++ [o]).map some) (some ks) =
      match append m (some o) with
      | (m', .ok _) => .ok m'
      | (_, .error e) => .error e := by
  have h := (merge_ok_iff os ks).1 ⟨m, hm⟩
  rw [merge_ok os ks h] at hm
  cases hm
  by_cases ho : ∀ k ∈ ks, k ∈ keys o
  · have h2 : ∀ k ∈ ks, ∀ o' ∈ os ++ [o], k ∈ keys o' := by
      intro k hk o' ho'
      rcases List.mem_append.1 ho' with h3 | h3
      · exact h k hk o' h3
      · rw [List.mem_singleton.1 h3]; exact ho k hk
    rw [merge_ok _ _ h2]
    obtain ⟨d', e1, e2, e3⟩ := appendGo_ok o (ofPairs (ks.map (fun k => (k, colF os k)))) (WF_ofPairs _)
      (fun k hk => ho k ((mem_keys_ofPairs_map _ _ _).1 hk))
    simp only [append, e1]
    congr 1
    apply PyDict.ext (WF_ofPairs _)
    · rw [e2]; exact keys_ofPairs_map _ _ _
    · intro k hk
      have hk := (mem_keys_ofPairs_map _ _ _).1 hk
      rw [get?_ofPairs_map _ _ _ hk]
      obtain ⟨v, hv⟩ := Option.isSome_iff_exists.1 ((isSome_get? o k).2 (ho k hk))
      rw [e3 k _ v (get?_ofPairs_map (colF os) ks k hk) hv]
      congr 1
      obtain ⟨c, hc⟩ := column_exists k os (h k hk)
      rw [colF_eq hc]
      apply colF_eq
      apply column_append k _ _ _ _ hc
      simp [column, item, hv]
  · push Not at ho
    obtain ⟨k, hk, hko⟩ := ho
    rw [merge_error (os ++ [o]) ks k o hk (by simp) hko]
    -- the first missing key of the merged dictionary
    let d := ofPairs (ks.map (fun k => (k, colF os k)))
    have hex : ∃ pre p post, d = pre ++ p :: post ∧ (∀ q ∈ keys pre, q ∈ keys o) ∧ p.1 ∉ keys o := by
      have hkd : ∃ p ∈ d, p.1 ∉ keys o := by
        obtain ⟨p, hp, he⟩ := List.mem_map.1 ((mem_keys_ofPairs_map (colF os) ks k).2 hk)
        exact ⟨p, hp, he ▸ hko⟩
      clear_value d
      induction d with
      | nil => simp at hkd
      | cons a d ih =>
        by_cases ha : a.1 ∈ keys o
        · obtain ⟨p, hp, hpo⟩ := hkd
          rcases List.mem_cons.1 hp with h1 | h1
          · subst h1; exact absurd ha hpo
          · obtain ⟨pre, q, post, e1, e2, e3⟩ := ih ⟨p, h1, hpo⟩
            exact ⟨a :: pre, q, post, by simp [e1], by simpa [ha] using e2, e3⟩
        · exact ⟨[], a, d, rfl, by simp, ha⟩
    obtain ⟨pre, ⟨q, l⟩, post, e1, e2, e3⟩ := hex
    obtain ⟨pre', e4, _⟩ := appendGo_error o pre post q l e2 e3
    simp only [append]
    have e5 : appendGo o (ofPairs (ks.map (fun k => (k, colF os k)))) = _ := (congrArg (appendGo o) e1).trans e4
    rw [e5]

/-- **C04 (extend law).** Merging a concatenation is merging the parts and extending the first by the second. -/
theorem C04_merge_extend (a b : List (PyDict κ ν)) (ks : List κ) (ma mb : PyDict κ (List ν))
    (ha : merge (a.map some) (some ks) = .ok ma) (hb : merge (b.map some) (some ks) = .ok mb) :
    ∃ m, extend ma (some mb) = (m, .ok ()) ∧ merge ((a ++ b).map some) (some ks) = .ok m := by
  have h1 := (merge_ok_iff a ks).1 ⟨ma, ha⟩
  have h2 := (merge_ok_iff b ks).1 ⟨mb, hb⟩
  have h3 : ∀ k ∈ ks, ∀ o' ∈ a ++ b, k ∈ keys o' := by
    intro k hk o' ho'
    rcases List.mem_append.1 ho' with h | h
    · exact h1 k hk o' h
    · exact h2 k hk o' h
  rw [merge_ok a ks h1] at ha
  rw [merge_ok b ks h2] at hb
  cases ha; cases hb
  obtain ⟨d', e1, e2, e3⟩ := extendGo_ok (ofPairs (ks.map (fun k => (k, colF b k))))
    (ofPairs (ks.map (fun k => (k, colF a k)))) (WF_ofPairs _)
    (fun k hk => (mem_keys_ofPairs_map _ _ _).2 ((mem_keys_ofPairs_map _ _ _).1 hk))
  refine ⟨d', by simp [extend, e1], ?_⟩
  rw [merge_ok _ _ h3]
  congr 1
  apply PyDict.ext (WF_ofPairs _)
  · rw [e2]; exact keys_ofPairs_map _ _ _
  · intro k hk
    have hk := (mem_keys_ofPairs_map _ _ _).1 hk
    rw [get?_ofPairs_map _ _ _ hk, e3 k _ _ (get?_ofPairs_map (colF a) ks k hk) (get?_ofPairs_map (colF b) ks k hk)]
    congr 1
    obtain ⟨c, hc⟩ := column_exists k a (h1 k hk)
    obtain ⟨c', hc'⟩ := column_exists k b (h2 k hk)
    rw [colF_eq hc, colF_eq hc']
    exact colF_eq (column_append k _ _ _ _ hc hc')

/-- **C04 (append on its own).** `append` lengthens every column by the object's value; if a key is missing, `KeyError` is
raised and exactly the columns before the first missing key are one longer. -/
theorem C04_append (o : PyDict κ ν) :
    (∀ d : PyDict κ (List ν), WF d → (∀ k ∈ keys d, k ∈ keys o) →
      ∃ d', append d (some o) = (d', .ok ()) ∧ keys d' = keys d ∧
        ∀ k l v, get? d k = some l → get? o k = some v → get? d' k = some (l ++ [v])) ∧
    (∀ pre post : PyDict κ (List ν), ∀ k l, (∀ q ∈ keys pre, q ∈ keys o) → k ∉ keys o →
      ∃ pre', append (pre ++ (k, l) :: post) (some o) = (pre' ++ (k, l) :: post, .error .keyError) ∧
        List.Forall₂ (fun a b => b.1 = a.1 ∧ ∃ v, get? o a.1 = some v ∧ b.2 = a.2 ++ [v]) pre pre') ∧
    (∀ d : PyDict κ (List ν), append d (none : Option (PyDict κ ν)) = (d, .error .valueError)) :=
  ⟨fun d hd h => appendGo_ok o d hd h, fun pre post k l h hk => appendGo_error o pre post k l h hk, fun _ => rfl⟩

/-- **C04 (extend on its own).** Same as `append`, with whole lists. -/
theorem C04_extend (o : PyDict κ (List ν)) :
    (∀ d : PyDict κ (List ν), WF d → (∀ k ∈ keys d, k ∈ keys o) →
      ∃ d', extend d (some o) = (d', .ok ()) ∧ keys d' = keys d ∧
        ∀ k l v, get? d k = some l → get? o k = some v → get? d' k = some (l ++ v)) ∧
    (∀ pre post : PyDict κ (List ν), ∀ k l, (∀ q ∈ keys pre, q ∈ keys o) → k ∉ keys o →
      ∃ pre', extend (pre ++ (k, l) :: post) (some o) = (pre' ++ (k, l) :: post, .error .keyError) ∧
        List.Forall₂ (fun a b => b.1 = a.1 ∧ ∃ v, get? o a.1 = some v ∧ b.2 = a.2 ++ v) pre pre') ∧
    (∀ d : PyDict κ (List ν), extend d (none : Option (PyDict κ (List ν))) = (d, .error .valueError)) :=
  ⟨fun d hd h => extendGo_ok o d hd h, fun pre post k l h hk => extendGo_error o pre post k l h hk, fun _ => rfl⟩

example : merge [some [("a", 1), ("b", 2)], some [("b", 4), ("a", 3)]] (some ["a", "b"]) =
    .ok [("a", [1, 3]), ("b", [2, 4])] := by decide +kernel
example : append [("a", [1]), ("b", [2]), ("c", [3])] (some [("a", 5), ("c", 6)]) =
    ([("a", [1, 5]), ("b", [2]), ("c", [3])], .error .keyError) := by decide +kernel

/-- **C05 (values).** `ListDict.sum` maps every requested key to `start` plus the sum of its values over all
objects; `KeyError` exactly when a requested key is missing somewhere. -/
theorem C05_sum [AddCommMonoid ν] (os : List (PyDict κ ν)) (start : ν) (ks : List κ) :
    ((∀ k ∈ ks, ∀ o ∈ os, k ∈ keys o) →
      ∃ m, Utils.sum (os.map some) start (some ks) = .ok m ∧ WF m ∧ (∀ k, k ∈ keys m ↔ k ∈ ks) ∧
        (ks.Nodup → keys m = ks) ∧
        ∀ k ∈ ks, ∃ c : List ν, os.map (fun o => get? o k) = c.map some ∧ get? m k = some (start + c.sum)) ∧
    ((∃ k ∈ ks, ∃ o ∈ os, k ∉ keys o) → Utils.sum (os.map some) start (some ks) = .error .keyError) := by
  constructor
  · intro h
    refine ⟨ofPairs (ks.map (fun k => (k, (colF os k).foldl (· + ·) start))), ?_, WF_ofPairs _,
      fun k => mem_keys_ofPairs_map _ _ _, ?_, ?_⟩
    · simp [Utils.sum, allDicts_map_some, keysOr, sums_ok start os ks h]
    · intro hn
      rw [ofPairs_of_WF (by unfold WF; rw [keys_map_pair]; exact hn), keys_map_pair]
    · intro k hk
      obtain ⟨c, hc⟩ := column_exists k os (h k hk)
      refine ⟨c, (column_ok_iff k os c).1 hc, ?_⟩
      rw [get?_ofPairs_map _ _ _ hk, colF_eq hc, foldl_add_eq]
  · rintro ⟨k, hk, o, ho, h⟩
    simp [Utils.sum, allDicts_map_some, keysOr, sums_error start os ks k o hk ho h]

/-- **C05 (order).** The result does not depend on the order of the objects. -/
theorem C05_sum_perm [AddCommMonoid ν] (a b : List (PyDict κ ν)) (h : a.Perm b) (start : ν) (ks : List κ) :
    Utils.sum (a.map some) start (some ks) = Utils.sum (b.map some) start (some ks) := by
  by_cases hk : ∀ k ∈ ks, ∀ o ∈ a, k ∈ keys o
  · have hk' : ∀ k ∈ ks, ∀ o ∈ b, k ∈ keys o := fun k hk1 o ho => hk k hk1 o (h.mem_iff.2 ho)
    simp only [Utils.sum, allDicts_map_some, keysOr, sums_ok start a ks hk, sums_ok start b ks hk']
    congr 2
    apply List.map_congr_left
    intro k hk1
    rw [foldl_add_eq, foldl_add_eq, (colF_perm a b h k (hk k hk1)).sum_eq]
  · push Not at hk
    obtain ⟨k, hk1, o, ho, hno⟩ := hk
    rw [(C05_sum a start ks).2 ⟨k, hk1, o, ho, hno⟩, (C05_sum b start ks).2 ⟨k, hk1, o, h.mem_iff.1 ho, hno⟩]

/-- **C05 (defaults and refusals).** Without `keys` the keys of the first object are used, an empty list of objects is
then an `IndexError`; a non-dictionary among the objects is a `ValueError`, whatever the other objects and the keys are. -/
theorem C05_sum_defaults [Add ν] (o : PyDict κ ν) (os : List (PyDict κ ν)) (start : ν) :
    Utils.sum ((o :: os).map some) start none = Utils.sum ((o :: os).map some) start (some (keys o)) ∧
    Utils.sum ([] : List (Option (PyDict κ ν))) start none = .error .indexError ∧
    ∀ (objs : List (Option (PyDict κ ν))) (ks : Option (List κ)), none ∈ objs → Utils.sum objs start ks = .error .valueError := by
  refine ⟨by simp only [Utils.sum, allDicts_map_some, keysOr], rfl, ?_⟩
  intro objs ks h
  simp [Utils.sum, allDicts_none objs h]

/-- **C05 (two steps).** Summing a concatenation gives, key by key, the sum of the two partial results. -/
theorem C05_sum_concat [AddCommMonoid ν] (a b : List (PyDict κ ν)) (start : ν) (ks : List κ) (ma mb : PyDict κ ν)
    (ha : Utils.sum (a.map some) start (some ks) = .ok ma) (hb : Utils.sum (b.map some) 0 (some ks) = .ok mb) :
    ∃ m, Utils.sum ((a ++ b).map some) start (some ks) = .ok m ∧ keys m = keys ma ∧
      ∀ k ∈ ks, ∃ x y, get? ma k = some x ∧ get? mb k = some y ∧ get? m k = some (x + y) := by
  have h1 : ∀ k ∈ ks, ∀ o ∈ a, k ∈ keys o := by
    by_contra hc; push Not at hc
    obtain ⟨k, hk, o, ho, h⟩ := hc
    rw [(C05_sum a start ks).2 ⟨k, hk, o, ho, h⟩] at ha; cases ha
  have h2 : ∀ k ∈ ks, ∀ o ∈ b, k ∈ keys o := by
    by_contra hc; push Not at hc
    obtain ⟨k, hk, o, ho, h⟩ := hc
    rw [(C05_sum b 0 ks).2 ⟨k, hk, o, ho, h⟩] at hb; cases hb
  have h3 : ∀ k ∈ ks, ∀ o' ∈ a ++ b, k ∈ keys o' := by
    intro k hk o' ho'
    rcases List.mem_append.1 ho' with h | h
    · exact h1 k hk o' h
    · exact h2 k hk o' h
  simp only [Utils.sum, allDicts_map_some, keysOr, sums_ok start a ks h1] at ha
  simp only [Utils.sum, allDicts_map_some, keysOr, sums_ok 0 b ks h2] at hb
  cases ha; cases hb
  refine ⟨ofPairs (ks.map (fun k => (k, (colF (a ++ b) k).foldl (· + ·) start))), ?_, keys_ofPairs_map _ _ _, ?_⟩
  · simp only [Utils.sum, allDicts_map_some, keysOr, sums_ok start _ ks h3]
  · intro k hk
    refine ⟨_, _, get?_ofPairs_map _ _ _ hk, get?_ofPairs_map _ _ _ hk, ?_⟩
    rw [get?_ofPairs_map _ _ _ hk]
    obtain ⟨c, hc⟩ := column_exists k a (h1 k hk)
    obtain ⟨c', hc'⟩ := column_exists k b (h2 k hk)
    rw [colF_eq hc, colF_eq hc', colF_eq (column_append k _ _ _ _ hc hc')]
    simp only [foldl_add_eq, List.sum_append, zero_add, add_assoc]

example : Utils.sum [some [("a", 1), ("b", 2)], some [("b", 4), ("a", 3)]] 10 (some ["a", "b"]) =
    .ok [("a", 14), ("b", 16)] := by decide +kernel

end TEflow
