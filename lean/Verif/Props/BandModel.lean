import Mathlib.Tactic
import Verif.Model.BandModel
import Verif.Props.BandModels
import Verif.Props.UtilsDict
import Verif.Props.UtilsState
import Verif.Props.Dataset
import Verif.Props.InterfaceText

/-! # C110: `tef-band -m`, experimental data read through a single-band model -/

set_option linter.unusedSimpArgs false

namespace TEflow.BandModel

open PyDict Utils Loader Bandlib

variable {ι : Type} {solve : ℝ → ℝ → ℝ} {solveK : ℝ → ℝ → ℝ → ℝ} {setOrder : List String → List String}

/-! ## Specification -/

/-- what `dataset.get(k)` gives at row `i`, if anything -/
noncomputable def datum (ds : Dataset Unit (ι → ℝ)) (k : String) (i : ι) : Option ℝ :=
  match getProp ds k (some ()) with
  | .ok (.value _ v) => some (v i)
  | _ => none

/-- the magnitude of a number that may be absent -/
noncomputable def size (x : Option ℝ) : Option ℝ := x.map fun v => |v|

/-- the data each model cannot do without -/
def required : Method → List String
  | .skb => ["S", "T"]
  | _ => ["S"]

/-- the gap is fine: the Kane model needs a positive one, the others ignore it -/
def GapOk (m : Method) (gap : Option ℝ) : Prop := m = .skb → ∃ g, gap = some g ∧ 0 < g

/-- what the model says about data `x` (of one row): `valuate` of the magnitudes, other parameters at their defaults -/
inductive Reading (solve : ℝ → ℝ → ℝ) (solveK : ℝ → ℝ → ℝ → ℝ) (gap : Option ℝ) (x : String → Option ℝ) : Method → List (String × ℝ) → Prop
  | spb {S : ℝ} (hS : x "S" = some S) :
      Reading solve solveK gap x .spb (Spb.valuate solve (S := |S|) (T := size (x "T")) (C := size (x "C")) (N := size (x "N"))
        (K := size (x "K")) (hall := false) (Kmass := 1))
  | rspb {S : ℝ} (hS : x "S" = some S) :
      Reading solve solveK gap x .rspb (Rspb.valuate (S := |S|) (C := size (x "C")) (T := size (x "T")) (N := size (x "N"))
        (K := size (x "K")) (delta := 0.075))
  | skb {S T g : ℝ} {out : List (String × ℝ)} (hS : x "S" = some S) (hT : x "T" = some T) (hg : gap = some g) (hpos : 0 < g)
      (h : Skb.valuate (solveK g) (S := |S|) (T := |T|) (C := size (x "C")) (N := size (x "N")) (K := size (x "K")) (Eg := g)
        (hall := false) (Kmass := 1) = .ok out) :
      Reading solve solveK gap x .skb out

/-- the properties written: all, or the ones named in the text, in the order of (the last occurrence of) their names -/
def Kept (props : Option (List Char)) (out kept : List (String × ℝ)) : Prop :=
  match props with
  | none => kept = out
  | some t => ∃ ws : List (List Char), Tokenises pySpace t ws ∧
      kept.Perm (out.filter fun e => e.1 ∈ ws.map String.ofList) ∧
      (keys kept).Pairwise fun k k' => ∃ i j, LastPos (ws.map String.ofList) k i ∧ LastPos (ws.map String.ofList) k' j ∧ i < j

/-- the data columns: those of `S T C N K` the dataset has, in this order, with their signs -/
noncomputable def columns (ds : Dataset Unit (ι → ℝ)) (i : ι) : List (String × ℝ) :=
  ["S", "T", "C", "N", "K"].filterMap fun k => (datum ds k i).map fun v => (k, v)

/-! ## Lemmas -/

theorem lastPos_unique {ks : List String} {k : String} {i j : Nat} (hi : LastPos ks k i) (hj : LastPos ks k j) : i = j := by
  rcases lt_trichotomy i j with h | h | h
  · exact absurd hj.1 (hi.2 j h)
  · exact h
  · exact absurd hi.1 (hj.2 i h)

/-- the order by last position determines a list of keys up to its set -/
theorem ordered_unique {ks a b : List String} (hp : a.Perm b)
    (ha : a.Pairwise fun k k' => ∃ i j, LastPos ks k i ∧ LastPos ks k' j ∧ i < j)
    (hb : b.Pairwise fun k k' => ∃ i j, LastPos ks k i ∧ LastPos ks k' j ∧ i < j) : a = b := by
  refine hp.eq_of_pairwise ?_ ha hb
  rintro x y _ _ ⟨i, j, h1, h2, h3⟩ ⟨i', j', h1', h2', h3'⟩
  have e1 := lastPos_unique h1 h2'
  have e2 := lastPos_unique h2 h1'
  omega

theorem kept_unique {props : Option (List Char)} {out k1 k2 : List (String × ℝ)} (hw : WF out) (h1 : Kept props out k1)
    (h2 : Kept props out k2) : k1 = k2 := by
  cases props with
  | none => exact h1.trans h2.symm
  | some t =>
    obtain ⟨ws, a1, a2, a3⟩ := h1
    obtain ⟨ws', b1, b2, b3⟩ := h2
    have e : ws = ws' := ((tokenises_iff _ _ _).1 a1).symm.trans ((tokenises_iff _ _ _).1 b1)
    subst e
    have hw1 : WF k1 := (hw.filter _).perm a2.symm
    refine PyDict.ext hw1 (ordered_unique ((a2.trans b2.symm).map _) a3 b3) fun k _ => get?_perm hw1 (a2.trans b2.symm) k

theorem kept_exists (hso : ∀ l, (setOrder l).Perm l) (props : Option (List Char)) {out : List (String × ℝ)} (hw : WF out) :
    ∃ kept, retained setOrder props out = .ok kept ∧ Kept props out kept := by
  cases props with
  | none => exact ⟨out, rfl, rfl⟩
  | some t =>
    obtain ⟨d', popped, h1, h2, h3, _⟩ := C02_retain_match_order setOrder hso out hw ((Interface.words (strip t)).map String.ofList)
    refine ⟨d', by simp only [retained, h1], Interface.words t, Interface.words_tokenises t, ?_, ?_⟩
    · rw [← Interface.words_strip]; exact h2
    · rw [← Interface.words_strip]; exact h3

theorem kept_keys {props : Option (List Char)} {out kept : List (String × ℝ)} (h : Kept props out kept) : ∀ k ∈ keys kept, k ∈ keys out := by
  cases props with
  | none => rw [show kept = out from h]; exact fun k hk => hk
  | some t =>
    obtain ⟨ws, _, h2, _⟩ := h
    intro k hk
    have := (h2.map Prod.fst).mem_iff.1 hk
    obtain ⟨p, hp, rfl⟩ := List.mem_map.1 this
    exact List.mem_map.2 ⟨p, List.mem_of_mem_filter hp, rfl⟩

theorem moveInputs_spec {ν : Type} (inp : PyDict String ν) (ks : List String) (hn : ks.Nodup) (d : PyDict String ν) (hd : WF d)
    (h : ∀ k ∈ ks, has inp k = true → k ∈ keys d) :
    ∃ d', moveInputs inp ks d = .ok d' ∧ WF d' ∧ (∀ k, get? d' k = get? d k) ∧
      keys d' = (ks.filter (has inp ·)).reverse ++ (keys d).filter (fun k => k ∉ ks.filter (has inp ·)) := by
  induction ks generalizing d with
  | nil => exact ⟨d, rfl, hd, fun _ => rfl, by simp⟩
  | cons k ks ih =>
    obtain ⟨hk, hn⟩ := List.nodup_cons.1 hn
    by_cases hi : has inp k = true
    · have hm := h k (by simp) hi
      obtain ⟨v, hv⟩ := Option.isSome_iff_exists.1 ((isSome_get? d k).2 hm)
      have hw : WF ((k, v) :: erase d k) := by
        unfold WF
        simp only [keys, List.map_cons, List.nodup_cons]
        refine ⟨?_, hd.erase k⟩
        have := keys_erase hd k
        unfold keys at this
        rw [this]
        simp
      obtain ⟨d', h1, h2, h3, h4⟩ := ih hn ((k, v) :: erase d k) hw (fun q hq hq' => by
        have hqd := h q (by simp [hq]) hq'
        rw [keys_cons]
        simp only [keys_erase hd, List.mem_cons, List.mem_filter]
        by_cases e : q = k
        · exact Or.inl e
        · exact Or.inr ⟨hqd, by simpa using e⟩)
      refine ⟨d', by simp only [moveInputs, hi, if_true, moveToFront, hv, h1], h2, fun q => ?_, ?_⟩
      · rw [h3 q, get?_cons, get?_erase hd]
        by_cases e : k = q
        · subst e; simp [hv]
        · simp [e, fun h : q = k => e h.symm]
      · rw [h4, List.filter_cons_of_pos (by exact hi), List.reverse_cons, keys_cons, keys_erase hd]
        rw [List.filter_cons_of_pos (by simp [hk]), List.filter_filter]
        simp only [List.append_assoc, List.singleton_append, List.mem_cons, not_or]
        congr 2
        apply List.filter_congr
        intro q _
        by_cases e : q = k <;> simp [e, hk, and_comm]
    · obtain ⟨d', h1, h2, h3, h4⟩ := ih hn d hd (fun q hq hq' => h q (by simp [hq]) hq')
      refine ⟨d', by simp only [moveInputs, hi, if_false, h1]; simp, h2, h3, ?_⟩
      rw [h4, List.filter_cons_of_neg (by exact hi)]

theorem inputs_eq (ds : Dataset Unit (ι → ℝ)) : ∃ inp, inputs ds = .ok inp ∧ ∀ i, inp.map (fun p => (p.1, p.2 i)) = columns ds i := by
  have key : ∀ ks, ∃ vs, gget ds (some ()) ks = .ok vs ∧ ∀ i, ((ks.zip vs).filterMap presentOf).map (fun p => (p.1, p.2 i)) =
      ks.filterMap fun k => (datum ds k i).map fun v => (k, v) := by
    intro ks
    induction ks with
    | nil => exact ⟨[], rfl, fun i => rfl⟩
    | cons k ks ih =>
      obtain ⟨vs, h1, h2⟩ := ih
      cases hk : getProp ds k (some ()) with
      | error e =>
        have := ((C20_get ds k (some ())).2.2.2 e).1 hk
        simp at this
      | ok o =>
        refine ⟨o :: vs, by simp only [gget, hk, h1], fun i => ?_⟩
        cases o with
        | value t v =>
          have hd : datum ds k i = some (v i) := by unfold datum; rw [hk]
          simp only [List.zip_cons_cons, List.filterMap_cons, presentOf, List.map_cons, hd, Option.map_some, h2 i]
        | default x =>
          have hd : datum ds k i = none := by unfold datum; rw [hk]
          simp only [List.zip_cons_cons, List.filterMap_cons, presentOf, hd, Option.map_none, h2 i]
  obtain ⟨vs, h1, h2⟩ := key letters
  exact ⟨_, by simp only [inputs, h1, bind, Except.bind, pure, Except.pure], h2⟩

theorem columns_keys (ds : Dataset Unit (ι → ℝ)) (i : ι) : keys (columns ds i) = letters.filter fun k => (datum ds k i).isSome := by
  unfold columns
  rw [show ["S", "T", "C", "N", "K"] = letters from rfl]
  generalize letters = l
  induction l with
  | nil => rfl
  | cons k l ih =>
    cases h : datum ds k i with
    | none => simpa [h] using ih
    | some v => simpa [h] using ih

theorem columns_WF (ds : Dataset Unit (ι → ℝ)) (i : ι) : WF (columns ds i) := by
  unfold WF
  rw [columns_keys]
  exact List.Nodup.filter _ (by decide)

theorem columns_get (ds : Dataset Unit (ι → ℝ)) (i : ι) (k : String) (hk : k ∈ letters) : get? (columns ds i) k = datum ds k i := by
  cases h : datum ds k i with
  | none =>
    rw [get?_eq_none, columns_keys]
    simp [h]
  | some v =>
    refine mem_get? (columns_WF ds i) ?_
    exact List.mem_filterMap.2 ⟨k, hk, by simp [h]⟩

theorem data_inj {a b : String} (h : "data" ++ a = "data" ++ b) : a = b := by
  have := congrArg String.toList h
  simp only [String.toList_append] at this
  exact String.ext (List.append_cancel_left this)

/-- the keyword arguments -/
noncomputable def kw (ds : Dataset Unit (ι → ℝ)) (i : ι) : PyDict String (Option ℝ) := (columns ds i).map fun p => ("data" ++ p.1, some |p.2|)

theorem kw_WF (ds : Dataset Unit (ι → ℝ)) (i : ι) : WF (kw ds i) := by
  have h := columns_WF ds i
  unfold WF keys kw at *
  rw [List.map_map, show (Prod.fst ∘ fun p : String × ℝ => ("data" ++ p.1, some |p.2|)) = (fun k => "data" ++ k) ∘ Prod.fst from rfl, ← List.map_map]
  exact h.map fun a b => data_inj

theorem kw_get (ds : Dataset Unit (ι → ℝ)) (i : ι) (k : String) (hk : k ∈ letters) :
    get? (kw ds i) ("data" ++ k) = (size (datum ds k i)).map some := by
  rw [← columns_get ds i k hk]
  unfold kw
  generalize columns ds i = l
  induction l with
  | nil => rfl
  | cons p l ih =>
    obtain ⟨a, v⟩ := p
    simp only [List.map_cons, get?_cons]
    by_cases e : a = k
    · subst e; simp [size]
    · have : ¬ "data" ++ a = "data" ++ k := fun h => e (data_inj h)
      simp only [this, if_false, ih, e]

theorem kw_other (ds : Dataset Unit (ι → ℝ)) (i : ι) (k : String) (hk : ∀ l ∈ letters, k ≠ "data" ++ l) : get? (kw ds i) k = none := by
  rw [get?_eq_none]
  intro h
  obtain ⟨p, hp, rfl⟩ := List.mem_map.1 h
  obtain ⟨q, hq, rfl⟩ := List.mem_map.1 hp
  have : q.1 ∈ keys (columns ds i) := List.mem_map.2 ⟨q, hq, rfl⟩
  rw [columns_keys] at this
  exact hk q.1 (List.mem_of_mem_filter this) rfl

theorem arg_of {a : PyDict String (Option ℝ)} {k : String} {o : Option ℝ} (h : get? a k = o.map some) : arg a k = o := by
  unfold arg; rw [h]; cases o <;> rfl

theorem select_cases (m : Method) (gap : Option ℝ) :
    (GapOk m gap ∧ ∃ args opts hist, select m gap = .ok (execAfter args opts hist) ∧ args = (required m).map ("data" ++ ·) ∧
      keys (execAfter args opts hist).args = args ∧
      (∀ k ∈ letters, lastWrite hist ("data" ++ k) = none) ∧ (∀ k ∈ letters, k ∉ required m → "data" ++ k ∈ opts) ∧
      (m ≠ .skb → hist = []) ∧ (m = .skb → "Eg" ∈ opts ∧ lastWrite hist "Eg" = some gap ∧ lastWrite hist "Kmass" = none)) ∨
    (m = .skb ∧ gap = none ∧ select m gap = .error .runtimeError) ∨
    (m = .skb ∧ (∃ g, gap = some g ∧ g ≤ 0) ∧ select m gap = .error .valueError) := by
  cases m with
  | spb => exact Or.inl ⟨by simp [GapOk], _, _, [], rfl, rfl, by decide, by simp [lastWrite, get?], by decide, by simp, by simp⟩
  | rspb => exact Or.inl ⟨by simp [GapOk], _, _, [], rfl, rfl, by decide, by simp [lastWrite, get?], by decide, by simp, by simp⟩
  | skb =>
    cases gap with
    | none => exact Or.inr (Or.inl ⟨rfl, rfl, rfl⟩)
    | some g =>
      by_cases hg : g ≤ 0
      · exact Or.inr (Or.inr ⟨rfl, ⟨g, rfl, hg⟩, by simp [select, hg]⟩)
      · refine Or.inl ⟨fun _ => ⟨g, rfl, not_le.1 hg⟩, ["dataS", "dataT"], ["dataC", "dataN", "dataK", "Eg", "hall", "Kmass"], [[("Eg", some g)]],
          by simp [select, hg, execAfter, wrapper], rfl, rfl, ?_, by decide, by simp, fun _ => ⟨by decide, by simp [lastWrite, get?], by simp [lastWrite, get?]⟩⟩
        intro k hk
        have : ¬ "Eg" = "data" ++ k := by
          intro h
          revert k
          decide
        simp [lastWrite, get?, this]

theorem sublist_filter {a l : List String} (h : l.Sublist a) (hn : a.Nodup) : l = a.filter (· ∈ l) := by
  induction h with
  | slnil => rfl
  | cons x h ih =>
    obtain ⟨h1, h2⟩ := List.nodup_cons.1 hn
    rw [List.filter_cons_of_neg (by simpa using fun hx => h1 (h.subset hx))]
    exact ih h2
  | cons_cons x h ih =>
    obtain ⟨h1, h2⟩ := List.nodup_cons.1 hn
    rw [List.filter_cons_of_pos (by simp)]
    congr 1
    refine (ih h2).trans (List.filter_congr fun y hy => ?_)
    have : y ≠ x := fun e => h1 (e ▸ hy)
    simp [this]

theorem names_sublist {ν : Type} (w : Exec ν) (k : PyDict String (Option ν)) {names : List String}
    (h : w.callArgs k = .error (.valueErrorNaming names)) : names.Sublist (keys w.args) := by
  have key : ∀ (ps : List (String × Option ν)) (d : PyDict String (Option ν)), (∀ p ∈ ps, has d p.1 = true) → keys (update d ps) = keys d := by
    intro ps
    induction ps with
    | nil => intro d _; rfl
    | cons p ps ih =>
      intro d hp
      have h1 : keys (PyDict.set d p.1 p.2) = keys d := by rw [keys_set, if_pos ((has_iff _ _).1 (hp p (by simp)))]
      rw [update_cons, ih, h1]
      intro q hq
      have := hp q (by simp [hq])
      rw [has_iff] at this ⊢
      rw [h1]; exact this
  unfold Exec.callArgs at h
  simp only at h
  split at h
  · cases h
    rw [← key (k.filter fun kv => has w.args kv.1) w.args (fun p hp => (List.mem_filter.1 hp).2)]
    exact List.filter_sublist.map _
  · cases h

theorem executed {m : Method} {gap : Option ℝ} (hg : GapOk m gap) (ds : Dataset Unit (ι → ℝ)) (i : ι) :
    ∃ w, select m gap = .ok w ∧
    (((∀ k ∈ required m, (datum ds k i).isSome) ∧ ∃ out, (w.execute (call solve solveK m) (kw ds i)).2 = .ok out ∧
        Reading solve solveK gap (datum ds · i) m out) ∨
      ((∃ k ∈ required m, datum ds k i = none) ∧ ∃ names, (w.execute (call solve solveK m) (kw ds i)).2 = .error (.valueErrorNaming names) ∧
        names = ((required m).filter fun k => (datum ds k i).isNone).map ("data" ++ ·))) := by
  rcases select_cases m gap with ⟨_, args, opts, hist, h1, h2, h7, h3, h4, h5, h6⟩ | ⟨rfl, rfl, _⟩ | ⟨rfl, ⟨g, rfl, hneg⟩, _⟩
  · refine ⟨_, h1, ?_⟩
    have hreq : ∀ k ∈ required m, k ∈ letters := by cases m <;> decide
    obtain ⟨c1, c2⟩ := C11_exec_missing args opts hist (kw ds i) (kw_WF ds i)
    have hval : ∀ k ∈ required m, ((∃ v, (get? (kw ds i) ("data" ++ k)).or (lastWrite hist ("data" ++ k)) = some (some v)) ↔ (datum ds k i).isSome) := by
      intro k hk
      rw [h3 k (hreq k hk), kw_get ds i k (hreq k hk), Option.or_none]
      cases datum ds k i <;> simp [size]
    by_cases hall : ∀ k ∈ required m, (datum ds k i).isSome
    · refine Or.inl ⟨hall, ?_⟩
      obtain ⟨a, ha⟩ := c1.2 (by
        rw [h2]
        intro n hn
        obtain ⟨k, hk, rfl⟩ := List.mem_map.1 hn
        exact (hval k hk).2 (hall k hk))
      obtain ⟨_, d2, d3, d4⟩ := C10_exec_latest args opts hist (kw ds i) (kw_WF ds i) a ha
      have harg : ∀ k ∈ letters, arg a ("data" ++ k) = size (datum ds k i) := by
        intro k hk
        apply arg_of
        by_cases hm : k ∈ required m
        · rw [d2 _ (by rw [h2]; exact List.mem_map.2 ⟨k, hm, rfl⟩), h3 k hk, kw_get ds i k hk, Option.or_none]
        · rw [d3 _ (by
            rw [h2]
            intro h
            obtain ⟨q, hq, e⟩ := List.mem_map.1 h
            rw [← data_inj e] at hm
            exact hm hq) (h4 k hk hm), h3 k hk, kw_get ds i k hk]
          simp
      obtain ⟨S, hS⟩ := Option.isSome_iff_exists.1 (hall "S" (by cases m <;> decide))
      have aS : argD a "dataS" 0 = |S| := by
        have := harg "S" (by decide)
        rw [hS] at this
        unfold argD
        rw [show "dataS" = "data" ++ "S" from rfl, this]
        rfl
      have aT : arg a "dataT" = size (datum ds "T" i) := harg "T" (by decide)
      have aC : arg a "dataC" = size (datum ds "C" i) := harg "C" (by decide)
      have aN : arg a "dataN" = size (datum ds "N" i) := harg "N" (by decide)
      have aK : arg a "dataK" = size (datum ds "K" i) := harg "K" (by decide)
      have hoth : ∀ k, (∀ l ∈ letters, k ≠ "data" ++ l) → get? a k = none ∨ get? a k = (lastWrite hist k).filter (·.isSome) := by
        intro k hk
        by_cases ha' : k ∈ args
        · rw [h2] at ha'
          obtain ⟨q, hq, e⟩ := List.mem_map.1 ha'
          exact absurd e.symm (hk q (hreq q hq))
        · by_cases ho : k ∈ opts
          · rw [d3 k ha' ho, kw_other ds i k hk]
            exact Or.inr (by simp)
          · exact Or.inl (d4 k ha' ho)
      have hdef : ∀ k d, (∀ l ∈ letters, k ≠ "data" ++ l) → lastWrite hist k = none → argD a k d = d := by
        intro k d hk hl
        have : get? a k = none := by
          rcases hoth k hk with h | h
          · exact h
          · rw [h, hl]; rfl
        unfold argD arg
        rw [this]; rfl
      have hx : ∀ r, call solve solveK m a = .ok r →
          ((execAfter args opts hist).execute (call solve solveK m) (kw ds i)).2 = .ok r := by
        intro r hr
        simp only [Exec.execute, ha, hr]
      cases m with
      | spb =>
        have hh : hist = [] := h5 (by decide)
        refine ⟨_, hx _ rfl, ?_⟩
        rw [aS, aT, aC, aN, aK, hdef "Kmass" 1 (by decide) (by rw [hh]; rfl)]
        exact Reading.spb hS
      | rspb =>
        have hh : hist = [] := h5 (by decide)
        refine ⟨_, hx _ rfl, ?_⟩
        rw [aS, aT, aC, aN, aK, hdef "delta" (75 / 1000) (by decide) (by rw [hh]; rfl)]
        have := Reading.rspb (solve := solve) (solveK := solveK) (gap := gap) (x := (datum ds · i)) hS
        rw [show (0.075 : ℝ) = 75 / 1000 by norm_num] at this
        exact this
      | skb =>
        obtain ⟨g, rfl, hpos⟩ := hg rfl
        obtain ⟨e1, e2, e3⟩ := h6 rfl
        obtain ⟨T, hT⟩ := Option.isSome_iff_exists.1 (hall "T" (by decide))
        have aT' : argD a "dataT" 0 = |T| := by unfold argD; rw [aT, hT]; rfl
        have aE : argD a "Eg" 1 = g := by
          have : get? a "Eg" = some (some g) := by
            rw [d3 "Eg" (by rw [h2]; decide) e1, kw_other ds i "Eg" (by decide), e2]
            simp
          unfold argD arg; rw [this]; rfl
        obtain ⟨out, ho, _⟩ := (C81_skb (solveK g) |S| |T| (size (datum ds "C" i)) (size (datum ds "N" i)) (size (datum ds "K" i)) g false 1).2 hpos
        refine ⟨out, hx _ ?_, Reading.skb hS hT rfl hpos ho⟩
        unfold call
        simp only [aS, aT', aC, aN, aK, aE, hdef "Kmass" 1 (by decide) e3, ho]
    · refine Or.inr ?_
      have hno : ∃ k ∈ required m, datum ds k i = none := by
        by_contra h
        refine hall fun k hk => ?_
        rw [Option.isSome_iff_ne_none]
        exact fun e => h ⟨k, hk, e⟩
      refine ⟨hno, ?_⟩
      cases hc : (execAfter args opts hist).callArgs (kw ds i) with
      | ok a =>
        exfalso
        refine hall fun k hk => (hval k hk).1 (c1.1 ⟨a, hc⟩ _ ?_)
        rw [h2]; exact List.mem_map.2 ⟨k, hk, rfl⟩
      | error e =>
        obtain ⟨names, rfl, n1, n2⟩ := c2 e hc
        refine ⟨names, by simp only [Exec.execute, hc], ?_⟩
        have hsub := names_sublist _ _ hc
        rw [h7, h2] at hsub
        rw [sublist_filter hsub (by cases m <;> decide), List.filter_map]
        congr 1
        apply List.filter_congr
        intro k hk
        have h8 := n2 ("data" ++ k)
        rw [hval k hk, h2] at h8
        have h9 : "data" ++ k ∈ (required m).map ("data" ++ ·) := List.mem_map.2 ⟨k, hk, rfl⟩
        simp only [h9, true_and] at h8
        simp only [Function.comp, h8, Option.not_isSome_iff_eq_none]
        cases datum ds k i <;> simp
  · obtain ⟨g, h, _⟩ := hg rfl; cases h
  · obtain ⟨g', h, hp⟩ := hg rfl
    cases h; linarith

theorem reading_keys {gap : Option ℝ} {x : String → Option ℝ} {m : Method} {out : List (String × ℝ)} (h : Reading solve solveK gap x m out) :
    WF out ∧ ∀ k ∈ letters, k ∉ keys out := by
  cases h with
  | spb hS =>
    obtain ⟨h1, h2, _⟩ := C81_spb solve (|_|) (size (x "T")) (size (x "C")) (size (x "N")) (size (x "K")) false 1
    refine ⟨h1, fun k hk h => ?_⟩
    have := (h2 k).1 h
    simp only [letters, List.mem_cons, List.not_mem_nil, or_false] at hk
    rcases hk with rfl | rfl | rfl | rfl | rfl <;> simp at this
  | rspb hS =>
    obtain ⟨h1, h2, _⟩ := C81_rspb (|_|) (size (x "C")) (size (x "T")) (size (x "N")) (size (x "K")) 0.075
    refine ⟨h1, fun k hk h => ?_⟩
    have := (h2 k).1 h
    simp only [letters, List.mem_cons, List.not_mem_nil, or_false] at hk
    rcases hk with rfl | rfl | rfl | rfl | rfl <;> simp at this
  | skb hS hT hg hpos h =>
    obtain ⟨out', h0, h1, h2, _⟩ := (C81_skb (solveK _) (|_|) (|_|) (size (x "C")) (size (x "N")) (size (x "K")) _ false 1).2 hpos
    rw [h] at h0
    cases h0
    refine ⟨h1, fun k hk h => ?_⟩
    have := (h2 k).1 h
    simp only [letters, List.mem_cons, List.not_mem_nil, or_false] at hk
    rcases hk with rfl | rfl | rfl | rfl | rfl <;> simp at this

theorem reading_unique {gap : Option ℝ} {x : String → Option ℝ} {m : Method} {a b : List (String × ℝ)} (h : Reading solve solveK gap x m a)
    (h' : Reading solve solveK gap x m b) : a = b := by
  cases h with
  | spb hS => cases h' with | spb hS' => rw [hS] at hS'; cases hS'; rfl
  | rspb hS => cases h' with | rspb hS' => rw [hS] at hS'; cases hS'; rfl
  | skb hS hT hg hpos h => cases h' with
    | skb hS' hT' hg' hpos' h' =>
      rw [hS] at hS'; cases hS'
      rw [hT] at hT'; cases hT'
      rw [hg] at hg'; cases hg'
      rw [h] at h'; cases h'; rfl

theorem withInputs_eq (ds : Dataset Unit (ι → ℝ)) (i : ι) (bare : Bool) {kept : List (String × ℝ)} (hw : WF kept)
    (hk : ∀ k ∈ letters, k ∉ keys kept) :
    withInputs bare (columns ds i) kept = .ok ((if bare then [] else columns ds i) ++ kept) := by
  cases bare with
  | true => rfl
  | false =>
    have hc := columns_WF ds i
    have hdis : ∀ k ∈ keys (columns ds i), k ∉ keys kept := by
      intro k h
      rw [columns_keys] at h
      exact hk k (List.mem_of_mem_filter h)
    have hu := update_of_disjoint hc hdis
    have hw' : WF (kept ++ columns ds i) := by rw [← hu]; exact hw.update _
    obtain ⟨d', h1, h2, h3, h4⟩ := moveInputs_spec (columns ds i) letters.reverse (by decide) (kept ++ columns ds i) hw' (fun k _ h => by
      rw [has_iff] at h
      simp only [keys, List.map_append, List.mem_append]
      exact Or.inr h)
    simp only [withInputs, hu, Bool.false_eq_true, if_false, h1]
    congr 1
    have hf : (letters.reverse.filter (has (columns ds i) ·)).reverse = keys (columns ds i) := by
      rw [← List.filter_reverse, List.reverse_reverse, columns_keys]
      apply List.filter_congr
      intro k hk
      rw [has, columns_get ds i k hk]
    refine PyDict.ext h2 ?_ fun k _ => ?_
    · rw [h4, hf]
      simp only [keys, List.map_append]
      congr 1
      rw [List.filter_append, List.filter_eq_self.2, List.filter_eq_nil_iff.2, List.append_nil]
      · intro k hk
        have : k ∈ (letters.reverse.filter (has (columns ds i) ·)).reverse := by rw [hf]; exact hk
        simpa using this
      · intro k hk'
        have h5 : ∀ q ∈ letters, q ≠ k := fun q hq e => hk q hq (e ▸ hk')
        simp only [List.mem_filter, List.mem_reverse, decide_not, Bool.not_eq_true', decide_eq_false_iff_not, not_and]
        exact decide_eq_true fun h => absurd rfl (h5 k h)
    · rw [h3, get?_append, get?_append]
      by_cases hq : k ∈ keys (columns ds i)
      · rw [(get?_eq_none kept k).2 (hdis k hq)]; simp
      · rw [(get?_eq_none (columns ds i) k).2 hq]; simp

/-! ## Theorems -/

/-- **C110** What `tef-band -m` writes: exactly when the gap is fine, the file can be read and the required data are present, each row
has the data columns of `S T C N K` (unless `bare`) followed by the properties the model derives from the magnitudes of the data
(or the ones asked for). -/
theorem C110_table (hso : ∀ l, (setOrder l).Perm l) (m : Method) (gap : Option ℝ) (file : Except PyErr (Dataset Unit (ι → ℝ)))
    (props : Option (List Char)) (bare : Bool) (i : ι) (table : PyDict String ℝ) :
    run solve solveK setOrder m gap file props bare i = .ok table ↔
      ∃ ds out kept, file = .ok ds ∧ Reading solve solveK gap (datum ds · i) m out ∧ Kept props out kept ∧
        table = (if bare then [] else columns ds i) ++ kept := by
  have main : ∀ ds, file = .ok ds → GapOk m gap → ∀ out, Reading solve solveK gap (datum ds · i) m out →
      (∀ k ∈ required m, (datum ds k i).isSome) → ∃ kept, Kept props out kept ∧ 
      run solve solveK setOrder m gap file props bare i = .ok ((if bare then [] else columns ds i) ++ kept) := by
    intro ds hf hg out hr hreq
    obtain ⟨w, hw, h⟩ := executed (solve := solve) (solveK := solveK) hg ds i
    obtain ⟨inp, hi1, hi2⟩ := inputs_eq ds
    have hkw : kwargs inp i = kw ds i := by
      unfold kwargs kw
      rw [← hi2 i, List.map_map]
      rfl
    rcases h with ⟨_, out', ho, hr'⟩ | ⟨⟨k, hk, hn⟩, _⟩
    · obtain rfl := reading_unique hr hr'
      obtain ⟨hwf, hkeys⟩ := reading_keys hr
      obtain ⟨kept, hk1, hk2⟩ := kept_exists hso props hwf
      refine ⟨kept, hk2, ?_⟩
      have hwk : WF kept := by
        cases props with
        | none => rw [show kept = out from hk2]; exact hwf
        | some t => obtain ⟨ws, _, h2, _⟩ := hk2; exact (hwf.filter _).perm h2.symm
      simp only [run, hw, hf, hi1, hkw, ho, hk1, bind, Except.bind, hi2 i]
      exact withInputs_eq ds i bare hwk fun k hk h => hkeys k hk (kept_keys hk2 k h)
    · have := hreq k hk; rw [hn] at this; cases this
  have hreq : ∀ {ds : Dataset Unit (ι → ℝ)} {out}, Reading solve solveK gap (datum ds · i) m out → GapOk m gap ∧ ∀ k ∈ required m, (datum ds k i).isSome := by
    intro ds out h
    cases h with
    | spb hS => exact ⟨by simp [GapOk], by simp [required, hS]⟩
    | rspb hS => exact ⟨by simp [GapOk], by simp [required, hS]⟩
    | skb hS hT hg hpos h => exact ⟨fun _ => ⟨_, hg, hpos⟩, by simp [required, hS, hT]⟩
  constructor
  · intro h
    have hg : GapOk m gap := by
      rcases select_cases m gap with ⟨hg, _⟩ | ⟨_, _, he⟩ | ⟨_, _, he⟩
      · exact hg
      · simp [run, he, bind, Except.bind] at h
      · simp [run, he, bind, Except.bind] at h
    cases hf : file with
    | error e =>
      cases hs : select m gap <;> simp [run, hs, hf, bind, Except.bind] at h
    | ok ds =>
      obtain ⟨w, hw, h'⟩ := executed (solve := solve) (solveK := solveK) hg ds i
      rcases h' with ⟨hr, out, ho, hrd⟩ | ⟨_, names, hn, _⟩
      · obtain ⟨kept, hk, hrun⟩ := main ds hf hg out hrd hr
        rw [hf] at hrun h
        rw [h] at hrun
        cases hrun
        exact ⟨ds, out, kept, rfl, hrd, hk, rfl⟩
      · obtain ⟨inp, hi1, hi2⟩ := inputs_eq ds
        have hkw : kwargs inp i = kw ds i := by
          unfold kwargs kw
          rw [← hi2 i, List.map_map]
          rfl
        simp [run, hw, hf, hi1, hkw, hn, bind, Except.bind] at h
  · rintro ⟨ds, out, kept, hf, hr, hk, rfl⟩
    obtain ⟨hg, hq⟩ := hreq hr
    obtain ⟨kept', hk', hrun⟩ := main ds hf hg out hr hq
    rw [hrun, kept_unique (reading_keys hr).1 hk hk']

theorem run_file {m : Method} {gap : Option ℝ} (hg : GapOk m gap) (x : PyErr) (props : Option (List Char)) (bare : Bool) (i : ι) :
    run solve solveK setOrder m gap (.error x) props bare i = .error x := by
  rcases select_cases m gap with ⟨hg, args, opts, hist, h, _⟩ | ⟨rfl, rfl, _⟩ | ⟨rfl, ⟨g, rfl, hneg⟩, _⟩
  · simp only [run, h, bind, Except.bind]
  · obtain ⟨g, h, _⟩ := hg rfl; cases h
  · obtain ⟨g', h, hp⟩ := hg rfl
    cases h; linarith

theorem run_missing {m : Method} {gap : Option ℝ} (hg : GapOk m gap) (ds : Dataset Unit (ι → ℝ)) (props : Option (List Char)) (bare : Bool) (i : ι)
    (h : ∃ k ∈ required m, datum ds k i = none) :
    run solve solveK setOrder m gap (.ok ds) props bare i =
      .error (.valueErrorNaming (((required m).filter fun k => (datum ds k i).isNone).map ("data" ++ ·))) := by
  obtain ⟨w, hw, h'⟩ := executed (solve := solve) (solveK := solveK) hg ds i
  rcases h' with ⟨hr, _⟩ | ⟨_, names, hn, rfl⟩
  · obtain ⟨k, hk, hd⟩ := h
    have := hr k hk
    rw [hd] at this; cases this
  · obtain ⟨inp, hi1, hi2⟩ := inputs_eq ds
    have hkw : kwargs inp i = kw ds i := by
      unfold kwargs kw
      rw [← hi2 i, List.map_map]
      rfl
    simp only [run, hw, hi1, hkw, hn, bind, Except.bind]

/-- **C110** When it stops instead: no gap for the Kane model, a gap that is not positive (both before the file is read), a file that
cannot be read, or a `ValueError` naming exactly the required data that are missing. -/
theorem C110_errors (hso : ∀ l, (setOrder l).Perm l) (m : Method) (gap : Option ℝ) (file : Except PyErr (Dataset Unit (ι → ℝ)))
    (props : Option (List Char)) (bare : Bool) (i : ι) (e : PyErr) :
    run solve solveK setOrder m gap file props bare i = .error e ↔
      (m = .skb ∧ gap = none ∧ e = .runtimeError) ∨ (m = .skb ∧ (∃ g, gap = some g ∧ g ≤ 0) ∧ e = .valueError) ∨
      (GapOk m gap ∧ file = .error e) ∨
      (GapOk m gap ∧ ∃ ds names, file = .ok ds ∧ e = .valueErrorNaming names ∧ names ≠ [] ∧
        names = ((required m).filter fun k => (datum ds k i).isNone).map ("data" ++ ·)) := by
  constructor
  · intro h
    rcases select_cases m gap with ⟨hg, _⟩ | ⟨h1, h2, he⟩ | ⟨h1, h2, he⟩
    · cases file with
      | error x =>
        rw [run_file hg] at h
        cases h
        exact Or.inr (Or.inr (Or.inl ⟨hg, rfl⟩))
      | ok ds =>
        obtain ⟨w, hw, h'⟩ := executed (solve := solve) (solveK := solveK) hg ds i
        rcases h' with ⟨hr, out, ho, hrd⟩ | ⟨hm, _⟩
        · obtain ⟨kept, _, hk⟩ := kept_exists hso props (reading_keys hrd).1
          rw [(C110_table hso m gap (.ok ds) props bare i _).2 ⟨ds, out, kept, rfl, hrd, hk, rfl⟩] at h
          cases h
        · rw [run_missing hg ds props bare i hm] at h
          cases h
          refine Or.inr (Or.inr (Or.inr ⟨hg, ds, _, rfl, rfl, ?_, rfl⟩))
          obtain ⟨k, hk, hd⟩ := hm
          intro hnil
          have : "data" ++ k ∈ ((required m).filter fun k => (datum ds k i).isNone).map ("data" ++ ·) :=
            List.mem_map.2 ⟨k, List.mem_filter.2 ⟨hk, by simp [hd]⟩, rfl⟩
          rw [hnil] at this
          cases this
    · exact Or.inl ⟨h1, h2, by simpa [run, he, bind, Except.bind, eq_comm] using h⟩
    · exact Or.inr (Or.inl ⟨h1, h2, by simpa [run, he, bind, Except.bind, eq_comm] using h⟩)
  · rintro (⟨rfl, rfl, rfl⟩ | ⟨rfl, ⟨g, rfl, hg⟩, rfl⟩ | ⟨hg, rfl⟩ | ⟨hg, ds, names, rfl, rfl, hne, rfl⟩)
    · simp [run, select, bind, Except.bind]
    · simp [run, select, hg, bind, Except.bind]
    · exact run_file hg _ _ _ _
    · refine run_missing hg ds props bare i ?_
      obtain ⟨n, hn⟩ := List.exists_mem_of_ne_nil _ hne
      obtain ⟨k, hk, rfl⟩ := List.mem_map.1 hn
      obtain ⟨h1, h2⟩ := List.mem_filter.1 hk
      exact ⟨k, h1, by simpa using h2⟩

/-- **C110** The signs of the data have no influence on the properties derived (n- and p-type materials are treated alike). -/
theorem C110_signs (hso : ∀ l, (setOrder l).Perm l) (m : Method) (gap : Option ℝ) (ds ds' : Dataset Unit (ι → ℝ)) (props : Option (List Char)) (i : ι)
    (h : ∀ k ∈ ["S", "T", "C", "N", "K"], size (datum ds k i) = size (datum ds' k i)) :
    run solve solveK setOrder m gap (.ok ds) props true i = run solve solveK setOrder m gap (.ok ds') props true i := by
  have hs : ∀ k ∈ letters, (datum ds k i).isNone = (datum ds' k i).isNone := by
    intro k hk
    have := h k hk
    cases h1 : datum ds k i <;> cases h2 : datum ds' k i <;> simp_all [size]
  have key : ∀ out, Reading solve solveK gap (datum ds · i) m out → Reading solve solveK gap (datum ds' · i) m out := by
    intro out hr
    cases hr with
    | spb hS =>
      rw [h "T" (by decide), h "C" (by decide), h "N" (by decide), h "K" (by decide)]
      have h1 := h "S" (by decide)
      rw [hS] at h1
      cases h2 : datum ds' "S" i with
      | none => rw [h2] at h1; cases h1
      | some S' =>
        rw [h2] at h1
        simp only [size, Option.map_some, Option.some.injEq] at h1
        rw [h1]
        exact Reading.spb h2
    | rspb hS =>
      rw [h "T" (by decide), h "C" (by decide), h "N" (by decide), h "K" (by decide)]
      have h1 := h "S" (by decide)
      rw [hS] at h1
      cases h2 : datum ds' "S" i with
      | none => rw [h2] at h1; cases h1
      | some S' =>
        rw [h2] at h1
        simp only [size, Option.map_some, Option.some.injEq] at h1
        rw [h1]
        exact Reading.rspb h2
    | skb hS hT hg hpos hv =>
      rw [h "C" (by decide), h "N" (by decide), h "K" (by decide)] at hv
      have h1 := h "S" (by decide)
      have h3 := h "T" (by decide)
      rw [hS] at h1
      rw [hT] at h3
      cases h2 : datum ds' "S" i with
      | none => rw [h2] at h1; cases h1
      | some S' =>
        cases h4 : datum ds' "T" i with
        | none => rw [h4] at h3; cases h3
        | some T' =>
          rw [h2] at h1
          rw [h4] at h3
          simp only [size, Option.map_some, Option.some.injEq] at h1 h3
          rw [h1, h3] at hv
          exact Reading.skb h2 h4 hg hpos hv
  cases hr : run solve solveK setOrder m gap (.ok ds) props true i with
  | ok t =>
    obtain ⟨ds0, out, kept, e, h1, h2, h3⟩ := (C110_table hso m gap _ props true i t).1 hr
    cases e
    exact ((C110_table hso m gap _ props true i t).2 ⟨ds', out, kept, rfl, key out h1, h2, by simpa using h3⟩).symm
  | error e =>
    symm
    rw [C110_errors hso] at hr ⊢
    rcases hr with h1 | h1 | ⟨_, h1⟩ | ⟨hg, d, names, h1, h2, h3, h4⟩
    · exact Or.inl h1
    · exact Or.inr (Or.inl h1)
    · cases h1
    · cases h1
      refine Or.inr (Or.inr (Or.inr ⟨hg, ds', names, rfl, h2, h3, h4.trans ?_⟩))
      congr 1
      apply List.filter_congr
      intro k hk
      exact hs k (by revert k; cases m <;> decide)

/-- **C110** Every row has the same columns: which ones depends on the columns of the file and the options only. -/
theorem C110_rows (hso : ∀ l, (setOrder l).Perm l) (m : Method) (gap : Option ℝ) (file : Except PyErr (Dataset Unit (ι → ℝ)))
    (props : Option (List Char)) (bare : Bool) (i j : ι) (ti : PyDict String ℝ)
    (h : run solve solveK setOrder m gap file props bare i = .ok ti) :
    ∃ tj, run solve solveK setOrder m gap file props bare j = .ok tj ∧ keys tj = keys ti := by
  obtain ⟨ds, out, kept, rfl, h1, h2, rfl⟩ := (C110_table hso m gap _ props bare i ti).1 h
  have hsome : ∀ k, (datum ds k j).isSome = (datum ds k i).isSome := by
    intro k
    unfold datum
    cases getProp ds k (some ()) with
    | error e => rfl
    | ok o => cases o <;> rfl
  have hsz : ∀ k, (size (datum ds k j)).isSome = (size (datum ds k i)).isSome := by
    intro k; simp only [size, Option.isSome_map, hsome]
  have hout : ∃ out', Reading solve solveK gap (datum ds · j) m out' ∧ keys out' = keys out := by
    have hC := hsz "C"; have hT := hsz "T"; have hN := hsz "N"; have hK := hsz "K"
    cases h1 with
    | spb hS =>
      obtain ⟨S', hS'⟩ := Option.isSome_iff_exists.1 ((hsome "S").trans (by rw [hS]; rfl))
      refine ⟨_, Reading.spb hS', ?_⟩
      generalize size (datum ds "C" j) = c at *
      generalize size (datum ds "T" j) = t at *
      generalize size (datum ds "N" j) = n at *
      generalize size (datum ds "K" j) = k at *
      generalize size (datum ds "C" i) = c' at *
      generalize size (datum ds "T" i) = t' at *
      generalize size (datum ds "N" i) = n' at *
      generalize size (datum ds "K" i) = k' at *
      clear h hsome hsz hS hS' h2
      cases c <;> cases c' <;> cases t <;> cases t' <;> cases n <;> cases n' <;> cases k <;> cases k' <;>
        first | (exfalso; simp at hC hT hN hK; done) | rfl
    | rspb hS =>
      obtain ⟨S', hS'⟩ := Option.isSome_iff_exists.1 ((hsome "S").trans (by rw [hS]; rfl))
      refine ⟨_, Reading.rspb hS', ?_⟩
      generalize size (datum ds "C" j) = c at *
      generalize size (datum ds "T" j) = t at *
      generalize size (datum ds "N" j) = n at *
      generalize size (datum ds "K" j) = k at *
      generalize size (datum ds "C" i) = c' at *
      generalize size (datum ds "T" i) = t' at *
      generalize size (datum ds "N" i) = n' at *
      generalize size (datum ds "K" i) = k' at *
      clear h hsome hsz hS hS' h2
      cases c <;> cases c' <;> cases t <;> cases t' <;> cases n <;> cases n' <;> cases k <;> cases k' <;>
        first | (exfalso; simp at hC hT hN hK; done) | rfl
    | skb hS hT' hg hpos hv =>
      obtain ⟨S', hS'⟩ := Option.isSome_iff_exists.1 ((hsome "S").trans (by rw [hS]; rfl))
      obtain ⟨T', hT''⟩ := Option.isSome_iff_exists.1 ((hsome "T").trans (by rw [hT']; rfl))
      obtain ⟨out', ho, _⟩ := (C81_skb (solveK _) |S'| |T'| (size (datum ds "C" j)) (size (datum ds "N" j)) (size (datum ds "K" j)) _ false 1).2 hpos
      refine ⟨out', Reading.skb hS' hT'' hg hpos ho, ?_⟩
      simp only [Skb.valuate, Skb.make, hpos, if_true, bind, Except.bind, pure, Except.pure, Except.ok.injEq] at ho hv
      rw [← ho, ← hv]
      generalize size (datum ds "C" j) = c at *
      generalize size (datum ds "N" j) = n at *
      generalize size (datum ds "K" j) = k at *
      generalize size (datum ds "C" i) = c' at *
      generalize size (datum ds "N" i) = n' at *
      generalize size (datum ds "K" i) = k' at *
      clear h hsome hsz hS hS' h2 ho hv hT hT' hT''
      cases c <;> cases c' <;> cases n <;> cases n' <;> cases k <;> cases k' <;>
        first | (exfalso; simp at hC hN hK; done) | rfl
  obtain ⟨out', hr', hko⟩ := hout
  obtain ⟨kept', _, hk'⟩ := kept_exists hso props (reading_keys hr').1
  refine ⟨_, (C110_table hso m gap _ props bare j _).2 ⟨ds, out', kept', rfl, hr', hk', rfl⟩, ?_⟩
  have hkk : keys kept' = keys kept := by
    cases props with
    | none =>
      rw [show kept' = out' from hk', show kept = out from h2]; exact hko
    | some t =>
      obtain ⟨ws, a1, a2, a3⟩ := h2
      obtain ⟨ws', b1, b2, b3⟩ := hk'
      have e : ws = ws' := ((tokenises_iff _ _ _).1 a1).symm.trans ((tokenises_iff _ _ _).1 b1)
      subst e
      refine ordered_unique (ks := ws.map String.ofList) ?_ b3 a3
      have f1 := b2.map Prod.fst
      have f2 := a2.map Prod.fst
      have g : ∀ l : PyDict String ℝ, (l.filter fun e => e.1 ∈ ws.map String.ofList).map Prod.fst = (keys l).filter fun k => k ∈ ws.map String.ofList :=
        fun l => keys_filter_keys l (fun k => decide (k ∈ ws.map String.ofList))
      rw [g] at f1 f2
      rw [hko] at f1
      exact f1.trans f2.symm
  have hcol : keys (columns ds j) = keys (columns ds i) := by
    rw [columns_keys, columns_keys]
    exact List.filter_congr fun k _ => hsome k
  cases bare with
  | true => exact hkk
  | false => simp only [keys, List.map_append] at *; simp only [Bool.false_eq_true, if_false, hcol, hkk]

/-! ## Concrete cases -/

/-- a file with the columns S and R (resistivity; the conductivity is derived), one row, n-type -/
noncomputable def exData : Dataset Unit (Unit → ℝ) := [("S", ⟨fun _ => -200, (), -1⟩), ("T", ⟨fun _ => 300, (), -1⟩), ("R", ⟨fun _ => 10, (), -1⟩)]

/-- the columns S, T, C in front, with the sign of S; then what was asked for, in the order asked -/
example : ∃ t, run (ι := Unit) (fun _ _ => 0) (fun _ _ _ => 0) id .spb none (.ok exData) (some "UWT L none".toList) false () = .ok t ∧
    keys t = ["S", "T", "C", "UWT", "L"] ∧ get? t "S" = some (-200) ∧ get? t "C" = some 1000 := by
  have dS : datum exData "S" () = some (-200) := rfl
  have dT : datum exData "T" () = some 300 := rfl
  have dC : datum exData "C" () = some (10000 / 10) := rfl
  have dN : datum exData "N" () = none := rfl
  have dK : datum exData "K" () = none := rfl
  have hr := Reading.spb (solve := fun _ _ => 0) (solveK := fun _ _ _ => 0) (gap := none) (x := (datum exData · ())) dS
  obtain ⟨kept, _, hk⟩ := kept_exists (setOrder := id) (fun l => List.Perm.refl l) (some "UWT L none".toList) (reading_keys hr).1
  refine ⟨_, (C110_table (fun l => List.Perm.refl l) .spb none _ _ false () _).2 ⟨_, _, kept, rfl, hr, hk, rfl⟩, ?_⟩
  have hcol : columns exData () = [("S", -200), ("T", 300), ("C", 10000 / 10)] := by
    simp [columns, dS, dT, dC, dN, dK]
  have hkk : keys kept = ["UWT", "L"] := by
    obtain ⟨ws, a1, a2, a3⟩ := hk
    have hws : ws = ["UWT".toList, "L".toList, "none".toList] := ((tokenises_iff _ _ _).1 a1).symm.trans (by decide +kernel)
    subst hws
    refine ordered_unique ?_ a3 (by
      simp only [List.pairwise_cons, List.mem_singleton, forall_eq, List.not_mem_nil, false_imp_iff, implies_true, List.Pairwise.nil, and_true]
      refine ⟨0, 1, ⟨rfl, fun j hj => ?_⟩, ⟨rfl, fun j hj => ?_⟩, by omega⟩
      · match j, hj with
        | 1, _ => decide
        | 2, _ => decide
        | n + 3, _ => simp
      · match j, hj with
        | 2, _ => decide
        | n + 3, _ => simp)
    refine (a2.map Prod.fst).trans ?_
    have : keys (Spb.valuate (fun _ _ => 0) |(-200 : ℝ)| (size (datum exData "T" ())) (size (datum exData "C" ())) (size (datum exData "N" ()))
        (size (datum exData "K" ())) false 1) = ["L", "Ke", "sigma0", "UWT", "PFmax"] := by
      rw [dT, dC, dN, dK]; rfl
    refine (List.Perm.of_eq (keys_filter_keys _ (fun k : String => decide (k ∈ ["UWT".toList, "L".toList, "none".toList].map String.ofList)))).trans ?_
    rw [this]
    decide
  refine ⟨?_, ?_, ?_⟩
  · simp only [Bool.false_eq_true, if_false, keys, List.map_append] at hkk ⊢
    rw [hkk, hcol]; rfl
  · simp [get?_append, hcol, get?]
  · have e1 : ¬ "S" = "C" := by decide
    have e2 : ¬ "T" = "C" := by decide
    simp only [get?_append, hcol, get?, Bool.false_eq_true, if_false, e1, e2, if_true, Option.some_or, Option.some.injEq]; norm_num

/-- the Kane model without temperature -/
example : run (ι := Unit) (fun _ _ => 0) (fun _ _ _ => 0) id .skb (some 0.2) (.ok [("S", ⟨fun _ => -200, (), -1⟩)]) none false () =
    .error (.valueErrorNaming ["dataT"]) := by
  refine (C110_errors (setOrder := id) (fun l => List.Perm.refl l) _ _ _ _ _ _ _).2 ?_
  refine Or.inr (Or.inr (Or.inr ⟨fun _ => ⟨_, rfl, by norm_num⟩, _, _, rfl, rfl, by simp, ?_⟩))
  rfl

end TEflow.BandModel
