import Mathlib.Tactic
import Verif.Model.Band

/-! # C67: caching of band objects -/

set_option linter.unusedSimpArgs false

namespace TEflow.Bandlib

section
variable {R : Type} [Field R] [LinearOrder R]

/-! ## Single bands -/

omit [LinearOrder R] in
theorem Leaf.compile_clear (b : Leaf R) (EF T : R) (l : Nat) : (b.compile EF T l).clear = b.clear := rfl
omit [Field R] [LinearOrder R] in
theorem Leaf.clear_clear (b : Leaf R) : b.clear.clear = b.clear := rfl

omit [LinearOrder R] in
theorem Leaf.run_clear (ops : List (LeafOp R)) : ∀ b : Leaf R, (b.run ops).clear = b.clear := by
  induction ops with
  | nil => intro b; rfl
  | cons op ops ih =>
    intro b
    cases op with
    | compile EF T l => simp only [Leaf.run, ih, Leaf.compile_clear]
    | clear => simp only [Leaf.run, ih, Leaf.clear_clear]

omit [LinearOrder R] in
theorem Leaf.run_append (a c : List (LeafOp R)) : ∀ b : Leaf R, b.run (a ++ c) = (b.run a).run c := by
  induction a with
  | nil => intro b; rfl
  | cons op a ih => intro b; cases op <;> simp only [List.cons_append, Leaf.run, ih]

omit [LinearOrder R] in
/-- a compiled single band reads what the uncompiled one computes, up to the compiled level -/
theorem Leaf.compile_src (b : Leaf R) (EF T : R) (l : Nat) (args : Option (R × R)) :
    ((b.compile EF T l).src args).sign = (b.clear.src (some (EF, T))).sign ∧
    ((b.compile EF T l).src args).N = (b.clear.src (some (EF, T))).N ∧
    ((b.compile EF T l).src args).H = (b.clear.src (some (EF, T))).H ∧
    ((b.compile EF T l).src args).T = (b.clear.src (some (EF, T))).T ∧
    (∀ i ≤ l, ((b.compile EF T l).src args).K i = (b.clear.src (some (EF, T))).K i) ∧
    ∀ i, l < i → ((b.compile EF T l).src args).K i = .error .indexError := by
  refine ⟨rfl, rfl, rfl, rfl, fun i hi => ?_, fun i hi => ?_⟩
  · simp only [Leaf.src, Leaf.compile, Cache.src, Leaf.clear]
    rw [List.getElem?_map, List.getElem?_range (by omega)]
    rfl
  · simp only [Leaf.src, Leaf.compile, Cache.src, Leaf.clear]
    rw [List.getElem?_map, List.getElem?_eq_none (by simp; omega)]
    rfl

omit [LinearOrder R] in
/-- objects that read the same give the same properties -/
theorem Src.prop_congr (s t : Src R) (h1 : s.sign = t.sign) (h2 : s.N = t.N) (h3 : s.H = t.H) (h4 : s.T = t.T)
    (h5 : ∀ i ≤ 2, s.K i = t.K i) (p : TProp) : s.prop p = t.prop p := by
  have k0 := h5 0 (by omega)
  have k1 := h5 1 (by omega)
  have k2 := h5 2 (by omega)
  cases p <;> simp only [Src.prop, h1, h2, h3, h4, k0, k1, k2]

omit [LinearOrder R] in
/-- **C67** After any history of `compile` and `clear` calls, a property of a single band is the direct evaluation (that of
a band never compiled) at the arguments of the last `compile` if that is the last call, whatever arguments are passed; and
at the arguments passed if the last call is `clear`. -/
theorem C67_leaf_history (b : Leaf R) (hist : List (LeafOp R)) (p : TProp) (args : Option (R × R)) :
    (∀ EF T l, 2 ≤ l → (b.run (hist ++ [.compile EF T l])).prop p args = b.clear.prop p (some (EF, T))) ∧
    (b.run (hist ++ [.clear])).prop p args = b.clear.prop p args := by
  constructor
  · intro EF T l hl
    rw [Leaf.run_append]
    obtain ⟨h1, h2, h3, h4, h5, -⟩ := (b.run hist).compile_src EF T l args
    rw [Leaf.run_clear] at h1 h2 h3 h4 h5
    exact Src.prop_congr _ _ h1 h2 h3 h4 (fun i hi => h5 i (by omega)) p
  · rw [Leaf.run_append]
    have e : (b.run hist).run [.clear] = (b.run hist).clear := rfl
    rw [e, Leaf.run_clear]

omit [LinearOrder R] in
/-- **C67** Compiled to a lower level, a property that needs a higher integral is an `IndexError`. -/
theorem C67_leaf_level (b : Leaf R) (hist : List (LeafOp R)) (EF T : R) (args : Option (R × R)) :
    (b.run (hist ++ [.compile EF T 1])).prop .L args = .error .indexError ∧
    (b.run (hist ++ [.compile EF T 0])).prop .S args = .error .indexError ∧
    (b.run (hist ++ [.compile EF T 1])).prop .S args = b.clear.prop .S (some (EF, T)) := by
  refine ⟨?_, ?_, ?_⟩
  · rw [Leaf.run_append]; rfl
  · rw [Leaf.run_append]; rfl
  · rw [Leaf.run_append]
    obtain ⟨h1, h2, h3, h4, h5, h6⟩ := (b.run hist).compile_src EF T 1 args
    rw [Leaf.run_clear] at h1 h5
    change ((((b.run hist).compile EF T 1)).src args).prop .S = (b.clear.src (some (EF, T))).prop .S
    simp only [Src.prop, h1, h5 0 (by omega), h5 1 (by omega)]

omit [LinearOrder R] in
/-- **C67** `band[key]`: a `RuntimeError` before compiling, a `KeyError` for unknown names, otherwise the compiled arguments
or the property. -/
theorem C67_getitem (b : Leaf R) (EF T : R) (l : Nat) (key : String) :
    getItem b.clear.cache (b.clear.src none) key = .error .runtimeError ∧
    getItem (b.compile EF T l).cache ((b.compile EF T l).src none) "EF" = .ok (some EF) ∧
    getItem (b.compile EF T l).cache ((b.compile EF T l).src none) "T" = .ok (some T) ∧
    (∀ p : TProp, getItem (b.compile EF T l).cache ((b.compile EF T l).src none) p.name = (b.compile EF T l).prop p none) ∧
    (key ≠ "EF" → key ≠ "T" → (∀ p : TProp, p.name ≠ key) →
      getItem (b.compile EF T l).cache ((b.compile EF T l).src none) key = .error .keyError) := by
  refine ⟨rfl, rfl, ?_, fun p => ?_, fun h1 h2 h3 => ?_⟩
  · simp only [getItem, Leaf.compile, if_neg (by decide : ¬ "T" = "EF"), if_true]
  · have e : TProp.all.find? (fun q => q.name = p.name) = some p := by cases p <;> decide
    simp only [getItem, Leaf.compile, e]
    rw [if_neg (by cases p <;> decide), if_neg (by cases p <;> decide)]
    rfl
  · have e : TProp.all.find? (fun q => q.name = key) = none := by
      rw [List.find?_eq_none]
      intro q _
      simpa using h3 q
    simp only [getItem, Leaf.compile, if_neg h1, if_neg h2, e]

omit [LinearOrder R] in
/-- **C67** The names of the properties. -/
theorem C67_names (b : Leaf R) (EF T : R) (l : Nat) : let c := b.compile EF T l
    [getItem c.cache (c.src none) "N", getItem c.cache (c.src none) "K_0", getItem c.cache (c.src none) "K_1", getItem c.cache (c.src none) "K_2",
      getItem c.cache (c.src none) "CCRH", getItem c.cache (c.src none) "C", getItem c.cache (c.src none) "CS", getItem c.cache (c.src none) "S",
      getItem c.cache (c.src none) "PF", getItem c.cache (c.src none) "CL", getItem c.cache (c.src none) "L", getItem c.cache (c.src none) "Ke",
      getItem c.cache (c.src none) "U", getItem c.cache (c.src none) "RH", getItem c.cache (c.src none) "UH", getItem c.cache (c.src none) "NH"] =
    [c.prop .N none, c.prop .K_0 none, c.prop .K_1 none, c.prop .K_2 none, c.prop .CCRH none, c.prop .C none, c.prop .CS none, c.prop .S none,
      c.prop .PF none, c.prop .CL none, c.prop .L none, c.prop .Ke none, c.prop .U none, c.prop .RH none, c.prop .UH none, c.prop .NH none] := by
  intro c
  have h := (C67_getitem b EF T l "").2.2.2.1
  have h' : ∀ p : TProp, ∀ s : String, p.name = s → getItem c.cache (c.src none) s = c.prop p none := fun p s hs => hs ▸ h p
  rw [h' .N "N" rfl, h' .K_0 "K_0" rfl, h' .K_1 "K_1" rfl, h' .K_2 "K_2" rfl, h' .CCRH "CCRH" rfl, h' .C "C" rfl, h' .CS "CS" rfl, h' .S "S" rfl,
    h' .PF "PF" rfl, h' .CL "CL" rfl, h' .L "L" rfl, h' .Ke "Ke" rfl, h' .U "U" rfl, h' .RH "RH" rfl, h' .UH "UH" rfl, h' .NH "NH" rfl]

/-! ## Several bands -/

omit [Field R] [LinearOrder R] in
theorem Heap.set_same (w : Heap R) (i : Nat) (b : Leaf R) : (w.set i b) i = b := by simp [Heap.set]
omit [Field R] [LinearOrder R] in
theorem Heap.set_other (w : Heap R) (i j : Nat) (b : Leaf R) (h : j ≠ i) : (w.set i b) j = w j := by simp [Heap.set, h]

omit [LinearOrder R] in
theorem compileBands_not_mem (EF T : R) (l : Nat) (xs : List (Nat × R)) : ∀ (w : Heap R) (i : Nat), i ∉ xs.map Prod.fst →
    compileBands EF T l w xs i = w i := by
  induction xs with
  | nil => intro w i _; rfl
  | cons x xs ih =>
    intro w i hi
    obtain ⟨j, d⟩ := x
    simp only [List.map_cons, List.mem_cons, not_or] at hi
    simp only [compileBands]
    rw [ih _ _ hi.2, Heap.set_other _ _ _ _ hi.1]

omit [LinearOrder R] in
theorem compileBands_mem (EF T : R) (l : Nat) (xs : List (Nat × R)) : ∀ (w : Heap R), (xs.map Prod.fst).Nodup →
    ∀ i d, (i, d) ∈ xs → compileBands EF T l w xs i = (w i).compile (shiftEF (w i) d EF) T l := by
  induction xs with
  | nil => intro w _ i d h; simp at h
  | cons x xs ih =>
    intro w hn i d h
    obtain ⟨j, e⟩ := x
    simp only [List.map_cons, List.nodup_cons] at hn
    simp only [compileBands]
    rw [List.mem_cons] at h
    rcases h with h | h
    · cases h
      rw [compileBands_not_mem _ _ _ _ _ _ hn.1, Heap.set_same]
    · have hij : i ≠ j := by
        rintro rfl
        exact hn.1 (List.mem_map.2 ⟨_, h, rfl⟩)
      rw [ih _ hn.2 i d h, Heap.set_other _ _ _ _ hij]

omit [LinearOrder R] in
/-- whatever is compiled, only caches change -/
theorem compileBands_clear (EF T : R) (l : Nat) (xs : List (Nat × R)) : ∀ (w : Heap R) (i : Nat),
    (compileBands EF T l w xs i).clear = (w i).clear := by
  induction xs with
  | nil => intro w i; rfl
  | cons x xs ih =>
    intro w i
    obtain ⟨j, d⟩ := x
    simp only [compileBands, ih]
    by_cases h : i = j
    · subst h; rw [Heap.set_same, Leaf.compile_clear]
    · rw [Heap.set_other _ _ _ _ h]

omit [Field R] [LinearOrder R] in
theorem clearFold (ids : List Nat) : ∀ (w : Heap R) (i : Nat),
    (ids.foldl (fun w i => w.set i (w i).clear) w) i = if i ∈ ids then (w i).clear else w i := by
  induction ids with
  | nil => intro w i; simp
  | cons j ids ih =>
    intro w i
    simp only [List.foldl_cons, ih, List.mem_cons]
    by_cases h : i = j
    · subst h
      by_cases h2 : i ∈ ids <;> simp [h2, Heap.set_same, Leaf.clear_clear]
    · by_cases h2 : i ∈ ids <;> simp [h, h2, Heap.set_other _ _ _ _ h]

omit [LinearOrder R] in
theorem sumBands_congr (f g : Nat × R → Except PyErr R) (xs : List (Nat × R)) : ∀ acc : R,
    (∀ x ∈ xs, f x = g x) → sumBands f acc xs = sumBands g acc xs := by
  induction xs with
  | nil => intro acc _; rfl
  | cons x xs ih =>
    intro acc h
    simp only [sumBands, h x (by simp)]
    cases g x with
    | error e => rfl
    | ok v => exact ih _ fun y hy => h y (by simp [hy])

omit [LinearOrder R] in
theorem sumBands_ok (f : Nat × R → Except PyErr R) (v : Nat × R → R) (xs : List (Nat × R)) : ∀ acc : R,
    (∀ x ∈ xs, f x = .ok (v x)) → sumBands f acc xs = .ok (acc + (xs.map v).sum) := by
  induction xs with
  | nil => intro acc _; simp [sumBands]
  | cons x xs ih =>
    intro acc h
    simp only [sumBands, h x (by simp)]
    rw [ih _ fun y hy => h y (by simp [hy])]
    simp only [List.map_cons, List.sum_cons, add_assoc]

omit [LinearOrder R] in
theorem sumBands_error (f : Nat × R → Except PyErr R) (e : PyErr) (xs : List (Nat × R)) : ∀ acc : R,
    (∀ x ∈ xs, f x = .error e ∨ ∃ v, f x = .ok v) → (∃ x ∈ xs, f x = .error e) → sumBands f acc xs = .error e := by
  induction xs with
  | nil => intro acc _ h; simp at h
  | cons x xs ih =>
    intro acc h1 h2
    simp only [sumBands]
    rcases h1 x (by simp) with h | ⟨v, h⟩
    · simp [h]
    · simp only [h]
      refine ih _ (fun y hy => h1 y (by simp [hy])) ?_
      obtain ⟨y, hy, hye⟩ := h2
      rw [List.mem_cons] at hy
      rcases hy with rfl | hy
      · rw [h] at hye; cases hye
      · exact ⟨y, hy, hye⟩

omit [LinearOrder R] in
theorem mapM_range_ok (f : Nat → Except PyErr R) (g : Nat → R) (l : List Nat) (h : ∀ i ∈ l, f i = .ok (g i)) :
    l.mapM f = .ok (l.map g) := by
  induction l with
  | nil => rfl
  | cons a l ih =>
    simp only [List.mapM_cons, h a (by simp), ih fun b hb => h b (by simp [hb]), bind, Except.bind, pure, Except.pure,
      List.map_cons]

/-- every band has a Hall integral -/
def Multi.HasHall (m : Multi R) (w : Heap R) : Prop := ∀ x ∈ m.ids.zip m.deltas, ∃ h, (w x.1).h = some h

omit [Field R] [LinearOrder R] in
theorem zip_fst_nodup (ids : List Nat) (ds : List R) (h : ids.Nodup) : ((ids.zip ds).map Prod.fst).Nodup := by
  refine List.Nodup.sublist ?_ h
  induction ids generalizing ds with
  | nil => simp
  | cons a ids ih =>
    cases ds with
    | nil => simp
    | cons d ds =>
      simp only [List.zip_cons_cons, List.map_cons]
      exact (ih ds (List.nodup_cons.1 h).2).cons_cons a

omit [LinearOrder R] in
/-- the totals of uncompiled bands -/
theorem direct_totals (m : Multi R) (w : Heap R) (EF T : R) (hc : ∀ x ∈ m.ids.zip m.deltas, (w x.1).cache = none) :
    m.totN w EF T = .ok (((m.ids.zip m.deltas).map fun x => (w x.1).n (shiftEF (w x.1) x.2 EF) T).sum) ∧
    (∀ i, m.totK w i EF T =
      .ok (((m.ids.zip m.deltas).map fun x => (w x.1).sign ^ i * (w x.1).k i (shiftEF (w x.1) x.2 EF) T).sum)) ∧
    (m.HasHall w → ∀ H : Nat → R → R → R, (∀ x ∈ m.ids.zip m.deltas, (w x.1).h = some (H x.1)) → m.totH w EF T =
      .ok (((m.ids.zip m.deltas).map fun x => (w x.1).sign * H x.1 (shiftEF (w x.1) x.2 EF) T).sum)) := by
  have e : ∀ v : R, (0 : R) + v = v := zero_add
  refine ⟨?_, fun i => ?_, fun _ H hH => ?_⟩
  · unfold Multi.totN
    rw [sumBands_ok _ (fun x => (w x.1).n (shiftEF (w x.1) x.2 EF) T), e]
    intro x hx
    simp only [Leaf.src, hc x hx]
  · unfold Multi.totK
    rw [sumBands_ok _ (fun x => (w x.1).sign ^ i * (w x.1).k i (shiftEF (w x.1) x.2 EF) T), e]
    intro x hx
    simp only [Leaf.src, hc x hx, Except.map]
  · unfold Multi.totH
    rw [sumBands_ok _ (fun x => (w x.1).sign * H x.1 (shiftEF (w x.1) x.2 EF) T), e]
    intro x hx
    simp only [Leaf.src, hc x hx, Leaf.ccrh, hH x hx, Option.map_some, needNum]

omit [LinearOrder R] in
/-- the totals right after compiling the sub-bands are those of the uncompiled bands -/
theorem compiled_totals (m : Multi R) (w : Heap R) (EF T : R) (l : Nat) (hn : m.ids.Nodup) :
    let w' := compileBands EF T l w (m.ids.zip m.deltas)
    let w0 := (m.clear w).2
    m.totN w' EF T = m.totN w0 EF T ∧ (∀ i ≤ l, m.totK w' i EF T = m.totK w0 i EF T) ∧ m.totH w' EF T = m.totH w0 EF T := by
  intro w' w0
  have hw : ∀ x ∈ m.ids.zip m.deltas, w' x.1 = (w x.1).compile (shiftEF (w x.1) x.2 EF) T l := fun x hx =>
    compileBands_mem EF T l _ w (zip_fst_nodup _ _ hn) x.1 x.2 hx
  have h0 : ∀ x ∈ m.ids.zip m.deltas, w0 x.1 = (w x.1).clear := by
    intro x hx
    have : x.1 ∈ m.ids := (List.of_mem_zip (a := x.1) (b := x.2) hx).1
    simp only [w0, Multi.clear, clearFold, this, if_true]
  have hs : ∀ x ∈ m.ids.zip m.deltas, shiftEF (w' x.1) x.2 EF = shiftEF (w x.1) x.2 EF ∧
      shiftEF (w0 x.1) x.2 EF = shiftEF (w x.1) x.2 EF ∧ (w' x.1).sign = (w0 x.1).sign := by
    intro x hx
    rw [hw x hx, h0 x hx]
    exact ⟨rfl, rfl, rfl⟩
  refine ⟨?_, fun i hi => ?_, ?_⟩
  · refine sumBands_congr _ _ _ _ fun x hx => ?_
    obtain ⟨s1, s2, s3⟩ := hs x hx
    rw [s1, s2, hw x hx, h0 x hx]
    exact ((w x.1).compile_src _ T l _).2.1
  · refine sumBands_congr _ _ _ _ fun x hx => ?_
    obtain ⟨s1, s2, s3⟩ := hs x hx
    rw [s1, s2, s3, hw x hx, h0 x hx]
    rw [((w x.1).compile_src _ T l _).2.2.2.2.1 i hi]
  · refine sumBands_congr _ _ _ _ fun x hx => ?_
    obtain ⟨s1, s2, s3⟩ := hs x hx
    rw [s1, s2, hw x hx, h0 x hx]
    rw [((w x.1).compile_src _ T l _).2.2.1]

omit [LinearOrder R] in
theorem clear_cache_none (m : Multi R) (w : Heap R) : ∀ x ∈ m.ids.zip m.deltas, ((m.clear w).2 x.1).cache = none := by
  intro x hx
  have : x.1 ∈ m.ids := (List.of_mem_zip (a := x.1) (b := x.2) hx).1
  simp only [Multi.clear, clearFold, this, if_true]
  rfl

omit [LinearOrder R] in
theorem clear_h (m : Multi R) (w : Heap R) (i : Nat) : ((m.clear w).2 i).h = (w i).h := by
  simp only [Multi.clear, clearFold]
  split <;> rfl

/-- what was read by the total of the Hall integrals -/
noncomputable def hallOf (w : Heap R) (i : Nat) : R → R → R := ((w i).h).getD fun _ _ => 0

omit [LinearOrder R] in
/-- **C67** Whatever the state before (any caches, in the model and in its bands): if no band object occurs twice and every
band has a Hall integral, `compile(EF, T)` succeeds and every property then is the direct evaluation at `(EF, T)`,
whatever arguments are passed. -/
theorem C67_multi_compile (m : Multi R) (w : Heap R) (EF T : R) (l : Nat) (hl : 2 ≤ l) (hn : m.ids.Nodup)
    (hh : m.HasHall w) :
    (m.compile w EF T l).1 = .ok () ∧ ∀ (p : TProp) (args : Option (R × R)),
      (m.compile w EF T l).2.1.prop (m.compile w EF T l).2.2 p args =
        (m.clear w).1.prop (m.clear w).2 p (some (EF, T)) := by
  obtain ⟨c1, c2, c3⟩ := compiled_totals m w EF T l hn
  obtain ⟨d1, d2, d3⟩ := direct_totals m (m.clear w).2 EF T (clear_cache_none m w)
  have d4 := d3 (fun x hx => by rw [clear_h]; exact hh x hx) (hallOf w) (fun x hx => by
    rw [clear_h]
    obtain ⟨h, hh⟩ := hh x hx
    simp [hallOf, hh])
  obtain ⟨nv, d1⟩ : ∃ nv, m.totN (m.clear w).2 EF T = .ok nv := ⟨_, d1⟩
  obtain ⟨hv, d4⟩ : ∃ hv, m.totH (m.clear w).2 EF T = .ok hv := ⟨_, d4⟩
  obtain ⟨kv, d2⟩ : ∃ kv : Nat → R, ∀ i, m.totK (m.clear w).2 i EF T = .ok (kv i) := ⟨_, d2⟩
  rw [d1] at c1
  rw [d4] at c3
  have c2' : ∀ i ≤ l, _ := fun i hi => (c2 i hi).trans (d2 i)
  have hlev : levels (fun i => m.totK (compileBands EF T l w (m.ids.zip m.deltas)) i EF T) l =
      .ok ((List.range (l + 1)).map kv) :=
    mapM_range_ok _ _ _ (fun i hi => c2' i (by simpa [Nat.lt_succ_iff] using hi))
  have hc : m.compile w EF T l = (.ok (), { m with cache := some ⟨EF, T, nv, (List.range (l + 1)).map kv, some hv⟩ },
      compileBands EF T l w (m.ids.zip m.deltas)) := by
    simp only [Multi.compile, c1, hlev, c3, bind, Except.bind, pure, Except.pure]
  rw [hc]
  refine ⟨rfl, fun p args => ?_⟩
  unfold Multi.prop
  refine Src.prop_congr _ _ ?_ ?_ ?_ ?_ (fun i hi => ?_) p
  · rfl
  · have e : (m.clear w).1.src (m.clear w).2 (some (EF, T)) = ⟨1, m.totN (m.clear w).2 EF T,
      fun i => m.totK (m.clear w).2 i EF T, (m.totH (m.clear w).2 EF T).map some, .ok T⟩ := rfl
    rw [e]
    simp only [d1]
    rfl
  · have e : (m.clear w).1.src (m.clear w).2 (some (EF, T)) = ⟨1, m.totN (m.clear w).2 EF T,
      fun i => m.totK (m.clear w).2 i EF T, (m.totH (m.clear w).2 EF T).map some, .ok T⟩ := rfl
    rw [e]
    simp only [d4]
    rfl
  · rfl
  · have e : (m.clear w).1.src (m.clear w).2 (some (EF, T)) = ⟨1, m.totN (m.clear w).2 EF T,
      fun i => m.totK (m.clear w).2 i EF T, (m.totH (m.clear w).2 EF T).map some, .ok T⟩ := rfl
    rw [e]
    simp only [d2]
    simp only [Multi.src, Cache.src]
    rw [List.getElem?_map, List.getElem?_range (by omega)]
    rfl

omit [LinearOrder R] in
/-- **C67** After `clear` nothing is remembered: the caches of the model and of all its bands are gone, and nothing else
has changed. -/
theorem C67_multi_clear (m : Multi R) (w : Heap R) :
    (m.clear w).1 = ⟨m.ids, m.deltas, none⟩ ∧
    ∀ i, (m.clear w).2 i = if i ∈ m.ids then (w i).clear else w i :=
  ⟨rfl, fun i => clearFold m.ids w i⟩

omit [LinearOrder R] in
/-- **C67** So clearing after compiling gives the state that clearing at once would have given. -/
theorem C67_compile_then_clear (m : Multi R) (w : Heap R) (EF T : R) (l : Nat) :
    (m.compile w EF T l).2.1.clear (m.compile w EF T l).2.2 = m.clear w := by
  have key : ∀ m' : Multi R, m'.ids = m.ids → m'.deltas = m.deltas →
      m'.clear (compileBands EF T l w (m.ids.zip m.deltas)) = m.clear w := by
    intro m' h1 h2
    have e1 : (m'.clear (compileBands EF T l w (m.ids.zip m.deltas))).1 = (m.clear w).1 := by
      simp only [Multi.clear, h1, h2]
    have e2 : (m'.clear (compileBands EF T l w (m.ids.zip m.deltas))).2 = (m.clear w).2 := by
      funext i
      rw [(C67_multi_clear _ _).2, (C67_multi_clear _ _).2, h1]
      by_cases h : i ∈ m.ids
      · simp only [h, if_true, compileBands_clear]
      · simp only [h, if_false]
        refine compileBands_not_mem _ _ _ _ _ _ fun hm => h ?_
        obtain ⟨x, hx, rfl⟩ := List.mem_map.1 hm
        exact (List.of_mem_zip (a := x.1) (b := x.2) hx).1
    exact Prod.ext e1 e2
  simp only [Multi.compile]
  split <;> exact key _ rfl rfl

omit [LinearOrder R] in
/-- **C67** With a band that has no Hall integral (`LinearBand`) compiling a `MultiBands` always ends in a `TypeError`; the
bands have been compiled by then, the model itself keeps its previous cache. -/
theorem C67_no_hall (m : Multi R) (w : Heap R) (EF T : R) (l : Nat) (hn : m.ids.Nodup)
    (hx : ∃ x ∈ m.ids.zip m.deltas, (w x.1).h = none) :
    m.compile w EF T l = (.error .typeError, m, compileBands EF T l w (m.ids.zip m.deltas)) := by
  obtain ⟨c1, c2, c3⟩ := compiled_totals m w EF T l hn
  obtain ⟨d1, d2, -⟩ := direct_totals m (m.clear w).2 EF T (clear_cache_none m w)
  rw [d1] at c1
  have c2' : ∀ i ≤ l, _ := fun i hi => (c2 i hi).trans (d2 i)
  have hlev : levels (fun i => m.totK (compileBands EF T l w (m.ids.zip m.deltas)) i EF T) l = _ :=
    mapM_range_ok _ _ _ (fun i hi => c2' i (by simpa [Nat.lt_succ_iff] using hi))
  have hH : m.totH (m.clear w).2 EF T = .error .typeError := by
    unfold Multi.totH
    refine sumBands_error _ _ _ _ (fun x hx => ?_) ?_
    · simp only [Leaf.src, clear_cache_none m w x hx, Leaf.ccrh]
      cases ((m.clear w).2 x.1).h with
      | none => left; rfl
      | some h => right; exact ⟨_, rfl⟩
    · obtain ⟨x, hx, hxn⟩ := hx
      refine ⟨x, hx, ?_⟩
      simp only [Leaf.src, clear_cache_none m w x hx, Leaf.ccrh, clear_h, hxn, Option.map_none, needNum]
  rw [hH] at c3
  simp only [Multi.compile, c1, hlev, c3, bind, Except.bind, pure, Except.pure]

/-- **C67** A band appended to a compiled model is not seen before the next `compile` or `clear`. -/
theorem C67_append_stale (m : Multi R) (w : Heap R) (c : Cache R) (hc : m.cache = some c) (band : Option Nat) (delta : R)
    (btype : Option (List Char)) (p : TProp) (args : Option (R × R)) :
    (m.append w band delta btype).2.1.prop (m.append w band delta btype).2.2 p args = m.prop w p args := by
  have key : ∀ (m' : Multi R) (w' : Heap R), m'.cache = m.cache → m'.prop w' p args = m.prop w p args := by
    intro m' w' h
    simp only [Multi.prop, Multi.src, h, hc]
  apply key
  unfold Multi.append
  split
  · rfl
  · simp only []
    split
    · rfl
    · split <;> rfl

end

/-! ### Concrete cases, and what the conditions are needed for -/

/-- two bands with simple integrals -/
def demoLeaf (s : ℚ) : Leaf ℚ where
  sign := s
  n := fun EF T => EF + T
  k := fun i EF T => (i + 1) * T + EF
  h := some fun EF T => EF * T

def demoHeap : Heap ℚ := fun i => demoLeaf (if i = 0 then 1 else -1)
def demoMulti : Multi ℚ := { ids := [0, 1], deltas := [-1, 2] }

example : demoMulti.ids.Nodup ∧ demoMulti.HasHall demoHeap := by
  refine ⟨by decide, fun x _ => ⟨_, rfl⟩⟩

example : (demoMulti.compile demoHeap 5 300 2).2.1.prop (demoMulti.compile demoHeap 5 300 2).2.2 .C none = .ok (some 597) ∧
    demoMulti.prop demoHeap .C (some (5, 300)) = .ok (some 597) := by decide +kernel

/-- **C67** The condition on the bands is needed: with one band object listed twice (two offsets) the compiled carrier
concentration is not the direct one, since the second compilation of the band overwrites the first. -/
theorem C67_shared_band : ∃ (m : Multi ℚ) (w : Heap ℚ), (∀ i, (w i).cache = none) ∧ m.cache = none ∧
    m.prop w .N (some (0, 0)) = .ok (some 1) ∧
    (m.compile w 0 0 2).2.1.prop (m.compile w 0 0 2).2.2 .N (some (0, 0)) = .ok (some 2) :=
  ⟨⟨[0, 0], [0, 1], none⟩, fun _ => demoLeaf 1, fun _ => rfl, rfl, by decide +kernel, by decide +kernel⟩

/-- **C67** A band compiled on its own makes an uncompiled model answer with the remembered values of that band. -/
theorem C67_sub_band_stale : ∃ (m : Multi ℚ) (w : Heap ℚ), m.cache = none ∧
    (w 0).cache ≠ none ∧ m.prop w .N (some (5, 300)) ≠ (m.clear w).1.prop (m.clear w).2 .N (some (5, 300)) := by
  refine ⟨⟨[0], [0], none⟩, fun _ => (demoLeaf 1).compile 1 1 2, rfl, by decide +kernel, by decide +kernel⟩

end TEflow.Bandlib
