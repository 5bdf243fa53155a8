import Mathlib.Algebra.Order.Field.Basic
import Mathlib.Algebra.BigOperators.Group.List.Lemmas
import Mathlib.Data.Rat.Floor
import Mathlib.Tactic
import Verif.Model.Mixing

/-! # C31: `mixing` is a weighted mean -/

namespace TEflow.Mathext

variable {R : Type} [Field R] [LinearOrder R] [IsStrictOrderedRing R]

/-- the data sets are float arrays of one common shape -/
def Uniform (shape : List Nat) (datas : List (Arr R)) : Prop :=
  ∀ d ∈ datas, d.shape = shape ∧ d.WF ∧ d.isInt = false

/-- the weighted sum at position `i` -/
def wsum (datas : List (Arr R)) (w : List R) (i : Nat) : R :=
  ((datas.zip w).map fun p => p.2 * p.1.vals.getD i 0).sum

section lemmas
omit [LinearOrder R] [IsStrictOrderedRing R]

theorem mixLoop_spec (scale : R) (shape : List Nat) (ps : List (Arr R × R)) (data : Arr R)
    (h : ∀ p ∈ ps, p.1.shape = shape ∧ p.1.WF) (hs : data.shape = shape) (hw : data.WF) (hi : data.isInt = false) :
    ∃ r, mixLoop scale data ps = .ok r ∧ r.shape = shape ∧ r.WF ∧ r.isInt = false ∧
      ∀ i, r.vals.getD i 0 = data.vals.getD i 0 + scale * (ps.map fun p => p.2 * p.1.vals.getD i 0).sum := by
  induction ps generalizing data with
  | nil => exact ⟨data, rfl, hs, hw, hi, by simp⟩
  | cons p ps ih =>
    obtain ⟨d, w⟩ := p
    obtain ⟨h1, h2⟩ := h (d, w) List.mem_cons_self
    simp only at h1 h2
    have hlen : d.vals.length = data.vals.length := by rw [h2, hw, h1, hs]
    rw [mixLoop, if_neg (by simp [h1, hs]), if_neg (by simp [hi])]
    obtain ⟨r, e, a1, a2, a3, a4⟩ := ih
      { data with vals := List.zipWith (· + ·) data.vals (d.vals.map (scale * w * ·)) }
      (fun p hp => h p (List.mem_cons_of_mem _ hp)) hs (by simp [Arr.WF, hlen, hs] at hw ⊢; exact hw) hi
    refine ⟨r, e, a1, a2, a3, ?_⟩
    intro i
    rw [a4 i]
    have : (List.zipWith (· + ·) data.vals (d.vals.map (scale * w * ·))).getD i 0
        = data.vals.getD i 0 + scale * w * d.vals.getD i 0 := by
      simp only [List.getD_eq_getElem?_getD, List.getElem?_zipWith, List.getElem?_map]
      by_cases hi : i < data.vals.length
      · have hi' : i < d.vals.length := by omega
        simp [hi, hi']
      · have hi' : ¬ i < d.vals.length := by omega
        simp [hi, hi']
    rw [this]
    simp only [List.map_cons, List.sum_cons]
    ring

end lemmas

omit [LinearOrder R] [IsStrictOrderedRing R] in
/-- **C31** The result has the common shape and holds at every position `sum(w*d)/sum(w)`. -/
theorem C31_weighted_mean (shape : List Nat) (datas : List (Arr R)) (w : List R) (hne : datas ≠ [])
    (hu : Uniform shape datas) (hlen : w.length = datas.length) :
    ∃ r, mixing datas (some w) none = .ok r ∧ r.shape = shape ∧ r.vals.length = shape.prod ∧ r.isInt = false ∧
      ∀ i, r.vals.getD i 0 = wsum datas w i / w.sum := by
  cases datas with
  | nil => exact absurd rfl hne
  | cons d0 ds =>
    obtain ⟨h1, h2, h3⟩ := hu d0 List.mem_cons_self
    obtain ⟨r, e, a1, a2, a3, a4⟩ := mixLoop_spec (1 / w.sum) shape ((d0 :: ds).zip w)
      { isInt := d0.isInt, shape := d0.shape, vals := List.replicate d0.vals.length 0 }
      (fun p hp => ⟨(hu p.1 (List.of_mem_zip hp).1).1, (hu p.1 (List.of_mem_zip hp).1).2.1⟩) h1
      (by simpa [Arr.WF] using h2) h3
    refine ⟨r, ?_, a1, by rw [← a1]; exact a2, a3, ?_⟩
    · simp only [mixing, mixWeights, hlen, ne_eq, not_true_eq_false, if_false]; exact e
    · intro i
      rw [a4 i, wsum]
      have : (List.replicate d0.vals.length (0 : R)).getD i 0 = 0 := by
        simp [List.getD_eq_getElem?_getD, List.getElem?_replicate]
        split <;> rfl
      rw [this]; ring

omit [LinearOrder R] [IsStrictOrderedRing R] in
/-- **C31** An explicit scale multiplies the weighted sum, and no weights means weights 1. -/
theorem C31_scale (shape : List Nat) (datas : List (Arr R)) (w : List R) (s : R) (hne : datas ≠ [])
    (hu : Uniform shape datas) (hlen : w.length = datas.length) :
    (∃ r, mixing datas (some w) (some s) = .ok r ∧ r.shape = shape ∧ r.vals.length = shape.prod ∧
      ∀ i, r.vals.getD i 0 = s * wsum datas w i) ∧
    (∀ sc, mixing datas none sc = mixing datas (some (List.replicate datas.length 1)) sc) := by
  constructor
  · cases datas with
    | nil => exact absurd rfl hne
    | cons d0 ds =>
      obtain ⟨h1, h2, h3⟩ := hu d0 List.mem_cons_self
      obtain ⟨r, e, a1, a2, a3, a4⟩ := mixLoop_spec s shape ((d0 :: ds).zip w)
        { isInt := d0.isInt, shape := d0.shape, vals := List.replicate d0.vals.length 0 }
        (fun p hp => ⟨(hu p.1 (List.of_mem_zip hp).1).1, (hu p.1 (List.of_mem_zip hp).1).2.1⟩) h1
        (by simpa [Arr.WF] using h2) h3
      refine ⟨r, ?_, a1, by rw [← a1]; exact a2, ?_⟩
      · simp only [mixing, mixWeights, hlen, ne_eq, not_true_eq_false, if_false]; exact e
      · intro i
        rw [a4 i, wsum]
        have : (List.replicate d0.vals.length (0 : R)).getD i 0 = 0 := by
          simp [List.getD_eq_getElem?_getD, List.getElem?_replicate]
          split <;> rfl
        rw [this]; ring
  · intro sc; simp [mixing, mixWeights]

/-- **C31** With non-negative weights that do not all vanish, every entry of the result lies between the smallest and
the largest entry of the data sets at that position. -/
theorem C31_bounds (shape : List Nat) (datas : List (Arr R)) (w : List R) (hne : datas ≠ [])
    (hu : Uniform shape datas) (hlen : w.length = datas.length) (hw : ∀ x ∈ w, 0 ≤ x) (hpos : 0 < w.sum)
    (i : Nat) (lo hi : R) (hlo : ∀ d ∈ datas, lo ≤ d.vals.getD i 0) (hhi : ∀ d ∈ datas, d.vals.getD i 0 ≤ hi) :
    ∃ r, mixing datas (some w) none = .ok r ∧ lo ≤ r.vals.getD i 0 ∧ r.vals.getD i 0 ≤ hi := by
  obtain ⟨r, e, -, -, -, a4⟩ := C31_weighted_mean shape datas w hne hu hlen
  refine ⟨r, e, ?_, ?_⟩
  all_goals
    rw [a4 i, wsum]
  · rw [le_div_iff₀ hpos]
    have : ∀ (ds : List (Arr R)) (v : List R), v.length = ds.length → (∀ d ∈ ds, lo ≤ d.vals.getD i 0) →
        (∀ x ∈ v, 0 ≤ x) → lo * v.sum ≤ ((ds.zip v).map fun p => p.2 * p.1.vals.getD i 0).sum := by
      intro ds
      induction ds with
      | nil => intro v hv _ _; have : v = [] := by simpa using hv
               subst this; simp
      | cons d ds ih =>
        intro v hv h1 h2
        cases v with
        | nil => simp at hv
        | cons x v =>
          simp only [List.zip_cons_cons, List.map_cons, List.sum_cons]
          have := ih v (by simpa using hv) (fun d hd => h1 d (List.mem_cons_of_mem _ hd))
            (fun y hy => h2 y (List.mem_cons_of_mem _ hy))
          nlinarith [mul_le_mul_of_nonneg_left (h1 d List.mem_cons_self) (h2 x List.mem_cons_self)]
    exact this datas w hlen hlo hw
  · rw [div_le_iff₀ hpos]
    have : ∀ (ds : List (Arr R)) (v : List R), v.length = ds.length → (∀ d ∈ ds, d.vals.getD i 0 ≤ hi) →
        (∀ x ∈ v, 0 ≤ x) → ((ds.zip v).map fun p => p.2 * p.1.vals.getD i 0).sum ≤ hi * v.sum := by
      intro ds
      induction ds with
      | nil => intro v hv _ _; have : v = [] := by simpa using hv
               subst this; simp
      | cons d ds ih =>
        intro v hv h1 h2
        cases v with
        | nil => simp at hv
        | cons x v =>
          simp only [List.zip_cons_cons, List.map_cons, List.sum_cons]
          have := ih v (by simpa using hv) (fun d hd => h1 d (List.mem_cons_of_mem _ hd))
            (fun y hy => h2 y (List.mem_cons_of_mem _ hy))
          nlinarith [mul_le_mul_of_nonneg_left (h1 d List.mem_cons_self) (h2 x List.mem_cons_self)]
    exact this datas w hlen hhi hw

omit [LinearOrder R] [IsStrictOrderedRing R] in
theorem mixing_ext {r r' : Arr R} (h1 : r.shape = r'.shape) (h2 : r.vals.length = r'.vals.length)
    (h3 : r.isInt = r'.isInt) (h4 : ∀ i, r.vals.getD i 0 = r'.vals.getD i 0) : r = r' := by
  obtain ⟨a, b, c⟩ := r
  obtain ⟨a', b', c'⟩ := r'
  simp only at h1 h2 h3 h4
  subst h1 h3
  congr 1
  apply List.ext_getElem h2
  intro i hi hi'
  have := h4 i
  simpa [List.getD_eq_getElem?_getD, hi, hi'] using this

omit [LinearOrder R] [IsStrictOrderedRing R] in
/-- **C31** A common non-zero factor on the weights changes nothing. -/
theorem C31_factor (shape : List Nat) (datas : List (Arr R)) (w : List R) (hne : datas ≠ [])
    (hu : Uniform shape datas) (hlen : w.length = datas.length) (k : R) (hk : k ≠ 0) :
    mixing datas (some (w.map (k * ·))) none = mixing datas (some w) none := by
  obtain ⟨r, e, a1, a2, a3, a4⟩ := C31_weighted_mean shape datas w hne hu hlen
  obtain ⟨r', e', b1, b2, b3, b4⟩ := C31_weighted_mean shape datas (w.map (k * ·)) hne hu (by simpa using hlen)
  rw [e, e']
  congr 1
  refine mixing_ext (by rw [a1, b1]) (by rw [a2, b2]) (by rw [a3, b3]) ?_
  intro i
  rw [a4, b4]
  have h1 : (w.map (k * ·)).sum = k * w.sum := by rw [List.sum_map_mul_left]; simp
  have h2 : wsum datas (w.map (k * ·)) i = k * wsum datas w i := by
    unfold wsum
    rw [List.zip_map_right, List.map_map, ← List.sum_map_mul_left]
    congr 1
    apply List.map_congr_left
    intro p _; simp [mul_assoc]
  rw [h1, h2, mul_div_mul_left _ _ hk]

omit [LinearOrder R] [IsStrictOrderedRing R] in
/-- **C31** The order of the (data, weight) pairs is irrelevant. -/
theorem C31_order (shape : List Nat) (ps qs : List (Arr R × R)) (hne : ps ≠ [])
    (hu : Uniform shape (ps.map Prod.fst)) (hperm : ps.Perm qs) (sc : Option R) :
    mixing (ps.map Prod.fst) (some (ps.map Prod.snd)) sc = mixing (qs.map Prod.fst) (some (qs.map Prod.snd)) sc := by
  have hne' : qs ≠ [] := by rintro rfl; exact hne hperm.eq_nil
  have hu' : Uniform shape (qs.map Prod.fst) := fun d hd => hu d ((hperm.map Prod.fst).mem_iff.mpr hd)
  have hw : ∀ i, wsum (ps.map Prod.fst) (ps.map Prod.snd) i = wsum (qs.map Prod.fst) (qs.map Prod.snd) i := by
    intro i
    have z : ∀ l : List (Arr R × R), (l.map Prod.fst).zip (l.map Prod.snd) = l := by
      intro l; induction l with
      | nil => rfl
      | cons a l ih => simp [ih]
    unfold wsum
    rw [z, z]
    exact (hperm.map _).sum_eq
  have hs : (ps.map Prod.snd).sum = (qs.map Prod.snd).sum := (hperm.map _).sum_eq
  cases sc with
  | none =>
    obtain ⟨r, e, a1, a2, a3, a4⟩ := C31_weighted_mean shape _ (ps.map Prod.snd) (by simpa using hne) hu (by simp)
    obtain ⟨r', e', b1, b2, b3, b4⟩ := C31_weighted_mean shape _ (qs.map Prod.snd) (by simpa using hne') hu' (by simp)
    rw [e, e']
    congr 1
    exact mixing_ext (by rw [a1, b1]) (by rw [a2, b2]) (by rw [a3, b3]) (fun i => by rw [a4, b4, hw, hs])
  | some s =>
    have key : mixing (ps.map Prod.fst) (some (ps.map Prod.snd)) (some s) =
        mixing (ps.map Prod.fst) (some (ps.map Prod.snd)) (some s) := rfl
    cases ps with
    | nil => exact absurd rfl hne
    | cons p ps =>
      cases qs with
      | nil => exact absurd rfl hne'
      | cons q qs =>
        obtain ⟨h1, h2, h3⟩ := hu p.1 (by simp)
        obtain ⟨h1', h2', h3'⟩ := hu' q.1 (by simp)
        obtain ⟨r, e, a1, a2, a3, a4⟩ := mixLoop_spec s shape (((p :: ps).map Prod.fst).zip ((p :: ps).map Prod.snd))
          { isInt := p.1.isInt, shape := p.1.shape, vals := List.replicate p.1.vals.length 0 }
          (fun t ht => ⟨(hu t.1 (List.of_mem_zip ht).1).1, (hu t.1 (List.of_mem_zip ht).1).2.1⟩) h1
          (by simpa [Arr.WF] using h2) h3
        obtain ⟨r', e', b1, b2, b3, b4⟩ := mixLoop_spec s shape (((q :: qs).map Prod.fst).zip ((q :: qs).map Prod.snd))
          { isInt := q.1.isInt, shape := q.1.shape, vals := List.replicate q.1.vals.length 0 }
          (fun t ht => ⟨(hu' t.1 (List.of_mem_zip ht).1).1, (hu' t.1 (List.of_mem_zip ht).1).2.1⟩) h1'
          (by simpa [Arr.WF] using h2') h3'
        have l1 : mixing ((p :: ps).map Prod.fst) (some ((p :: ps).map Prod.snd)) (some s) = .ok r := by
          rw [← e]; simp [mixing, mixWeights]
        have l2 : mixing ((q :: qs).map Prod.fst) (some ((q :: qs).map Prod.snd)) (some s) = .ok r' := by
          rw [← e']; simp [mixing, mixWeights]
        rw [l1, l2]
        congr 1
        have hlen : p.1.vals.length = q.1.vals.length := by rw [h2, h2', h1, h1']
        refine mixing_ext (by rw [a1, b1]) (by rw [a2, b2, a1, b1]) (by rw [a3, b3]) (fun i => ?_)
        have := hw i
        unfold wsum at this
        rw [a4, b4, this, hlen]

omit [LinearOrder R] [IsStrictOrderedRing R] in
/-- **C31** Errors: a wrong number of weights is a `ValueError` whatever the data; a data set whose shape differs from
the first one is a `ValueError` (float data); no data is an `IndexError`. -/
theorem C31_errors (datas : List (Arr R)) (weight : Option (List R)) (scale : Option R) :
    (∀ w, weight = some w → w.length ≠ datas.length → mixing datas weight scale = .error .valueError) ∧
    (datas = [] → (∀ w, weight = some w → w = []) → mixing datas weight scale = .error .indexError) ∧
    (∀ d0 ds, datas = d0 :: ds → d0.isInt = false → (∃ d ∈ ds, d.shape ≠ d0.shape) →
      mixing datas weight scale = .error .valueError) := by
  refine ⟨?_, ?_, ?_⟩
  · rintro w rfl h; simp [mixing, mixWeights, h]
  · rintro rfl h
    cases weight with
    | none => simp [mixing, mixWeights]
    | some w => simp [mixing, mixWeights, h w rfl]
  · rintro d0 ds rfl hi ⟨d, hd, hsh⟩
    have key : ∀ (s : R) (ps : List (Arr R × R)) (data : Arr R), data.isInt = false →
        (∃ p ∈ ps, p.1.shape ≠ data.shape) → mixLoop s data ps = .error .valueError := by
      intro s ps
      induction ps with
      | nil => rintro data _ ⟨p, hp, -⟩; simp at hp
      | cons q ps ih =>
        rintro data hi ⟨p, hp, hne⟩
        obtain ⟨dq, wq⟩ := q
        rw [mixLoop]
        by_cases h : dq.shape ≠ data.shape
        · rw [if_pos h]
        · rw [if_neg h, if_neg (by simp [hi])]
          apply ih
          · exact hi
          · rcases List.mem_cons.mp hp with rfl | hp
            · exact absurd hne h
            · exact ⟨p, hp, hne⟩
    have key2 : ∀ (s : R) (w : List R), w.length = (d0 :: ds).length →
        mixLoop s { isInt := d0.isInt, shape := d0.shape, vals := List.replicate d0.vals.length 0 } ((d0 :: ds).zip w)
          = .error .valueError := by
      intro s w hw
      apply key
      · exact hi
      · obtain ⟨n, hn, rfl⟩ := List.getElem_of_mem hd
        refine ⟨((d0 :: ds).zip w)[n + 1]'(by simp [hw]; exact hn), List.getElem_mem _, ?_⟩
        simpa using hsh
    cases weight with
    | none => simp only [mixing, mixWeights]; exact key2 _ _ (by simp)
    | some w =>
      by_cases hw : w.length = (d0 :: ds).length
      · simp only [mixing, mixWeights, hw, ne_eq, not_true_eq_false, if_false]; exact key2 _ _ hw
      · simp only [mixing, mixWeights, ne_eq, hw, not_false_eq_true, if_true]

omit [LinearOrder R] [IsStrictOrderedRing R] in
/-- **C31** Finding: if the first data set is an integer array, `mixing` never succeeds (the accumulator takes over its
integer dtype): `TypeError`, even where the mean would be defined. -/
theorem C31_integer_first (d0 : Arr R) (ds : List (Arr R)) (weight : Option (List R)) (scale : Option R)
    (h : d0.isInt = true) (hw : ∀ w, weight = some w → w.length = (d0 :: ds).length) :
    mixing (d0 :: ds) weight scale = .error .typeError := by
  cases weight with
  | none => simp [mixing, mixWeights, List.replicate_succ, mixLoop, h]
  | some w =>
    have hw := hw w rfl
    cases w with
    | nil => simp at hw
    | cons x w => simp only [mixing, mixWeights, hw, ne_eq, not_true_eq_false, if_false]; simp [mixLoop, h]

/-- concrete data: two 2×1 data sets -/
example : mixing [⟨false, [2, 1], [1, 2]⟩, ⟨false, [2, 1], [3, (6 : ℚ)]⟩] (some [1, 3]) none =
    .ok ⟨false, [2, 1], [5/2, 5]⟩ := by decide +kernel
example : Uniform [2, 1] [⟨false, [2, 1], [1, 2]⟩, ⟨false, [2, 1], [3, (6 : ℚ)]⟩] := by
  intro d hd; fin_cases hd <;> simp [Arr.WF]
example : mixing [⟨true, [2], [1, 2]⟩, ⟨false, [2], [3, (6 : ℚ)]⟩] none none = .error .typeError := by decide +kernel

end TEflow.Mathext
