import Mathlib.Tactic
import Mathlib.Algebra.Order.Field.Basic
import Mathlib.Algebra.Order.BigOperators.Group.List
import Verif.Props.BandCache

/-! # C68, C69, C71–C73: `MultiBands` -/

set_option linter.unusedSimpArgs false

namespace TEflow.Bandlib

section
variable {R : Type} [Field R] [LinearOrder R]

/-! ## C68 -/

/-- a model and bands without caches (never compiled, or cleared) -/
def Fresh (m : Multi R) (w : Heap R) : Prop := m.cache = none ∧ ∀ x ∈ m.ids.zip m.deltas, (w x.1).cache = none

/-- what the band at `x = (object, offset)` contributes at the Fermi level `EF`: its own property at the level `EF - offset` for
a conduction band (sign −1), `offset - EF` for a valence band (sign 1) -/
def bandProp (w : Heap R) (p : TProp) (EF T : R) (x : Nat × R) : Except PyErr (Option R) :=
  (w x.1).prop p (some (-1 * (w x.1).sign * (EF - x.2), T))

omit [LinearOrder R] in
theorem multi_src (m : Multi R) (w : Heap R) (hf : Fresh m w) (EF T : R) :
    m.src w (some (EF, T)) = ⟨1, m.totN w EF T, fun i => m.totK w i EF T, (m.totH w EF T).map some, .ok T⟩ := by
  simp only [Multi.src, hf.1]

omit [LinearOrder R] in
theorem leaf_src (b : Leaf R) (h : b.cache = none) (EF T : R) :
    b.src (some (EF, T)) = ⟨b.sign, .ok (b.n EF T), fun i => .ok (b.k i EF T), .ok (b.ccrh EF T), .ok T⟩ := by
  simp only [Leaf.src, h]

omit [LinearOrder R] in
/-- **C68** The carrier concentration, the conductivity and the Hall term of a model are the sums over its bands, each at its
own reduced Fermi level; the product `C·S` is the sum of the bands' products. -/
theorem C68_sums (m : Multi R) (w : Heap R) (hf : Fresh m w) (EF T : R) (n c cs h : Nat × R → R)
    (hn : ∀ x ∈ m.ids.zip m.deltas, bandProp w .N EF T x = .ok (some (n x)))
    (hc : ∀ x ∈ m.ids.zip m.deltas, bandProp w .C EF T x = .ok (some (c x)))
    (hcs : ∀ x ∈ m.ids.zip m.deltas, bandProp w .CS EF T x = .ok (some (cs x)))
    (hh : ∀ x ∈ m.ids.zip m.deltas, bandProp w .CCRH EF T x = .ok (some (h x))) :
    m.prop w .N (some (EF, T)) = .ok (some ((m.ids.zip m.deltas).map n).sum) ∧
    m.prop w .C (some (EF, T)) = .ok (some ((m.ids.zip m.deltas).map c).sum) ∧
    m.prop w .CS (some (EF, T)) = .ok (some ((m.ids.zip m.deltas).map cs).sum) ∧
    m.prop w .CCRH (some (EF, T)) = .ok (some ((m.ids.zip m.deltas).map h).sum) := by
  have hsrc := multi_src m w hf EF T
  have e0 : ∀ v : R, (0 : R) + v = v := zero_add
  have src : ∀ x ∈ m.ids.zip m.deltas, (w x.1).src (some (shiftEF (w x.1) x.2 EF, T)) = _ := fun x hx =>
    leaf_src (w x.1) (hf.2 x hx) (shiftEF (w x.1) x.2 EF) T
  have hN : m.totN w EF T = .ok ((m.ids.zip m.deltas).map n).sum := by
    unfold Multi.totN
    rw [sumBands_ok _ n, e0]
    intro x hx
    have := hn x hx
    rw [bandProp, Leaf.prop, ← shiftEF, src x hx] at this
    rw [src x hx]
    simpa [Src.prop, Except.map] using this
  have hC : m.totK w 0 EF T = .ok ((m.ids.zip m.deltas).map c).sum := by
    unfold Multi.totK
    rw [sumBands_ok _ c, e0]
    intro x hx
    have := hc x hx
    rw [bandProp, Leaf.prop, ← shiftEF, src x hx] at this
    rw [src x hx]
    simpa [Src.prop, Except.map] using this
  have hH : m.totH w EF T = .ok ((m.ids.zip m.deltas).map h).sum := by
    unfold Multi.totH
    rw [sumBands_ok _ h, e0]
    intro x hx
    have := hh x hx
    rw [bandProp, Leaf.prop, ← shiftEF, src x hx] at this
    rw [src x hx]
    simp only [Src.prop, Except.ok.injEq] at this
    simp only [this, needNum]
  have hK1 : m.totK w 1 EF T = .ok (((m.ids.zip m.deltas).map fun x =>
      (w x.1).sign * (w x.1).k 1 (shiftEF (w x.1) x.2 EF) T)).sum := by
    unfold Multi.totK
    rw [sumBands_ok _ (fun x => (w x.1).sign * (w x.1).k 1 (shiftEF (w x.1) x.2 EF) T), e0]
    intro x hx
    rw [src x hx]
    simp only [Except.map, pow_one]
  refine ⟨?_, ?_, ?_, ?_⟩
  · simp only [Multi.prop, hsrc, Src.prop, hN, Except.map]
  · simp only [Multi.prop, hsrc, Src.prop, hC, Except.map]
  · simp only [Multi.prop, hsrc, Src.prop, hK1, bind, Except.bind, pure, Except.pure, one_mul]
    rw [← List.sum_map_mul_left]
    congr 2
    refine congrArg List.sum (List.map_congr_left fun x hx => ?_)
    have := hcs x hx
    rw [bandProp, Leaf.prop, ← shiftEF, src x hx] at this
    simp only [Src.prop, bind, Except.bind, pure, Except.pure, Except.ok.injEq, Option.some.injEq] at this
    rw [← this]
    ring
  · simp only [Multi.prop, hsrc, Src.prop, hH, Except.map]

omit [LinearOrder R] in
/-- **C68** The Seebeck coefficient of a model is the mean of those of its bands, weighted with their conductivities. -/
theorem C68_seebeck (m : Multi R) (w : Heap R) (hf : Fresh m w) (EF T : R) (c s : Nat × R → R)
    (hc : ∀ x ∈ m.ids.zip m.deltas, bandProp w .C EF T x = .ok (some (c x)))
    (hs : ∀ x ∈ m.ids.zip m.deltas, bandProp w .S EF T x = .ok (some (s x)))
    (h0 : ∀ x ∈ m.ids.zip m.deltas, c x ≠ 0) :
    m.prop w .S (some (EF, T)) = .ok (some (((m.ids.zip m.deltas).map fun x => c x * s x).sum /
      ((m.ids.zip m.deltas).map c).sum)) := by
  have hsrc := multi_src m w hf EF T
  have src : ∀ x ∈ m.ids.zip m.deltas, (w x.1).src (some (shiftEF (w x.1) x.2 EF, T)) = _ := fun x hx =>
    leaf_src (w x.1) (hf.2 x hx) (shiftEF (w x.1) x.2 EF) T
  have hcv : ∀ x ∈ m.ids.zip m.deltas, c x = (w x.1).k 0 (shiftEF (w x.1) x.2 EF) T := by
    intro x hx
    have := hc x hx
    rw [bandProp, Leaf.prop, ← shiftEF, src x hx] at this
    simpa [Src.prop, Except.map, eq_comm] using this
  have hsv : ∀ x ∈ m.ids.zip m.deltas, c x * s x = S0 * ((w x.1).sign ^ 1 * (w x.1).k 1 (shiftEF (w x.1) x.2 EF) T) := by
    intro x hx
    have := hs x hx
    rw [bandProp, Leaf.prop, ← shiftEF, src x hx] at this
    simp only [Src.prop, bind, Except.bind, pure, Except.pure, Except.ok.injEq, Option.some.injEq] at this
    rw [← this, hcv x hx]
    have := h0 x hx
    rw [hcv x hx] at this
    field_simp
  obtain ⟨-, hK, -⟩ := direct_totals m w EF T hf.2
  simp only [Multi.prop, hsrc, Src.prop, hK, bind, Except.bind, pure, Except.pure, one_mul, pow_zero]
  congr 2
  rw [List.map_congr_left hsv, List.map_congr_left hcv, List.sum_map_mul_left]

omit [LinearOrder R] in
/-- **C68** The order of the bands is irrelevant. -/
theorem C68_order (m m' : Multi R) (w : Heap R) (hf : Fresh m w) (hc : m'.cache = none) (EF T : R)
    (hh : ∀ i, (w i).h ≠ none) (hp : (m'.ids.zip m'.deltas).Perm (m.ids.zip m.deltas)) (p : TProp) :
    m'.prop w p (some (EF, T)) = m.prop w p (some (EF, T)) := by
  have hf' : Fresh m' w := ⟨hc, fun x hx => hf.2 x (hp.subset hx)⟩
  have hH : ∀ i, (w i).h = some (hallOf w i) := by
    intro i
    cases h : (w i).h with
    | none => exact absurd h (hh i)
    | some v => simp [hallOf, h]
  obtain ⟨a1, a2, a3⟩ := direct_totals m w EF T hf.2
  obtain ⟨b1, b2, b3⟩ := direct_totals m' w EF T hf'.2
  have a3 := a3 (fun x _ => ⟨_, hH x.1⟩) (hallOf w) (fun x _ => hH x.1)
  have b3 := b3 (fun x _ => ⟨_, hH x.1⟩) (hallOf w) (fun x _ => hH x.1)
  unfold Multi.prop
  rw [multi_src m w hf, multi_src m' w hf']
  refine Src.prop_congr _ _ ?_ ?_ ?_ ?_ (fun i _ => ?_) p
  · rfl
  · simp only [a1, b1]
    rw [(hp.map _).sum_eq]
  · simp only [a3, b3]
    rw [(hp.map _).sum_eq]
  · rfl
  · simp only [a2, b2]
    rw [(hp.map _).sum_eq]

end

/-! ## C69 -/

section C69
variable {R : Type} [Field R] [LinearOrder R] [IsStrictOrderedRing R]

/-- a conduction band (carrier sign −1) -/
def isC (w : Heap R) (x : Nat × R) : Bool := decide ((w x.1).sign < 0)

/-- the model made of the given bands only -/
def ofBands (l : List (Nat × R)) : Multi R := ⟨l.map Prod.fst, l.map Prod.snd, none⟩

/-- the conduction bands of a model -/
def Multi.conduction (m : Multi R) (w : Heap R) : Multi R := ofBands ((m.ids.zip m.deltas).filter fun x => isC w x)
/-- the valence bands of a model -/
def Multi.valence (m : Multi R) (w : Heap R) : Multi R := ofBands ((m.ids.zip m.deltas).filter fun x => !isC w x)

omit [Field R] [LinearOrder R] [IsStrictOrderedRing R] in
theorem ofBands_zip (l : List (Nat × R)) : (ofBands l).ids.zip (ofBands l).deltas = l := by
  induction l with
  | nil => rfl
  | cons a l ih => simpa [ofBands] using ih

/-- `K_i` of a list of bands -/
def Ksum (w : Heap R) (EF T : R) (i : Nat) (l : List (Nat × R)) : R :=
  (l.map fun x => (w x.1).sign ^ i * (w x.1).k i (shiftEF (w x.1) x.2 EF) T).sum

theorem bipLoop_eq (w : Heap R) (EF T : R) (xs : List (Nat × R)) : ∀ (a : BipSum R),
    (∀ x ∈ xs, (w x.1).cache = none) → (∀ x ∈ xs, (w x.1).sign = 1 ∨ (w x.1).sign = -1) →
    bipLoop w (some (EF, T)) a xs = .ok
      { Nc := a.Nc + (xs.filter fun x => isC w x).length
        Nv := a.Nv + (xs.filter fun x => !isC w x).length
        p0c := a.p0c + Ksum w EF T 0 (xs.filter fun x => isC w x)
        p1c := a.p1c + Ksum w EF T 1 (xs.filter fun x => isC w x)
        p0v := a.p0v + Ksum w EF T 0 (xs.filter fun x => !isC w x)
        p1v := a.p1v + Ksum w EF T 1 (xs.filter fun x => !isC w x) } := by
  induction xs with
  | nil => intro a _ _; simp [bipLoop, Ksum]
  | cons x xs ih =>
    intro a h1 h2
    have hx := h1 x (by simp)
    rcases h2 x (by simp) with hs | hs
    · have hneg : ¬ (w x.1).sign < 0 := by rw [hs]; norm_num
      have hc : isC w x = false := by simp [isC, hs]
      have he : shiftEF (w x.1) x.2 EF = x.2 - EF := by simp only [shiftEF, hs]; ring
      have hb : bipStep w (some (EF, T)) a x = .ok
          { a with Nv := a.Nv + 1, p0v := a.p0v + (w x.1).k 0 (x.2 - EF) T, p1v := a.p1v + (w x.1).k 1 (x.2 - EF) T } := by
        simp only [bipStep, hneg, if_false, Option.map_some, leaf_src _ hx, bind, Except.bind, pure, Except.pure]
      simp only [bipLoop, hb]
      rw [ih _ (fun y hy => h1 y (by simp [hy])) (fun y hy => h2 y (by simp [hy]))]
      simp only [List.filter_cons, hc, Bool.false_eq_true, if_false, Bool.not_false, if_true, List.length_cons, Ksum,
        List.map_cons, List.sum_cons, he, hs]
      congr 1
      congr 1 <;> ring
    · have hneg : (w x.1).sign < 0 := by rw [hs]; norm_num
      have hc : isC w x = true := by simp [isC, hs]
      have he : shiftEF (w x.1) x.2 EF = EF - x.2 := by simp only [shiftEF, hs]; ring
      have hb : bipStep w (some (EF, T)) a x = .ok
          { a with Nc := a.Nc + 1, p0c := a.p0c + (w x.1).k 0 (EF - x.2) T, p1c := a.p1c - (w x.1).k 1 (EF - x.2) T } := by
        simp only [bipStep, hneg, if_true, Option.map_some, leaf_src _ hx, bind, Except.bind, pure, Except.pure]
      simp only [bipLoop, hb]
      rw [ih _ (fun y hy => h1 y (by simp [hy])) (fun y hy => h2 y (by simp [hy]))]
      simp only [List.filter_cons, hc, Bool.not_true, Bool.false_eq_true, if_false, if_true, List.length_cons, Ksum,
        List.map_cons, List.sum_cons, he, hs]
      congr 1
      congr 1 <;> ring

theorem Ksum_split (w : Heap R) (EF T : R) (i : Nat) (l : List (Nat × R)) :
    Ksum w EF T i l = Ksum w EF T i (l.filter fun x => isC w x) + Ksum w EF T i (l.filter fun x => !isC w x) := by
  induction l with
  | nil => simp [Ksum]
  | cons x l ih =>
    simp only [Ksum] at ih
    by_cases h : isC w x
    · simp only [Ksum, List.filter_cons, h, if_true, List.map_cons, List.sum_cons, ih, Bool.not_true, Bool.false_eq_true,
        if_false]
      ring
    · simp only [Ksum, List.filter_cons, h, if_true, List.map_cons, List.sum_cons, ih, Bool.not_false, Bool.false_eq_true,
        if_false]
      ring

theorem Ksum_pos (w : Heap R) (EF T : R) (l : List (Nat × R)) (hne : l ≠ [])
    (h : ∀ x ∈ l, 0 < (w x.1).k 0 (shiftEF (w x.1) x.2 EF) T) : 0 < Ksum w EF T 0 l := by
  unfold Ksum
  refine List.sum_pos _ (fun v hv => ?_) (by simpa using hne)
  obtain ⟨x, hx, rfl⟩ := List.mem_map.1 hv
  simpa using h x hx

/-- the value of `Ke` of a fresh model -/
theorem Ke_direct (m : Multi R) (w : Heap R) (hf : Fresh m w) (EF T : R) :
    m.prop w .Ke (some (EF, T)) = .ok (some (100 * kB * kB * (Ksum w EF T 2 (m.ids.zip m.deltas) -
      Ksum w EF T 1 (m.ids.zip m.deltas) ^ 2 / Ksum w EF T 0 (m.ids.zip m.deltas)) * T)) := by
  obtain ⟨-, hK, -⟩ := direct_totals m w EF T hf.2
  simp only [Multi.prop, multi_src m w hf, Src.prop, hK, bind, Except.bind, pure, Except.pure, Ksum]

/-- **C69** With carriers of one type only (or no band at all) the bipolar thermal conductivity is zero. -/
theorem C69_one_type (m : Multi R) (w : Heap R) (hf : Fresh m w)
    (hs : ∀ x ∈ m.ids.zip m.deltas, (w x.1).sign = 1 ∨ (w x.1).sign = -1) (EF T : R)
    (h : (∀ x ∈ m.ids.zip m.deltas, (w x.1).sign = 1) ∨ (∀ x ∈ m.ids.zip m.deltas, (w x.1).sign = -1)) :
    m.Kbip w (some (EF, T)) = .ok 0 := by
  simp only [Multi.Kbip, bipLoop_eq w EF T _ _ hf.2 hs, bind, Except.bind, pure, Except.pure, zero_add]
  rcases h with h | h
  · have e : (m.ids.zip m.deltas).filter (fun x => isC w x) = [] := by
      rw [List.filter_eq_nil_iff]
      intro x hx
      simp [isC, h x hx]
    simp [e]
  · have e : (m.ids.zip m.deltas).filter (fun x => !isC w x) = [] := by
      rw [List.filter_eq_nil_iff]
      intro x hx
      simp [isC, h x hx]
    simp [e]

/-- **C69** With carriers of both types and positive conductivities of all bands it is non-negative, and it is what the
electronic thermal conductivity of the model has more than the conduction bands and the valence bands alone. -/
theorem C69_bipolar (m : Multi R) (w : Heap R) (hf : Fresh m w)
    (hs : ∀ x ∈ m.ids.zip m.deltas, (w x.1).sign = 1 ∨ (w x.1).sign = -1) (EF T : R) (hT : 0 ≤ T)
    (hpos : ∀ x ∈ m.ids.zip m.deltas, ∃ c, bandProp w .C EF T x = .ok (some c) ∧ 0 < c)
    (hc : ∃ x ∈ m.ids.zip m.deltas, (w x.1).sign = -1) (hv : ∃ x ∈ m.ids.zip m.deltas, (w x.1).sign = 1) :
    ∃ kbip ke kec kev, m.Kbip w (some (EF, T)) = .ok kbip ∧ 0 ≤ kbip ∧
      m.prop w .Ke (some (EF, T)) = .ok (some ke) ∧
      (m.conduction w).prop w .Ke (some (EF, T)) = .ok (some kec) ∧
      (m.valence w).prop w .Ke (some (EF, T)) = .ok (some kev) ∧
      kbip = ke - kec - kev := by
  have hk0 : ∀ x ∈ m.ids.zip m.deltas, 0 < (w x.1).k 0 (shiftEF (w x.1) x.2 EF) T := by
    intro x hx
    obtain ⟨c, hc, hpos⟩ := hpos x hx
    rw [bandProp, Leaf.prop, ← shiftEF, leaf_src _ (hf.2 x hx)] at hc
    simp only [Src.prop, Except.map, Except.ok.injEq, Option.some.injEq] at hc
    rw [hc]; exact hpos
  set lc := (m.ids.zip m.deltas).filter fun x => isC w x with hlc
  set lv := (m.ids.zip m.deltas).filter fun x => !isC w x with hlv
  have hcne : lc ≠ [] := by
    obtain ⟨x, hx, h⟩ := hc
    exact List.ne_nil_of_mem (List.mem_filter.2 ⟨hx, by simp [isC, h]⟩)
  have hvne : lv ≠ [] := by
    obtain ⟨x, hx, h⟩ := hv
    exact List.ne_nil_of_mem (List.mem_filter.2 ⟨hx, by simp [isC, h]⟩)
  have hp0c : 0 < Ksum w EF T 0 lc := Ksum_pos w EF T lc hcne fun x hx => hk0 x (List.mem_of_mem_filter hx)
  have hp0v : 0 < Ksum w EF T 0 lv := Ksum_pos w EF T lv hvne fun x hx => hk0 x (List.mem_of_mem_filter hx)
  have hfc : Fresh (m.conduction w) w := ⟨rfl, fun x hx => by
    rw [Multi.conduction, ofBands_zip] at hx
    exact hf.2 x (List.mem_of_mem_filter hx)⟩
  have hfv : Fresh (m.valence w) w := ⟨rfl, fun x hx => by
    rw [Multi.valence, ofBands_zip] at hx
    exact hf.2 x (List.mem_of_mem_filter hx)⟩
  have k1 := Ke_direct m w hf EF T
  have k2 := Ke_direct _ w hfc EF T
  have k3 := Ke_direct _ w hfv EF T
  rw [Multi.conduction, ofBands_zip, ← hlc] at k2
  rw [Multi.valence, ofBands_zip, ← hlv] at k3
  rw [Ksum_split w EF T 2, Ksum_split w EF T 1, Ksum_split w EF T 0, ← hlc, ← hlv] at k1
  have hb : m.Kbip w (some (EF, T)) = .ok (100 * kB * kB * ((Ksum w EF T 1 lc ^ 2 / Ksum w EF T 0 lc +
      Ksum w EF T 1 lv ^ 2 / Ksum w EF T 0 lv) - (Ksum w EF T 1 lc + Ksum w EF T 1 lv) ^ 2 /
      (Ksum w EF T 0 lc + Ksum w EF T 0 lv)) * T) := by
    simp only [Multi.Kbip, bipLoop_eq w EF T _ _ hf.2 hs, bind, Except.bind, pure, Except.pure, zero_add, ← hlc, ← hlv,
      multi_src m w hf]
    rw [if_neg (by simpa using hcne), if_neg (by simpa using hvne)]
  refine ⟨_, _, _, _, hb, ?_, k1, k2, k3, ?_⟩
  · have hkb : (0 : R) ≤ 100 * kB * kB := by unfold kB; positivity
    refine mul_nonneg (mul_nonneg hkb ?_) hT
    generalize Ksum w EF T 1 lc = a, Ksum w EF T 1 lv = b at *
    generalize Ksum w EF T 0 lc = p, Ksum w EF T 0 lv = r at *
    have e : (a ^ 2 / p + b ^ 2 / r) - (a + b) ^ 2 / (p + r) = (a * r - b * p) ^ 2 / (p * r * (p + r)) := by
      have : p + r ≠ 0 := by positivity
      field_simp
      ring
    rw [e]
    positivity
  · ring

end C69

example : demoMulti.Kbip demoHeap (some (5, 300)) = .ok (1 * (100 * kB * kB * ((603:ℚ) ^ 2 / 303 + 594 ^ 2 / 294 - 9 ^ 2 / 597) * 300)) := by
  decide +kernel

end TEflow.Bandlib
