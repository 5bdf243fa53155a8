import Mathlib.Tactic
import Verif.Props.BandCfgSect
import Verif.Props.BandMulti
import Verif.Props.BandBuild

/-! # C109: `tef-band` computes the sums over the bands of the configuration -/

set_option linter.unusedSimpArgs false

namespace TEflow.BandCfg

open PyDict Utils Bandlib

variable {float : List Char → Except PyErr ℝ} {root : (ℝ → Except PyErr ℝ) → ℝ → Except PyErr ℝ}

/-! ## Specification -/

/-- a band of the model: its functions, the sign of its carriers (−1: electrons, conduction band; 1: holes, valence band) and
its energy offset -/
structure Line where
  fns : BandFns
  sign : ℝ
  delta : ℝ

/-- the Fermi level as the band sees it: above the band edge for a conduction band, below it for a valence band -/
def Line.level (l : Line) (EF : ℝ) : ℝ := -1 * l.sign * (EF - l.delta)

/-- the bands with their signs and offsets -/
noncomputable def linesOf (bands : List BandObj) (signs deltas : List ℝ) : List Line :=
  (bands.zip (signs.zip deltas)).map fun x => ⟨x.1.fns, x.2.1, x.2.2⟩

/-- the carrier concentration: all carriers counted positive -/
noncomputable def totalN (ls : List Line) (EF T : ℝ) : ℝ :=
  (ls.map fun l => rombDfx (fun E _ => l.fns.idos E) 0 (l.level EF) T).sum

/-- the transport integrals -/
noncomputable def totalK (ls : List Line) (n : Nat) (EF T : ℝ) : ℝ :=
  (ls.map fun l => l.sign ^ n * rombDfx l.fns.trs n (l.level EF) T).sum

/-- the Hall integral -/
noncomputable def totalH (ls : List Line) (EF T : ℝ) : ℝ :=
  (ls.map fun l => l.sign * rombDfx (l.fns.hall.getD fun _ _ => 0) 0 (l.level EF) T).sum

/-- the properties made of the integrals: conductivity `K₀`, Seebeck coefficient `(k_B/e) K₁/K₀`, and so on -/
noncomputable def quantity (N K0 K1 K2 H T : ℝ) : TProp → ℝ
  | .N => N
  | .K_0 => K0
  | .K_1 => K1
  | .K_2 => K2
  | .CCRH => H
  | .C => K0
  | .S => 1000000 * kB * (K1 / K0)
  | .CS => 1000000 * kB * K1
  | .PF => K0 * (1000000 * kB * (K1 / K0)) ^ 2 / 1000000
  | .L => L0 * (K2 / K0 - (K1 / K0) ^ 2)
  | .CL => 100 * kB ^ 2 * (K2 - K1 ^ 2 / K0)
  | .Ke => 100 * kB ^ 2 * (K2 - K1 ^ 2 / K0) * T
  | .U => K0 / (qe * (10 ^ 19 * N))
  | .RH => H / K0 ^ 2
  | .UH => K0 * (H / K0 ^ 2)
  | .NH => 1 / (qe * (H / K0 ^ 2)) / 10 ^ 19

/-- a property of the model at a Fermi level and a temperature -/
noncomputable def valueAt (ls : List Line) (p : TProp) (EF T : ℝ) : ℝ :=
  quantity (totalN ls EF T) (totalK ls 0 EF T) (totalK ls 1 EF T) (totalK ls 2 EF T) (totalH ls EF T) T p

open Classical in
/-- the bipolar thermal conductivity -/
noncomputable def bipolarAt (ls : List Line) (EF T : ℝ) : ℝ :=
  let c := ls.filter fun l => l.sign < 0
  let v := ls.filter fun l => ¬ l.sign < 0
  if c = [] ∨ v = [] then 0
  else 100 * kB ^ 2 * T * (totalK c 1 EF T ^ 2 / totalK c 0 EF T + totalK v 1 EF T ^ 2 / totalK v 0 EF T -
    totalK ls 1 EF T ^ 2 / totalK ls 0 EF T)

/-! ## The model in memory -/

/-- a model in memory that stands for the bands -/
structure Stands (m : Multi ℝ) (w : Heap ℝ) (bands : List BandObj) (signs deltas : List ℝ) : Prop where
  ids : m.ids = List.range bands.length
  offsets : m.deltas = deltas
  cache : m.cache = none
  len1 : signs.length = bands.length
  len2 : deltas.length = bands.length
  leaf : ∀ i (h : i < bands.length), w i = (bands[i]).fns.leaf (signs[i]'(by omega))
  fresh : ∀ i, (w i).cache = none

variable {m : Multi ℝ} {w : Heap ℝ} {bands : List BandObj} {signs deltas : List ℝ}

theorem Stands.map_zip (h : Stands m w bands signs deltas) {β : Type} (F : Leaf ℝ → ℝ → β) :
    (m.ids.zip m.deltas).map (fun x => F (w x.1) x.2) =
      (linesOf bands signs deltas).map fun l => F (l.fns.leaf l.sign) l.delta := by
  have h1 := h.len1
  have h2 := h.len2
  rw [h.ids, h.offsets]
  apply List.ext_getElem
  · simp [linesOf, h1, h2]
  · intro i hi hi'
    simp only [List.getElem_map, List.getElem_zip, List.getElem_range, linesOf]
    rw [h.leaf i (by simp [linesOf, h1, h2] at hi'; omega)]

theorem Stands.fresh' (h : Stands m w bands signs deltas) : Fresh m w := ⟨h.cache, fun x _ => h.fresh x.1⟩

theorem Stands.nodup (h : Stands m w bands signs deltas) : m.ids.Nodup := by rw [h.ids]; exact List.nodup_range

theorem Stands.clear_eq (h : Stands m w bands signs deltas) : m.clear w = (m, w) := by
  obtain ⟨c1, c2⟩ := C67_multi_clear m w
  refine Prod.ext ?_ ?_
  · rw [c1]
    have := h.cache
    cases m
    simp_all
  · funext i
    rw [c2]
    split
    · have := h.fresh i
      unfold Leaf.clear
      cases hw : w i
      rw [hw] at this
      simp_all
    · rfl

/-- every band has a Hall function: no `LinearBand` -/
def HallBands (bands : List BandObj) : Prop := ∀ b ∈ bands, b.fns.hall ≠ none

theorem Stands.leaf_of_mem (h : Stands m w bands signs deltas) {x : Nat × ℝ} (hx : x ∈ m.ids.zip m.deltas) :
    ∃ b ∈ bands, ∃ s ∈ signs, w x.1 = b.fns.leaf s := by
  have h1 : x.1 ∈ m.ids := (List.of_mem_zip (a := x.1) (b := x.2) hx).1
  rw [h.ids, List.mem_range] at h1
  exact ⟨_, List.getElem_mem h1, _, List.getElem_mem _, h.leaf x.1 h1⟩

theorem Stands.hasHall (h : Stands m w bands signs deltas) (hh : HallBands bands) : m.HasHall w := by
  intro x hx
  obtain ⟨b, hb, s, _, e⟩ := h.leaf_of_mem hx
  rw [e]
  cases hf : b.fns.hall with
  | none => exact absurd hf (hh b hb)
  | some f => exact ⟨fun EF T => rombDfx f 0 EF T, by simp only [BandFns.leaf, hf, Option.map_some]⟩

/-- the totals of the model are the sums over the bands -/
theorem Stands.totals (h : Stands m w bands signs deltas) (EF T : ℝ) :
    m.totN w EF T = .ok (totalN (linesOf bands signs deltas) EF T) ∧
    (∀ i, m.totK w i EF T = .ok (totalK (linesOf bands signs deltas) i EF T)) ∧
    (HallBands bands → m.totH w EF T = .ok (totalH (linesOf bands signs deltas) EF T)) := by
  obtain ⟨d1, d2, d3⟩ := direct_totals m w EF T fun x _ => h.fresh x.1
  refine ⟨?_, fun i => ?_, fun hh => ?_⟩
  · rw [d1, h.map_zip (fun b d => b.n (shiftEF b d EF) T)]
    rfl
  · rw [d2, h.map_zip (fun b d => b.sign ^ i * b.k i (shiftEF b d EF) T)]
    rfl
  · rw [d3 (h.hasHall hh) (fun i => (w i).h.getD fun _ _ => 0) fun x hx => by
      obtain ⟨g, hg⟩ := h.hasHall hh x hx
      rw [hg, Option.getD_some], h.map_zip (fun b d => b.sign * (b.h.getD fun _ _ => 0) (shiftEF b d EF) T)]
    unfold totalH
    congr 2
    refine List.map_congr_left fun l hl => ?_
    obtain ⟨x, hx, rfl⟩ := List.mem_map.1 hl
    obtain ⟨f, hf⟩ := Option.ne_none_iff_exists'.1 (hh x.1 (List.of_mem_zip (a := x.1) (b := x.2) hx).1)
    simp only [BandFns.leaf, hf, Option.map_some, Option.getD_some]
    rfl

theorem Stands.src (h : Stands m w bands signs deltas) (hh : HallBands bands) (EF T : ℝ) :
    m.src w (some (EF, T)) = ⟨1, .ok (totalN (linesOf bands signs deltas) EF T),
      fun i => .ok (totalK (linesOf bands signs deltas) i EF T), .ok (some (totalH (linesOf bands signs deltas) EF T)), .ok T⟩ := by
  obtain ⟨t1, t2, t3⟩ := h.totals EF T
  rw [multi_src m w h.fresh', t1, t3 hh]
  simp only [t2]
  rfl

/-- the properties of the model -/
theorem Stands.prop (h : Stands m w bands signs deltas) (hh : HallBands bands) (p : TProp) (EF T : ℝ) :
    m.prop w p (some (EF, T)) = .ok (some (valueAt (linesOf bands signs deltas) p EF T)) := by
  unfold Multi.prop valueAt
  rw [h.src hh]
  generalize totalN _ EF T = N
  generalize totalH _ EF T = H
  have eS : (S0 : ℝ) = 1000000 * kB := by unfold S0 kB; norm_num
  cases p <;> simp only [Src.prop, quantity, needNum, Except.map, bind, Except.bind, pure, Except.pure, Except.ok.injEq, Option.some.injEq, eS]
  all_goals
    generalize totalK (linesOf bands signs deltas) 0 EF T = K0
    try generalize totalK (linesOf bands signs deltas) 1 EF T = K1
    try generalize totalK (linesOf bands signs deltas) 2 EF T = K2
    by_cases h0 : K0 = 0
    · subst h0
      simp
      try ring_nf
      try tauto
    · try field_simp
      try ring

theorem Stands.filter_zip (h : Stands m w bands signs deltas) {β : Type} (P : Leaf ℝ → Bool) (F : Leaf ℝ → ℝ → β) :
    ((m.ids.zip m.deltas).filter (fun x => P (w x.1))).map (fun x => F (w x.1) x.2) =
      ((linesOf bands signs deltas).filter (fun l => P (l.fns.leaf l.sign))).map fun l => F (l.fns.leaf l.sign) l.delta := by
  have e := h.map_zip fun b d => (b, d)
  have e' := congrArg (fun M => (M.filter fun y : Leaf ℝ × ℝ => P y.1).map fun y => F y.1 y.2) e
  simpa only [List.filter_map, List.map_map, Function.comp_def] using e'

theorem totalK_split (ls : List Line) (P : Line → Bool) (n : Nat) (EF T : ℝ) :
    totalK ls n EF T = totalK (ls.filter fun l => P l) n EF T + totalK (ls.filter fun l => !P l) n EF T := by
  unfold totalK
  induction ls with
  | nil => simp
  | cons l ls ih =>
    cases hP : P l <;> simp [hP, ih] <;> ring

theorem Stands.kbip (h : Stands m w bands signs deltas) (hs : ∀ s ∈ signs, s = 1 ∨ s = -1) (EF T : ℝ) :
    m.Kbip w (some (EF, T)) = .ok (bipolarAt (linesOf bands signs deltas) EF T) := by
  classical
  have hsg : ∀ x ∈ m.ids.zip m.deltas, (w x.1).sign = 1 ∨ (w x.1).sign = -1 := by
    intro x hx
    obtain ⟨b, _, s, hs', e⟩ := h.leaf_of_mem hx
    rw [e]
    exact hs s hs'
  have kc : ∀ n, Ksum w EF T n ((m.ids.zip m.deltas).filter fun x => isC w x) =
      totalK ((linesOf bands signs deltas).filter fun l => decide (l.sign < 0)) n EF T := fun n =>
    congrArg List.sum (h.filter_zip (fun b => decide (b.sign < 0)) fun b d => b.sign ^ n * b.k n (shiftEF b d EF) T)
  have kv : ∀ n, Ksum w EF T n ((m.ids.zip m.deltas).filter fun x => !isC w x) =
      totalK ((linesOf bands signs deltas).filter fun l => !decide (l.sign < 0)) n EF T := fun n =>
    congrArg List.sum (h.filter_zip (fun b => !decide (b.sign < 0)) fun b d => b.sign ^ n * b.k n (shiftEF b d EF) T)
  have lc : ((m.ids.zip m.deltas).filter fun x => isC w x).length =
      ((linesOf bands signs deltas).filter fun l => decide (l.sign < 0)).length := by
    have := congrArg List.length (h.filter_zip (fun b => decide (b.sign < 0)) fun b d => d)
    simp only [List.length_map] at this
    exact this
  have lv : ((m.ids.zip m.deltas).filter fun x => !isC w x).length =
      ((linesOf bands signs deltas).filter fun l => !decide (l.sign < 0)).length := by
    have := congrArg List.length (h.filter_zip (fun b => !decide (b.sign < 0)) fun b d => d)
    simp only [List.length_map] at this
    exact this
  have hT : (m.src w (some (EF, T))).T = .ok T := by rw [multi_src m w h.fresh']
  have sp0 := totalK_split (linesOf bands signs deltas) (fun l => decide (l.sign < 0)) 0 EF T
  have sp1 := totalK_split (linesOf bands signs deltas) (fun l => decide (l.sign < 0)) 1 EF T
  simp only [Multi.Kbip, bipLoop_eq w EF T _ _ (fun x _ => h.fresh x.1) hsg, bind, Except.bind, pure, Except.pure, zero_add,
    kc, kv, lc, lv, hT, bipolarAt, decide_not, sp0, sp1]
  generalize hc : (linesOf bands signs deltas).filter (fun l => decide (l.sign < 0)) = c
  generalize hv : (linesOf bands signs deltas).filter (fun l => !decide (l.sign < 0)) = v
  cases c with
  | nil => simp
  | cons a c =>
    cases v with
    | nil => simp
    | cons b v =>
      simp only [List.length_cons, Nat.add_eq_zero_iff, one_ne_zero, and_false, if_false, reduceCtorEq, or_self, Except.ok.injEq]
      ring

/-! ## Compiling -/

theorem compile_cache (EF T : ℝ) (l : Nat) (h : (m.compile w EF T l).1 = .ok ()) :
    ∃ c, (m.compile w EF T l).2.1 = { m with cache := some c } ∧ c.EF = EF ∧ c.T = T ∧
      (m.compile w EF T l).2.2 = compileBands EF T l w (m.ids.zip m.deltas) := by
  unfold Multi.compile at h ⊢
  simp only [bind, Except.bind, pure, Except.pure] at h ⊢
  split
  · rename_i c hc
    refine ⟨c, rfl, ?_, ?_, rfl⟩ <;>
    · repeat' split at hc
      all_goals simp at hc
      all_goals subst hc; rfl
  · rename_i e he
    rw [he] at h
    simp at h

/-- the model compiled at a point -/
theorem Stands.compileAt (h : Stands m w bands signs deltas) (hh : HallBands bands) (hs : ∀ s ∈ signs, s = 1 ∨ s = -1)
    (q : ℝ × ℝ) : ∃ c, BandCfg.compileAt m w q = .ok c ∧ c.item "EF" = .ok q.1 ∧ c.item "T" = .ok q.2 ∧
      (∀ p : TProp, c.item p.name = .ok (valueAt (linesOf bands signs deltas) p q.1 q.2)) ∧
      c.item "Kbip" = .ok (bipolarAt (linesOf bands signs deltas) q.1 q.2) ∧
      ∀ key, key ≠ "EF" → key ≠ "T" → key ≠ "Kbip" → (∀ p : TProp, p.name ≠ key) → c.item key = .error .keyError := by
  obtain ⟨h1, h2⟩ := C67_multi_compile m w q.1 q.2 2 (le_refl 2) h.nodup (h.hasHall hh)
  obtain ⟨c, h3, h4, h5, h6⟩ := compile_cache q.1 q.2 2 h1
  rw [h.clear_eq] at h2
  simp only at h2
  have hcomp : BandCfg.compileAt m w q = .ok ⟨(m.compile w q.1 q.2 2).2.1, (m.compile w q.1 q.2 2).2.2⟩ := by
    unfold BandCfg.compileAt
    rcases hm : m.compile w q.1 q.2 2 with ⟨r, m', w'⟩
    rw [hm] at h1
    simp only at h1
    subst h1
    rfl
  have hca : (m.compile w q.1 q.2 2).2.1.cache = some c := by rw [h3]
  refine ⟨_, hcomp, ?_, ?_, fun p => ?_, ?_, fun key k1 k2 k3 k4 => ?_⟩
  · simp only [Compiled.item, show ¬ ("EF" = "Kbip") by decide, if_false, getItem, hca, if_true, needNum, h4]
  · simp only [Compiled.item, show ¬ ("T" = "Kbip") by decide, show ¬ ("T" = "EF") by decide, if_false, getItem, hca, if_true,
      needNum, h5]
  · have e1 : TProp.all.find? (fun r => r.name = p.name) = some p := by cases p <;> decide
    have e2 : ¬ (p.name = "Kbip") ∧ ¬ (p.name = "EF") ∧ ¬ (p.name = "T") := by cases p <;> decide
    have h7 := h2 p none
    unfold Multi.prop at h7
    rw [show (m.src w (some (q.1, q.2))).prop p = m.prop w p (some (q.1, q.2)) from rfl, h.prop hh] at h7
    simp only [Compiled.item, e2.1, e2.2.1, e2.2.2, if_false, getItem, hca, e1, h7, needNum]
  · have hk : (m.compile w q.1 q.2 2).2.1.Kbip (m.compile w q.1 q.2 2).2.2 none = m.Kbip w (some (q.1, q.2)) := by
      have hstep : ∀ x ∈ m.ids.zip m.deltas, ∀ a, bipStep (compileBands q.1 q.2 2 w (m.ids.zip m.deltas)) none a x =
          bipStep w (some (q.1, q.2)) a x := by
        intro x hx a
        have hw := compileBands_mem q.1 q.2 2 _ w (zip_fst_nodup _ _ h.nodup) x.1 x.2 hx
        obtain ⟨b, _, s, hs', e⟩ := h.leaf_of_mem hx
        have hk := ((w x.1).compile_src (shiftEF (w x.1) x.2 q.1) q.2 2 none).2.2.2.2.1
        have hsrc : ∀ y, (w x.1).src (some (y, q.2)) = _ := fun y => leaf_src (w x.1) (h.fresh x.1) y q.2
        have hsrc' : ∀ y, (w x.1).clear.src (some (y, q.2)) = _ := fun y => leaf_src (w x.1).clear rfl y q.2
        simp only [hsrc'] at hk
        have hsign : ((w x.1).compile (shiftEF (w x.1) x.2 q.1) q.2 2).sign = (w x.1).sign := rfl
        unfold bipStep
        rw [hw]
        simp only [Option.map_none, Option.map_some, hk 0 (by omega), hk 1 (by omega), hsrc, bind, Except.bind, pure, Except.pure,
          hsign]
        have hs1 : (w x.1).sign = 1 ∨ (w x.1).sign = -1 := by rw [e]; exact hs s hs'
        rcases hs1 with h1 | h1
        · simp only [h1, show ¬ ((1 : ℝ) < 0) by norm_num, if_false, shiftEF, Leaf.clear]
          rw [show (-1 : ℝ) * 1 * (q.1 - x.2) = x.2 - q.1 by ring]
        · simp only [h1, show ((-1 : ℝ) < 0) by norm_num, if_true, shiftEF, Leaf.clear]
          rw [show (-1 : ℝ) * -1 * (q.1 - x.2) = q.1 - x.2 by ring]
      have hloop : ∀ xs : List (Nat × ℝ), (∀ x ∈ xs, x ∈ m.ids.zip m.deltas) → ∀ a,
          bipLoop (compileBands q.1 q.2 2 w (m.ids.zip m.deltas)) none a xs = bipLoop w (some (q.1, q.2)) a xs := by
        intro xs
        induction xs with
        | nil => intro _ a; rfl
        | cons x xs ih =>
          intro hx a
          simp only [bipLoop, hstep x (hx x (by simp))]
          cases bipStep w (some (q.1, q.2)) a x with
          | error e => rfl
          | ok a' => exact ih (fun y hy => hx y (List.mem_cons_of_mem _ hy)) a'
      have hT : (m.src w (some (q.1, q.2))).T = .ok q.2 := by rw [multi_src m w h.fresh']
      rw [h6, h3]
      simp only [Multi.Kbip, hloop _ (fun x hx => hx), hT]
      simp only [Multi.src, Cache.src, h5]
    simp only [Compiled.item, if_true, hca, hk, h.kbip hs]
  · have e1 : TProp.all.find? (fun r => r.name = key) = none := by
      rw [List.find?_eq_none]
      intro r _
      simpa using k4 r
    simp only [Compiled.item, k1, k2, k3, if_false, getItem, hca, e1, needNum]

end TEflow.BandCfg
