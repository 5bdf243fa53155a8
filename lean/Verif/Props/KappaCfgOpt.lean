import Mathlib.Tactic
import Verif.Model.KappaCfg
import Verif.Spec.Kappa
import Verif.Props.KappaDebye

/-! # C94, C95, C107: options of the thermal-conductivity task -/

namespace TEflow.KappaCfg

open PyDict Kappa

/-! ## C94 -/

/-- the text begins with the given letters, upper or lower case -/
def Begins (p : String) (t : List Char) : Prop := ∃ r, t.map Char.toLower = p.toList ++ r

theorem lowerAscii_eq : lowerAscii = Char.toLower := by
  funext c
  unfold lowerAscii Char.toLower
  have h1 : ('A' ≤ c ∧ c ≤ 'Z') ↔ (c.val ≥ 'A'.val ∧ c.val ≤ 'Z'.val) := Iff.rfl
  by_cases h : c.val ≥ 'A'.val ∧ c.val ≤ 'Z'.val
  · rw [if_pos (h1.2 h), dif_pos h]
    have hv : (c.toNat + 32).isValidChar := by
      have : c.toNat ≤ 90 := h.2
      left
      omega
    apply Char.ext
    apply UInt32.toNat_inj.1
    rw [Char.ofNat, dif_pos hv]
    have h2 : c.val.toNat ≤ 90 := h.2
    change c.val.toNat + 32 = (c.val + 32).toNat
    rw [UInt32.toNat_add]
    simp only [UInt32.reduceToNat]
    omega
  · rw [if_neg (fun hx => h (h1.1 hx)), dif_neg h]

noncomputable instance (p : String) (t : List Char) : Decidable (Begins p t) := Classical.dec _

theorem prefixCI_iff (p : String) (t : List Char) : prefixCI p t = true ↔ Begins p t := by
  unfold prefixCI Begins
  rw [List.isPrefixOf_iff_prefix, lowerAscii_eq]
  exact ⟨fun ⟨r, h⟩ => ⟨r, h.symm⟩, fun ⟨r, h⟩ => ⟨r, h.symm⟩⟩

theorem begins_head {p : String} {t : List Char} (h : Begins p t) {c : Char} (hp : p.toList.head? = some c) :
    (t.map Char.toLower).head? = some c := by
  obtain ⟨r, h⟩ := h
  rw [h, List.head?_append, hp]
  rfl

/-- the unit names in any order: at most one kind applies -/
theorem begins_excl {p q : String} {t : List Char} (h1 : Begins p t) (h2 : Begins q t) {c d : Char} (hp : p.toList.head? = some c)
    (hq : q.toList.head? = some d) : c = d := by
  have := (begins_head h1 hp).symm.trans (begins_head h2 hq)
  exact Option.some.inj this

/-- **C94** A number is used as it is; otherwise the beginning of the text decides, whatever the case of the letters, and
anything else means angular frequency in rad/ps. -/
theorem C94_unit (float : List Char → Except PyErr ℝ) (wd temper : ℝ) (text : List Char) :
    (∀ x, float text = .ok x → freqUnit float wd temper text = x) ∧
    (∀ e, float text = .error e →
      (Begins "thz" text → freqUnit float wd temper text = 2 * Real.pi) ∧
      (Begins "omega_d" text ∨ Begins "wd" text ∨ Begins "w_d" text ∨ Begins "norm" text → freqUnit float wd temper text = wd) ∧
      (Begins "reduce" text ∨ Begins "x" text → freqUnit float wd temper text = temper / hbarKB) ∧
      (Begins "mev" text → freqUnit float wd temper text = 1602176634 / 1054571817) ∧
      (¬ Begins "thz" text → ¬ Begins "omega_d" text → ¬ Begins "wd" text → ¬ Begins "w_d" text → ¬ Begins "norm" text →
        ¬ Begins "reduce" text → ¬ Begins "x" text → ¬ Begins "mev" text → freqUnit float wd temper text = 1)) := by
  refine ⟨fun x h => by unfold freqUnit; rw [h], fun e h => ?_⟩
  have key : freqUnit float wd temper text =
      (if prefixCI "thz" text then 2 * Real.pi
      else if prefixCI "omega_d" text || prefixCI "wd" text || prefixCI "w_d" text || prefixCI "norm" text then wd
      else if prefixCI "reduce" text || prefixCI "x" text then temper / hbarKB
      else if prefixCI "mev" text then 1602176634 / 1054571817 else 1) := by
    unfold freqUnit
    rw [h]
  have hd1 : ("thz".toList.head?) = some 't' := rfl
  have hd2 : ("omega_d".toList.head?) = some 'o' := rfl
  have hd3 : ("wd".toList.head?) = some 'w' := rfl
  have hd4 : ("w_d".toList.head?) = some 'w' := rfl
  have hd5 : ("norm".toList.head?) = some 'n' := rfl
  have hd6 : ("reduce".toList.head?) = some 'r' := rfl
  have hd7 : ("x".toList.head?) = some 'x' := rfl
  have hd8 : ("mev".toList.head?) = some 'm' := rfl
  have key2 : freqUnit float wd temper text =
      (if Begins "thz" text then 2 * Real.pi
      else if ((Begins "omega_d" text ∨ Begins "wd" text) ∨ Begins "w_d" text) ∨ Begins "norm" text then wd
      else if Begins "reduce" text ∨ Begins "x" text then temper / hbarKB
      else if Begins "mev" text then 1602176634 / 1054571817 else 1) := by
    rw [key]
    simp only [← prefixCI_iff, Bool.or_eq_true]
  rw [key2]
  refine ⟨fun h1 => if_pos h1, fun h1 => ?_, fun h1 => ?_, fun h1 => ?_, fun n1 n2 n3 n4 n5 n6 n7 n8 => ?_⟩
  · have n1 : ¬ Begins "thz" text := fun hh => by
      rcases h1 with h1 | h1 | h1 | h1
      · exact absurd (begins_excl hh h1 hd1 hd2) (by decide)
      · exact absurd (begins_excl hh h1 hd1 hd3) (by decide)
      · exact absurd (begins_excl hh h1 hd1 hd4) (by decide)
      · exact absurd (begins_excl hh h1 hd1 hd5) (by decide)
    rw [if_neg n1, if_pos (by tauto)]
  · have hcase : ∃ c, (text.map Char.toLower).head? = some c ∧ (c = 'r' ∨ c = 'x') := by
      rcases h1 with h1 | h1
      · exact ⟨'r', begins_head h1 hd6, .inl rfl⟩
      · exact ⟨'x', begins_head h1 hd7, .inr rfl⟩
    obtain ⟨c, hc, hcr⟩ := hcase
    have nb : ∀ {p : String} {d : Char}, p.toList.head? = some d → d ≠ 'r' → d ≠ 'x' → ¬ Begins p text := by
      intro p d hp hr hx hb
      have := (begins_head hb hp).symm.trans hc
      rcases hcr with rfl | rfl
      · exact hr (Option.some.inj this)
      · exact hx (Option.some.inj this)
    rw [if_neg (nb hd1 (by decide) (by decide)), if_neg, if_pos h1]
    rintro (((h | h) | h) | h)
    · exact nb hd2 (by decide) (by decide) h
    · exact nb hd3 (by decide) (by decide) h
    · exact nb hd4 (by decide) (by decide) h
    · exact nb hd5 (by decide) (by decide) h
  · have hc := begins_head h1 hd8
    have nb : ∀ {p : String} {d : Char}, p.toList.head? = some d → d ≠ 'm' → ¬ Begins p text := by
      intro p d hp hm hb
      exact hm (Option.some.inj ((begins_head hb hp).symm.trans hc))
    rw [if_neg (nb hd1 (by decide)), if_neg, if_neg, if_pos h1]
    · rintro (h | h)
      · exact nb hd6 (by decide) h
      · exact nb hd7 (by decide) h
    · rintro (((h | h) | h) | h)
      · exact nb hd2 (by decide) h
      · exact nb hd3 (by decide) h
      · exact nb hd4 (by decide) h
      · exact nb hd5 (by decide) h
  · rw [if_neg n1, if_neg (by tauto), if_neg (by tauto), if_neg n8]

/-- the documented spellings -/
example : Begins "thz" "THz".toList ∧ Begins "norm" "Normalized".toList ∧ Begins "reduce" "Reduced".toList ∧
    Begins "mev" "meV".toList ∧ ¬ Begins "thz" "2pi.THz".toList := by
  refine ⟨⟨[], by decide⟩, ⟨"alized".toList, by decide⟩, ⟨"d".toList, by decide⟩, ⟨[], by decide⟩, ?_⟩
  rw [← prefixCI_iff]
  decide

/-- the unit charge, in C -/
noncomputable def qe : ℝ := 1602176634 / 10 ^ 28

/-- **C94** What the abscissa `w / unit` means for `w` in rad/ps: the ordinary frequency, the fraction of the cut-off, the
reduced energy `ħω/(k_B T)` (up to the rounding of the constant) and the energy in meV. -/
theorem C94_meaning (w wd T : ℝ) (hw : wd ≠ 0) (hT : 0 < T) (hw0 : 0 ≤ w) :
    2 * Real.pi * (w / (2 * Real.pi)) = w ∧ w / wd * wd = w ∧
    |KappaSpec.hbar * (10 ^ 12 * w) - KappaSpec.kB * T * (w / (T / hbarKB))| ≤ 1 / 10 ^ 9 * (KappaSpec.hbar * (10 ^ 12 * w)) ∧
    w / (1602176634 / 1054571817) * (qe / 10 ^ 3) = KappaSpec.hbar * (10 ^ 12 * w) := by
  refine ⟨by field_simp, by field_simp, ?_, ?_⟩
  · have e : KappaSpec.kB * T * (w / (T / hbarKB)) = KappaSpec.kB * hbarKB * w := by
      have : hbarKB ≠ 0 := by unfold hbarKB; norm_num
      field_simp
    rw [e]
    unfold KappaSpec.hbar KappaSpec.kB hbarKB
    rw [abs_le]
    constructor <;> linarith
  · unfold qe KappaSpec.hbar
    field_simp

/-- area under a curve given by points, trapezium rule -/
noncomputable def area : List (ℝ × ℝ) → ℝ
  | p :: q :: rest => (q.1 - p.1) * (p.2 + q.2) / 2 + area (q :: rest)
  | _ => 0

/-- **C94** The spectral curve is rescaled together with the abscissa: the area under it does not depend on the unit. -/
theorem C94_area (u : ℝ) (hu : u ≠ 0) : ∀ l : List (ℝ × ℝ), area (l.map fun p => (p.1 / u, p.2 * u)) = area l
  | [] => rfl
  | [_] => rfl
  | p :: q :: rest => by
    have := C94_area u hu (q :: rest)
    simp only [List.map_cons, area] at this ⊢
    rw [this]
    field_simp

/-! ## C95 -/

theorem arrMin_le (x : ℝ) (xs : List ℝ) : arrMin x xs ∈ x :: xs ∧ ∀ y ∈ x :: xs, arrMin x xs ≤ y := by
  induction xs generalizing x with
  | nil => exact ⟨List.mem_cons_self, fun y hy => by simp only [List.mem_cons, List.not_mem_nil, or_false] at hy; exact hy.ge⟩
  | cons a xs ih =>
    obtain ⟨h1, h2⟩ := ih a
    constructor
    · unfold arrMin
      rcases le_total x (arrMin a xs) with h | h
      · rw [min_eq_left h]; exact List.mem_cons_self
      · rw [min_eq_right h]; exact List.mem_cons_of_mem _ h1
    · intro y hy
      unfold arrMin
      rcases List.mem_cons.mp hy with rfl | hy
      · exact min_le_left _ _
      · exact (min_le_right _ _).trans (h2 y hy)

theorem le_arrMax (x : ℝ) (xs : List ℝ) : arrMax x xs ∈ x :: xs ∧ ∀ y ∈ x :: xs, y ≤ arrMax x xs := by
  induction xs generalizing x with
  | nil => exact ⟨List.mem_cons_self, fun y hy => by simp only [List.mem_cons, List.not_mem_nil, or_false] at hy; exact hy.le⟩
  | cons a xs ih =>
    obtain ⟨h1, h2⟩ := ih a
    constructor
    · unfold arrMax
      rcases le_total x (arrMax a xs) with h | h
      · rw [max_eq_right h]; exact List.mem_cons_of_mem _ h1
      · rw [max_eq_left h]; exact List.mem_cons_self
    · intro y hy
      unfold arrMax
      rcases List.mem_cons.mp hy with rfl | hy
      · exact le_max_left _ _
      · exact (h2 y hy).trans (le_max_right _ _)

/-- **C95** Points given by the user are used as they are; without them and without data the range cannot be made. -/
theorem C95_given (p : List ℝ) (d : Option (ℝ × List ℝ)) (m : ℝ) (n : Int) :
    (p ≠ [] → predX p d m n = .ok p) ∧ (p = [] → d = none → predX p d m n = .error .runtimeError) := by
  unfold predX
  refine ⟨fun h => if_pos h, fun h hd => ?_⟩
  rw [if_neg (by simpa using h), hd]

/-- **C95** The automatic range: for data with smallest value `lo` and largest value `hi` there are `|npoints|` equally spaced
points from `lo - |margin| (hi - lo)` to `hi + |margin| (hi - lo)`; it contains every datum. -/
theorem C95_range (x : ℝ) (xs : List ℝ) (m : ℝ) (n : Int) (lo hi : ℝ)
    (hlo : lo ∈ x :: xs ∧ ∀ y ∈ x :: xs, lo ≤ y) (hhi : hi ∈ x :: xs ∧ ∀ y ∈ x :: xs, y ≤ hi) :
    ∃ l, predX [] (some (x, xs)) m n = .ok l ∧ l.length = n.natAbs ∧
      (2 ≤ n.natAbs → l.head? = some (lo - |m| * (hi - lo)) ∧ l.getLast? = some (hi + |m| * (hi - lo)) ∧
        (∀ i, i + 1 < l.length → l[i + 1]! - l[i]! = (1 + 2 * |m|) * (hi - lo) / (n.natAbs - 1)) ∧
        ∀ y ∈ x :: xs, lo - |m| * (hi - lo) ≤ y ∧ y ≤ hi + |m| * (hi - lo)) ∧
      (n.natAbs = 1 → l = [lo - |m| * (hi - lo)]) := by
  have elo : arrMin x xs = lo := le_antisymm ((arrMin_le x xs).2 lo hlo.1) (hlo.2 _ (arrMin_le x xs).1)
  have ehi : arrMax x xs = hi := le_antisymm (hhi.2 _ (le_arrMax x xs).1) ((le_arrMax x xs).2 hi hhi.1)
  have hle : lo ≤ hi := hlo.2 hi hhi.1
  have a1 : (1 + |m|) * lo - |m| * hi = lo - |m| * (hi - lo) := by ring
  have a2 : (1 + |m|) * hi - |m| * lo = hi + |m| * (hi - lo) := by ring
  unfold predX Interface.linspace
  simp only [ne_eq, not_true_eq_false, if_false, elo, ehi, a1, a2]
  rw [if_neg (by rw [not_lt]; exact abs_nonneg n)]
  have habs : |n| = (n.natAbs : Int) := Int.abs_eq_natAbs n
  by_cases h1 : n.natAbs = 1
  · rw [if_pos (by rw [habs, h1]; rfl)]
    exact ⟨_, rfl, by rw [h1]; rfl, fun h => by omega, fun _ => rfl⟩
  · rw [if_neg (by rw [habs]; exact_mod_cast h1)]
    have htn : |n|.toNat = n.natAbs := by rw [habs]; rfl
    have hcast : ((|n| : Int) : ℝ) = (n.natAbs : ℝ) := by rw [habs]; rfl
    refine ⟨_, rfl, by rw [List.length_map, List.length_range, htn], fun h2 => ?_, fun h => absurd h h1⟩
    have hN : (2 : ℝ) ≤ (n.natAbs : ℝ) := by exact_mod_cast h2
    have hw : 0 ≤ |m| * (hi - lo) := mul_nonneg (abs_nonneg m) (by linarith)
    refine ⟨?_, ?_, ?_, fun y hy => ⟨by have := hlo.2 y hy; linarith, by have := hhi.2 y hy; linarith⟩⟩
    · rw [htn]
      obtain ⟨k, hk⟩ : ∃ k, n.natAbs = k + 1 := ⟨n.natAbs - 1, by omega⟩
      rw [hk, List.range_succ_eq_map]
      simp
    · rw [htn]
      obtain ⟨k, hk⟩ : ∃ k, n.natAbs = k + 1 := ⟨n.natAbs - 1, by omega⟩
      rw [hk, List.range_succ, List.map_append, List.map_singleton, List.getLast?_append, hcast, hk]
      simp only [List.getLast?_singleton, Option.some_or, Option.some.injEq]
      have hk0 : (k : ℝ) ≠ 0 := by
        have : k ≠ 0 := by omega
        exact_mod_cast this
      have e : (((k + 1 : ℕ) : ℝ) - 1) = k := by push_cast; ring
      rw [e, mul_div_cancel₀ _ hk0]
      ring
    · intro i hi'
      rw [List.length_map, List.length_range, htn] at hi'
      rw [getElem!_pos _ _ (by rw [List.length_map, List.length_range, htn]; exact hi'),
        getElem!_pos _ _ (by rw [List.length_map, List.length_range, htn]; omega)]
      simp only [List.getElem_map, List.getElem_range, hcast]
      push_cast
      have : (n.natAbs : ℝ) - 1 ≠ 0 := by linarith
      field_simp
      ring

example : ∃ lo hi : ℝ, (lo ∈ [3, 1, 2] ∧ ∀ y ∈ [3, 1, (2 : ℝ)], lo ≤ y) ∧ (hi ∈ [3, 1, 2] ∧ ∀ y ∈ [3, 1, (2 : ℝ)], y ≤ hi) :=
  ⟨1, 3, ⟨by norm_num, by norm_num⟩, ⟨by norm_num, by norm_num⟩⟩

/-! ## C107 -/

theorem intercalate_plus : ∀ l : List Tag, ['+'].intercalate l = joinPlus l
  | [] => rfl
  | [t] => by simp [joinPlus]
  | t :: u :: r => by
    have := intercalate_plus (u :: r)
    simp only [List.intercalate_cons_cons, joinPlus, this] 

/-- **C107** The columns of the split prediction: total, then one for each number of leading mechanisms with a label joining their
tags, then one for each additional model; the total is the last accumulated column plus the additional ones. -/
theorem C107_columns (quad : (ℝ → ℝ) → ℝ → ℝ → ℝ) (d : Debye) :
    (debyeColumns quad d true).length = 1 + d.scat.length + d.add.length ∧
    (∀ i, i < d.scat.length → (debyeColumns quad d true)[1 + i]? =
      some (joinPlus ((keys d.scat).take (i + 1)), fun T => d.call quad T (some (i + 1)))) ∧
    (∀ i, i < d.add.length → (debyeColumns quad d true)[1 + d.scat.length + i]? = d.add[i]?) ∧
    (d.scat ≠ [] → ∀ T, ((debyeColumns quad d true).map fun c => c.2 T).head? =
      some (((debyeColumns quad d true).map fun c => c.2 T)[d.scat.length]?.getD 0 +
        (((debyeColumns quad d true).map fun c => c.2 T).drop (d.scat.length + 1)).sum)) ∧
    (debyeColumns quad d true).head? = some ("Kappa-Total".toList, fun T => d.call quad T none) ∧
    debyeColumns quad d false = [("Kappa-DEBYE".toList, fun T => d.call quad T none)] := by
  have e : debyeColumns quad d true = ("Kappa-Total".toList, fun T => d.call quad T none) ::
      (((List.range d.scat.length).map fun i =>
        (['+'].intercalate ((keys d.scat).take (i + 1)), fun T => d.call quad T (some (i + 1)))) ++ d.add.map fun p => (p.1, p.2)) := rfl
  refine ⟨?_, ?_, ?_, ?_, rfl, rfl⟩
  · rw [e]
    simp
    omega
  · intro i hi
    rw [e, Nat.add_comm 1 i, List.getElem?_cons_succ, List.getElem?_append_left (by simpa using hi), List.getElem?_map,
      List.getElem?_range hi, Option.map_some, intercalate_plus]
  · intro i hi
    rw [e, show 1 + d.scat.length + i = (d.scat.length + i) + 1 by omega, List.getElem?_cons_succ,
      List.getElem?_append_right (by simp), List.length_map, List.length_range, Nat.add_sub_cancel_left, List.getElem?_map]
    cases d.add[i]? <;> rfl
  · intro hne T
    have hpos : 0 < d.scat.length := List.length_pos_of_ne_nil hne
    obtain ⟨k, hk⟩ : ∃ k, d.scat.length = k + 1 := ⟨d.scat.length - 1, by omega⟩
    rw [e]
    simp only [List.map_cons, List.head?_cons, List.drop_succ_cons, List.map_append, List.map_map]
    rw [List.drop_left' (by simp), (C85_call quad d T).1]
    congr 1
    congr 1
    rw [hk, List.getElem?_cons_succ, List.getElem?_append_left (by simp), List.getElem?_map, List.getElem?_range (by omega)]
    rfl

end TEflow.KappaCfg
