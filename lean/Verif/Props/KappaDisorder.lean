import Mathlib.Tactic
import Mathlib.Analysis.SpecialFunctions.Log.NegMulLog
import Mathlib.Analysis.Convex.Jensen
import Verif.Model.KappaModels
import Verif.Spec.Kappa

/-! # C91: the disorder parameter and the configuration entropy -/

open Real

namespace TEflow.Kappa

open TEflow.KappaSpec

/-! ## Padding -/

theorem sum_map_neg' {α : Type} (l : List α) (f : α → ℝ) : (l.map fun a => -f a).sum = -(l.map f).sum := by
  induction l with
  | nil => simp
  | cons a l ih => simp only [List.map_cons, List.sum_cons, ih]; ring

theorem le_foldr_max (l : List Nat) {x : Nat} (h : x ∈ l) : x ≤ l.foldr max 0 := by
  induction l with
  | nil => cases h
  | cons a l ih =>
    rw [List.foldr_cons]
    rcases List.mem_cons.mp h with rfl | h
    · exact le_max_left _ _
    · exact (ih h).trans (le_max_right _ _)

theorem mapM_pad (n : Nat) (c : ℝ) : ∀ L : List (List ℝ), (∀ l ∈ L, l.length ≤ n) →
    L.mapM (pad n c) = .ok (L.map fun l => l ++ List.replicate (n - l.length) c)
  | [], _ => rfl
  | l :: L, h => by
    rw [List.mapM_cons, mapM_pad n c L (fun x hx => h x (List.mem_cons_of_mem _ hx))]
    unfold pad
    rw [if_pos (h l List.mem_cons_self)]
    rfl

/-- the padded occupations of one sublattice -/
noncomputable def padO (n : Nat) (s : List Species) : List ℝ := s.map (fun a => a.1) ++ List.replicate (n - s.length) 0

/-- a padded property of the species of one sublattice -/
noncomputable def padX (f : Species → ℝ) (n : Nat) (s : List Species) : List ℝ := s.map f ++ List.replicate (n - s.length) 1

theorem sum_padO (n : Nat) (s : List Species) : (padO n s).sum = content s := by
  unfold padO content
  rw [List.sum_append]
  simp

theorem zip_padded (F : ℝ → ℝ → ℝ) (hF : ∀ x, F 0 x = 0) (f : Species → ℝ) (n : Nat) (s : List Species) :
    (List.zipWith F (padO n s) (padX f n s)).sum = (s.map fun a => F a.1 (f a)).sum := by
  unfold padO padX
  rw [List.zipWith_append (by simp), List.sum_append, List.zipWith_replicate']
  rw [List.sum_replicate, hF, smul_zero, add_zero, List.zipWith_map, List.zipWith_self]

theorem rowMean_padded (f : Species → ℝ) (n : Nat) (s : List Species) : rowMean (padO n s) (padX f n s) = siteMean f s := by
  unfold rowMean
  rw [zip_padded _ (fun x => zero_mul x)]
  rfl

theorem rowVar_padded (f : Species → ℝ) (n : Nat) (s : List Species) (h : siteMean f s ≠ 0) :
    rowVar (padO n s) (padX f n s) = siteVar f s := by
  unfold rowVar
  rw [zip_padded (fun c x => c * (1 - x / rowMean (padO n s) (padX f n s)) ^ 2) (fun x => zero_mul _), rowMean_padded]
  unfold siteVar
  congr 1
  apply List.map_congr_left
  intro a _
  have : 1 - f a / siteMean f s = -((f a - siteMean f s) / siteMean f s) := by field_simp; ring
  rw [this, neg_sq]

/-- the longest sublattice -/
def width (D : List (List Species)) : Nat := (D.map List.length).foldr max 0

theorem width_le (D : List (List Species)) (s : List Species) (h : s ∈ D) : s.length ≤ width D :=
  le_foldr_max _ (List.mem_map_of_mem h)

/-- the arguments of `fluctuation` for sublattices given as lists of species -/
noncomputable def call (D : List (List Species)) (withRadii : Bool) (alpha : ℝ) (renorm : Bool) : Except PyErr (ℝ × ℝ × ℝ × ℝ) :=
  fluctuation (D.map fun s => s.map fun a => a.1) (D.map fun s => s.map mass)
    (if withRadii then some (D.map fun s => s.map radius) else none) alpha renorm

theorem mapM_padO (D : List (List Species)) :
    (D.map fun s => s.map fun a => a.1).mapM (pad (width D) 0) = .ok (D.map (padO (width D))) := by
  rw [mapM_pad]
  · rw [List.map_map]
    congr 1
    apply List.map_congr_left
    intro s _
    simp [padO]
  · intro l hl
    obtain ⟨s, hs, rfl⟩ := List.mem_map.mp hl
    simpa using width_le D s hs

theorem mapM_padX (f : Species → ℝ) (D : List (List Species)) :
    (D.map fun s => s.map f).mapM (pad (width D) 1) = .ok (D.map (padX f (width D))) := by
  rw [mapM_pad]
  · rw [List.map_map]
    congr 1
    apply List.map_congr_left
    intro s _
    simp [padX]
  · intro l hl
    obtain ⟨s, hs, rfl⟩ := List.mem_map.mp hl
    simpa using width_le D s hs

/-- what is computed from normalised rows -/
noncomputable def finish (withRadii : Bool) (alpha : ℝ) (D : List (List Species)) (rows : List (List ℝ × ℝ)) : ℝ × ℝ × ℝ × ℝ :=
  let gm := gammaOf id Prod.snd (rows.zip (D.map (padX mass (width D))))
  let gr := if withRadii then gammaOf Prod.fst Prod.snd ((rows.zip (D.map (padX mass (width D)))).zip (D.map (padX radius (width D)))) else 0
  (gm + alpha * gr, gm, gr, sconf rows)

theorem call_eq (D : List (List Species)) (hD : D ≠ []) (wr : Bool) (alpha : ℝ) (renorm : Bool) :
    call D wr alpha renorm = (normalise (D.map (padO (width D))) renorm).map (finish wr alpha D) := by
  unfold call fluctuation
  have h0 : (D.map fun s => s.map fun a => a.1).isEmpty = false := by
    cases D with
    | nil => exact absurd rfl hD
    | cons _ _ => rfl
  have hw : ((D.map fun s => s.map fun a => a.1).map List.length).foldr max 0 = width D := by
    unfold width
    rw [List.map_map]
    congr 1
    apply List.map_congr_left
    intro s _
    simp
  rw [h0, hw]
  simp only [mapM_padO, mapM_padX, Bool.false_eq_true, if_false, bind, Except.bind, pure, Except.pure]
  cases hn : normalise (D.map (padO (width D))) renorm with
  | error e => rfl
  | ok rows =>
    have hl : rows.length = D.length := by
      unfold normalise at hn
      split_ifs at hn <;> cases hn <;> simp
    simp only [List.length_map, hl, ne_eq, not_true_eq_false, if_false, Except.map]
    cases wr with
    | false => rfl
    | true =>
      cases D with
      | nil => exact absurd rfl hD
      | cons s D =>
        simp only [List.map_cons, if_true]
        have := mapM_padX radius (s :: D)
        rw [List.map_cons] at this
        rw [this]
        simp only [List.length_map, List.length_cons, hl, List.map_cons, not_true_eq_false, if_false]
        rfl

theorem gammaOf_rows (f : Species → ℝ) (n : Nat) (D : List (List Species)) (hm : ∀ s ∈ D, siteMean f s ≠ 0)
    (op : List Species → ℝ) (ho : ∀ s ∈ D, op s = content s) {α : Type} (row : α → (List ℝ × ℝ) × List ℝ) (x : α → List ℝ)
    (mk : List Species → α) (h1 : ∀ s, row (mk s) = ((padO n s, op s), padX mass n s)) (h2 : ∀ s, x (mk s) = padX f n s) :
    gammaOf row x (D.map mk) = disorder f D := by
  have hop : (D.map op).sum = (D.map content).sum := by
    congr 1
    exact List.map_congr_left ho
  have hM : massAve ((D.map mk).map row) = cellAvg (siteMean mass) D := by
    unfold massAve rowsAvg cellAvg
    simp only [List.map_map, Function.comp_def, h1, rowMean_padded]
    rw [hop]
    congr 2
    apply List.map_congr_left
    intro s hs
    rw [ho s hs]
  unfold gammaOf rowsAvg disorder
  rw [hM]
  unfold cellAvg
  simp only [List.map_map, Function.comp_def, h1, h2, rowMean_padded]
  rw [hop]
  congr 2
  apply List.map_congr_left
  intro s hs
  rw [ho s hs, rowVar_padded f n s (hm s hs)]

theorem finish_rows (wr : Bool) (alpha : ℝ) (D : List (List Species)) (op : List Species → ℝ) (ho : ∀ s ∈ D, op s = content s)
    (hm : ∀ s ∈ D, siteMean mass s ≠ 0) (hr : wr = true → ∀ s ∈ D, siteMean radius s ≠ 0)
    (hc : ∀ s ∈ D, ∀ a ∈ s, a.1 = 0 ∨ 1 / 10 ^ 12 ≤ a.1) :
    finish wr alpha D (D.map fun s => (padO (width D) s, op s)) =
      (disorder mass D + alpha * (if wr then disorder radius D else 0), disorder mass D,
        (if wr then disorder radius D else 0), entropy D) := by
  have g1 : gammaOf id Prod.snd ((D.map fun s => (padO (width D) s, op s)).zip (D.map (padX mass (width D)))) = disorder mass D := by
    rw [List.zip_map', gammaOf_rows mass (width D) D hm op ho] <;> intros <;> rfl
  have g2 : wr = true → gammaOf Prod.fst Prod.snd (((D.map fun s => (padO (width D) s, op s)).zip (D.map (padX mass (width D)))).zip
      (D.map (padX radius (width D)))) = disorder radius D := by
    intro h
    rw [List.zip_map', List.zip_map', gammaOf_rows radius (width D) D (hr h) op ho] <;> intros <;> rfl
  have g3 : sconf (D.map fun s => (padO (width D) s, op s)) = entropy D := by
    unfold sconf entropy
    rw [List.map_map, neg_one_mul]
    congr 2
    apply List.map_congr_left
    intro s hs
    simp only [Function.comp_apply, padO, List.map_append, List.sum_append, List.map_replicate, zero_mul, List.sum_replicate,
      smul_zero, add_zero, List.map_map]
    congr 1
    apply List.map_congr_left
    intro a ha
    rcases hc s hs a ha with h | h
    · simp [h]
    · simp only [Function.comp_apply]
      rw [max_eq_left h]
  unfold finish
  simp only [g1, g3]
  cases wr with
  | false => rfl
  | true => simp only [g2 rfl, if_true]

theorem sumsToOne_padded (n : Nat) (D : List (List Species)) :
    sumsToOne (D.map (padO n)) = D.all fun s => decide (|content s - 1| ≤ 1 / 10 ^ 8 + 1 / 10 ^ 5) := by
  unfold sumsToOne
  rw [List.all_map]
  congr 1
  funext s
  simp only [Function.comp_apply, sum_padO]

/-- **C91** For occupations that sum to one (up to numpy's tolerance) on every sublattice the function returns the documented
`Γ = Γ_M + α Γ_S`, `Γ_M`, `Γ_S` and the configuration entropy, whatever the numbers of species on the sublattices (shorter
sublattices are padded, which must not show). -/
theorem C91_value (D : List (List Species)) (hD : D ≠ []) (wr : Bool) (alpha : ℝ) (renorm : Bool)
    (h1 : ∀ s ∈ D, |content s - 1| ≤ 1 / 10 ^ 8 + 1 / 10 ^ 5)
    (hm : ∀ s ∈ D, siteMean mass s ≠ 0) (hr : wr = true → ∀ s ∈ D, siteMean radius s ≠ 0)
    (hc : ∀ s ∈ D, ∀ a ∈ s, a.1 = 0 ∨ 1 / 10 ^ 12 ≤ a.1) :
    call D wr alpha renorm = .ok (disorder mass D + alpha * (if wr then disorder radius D else 0), disorder mass D,
        (if wr then disorder radius D else 0), entropy D) := by
  rw [call_eq D hD]
  unfold normalise
  have : sumsToOne (D.map (padO (width D))) = true := by
    rw [sumsToOne_padded, List.all_eq_true]
    intro s hs
    exact decide_eq_true (h1 s hs)
  rw [if_pos this, List.map_map]
  simp only [Except.map]
  congr 1
  have := finish_rows wr alpha D (fun s => (padO (width D) s).sum) (fun s _ => sum_padO _ s) hm hr hc
  exact this

/-- **C91** Without `renorm` occupations that do not sum to one on some sublattice are rejected. -/
theorem C91_rejected (D : List (List Species)) (hD : D ≠ []) (wr : Bool) (alpha : ℝ)
    (h1 : ∃ s ∈ D, 1 / 10 ^ 8 + 1 / 10 ^ 5 < |content s - 1|) : call D wr alpha false = .error .valueError := by
  rw [call_eq D hD]
  unfold normalise
  have : ¬ sumsToOne (D.map (padO (width D))) = true := by
    rw [sumsToOne_padded, List.all_eq_true]
    intro h
    obtain ⟨s, hs, hlt⟩ := h1
    have := of_decide_eq_true (h s hs)
    linarith
  rw [if_neg this]
  rfl

theorem content_renormalised (s : List Species) (h : content s ≠ 0) : content (s.map fun a => (a.1 / content s, a.2)) = 1 := by
  have : content (s.map fun a => (a.1 / content s, a.2)) = content s / content s := by
    have : ∀ (c : ℝ) (t : List Species), content (t.map fun a => (a.1 / c, a.2)) = content t / c := by
      intro c t
      unfold content
      induction t with
      | nil => simp
      | cons a t ih =>
        simp only [List.map_cons, List.sum_cons] at ih ⊢
        rw [ih, add_div]
    exact this _ s
  rw [this, div_self h]

theorem padO_renormalised (n : Nat) (s : List Species) :
    padO n (s.map fun a => (a.1 / content s, a.2)) = (padO n s).map (· / (padO n s).sum) := by
  rw [sum_padO]
  simp [padO, Function.comp_def]

theorem padX_renormalised (f : ℝ × ℝ → ℝ) (n : Nat) (s : List Species) (c : ℝ) :
    padX (fun a => f a.2) n (s.map fun a => (a.1 / c, a.2)) = padX (fun a => f a.2) n s := by
  simp [padX, Function.comp_def]

theorem width_renormalised (D : List (List Species)) : width (renormalised D) = width D := by
  unfold width renormalised
  simp [Function.comp_def]

/-- **C91** With `renorm` the result is that of the data in which the occupations of every sublattice have been divided by their
sum - of *every* sublattice as soon as one of them is off. -/
theorem C91_renorm (D : List (List Species)) (hD : D ≠ []) (wr : Bool) (alpha : ℝ) (flag : Bool)
    (h1 : ∃ s ∈ D, 1 / 10 ^ 8 + 1 / 10 ^ 5 < |content s - 1|) (h0 : ∀ s ∈ D, content s ≠ 0) :
    call D wr alpha true = call (renormalised D) wr alpha flag := by
  have hD' : renormalised D ≠ [] := by
    unfold renormalised
    simpa using hD
  rw [call_eq D hD, call_eq _ hD']
  have n1 : ¬ sumsToOne (D.map (padO (width D))) = true := by
    rw [sumsToOne_padded, List.all_eq_true]
    intro h
    obtain ⟨s, hs, hlt⟩ := h1
    have := of_decide_eq_true (h s hs)
    linarith
  have n2 : sumsToOne ((renormalised D).map (padO (width (renormalised D)))) = true := by
    rw [sumsToOne_padded, List.all_eq_true]
    intro s hs
    obtain ⟨t, ht, rfl⟩ := List.mem_map.mp hs
    rw [content_renormalised t (h0 t ht)]
    norm_num
  unfold normalise
  rw [if_neg n1, if_pos n2, if_pos rfl]
  simp only [Except.map]
  congr 1
  have e : ((renormalised D).map (padO (width (renormalised D)))).map (fun o => (o, o.sum)) =
      (D.map (padO (width D))).map fun o => (o.map (· / o.sum), 1) := by
    rw [width_renormalised]
    unfold renormalised
    simp only [List.map_map]
    apply List.map_congr_left
    intro s hs
    simp only [Function.comp_apply]
    rw [sum_padO, content_renormalised s (h0 s hs), padO_renormalised, sum_padO]
  rw [← e]
  have em : (renormalised D).map (padX mass (width (renormalised D))) = D.map (padX mass (width D)) := by
    rw [width_renormalised]
    unfold renormalised
    rw [List.map_map]
    apply List.map_congr_left
    intro s _
    exact padX_renormalised Prod.fst _ s _
  have er : (renormalised D).map (padX radius (width (renormalised D))) = D.map (padX radius (width D)) := by
    rw [width_renormalised]
    unfold renormalised
    rw [List.map_map]
    apply List.map_congr_left
    intro s _
    exact padX_renormalised Prod.snd _ s _
  unfold finish
  rw [em, er]

/-! ## What the documented quantity does -/

theorem sum_nonneg_map {α : Type} (l : List α) (f : α → ℝ) (h : ∀ a ∈ l, 0 ≤ f a) : 0 ≤ (l.map f).sum := by
  apply List.sum_nonneg
  intro x hx
  obtain ⟨a, ha, rfl⟩ := List.mem_map.mp hx
  exact h a ha

/-- **C91** `Γ` is never negative for occupations that are not. -/
theorem C91_nonneg (f : Species → ℝ) (D : List (List Species)) (h : ∀ s ∈ D, ∀ a ∈ s, 0 ≤ a.1) : 0 ≤ disorder f D := by
  have hc : ∀ s ∈ D, 0 ≤ content s := fun s hs => sum_nonneg_map _ _ (h s hs)
  unfold disorder cellAvg
  apply div_nonneg
  · apply sum_nonneg_map
    intro s hs
    apply mul_nonneg (hc s hs)
    apply mul_nonneg (sq_nonneg _)
    apply sum_nonneg_map
    intro a ha
    exact mul_nonneg (h s hs a ha) (sq_nonneg _)
  · exact sum_nonneg_map _ _ hc

/-- **C91** On a sublattice whose species all have the same value there is no fluctuation; in particular for one species. -/
theorem C91_uniform (f : Species → ℝ) (s : List Species) (x : ℝ) (h : ∀ a ∈ s, f a = x) (hc : content s = 1) :
    siteMean f s = x ∧ siteVar f s = 0 := by
  have hm : siteMean f s = x := by
    have : siteMean f s = content s * x := by
      unfold siteMean content
      rw [← List.sum_map_mul_right]
      congr 1
      apply List.map_congr_left
      intro a ha
      rw [h a ha]
    rw [this, hc, one_mul]
  refine ⟨hm, ?_⟩
  unfold siteVar
  apply List.sum_eq_zero
  intro y hy
  obtain ⟨a, ha, rfl⟩ := List.mem_map.mp hy
  rw [hm, h a ha]
  simp

theorem C91_ordered (f : Species → ℝ) (D : List (List Species)) (h : ∀ s ∈ D, content s = 1 ∧ ∃ x, ∀ a ∈ s, f a = x) :
    disorder f D = 0 := by
  unfold disorder cellAvg
  rw [div_eq_zero_iff]
  left
  apply List.sum_eq_zero
  intro y hy
  obtain ⟨s, hs, rfl⟩ := List.mem_map.mp hy
  obtain ⟨hc, x, hx⟩ := h s hs
  simp only [(C91_uniform f s x hx hc).2, mul_zero]

/-- **C91** For occupations that sum to one `Γ_{M,i}` is the variance over the squared mean. -/
theorem C91_variance (f : Species → ℝ) (s : List Species) (hc : content s = 1) (hm : siteMean f s ≠ 0) :
    siteVar f s = siteMean (fun a => f a ^ 2) s / siteMean f s ^ 2 - 1 := by
  set m := siteMean f s with hmdef
  have e : siteVar f s = (siteMean (fun a => f a ^ 2) s - 2 * m * siteMean f s + m ^ 2 * content s) / m ^ 2 := by
    unfold siteVar
    rw [← hmdef]
    have : ∀ t : List Species, (t.map fun a => a.1 * ((f a - m) / m) ^ 2).sum =
        ((t.map fun a => a.1 * f a ^ 2).sum - 2 * m * (t.map fun a => a.1 * f a).sum + m ^ 2 * (t.map fun a => a.1).sum) / m ^ 2 := by
      intro t
      induction t with
      | nil => simp
      | cons a t ih =>
        simp only [List.map_cons, List.sum_cons, ih]
        field_simp
        ring
    exact this s
  rw [e, hc, ← hmdef]
  field_simp
  ring

/-- **C91** A binary sublattice: `Γ_i = c (1 - c) ((M₁ - M₂) / M̄)²`. -/
theorem C91_binary (f : Species → ℝ) (c : ℝ) (p q : ℝ × ℝ) (hm : siteMean f [(c, p), (1 - c, q)] ≠ 0) :
    siteVar f [(c, p), (1 - c, q)] =
      c * (1 - c) * ((f (c, p) - f (1 - c, q)) / siteMean f [(c, p), (1 - c, q)]) ^ 2 := by
  have e : siteMean f [(c, p), (1 - c, q)] = c * f (c, p) + (1 - c) * f (1 - c, q) := by simp [siteMean]
  unfold siteVar
  set m := siteMean f [(c, p), (1 - c, q)]
  simp only [List.map_cons, List.map_nil, List.sum_cons, List.sum_nil, add_zero]
  rw [div_pow, div_pow, div_pow, mul_div_assoc', mul_div_assoc', mul_div_assoc', ← add_div, e]
  congr 1
  ring

/-- **C91** The unit of mass (and of length) does not matter. -/
theorem C91_units (k j : ℝ) (hk : k ≠ 0) (hj : j ≠ 0) (D : List (List Species)) :
    let D' := D.map fun s => s.map fun a => ((a.1, k * a.2.1, j * a.2.2) : Species)
    disorder mass D' = disorder mass D ∧ disorder radius D' = disorder radius D := by
  have hcont : ∀ s : List Species, content (s.map fun a => ((a.1, k * a.2.1, j * a.2.2) : Species)) = content s := by
    intro s
    unfold content
    rw [List.map_map]
    rfl
  have hmean : ∀ s : List Species, siteMean mass (s.map fun a => ((a.1, k * a.2.1, j * a.2.2) : Species)) = k * siteMean mass s := by
    intro s
    unfold siteMean
    rw [List.map_map, ← List.sum_map_mul_left]
    congr 1
    apply List.map_congr_left
    intro a _
    simp only [Function.comp_apply, mass]
    ring
  have hmeanr : ∀ s : List Species, siteMean radius (s.map fun a => ((a.1, k * a.2.1, j * a.2.2) : Species)) = j * siteMean radius s := by
    intro s
    unfold siteMean
    rw [List.map_map, ← List.sum_map_mul_left]
    congr 1
    apply List.map_congr_left
    intro a _
    simp only [Function.comp_apply, radius]
    ring
  have hvar : ∀ s : List Species, siteVar mass (s.map fun a => ((a.1, k * a.2.1, j * a.2.2) : Species)) = siteVar mass s := by
    intro s
    unfold siteVar
    rw [hmean, List.map_map]
    congr 1
    apply List.map_congr_left
    intro a _
    simp only [Function.comp_apply, mass]
    rw [← mul_sub, mul_div_mul_left _ _ hk]
  have hvarr : ∀ s : List Species, siteVar radius (s.map fun a => ((a.1, k * a.2.1, j * a.2.2) : Species)) = siteVar radius s := by
    intro s
    unfold siteVar
    rw [hmeanr, List.map_map]
    congr 1
    apply List.map_congr_left
    intro a _
    simp only [Function.comp_apply, radius]
    rw [← mul_sub, mul_div_mul_left _ _ hj]
  have havg : cellAvg (siteMean mass) (D.map fun s => s.map fun a => ((a.1, k * a.2.1, j * a.2.2) : Species)) =
      k * cellAvg (siteMean mass) D := by
    unfold cellAvg
    simp only [List.map_map, Function.comp_def, hcont, hmean]
    rw [← mul_div_assoc, ← List.sum_map_mul_left]
    congr 2
    apply List.map_congr_left
    intro s _
    ring
  constructor
  · unfold disorder
    rw [havg]
    conv_lhs => unfold cellAvg
    conv_rhs => unfold cellAvg
    simp only [List.map_map, Function.comp_def, hcont, hmean, hvar, mul_div_mul_left _ _ hk]
  · unfold disorder
    rw [havg]
    conv_lhs => unfold cellAvg
    conv_rhs => unfold cellAvg
    simp only [List.map_map, Function.comp_def, hcont, hmean, hvarr, mul_div_mul_left _ _ hk]

/-! ## Entropy -/

theorem neg_mul_log_bound (x : ℝ) (n : ℝ) (hx : 0 ≤ x) (hn : 0 < n) : -(x * log x) ≤ 1 / n - x + x * log n := by
  rcases hx.eq_or_lt with rfl | hx
  · simp; positivity
  · have := log_le_sub_one_of_pos (show 0 < 1 / n / x by positivity)
    rw [log_div (by positivity) hx.ne', log_div one_ne_zero hn.ne', log_one] at this
    have h2 := mul_le_mul_of_nonneg_left this hx.le
    have e : x * (1 / n / x - 1) = 1 / n - x := by field_simp
    rw [e] at h2
    nlinarith

theorem site_entropy (s : List Species) (h : ∀ a ∈ s, 0 ≤ a.1) (hc : content s = 1) :
    0 ≤ -(s.map fun a => a.1 * log a.1).sum ∧ -(s.map fun a => a.1 * log a.1).sum ≤ log s.length := by
  have hle : ∀ a ∈ s, a.1 ≤ 1 := by
    intro a ha
    rw [← hc]
    apply List.single_le_sum
    · intro x hx
      obtain ⟨b, hb, rfl⟩ := List.mem_map.mp hx
      exact h b hb
    · exact List.mem_map.mpr ⟨a, ha, rfl⟩
  have hneg : -(s.map fun a => a.1 * log a.1).sum = (s.map fun a => -(a.1 * log a.1)).sum := by
    rw [sum_map_neg']
  rw [hneg]
  constructor
  · apply sum_nonneg_map
    intro a ha
    have := mul_nonpos_of_nonneg_of_nonpos (h a ha) (log_nonpos (h a ha) (hle a ha))
    linarith
  · have hpos : 0 < (s.length : ℝ) := by
      rcases s with _ | ⟨a, s⟩
      · simp [content] at hc
      · simp only [List.length_cons]; positivity
    have key : ∀ t : List Species, (∀ a ∈ t, 0 ≤ a.1) →
        (t.map fun a => -(a.1 * log a.1)).sum ≤ t.length * (1 / (s.length : ℝ)) - content t + content t * log s.length := by
      intro t
      induction t with
      | nil => intro _; simp [content]
      | cons a t ih =>
        intro ht
        have i1 := ih (fun b hb => ht b (List.mem_cons_of_mem _ hb))
        have i2 := neg_mul_log_bound a.1 s.length (ht a List.mem_cons_self) hpos
        have ec : content (a :: t) = a.1 + content t := by simp [content]
        simp only [List.map_cons, List.sum_cons, List.length_cons, ec]
        push_cast
        nlinarith
    have := key s h
    rw [hc, mul_one_div_cancel hpos.ne'] at this
    linarith

/-- **C91** The configuration entropy lies between 0 (every site occupied by one species) and `Σ ln N_i` (equal occupations). -/
theorem C91_entropy (D : List (List Species)) (h : ∀ s ∈ D, content s = 1 ∧ ∀ a ∈ s, 0 ≤ a.1) :
    0 ≤ entropy D ∧ entropy D ≤ (D.map fun s => log s.length).sum := by
  unfold entropy
  rw [← sum_map_neg']
  constructor
  · apply sum_nonneg_map
    intro s hs
    exact (site_entropy s (h s hs).2 (h s hs).1).1
  · apply List.sum_le_sum
    intro s hs
    exact (site_entropy s (h s hs).2 (h s hs).1).2

/-- **C91** (finding) A species whose mass is left out is silently given the mass 1: the shapes of the arguments are not
compared. -/
theorem C91_missing_mass (c M : ℝ) (alpha : ℝ) (rn : Bool) :
    fluctuation [[c, 1 - c]] [[M]] none alpha rn = fluctuation [[c, 1 - c]] [[M, 1]] none alpha rn := by
  unfold fluctuation
  have e : pad 2 1 [M] = pad 2 1 [M, 1] := by
    simp [pad]
  simp only [List.map_cons, List.map_nil, List.length_cons, List.length_nil, List.foldr_cons, List.foldr_nil]
  norm_num
  rw [e]

/-- **C91** More masses than the largest sublattice has species are rejected, whatever the rest is. -/
theorem C91_extra_mass (occupy masses : List (List ℝ)) (radii : Option (List (List ℝ))) (alpha : ℝ) (rn : Bool)
    (h : ∃ m ∈ masses, ∀ o ∈ occupy, o.length < m.length) :
    fluctuation occupy masses radii alpha rn = .error .valueError := by
  obtain ⟨m, hm, hlen⟩ := h
  have hw : occupy ≠ [] → ∃ o ∈ occupy, (occupy.map List.length).foldr max 0 = o.length := by
    intro hne
    induction occupy with
    | nil => exact absurd rfl hne
    | cons o t ih =>
      by_cases ht : t = []
      · subst ht
        exact ⟨o, List.mem_cons_self, by simp⟩
      · obtain ⟨o', ho', e⟩ := ih (fun a ha => hlen a (List.mem_cons_of_mem _ ha)) ht
        simp only [List.map_cons, List.foldr_cons, e]
        rcases le_total o.length o'.length with h | h
        · exact ⟨o', List.mem_cons_of_mem _ ho', max_eq_right h⟩
        · exact ⟨o, List.mem_cons_self, max_eq_left h⟩
  have okoc : ∀ l : List (List ℝ), ∀ n c, (∃ r, l.mapM (pad n c) = .ok r) ∨ l.mapM (pad n c) = .error .valueError := by
    intro l n c
    induction l with
    | nil => exact .inl ⟨[], rfl⟩
    | cons a t ih =>
      rw [List.mapM_cons]
      by_cases ha : a.length ≤ n
      · rw [show pad n c a = .ok _ from if_pos ha]
        rcases ih with ⟨r, hr⟩ | hr
        · exact .inl ⟨_, by rw [show List.mapM (fun l => pad n c l) t = .ok r from hr]; rfl⟩
        · exact .inr (by rw [show List.mapM (fun l => pad n c l) t = .error .valueError from hr]; rfl)
      · rw [show pad n c a = .error .valueError from if_neg ha]
        exact .inr rfl
  have bad : ∀ n, (n < m.length) → masses.mapM (pad n 1) = .error .valueError := by
    intro n hn
    rcases okoc masses n 1 with ⟨r, hr⟩ | hr
    · exfalso
      clear hw
      induction masses generalizing r with
      | nil => cases hm
      | cons a t ih =>
        rw [List.mapM_cons] at hr
        cases hp : pad n 1 a with
        | error e => rw [hp] at hr; cases hr
        | ok b =>
          rw [hp] at hr
          rcases List.mem_cons.mp hm with rfl | hmt
          · unfold pad at hp
            rw [if_neg (by omega)] at hp
            cases hp
          · cases ht : t.mapM (pad n 1) with
            | error e => rw [show List.mapM (fun l => pad n 1 l) t = .error e from ht] at hr; cases hr
            | ok r' => exact ih hmt r' ht
    · exact hr
  unfold fluctuation
  cases hne : occupy.isEmpty with
  | true => rfl
  | false =>
    obtain ⟨o, ho, e⟩ := hw (by intro h; rw [h] at hne; cases hne)
    have hbad := bad _ (by rw [e]; exact hlen o ho : (occupy.map List.length).foldr max 0 < m.length)
    simp only [Bool.false_eq_true, if_false]
    rcases okoc occupy ((occupy.map List.length).foldr max 0) 0 with ⟨r, hr⟩ | hr
    · rw [hr, hbad]
      cases hn : normalise r rn with
      | ok rows => simp only [bind, Except.bind, pure, Except.pure, hn]
      | error e =>
        have : e = .valueError := by
          unfold normalise at hn
          split_ifs at hn
          cases hn
          rfl
        simp only [bind, Except.bind, pure, Except.pure, hn, this]
    · rw [hr]
      rfl

example : ∃ m ∈ [[50, 60, (70 : ℝ)]], ∀ o ∈ [[1 / 2, (1 / 2 : ℝ)]], o.length < m.length := by simp

/-- the hypotheses of `C91_value` are met by a ternary with a binary, a ternary and an ordered sublattice -/
noncomputable def disorderDemo : List (List Species) :=
  [[(1 / 2, 50, 1), (1 / 2, 60, 2)], [(1 / 4, 10, 1), (1 / 4, 20, 1), (1 / 2, 30, 1)], [(1, 7, 3)]]

example : (∀ s ∈ disorderDemo, |content s - 1| ≤ 1 / 10 ^ 8 + 1 / 10 ^ 5) ∧ (∀ s ∈ disorderDemo, siteMean mass s ≠ 0) ∧
    (∀ s ∈ disorderDemo, siteMean radius s ≠ 0) ∧ (∀ s ∈ disorderDemo, ∀ a ∈ s, a.1 = 0 ∨ 1 / 10 ^ 12 ≤ a.1) := by
  refine ⟨?_, ?_, ?_, ?_⟩ <;> intro s hs <;>
    simp only [disorderDemo, List.mem_cons, List.not_mem_nil, or_false] at hs <;>
    rcases hs with rfl | rfl | rfl <;> norm_num [content, siteMean, mass, radius]

end TEflow.Kappa
