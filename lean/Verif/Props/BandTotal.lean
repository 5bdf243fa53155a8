import Verif.Model.BandTotal
import Verif.Props.BandParts
import Verif.Props.BandMulti
import Mathlib.MeasureTheory.Measure.Lebesgue.Integral

/-! # C127: the distribution functions of a multi-band model and its coefficients -/

open Real MeasureTheory Set Filter Topology

set_option linter.unusedSimpArgs false

namespace TEflow.Bandlib

noncomputable section

/-! ## Specification -/

/-- the Fermi window `-∂f/∂E` -/
def window (EF T E : ℝ) : ℝ := -deriv (fermi EF T) E

/-- the reduced energy `(E - EF)/(kB T)` -/
def reduced (EF T E : ℝ) : ℝ := (E - EF) / (kB * T)

/-- the band with its integrals in place of the quadrature -/
def Placed.exact (b : Placed) : Leaf ℝ where
  sign := b.sign
  n := fun EF T => ∫ E in Ioi 0, b.fns.dos E * fermi EF T E
  k := fun n EF T => ∫ E in Ioi 0, b.fns.trs E T * (reduced EF T E ^ n * window EF T E)
  h := b.fns.hall.map fun h => fun EF T => ∫ E in Ioi 0, h E T * window EF T E

/-- the object holds these bands, not compiled, with exact integrals -/
def Holds (m : Multi ℝ) (w : Heap ℝ) (bs : List Placed) : Prop :=
  m.cache = none ∧ List.Forall₂ (fun x b => w x.1 = b.exact ∧ x.2 = b.delta) (m.ids.zip m.deltas) bs

/-- a band with a carrier sign, whose functions vanish at its edge and whose integrals exist -/
structure Regular (b : Placed) (T : ℝ) : Prop where
  sign : b.sign = 1 ∨ b.sign = -1
  dos0 : b.fns.dos 0 = 0
  trs0 : b.fns.trs 0 T = 0
  hall0 : ∀ h, b.fns.hall = some h → h 0 T = 0
  dosInt : ∀ EF, IntegrableOn (fun E => b.fns.dos E * fermi EF T E) (Ioi 0)
  trsInt : ∀ n EF, IntegrableOn (fun E => b.fns.trs E T * (reduced EF T E ^ n * window EF T E)) (Ioi 0)
  hallInt : ∀ h EF, b.fns.hall = some h → IntegrableOn (fun E => h E T * window EF T E) (Ioi 0)

/-! ## Shifting and reflecting -/

/-- the Fermi level seen by the band -/
def Placed.level (b : Placed) (EF : ℝ) : ℝ := -1 * b.sign * (EF - b.delta)

theorem window_eq (EF T E : ℝ) : window EF T E = exp (reduced EF T E) / (kB * T) / (exp (reduced EF T E) + 1) ^ 2 := by
  unfold window
  rw [(fermi_deriv EF T E).deriv, neg_neg]
  rfl

theorem reduced_shift (b : Placed) (hs : b.sign = 1 ∨ b.sign = -1) (EF T E : ℝ) :
    reduced EF T E = -b.sign * reduced (b.level EF) T (-1 * b.sign * (E - b.delta)) := by
  unfold reduced Placed.level
  rcases hs with h | h <;> rw [h] <;> ring

theorem even_window (x c : ℝ) : exp (-x) / c / (exp (-x) + 1) ^ 2 = exp x / c / (exp x + 1) ^ 2 := by
  have h := exp_pos x
  by_cases hc : c = 0
  · simp [hc]
  · rw [exp_neg]
    field_simp
    ring

theorem window_shift (b : Placed) (hs : b.sign = 1 ∨ b.sign = -1) (EF T E : ℝ) : window EF T E = window (b.level EF) T (-1 * b.sign * (E - b.delta)) := by
  rw [window_eq, window_eq, reduced_shift b hs EF T E]
  rcases hs with h | h
  · rw [h, neg_one_mul, even_window]
  · rw [h, neg_neg, one_mul]

theorem fermi_eq (EF T E : ℝ) : fermi EF T E = 1 / (exp (reduced EF T E) + 1) := rfl

theorem fermi_shift (b : Placed) (EF T E : ℝ) :
    (b.sign = -1 → fermi (b.level EF) T (-1 * b.sign * (E - b.delta)) = fermi EF T E) ∧
    (b.sign = 1 → fermi (b.level EF) T (-1 * b.sign * (E - b.delta)) = 1 - fermi EF T E) := by
  constructor
  · intro h
    rw [fermi_eq, fermi_eq, reduced_shift b (.inr h) EF T E, h, neg_neg, one_mul]
  · intro h
    rw [fermi_eq, fermi_eq, reduced_shift b (.inl h) EF T E, h]
    generalize reduced (b.level EF) T (-1 * 1 * (E - b.delta)) = x
    rw [neg_one_mul, exp_neg]
    have := exp_pos x
    field_simp
    ring

theorem line_integral (b : Placed) (hs : b.sign = 1 ∨ b.sign = -1) (h : ℝ → ℝ) :
    ∫ E, h (-1 * b.sign * (E - b.delta)) = ∫ e, h e := by
  rcases hs with e | e
  · rw [e]
    have := integral_sub_left_eq_self h volume b.delta
    rw [← this]
    congr 1
    funext E
    congr 1
    ring
  · rw [e]
    have := integral_sub_right_eq_self (μ := volume) h b.delta
    rw [← this]
    congr 1
    funext E
    congr 1
    ring

theorem line_integrable (b : Placed) (hs : b.sign = 1 ∨ b.sign = -1) (h : ℝ → ℝ) (hi : Integrable h) :
    Integrable fun E => h (-1 * b.sign * (E - b.delta)) := by
  rcases hs with e | e
  · rw [e]
    refine (hi.comp_sub_left b.delta).congr (Eventually.of_forall fun E => ?_)
    show h _ = h _
    congr 1
    ring
  · rw [e]
    refine (hi.comp_sub_right b.delta).congr (Eventually.of_forall fun E => ?_)
    show h _ = h _
    congr 1
    ring

/-- a band function that vanishes at the edge counts only inside the band -/
theorem edge (u φ : ℝ → ℝ) (h0 : u 0 = 0) : (fun e => u (max e 0) * φ e) = (Ioi 0).indicator fun e => u e * φ e := by
  funext e
  by_cases he : 0 < e
  · rw [indicator_of_mem (show e ∈ Ioi 0 from he), max_eq_left he.le]
  · rw [indicator_of_notMem (show e ∉ Ioi 0 from he), max_eq_right (not_lt.1 he), h0, zero_mul]

/-- the contribution of one band to an integral over all energies -/
theorem contribution (b : Placed) (hs : b.sign = 1 ∨ b.sign = -1) (u φ : ℝ → ℝ) (h0 : u 0 = 0) (hi : IntegrableOn (fun e => u e * φ e) (Ioi 0)) :
    Integrable (fun E => u (b.depth E) * φ (-1 * b.sign * (E - b.delta))) ∧
    ∫ E, u (b.depth E) * φ (-1 * b.sign * (E - b.delta)) = ∫ e in Ioi 0, u e * φ e := by
  have hi' : Integrable (fun e => u (max e 0) * φ e) := by
    rw [edge u φ h0]
    exact hi.integrable_indicator measurableSet_Ioi
  refine ⟨line_integrable b hs _ hi', ?_⟩
  rw [← integral_indicator measurableSet_Ioi, ← edge u φ h0]
  exact line_integral b hs fun e => u (max e 0) * φ e

theorem integral_list {ι : Type} (l : List ι) (f : ι → ℝ → ℝ) (hf : ∀ i ∈ l, Integrable (f i)) :
    Integrable (fun E => (l.map fun i => f i E).sum) ∧ ∫ E, (l.map fun i => f i E).sum = (l.map fun i => ∫ E, f i E).sum := by
  induction l with
  | nil => simp
  | cons a l ih =>
    obtain ⟨h1, h2⟩ := ih fun i hi => hf i (by simp [hi])
    have ha := hf a (by simp)
    simp only [List.map_cons, List.sum_cons]
    refine ⟨ha.add h1, ?_⟩
    rw [integral_add ha h1, h2]

/-! ## Sums over the bands -/

theorem sumPlaced_ok {bs : List Placed} {xs : List (Nat × ℝ)} {w : Heap ℝ} (h : List.Forall₂ (fun x b => w x.1 = b.exact ∧ x.2 = b.delta) xs bs)
    (f : Nat × ℝ → Except PyErr ℝ) (g : Placed → ℝ) (hf : ∀ b ∈ bs, ∀ x : Nat × ℝ, w x.1 = b.exact → x.2 = b.delta → f x = .ok (g b)) (acc : ℝ) :
    sumBands f acc xs = .ok (acc + (bs.map g).sum) := by
  induction h generalizing acc with
  | nil => simp [sumBands]
  | @cons x b xs bs h _ ih =>
    unfold sumBands
    rw [hf b (by simp) x h.1 h.2]
    simp only
    rw [ih (fun b hb => hf b (by simp [hb]))]
    simp [add_assoc]

theorem exact_src (b : Placed) (EF T : ℝ) : b.exact.src (some (EF, T)) =
    ⟨b.sign, .ok (b.exact.n EF T), fun i => .ok (b.exact.k i EF T), .ok (b.exact.ccrh EF T), .ok T⟩ := rfl

theorem holds_K {m : Multi ℝ} {w : Heap ℝ} {bs : List Placed} (h : Holds m w bs) (n : Nat) (EF T : ℝ) :
    m.totK w n EF T = .ok ((bs.map fun b => b.sign ^ n * b.exact.k n (b.level EF) T).sum) := by
  unfold Multi.totK
  rw [sumPlaced_ok h.2 _ (fun b => b.sign ^ n * b.exact.k n (b.level EF) T), zero_add]
  intro b _ x h1 h2
  unfold shiftEF
  rw [h1, h2, exact_src]
  rfl

theorem holds_N {m : Multi ℝ} {w : Heap ℝ} {bs : List Placed} (h : Holds m w bs) (EF T : ℝ) :
    m.totN w EF T = .ok ((bs.map fun b => b.exact.n (b.level EF) T).sum) := by
  unfold Multi.totN
  rw [sumPlaced_ok h.2 _ (fun b => b.exact.n (b.level EF) T), zero_add]
  intro b _ x h1 h2
  unfold shiftEF
  rw [h1, h2, exact_src]
  rfl

/-! ## Theorems -/

/-- **C127** The coefficients of the model are those of its total transport distribution: `_K_n` is `(-1)^n` times the integral over all energies of `trs` with the `n`-th power of the
reduced energy and the Fermi window, whatever bands of either type at whatever offsets. -/
theorem C127_coefficients (m : Multi ℝ) (w : Heap ℝ) (bs : List Placed) (h : Holds m w bs) (EF T : ℝ) (hr : ∀ b ∈ bs, Regular b T) (n : Nat) :
    Integrable (fun E => totTrs bs E T * (reduced EF T E ^ n * window EF T E)) ∧
    m.totK w n EF T = .ok ((-1) ^ n * ∫ E, totTrs bs E T * (reduced EF T E ^ n * window EF T E)) := by
  have hone : ∀ b ∈ bs, Integrable (fun E => b.fns.trs (b.depth E) T * (reduced EF T E ^ n * window EF T E)) ∧
      ∫ E, b.fns.trs (b.depth E) T * (reduced EF T E ^ n * window EF T E) = (-b.sign) ^ n * b.exact.k n (b.level EF) T := by
    intro b hb
    have hreg := hr b hb
    obtain ⟨c1, c2⟩ := contribution b hreg.sign (fun e => b.fns.trs e T) (fun e => reduced (b.level EF) T e ^ n * window (b.level EF) T e) hreg.trs0 (hreg.trsInt n _)
    have e : (fun E => b.fns.trs (b.depth E) T * (reduced EF T E ^ n * window EF T E)) = fun E => (-b.sign) ^ n *
        (b.fns.trs (b.depth E) T * (reduced (b.level EF) T (-1 * b.sign * (E - b.delta)) ^ n * window (b.level EF) T (-1 * b.sign * (E - b.delta)))) := by
      funext E
      rw [← window_shift b hreg.sign EF T E, reduced_shift b hreg.sign EF T E, mul_pow]
      ring
    rw [e, integral_const_mul, c2]
    exact ⟨c1.const_mul _, rfl⟩
  have hsum : ∀ E, totTrs bs E T * (reduced EF T E ^ n * window EF T E) = (bs.map fun b => b.fns.trs (b.depth E) T * (reduced EF T E ^ n * window EF T E)).sum := by
    intro E
    unfold totTrs
    rw [← List.sum_map_mul_right]
  obtain ⟨i1, i2⟩ := integral_list bs (fun b E => b.fns.trs (b.depth E) T * (reduced EF T E ^ n * window EF T E)) (fun b hb => (hone b hb).1)
  simp only [← hsum] at i1 i2
  refine ⟨i1, ?_⟩
  rw [holds_K h, i2, ← List.sum_map_mul_left]
  congr 2
  refine List.map_congr_left fun b hb => ?_
  rw [(hone b hb).2, ← mul_assoc, ← mul_pow]
  congr 2
  ring

/-- **C127** Conductivity, Seebeck coefficient and Lorenz number of the model are the mean values of the total transport distribution: `C` its integral with the window, `S` the mean
reduced energy (with the sign of the electron), `L` its variance. -/
theorem C127_properties (m : Multi ℝ) (w : Heap ℝ) (bs : List Placed) (h : Holds m w bs) (EF T : ℝ) (hr : ∀ b ∈ bs, Regular b T) (mean : Nat → ℝ)
    (hmean : ∀ n, mean n = ∫ E, totTrs bs E T * (reduced EF T E ^ n * window EF T E)) :
    m.prop w .C (some (EF, T)) = .ok (some (mean 0)) ∧ m.prop w .S (some (EF, T)) = .ok (some (-S0 * (mean 1 / mean 0))) ∧
    m.prop w .L (some (EF, T)) = .ok (some (L0 * (mean 2 / mean 0 - (mean 1 / mean 0) ^ 2))) := by
  have hK : ∀ n, m.totK w n EF T = .ok ((-1) ^ n * mean n) := fun n => by rw [hmean]; exact (C127_coefficients m w bs h EF T hr n).2
  have hsrc : m.src w (some (EF, T)) = ⟨1, m.totN w EF T, fun i => m.totK w i EF T, (m.totH w EF T).map some, .ok T⟩ := by
    unfold Multi.src
    rw [h.1]
  unfold Multi.prop
  rw [hsrc]
  refine ⟨?_, ?_, ?_⟩
  · simp [Src.prop, hK, Except.map]
  · simp only [Src.prop, hK, Bind.bind, Except.bind, Pure.pure, Except.pure, Except.ok.injEq, Option.some.injEq]
    ring
  · simp only [Src.prop, hK, Bind.bind, Except.bind, Pure.pure, Except.pure, Except.ok.injEq, Option.some.injEq]
    ring

/-- **C127** The carrier concentration counts the electrons in the conduction bands and the holes in the valence bands, and adds them. -/
theorem C127_concentration (m : Multi ℝ) (w : Heap ℝ) (bs : List Placed) (h : Holds m w bs) (EF T : ℝ) (hr : ∀ b ∈ bs, Regular b T) :
    m.totN w EF T = .ok ((∫ E, totDos (bs.filter fun b => b.sign = -1) E * fermi EF T E) + ∫ E, totDos (bs.filter fun b => b.sign = 1) E * (1 - fermi EF T E)) := by
  have hone : ∀ b ∈ bs, ∀ φ : ℝ → ℝ, (∀ E, φ E = fermi (b.level EF) T (-1 * b.sign * (E - b.delta))) → Integrable (fun E => b.fns.dos (b.depth E) * φ E) ∧
      ∫ E, b.fns.dos (b.depth E) * φ E = b.exact.n (b.level EF) T := by
    intro b hb φ hφ
    have hreg := hr b hb
    obtain ⟨c1, c2⟩ := contribution b hreg.sign b.fns.dos (fun e => fermi (b.level EF) T e) hreg.dos0 (hreg.dosInt _)
    rw [show φ = _ from funext hφ]
    exact ⟨c1, c2⟩
  have side : ∀ (s : ℝ) (φ : ℝ → ℝ), (∀ b ∈ bs, b.sign = s → ∀ E, φ E = fermi (b.level EF) T (-1 * b.sign * (E - b.delta))) →
      ∫ E, totDos (bs.filter fun b => b.sign = s) E * φ E = ((bs.filter fun b => b.sign = s).map fun b => b.exact.n (b.level EF) T).sum := by
    intro s φ hφ
    obtain ⟨i1, i2⟩ := integral_list (bs.filter fun b => b.sign = s) (fun b E => b.fns.dos (b.depth E) * φ E) (fun b hb => by
      rw [List.mem_filter] at hb
      exact (hone b hb.1 φ (hφ b hb.1 (by simpa using hb.2))).1)
    have hsum : ∀ E, totDos (bs.filter fun b => b.sign = s) E * φ E = ((bs.filter fun b => b.sign = s).map fun b => b.fns.dos (b.depth E) * φ E).sum := by
      intro E
      unfold totDos
      rw [← List.sum_map_mul_right]
    simp only [hsum, i2]
    congr 1
    refine List.map_congr_left fun b hb => ?_
    rw [List.mem_filter] at hb
    exact (hone b hb.1 φ (hφ b hb.1 (by simpa using hb.2))).2
  rw [holds_N h, side (-1) (fermi EF T) (fun b _ hs E => ((fermi_shift b EF T E).1 hs).symm),
    side 1 (fun E => 1 - fermi EF T E) (fun b _ hs E => ((fermi_shift b EF T E).2 hs).symm)]
  congr 1
  have hsg : ∀ b ∈ bs, b.sign = 1 ∨ b.sign = -1 := fun b hb => (hr b hb).sign
  clear h hone side hr
  induction bs with
  | nil => simp
  | cons b bs ih =>
    have ih := ih fun b hb => hsg b (by simp [hb])
    rcases hsg b (by simp) with e | e
    · rw [List.filter_cons_of_neg (by rw [e]; norm_num), List.filter_cons_of_pos (by simp [e]), List.map_cons, List.map_cons, List.sum_cons, List.sum_cons, ih]
      ring
    · rw [List.filter_cons_of_pos (by simp [e]), List.filter_cons_of_neg (by rw [e]; norm_num), List.map_cons, List.map_cons, List.sum_cons, List.sum_cons, ih]
      ring

/-- the sum of the Hall functions -/
theorem totHall_ok (E T : ℝ) (bs : List Placed) (H : Placed → ℝ → ℝ → ℝ) (hH : ∀ b ∈ bs, b.fns.hall = some (H b)) (acc : ℝ) :
    totHall E T acc bs = .ok (acc + (bs.map fun b => H b (b.depth E) T).sum) := by
  induction bs generalizing acc with
  | nil => simp [totHall]
  | cons b bs ih =>
    unfold totHall BandFns.hallAt
    rw [hH b (by simp)]
    simp only
    rw [ih (fun b hb => hH b (by simp [hb]))]
    simp [add_assoc]

/-- **C127** The Hall coefficient counts the valence bands with plus and the conduction bands with minus, while `hall` of the model adds all of them with plus. -/
theorem C127_hall (m : Multi ℝ) (w : Heap ℝ) (bs : List Placed) (h : Holds m w bs) (EF T : ℝ) (hr : ∀ b ∈ bs, Regular b T) (hl : ∀ b ∈ bs, b.fns.hall.isSome)
    (side : ℝ → ℝ → ℝ) (hside : ∀ s E, totHall E T 0 (bs.filter fun b => b.sign = s) = .ok (side s E)) :
    (∀ E, totHall E T 0 bs = .ok (side 1 E + side (-1) E)) ∧
    m.totH w EF T = .ok ((∫ E, side 1 E * window EF T E) - ∫ E, side (-1) E * window EF T E) := by
  obtain ⟨H, hH⟩ : ∃ H : Placed → ℝ → ℝ → ℝ, ∀ b ∈ bs, b.fns.hall = some (H b) := by
    refine ⟨fun b => b.fns.hall.getD fun _ _ => 0, fun b hb => ?_⟩
    obtain ⟨v, hv⟩ := Option.isSome_iff_exists.1 (hl b hb)
    simp only [hv, Option.getD_some]
  have hsd : ∀ s E, side s E = ((bs.filter fun b => b.sign = s).map fun b => H b (b.depth E) T).sum := by
    intro s E
    have := totHall_ok E T (bs.filter fun b => b.sign = s) H (fun b hb => hH b (List.mem_of_mem_filter hb)) 0
    rw [hside s E] at this
    rw [Except.ok.inj this, zero_add]
  have split : ∀ g : Placed → ℝ, (bs.map g).sum = ((bs.filter fun b => b.sign = 1).map g).sum + ((bs.filter fun b => b.sign = -1).map g).sum := by
    intro g
    have hsg : ∀ b ∈ bs, b.sign = 1 ∨ b.sign = -1 := fun b hb => (hr b hb).sign
    clear h hr hl hside hH hsd
    induction bs with
    | nil => simp
    | cons b bs ih =>
      have ih := ih fun b hb => hsg b (by simp [hb])
      rcases hsg b (by simp) with e | e
      · rw [List.filter_cons_of_pos (by simp [e]), List.filter_cons_of_neg (by rw [e]; norm_num), List.map_cons, List.map_cons, List.sum_cons, List.sum_cons, ih]
        ring
      · rw [List.filter_cons_of_neg (by rw [e]; norm_num), List.filter_cons_of_pos (by simp [e]), List.map_cons, List.map_cons, List.sum_cons, List.sum_cons, ih]
        ring
  have hint : ∀ s, ∫ E, side s E * window EF T E = ((bs.filter fun b => b.sign = s).map fun b => ∫ E in Ioi 0, H b E T * window (b.level EF) T E).sum := by
    intro s
    have hone : ∀ b ∈ bs.filter fun b => b.sign = s, Integrable (fun E => H b (b.depth E) T * window EF T E) ∧
        ∫ E, H b (b.depth E) T * window EF T E = ∫ E in Ioi 0, H b E T * window (b.level EF) T E := by
      intro b hb
      have hb := List.mem_of_mem_filter hb
      have hreg := hr b hb
      have := contribution b hreg.sign (fun e => H b e T) (fun e => window (b.level EF) T e) (hreg.hall0 _ (hH b hb)) (hreg.hallInt _ _ (hH b hb))
      simp only [← window_shift b hreg.sign EF T] at this
      exact this
    obtain ⟨i1, i2⟩ := integral_list _ (fun b E => H b (b.depth E) T * window EF T E) (fun b hb => (hone b hb).1)
    have hsum : ∀ E, side s E * window EF T E = ((bs.filter fun b => b.sign = s).map fun b => H b (b.depth E) T * window EF T E).sum := by
      intro E
      rw [hsd, ← List.sum_map_mul_right]
    simp only [hsum, i2]
    congr 1
    exact List.map_congr_left fun b hb => (hone b hb).2
  refine ⟨fun E => ?_, ?_⟩
  · rw [totHall_ok E T bs H hH, zero_add, split, hsd, hsd]
  · unfold Multi.totH
    rw [sumPlaced_ok h.2 _ (fun b => b.sign * ∫ E in Ioi 0, H b E T * window (b.level EF) T E), zero_add, split, hint, hint]
    · congr 1
      rw [sub_eq_add_neg, ← neg_one_mul (List.sum _), ← List.sum_map_mul_left]
      congr 2
      · refine List.map_congr_left fun b hb => ?_
        have : b.sign = 1 := by simpa using (List.mem_filter.1 hb).2
        rw [this, one_mul]
      · refine List.map_congr_left fun b hb => ?_
        have : b.sign = -1 := by simpa using (List.mem_filter.1 hb).2
        rw [this]
    · intro b hb x h1 h2
      unfold shiftEF
      rw [h1, h2, exact_src]
      unfold Leaf.ccrh Placed.exact
      simp only [hH b hb, Option.map_some]
      rfl

/-! ## The band models -/

theorem window_nonneg (EF : ℝ) {T : ℝ} (hT : 0 < T) (E : ℝ) : 0 ≤ window EF T E := by
  rw [window_eq]
  have := mul_pos kB_pos hT
  positivity

/-- continuous functions that grow no faster than a power have their integrals -/
theorem window_integrable (g : ℝ → ℝ) (n : Nat) (hg : Continuous g) (hb : g =O[atTop] fun E => E ^ n) (EF T : ℝ) (hT : 0 < T) :
    IntegrableOn (fun E => g E * window EF T E) (Ioi 0) := by
  have hkT : 0 < kB * T := mul_pos kB_pos hT
  have hp : 0 < 1 / (kB * T) := by positivity
  have h1 := (fermi_isBigO EF T hT).2.neg_left
  have h2 : Continuous (fun E => window EF T E) := (fermi_deriv_cont EF T).neg
  exact integrable_of_isBigO_exp_neg (b := 1 / (kB * T) / 2) (by linarith) (hg.mul h2).continuousOn (poly_exp_isBigO _ _ _ hp n hb h1)

theorem reduced_isBigO (EF T : ℝ) (n : Nat) : (fun E => reduced EF T E ^ n) =O[atTop] fun E : ℝ => E ^ n := by
  refine Asymptotics.IsBigO.pow ?_ n
  refine Asymptotics.IsBigO.of_bound (|1 / (kB * T)| * (1 + |EF|)) ?_
  filter_upwards [eventually_ge_atTop 1] with E hE
  unfold reduced
  rw [norm_eq_abs, norm_of_nonneg (by linarith), div_eq_mul_one_div, abs_mul, mul_comm, mul_assoc]
  refine mul_le_mul_of_nonneg_left ?_ (abs_nonneg _)
  have h1 := abs_sub E EF
  rw [abs_of_nonneg (by linarith : (0 : ℝ) ≤ E)] at h1
  nlinarith [abs_nonneg EF]

theorem trs_integrable (g : ℝ → ℝ) (k : Nat) (hg : Continuous g) (hb : g =O[atTop] fun E => E ^ k) (T : ℝ) (hT : 0 < T) (n : Nat) (EF : ℝ) :
    IntegrableOn (fun E => g E * (reduced EF T E ^ n * window EF T E)) (Ioi 0) := by
  have := window_integrable (fun E => g E * reduced EF T E ^ n) (k + n) (hg.mul (by unfold reduced; fun_prop))
    ((hb.mul (reduced_isBigO EF T n)).congr_right fun E => (pow_add E k n).symm) EF T hT
  simpa only [mul_assoc] using this


theorem dos_integrable (g : ℝ → ℝ) (k : Nat) (hg : Continuous g) (hb : g =O[atTop] fun E => E ^ k) (T : ℝ) (hT : 0 < T) (EF : ℝ) :
    IntegrableOn (fun E => g E * fermi EF T E) (Ioi 0) := by
  have hkT : 0 < kB * T := mul_pos kB_pos hT
  have hp : 0 < 1 / (kB * T) := by positivity
  exact integrable_of_isBigO_exp_neg (b := 1 / (kB * T) / 2) (by linarith) (hg.mul (fermi_cont EF T)).continuousOn
    (poly_exp_isBigO _ _ _ hp k hb (fermi_isBigO EF T hT).1)

theorem sqrt_le_self {x : ℝ} (hx : 1 ≤ x) : √x ≤ x := by
  rw [sqrt_le_left (by linarith)]
  nlinarith

/-- **C127** Parabolic bands are regular, whatever their parameters, -/
theorem C127_spb (a : Spb) (s d T : ℝ) (hs : s = 1 ∨ s = -1) (hT : 0 < T) : Regular ⟨a.fns, s, d⟩ T := by
  have hkT : 0 < kB * T := mul_pos kB_pos hT
  refine ⟨hs, by simp [Spb.fns, Spb.dos], by simp [Spb.fns, Spb.trs], ?_, ?_, ?_, ?_⟩
  · intro h hh
    obtain rfl := Option.some.inj hh
    simp [Spb.hall]
  · refine dos_integrable a.dos 1 (by unfold Spb.dos; fun_prop) ?_ T hT
    set k := 1 / 10 ^ 25 * ((2 * a.m_d * me * qe) ^ (3 / 2 : ℝ) / (2 * π * π * hbar ^ 3)) with hk
    refine growth |k| 1 fun E hE => ?_
    have : a.dos E = k * √E := rfl
    rw [this, abs_mul, abs_of_nonneg (sqrt_nonneg E), pow_one]
    exact mul_le_mul_of_nonneg_left (sqrt_le_self hE) (abs_nonneg _)
  · refine trs_integrable (fun E => a.trs E T) 1 (by unfold Spb.trs; fun_prop) ?_ T hT
    refine growth |a.sigma0 / (kB * T)| 1 fun E hE => ?_
    have : a.trs E T = a.sigma0 / (kB * T) * E := by unfold Spb.trs; ring
    rw [this, abs_mul, abs_of_nonneg (by linarith : (0 : ℝ) ≤ E), pow_one]
  · intro h EF hh
    obtain rfl := Option.some.inj hh
    refine window_integrable (fun E => a.hall E T) 1 (by unfold Spb.hall; fun_prop) ?_ EF T hT
    set k := kstar a.Kmass * hallFactor a.m_d a.sigma0 T with hk
    refine growth (|k| * √(1 / (kB * T))) 1 fun E hE => ?_
    have : a.hall E T = k * (√E * √(1 / (kB * T))) := by
      unfold Spb.hall
      rw [← sqrt_mul (by linarith), mul_one_div]
    rw [this, abs_mul, abs_of_nonneg (mul_nonneg (sqrt_nonneg E) (sqrt_nonneg _)), pow_one, mul_assoc]
    refine mul_le_mul_of_nonneg_left ?_ (abs_nonneg _)
    rw [mul_comm]
    exact mul_le_mul_of_nonneg_left (sqrt_le_self hE) (sqrt_nonneg _)

/-- **C127** and so are Kane bands with a positive gap. -/
theorem C127_skb (a : Skb) (hg : 0 < a.Eg) (s d T : ℝ) (hs : s = 1 ∨ s = -1) (hT : 0 < T) : Regular ⟨a.fns, s, d⟩ T := by
  have hkT : 0 < kB * T := mul_pos kB_pos hT
  have hx : ∀ E : ℝ, 1 ≤ E → 0 < E / a.Eg := fun E hE => div_pos (by linarith) hg
  refine ⟨hs, by simp [Skb.fns, Skb.dos], by simp [Skb.fns, Skb.trs], ?_, ?_, ?_, ?_⟩
  · intro h hh
    obtain rfl := Option.some.inj hh
    simp [Skb.hall]
  · refine dos_integrable a.dos 3 (by unfold Skb.dos; fun_prop) ?_ T hT
    set k := 1 / 10 ^ 25 * ((2 * a.m_d * me * qe) ^ (3 / 2 : ℝ) / (2 * π * π * hbar ^ 3)) with hk
    refine growth (|k| * ((1 + 1 / a.Eg) * (1 + 2 / a.Eg))) 3 fun E hE => ?_
    have hE' := hx E hE
    have : a.dos E = k * (√E * (√(1 + E / a.Eg) * (1 + 2 * E / a.Eg))) := by
      unfold Skb.dos
      rw [← hk]
      ring
    have hp : 0 ≤ 1 + 2 * E / a.Eg := by
      rw [mul_div_assoc]
      linarith
    rw [this, abs_mul, abs_of_nonneg (mul_nonneg (sqrt_nonneg _) (mul_nonneg (sqrt_nonneg _) hp)), mul_assoc]
    refine mul_le_mul_of_nonneg_left ?_ (abs_nonneg _)
    have h1 := sqrt_le_self hE
    have h2 : √(1 + E / a.Eg) ≤ (1 + 1 / a.Eg) * E := by
      refine (sqrt_le_self (by linarith)).trans ?_
      have : (1 + 1 / a.Eg) * E = E + E / a.Eg := by ring
      linarith
    have h3 : 1 + 2 * E / a.Eg ≤ (1 + 2 / a.Eg) * E := by
      have : (1 + 2 / a.Eg) * E = E + 2 * E / a.Eg := by ring
      linarith
    calc √E * (√(1 + E / a.Eg) * (1 + 2 * E / a.Eg)) ≤ E * (((1 + 1 / a.Eg) * E) * ((1 + 2 / a.Eg) * E)) := by
          refine mul_le_mul h1 (mul_le_mul h2 h3 hp (by positivity)) (mul_nonneg (sqrt_nonneg _) hp) (by linarith)
      _ = (1 + 1 / a.Eg) * (1 + 2 / a.Eg) * E ^ 3 := by ring
  · refine trs_integrable (fun E => a.trs E T) 1 ?_ ?_ T hT
    · unfold Skb.trs
      refine Continuous.mul (by fun_prop) (Continuous.div (by fun_prop) (by fun_prop) fun E => ?_)
      positivity
    · refine growth (|a.sigma0 / (kB * T)| * 3) 1 fun E hE => ?_
      have hE' := hx E hE
      have : a.trs E T = a.sigma0 / (kB * T) * (E * (3 * (1 + E / a.Eg) / ((1 + 2 * E / a.Eg) ^ 2 + 2))) := by unfold Skb.trs; ring
      have hp : 0 ≤ 3 * (1 + E / a.Eg) / ((1 + 2 * E / a.Eg) ^ 2 + 2) := by positivity
      rw [this, abs_mul, abs_of_nonneg (mul_nonneg (by linarith) hp), pow_one, mul_assoc]
      refine mul_le_mul_of_nonneg_left ?_ (abs_nonneg _)
      rw [mul_comm]
      refine mul_le_mul_of_nonneg_right ?_ (by linarith)
      rw [div_le_iff₀ (by positivity), mul_div_assoc]
      nlinarith
  · intro h EF hh
    obtain rfl := Option.some.inj hh
    refine window_integrable (fun E => a.hall E T) 1 ?_ ?_ EF T hT
    · unfold Skb.hall
      refine Continuous.mul (by fun_prop) (Continuous.div (by fun_prop) (by fun_prop) fun E => ?_)
      positivity
    · set k := kstar a.Kmass * hallFactor a.m_d a.sigma0 T with hk
      refine growth (|k| * (√(1 / (kB * T)) * 9)) 1 fun E hE => ?_
      have hE' := hx E hE
      have : a.hall E T = k * (√E * √(1 / (kB * T)) * (9 * √(1 + E / a.Eg) / ((1 + 2 * E / a.Eg) ^ 2 + 2) ^ 2)) := by
        unfold Skb.hall
        rw [← sqrt_mul (by linarith), mul_one_div, mul_assoc]
      have hq : 9 * √(1 + E / a.Eg) / ((1 + 2 * E / a.Eg) ^ 2 + 2) ^ 2 ≤ 9 := by
        rw [div_le_iff₀ (by positivity), mul_div_assoc]
        have h1 := sqrt_le_self (x := 1 + E / a.Eg) (by linarith)
        nlinarith [sq_nonneg ((1 + 2 * (E / a.Eg)) ^ 2), mul_pos hE' hE']
      have hpos : 0 ≤ √E * √(1 / (kB * T)) * (9 * √(1 + E / a.Eg) / ((1 + 2 * E / a.Eg) ^ 2 + 2) ^ 2) := by positivity
      rw [this, abs_mul, abs_of_nonneg hpos, pow_one, mul_assoc |k|]
      refine mul_le_mul_of_nonneg_left ?_ (abs_nonneg _)
      calc √E * √(1 / (kB * T)) * (9 * √(1 + E / a.Eg) / ((1 + 2 * E / a.Eg) ^ 2 + 2) ^ 2) ≤ E * √(1 / (kB * T)) * 9 := by
            refine mul_le_mul (mul_le_mul_of_nonneg_right (sqrt_le_self hE) (sqrt_nonneg _)) hq (by positivity) (by positivity)
        _ = √(1 / (kB * T)) * 9 * E := by ring

/-- **C127** `hall` of the model fails exactly if one of the bands has no Hall function. -/
theorem C127_hall_error (bs : List Placed) (E T : ℝ) : ∀ acc, totHall E T acc bs = .error .notImplementedError ↔ ∃ b ∈ bs, b.fns.hall = none := by
  induction bs with
  | nil => intro acc; simp [totHall]
  | cons b bs ih =>
    intro acc
    cases hb : b.fns.hall with
    | none => simp [totHall, BandFns.hallAt, hb]
    | some h => simp [totHall, BandFns.hallAt, hb, ih]

/-! ## Outside the bands -/

/-- **C127** Where an energy is outside of all bands, the density of states and the transport distribution of regular bands are zero; otherwise only the bands it is in count. -/
theorem C127_outside (bs : List Placed) (T E : ℝ) (hr : ∀ b ∈ bs, Regular b T) (inside : Placed → Prop) [DecidablePred inside]
    (hin : ∀ b ∈ bs, inside b ↔ (b.sign = 1 ∧ E < b.delta ∨ b.sign = -1 ∧ b.delta < E)) :
    totDos bs E = ((bs.filter fun b => inside b).map fun b => b.fns.dos |E - b.delta|).sum ∧
    totTrs bs E T = ((bs.filter fun b => inside b).map fun b => b.fns.trs |E - b.delta| T).sum := by
  have hdepth : ∀ b ∈ bs, (inside b → b.depth E = |E - b.delta|) ∧ (¬ inside b → b.depth E = 0) := by
    intro b hb
    rw [hin b hb]
    unfold Placed.depth
    rcases (hr b hb).sign with e | e
    · rw [e]
      refine ⟨?_, ?_⟩
      · rintro (h | h)
        · rw [abs_of_neg (by linarith), max_eq_left (by linarith)]
          ring
        · linarith [h.1]
      · intro h
        have : b.delta ≤ E := by
          by_contra hc
          exact h (.inl ⟨rfl, not_le.1 hc⟩)
        exact max_eq_right (by linarith)
    · rw [e]
      refine ⟨?_, ?_⟩
      · rintro (h | h)
        · linarith [h.1]
        · rw [abs_of_pos (by linarith), max_eq_left (by linarith)]
          ring
      · intro h
        have : E ≤ b.delta := by
          by_contra hc
          exact h (.inr ⟨rfl, not_le.1 hc⟩)
        exact max_eq_right (by linarith)
  have key : ∀ u : Placed → ℝ → ℝ, (∀ b ∈ bs, u b 0 = 0) → (bs.map fun b => u b (b.depth E)).sum = ((bs.filter fun b => inside b).map fun b => u b |E - b.delta|).sum := by
    intro u hu
    clear hr hin
    induction bs with
    | nil => simp
    | cons b bs ih =>
      have ih := ih (fun b hb => hdepth b (by simp [hb])) (fun b hb => hu b (by simp [hb]))
      obtain ⟨d1, d2⟩ := hdepth b (by simp)
      by_cases h : inside b
      · rw [List.filter_cons_of_pos (by simpa using h), List.map_cons, List.map_cons, List.sum_cons, List.sum_cons, ih, d1 h]
      · rw [List.filter_cons_of_neg (by simpa using h), List.map_cons, List.sum_cons, ih, d2 h, hu b (by simp), zero_add]
  exact ⟨key (fun b => b.fns.dos) fun b hb => (hr b hb).dos0, key (fun b e => b.fns.trs e T) fun b hb => (hr b hb).trs0⟩

theorem fermi_limits (EF : ℝ) {T : ℝ} (hT : 0 < T) : Tendsto (fermi EF T) atTop (𝓝 0) ∧ Tendsto (fermi EF T) atBot (𝓝 1) := by
  have hkT : 0 < kB * T := mul_pos kB_pos hT
  have e : ∀ E, (E - EF) / (kB * T) = 1 / (kB * T) * E + -(EF / (kB * T)) := by intro E; ring
  have hp : 0 < 1 / (kB * T) := by positivity
  constructor
  · have h1 : Tendsto (fun E : ℝ => (E - EF) / (kB * T)) atTop atTop := by
      simp only [e]
      exact tendsto_atTop_add_const_right _ _ (tendsto_id.const_mul_atTop hp)
    have h2 := tendsto_atTop_add_const_right _ (1 : ℝ) (tendsto_exp_atTop.comp h1)
    have h3 := h2.inv_tendsto_atTop
    refine h3.congr fun E => ?_
    simp [fermi]
  · have h1 : Tendsto (fun E : ℝ => (E - EF) / (kB * T)) atBot atBot := by
      simp only [e]
      exact tendsto_atBot_add_const_right _ _ (tendsto_id.const_mul_atBot hp)
    have h2 := ((tendsto_exp_atBot.comp h1).add_const (1 : ℝ)).inv₀ (by norm_num)
    rw [zero_add, inv_one] at h2
    refine h2.congr fun E => ?_
    simp [fermi]

theorem fermi_hasDeriv (EF T E : ℝ) : HasDerivAt (fermi EF T) (-window EF T E) E := by
  have := fermi_deriv EF T E
  unfold window
  rw [neg_neg, this.deriv]
  exact this

theorem window_Ioi (EF a : ℝ) {T : ℝ} (hT : 0 < T) : IntegrableOn (window EF T) (Ioi a) ∧ ∫ E in Ioi a, window EF T E = fermi EF T a := by
  have h1 := integrableOn_Ioi_deriv_of_nonpos' (a := a) (g := fermi EF T) (g' := fun E => -window EF T E) (l := 0) (fun E _ => fermi_hasDeriv EF T E)
    (fun E _ => neg_nonpos.2 (window_nonneg EF hT E)) (fermi_limits EF hT).1
  have h2 := integral_Ioi_of_hasDerivAt_of_nonpos' (a := a) (g := fermi EF T) (g' := fun E => -window EF T E) (l := 0) (fun E _ => fermi_hasDeriv EF T E)
    (fun E _ => neg_nonpos.2 (window_nonneg EF hT E)) (fermi_limits EF hT).1
  rw [integral_neg] at h2
  refine ⟨?_, by linarith⟩
  have := h1.neg
  refine this.congr (Eventually.of_forall fun E => ?_)
  simp

theorem window_line (EF : ℝ) {T : ℝ} (hT : 0 < T) : ∫ E, window EF T E = 1 := by
  -- the window is symmetric about the Fermi level
  have hsym : ∀ E, window EF T (EF - E) = window EF T (EF + E) := by
    intro E
    rw [window_eq, window_eq, show reduced EF T (EF - E) = -reduced EF T (EF + E) by unfold reduced; ring, even_window]
  have h1 : IntegrableOn (fun E => window EF T (EF + E)) (Ioi 0) := by
    have := (window_Ioi EF EF hT).1
    have h := (measurePreserving_add_left volume EF).integrableOn_comp_preimage (measurableEmbedding_addLeft EF) (f := window EF T) (s := Ioi EF)
    rw [show (fun x => EF + x) ⁻¹' Ioi EF = Ioi 0 by ext x; simp] at h
    exact h.2 this
  have hshift : ∫ E, window EF T E = ∫ E, window EF T (EF + E) := (integral_add_left_eq_self (μ := volume) (window EF T) EF).symm
  have heven : (fun E => window EF T (EF + E)) = fun E => window EF T (EF + |E|) := by
    funext E
    rcases abs_choice E with h | h
    · rw [h]
    · rw [h, ← sub_eq_add_neg, hsym]
  rw [hshift, heven, integral_comp_abs (f := fun E => window EF T (EF + E))]
  have h2 : ∫ E in Ioi 0, window EF T (EF + E) = ∫ E in Ioi EF, window EF T E := by
    have h := (measurePreserving_add_left volume EF).setIntegral_preimage_emb (measurableEmbedding_addLeft EF) (window EF T) (Ioi EF)
    rw [show (fun x => EF + x) ⁻¹' Ioi EF = Ioi 0 by ext x; simp] at h
    exact h
  rw [h2, (window_Ioi EF EF hT).2]
  unfold fermi
  simp
  norm_num

/-- **C127 (finding).** A linear band counts with its full `sigma0` at every energy in `trs` of the model, also in the gap and on the far side: the conductivity of that transport
distribution is `sigma0`, while the model's is `sigma0` times the filling of the band edge. -/
theorem C127_linear (a : Lin) (s d EF T : ℝ) (hT : 0 < T) (m : Multi ℝ) (w : Heap ℝ) (h : Holds m w [⟨a.fns, s, d⟩]) :
    (∀ E, totTrs [⟨a.fns, s, d⟩] E T = a.sigma0) ∧ ∫ E, totTrs [⟨a.fns, s, d⟩] E T * window EF T E = a.sigma0 ∧
    m.prop w .C (some (EF, T)) = .ok (some (a.sigma0 * fermi (-1 * s * (EF - d)) T 0)) := by
  have h1 : ∀ E, totTrs [⟨a.fns, s, d⟩] E T = a.sigma0 := by
    intro E
    simp [totTrs, Lin.fns, Lin.trs]
  refine ⟨h1, ?_, ?_⟩
  · simp only [h1]
    rw [integral_const_mul, window_line EF hT, mul_one]
  · have hsrc : m.src w (some (EF, T)) = ⟨1, m.totN w EF T, fun i => m.totK w i EF T, (m.totH w EF T).map some, .ok T⟩ := by
      unfold Multi.src
      rw [h.1]
    unfold Multi.prop
    rw [hsrc]
    simp only [Src.prop, holds_K h]
    simp only [List.map_cons, List.map_nil, List.sum_cons, List.sum_nil, add_zero, pow_zero, one_mul, Except.map, Placed.exact, Placed.level, Lin.fns, Lin.trs]
    rw [integral_const_mul, (window_Ioi _ 0 hT).2]

/-- an intrinsic semiconductor: parabolic conduction and Kane valence band -/
example : ∃ (m : Multi ℝ) (w : Heap ℝ) (bs : List Placed), Holds m w bs ∧ bs.length = 2 ∧ ∀ b ∈ bs, Regular b 300 := by
  refine ⟨⟨[0, 1], [1 / 2, 0], none⟩, fun i => if i = 0 then (⟨(Spb.fns {}), -1, 1 / 2⟩ : Placed).exact else (⟨(Skb.fns {}), 1, 0⟩ : Placed).exact,
    [⟨(Spb.fns {}), -1, 1 / 2⟩, ⟨(Skb.fns {}), 1, 0⟩], ⟨rfl, ?_⟩, rfl, ?_⟩
  · exact .cons ⟨rfl, rfl⟩ (.cons ⟨rfl, rfl⟩ .nil)
  · simp only [List.mem_cons, List.not_mem_nil, or_false, forall_eq_or_imp, forall_eq]
    exact ⟨C127_spb _ _ _ _ (.inr rfl) (by norm_num), C127_skb _ (by norm_num) _ _ _ (.inl rfl) (by norm_num)⟩


end

end TEflow.Bandlib
