import Mathlib.Tactic
import Verif.Props.KappaDebye

/-! # C86: cumulative conductivity -/

open Real
open TEflow.PyDict

namespace TEflow.Kappa

/-- specification: the part of the weight `w` of modes with mean free paths spread evenly over `[lo, hi]` that belongs to mean
free paths up to `mfp` -/
noncomputable def share (mfp lo hi w : ℝ) : ℝ := w * max 0 (min 1 ((mfp - lo) / (hi - lo)))

theorem binCum_share (mfp ave wd w : ℝ) (hwd : 0 < wd) :
    binCum mfp ave wd w = share (mfp - wd) (ave - wd / 2) (ave + wd / 2) w := by
  unfold binCum share
  have e : (mfp - wd - (ave - wd / 2)) / (ave + wd / 2 - (ave - wd / 2)) = (mfp - ave - wd / 2) / wd := by
    congr 1 <;> ring
  rw [e, div_mul_eq_mul_div, mul_div_assoc]
  congr 1
  set y := mfp - ave - wd / 2
  rcases le_total y 0 with h | h
  · have : y / wd ≤ 0 := div_nonpos_of_nonpos_of_nonneg h hwd.le
    rw [max_eq_right h, min_eq_left hwd.le, min_eq_right (by linarith), max_eq_left this, zero_div]
  · have h0 : 0 ≤ y / wd := by positivity
    rw [max_eq_left h]
    rcases le_total y wd with h1 | h1
    · rw [min_eq_left h1, min_eq_right ((div_le_one hwd).mpr h1), max_eq_right h0]
    · rw [min_eq_right h1, min_eq_left ((one_le_div hwd).mpr h1), max_eq_right zero_le_one, div_self hwd.ne']

theorem share_range (mfp lo hi w : ℝ) (hw : 0 ≤ w) : 0 ≤ share mfp lo hi w ∧ share mfp lo hi w ≤ w := by
  unfold share
  refine ⟨mul_nonneg hw (le_max_left _ _), ?_⟩
  have : max 0 (min 1 ((mfp - lo) / (hi - lo))) ≤ 1 := max_le zero_le_one (min_le_left _ _)
  nlinarith

theorem share_mono {mfp mfp' lo hi w : ℝ} (hw : 0 ≤ w) (hlt : lo < hi) (h : mfp ≤ mfp') : share mfp lo hi w ≤ share mfp' lo hi w := by
  unfold share
  apply mul_le_mul_of_nonneg_left _ hw
  apply max_le_max_left
  apply min_le_min_left
  exact div_le_div_of_nonneg_right (by linarith) (by linarith)

theorem share_one {mfp lo hi w : ℝ} (hlt : lo < hi) (h : hi ≤ mfp) : share mfp lo hi w = w := by
  unfold share
  have : 1 ≤ (mfp - lo) / (hi - lo) := by rw [one_le_div (by linarith)]; linarith
  rw [min_eq_left this, max_eq_right zero_le_one, mul_one]

theorem share_zero {mfp lo hi w : ℝ} (hlt : lo < hi) (h : mfp ≤ lo) : share mfp lo hi w = 0 := by
  unfold share
  have : (mfp - lo) / (hi - lo) ≤ 0 := div_nonpos_of_nonpos_of_nonneg (by linarith) (by linarith)
  rw [min_eq_right (by linarith), max_eq_left this, mul_zero]

theorem mfpWd_pos (d : Debye) (r : Rate) (T dw : ℝ) (j : Nat) : 0 < d.mfpWd r T dw j :=
  lt_of_lt_of_le (by have := eps_pos; positivity) (le_max_right _ _)

/-- the total weight of all bins -/
noncomputable def Debye.totalWeight (d : Debye) (r : Rate) (T dw : ℝ) (nbatch : Nat) : ℝ :=
  ((List.range nbatch).map fun j => d.weight r T dw j).sum

/-- the mean free path at the edges of bin `j`: the smaller and the larger one, at least `10·eps` apart -/
noncomputable def Debye.lowEdge (d : Debye) (r : Rate) (T dw : ℝ) (j : Nat) : ℝ := d.mfpAve r T dw j - d.mfpWd r T dw j / 2
noncomputable def Debye.highEdge (d : Debye) (r : Rate) (T dw : ℝ) (j : Nat) : ℝ := d.mfpAve r T dw j + d.mfpWd r T dw j / 2

/-- **C86** The frequency interval of bin `j` goes from `j·dw` (`1e-6` for the first bin) to `(j+1)·dw`; its weight is taken in the middle of the
interval; its mean free paths run between those at the two ends, unless these are closer than `1e-5`. -/
theorem C86_bins (d : Debye) (r : Rate) (T dw : ℝ) (j : Nat) (hdw : 1 / 10 ^ 5 ≤ dw) :
    let left := if j = 0 then 1 / 10 ^ 6 else (j : ℝ) * dw
    let right := ((j : ℝ) + 1) * dw
    let mid := ((j : ℝ) + 1 / 2) * dw
    d.weight r T dw j = dw * (d.factor mid T / r mid T) ∧
    (1 / 10 ^ 5 ≤ |d.vs / r left T - d.vs / r right T| →
      d.lowEdge r T dw j = min (d.vs / r left T) (d.vs / r right T) ∧ d.highEdge r T dw j = max (d.vs / r left T) (d.vs / r right T)) ∧
    (|d.vs / r left T - d.vs / r right T| ≤ 1 / 10 ^ 5 → d.highEdge r T dw j - d.lowEdge r T dw j = 1 / 10 ^ 5 ∧
      (d.lowEdge r T dw j + d.highEdge r T dw j) / 2 = (d.vs / r left T + d.vs / r right T) / 2) := by
  intro left right mid
  have e1 : binLeft dw j = left := rfl
  have e2 : binRight dw j = right := by simp only [binRight, right]; ring
  have e3 : binCentre dw j = mid := by simp only [binCentre, mid]; ring
  have e4 : 10 * eps = 1 / 10 ^ 5 := by unfold eps; norm_num
  have e5 : max eps mid = mid := by
    apply max_eq_right
    have : (0 : ℝ) ≤ j := Nat.cast_nonneg j
    have h1 : (0 : ℝ) ≤ dw := le_trans (by norm_num) hdw
    have h2 : 0 ≤ (j : ℝ) * dw := mul_nonneg this h1
    simp only [mid, eps]
    norm_num at hdw ⊢
    linarith
  unfold Debye.weight Debye.lowEdge Debye.highEdge Debye.mfpWd Debye.mfpAve
  rw [e1, e2, e3, e4, e5]
  refine ⟨rfl, fun h => ?_, fun h => ?_⟩
  · rw [max_eq_left h]
    set a := d.vs / r left T
    set b := d.vs / r right T
    rcases le_total a b with hab | hab
    · rw [abs_of_nonpos (by linarith), min_eq_left hab, max_eq_right hab]
      constructor <;> ring
    · rw [abs_of_nonneg (by linarith), min_eq_right hab, max_eq_left hab]
      constructor <;> ring
  · rw [max_eq_right h]
    constructor <;> ring

theorem cumRate_share (d : Debye) (r : Rate) (mfp T dw : ℝ) (n : Nat) :
    d.cumRate r mfp T dw n = ((List.range n).map fun j =>
      share (mfp - d.mfpWd r T dw j) (d.lowEdge r T dw j) (d.highEdge r T dw j) (d.weight r T dw j)).sum := by
  unfold Debye.cumRate Debye.lowEdge Debye.highEdge
  congr 1
  apply List.map_congr_left
  intro j _
  exact binCum_share _ _ _ _ (mfpWd_pos d r T dw j)

theorem edge_lt (d : Debye) (r : Rate) (T dw : ℝ) (j : Nat) : d.lowEdge r T dw j < d.highEdge r T dw j := by
  have := mfpWd_pos d r T dw j
  unfold Debye.lowEdge Debye.highEdge
  linarith

theorem edge_diff (d : Debye) (r : Rate) (T dw : ℝ) (j : Nat) : d.highEdge r T dw j - d.lowEdge r T dw j = d.mfpWd r T dw j := by
  unfold Debye.lowEdge Debye.highEdge
  ring

theorem sum_le_sum_map {l : List Nat} {f g : Nat → ℝ} (h : ∀ j ∈ l, f j ≤ g j) : (l.map f).sum ≤ (l.map g).sum := by
  induction l with
  | nil => simp
  | cons a l ih =>
    simp only [List.map_cons, List.sum_cons]
    have := h a (by simp)
    have := ih fun j hj => h j (by simp [hj])
    linarith

theorem rateFn_eval (l : List Rate) (w T : ℝ) : l.sum w T = (l.map fun r => r w T).sum := by
  induction l with
  | nil => rfl
  | cons a l ih => simp [List.sum_cons, ih]

/-- **C86** The cumulative curves carry the labels of the accumulated spectral curves, each for the summed rates of its
mechanisms; several temperatures at once or too many bins are rejected. -/
theorem C86_entries (d : Debye) (mfp T : ℝ) (n : Nat) :
    (10 * eps ≤ d.wd / n → d.cumulativeMfp mfp [T] true n = .ok ((List.range d.scat.length).map fun i =>
      (joinPlus ((keys d.scat).take (i + 1)), d.cumRate (rateUpTo d (i + 1)) mfp T (d.wd / n) n))) ∧
    (d.wd / n < 10 * eps → d.cumulativeMfp mfp [T] true n = .error .valueError) ∧
    ∀ Ts, Ts.length ≠ 1 → d.cumulativeMfp mfp Ts true n = .error .valueError := by
  refine ⟨fun h => ?_, fun h => ?_, fun Ts hT => ?_⟩
  · unfold Debye.cumulativeMfp
    simp only [if_neg (not_lt.mpr h), if_true]
    congr 1
    rw [accum_eq, List.map_map]
    have e : ((List.range d.scat.length).map ((fun p : Tag × Rate => (p.1, d.cumRate p.2 mfp T (d.wd / n) n)) ∘ prefixEntry d.scat)) =
        (List.range d.scat.length).map fun i =>
          (joinPlus ((keys d.scat).take (i + 1)), d.cumRate (rateUpTo d (i + 1)) mfp T (d.wd / n) n) := by
      apply List.map_congr_left
      intro i _
      have : ((d.scat.map Prod.snd).take (i + 1)).sum = rateUpTo d (i + 1) := by
        funext w T
        rw [rateFn_eval]
        unfold rateUpTo
        rw [← List.map_take, ← List.map_take, List.map_map]
        rfl
      simp only [Function.comp, prefixEntry, this]
      rfl
    rw [e]
    apply ofPairs_of_WF
    rw [WF, keys, List.map_map]
    have := prefix_nodup (keys d.scat)
    have hl : (keys d.scat).length = d.scat.length := by simp [keys]
    rw [hl] at this
    exact this
  · unfold Debye.cumulativeMfp
    simp only [if_pos h]
  · unfold Debye.cumulativeMfp
    split
    · simp at hT
    · rfl

/-- the weights are non-negative for positive rates -/
theorem weight_nonneg (d : Debye) (r : Rate) (T dw : ℝ) (hv : 0 < d.vs) (hT : 0 < T) (hdw : 0 ≤ dw)
    (hr : ∀ w, 0 < w → 0 < r w T) (j : Nat) : 0 ≤ d.weight r T dw j := by
  have hw : 0 < max eps (binCentre dw j) := lt_of_lt_of_le eps_pos (le_max_left _ _)
  exact mul_nonneg hdw (div_nonneg (factor_nonneg d hv _ T hw hT) (hr _ hw).le)

/-- **C86** The cumulative curve is non-negative, does not fall with the mean free path, never exceeds the total weight, equals
it one bin width above the largest mean free path of every bin, and vanishes below the upper edges of all bins. -/
theorem C86_cumulative (d : Debye) (r : Rate) (T dw : ℝ) (n : Nat) (hv : 0 < d.vs) (hT : 0 < T) (hdw : 0 ≤ dw)
    (hr : ∀ w, 0 < w → 0 < r w T) :
    (∀ mfp, 0 ≤ d.cumRate r mfp T dw n ∧ d.cumRate r mfp T dw n ≤ d.totalWeight r T dw n) ∧
    (∀ mfp mfp', mfp ≤ mfp' → d.cumRate r mfp T dw n ≤ d.cumRate r mfp' T dw n) ∧
    (∀ mfp, (∀ j < n, d.highEdge r T dw j + d.mfpWd r T dw j ≤ mfp) → d.cumRate r mfp T dw n = d.totalWeight r T dw n) ∧
    (∀ mfp, (∀ j < n, mfp ≤ d.highEdge r T dw j) → d.cumRate r mfp T dw n = 0) := by
  have hw := weight_nonneg d r T dw hv hT hdw hr
  have hlt := edge_lt d r T dw
  simp only [cumRate_share]
  refine ⟨fun mfp => ⟨?_, ?_⟩, fun mfp mfp' h => ?_, fun mfp h => ?_, fun mfp h => ?_⟩
  · apply List.sum_nonneg
    intro v hv'
    obtain ⟨j, _, rfl⟩ := List.mem_map.mp hv'
    exact (share_range _ _ _ _ (hw j)).1
  · exact sum_le_sum_map fun j _ => (share_range _ _ _ _ (hw j)).2
  · exact sum_le_sum_map fun j _ => share_mono (hw j) (hlt j) (by linarith)
  · unfold Debye.totalWeight
    congr 1
    apply List.map_congr_left
    intro j hj
    exact share_one (hlt j) (by linarith [h j (List.mem_range.mp hj)])
  · apply List.sum_eq_zero
    intro v hv'
    obtain ⟨j, hj, rfl⟩ := List.mem_map.mp hv'
    apply share_zero (hlt j)
    have := h j (List.mem_range.mp hj)
    have := edge_diff d r T dw j
    linarith

/-- **C86** (finding) Every bin is shifted up by its own width: what the code counts at a mean free path is what belongs to the
mean free path one bin width below, so the curve is at most the documented one, and at the largest mean free path, where the
documented curve has reached the total, the bin with the largest mean free paths is not counted at all. -/
theorem C86_shift (d : Debye) (r : Rate) (T dw : ℝ) (n : Nat) (hv : 0 < d.vs) (hT : 0 < T) (hdw : 0 ≤ dw)
    (hr : ∀ w, 0 < w → 0 < r w T) :
    (∀ mfp, d.cumRate r mfp T dw n = ((List.range n).map fun j =>
      share (mfp - d.mfpWd r T dw j) (d.lowEdge r T dw j) (d.highEdge r T dw j) (d.weight r T dw j)).sum) ∧
    (∀ mfp, d.cumRate r mfp T dw n ≤ ((List.range n).map fun j =>
      share mfp (d.lowEdge r T dw j) (d.highEdge r T dw j) (d.weight r T dw j)).sum) ∧
    ∀ k < n, (∀ j < n, d.highEdge r T dw j ≤ d.highEdge r T dw k) →
      ((List.range n).map fun j => share (d.highEdge r T dw k) (d.lowEdge r T dw j) (d.highEdge r T dw j) (d.weight r T dw j)).sum =
        d.totalWeight r T dw n ∧
      d.cumRate r (d.highEdge r T dw k) T dw n ≤ d.totalWeight r T dw n - d.weight r T dw k := by
  have hw := weight_nonneg d r T dw hv hT hdw hr
  have hlt := edge_lt d r T dw
  have hwd := mfpWd_pos d r T dw
  refine ⟨fun mfp => cumRate_share d r mfp T dw n, fun mfp => ?_, fun k hk hmax => ⟨?_, ?_⟩⟩
  · rw [cumRate_share]
    exact sum_le_sum_map fun j _ => share_mono (hw j) (hlt j) (by linarith [hwd j])
  · unfold Debye.totalWeight
    congr 1
    apply List.map_congr_left
    intro j hj
    exact share_one (hlt j) (hmax j (List.mem_range.mp hj))
  · rw [cumRate_share]
    have key : ∀ m, k < m → ((List.range m).map fun j =>
        share (d.highEdge r T dw k - d.mfpWd r T dw j) (d.lowEdge r T dw j) (d.highEdge r T dw j) (d.weight r T dw j)).sum ≤
        ((List.range m).map fun j => d.weight r T dw j).sum - d.weight r T dw k := by
      intro m hkm
      induction m, hkm using Nat.le_induction with
      | base =>
        rw [List.range_succ, List.map_append, List.map_append, List.sum_append, List.sum_append]
        simp only [List.map_cons, List.map_nil, List.sum_cons, List.sum_nil, add_zero]
        rw [share_zero (hlt k) (by linarith [edge_diff d r T dw k])]
        have := sum_le_sum_map (l := List.range k) (g := fun j => d.weight r T dw j)
          (f := fun j => share (d.highEdge r T dw k - d.mfpWd r T dw j) (d.lowEdge r T dw j) (d.highEdge r T dw j) (d.weight r T dw j))
          fun j _ => (share_range _ _ _ _ (hw j)).2
        linarith
      | succ m hm ih =>
        rw [List.range_succ, List.map_append, List.map_append, List.sum_append, List.sum_append]
        simp only [List.map_cons, List.map_nil, List.sum_cons, List.sum_nil, add_zero]
        have := (share_range (d.highEdge r T dw k - d.mfpWd r T dw m) (d.lowEdge r T dw m) (d.highEdge r T dw m) _ (hw m)).2
        linarith
    exact key n hk

/-- **C86** The total weight is the midpoint rule for the spectral curve on `[0, ωD]` (bins at least `10·eps` wide). -/
theorem C86_midpoint (d : Debye) (r : Rate) (T : ℝ) (n : Nat) (hn : 10 * eps ≤ d.wd / n) :
    d.totalWeight r T (d.wd / n) n = d.wd / n * ((List.range n).map fun (j : ℕ) =>
      spectralFactor d.vs (((j : ℝ) + 1 / 2) * (d.wd / n)) T / r (((j : ℝ) + 1 / 2) * (d.wd / n)) T).sum := by
  have he := eps_pos
  have hdw : 0 < d.wd / n := by linarith
  have hn0 : (0 : ℝ) < n := by
    rcases Nat.eq_zero_or_pos n with h | h
    · rw [h] at hdw
      simp at hdw
    · exact_mod_cast h
  unfold Debye.totalWeight
  rw [← List.sum_map_mul_left]
  congr 1
  apply List.map_congr_left
  intro j hj
  have hj' : (j : ℝ) + 1 ≤ n := by exact_mod_cast List.mem_range.mp hj
  have ec : binCentre (d.wd / n) j = ((j : ℝ) + 1 / 2) * (d.wd / n) := by
    unfold binCentre
    ring
  have hlo : eps ≤ ((j : ℝ) + 1 / 2) * (d.wd / n) := by
    have : (0 : ℝ) ≤ j := Nat.cast_nonneg j
    nlinarith
  have hhi : ((j : ℝ) + 1 / 2) * (d.wd / n) ≤ d.wd := by
    have : d.wd = n * (d.wd / n) := by field_simp
    nlinarith
  unfold Debye.weight Debye.factor
  rw [ec, max_eq_right hlo, if_pos hhi]

/-- **C86** The conductivity accumulated over frequency starts at 0 and does not fall, for frequencies in rising order. -/
theorem C86_frequency (d : Debye) (h : d.Good) (hp : d.Positive) (hv : 0 < d.vs) (T : ℝ) (hT : 0 < T) (ws : List ℝ)
    (hs : ws.Pairwise (· ≤ ·)) (key : Tag) (acc : Bool) :
    (d.cumulative ws T acc key).Pairwise (· ≤ ·) ∧ (∀ v ∈ (d.cumulative ws T acc key).head?, v = 0) ∧
    ∀ v ∈ d.cumulative ws T acc key, 0 ≤ v := by
  have pos : ∀ w, 0 ≤ (get? (d.spectral w T acc) key).getD 0 := by
    intro w
    have hw : 0 < max eps w := lt_of_lt_of_le eps_pos (le_max_left _ _)
    cases hg : get? (d.spectral w T acc) key with
    | none => simp
    | some v =>
      have hm := get?_mem hg
      cases acc with
      | true => exact (C85_spectral_decreasing d h hp hv w T hT).2.1 v (List.mem_map.mpr ⟨_, hm, rfl⟩)
      | false =>
        rw [C85_spectral_single d h] at hm
        obtain ⟨p, hpm, he⟩ := List.mem_map.mp hm
        simp only [Prod.mk.injEq] at he
        rw [Option.getD_some, ← he.2]
        exact div_nonneg (factor_nonneg d hv _ T hw hT) (hp p hpm _ T hw hT).le
  have go : ∀ (l : List ℝ) (a x y : ℝ) (g : ℝ → ℝ), (∀ w, 0 ≤ g w) → 0 ≤ y → (x :: l).Pairwise (· ≤ ·) →
      (a :: (Engout.cumtrapzGo a (x, y) (l.map fun w => (w, g w))).map Prod.snd).Pairwise (· ≤ ·) := by
    intro l
    induction l with
    | nil => intros; simp [Engout.cumtrapzGo]
    | cons b l ih =>
      intro a x y g hg hy hpw
      simp only [List.map_cons, Engout.cumtrapzGo]
      have hxb : x ≤ b := (List.pairwise_cons.mp hpw).1 b (by simp)
      have := ih (a + (b - x) * (g b + y) / 2) b (g b) g hg (hg b) (List.pairwise_cons.mp hpw).2
      have hle : a ≤ a + (b - x) * (g b + y) / 2 := by
        have : 0 ≤ (b - x) * (g b + y) := mul_nonneg (by linarith) (by linarith [hg b])
        linarith
      refine List.pairwise_cons.mpr ⟨?_, this⟩
      intro v hv'
      rcases List.mem_cons.mp hv' with rfl | hv'
      · exact hle
      · exact hle.trans ((List.pairwise_cons.mp this).1 v hv')
  unfold Debye.cumulative
  cases ws with
  | nil => simp [Engout.cumtrapz]
  | cons w ws =>
    simp only [List.map_cons, Engout.cumtrapz]
    have := go ws 0 w _ (fun w => (get? (d.spectral w T acc) key).getD 0) pos (pos w) hs
    refine ⟨this, by simp, ?_⟩
    intro v hv'
    rcases List.mem_cons.mp hv' with rfl | hv'
    · exact le_refl _
    · exact (List.pairwise_cons.mp this).1 v hv'

/-- non-vacuity: the demonstration model with ten bins at 300 K -/
example : 10 * eps ≤ demo.wd / (10 : ℕ) ∧ 0 < demo.vs ∧ (∀ w, 0 < w → 0 < rateUpTo demo 2 w 300) := by
  refine ⟨?_, demo_ok.2.2.2.1, fun w hw => rateUpTo_pos demo demo_ok.1 demo_ok.2.1 w 300 hw (by norm_num) (by norm_num)⟩
  simp only [demo, Debye.wd, eps, hbarKB]
  norm_num

end TEflow.Kappa
