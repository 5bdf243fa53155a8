import Verif.Props.ZtdevConst
import Verif.Props.EngoutPair

/-! # C135: `tef-ztdev` and `tef-engout` on the same leg -/

namespace TEflow.Ztdev

open Engout

/-- **C135** The two ways to a largest efficiency agree on a leg with constant properties: the scan of the relative current (`ztdev.valuate`) and the
engineering figure of merit (`GenLeg.valuate`, any length) give the same number for the last temperature. -/
theorem C135_tools_agree (c s k : ℝ) (hc : 0 < c) (hs : 0 < s) (hk : 0 < k) (p t : TEPoint) (rest : List TEPoint) (hT0 : 0 < p.T)
    (hd : Uniform c s k (p :: rest)) (hT : List.IsChain (fun a b : TEPoint => a.T < b.T) (p :: rest)) (ht : (p :: rest).getLast? = some t) (hpt : p.T < t.T)
    (search : Search) (hf : Best (search (loss (p :: rest)) (bounds p).1 (bounds p).2) (loss (p :: rest)) (bounds p).1 (bounds p).2)
    (hlow : 1 / 100 ≤ bestCurrent c s k p.T t.T)
    (hguard : 1 / 1000 < (t.T ^ 2 - p.T ^ 2) / (Real.sqrt (1 + figure c s k * ((p.T + t.T) / 2)) * t.T + p.T)) (allTemp : Bool) (L : ℝ) (hL : 0 < L) :
    ∃ v w y, valuate search (p :: rest) allTemp = .ok v ∧ Leg.valuate (p :: rest) L = .ok w ∧
      v.Yita.getLast? = some (some y) ∧ w.Yita.getLast? = some y ∧ 0 < y ∧ y < 100 * (1 - p.T / t.T) ∧
      w.ZTeng.getLast? = some (figure c s k * (t.T - p.T)) := by
  obtain ⟨v, hv, hy, _⟩ := C135_device c s k hc hs hk p t rest hT0 hd hT ht hpt search hf hlow hguard allTemp
  have hne : rest ≠ [] := by
    rintro rfl
    simp only [List.getLast?_singleton, Option.some.injEq] at ht
    rw [ht] at hpt
    exact lt_irrefl _ hpt
  have htr : rest.getLast? = some t := by
    cases rest with
    | nil => exact absurd rfl hne
    | cons a l => simpa using ht
  obtain ⟨w, hw, _, _, hlen, hw2⟩ := C99_leg_valuate p rest hne L
  have hi : rest[rest.length - 1]? = some t := by rw [← List.getLast?_eq_getElem?]; exact htr
  obtain ⟨i, h1, _, _, h4, _, h5⟩ := hw2 _ t hi
  have hpd : (p :: rest).Pairwise (fun a b : TEPoint => a.T < b.T) :=
    (List.isChain_iff_pairwise (R := fun a b : TEPoint => a.T < b.T)).1 hT
  obtain ⟨j, z, g1, g2, _, _, g5, _⟩ := C52_constant (p :: rest) hpd c s k hc hs.ne' hk hd p t (by simp) (List.mem_of_getLast? ht) hT0 hpt L 100 hL
    (by norm_num) false
  obtain ⟨j', k1, _, _, _, _, k6, k7, k8⟩ := C48_constant_at_data (p :: rest) hpd p t (by simp) (List.mem_of_getLast? ht) c s k hd
  obtain ⟨i', l1, _, _, l2, _⟩ := C48_bounds (p :: rest) hpd p.T t.T ⟨⟨p, rfl, le_rfl⟩, t, ht, hpt.le⟩ ⟨⟨p, rfl, hpt.le⟩, t, ht, le_rfl⟩ hpt.le
  rw [h1] at g1 k1 l1
  have e := Except.ok.inj g1
  subst e
  have e := Except.ok.inj k1
  subst e
  have e := Except.ok.inj l1
  subst e
  have hz : z = figure c s k := by
    rw [g2]
    unfold figure
    field_simp
    norm_num
  have hlast : ∀ col ∈ [w.Tc, w.Th, w.deltaT, w.PFeng, w.ZTeng, w.Pout, w.Yita], col.getLast? = col[rest.length - 1]? := by
    intro col hcol
    rw [List.getLast?_eq_getElem?, hlen col hcol]
  obtain ⟨hM2, hM1, hfg, hl⟩ := root_spec c s k hc hs hk p t hT0 hpt
  have htT : 0 < t.T := hT0.trans hpt
  refine ⟨v, w, _, hv, hw, hy, ?_, ?_, ?_, ?_⟩
  · rw [hlast w.Yita (by simp), h5, g5, hz]
  · unfold textbookYita
    have : 1 < Real.sqrt (1 + figure c s k * ((p.T + t.T) / 2)) := by
      rw [Real.lt_sqrt (by norm_num)]
      have : 0 < figure c s k * ((p.T + t.T) / 2) := mul_pos hfg (by linarith)
      linarith
    have h1 : 0 < t.T - p.T := by linarith
    have h2 : 0 < Real.sqrt (1 + figure c s k * ((p.T + t.T) / 2)) - 1 := by linarith
    positivity
  · unfold textbookYita
    generalize Real.sqrt (1 + figure c s k * ((p.T + t.T) / 2)) = M at *
    have e : 100 * (1 - p.T / t.T) = 100 * ((t.T - p.T) / t.T * 1) := by
      field_simp
    rw [e]
    have h1 : 0 < (t.T - p.T) / t.T := div_pos (by linarith) htT
    have h3 : 0 < p.T / t.T := by positivity
    have h2 : (M - 1) / (M + p.T / t.T) < 1 := by
      rw [div_lt_one (by positivity)]
      linarith
    have := mul_lt_mul_of_pos_left h2 h1
    linarith
  · rw [hlast w.ZTeng (by simp), h4]
    unfold prfs
    simp only [k6, k7, k8, l2]
    unfold figure
    have h1 : t.T - p.T ≠ 0 := by linarith
    congr 1
    field_simp
    norm_num

end TEflow.Ztdev
