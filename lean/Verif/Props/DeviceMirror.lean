import Verif.Props.ZtdevEngout

/-! # C147: n-type legs, and pairs of a leg and its mirror -/

set_option linter.unusedVariables false

namespace TEflow.Ztdev

noncomputable section

open Engout

/-! ## Specification -/

/-- the same search looking from the other side: it minimises over the mirrored interval -/
def mirrored (search : Search) : Search := fun f lo hi =>
  let r := search (fun u => f (-u)) (-hi) (-lo)
  { r with x := -r.x }

/-! ## `ztdev.valuate` -/

theorem bounds_flip (p : TEPoint) (h : p.S ≠ 0) : bounds (flipS p) = (-(bounds p).2, -(bounds p).1) := by
  unfold bounds flipS
  simp only
  by_cases h' : p.S > 0
  · rw [if_pos h', if_neg (by linarith)]
    ext <;> simp only <;> ring
  · have : p.S < 0 := lt_of_le_of_ne (not_lt.mp h') h
    rw [if_neg h', if_pos (by linarith)]
    ext <;> simp only <;> ring

theorem calYita_flip (u : ℝ) (d : List TEPoint) : calYita (-u) (d.map flipS) = calYita u d := by
  unfold calYita
  rw [C45_np_symmetry]

theorem loss_flip (d : List TEPoint) (u : ℝ) : loss (d.map flipS) (-u) = loss d u := by
  unfold loss
  rw [calYita_flip]

theorem optimU_flip (search : Search) (d : List TEPoint) : optimU (mirrored search) (d.map flipS) = (optimU search d).map (Option.map (- ·)) := by
  cases d with
  | nil => rfl
  | cons p rest =>
    by_cases h0 : p.S = 0
    · have h1 : bounds p = (0, -1 / 100) := by
        unfold bounds
        rw [if_neg (by linarith), h0]
        simp
      have h2 : bounds (flipS p) = (0, -1 / 100) := by
        unfold bounds flipS
        simp only [h0]
        simp
      simp only [optimU, List.map_cons, h1, h2]
      have hlt : (-1 / 100 : ℝ) < 0 := by norm_num
      simp only [if_pos hlt]
      rfl
    · simp only [optimU, List.map_cons, bounds_flip p h0, neg_lt_neg_iff]
      by_cases hb : (bounds p).2 < (bounds p).1
      · rw [if_pos hb, if_pos hb]
        rfl
      · rw [if_neg hb, if_neg hb]
        have e : (fun u => Except.map (Option.map fun x => -1 * x) (calYita (-u) (flipS p :: List.map flipS rest))) =
            fun u => Except.map (Option.map fun x => -1 * x) (calYita u (p :: rest)) := by
          funext u
          have := calYita_flip u (p :: rest)
          rw [List.map_cons] at this
          rw [this]
        simp only [mirrored, neg_neg, e]
        generalize search _ (bounds p).1 (bounds p).2 = r
        by_cases hs : r.success = true <;> simp [hs, Except.map]

/-- **C147** `ztdev.valuate` treats n- and p-type alike: for the data with the Seebeck coefficients negated, and the search looking from the other side, it returns exactly the same
table, or fails in the same way, for every table. -/
theorem C147_device (search : Search) (d : List TEPoint) (allTemp : Bool) : valuate (mirrored search) (d.map flipS) allTemp = valuate search d allTemp := by
  cases d with
  | nil => rfl
  | cons p rest =>
    have hT : (List.map flipS (p :: rest)).map (·.T) = (p :: rest).map (·.T) := by
      rw [List.map_map]
      rfl
    have hy : optimYita (mirrored search) ((p :: rest).map flipS) allTemp = optimYita search (p :: rest) allTemp := by
      unfold optimYita
      rw [optimU_flip]
      cases optimU search (p :: rest) with
      | error e => rfl
      | ok o =>
        cases o with
        | none => rfl
        | some u =>
          simp only [Except.map, Option.map_some, C45_np_symmetry, calYita_flip]
    rw [List.map_cons] at hT hy
    simp only [valuate, List.map_cons (f := flipS), hT, hy]
    rfl

/-- **C147** Searches that find the best current need not be the same: the largest efficiency at the last temperature does not depend on the sign of the Seebeck coefficient. -/
theorem C147_best (search search' : Search) (p : TEPoint) (rest : List TEPoint) (hS : p.S ≠ 0)
    (h : Best (search (loss (p :: rest)) (bounds p).1 (bounds p).2) (loss (p :: rest)) (bounds p).1 (bounds p).2)
    (h' : Best (search' (loss ((p :: rest).map flipS)) (bounds (flipS p)).1 (bounds (flipS p)).2) (loss ((p :: rest).map flipS)) (bounds (flipS p)).1 (bounds (flipS p)).2)
    (v v' : Valuation) (hv : valuate search (p :: rest) false = .ok v) (hv' : valuate search' ((p :: rest).map flipS) false = .ok v')
    (hn : v.Yita ≠ [none]) : v'.Yita = v.Yita ∧ v'.ZTdev = v.ZTdev := by
  obtain ⟨a1, a2, a3, a4⟩ := h
  obtain ⟨b1, b2, b3, b4⟩ := h'
  rw [bounds_flip p hS] at b1 b2 b3 b4
  simp only at b1 b2 b3 b4
  set r := search (loss (p :: rest)) (bounds p).1 (bounds p).2 with hr
  set r' := search' (loss ((p :: rest).map flipS)) (-(bounds p).2) (-(bounds p).1) with hr'
  have hlh : ¬(bounds p).2 < (bounds p).1 := not_lt.2 (a2.trans a3)
  have o1 : optimU search (p :: rest) = .ok (some r.x) := by
    simp only [optimU]
    rw [if_neg hlh]
    change Except.ok (if r.success = true then some r.x else none) = _
    rw [a1]
    rfl
  have o2 : optimU search' ((p :: rest).map flipS) = .ok (some r'.x) := by
    simp only [optimU, List.map_cons, bounds_flip p hS, neg_lt_neg_iff]
    rw [if_neg hlh]
    change Except.ok (if r'.success = true then some r'.x else none) = _
    rw [b1]
    rfl
  have y1 : ∀ o, calYita r.x (p :: rest) = .ok o → v.Yita = [o] := by
    intro o ho
    simp only [valuate, optimYita, o1, ho, Bool.false_eq_true, if_false, Except.map] at hv
    rw [← Except.ok.inj hv]
  -- both efficiencies
  obtain ⟨y, hy⟩ : ∃ y, calYita r.x (p :: rest) = .ok (some y) := by
    cases hc : calYita r.x (p :: rest) with
    | error e =>
      simp only [valuate, optimYita, o1, hc, Bool.false_eq_true, if_false, Except.map] at hv
      cases hv
    | ok o =>
      cases o with
      | none => exact absurd (y1 none hc) hn
      | some y => exact ⟨y, rfl⟩
  have l1 : loss (p :: rest) r.x = .ok (some (-1 * y)) := by rw [loss, hy]; rfl
  obtain ⟨z, hz, hzle⟩ := b4 (-r.x) (-1 * y) (by linarith) (by linarith) (by rw [loss_flip]; exact l1)
  have l2 : loss (p :: rest) (-r'.x) = .ok (some z) := by rw [← loss_flip, neg_neg]; exact hz
  obtain ⟨z', hz', hzle'⟩ := a4 (-r'.x) z (by linarith) (by linarith) l2
  rw [l1] at hz'
  have e1 : -1 * y = z' := Option.some.inj (Except.ok.inj hz')
  have e2 : z = -1 * y := by linarith
  have hy' : calYita r'.x ((p :: rest).map flipS) = .ok (some y) := by
    cases hc : calYita r'.x ((p :: rest).map flipS) with
    | error e => rw [loss, hc] at hz; cases hz
    | ok o =>
      cases o with
      | none => rw [loss, hc] at hz; cases hz
      | some w =>
        rw [loss, hc] at hz
        have : -1 * w = z := Option.some.inj (Except.ok.inj hz)
        have : w = y := by linarith
        rw [this]
  have hT : (List.map flipS rest).map (·.T) = rest.map (·.T) := by
    rw [List.map_map]
    rfl
  rw [List.map_cons] at hv' hy' o2
  simp only [valuate, optimYita, o1, hy, Bool.false_eq_true, if_false, Except.map] at hv
  simp only [valuate, optimYita, o2, hy', Bool.false_eq_true, if_false, Except.map] at hv'
  rw [← Except.ok.inj hv, ← Except.ok.inj hv']
  simp only [List.map_cons, hT]
  exact ⟨trivial, rfl⟩

/-- **C147** So the known device figure of merit holds for n-type legs with constant properties too. -/
theorem C147_constant (c s k : ℝ) (hc : 0 < c) (hs : 0 < s) (hk : 0 < k) (p t : TEPoint) (rest : List TEPoint) (hT0 : 0 < p.T)
    (hd : Uniform c (-s) k (p :: rest)) (hT : List.IsChain (fun a b : TEPoint => a.T < b.T) (p :: rest)) (ht : (p :: rest).getLast? = some t) (hpt : p.T < t.T)
    (search : Search) (hf : Best (search (loss (p :: rest)) (bounds p).1 (bounds p).2) (loss (p :: rest)) (bounds p).1 (bounds p).2)
    (hlow : 1 / 100 ≤ bestCurrent c s k p.T t.T)
    (hguard : 1 / 1000 < (t.T ^ 2 - p.T ^ 2) / (Real.sqrt (1 + figure c s k * ((p.T + t.T) / 2)) * t.T + p.T)) (allTemp : Bool) :
    ∃ v, valuate search (p :: rest) allTemp = .ok v ∧
      v.Yita.getLast? = some (some (textbookYita (figure c s k * ((p.T + t.T) / 2)) p.T t.T)) ∧
      v.ZTdev.getLast? = some (some (figure c s k * ((p.T + t.T) / 2))) := by
  have hpS : p.S ≠ 0 := by
    rw [(hd p (by simp)).2.1]
    linarith
  have hff : ∀ q : TEPoint, flipS (flipS q) = q := fun q => by simp [flipS]
  have hback : ((p :: rest).map flipS).map flipS = p :: rest := by
    rw [List.map_map]
    have : (flipS ∘ flipS) = id := funext hff
    rw [this, List.map_id]
  have hm : mirrored (mirrored search) = search := by
    funext f lo hi
    simp [mirrored]
  have hdev := C147_device (mirrored search) ((p :: rest).map flipS) allTemp
  rw [hback, hm] at hdev
  rw [hdev]
  have hb := bounds_flip p hpS
  refine C135_device c s k hc hs hk (flipS p) (flipS t) (rest.map flipS) hT0 ?_ ?_ ?_ hpt (mirrored search) ?_ hlow hguard allTemp
  · intro q hq
    obtain ⟨q', hq', rfl⟩ := List.mem_map.1 (show q ∈ (p :: rest).map flipS from hq)
    obtain ⟨e1, e2, e3⟩ := hd q' hq'
    exact ⟨e1, by simp [flipS, e2], e3⟩
  · have := (List.isChain_map (R := fun a b : TEPoint => a.T < b.T) flipS (l := p :: rest)).2 hT
    exact this
  · have := congrArg (Option.map flipS) ht
    rwa [← List.getLast?_map] at this
  · obtain ⟨a1, a2, a3, a4⟩ := hf
    have hl : ∀ u, loss (flipS p :: rest.map flipS) (-u) = loss (p :: rest) u := fun u => loss_flip (p :: rest) u
    have hs' : mirrored search (loss (flipS p :: rest.map flipS)) (bounds (flipS p)).1 (bounds (flipS p)).2 =
        { search (loss (p :: rest)) (bounds p).1 (bounds p).2 with x := -(search (loss (p :: rest)) (bounds p).1 (bounds p).2).x } := by
      simp only [mirrored, hb, neg_neg, hl]
    rw [hs', hb]
    refine ⟨a1, neg_le_neg a3, neg_le_neg a2, fun x y h1 h2 hxy => ?_⟩
    obtain ⟨z, hz, hle⟩ := a4 (-x) y (by simp only at h2; linarith) (by simp only at h1; linarith) (by rw [← hl, neg_neg]; exact hxy)
    exact ⟨z, by simp only [hl]; exact hz, hle⟩

end

end TEflow.Ztdev

namespace TEflow.Engout

noncomputable section

open Ztdev (TEPoint flipS)

/-! ## The generator -/

/-- the integrals of the mirrored leg -/
def flipI (i : Itgs) : Itgs := { i with S := -i.S, ST := -i.ST, Sc := -i.Sc, Sh := -i.Sh }

theorem flip_profile (i : Itgs) (L A : ℝ) (w : Bool) :
    (prfs L A w (flipI i)).deltaT = (prfs L A w i).deltaT ∧ (prfs L A w (flipI i)).PFeng = (prfs L A w i).PFeng ∧ (prfs L A w (flipI i)).ZTeng = (prfs L A w i).ZTeng ∧
    (prfs L A w (flipI i)).m_opt = (prfs L A w i).m_opt ∧
    ∀ x, (simulate1 (prfs L A w (flipI i)) x).Pout = (simulate1 (prfs L A w i) x).Pout ∧ (simulate1 (prfs L A w (flipI i)) x).Yita = (simulate1 (prfs L A w i) x).Yita := by
  have m1 : (mdfs (flipI i)).ST = (mdfs i).ST := by simp only [mdfs, flipI, neg_div_neg_eq]
  have m2 : (mdfs (flipI i)).RhoT = (mdfs i).RhoT := rfl
  have m3 : (mdfs (flipI i)).ST_RhoT_1 = (mdfs i).ST_RhoT_1 := by simp only [mdfs, flipI, neg_div_neg_eq]
  have e : (1 : ℝ) / 1000000 * -i.S * -i.S / i.Rho = 1 / 1000000 * i.S * i.S / i.Rho := by ring
  refine ⟨rfl, ?_, ?_, ?_, fun x => ⟨?_, ?_⟩⟩ <;> simp only [simulate1, prfs, m1, m2, m3] <;> simp only [flipI, e]

/-- **C147** `GenLeg.valuate` returns the same table for a leg and for its mirror, or fails in the same way, for every table and length. -/
theorem C147_leg (d : List TEPoint) (L : ℝ) : Leg.valuate (d.map flipS) L = Leg.valuate d L := by
  cases d with
  | nil => rfl
  | cons p rest =>
    cases rest with
    | nil => simp [Leg.valuate, Leg.init, flipS, bind, Except.bind]
    | cons q rest =>
      have h1 := leg_valuate_eq p (q :: rest) (by simp) L
      have h2 := leg_valuate_eq (flipS p) ((q :: rest).map flipS) (by simp) L
      rw [← List.map_cons (f := flipS)] at h2
      rw [h1, h2]
      have hi : ∀ t : TEPoint, tableItgs (flipS p :: List.map flipS (q :: rest)) (flipS p).T (flipS t).T = flipI (tableItgs (p :: q :: rest) p.T t.T) := fun t =>
        tableItgs_flip (p :: q :: rest) p.T t.T
      unfold legResult
      simp only [List.map_map, Function.comp_def, hi]
      congr 2
      · refine List.map_congr_left fun t _ => ?_
        exact (flip_profile _ L 100 false).2.1
      · refine List.map_congr_left fun t _ => ?_
        exact (flip_profile _ L 100 false).2.2.1
      · refine List.map_congr_left fun t _ => ?_
        exact ((flip_profile _ L 100 false).2.2.2.2 _).1
      · refine List.map_congr_left fun t _ => ?_
        rw [(flip_profile _ L 100 false).2.2.2.1]
        exact ((flip_profile _ L 100 false).2.2.2.2 _).2

/-- **C147** A pair of a leg and its mirror, with equal lengths and areas, is that leg cut in two: on the same total area it delivers half the current at twice the voltage, the same
power, takes the same heat and has the same efficiency, at every current; and its figures of merit are those of the leg. -/
theorem C147_pair_simulate (i : Itgs) (L A : ℝ) (w w' : Bool) (x : ℝ) :
    let pair := prfs L A w (pairItgs i (flipI i) 1 1)
    let leg := prfs L A w' i
    pair.PFeng = leg.PFeng ∧ pair.Zeng = leg.Zeng ∧ pair.ZTeng = leg.ZTeng ∧ pair.ZTp = leg.ZTp ∧ pair.m_opt = leg.m_opt ∧ pair.deltaT = leg.deltaT ∧
    (simulate1 pair x).Vout = 2 * (simulate1 leg x).Vout ∧ (simulate1 pair x).I = (simulate1 leg x).I / 2 ∧ (simulate1 pair x).Pout = (simulate1 leg x).Pout ∧
    (simulate1 pair x).Qhot = (simulate1 leg x).Qhot ∧ (simulate1 pair x).Yita = (simulate1 leg x).Yita := by
  obtain ⟨q, hq⟩ : ∃ q, q = pairItgs i (flipI i) 1 1 := ⟨_, rfl⟩
  have e1 : q.S = 2 * i.S := by rw [hq]; simp only [pairItgs, flipI]; ring
  have e2 : q.ST = 2 * i.ST := by rw [hq]; simp only [pairItgs, flipI]; ring
  have e3 : q.Rho = 4 * i.Rho := by rw [hq]; simp only [pairItgs, flipI]; ring
  have e4 : q.RhoT = 4 * i.RhoT := by rw [hq]; simp only [pairItgs, flipI]; ring
  have e5 : q.K = i.K := by rw [hq]; simp only [pairItgs, flipI]; ring
  have e6 : q.Tc = i.Tc := by rw [hq]; simp only [pairItgs, flipI]; ring
  have e7 : q.deltaT = i.deltaT := by rw [hq]; simp only [pairItgs, flipI]; ring
  have m1 : (mdfs q).ST = (mdfs i).ST := by
    simp only [mdfs, e1, e2, e6]
    rw [mul_div_mul_left _ _ (by norm_num : (2 : ℝ) ≠ 0)]
  have m2 : (mdfs q).RhoT = (mdfs i).RhoT := by
    simp only [mdfs, e3, e4, e6]
    rw [mul_div_mul_left _ _ (by norm_num : (4 : ℝ) ≠ 0)]
  have m3 : (mdfs q).ST_RhoT_1 = (mdfs i).ST_RhoT_1 := by
    have a : (mdfs q).ST_RhoT_1 = (mdfs q).ST - (mdfs q).RhoT := rfl
    rw [a, m1, m2]
    rfl
  have hPF : 1 / 1000000 * q.S * q.S / q.Rho = 1 / 1000000 * i.S * i.S / i.Rho := by
    rw [e1, e3, show (1 : ℝ) / 1000000 * (2 * i.S) * (2 * i.S) = 4 * (1 / 1000000 * i.S * i.S) by ring, mul_div_mul_left _ _ (by norm_num : (4 : ℝ) ≠ 0)]
  have hI : 1 / 1000 * i.deltaT * q.S / (q.Rho * L) * A = 1 / 1000 * i.deltaT * i.S / (i.Rho * L) * A / 2 := by
    rw [e1, e3, show (1 : ℝ) / 1000 * i.deltaT * (2 * i.S) = 2 * (1 / 1000 * i.deltaT * i.S) by ring, show 4 * i.Rho * L = 2 * (2 * (i.Rho * L)) by ring,
      mul_div_mul_left _ _ (by norm_num : (2 : ℝ) ≠ 0)]
    rw [div_mul_eq_div_div_swap, div_mul_eq_mul_div]
  intro pair leg
  have hp : pair = prfs L A w q := by rw [hq]
  rw [hp]
  refine ⟨?_, ?_, ?_, ?_, ?_, ?_, ?_, ?_, ?_, ?_, ?_⟩ <;> simp only [leg, simulate1, prfs, m1, m2, m3, hPF, hI, e5, e7]
  · rw [e1]; ring
  · ring

/-- **C147** So `GenPair.valuate` of a leg and its mirror returns the table `GenLeg.valuate` returns for the leg alone: temperatures, figures of merit, efficiencies and powers, for
every rising table with positive conductivities, whatever the length; both area ratios it selects are 1. -/
theorem C147_pair_valuate (d : List TEPoint) (hd : Rising d) (h2 : 2 ≤ d.length) (hpos : ∀ t ∈ d, 0 < t.C ∧ 0 < t.K) (L : ℝ) :
    ∃ v w, Pair.valuate d (d.map flipS) L = .ok v ∧ Leg.valuate d L = .ok w ∧ v.Tc = w.Tc ∧ v.Th = w.Th ∧ v.deltaT = w.deltaT ∧ v.ZTeng = w.ZTeng ∧ v.Yita = w.Yita ∧
      v.PFeng = w.PFeng ∧ v.Pout = w.Pout := by
  obtain ⟨p, rest, rfl⟩ : ∃ p rest, d = p :: rest := by
    cases d with
    | nil => simp at h2
    | cons p rest => exact ⟨p, rest, rfl⟩
  have hne : rest ≠ [] := by rintro rfl; simp at h2
  refine ⟨_, _, pair_valuate_eq p rest _ hne (by simp) L, leg_valuate_eq p rest hne L, rfl, rfl, ?_⟩
  have hR : ∀ t ∈ rest, 0 < (tableItgs (p :: rest) p.T t.T).Rho ∧ 0 < (tableItgs (p :: rest) p.T t.T).K := by
    intro t ht
    have hlt : p.T < t.T := (List.pairwise_cons.1 hd).1 t ht
    obtain ⟨l, hl⟩ : ∃ l, (p :: rest).getLast? = some l := ⟨_, List.getLast?_eq_some_getLast (by simp)⟩
    have hle : ∀ t ∈ p :: rest, t.T ≤ l.T := by
      intro t ht
      obtain ⟨ys, hys⟩ := List.getLast?_eq_some_iff.1 hl
      rw [hys] at ht hd
      rcases List.mem_append.1 ht with h | h
      · exact ((List.pairwise_append.1 hd).2.2 t h l (by simp)).le
      · rw [List.mem_singleton.1 h]
    have c1 : Covers (p :: rest) p.T := ⟨⟨p, rfl, le_rfl⟩, l, hl, hle p (by simp)⟩
    have c2 : Covers (p :: rest) t.T := ⟨⟨p, rfl, hlt.le⟩, l, hl, hle t (by simp [ht])⟩
    refine ⟨tabItg_pos _ hd _ (fun q hq => ?_) _ _ c1 c2 hlt, tabItg_pos _ hd _ (fun q hq => (hpos q hq).2) _ _ c1 c2 hlt⟩
    exact div_pos (by norm_num) (hpos q hq).1
  have hz : ∀ t ∈ rest, pairItgs (tableItgs (p :: rest) p.T t.T) (tableItgs ((p :: rest).map flipS) p.T t.T) 1
      (ratioZ (tableItgs (p :: rest) p.T t.T) (tableItgs ((p :: rest).map flipS) p.T t.T)) = pairItgs (tableItgs (p :: rest) p.T t.T) (flipI (tableItgs (p :: rest) p.T t.T)) 1 1 := by
    intro t ht
    obtain ⟨r1, r2⟩ := hR t ht
    rw [show tableItgs ((p :: rest).map flipS) p.T t.T = flipI (tableItgs (p :: rest) p.T t.T) from tableItgs_flip _ _ _]
    congr 1
    unfold ratioZ flipI
    simp only
    rw [div_self r1.ne', one_mul, one_mul, div_self r2.ne', Real.sqrt_one]
  have hp : ∀ t ∈ rest, pairItgs (tableItgs (p :: rest) p.T t.T) (tableItgs ((p :: rest).map flipS) p.T t.T) 1
      (ratioP (tableItgs (p :: rest) p.T t.T) (tableItgs ((p :: rest).map flipS) p.T t.T)) = pairItgs (tableItgs (p :: rest) p.T t.T) (flipI (tableItgs (p :: rest) p.T t.T)) 1 1 := by
    intro t ht
    obtain ⟨r1, r2⟩ := hR t ht
    rw [show tableItgs ((p :: rest).map flipS) p.T t.T = flipI (tableItgs (p :: rest) p.T t.T) from tableItgs_flip _ _ _]
    congr 1
    unfold ratioP flipI
    simp only
    rw [one_mul, div_self r1.ne', Real.sqrt_one]
  have key := fun (t : TEPoint) (x : ℝ) => C147_pair_simulate (tableItgs (p :: rest) p.T t.T) L 100 true false x
  unfold pairResult legResult
  simp only
  refine ⟨?_, ?_, ?_, ?_, ?_⟩
  · exact List.map_congr_left fun t ht => by rw [hz t ht]; exact (key t 0).2.2.2.2.2.1
  · exact List.map_congr_left fun t ht => by rw [hz t ht]; exact (key t 0).2.2.1
  · exact List.map_congr_left fun t ht => by
      rw [hz t ht, (key t 0).2.2.2.2.1]
      exact (key t _).2.2.2.2.2.2.2.2.2.2
  · exact List.map_congr_left fun t ht => by rw [hp t ht]; exact (key t 0).1
  · exact List.map_congr_left fun t ht => by rw [hp t ht]; exact (key t _).2.2.2.2.2.2.2.2.1

/-- a rising table of three rows with positive conductivities -/
example : ∃ d : List TEPoint, Rising d ∧ 2 ≤ d.length ∧ ∀ t ∈ d, 0 < t.C ∧ 0 < t.K :=
  ⟨[⟨300, 900, 200, 1.5⟩, ⟨400, 700, 220, 1.3⟩, ⟨500, 600, 230, 1.2⟩], by norm_num, by simp, by norm_num⟩

end

end TEflow.Engout
