import Mathlib.Tactic.Linarith
import Mathlib.Tactic.Ring
import Mathlib.Tactic.FieldSimp
import Mathlib.Tactic.Positivity
import Mathlib.Tactic.NormNum
import Mathlib.Tactic.LinearCombination
import Verif.Model.Engout

/-! # Lemmas on tabulated integrals -/

namespace TEflow.Engout
open TEflow.Mathext (npInterp npScan)

variable {R : Type} [Field R] [LinearOrder R] [IsStrictOrderedRing R]

/-- strictly increasing abscissae -/
abbrev Inc (d : List (R × R)) : Prop := d.Pairwise fun p q => p.1 < q.1

/-- consecutive points of a table -/
def Consec (d : List (R × R)) (p q : R × R) : Prop := ∃ i : Nat, d[i]? = some p ∧ d[i + 1]? = some q

omit [Field R] [LinearOrder R] [IsStrictOrderedRing R] in
theorem Consec.cons {d : List (R × R)} {p q : R × R} (r : R × R) (h : Consec d p q) : Consec (r :: d) p q := by
  obtain ⟨i, h1, h2⟩ := h
  exact ⟨i + 1, by simpa using h1, by simpa using h2⟩

omit [Field R] [LinearOrder R] [IsStrictOrderedRing R] in
theorem Consec.first (p q : R × R) (d : List (R × R)) : Consec (p :: q :: d) p q := ⟨0, rfl, rfl⟩

omit [IsStrictOrderedRing R] in
theorem scan_head (a fa : R) (rest : List (R × R)) (h : Inc ((a, fa) :: rest)) : npScan ((a, fa) :: rest) a = fa := by
  cases rest with
  | nil => rfl
  | cons p rest =>
    obtain ⟨b, fb⟩ := p
    have h1 := (List.pairwise_cons.mp h).1 (b, fb) List.mem_cons_self
    simp only at h1
    rw [npScan, if_pos h1, if_pos rfl]

omit [IsStrictOrderedRing R] in
/-- inside a segment the scan is a straight line -/
theorem scan_seg (a fa b fb : R) (rest : List (R × R)) (q : R) (hq : q < b) :
    npScan ((a, fa) :: (b, fb) :: rest) q = (fb - fa) / (b - a) * (q - a) + fa := by
  rw [npScan, if_pos hq]
  split
  · rename_i h; rw [h]; ring
  · rfl

omit [IsStrictOrderedRing R] in
theorem scan_skip (a fa b fb : R) (rest : List (R × R)) (q : R) (hq : b ≤ q) :
    npScan ((a, fa) :: (b, fb) :: rest) q = npScan ((b, fb) :: rest) q := by
  rw [npScan, if_neg (not_lt.mpr hq)]

omit [IsStrictOrderedRing R] in
theorem interp_scan (d : List (R × R)) (q : R) (h1 : ∃ f ∈ d.head?, f.1 ≤ q) (h2 : ∃ l ∈ d.getLast?, q ≤ l.1) :
    npInterp d none none q = npScan d q := by
  obtain ⟨f, hf, hf'⟩ := h1
  obtain ⟨l, hl, hl'⟩ := h2
  simp only [Option.mem_def] at hf hl
  simp only [npInterp, hf, hl]
  rw [if_neg (not_lt.mpr hf'), if_neg (not_lt.mpr hl')]

/-- bounds on the slopes bound the increase of the interpolant; only segments meeting the interval matter -/
theorem scan_slope (lo hi : R) (d : List (R × R)) : ∀ (q1 q2 : R), Inc d → (∃ f ∈ d.head?, f.1 ≤ q1) →
    (∃ l ∈ d.getLast?, q2 ≤ l.1) → q1 ≤ q2 →
    (∀ p q, Consec d p q → p.1 < q2 → q1 < q.1 → lo * (q.1 - p.1) ≤ q.2 - p.2 ∧ q.2 - p.2 ≤ hi * (q.1 - p.1)) →
    lo * (q2 - q1) ≤ npScan d q2 - npScan d q1 ∧ npScan d q2 - npScan d q1 ≤ hi * (q2 - q1) := by
  induction d with
  | nil => intro q1 q2 _ h; simp at h
  | cons p d ih =>
    obtain ⟨a, fa⟩ := p
    cases d with
    | nil =>
      intro q1 q2 _ h1 h2 h12 _
      simp only [List.head?_cons, Option.mem_def, Option.some.injEq, exists_eq_left', List.getLast?_singleton] at h1 h2
      have e1 : q1 = a := le_antisymm (h12.trans h2) h1
      have e2 : q2 = a := le_antisymm h2 (h1.trans h12)
      subst e1; subst e2
      simp
    | cons p d =>
      obtain ⟨b, fb⟩ := p
      intro q1 q2 hinc h1 h2 h12 hs
      simp only [List.head?_cons, Option.mem_def, Option.some.injEq, exists_eq_left'] at h1
      have hab : a < b := (List.pairwise_cons.mp hinc).1 (b, fb) List.mem_cons_self
      have hinc' := (List.pairwise_cons.mp hinc).2
      have h2' : ∃ l ∈ ((b, fb) :: d).getLast?, q2 ≤ l.1 := by
        rw [List.getLast?_cons_cons] at h2; exact h2
      by_cases hq1 : q1 < b
      · rw [scan_seg a fa b fb d q1 hq1]
        have hba : 0 < b - a := by linarith
        by_cases hq2 : q2 < b
        · rw [scan_seg a fa b fb d q2 hq2]
          rcases h12.eq_or_lt with rfl | h12'
          · simp
          · obtain ⟨s1, s2⟩ := hs (a, fa) (b, fb) (Consec.first _ _ _) (by simp only; linarith) (by simpa using hq1)
            simp only at s1 s2
            have e : (fb - fa) / (b - a) * (q2 - a) + fa - ((fb - fa) / (b - a) * (q1 - a) + fa) =
                (fb - fa) / (b - a) * (q2 - q1) := by ring
            rw [e]
            have t1 : lo ≤ (fb - fa) / (b - a) := by rw [le_div_iff₀ hba]; exact s1
            have t2 : (fb - fa) / (b - a) ≤ hi := by rw [div_le_iff₀ hba]; exact s2
            have : 0 ≤ q2 - q1 := by linarith
            exact ⟨mul_le_mul_of_nonneg_right t1 this, mul_le_mul_of_nonneg_right t2 this⟩
        · have hq2' := not_lt.mp hq2
          rw [scan_skip a fa b fb d q2 hq2']
          obtain ⟨s1, s2⟩ := hs (a, fa) (b, fb) (Consec.first _ _ _) (by simp only; linarith) (by simpa using hq1)
          simp only at s1 s2
          obtain ⟨i1, i2⟩ := ih b q2 hinc' ⟨(b, fb), by simp, le_rfl⟩ h2' hq2'
            (fun p q hpq hp hq => hs p q (hpq.cons _) hp (by linarith))
          rw [scan_head b fb d hinc'] at i1 i2
          have e : (fb - fa) / (b - a) * (q1 - a) + fa = fb - (fb - fa) / (b - a) * (b - q1) := by
            field_simp; ring
          rw [e]
          have t1 : lo ≤ (fb - fa) / (b - a) := by rw [le_div_iff₀ hba]; exact s1
          have t2 : (fb - fa) / (b - a) ≤ hi := by rw [div_le_iff₀ hba]; exact s2
          have hb : 0 ≤ b - q1 := by linarith
          have u1 := mul_le_mul_of_nonneg_right t1 hb
          have u2 := mul_le_mul_of_nonneg_right t2 hb
          constructor <;> linarith
      · have hq1' := not_lt.mp hq1
        rw [scan_skip a fa b fb d q2 (hq1'.trans h12), scan_skip a fa b fb d q1 hq1']
        exact ih q1 q2 hinc' ⟨(b, fb), by simp, hq1'⟩ h2' h12 (fun p q hpq hp hq => hs p q (hpq.cons _) hp hq)

/-! ### the cumulative integral -/

omit [LinearOrder R] [IsStrictOrderedRing R] in
theorem cumtrapzGo_fst (rest : List (R × R)) : ∀ (acc : R) (p : R × R),
    (cumtrapzGo acc p rest).map Prod.fst = rest.map Prod.fst := by
  induction rest with
  | nil => intros; rfl
  | cons q rest ih => intro acc p; obtain ⟨x0, y0⟩ := p; obtain ⟨x1, y1⟩ := q; simp [cumtrapzGo, ih]

omit [LinearOrder R] [IsStrictOrderedRing R] in
theorem cumtrapz_fst (d : List (R × R)) : (cumtrapz d).map Prod.fst = d.map Prod.fst := by
  cases d with
  | nil => rfl
  | cons p rest => obtain ⟨x, y⟩ := p; simp [cumtrapz, cumtrapzGo_fst]

theorem inc_iff (d : List (R × R)) : Inc d ↔ (d.map Prod.fst).Pairwise (· < ·) := by
  rw [List.pairwise_map]

theorem cumtrapz_inc {d : List (R × R)} (h : Inc d) : Inc (cumtrapz d) := by
  rw [inc_iff, cumtrapz_fst, ← inc_iff]; exact h

omit [LinearOrder R] [IsStrictOrderedRing R] in
theorem cumtrapzGo_consec (rest : List (R × R)) : ∀ (acc : R) (x y : R) (p q : R × R),
    Consec ((x, acc) :: cumtrapzGo acc (x, y) rest) p q →
    ∃ p' q', Consec ((x, y) :: rest) p' q' ∧ p'.1 = p.1 ∧ q'.1 = q.1 ∧ q.2 - p.2 = (q'.1 - p'.1) * (q'.2 + p'.2) / 2 := by
  induction rest with
  | nil =>
    intro acc x y p q ⟨i, h1, h2⟩
    simp [cumtrapzGo] at h2
  | cons r rest ih =>
    intro acc x y p q ⟨i, h1, h2⟩
    obtain ⟨x1, y1⟩ := r
    cases i with
    | zero =>
      simp only [cumtrapzGo, List.getElem?_cons_zero, Option.some.injEq, zero_add, List.getElem?_cons_succ] at h1 h2
      subst h1; subst h2
      exact ⟨(x, y), (x1, y1), Consec.first _ _ _, rfl, rfl, by simp⟩
    | succ i =>
      simp only [cumtrapzGo, List.getElem?_cons_succ] at h1 h2
      obtain ⟨p', q', h, e1, e2, e3⟩ := ih _ x1 y1 p q ⟨i, h1, by simpa using h2⟩
      exact ⟨p', q', h.cons _, e1, e2, e3⟩

omit [LinearOrder R] [IsStrictOrderedRing R] in
theorem cumtrapz_consec (d : List (R × R)) (p q : R × R) (h : Consec (cumtrapz d) p q) :
    ∃ p' q', Consec d p' q' ∧ p'.1 = p.1 ∧ q'.1 = q.1 ∧ q.2 - p.2 = (q'.1 - p'.1) * (q'.2 + p'.2) / 2 := by
  cases d with
  | nil => obtain ⟨i, h1, _⟩ := h; simp [cumtrapz] at h1
  | cons r rest =>
    obtain ⟨x, y⟩ := r
    exact cumtrapzGo_consec rest 0 x y p q h

omit [LinearOrder R] [IsStrictOrderedRing R] in
theorem cumtrapz_head (d : List (R × R)) (x : R) (h : ∃ f ∈ d.head?, f.1 = x) : ∃ f ∈ (cumtrapz d).head?, f.1 = x := by
  obtain ⟨f, hf, rfl⟩ := h
  cases d with
  | nil => simp at hf
  | cons r rest =>
    obtain ⟨a, b⟩ := r
    simp only [List.head?_cons, Option.mem_def, Option.some.injEq] at hf
    subst hf
    exact ⟨_, rfl, rfl⟩

omit [LinearOrder R] [IsStrictOrderedRing R] in
theorem cumtrapz_last (d : List (R × R)) (x : R) (h : ∃ f ∈ d.getLast?, f.1 = x) : ∃ f ∈ (cumtrapz d).getLast?, f.1 = x := by
  obtain ⟨f, hf, rfl⟩ := h
  have e := cumtrapz_fst d
  have : ((cumtrapz d).map Prod.fst).getLast? = some f.1 := by
    rw [e, List.getLast?_map]
    simp only [Option.mem_def] at hf
    rw [hf]; rfl
  rw [List.getLast?_map] at this
  obtain ⟨g, hg, hg'⟩ := Option.map_eq_some_iff.mp this
  exact ⟨g, hg, hg'⟩

/-- the temperature lies inside the table -/
def Inside (d : List (R × R)) (q : R) : Prop := (∃ f ∈ d.head?, f.1 ≤ q) ∧ ∃ l ∈ d.getLast?, q ≤ l.1

omit [IsStrictOrderedRing R] in
theorem cumtrapz_inside {d : List (R × R)} {q : R} (h : Inside d q) : Inside (cumtrapz d) q := by
  obtain ⟨⟨f, hf, hf'⟩, ⟨l, hl, hl'⟩⟩ := h
  obtain ⟨f2, h1, h2⟩ := cumtrapz_head d f.1 ⟨f, hf, rfl⟩
  obtain ⟨l2, h3, h4⟩ := cumtrapz_last d l.1 ⟨l, hl, rfl⟩
  exact ⟨⟨f2, h1, h2 ▸ hf'⟩, ⟨l2, h3, h4 ▸ hl'⟩⟩

/-- general bounds: only the points of segments meeting the interval matter -/
theorem tabItg_bounds (lo hi : R) (d : List (R × R)) (Tc Th : R) (hd : Inc d) (hc : Inside d Tc) (hh : Inside d Th)
    (hle : Tc ≤ Th)
    (hb : ∀ p q, Consec d p q → p.1 < Th → Tc < q.1 → 2 * lo ≤ q.2 + p.2 ∧ q.2 + p.2 ≤ 2 * hi) :
    lo * (Th - Tc) ≤ tabItg d Tc Th ∧ tabItg d Tc Th ≤ hi * (Th - Tc) := by
  have hc' := cumtrapz_inside hc
  have hh' := cumtrapz_inside hh
  unfold tabItg
  rw [interp_scan _ _ hh'.1 hh'.2, interp_scan _ _ hc'.1 hc'.2]
  apply scan_slope lo hi _ Tc Th (cumtrapz_inc hd) hc'.1 hh'.2 hle
  intro p q hpq h1 h2
  obtain ⟨p', q', hcon, e1, e2, e3⟩ := cumtrapz_consec d p q hpq
  obtain ⟨b1, b2⟩ := hb p' q' hcon (e1 ▸ h1) (e2 ▸ h2)
  have hlt : p'.1 < q'.1 := by
    obtain ⟨i, g1, g2⟩ := hcon
    obtain ⟨i1, i2⟩ := List.getElem?_eq_some_iff.mp g1
    obtain ⟨j1, j2⟩ := List.getElem?_eq_some_iff.mp g2
    have := List.pairwise_iff_getElem.mp hd i (i + 1) i1 j1 (by omega)
    rw [i2, j2] at this
    exact this
  rw [e3, ← e1, ← e2]
  constructor <;> nlinarith

/-! ### linearity -/

/-- tables over the same abscissae -/
theorem scan_linear {α : Type} (x f g h : α → R) (c : R) (hh : ∀ t, h t = f t + c * g t) (l : List α) (q : R) :
    npScan (l.map fun t => (x t, h t)) q =
      npScan (l.map fun t => (x t, f t)) q + c * npScan (l.map fun t => (x t, g t)) q := by
  induction l with
  | nil => simp [npScan]
  | cons a l ih =>
    cases l with
    | nil => simp [npScan, hh]
    | cons b l =>
      simp only [List.map_cons, npScan] at ih ⊢
      split
      · split
        · exact hh a
        · rw [hh a, hh b]; ring
      · exact ih

theorem interp_linear {α : Type} (x f g h : α → R) (c : R) (hh : ∀ t, h t = f t + c * g t) (l : List α) (q : R) :
    npInterp (l.map fun t => (x t, h t)) none none q =
      npInterp (l.map fun t => (x t, f t)) none none q + c * npInterp (l.map fun t => (x t, g t)) none none q := by
  cases l with
  | nil => simp [npInterp]
  | cons a l =>
    obtain ⟨b, hb⟩ : ∃ b, (a :: l).getLast? = some b := ⟨_, List.getLast?_eq_some_getLast (by simp)⟩
    simp only [npInterp, List.head?_map, List.getLast?_map, hb, Option.map_some, List.head?_cons]
    simp only [Option.getD_none]
    split
    · exact hh a
    · split
      · exact hh b
      · exact scan_linear x f g h c hh (a :: l) q

omit [LinearOrder R] [IsStrictOrderedRing R] in
/-- the cumulative integral as a function of the position in the list -/
def accs {α : Type} (x f : α → R) (acc : R) : α → List α → List (α × R)
  | _, [] => []
  | a, b :: l => (b, acc + (x b - x a) * (f b + f a) / 2) :: accs x f (acc + (x b - x a) * (f b + f a) / 2) b l

omit [LinearOrder R] [IsStrictOrderedRing R] in
theorem cumtrapzGo_accs {α : Type} (x f : α → R) (l : List α) : ∀ (acc : R) (a : α),
    cumtrapzGo acc (x a, f a) (l.map fun t => (x t, f t)) = (accs x f acc a l).map fun t => (x t.1, t.2) := by
  induction l with
  | nil => intros; rfl
  | cons b l ih => intro acc a; simp only [List.map_cons, cumtrapzGo, accs, ih]

omit [LinearOrder R] [IsStrictOrderedRing R] in
/-- three accumulations side by side -/
def accs3 {α : Type} (x f g h : α → R) (u : R × R × R) : α → List α → List (α × R × R × R)
  | _, [] => []
  | a, b :: l =>
    let u' := (u.1 + (x b - x a) * (f b + f a) / 2, u.2.1 + (x b - x a) * (g b + g a) / 2,
      u.2.2 + (x b - x a) * (h b + h a) / 2)
    (b, u') :: accs3 x f g h u' b l

omit [LinearOrder R] [IsStrictOrderedRing R] in
theorem accs3_spec {α : Type} (x f g h : α → R) (l : List α) : ∀ (u : R × R × R) (a : α),
    accs x f u.1 a l = (accs3 x f g h u a l).map (fun t => (t.1, t.2.1)) ∧
    accs x g u.2.1 a l = (accs3 x f g h u a l).map (fun t => (t.1, t.2.2.1)) ∧
    accs x h u.2.2 a l = (accs3 x f g h u a l).map (fun t => (t.1, t.2.2.2)) := by
  induction l with
  | nil => intros; exact ⟨rfl, rfl, rfl⟩
  | cons b l ih =>
    intro u a
    obtain ⟨i1, i2, i3⟩ := ih (u.1 + (x b - x a) * (f b + f a) / 2, u.2.1 + (x b - x a) * (g b + g a) / 2,
      u.2.2 + (x b - x a) * (h b + h a) / 2) b
    simp only at i1 i2 i3
    refine ⟨?_, ?_, ?_⟩ <;> simp only [accs, accs3, List.map_cons, i1, i2, i3]

omit [LinearOrder R] [IsStrictOrderedRing R] in
theorem accs3_linear {α : Type} (x f g h : α → R) (c : R) (hh : ∀ t, h t = f t + c * g t) (l : List α) :
    ∀ (u : R × R × R) (a : α), u.2.2 = u.1 + c * u.2.1 →
      ∀ t ∈ accs3 x f g h u a l, t.2.2.2 = t.2.1 + c * t.2.2.1 := by
  induction l with
  | nil => intro u a _ t ht; simp [accs3] at ht
  | cons b l ih =>
    intro u a hu t ht
    have hu' : u.2.2 + (x b - x a) * (h b + h a) / 2 =
        (u.1 + (x b - x a) * (f b + f a) / 2) + c * (u.2.1 + (x b - x a) * (g b + g a) / 2) := by
      rw [hu, hh a, hh b]; ring
    simp only [accs3, List.mem_cons] at ht
    rcases ht with rfl | ht
    · exact hu'
    · exact ih _ b hu' t ht

theorem scan_linear_mem {α : Type} (x f g h : α → R) (c : R) (l : List α) (hh : ∀ t ∈ l, h t = f t + c * g t) (q : R) :
    npScan (l.map fun t => (x t, h t)) q =
      npScan (l.map fun t => (x t, f t)) q + c * npScan (l.map fun t => (x t, g t)) q := by
  have e : l.map (fun t => (x t, h t)) = l.map (fun t => (x t, f t + c * g t)) :=
    List.map_congr_left fun t ht => by rw [hh t ht]
  rw [e]
  exact scan_linear x f g (fun t => f t + c * g t) c (fun _ => rfl) l q

theorem interp_linear_mem {α : Type} (x f g h : α → R) (c : R) (l : List α) (hh : ∀ t ∈ l, h t = f t + c * g t) (q : R) :
    npInterp (l.map fun t => (x t, h t)) none none q =
      npInterp (l.map fun t => (x t, f t)) none none q + c * npInterp (l.map fun t => (x t, g t)) none none q := by
  have e : l.map (fun t => (x t, h t)) = l.map (fun t => (x t, f t + c * g t)) :=
    List.map_congr_left fun t ht => by rw [hh t ht]
  rw [e]
  exact interp_linear x f g (fun t => f t + c * g t) c (fun _ => rfl) l q

/-- the tabulated integral is linear in the property -/
theorem tabItg_linear {α : Type} (x f g h : α → R) (c : R) (hh : ∀ t, h t = f t + c * g t) (l : List α) (Tc Th : R) :
    tabItg (l.map fun t => (x t, h t)) Tc Th =
      tabItg (l.map fun t => (x t, f t)) Tc Th + c * tabItg (l.map fun t => (x t, g t)) Tc Th := by
  cases l with
  | nil => simp [tabItg, cumtrapz, npInterp]
  | cons a l =>
    obtain ⟨i1, i2, i3⟩ := accs3_spec x f g h l (0, 0, 0) a
    simp only at i1 i2 i3
    have cf : cumtrapz ((a :: l).map fun t => (x t, f t)) =
        ((a, 0, 0, 0) :: accs3 x f g h (0, 0, 0) a l).map fun t => (x t.1, t.2.1) := by
      simp only [List.map_cons, cumtrapz, cumtrapzGo_accs, i1, List.map_map, Function.comp_def]
    have cg : cumtrapz ((a :: l).map fun t => (x t, g t)) =
        ((a, 0, 0, 0) :: accs3 x f g h (0, 0, 0) a l).map fun t => (x t.1, t.2.2.1) := by
      simp only [List.map_cons, cumtrapz, cumtrapzGo_accs, i2, List.map_map, Function.comp_def]
    have ch : cumtrapz ((a :: l).map fun t => (x t, h t)) =
        ((a, 0, 0, 0) :: accs3 x f g h (0, 0, 0) a l).map fun t => (x t.1, t.2.2.2) := by
      simp only [List.map_cons, cumtrapz, cumtrapzGo_accs, i3, List.map_map, Function.comp_def]
    have hl : ∀ t ∈ ((a, (0 : R), (0 : R), (0 : R)) :: accs3 x f g h (0, 0, 0) a l), t.2.2.2 = t.2.1 + c * t.2.2.1 := by
      intro t ht
      rcases List.mem_cons.mp ht with rfl | ht
      · simp
      · exact accs3_linear x f g h c hh l (0, 0, 0) a (by simp) t ht
    have key := fun q => interp_linear_mem (α := α × R × R × R) (fun t => x t.1) (fun t => t.2.1) (fun t => t.2.2.1)
      (fun t => t.2.2.2) c _ hl q
    unfold tabItg
    rw [cf, cg, ch, key Th, key Tc]
    ring

/-! ### exactness at the data points -/

/-- at a data point the interpolant is the datum -/
theorem scan_node (d : List (R × R)) (hd : Inc d) (p : R × R) (hp : p ∈ d) : npScan d p.1 = p.2 := by
  induction d with
  | nil => simp at hp
  | cons r d ih =>
    obtain ⟨a, fa⟩ := r
    rcases List.mem_cons.mp hp with rfl | hp'
    · exact scan_head a fa d hd
    · cases d with
      | nil => simp at hp'
      | cons s d =>
        obtain ⟨b, fb⟩ := s
        have hinc := (List.pairwise_cons.mp hd).2
        have hb : b ≤ p.1 := by
          rcases List.mem_cons.mp hp' with rfl | h
          · exact le_rfl
          · exact ((List.pairwise_cons.mp hinc).1 p h).le
        rw [scan_skip a fa b fb d p.1 hb]
        exact ih hinc hp'

theorem inside_of_mem (d : List (R × R)) (hd : Inc d) (p : R × R) (hp : p ∈ d) : Inside d p.1 := by
  constructor
  · cases d with
    | nil => simp at hp
    | cons r d =>
      refine ⟨r, rfl, ?_⟩
      rcases List.mem_cons.mp hp with rfl | h
      · exact le_rfl
      · exact ((List.pairwise_cons.mp hd).1 p h).le
  · have hne : d ≠ [] := List.ne_nil_of_mem hp
    refine ⟨d.getLast hne, List.getLast?_eq_some_getLast hne, ?_⟩
    obtain ⟨i, hi, rfl⟩ := List.getElem_of_mem hp
    rw [List.getLast_eq_getElem]
    by_cases h : i = d.length - 1
    · subst h; exact le_rfl
    · exact (List.pairwise_iff_getElem.mp hd i (d.length - 1) hi (by omega) (by omega)).le

theorem interp_node (d : List (R × R)) (hd : Inc d) (p : R × R) (hp : p ∈ d) : npInterp d none none p.1 = p.2 := by
  have h := inside_of_mem d hd p hp
  rw [interp_scan d p.1 h.1 h.2, scan_node d hd p hp]

/-- an accumulated function whose increments match those of `G` differs from `G` by a constant -/
theorem cumtrapzGo_exact (G : R → R) (rest : List (R × R)) : ∀ (acc x y : R),
    (∀ p q, Consec ((x, y) :: rest) p q → (q.1 - p.1) * (q.2 + p.2) / 2 = G q.1 - G p.1) →
    ∀ r ∈ cumtrapzGo acc (x, y) rest, r.2 = acc + (G r.1 - G x) := by
  induction rest with
  | nil => intro acc x y _ r hr; simp [cumtrapzGo] at hr
  | cons s rest ih =>
    obtain ⟨x1, y1⟩ := s
    intro acc x y h r hr
    have h1 := h (x, y) (x1, y1) (Consec.first _ _ _)
    simp only [cumtrapzGo, List.mem_cons] at hr
    simp only at h1
    rcases hr with rfl | hr
    · simp only; rw [h1]
    · have := ih _ x1 y1 (fun p q hpq => h p q (hpq.cons _)) r hr
      rw [this, h1]; ring

theorem cumtrapz_exact (G : R → R) (d : List (R × R))
    (h : ∀ p q, Consec d p q → (q.1 - p.1) * (q.2 + p.2) / 2 = G q.1 - G p.1) :
    ∃ k, ∀ r ∈ cumtrapz d, r.2 = G r.1 + k := by
  cases d with
  | nil => exact ⟨0, by simp [cumtrapz]⟩
  | cons s rest =>
    obtain ⟨x, y⟩ := s
    refine ⟨-G x, ?_⟩
    intro r hr
    simp only [cumtrapz, List.mem_cons] at hr
    rcases hr with rfl | hr
    · simp
    · rw [cumtrapzGo_exact G rest 0 x y h r hr]; ring

/-- between data points with matching increments the tabulated integral is `G Th - G Tc` -/
theorem tabItg_exact (G : R → R) (d : List (R × R)) (hd : Inc d)
    (h : ∀ p q, Consec d p q → (q.1 - p.1) * (q.2 + p.2) / 2 = G q.1 - G p.1) (Tc Th : R)
    (hc : Tc ∈ d.map Prod.fst) (hh : Th ∈ d.map Prod.fst) : tabItg d Tc Th = G Th - G Tc := by
  obtain ⟨k, hk⟩ := cumtrapz_exact G d h
  rw [← cumtrapz_fst] at hc hh
  obtain ⟨p, hp, rfl⟩ := List.mem_map.mp hc
  obtain ⟨q, hq, rfl⟩ := List.mem_map.mp hh
  have hinc := cumtrapz_inc hd
  unfold tabItg
  rw [interp_node _ hinc p hp, interp_node _ hinc q hq, hk p hp, hk q hq]
  ring

omit [Field R] [LinearOrder R] [IsStrictOrderedRing R] in
theorem consec_mem {d : List (R × R)} {p q : R × R} (h : Consec d p q) : p ∈ d ∧ q ∈ d := by
  obtain ⟨i, h1, h2⟩ := h
  exact ⟨List.mem_of_getElem? h1, List.mem_of_getElem? h2⟩

theorem consec_lt {d : List (R × R)} (hd : Inc d) {p q : R × R} (h : Consec d p q) : p.1 < q.1 := by
  obtain ⟨i, g1, g2⟩ := h
  obtain ⟨i1, i2⟩ := List.getElem?_eq_some_iff.mp g1
  obtain ⟨j1, j2⟩ := List.getElem?_eq_some_iff.mp g2
  have := List.pairwise_iff_getElem.mp hd i (i + 1) i1 j1 (by omega)
  rw [i2, j2] at this
  exact this

/-- no data point lies strictly between consecutive ones -/
theorem consec_gap {d : List (R × R)} (hd : Inc d) {p q : R × R} (h : Consec d p q) (x : R) (hx : x ∈ d.map Prod.fst) :
    x ≤ p.1 ∨ q.1 ≤ x := by
  obtain ⟨i, g1, g2⟩ := h
  obtain ⟨i1, i2⟩ := List.getElem?_eq_some_iff.mp g1
  obtain ⟨j1, j2⟩ := List.getElem?_eq_some_iff.mp g2
  obtain ⟨r, hr, rfl⟩ := List.mem_map.mp hx
  obtain ⟨k, hk, rfl⟩ := List.getElem_of_mem hr
  rcases Nat.lt_trichotomy k i with h | h | h
  · left; rw [← i2]; exact (List.pairwise_iff_getElem.mp hd k i hk i1 h).le
  · subst h; left; rw [i2]
  · right
    rw [← j2]
    rcases Nat.lt_or_ge (i + 1) k with h' | h'
    · exact (List.pairwise_iff_getElem.mp hd (i + 1) k j1 hk h').le
    · have : k = i + 1 := by omega
      subst this; exact le_rfl

end TEflow.Engout
