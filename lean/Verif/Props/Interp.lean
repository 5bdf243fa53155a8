import Mathlib.Algebra.Order.Field.Basic
import Mathlib.Data.Rat.Floor
import Mathlib.Data.List.Sort
import Mathlib.Tactic
import Verif.Model.Interp

/-! # C35-C37: `interpx`, `vinterp`, `vquad` -/

namespace TEflow.Mathext

section Interpx
variable {R : Type} [Field R] [LinearOrder R] [IsStrictOrderedRing R]

/-- the straight line through two points, at `q` -/
def chord (xa ya xb yb q : R) : R := ya + (yb - ya) / (xb - xa) * (q - xa)

omit [IsStrictOrderedRing R] in
theorem npScan_head (a fa : R) (rest : List (R × R)) (h : ∀ p ∈ rest, a < p.1) :
    npScan ((a, fa) :: rest) a = fa := by
  cases rest with
  | nil => rfl
  | cons p rest =>
    obtain ⟨b, fb⟩ := p
    have := h (b, fb) List.mem_cons_self
    rw [npScan, if_pos this, if_pos rfl]

theorem npScan_seg (d : List (R × R)) (hd : d.Pairwise (fun p q => p.1 < q.1)) (i : Nat) (a fa b fb q : R)
    (h1 : d[i]? = some (a, fa)) (h2 : d[i + 1]? = some (b, fb)) (hq1 : a ≤ q) (hq2 : q ≤ b) :
    npScan d q = chord a fa b fb q := by
  induction d generalizing i with
  | nil => simp at h1
  | cons p0 d ih =>
    cases d with
    | nil => simp at h2
    | cons p1 rest =>
      obtain ⟨x0, y0⟩ := p0
      obtain ⟨x1, y1⟩ := p1
      rw [List.pairwise_cons] at hd
      have h01 : x0 < x1 := hd.1 (x1, y1) List.mem_cons_self
      rw [npScan]
      cases i with
      | zero =>
        simp only [List.getElem?_cons_zero, Option.some.injEq, Prod.mk.injEq, zero_add, List.getElem?_cons_succ] at h1 h2
        obtain ⟨rfl, rfl⟩ := h1
        obtain ⟨rfl, rfl⟩ := h2
        unfold chord
        split
        · split
          · rename_i h; subst h; simp
          · ring
        · rename_i hlt
          have : q = x1 := le_antisymm hq2 (not_lt.mp hlt)
          subst this
          rw [npScan_head _ _ _ (List.pairwise_cons.mp hd.2).1]
          have : q - x0 ≠ 0 := by linarith [h01] |> fun h : 0 < q - x0 => h.ne'
          field_simp
          ring
      | succ i =>
        simp only [List.getElem?_cons_succ] at h1 h2
        have hx : x1 ≤ a := by
          cases i with
          | zero =>
            simp only [List.getElem?_cons_zero, Option.some.injEq, Prod.mk.injEq] at h1
            exact h1.1.le
          | succ i =>
            simp only [List.getElem?_cons_succ] at h1
            exact ((List.pairwise_cons.mp hd.2).1 (a, fa) (List.mem_of_getElem? h1)).le
        rw [if_neg (not_lt.mpr (le_trans hx hq1))]
        exact ih hd.2 i (by simpa using h1) (by simpa using h2)

/-- strictly increasing abscissae with one ordinate each, at least two of them -/
structure Tab (x y : List R) : Prop where
  two : 2 ≤ x.length
  len : x.length = y.length
  inc : x.Pairwise (· < ·)

omit [IsStrictOrderedRing R] in
theorem Tab.zip_inc {x y : List R} (h : Tab x y) : (x.zip y).Pairwise (fun p q => p.1 < q.1) := by
  have := h.inc
  have e : x = (x.zip y).map Prod.fst := by rw [List.map_fst_zip]; exact h.len.le
  rw [e, List.pairwise_map] at this
  exact this

theorem getLast?_reverse_cons {α : Type} (l : List α) (a b : α) (r : List α) (h : l.reverse = a :: b :: r) :
    l[l.length - 1]? = some a ∧ l[l.length - 2]? = some b ∧ l.getLast? = some a := by
  have e : l = r.reverse ++ [b, a] := by
    have := congrArg List.reverse h; simpa using this
  subst e
  simp

omit [IsStrictOrderedRing R] in
theorem interpx1_inside {x y : List R} (h : Tab x y) (left right : Option R) (q : R)
    (hlo : ∀ a, x[0]? = some a → a ≤ q) (hhi : ∀ a, x[x.length - 1]? = some a → q ≤ a) :
    interpx1 (x.zip y) left right q = npScan (x.zip y) q := by
  have hlen : (x.zip y).length = x.length := by simp [h.len]
  have h2 := h.two
  match hx : x.zip y, hr : (x.zip y).reverse with
  | [], _ => rw [hx] at hlen; simp at hlen; omega
  | [_], _ => rw [hx] at hlen; simp at hlen; omega
  | p0 :: p1 :: rest, [] => rw [hx] at hr; simp at hr
  | p0 :: p1 :: rest, [_] => rw [hx] at hr; simpa using congrArg List.length hr
  | p0 :: p1 :: rest, pl :: pm :: rest' =>
    obtain ⟨e1, e2, e3⟩ := getLast?_reverse_cons _ _ _ _ hr
    have ef : x[0]? = some p0.1 := by
      have : (x.zip y)[0]? = some p0 := by rw [hx]; rfl
      have := congrArg (Option.map Prod.fst) this
      rw [← List.getElem?_map, List.map_fst_zip h.len.le] at this
      simpa using this
    have el : x[x.length - 1]? = some pl.1 := by
      have := congrArg (Option.map Prod.fst) e1
      rw [← List.getElem?_map, List.map_fst_zip h.len.le, hlen] at this
      simpa using this
    have q1 := hlo _ ef
    have q2 := hhi _ el
    obtain ⟨x0, y0⟩ := p0
    obtain ⟨x1, y1⟩ := p1
    obtain ⟨xl, yl⟩ := pl
    obtain ⟨xm, ym⟩ := pm
    unfold interpx1
    rw [hx] at hr e3
    rw [hr]
    simp only
    rw [if_neg (fun hh => absurd hh.2 (not_lt.mpr q1)), if_neg (fun hh => absurd hh.2 (not_lt.mpr q2))]
    unfold npInterp
    rw [e3]
    simp only [List.head?_cons]
    rw [if_neg (not_lt.mpr q1), if_neg (not_lt.mpr q2)]

omit [IsStrictOrderedRing R] in
theorem interpx1_left {x y : List R} (h : Tab x y) (left right : Option R) (q a0 f0 a1 f1 : R)
    (hx0 : x[0]? = some a0) (hy0 : y[0]? = some f0) (hx1 : x[1]? = some a1) (hy1 : y[1]? = some f1) (hq : q < a0) :
    interpx1 (x.zip y) left right q = match left with | some l => l | none => chord a0 f0 a1 f1 q := by
  match x, y, h with
  | b0 :: b1 :: x, g0 :: g1 :: y, h =>
    simp only [List.getElem?_cons_zero, List.getElem?_cons_succ, Option.some.injEq] at hx0 hy0 hx1 hy1
    subst hx0 hy0 hx1 hy1
    have hall : ∀ p ∈ ((b0, g0) :: (b1, g1) :: x.zip y), b0 ≤ p.1 := by
      intro p hp
      have hz := h.zip_inc
      simp only [List.zip_cons_cons] at hz
      rcases List.mem_cons.mp hp with rfl | hp
      · exact le_refl _
      · exact ((List.pairwise_cons.mp hz).1 p hp).le
    simp only [List.zip_cons_cons]
    match hr : ((b0, g0) :: (b1, g1) :: x.zip y).reverse with
    | [] => simp at hr
    | [_] => simpa using congrArg List.length hr
    | (xl, yl) :: (xm, ym) :: rest' =>
      obtain ⟨e1, e2, e3⟩ := getLast?_reverse_cons _ _ _ _ hr
      have hl := hall (xl, yl) (List.mem_of_getLast? e3)
      unfold interpx1
      rw [hr]
      simp only
      cases left with
      | none => simp [hq, chord]
      | some l =>
        rw [if_neg (by simp), if_neg (fun hh => absurd hh.2 (not_lt.mpr (le_trans hq.le hl)))]
        unfold npInterp
        rw [e3]
        simp [hq]

omit [IsStrictOrderedRing R] in
theorem interpx1_right {x y : List R} (h : Tab x y) (left right : Option R) (q a0 f0 a1 f1 : R)
    (hx0 : x[x.length - 1]? = some a0) (hy0 : y[x.length - 1]? = some f0) (hx1 : x[x.length - 2]? = some a1)
    (hy1 : y[x.length - 2]? = some f1) (hq : a0 < q) :
    interpx1 (x.zip y) left right q =
      match right with | some l => l | none => f0 + (f0 - f1) / (a0 - a1) * (q - a0) := by
  have hlen : (x.zip y).length = x.length := by simp [h.len]
  have h2 := h.two
  match hx : x.zip y, hr : (x.zip y).reverse with
  | [], _ => rw [hx] at hlen; simp at hlen; omega
  | [_], _ => rw [hx] at hlen; simp at hlen; omega
  | p0 :: p1 :: rest, [] => rw [hx] at hr; simp at hr
  | p0 :: p1 :: rest, [_] => rw [hx] at hr; simpa using congrArg List.length hr
  | p0 :: p1 :: rest, pl :: pm :: rest' =>
    obtain ⟨e1, e2, e3⟩ := getLast?_reverse_cons _ _ _ _ hr
    have z1 : (x.zip y)[x.length - 1]? = some (a0, f0) := by
      rw [List.getElem?_zip_eq_some]; exact ⟨hx0, hy0⟩
    have z2 : (x.zip y)[x.length - 2]? = some (a1, f1) := by
      rw [List.getElem?_zip_eq_some]; exact ⟨hx1, hy1⟩
    rw [hlen, z1] at e1
    rw [hlen, z2] at e2
    injection e1 with e1; injection e2 with e2
    subst e1 e2
    have hall : p0.1 ≤ a0 := by
      have hz := h.zip_inc
      rw [hx] at hz
      have : (a0, f0) ∈ p0 :: p1 :: rest := by rw [← hx]; exact List.mem_of_getElem? z1
      rcases List.mem_cons.mp this with h | h
      · rw [← h]
      · exact ((List.pairwise_cons.mp hz).1 _ h).le
    obtain ⟨x0, y0⟩ := p0
    obtain ⟨x1, y1⟩ := p1
    unfold interpx1
    rw [hx] at hr e3
    rw [hr]
    simp only
    rw [if_neg (fun hh => absurd hh.2 (not_lt.mpr (le_trans hall hq.le)))]
    cases right with
    | none => simp [hq]
    | some l =>
      rw [if_neg (by simp)]
      unfold npInterp
      rw [e3]
      simp only [List.head?_cons]
      rw [if_neg (not_lt.mpr (le_trans hall hq.le)), if_pos hq]
      rfl

/-- **C35** `interpx` applies one function to every query point; between neighbouring data points (both included) it is
the straight line between them, below the first point the line of the first two points (or the `left` value), above the
last point the line of the last two points (or the `right` value). -/
theorem C35_piecewise_linear (x y : List R) (h : Tab x y) (left right : Option R) :
    ∃ f : R → R, (∀ qs, interpx x y (.array qs) left right = .ok (.array (qs.map f))) ∧
      (∀ (i : Nat) (a b fa fb q : R), x[i]? = some a → x[i + 1]? = some b → y[i]? = some fa → y[i + 1]? = some fb →
        a ≤ q → q ≤ b → f q = chord a fa b fb q) ∧
      (∀ a b fa fb q : R, x[0]? = some a → x[1]? = some b → y[0]? = some fa → y[1]? = some fb → q < a →
        f q = match left with | some l => l | none => chord a fa b fb q) ∧
      (∀ a b fa fb q : R, x[x.length - 2]? = some a → x[x.length - 1]? = some b → y[x.length - 2]? = some fa →
        y[x.length - 1]? = some fb → b < q → f q = match right with | some r => r | none => chord a fa b fb q) := by
  refine ⟨interpx1 (x.zip y) left right, ?_, ?_, ?_, ?_⟩
  · intro qs
    simp only [interpx]
    rw [if_neg (by have := h.two; omega), if_neg (by simp [h.len])]
  · intro i a b fa fb q hxa hxb hya hyb h1 h2
    have hi : i + 1 < x.length := by
      by_contra hc; rw [List.getElem?_eq_none (by omega)] at hxb; cases hxb
    have hmono : ∀ (j k : Nat) (u v : R), x[j]? = some u → x[k]? = some v → j ≤ k → u ≤ v := by
      intro j k u v hu hv hjk
      rcases Nat.eq_or_lt_of_le hjk with rfl | hlt
      · rw [hu] at hv; injection hv with hv; exact hv.le
      · have hj : j < x.length := by
          by_contra hc; rw [List.getElem?_eq_none (by omega)] at hu; cases hu
        have hk : k < x.length := by
          by_contra hc; rw [List.getElem?_eq_none (by omega)] at hv; cases hv
        rw [List.getElem?_eq_getElem hj] at hu
        rw [List.getElem?_eq_getElem hk] at hv
        injection hu with hu; injection hv with hv
        subst hu hv
        exact (List.pairwise_iff_getElem.mp h.inc j k hj hk hlt).le
    rw [interpx1_inside h left right q (fun a0 ha0 => le_trans (hmono 0 i _ _ ha0 hxa (by omega)) h1)
      (fun a0 ha0 => le_trans h2 (hmono (i + 1) _ _ _ hxb ha0 (by omega)))]
    refine npScan_seg (x.zip y) h.zip_inc i a fa b fb q ?_ ?_ h1 h2
    · rw [List.getElem?_zip_eq_some]; exact ⟨hxa, hya⟩
    · rw [List.getElem?_zip_eq_some]; exact ⟨hxb, hyb⟩
  · intro a b fa fb q hxa hxb hya hyb hq
    exact interpx1_left h left right q a fa b fb hxa hya hxb hyb hq
  · intro a b fa fb q hxa hxb hya hyb hq
    rw [interpx1_right h left right q b fb a fa hxb hyb hxa hya hq]
    cases right with
    | some r => rfl
    | none =>
      simp only [chord]
      have hab : a < b := by
        have h2 := h.two
        have e1 : x[x.length - 2]'(by omega) = a := by
          rw [List.getElem?_eq_getElem (by omega)] at hxa; injection hxa
        have e2 : x[x.length - 1]'(by omega) = b := by
          rw [List.getElem?_eq_getElem (by omega)] at hxb; injection hxb
        rw [← e1, ← e2]
        exact List.pairwise_iff_getElem.mp h.inc _ _ _ _ (by omega)
      have : b - a ≠ 0 := (sub_pos.mpr hab).ne'
      field_simp
      ring

/-- the neighbours of a query point -/
theorem Tab.locate {x y : List R} (h : Tab x y) (q : R) :
    (∃ a, x[0]? = some a ∧ q < a) ∨ (∃ b, x[x.length - 1]? = some b ∧ b < q) ∨
      ∃ (i : Nat) (a b : R), x[i]? = some a ∧ x[i + 1]? = some b ∧ a ≤ q ∧ q ≤ b := by
  have h2 := h.two
  by_cases h0 : q < x[0]'(by omega)
  · left; exact ⟨_, List.getElem?_eq_getElem _, h0⟩
  · by_cases hl : x[x.length - 1]'(by omega) < q
    · right; left; exact ⟨_, List.getElem?_eq_getElem _, hl⟩
    · right; right
      have key : ∀ n (hn : n < x.length), 1 ≤ n → q ≤ x[n] →
          ∃ (i : Nat) (a b : R), x[i]? = some a ∧ x[i + 1]? = some b ∧ a ≤ q ∧ q ≤ b := by
        intro n
        induction n with
        | zero => intro _ h; omega
        | succ n ih =>
          intro hn _ hq
          by_cases hc : x[n]'(by omega) ≤ q
          · exact ⟨n, _, _, List.getElem?_eq_getElem (by omega), List.getElem?_eq_getElem hn, hc, hq⟩
          · rcases Nat.eq_zero_or_pos n with rfl | hp
            · exact absurd (not_lt.mp h0) hc
            · exact ih (by omega) hp (not_le.mp hc).le
      exact key (x.length - 1) (by omega) (by omega) (not_lt.mp hl)

/-- **C35** At every data point the data value is returned (whatever `left`/`right`). -/
theorem C35_at_data (x y : List R) (h : Tab x y) (left right : Option R) (i : Nat) (a fa : R)
    (hx : x[i]? = some a) (hy : y[i]? = some fa) :
    interpx x y (.array [a]) left right = .ok (.array [fa]) := by
  obtain ⟨f, hf, hseg, -, -⟩ := C35_piecewise_linear x y h left right
  rw [hf]
  suffices f a = fa by simp [this]
  have hi : i < x.length := by
    by_contra hc; rw [List.getElem?_eq_none (by omega)] at hx; cases hx
  have h2 := h.two
  have hl := h.len
  have ex : ∀ j, j < x.length → ∃ u v, x[j]? = some u ∧ y[j]? = some v := fun j hj =>
    ⟨x[j], y[j]'(by omega), List.getElem?_eq_getElem hj, List.getElem?_eq_getElem (by omega)⟩
  have lt : ∀ (j : Nat) (u v : R), x[j]? = some u → x[j + 1]? = some v → u < v := by
    intro j u v hu hv
    have hj : j + 1 < x.length := by
      by_contra hc; rw [List.getElem?_eq_none (by omega)] at hv; cases hv
    rw [List.getElem?_eq_getElem (by omega)] at hu
    rw [List.getElem?_eq_getElem hj] at hv
    injection hu with hu; injection hv with hv
    subst hu hv
    exact List.pairwise_iff_getElem.mp h.inc j (j + 1) _ _ (by omega)
  by_cases hlast : i + 1 < x.length
  · obtain ⟨b, fb, hb, hfb⟩ := ex (i + 1) hlast
    rw [hseg i a b fa fb a hx hb hy hfb (le_refl _) (lt i a b hx hb).le]
    simp [chord]
  · obtain ⟨j, rfl⟩ : ∃ j, i = j + 1 := ⟨i - 1, by omega⟩
    obtain ⟨b, fb, hb, hfb⟩ := ex j (by omega)
    have hlt := lt j b a hb hx
    rw [hseg j b a fb fa a hb hx hfb hy hlt.le (le_refl _)]
    have : a - b ≠ 0 := (sub_pos.mpr hlt).ne'
    unfold chord; field_simp; ring

/-- **C35** Data on a straight line are continued by that line at every query point, inside and outside the range. -/
theorem C35_line (x : List R) (m c : R) (hx : x.Pairwise (· < ·)) (h2 : 2 ≤ x.length) (qs : List R) :
    interpx x (x.map (fun t => m * t + c)) (.array qs) none none = .ok (.array (qs.map (fun t => m * t + c))) := by
  have h : Tab x (x.map (fun t => m * t + c)) := ⟨h2, by simp, hx⟩
  obtain ⟨f, hf, hseg, hleft, hright⟩ := C35_piecewise_linear x _ h none none
  rw [hf]
  congr 2
  apply List.map_congr_left
  intro q _
  have line : ∀ a b, a < b → chord a (m * a + c) b (m * b + c) q = m * q + c := by
    intro a b hab
    have : b - a ≠ 0 := (sub_pos.mpr hab).ne'
    unfold chord; field_simp; ring
  have ey : ∀ (i : Nat) (a : R), x[i]? = some a → (x.map (fun t => m * t + c))[i]? = some (m * a + c) := by
    intro i a h; rw [List.getElem?_map, h]; rfl
  have lt : ∀ (j k : Nat) (u v : R), j < k → x[j]? = some u → x[k]? = some v → u < v := by
    intro j k u v hjk hu hv
    have hk : k < x.length := by
      by_contra hc; rw [List.getElem?_eq_none (by omega)] at hv; cases hv
    rw [List.getElem?_eq_getElem (by omega)] at hu
    rw [List.getElem?_eq_getElem hk] at hv
    injection hu with hu; injection hv with hv
    subst hu hv
    exact List.pairwise_iff_getElem.mp hx j k _ _ hjk
  have g : ∀ j, j < x.length → ∃ u, x[j]? = some u := fun j hj => ⟨x[j], List.getElem?_eq_getElem hj⟩
  rcases h.locate q with ⟨a, ha, hq⟩ | ⟨b, hb, hq⟩ | ⟨i, a, b, ha, hb, h1, h2'⟩
  · obtain ⟨b, hb⟩ := g 1 (by omega)
    rw [hleft a b _ _ q ha hb (ey _ _ ha) (ey _ _ hb) hq]
    exact line a b (lt 0 1 _ _ (by omega) ha hb)
  · obtain ⟨a, ha⟩ := g (x.length - 2) (by omega)
    rw [hright a b _ _ q ha hb (ey _ _ ha) (ey _ _ hb) hq]
    exact line a b (lt _ _ _ _ (by omega) ha hb)
  · rw [hseg i a b _ _ q ha hb (ey _ _ ha) (ey _ _ hb) h1 h2']
    exact line a b (lt _ _ _ _ (by omega) ha hb)

/-- **C35** Between neighbouring data points the value lies between their ordinates. -/
theorem C35_between (x y : List R) (h : Tab x y) (left right : Option R) (i : Nat) (a b fa fb q : R)
    (hxa : x[i]? = some a) (hxb : x[i + 1]? = some b) (hya : y[i]? = some fa) (hyb : y[i + 1]? = some fb)
    (h1 : a ≤ q) (h2 : q ≤ b) :
    ∃ v, interpx x y (.array [q]) left right = .ok (.array [v]) ∧ min fa fb ≤ v ∧ v ≤ max fa fb := by
  obtain ⟨f, hf, hseg, -, -⟩ := C35_piecewise_linear x y h left right
  refine ⟨f q, by rw [hf]; rfl, ?_⟩
  rw [hseg i a b fa fb q hxa hxb hya hyb h1 h2]
  have hab : a < b := by
    have hi : i + 1 < x.length := by
      by_contra hc; rw [List.getElem?_eq_none (by omega)] at hxb; cases hxb
    rw [List.getElem?_eq_getElem (by omega)] at hxa
    rw [List.getElem?_eq_getElem hi] at hxb
    injection hxa with hu; injection hxb with hv
    subst hu hv
    exact List.pairwise_iff_getElem.mp h.inc i (i + 1) _ _ (by omega)
  have hpos : 0 < b - a := sub_pos.mpr hab
  have ht0 : 0 ≤ (q - a) / (b - a) := div_nonneg (by linarith) hpos.le
  have ht1 : (q - a) / (b - a) ≤ 1 := by rw [div_le_one hpos]; linarith
  have e : chord a fa b fb q = fa + (fb - fa) * ((q - a) / (b - a)) := by unfold chord; field_simp
  rw [e]
  constructor
  · rcases le_total fa fb with hh | hh
    · rw [min_eq_left hh]; nlinarith
    · rw [min_eq_right hh]; nlinarith
  · rcases le_total fa fb with hh | hh
    · rw [max_eq_right hh]; nlinarith
    · rw [max_eq_left hh]; nlinarith

omit [IsStrictOrderedRing R] in
/-- **C35** Errors, and the finding that a *single* query number outside the data range (without fill value on that
side) is a `TypeError` although the same number in a list is extrapolated. -/
theorem C35_errors (x y : List R) (xp : Query R) (left right : Option R) :
    (x.length < 2 → interpx x y xp left right = .error .valueError) ∧
    (x.length ≠ y.length → interpx x y xp left right = .error .valueError) ∧
    (∀ q, Tab x y → xp = .scalar q → left = none → (∃ a, x[0]? = some a ∧ q < a) →
      interpx x y xp left right = .error .typeError) ∧
    (∀ q, Tab x y → xp = .scalar q → right = none → (∃ a, x[x.length - 1]? = some a ∧ a < q) →
      interpx x y xp left right = .error .typeError) := by
  refine ⟨?_, ?_, ?_, ?_⟩
  · intro h; simp [interpx, h]
  · intro h; simp only [interpx]; split
    · rfl
    · simp [h]
  · rintro q h rfl rfl ⟨a, ha, hq⟩
    simp only [interpx]
    rw [if_neg (by have := h.two; omega), if_neg (by simp [h.len])]
    rw [if_pos]
    left
    refine ⟨rfl, ?_⟩
    match x, y, h with
    | b0 :: x, g0 :: y, h =>
      simp at ha; subst ha
      exact ⟨(b0, g0), by simp, hq⟩
    | [], _, h => simp at ha
    | _ :: _, [], h => exact absurd h.len (by simp)
  · rintro q h rfl rfl ⟨a, ha, hq⟩
    have h2 := h.two
    have hl := h.len
    simp only [interpx]
    rw [if_neg (by omega), if_neg (by simp [h.len])]
    rw [if_pos]
    right
    refine ⟨rfl, ?_⟩
    refine ⟨(a, y[x.length - 1]'(by omega)), ?_, hq⟩
    rw [List.getLast?_eq_getElem?]
    simp only [List.length_zip, Option.mem_def]
    rw [List.getElem?_zip_eq_some]
    have em : min x.length y.length = x.length := by omega
    rw [em]
    exact ⟨ha, List.getElem?_eq_getElem _⟩

example : Tab ([0, 1, 3] : List ℚ) [5, 7, 1] := ⟨by decide, by decide, by decide⟩
example : (match interpx ([0, 1, 3] : List ℚ) [5, 7, 1] (.array [-1, 1/2, 2, 4]) none none with
    | .ok (.array v) => v | _ => []) = [3, 6, 4, -2] := by decide +kernel

end Interpx

section Vinterp
variable {R : Type} [LinearOrder R]

/-- what `np.argsort` guarantees: a rearrangement of the indices that puts the entries into ascending order -/
def IsArgsort (argsort : List R → List Nat) : Prop :=
  ∀ l, (argsort l).Perm (List.range l.length) ∧ (pick l (argsort l)).Pairwise (· ≤ ·)

theorem pick_getElem? {α : Type} (l : List α) (σ : List Nat) (h : ∀ j ∈ σ, j < l.length) (i : Nat) :
    (pick l σ)[i]? = σ[i]?.bind (l[·]?) := by
  induction σ generalizing i with
  | nil => simp [pick]
  | cons j σ ih =>
    have hj := h j List.mem_cons_self
    have e : pick l (j :: σ) = l[j] :: pick l σ := by simp [pick, List.getElem?_eq_getElem hj]
    rw [e]
    cases i with
    | zero => simp [hj]
    | succ i => simpa using ih (fun k hk => h k (List.mem_cons_of_mem _ hk)) i

theorem pick_pick {α : Type} (l : List α) (σ τ : List Nat) (h : ∀ j ∈ σ, j < l.length) :
    pick (pick l σ) τ = pick l (pick σ τ) := by
  unfold pick at *
  rw [List.filterMap_filterMap]
  apply List.filterMap_congr
  intro i _
  exact pick_getElem? l σ h i

theorem pick_range {α : Type} (l : List α) : pick l (List.range l.length) = l := by
  induction l with
  | nil => rfl
  | cons a l ih =>
    rw [List.length_cons, List.range_succ_eq_map]
    simp only [pick, List.filterMap_cons, List.getElem?_cons_zero, List.filterMap_map]
    congr 1

theorem pick_perm {α : Type} (l : List α) {σ τ : List Nat} (h : σ.Perm τ) : (pick l σ).Perm (pick l τ) := h.filterMap _

theorem pick_perm_self {α : Type} (l : List α) {σ : List Nat} (h : σ.Perm (List.range l.length)) : (pick l σ).Perm l := by
  have := pick_perm l h
  rwa [pick_range] at this

/-- two index lists in range that pick the same entries of a list without repetitions are equal -/
theorem pick_inj {α : Type} (l : List α) (hn : l.Nodup) (σ τ : List Nat) (hσ : ∀ j ∈ σ, j < l.length)
    (hτ : ∀ j ∈ τ, j < l.length) (h : pick l σ = pick l τ) : σ = τ := by
  induction σ generalizing τ with
  | nil =>
    cases τ with
    | nil => rfl
    | cons k τ =>
      have hk := hτ k List.mem_cons_self
      simp [pick, List.getElem?_eq_getElem hk] at h
  | cons j σ ih =>
    have hj := hσ j List.mem_cons_self
    cases τ with
    | nil => simp [pick, List.getElem?_eq_getElem hj] at h
    | cons k τ =>
      have hk := hτ k List.mem_cons_self
      have e1 : pick l (j :: σ) = l[j] :: pick l σ := by simp [pick, List.getElem?_eq_getElem hj]
      have e2 : pick l (k :: τ) = l[k] :: pick l τ := by simp [pick, List.getElem?_eq_getElem hk]
      rw [e1, e2] at h
      injection h with h1 h2
      rw [(List.Nodup.getElem_inj_iff hn).mp h1, ih τ (fun i hi => hσ i (List.mem_cons_of_mem _ hi))
        (fun i hi => hτ i (List.mem_cons_of_mem _ hi)) h2]

theorem hasDescent_iff (x : List R) :
    hasDescent x = true ↔ ∃ (i : Nat) (a b : R), x[i]? = some a ∧ x[i + 1]? = some b ∧ b < a := by
  induction x with
  | nil => simp [hasDescent]
  | cons a l ih =>
    cases l with
    | nil => simp [hasDescent]
    | cons b l =>
      rw [hasDescent, Bool.or_eq_true, ih, decide_eq_true_iff]
      constructor
      · rintro (h | ⟨i, u, v, h1, h2, h3⟩)
        · exact ⟨0, a, b, rfl, rfl, h⟩
        · exact ⟨i + 1, u, v, by simpa using h1, by simpa using h2, h3⟩
      · rintro ⟨i, u, v, h1, h2, h3⟩
        cases i with
        | zero => simp at h1 h2; subst h1 h2; exact Or.inl h3
        | succ i => exact Or.inr ⟨i, u, v, by simpa using h1, by simpa using h2, h3⟩

theorem sorted_of_not_hasDescent (x : List R) (h : hasDescent x = false) : x.Pairwise (· ≤ ·) := by
  rw [← List.isChain_iff_pairwise, List.isChain_iff_getElem]
  intro i hi
  by_contra hc
  have : hasDescent x = true := (hasDescent_iff x).mpr
    ⟨i, _, _, List.getElem?_eq_getElem (by omega), List.getElem?_eq_getElem hi, not_le.mp hc⟩
  rw [h] at this; cases this

omit [LinearOrder R] in
theorem allFinite_map_some (x : List R) : allFinite (x.map some) = some x := by
  unfold allFinite
  induction x with
  | nil => rfl
  | cons a x ih => rw [List.map_cons, List.mapM_cons, ih]; rfl

omit [LinearOrder R] in
theorem mapM_allFinite (y : List (List R)) : (y.map (List.map some)).mapM allFinite = some y := by
  induction y with
  | nil => rfl
  | cons a y ih => rw [List.map_cons, List.mapM_cons, ih, allFinite_map_some]; rfl

/-- the index list actually used: the sort index if `x` decreases somewhere, else no rearrangement -/
def useIdx (argsort : List R → List Nat) (x : List R) : List Nat :=
  if hasDescent x then argsort x else List.range x.length

theorem useIdx_spec (argsort : List R → List Nat) (ha : IsArgsort argsort) (x : List R) :
    (useIdx argsort x).Perm (List.range x.length) ∧ (pick x (useIdx argsort x)).Pairwise (· ≤ ·) := by
  unfold useIdx
  split
  · exact ha x
  · rename_i h
    refine ⟨List.Perm.refl _, ?_⟩
    rw [pick_range]
    exact sorted_of_not_hasDescent x (by simpa using h)

theorem mapM_congr_mem {α β : Type} (l : List α) (f g : α → Except PyErr β) (h : ∀ a ∈ l, f a = g a) :
    l.mapM f = l.mapM g := by
  induction l with
  | nil => rfl
  | cons a l ih =>
    rw [List.mapM_cons, List.mapM_cons, h a List.mem_cons_self, ih (fun b hb => h b (List.mem_cons_of_mem _ hb))]

theorem vinterp_finite {β : Type} (argsort : List R → List Nat) (interp : List R → List R → List R → Except PyErr β)
    (x : List R) (y : List (List R)) (xp : List R) (hx : x.length ≠ 1) (hy : ∀ row ∈ y, row.length = x.length) :
    vinterp argsort interp (x.map some) (y.map (List.map some)) (xp.map some) true =
      y.mapM (fun row => interp (pick row (useIdx argsort x)) (pick x (useIdx argsort x)) xp) := by
  unfold vinterp
  rw [if_neg (by simpa using hx), if_neg (by
    rw [List.any_eq_true]
    rintro ⟨r, hr, hne⟩
    obtain ⟨row, hrow, rfl⟩ := List.mem_map.mp hr
    simp [hy row hrow] at hne)]
  rw [allFinite_map_some, mapM_allFinite, allFinite_map_some]
  simp only
  unfold useIdx
  split
  · simp
  · apply mapM_congr_mem
    intro row hrow
    rw [pick_range, ← hy row hrow, pick_range]

/-- **C36** The interpolation method always receives ascending abscissae, each still paired with its own ordinate:
the pairs handed over are a rearrangement of the given pairs. -/
theorem C36_sorted_pairs {β : Type} (argsort : List R → List Nat) (ha : IsArgsort argsort)
    (interp : List R → List R → List R → Except PyErr β)
    (x : List R) (y : List (List R)) (xp : List R) (hx : x.length ≠ 1) (hy : ∀ row ∈ y, row.length = x.length) :
    ∃ (x' : List R) (r : List R → List R), x'.Pairwise (· ≤ ·) ∧
      (∀ row ∈ y, (r row).length = x'.length ∧ (x'.zip (r row)).Perm (x.zip row)) ∧
      vinterp argsort interp (x.map some) (y.map (List.map some)) (xp.map some) true =
        y.mapM (fun row => interp (r row) x' xp) := by
  obtain ⟨h1, h2⟩ := useIdx_spec argsort ha x
  refine ⟨pick x (useIdx argsort x), fun row => pick row (useIdx argsort x), h2, ?_,
    vinterp_finite argsort interp x y xp hx hy⟩
  intro row hrow
  have hl := hy row hrow
  constructor
  · rw [(pick_perm_self x h1).length_eq, (pick_perm_self row (by rw [hl]; exact h1)).length_eq, hl]
  · have hin : ∀ j ∈ useIdx argsort x, j < x.length := fun j hj => List.mem_range.mp (h1.mem_iff.mp hj)
    have e : (pick x (useIdx argsort x)).zip (pick row (useIdx argsort x)) = pick (x.zip row) (useIdx argsort x) := by
      apply List.ext_getElem?
      intro i
      rw [pick_getElem? (x.zip row) _ (by simpa [hl] using hin)]
      rw [List.zip, List.getElem?_zipWith, pick_getElem? x _ hin, pick_getElem? row _ (by rw [hl]; exact hin)]
      cases hi : (useIdx argsort x)[i]? with
      | none => rfl
      | some j =>
        have hj := hin j (List.mem_of_getElem? hi)
        have hj' : j < row.length := by omega
        simp [hj, hj', List.zip]
    rw [e]
    exact pick_perm_self _ (by simpa [hl] using h1)

/-- **C36** With `reorder=True` the result is the same for every ordering of the data with distinct abscissae: for any
rearrangement `σ` of the columns, any (conforming) sort routines before and after, and any interpolation method. -/
theorem C36_order {β : Type} (argsort argsort' : List R → List Nat) (ha : IsArgsort argsort) (ha' : IsArgsort argsort')
    (interp : List R → List R → List R → Except PyErr β)
    (x : List R) (y : List (List R)) (xp : List R) (hx : x.length ≠ 1) (hy : ∀ row ∈ y, row.length = x.length)
    (hn : x.Nodup) (σ : List Nat) (hσ : σ.Perm (List.range x.length)) :
    vinterp argsort' interp ((pick x σ).map some) ((y.map (pick · σ)).map (List.map some)) (xp.map some) true =
      vinterp argsort interp (x.map some) (y.map (List.map some)) (xp.map some) true := by
  have hσin : ∀ j ∈ σ, j < x.length := fun j hj => List.mem_range.mp (hσ.mem_iff.mp hj)
  have hlen : (pick x σ).length = x.length := (pick_perm_self x hσ).length_eq
  have hrl : ∀ row ∈ y, (pick row σ).length = x.length := fun row hrow => by
    rw [(pick_perm_self row (by rw [hy row hrow]; exact hσ)).length_eq, hy row hrow]
  rw [vinterp_finite argsort' interp (pick x σ) (y.map (pick · σ)) xp (by rw [hlen]; exact hx) (by
    intro row' hr
    obtain ⟨row, hrow, rfl⟩ := List.mem_map.mp hr
    rw [hrl row hrow, hlen]), vinterp_finite argsort interp x y xp hx hy]
  obtain ⟨p1, s1⟩ := useIdx_spec argsort ha x
  obtain ⟨p2, s2⟩ := useIdx_spec argsort' ha' (pick x σ)
  set I := useIdx argsort x
  set J := useIdx argsort' (pick x σ)
  rw [hlen] at p2
  have hσlen : σ.length = x.length := by rw [hσ.length_eq, List.length_range]
  have hσJ : (pick σ J).Perm (List.range x.length) := (pick_perm_self σ (by rw [hσlen]; exact p2)).trans hσ
  have e : pick σ J = I := by
    apply pick_inj x hn _ _ (fun j hj => List.mem_range.mp (hσJ.mem_iff.mp hj))
      (fun j hj => List.mem_range.mp (p1.mem_iff.mp hj))
    rw [pick_pick x σ J hσin] at s2
    exact List.Perm.eq_of_pairwise (le := (· ≤ ·)) (fun a b _ _ h1 h2 => le_antisymm h1 h2) s2 s1
      ((pick_perm x hσJ).trans (pick_perm x p1).symm)
  rw [pick_pick x σ J hσin, e]
  rw [List.mapM_map]
  apply mapM_congr_mem
  intro row hrow
  simp only [Function.comp]
  rw [pick_pick row σ J (by rw [hy row hrow]; exact hσin), e]

/-- **C36** With `reorder=False` the call is a `ValueError` when `x` decreases somewhere; otherwise every row is handed
to the interpolation method as given. -/
theorem C36_no_reorder {β : Type} (argsort : List R → List Nat) (interp : List R → List R → List R → Except PyErr β)
    (x : List R) (y : List (List R)) (xp : List R) (hx : x.length ≠ 1) (hy : ∀ row ∈ y, row.length = x.length) :
    ((∃ (i : Nat) (a b : R), x[i]? = some a ∧ x[i + 1]? = some b ∧ b < a) →
      vinterp argsort interp (x.map some) (y.map (List.map some)) (xp.map some) false = .error .valueError) ∧
    ((¬ ∃ (i : Nat) (a b : R), x[i]? = some a ∧ x[i + 1]? = some b ∧ b < a) →
      vinterp argsort interp (x.map some) (y.map (List.map some)) (xp.map some) false =
        y.mapM (fun row => interp row x xp)) := by
  rw [← hasDescent_iff]
  unfold vinterp
  rw [if_neg (by simpa using hx), if_neg (by
    rw [List.any_eq_true]
    rintro ⟨r, hr, hne⟩
    obtain ⟨row, hrow, rfl⟩ := List.mem_map.mp hr
    simp [hy row hrow] at hne), allFinite_map_some, mapM_allFinite, allFinite_map_some]
  constructor
  · intro h; simp [h]
  · intro h; simp [h]

omit [LinearOrder R] in
theorem mapM_none {α β : Type} (l : List α) (f : α → Option β) (h : ∃ a ∈ l, f a = none) : l.mapM f = none := by
  induction l with
  | nil => simp at h
  | cons a l ih =>
    rw [List.mapM_cons]
    cases hf : f a with
    | none => rfl
    | some b =>
      obtain ⟨c, hc, hcn⟩ := h
      rcases List.mem_cons.mp hc with rfl | hc
      · rw [hf] at hcn; cases hcn
      · rw [ih ⟨c, hc, hcn⟩]; rfl

/-- **C36** A single abscissa, a row of another length, or a NaN/infinite entry anywhere is a `ValueError`, with and
without reordering. -/
theorem C36_errors {β : Type} (argsort : List R → List Nat) (interp : List R → List R → List R → Except PyErr β)
    (x : List (Option R)) (y : List (List (Option R))) (xp : List (Option R)) (reorder : Bool)
    (h : x.length = 1 ∨ (∃ row ∈ y, row.length ≠ x.length) ∨ none ∈ x ∨ (∃ row ∈ y, none ∈ row) ∨ none ∈ xp) :
    vinterp argsort interp x y xp reorder = .error .valueError := by
  unfold vinterp
  split
  · rfl
  · rename_i h1
    split
    · rfl
    · rename_i h2
      have hfin : ∀ l : List (Option R), none ∈ l → allFinite l = none := fun l hl => mapM_none l id ⟨none, hl, rfl⟩
      rcases h with h | h | h | h | h
      · exact absurd h h1
      · obtain ⟨row, hrow, hne⟩ := h
        exact absurd (List.any_eq_true.mpr ⟨row, hrow, by simpa using hne⟩) h2
      · rw [hfin x h]
      · obtain ⟨row, hrow, hne⟩ := h
        rw [mapM_none y allFinite ⟨row, hrow, hfin row hne⟩]
        cases allFinite x <;> rfl
      · rw [hfin xp h]
        cases allFinite x <;> cases List.mapM allFinite y <;> rfl

/-- insertion sort of the indices is a conforming sort routine -/
def demoArgsort (l : List ℚ) : List Nat := (List.range l.length).insertionSort (fun i j => l.getD i 0 ≤ l.getD j 0)

example : vinterp demoArgsort (fun row x xp => .ok (row, x, xp)) ([3, 1, 2].map some) [[30, 10, 20].map some] [some (5 : ℚ)] true
    = .ok [([10, 20, 30], [1, 2, 3], [5])] := by decide +kernel
example : vinterp demoArgsort (fun row x xp => .ok (row, x, xp)) ([3, 1, 2].map some) [[30, 10, 20].map some] [some (5 : ℚ)] false
    = .error .valueError := by decide +kernel

end Vinterp

section Vquad

/-- size of an axis counted from the last one; missing axes count as 1 -/
def axis (s : List Nat) (k : Nat) : Nat := s.getD k 1

@[simp] theorem axis_nil (k : Nat) : axis [] k = 1 := by simp [axis]
@[simp] theorem axis_zero (a : Nat) (s : List Nat) : axis (a :: s) 0 = a := rfl
@[simp] theorem axis_succ (a : Nat) (s : List Nat) (k : Nat) : axis (a :: s) (k + 1) = axis s k := by simp [axis]

theorem bcastRev_some (s t u : List Nat) (h : bcastRev s t = some u) :
    u.length = max s.length t.length ∧ ∀ k, (axis s k = 1 ∨ axis s k = axis u k) ∧ (axis t k = 1 ∨ axis t k = axis u k) ∧
      (axis u k = axis s k ∨ axis u k = axis t k) := by
  induction s generalizing t u with
  | nil =>
    simp only [bcastRev, Option.some.injEq] at h; subst h
    simp
  | cons a s ih =>
    cases t with
    | nil => simp only [bcastRev, Option.some.injEq] at h; subst h; simp
    | cons b t =>
      have key : ∀ c, ((bcastRev s t).map (c :: ·)) = some u → (a = 1 ∨ a = c) → (b = 1 ∨ b = c) → (c = a ∨ c = b) →
          u.length = max (a :: s).length (b :: t).length ∧ ∀ k, (axis (a :: s) k = 1 ∨ axis (a :: s) k = axis u k) ∧
            (axis (b :: t) k = 1 ∨ axis (b :: t) k = axis u k) ∧ (axis u k = axis (a :: s) k ∨ axis u k = axis (b :: t) k) := by
        intro c hc h1 h2 h3
        rw [Option.map_eq_some_iff] at hc
        obtain ⟨v, hv, rfl⟩ := hc
        obtain ⟨hl, hk⟩ := ih t v hv
        refine ⟨by simp [hl], ?_⟩
        intro k
        cases k with
        | zero => simpa using ⟨h1, h2, h3⟩
        | succ k => simpa using hk k
      rw [bcastRev] at h
      split at h
      · rename_i hab; subst hab; exact key a h (Or.inr rfl) (Or.inr rfl) (Or.inl rfl)
      · split at h
        · rename_i ha; exact key b h (Or.inl ha) (Or.inr rfl) (Or.inr rfl)
        · split at h
          · rename_i hb; exact key a h (Or.inr rfl) (Or.inl hb) (Or.inl rfl)
          · cases h

theorem bcastRev_none (s t : List Nat) (h : bcastRev s t = none) :
    ∃ k, axis s k ≠ 1 ∧ axis t k ≠ 1 ∧ axis s k ≠ axis t k := by
  induction s generalizing t with
  | nil => simp [bcastRev] at h
  | cons a s ih =>
    cases t with
    | nil => simp [bcastRev] at h
    | cons b t =>
      have key : ∀ c, ((bcastRev s t).map (c :: ·)) = none → ∃ k, axis (a :: s) k ≠ 1 ∧ axis (b :: t) k ≠ 1 ∧ axis (a :: s) k ≠ axis (b :: t) k := by
        intro c hc
        rw [Option.map_eq_none_iff] at hc
        obtain ⟨k, hk⟩ := ih t hc
        exact ⟨k + 1, by simpa using hk⟩
      rw [bcastRev] at h
      split at h
      · exact key _ h
      · split at h
        · exact key _ h
        · split at h
          · exact key _ h
          · rename_i h1 h2 h3; exact ⟨0, h2, h3, h1⟩

theorem bcastAll_spec (ss : List (List Nat)) :
    (∀ u, bcastAll ss = some u → (∀ s ∈ ss, s.length ≤ u.length) ∧ (u.length = 0 ∨ ∃ s ∈ ss, s.length = u.length) ∧
      ∀ k, (∀ s ∈ ss, axis s k = 1 ∨ axis s k = axis u k) ∧ (axis u k = 1 ∨ ∃ s ∈ ss, axis s k = axis u k)) ∧
    (bcastAll ss = none → ∃ s ∈ ss, ∃ t ∈ ss, ∃ k, axis s k ≠ 1 ∧ axis t k ≠ 1 ∧ axis s k ≠ axis t k) := by
  induction ss with
  | nil =>
    refine ⟨?_, by simp [bcastAll]⟩
    intro u hu; simp only [bcastAll, Option.some.injEq] at hu; subst hu; simp
  | cons s ss ih =>
    rw [bcastAll]
    cases hb : bcastAll ss with
    | none =>
      refine ⟨by simp, fun _ => ?_⟩
      obtain ⟨a, ha, b, hb, k, hk⟩ := ih.2 hb
      exact ⟨a, List.mem_cons_of_mem _ ha, b, List.mem_cons_of_mem _ hb, k, hk⟩
    | some v =>
      obtain ⟨h1, h2, h3⟩ := ih.1 v hb
      simp only [Option.bind_some]
      refine ⟨?_, ?_⟩
      · intro u hu
        obtain ⟨hl, hk⟩ := bcastRev_some s v u hu
        refine ⟨?_, ?_, ?_⟩
        · intro t ht
          rcases List.mem_cons.mp ht with rfl | ht
          · omega
          · have := h1 t ht; omega
        · rcases Nat.le_total v.length s.length with h | h
          · right; exact ⟨s, List.mem_cons_self, by omega⟩
          · rcases h2 with h2 | ⟨t, ht, h2⟩
            · left; omega
            · right; exact ⟨t, List.mem_cons_of_mem _ ht, by omega⟩
        · intro k
          obtain ⟨a1, a2, a3⟩ := hk k
          obtain ⟨b1, b2⟩ := h3 k
          refine ⟨?_, ?_⟩
          · intro t ht
            rcases List.mem_cons.mp ht with rfl | ht
            · exact a1
            · rcases b1 t ht with h | h
              · exact Or.inl h
              · rcases a2 with h' | h'
                · left; rw [h, h']
                · right; rw [h, h']
          · rcases a3 with h | h
            · right; exact ⟨s, List.mem_cons_self, h.symm⟩
            · rcases b2 with h' | ⟨t, ht, h'⟩
              · left; rw [h, h']
              · right; exact ⟨t, List.mem_cons_of_mem _ ht, by rw [h', h]⟩
      · intro hu
        obtain ⟨k, k1, k2, k3⟩ := bcastRev_none s v hu
        rcases (h3 k).2 with h | ⟨t, ht, h⟩
        · exact absurd h k2
        · exact ⟨s, List.mem_cons_self, t, List.mem_cons_of_mem _ ht, k, k1, by rw [h]; exact k2, by rw [h]; exact k3⟩

/-- an index of a shape -/
def ValidIdx (s idx : List Nat) : Prop := List.Forall₂ (fun i n => i < n) idx s

theorem mem_ndindex (s idx : List Nat) : idx ∈ ndindex s ↔ ValidIdx s idx := by
  unfold ValidIdx
  induction s generalizing idx with
  | nil => simp [ndindex]
  | cons n s ih =>
    simp only [ndindex, List.mem_flatMap, List.mem_map, List.mem_range]
    constructor
    · rintro ⟨i, hi, j, hj, rfl⟩; exact List.Forall₂.cons hj ((ih i).mp hi)
    · intro h
      cases h with
      | cons hj hi => exact ⟨_, (ih _).mpr hi, _, hj, rfl⟩

theorem nodup_ndindex (s : List Nat) : (ndindex s).Nodup := by
  induction s with
  | nil => simp [ndindex]
  | cons n s ih =>
    rw [ndindex, List.nodup_flatMap]
    refine ⟨?_, ?_⟩
    · intro i _
      exact List.nodup_range.map (fun a b h => by injection h)
    · refine ih.imp ?_
      intro a b hab
      rw [Function.onFun, List.disjoint_left]
      rintro c hc hc'
      simp only [List.mem_map] at hc hc'
      obtain ⟨j, -, rfl⟩ := hc
      obtain ⟨j', -, h⟩ := hc'
      injection h with h1 h2
      exact hab h2.symm

variable {R : Type} [Zero R]

/-- all argument shapes -/
def vquadShapes (a b : NArr R) (args : List (NArr R)) (whr : NArr Bool) (fill : NArr R) : List (List Nat) :=
  [a.rshape, b.rshape, whr.rshape, fill.rshape] ++ args.map (·.rshape)

/-- **C37** Exactly one result per index of the common shape: the integrator applied to the limits and extra arguments
shown at that index where the mask is true, `(fill_value, 0)` where it is false. -/
theorem C37_values (quad : R → R → List R → R × R) (a b : NArr R) (args : List (NArr R)) (whr : NArr Bool)
    (fill : NArr R) (s : List Nat) (res : List (List Nat × (R × R)))
    (h : vquad quad a b args whr fill = .ok (s, res)) :
    (res.map Prod.fst).Nodup ∧ (∀ idx, (∃ v, (idx, v) ∈ res) ↔ ValidIdx s idx) ∧
    ∀ idx v, (idx, v) ∈ res → v = if whr.at idx = true
      then quad (a.at idx) (b.at idx) (args.map (fun x => x.at idx)) else (fill.at idx, 0) := by
  unfold vquad at h
  split at h
  · cases h
  · injection h with h
    injection h with h1 h2
    subst h1 h2
    refine ⟨?_, ?_, ?_⟩
    · rw [List.map_map, show (Prod.fst ∘ fun idx => (idx, vquadAt quad a b whr fill args idx)) = id from rfl, List.map_id]
      exact nodup_ndindex _
    · intro idx
      rw [← mem_ndindex]
      constructor
      · rintro ⟨v, hv⟩
        obtain ⟨i, hi, he⟩ := List.mem_map.mp hv
        injection he with he _
        rwa [← he]
      · intro hi; exact ⟨_, List.mem_map.mpr ⟨idx, hi, rfl⟩⟩
    · intro idx v hv
      obtain ⟨i, hi, he⟩ := List.mem_map.mp hv
      injection he with h1 h2
      subst h1 h2
      rfl

/-- **C37** The call succeeds exactly when no two arguments have different sizes, both not 1, on the same axis (counted
from the last); the common shape then has on each axis the size that is not 1, if there is one. -/
theorem C37_shape (quad : R → R → List R → R × R) (a b : NArr R) (args : List (NArr R)) (whr : NArr Bool)
    (fill : NArr R) :
    (vquad quad a b args whr fill = .error .valueError ↔
      ∃ s ∈ vquadShapes a b args whr fill, ∃ t ∈ vquadShapes a b args whr fill, ∃ k,
        axis s k ≠ 1 ∧ axis t k ≠ 1 ∧ axis s k ≠ axis t k) ∧
    (∀ u res, vquad quad a b args whr fill = .ok (u, res) →
      (∀ s ∈ vquadShapes a b args whr fill, s.length ≤ u.length) ∧
      ∀ k, (∀ s ∈ vquadShapes a b args whr fill, axis s k = 1 ∨ axis s k = axis u k) ∧
        (axis u k = 1 ∨ ∃ s ∈ vquadShapes a b args whr fill, axis s k = axis u k)) := by
  obtain ⟨h1, h2⟩ := bcastAll_spec (vquadShapes a b args whr fill)
  unfold vquad
  change ((match bcastAll (vquadShapes a b args whr fill) with
    | none => Except.error PyErr.valueError
    | some s => Except.ok (s, (ndindex s).map (fun idx => (idx, vquadAt quad a b whr fill args idx)))) = _ ↔ _) ∧
    ∀ u res, (match bcastAll (vquadShapes a b args whr fill) with
    | none => Except.error PyErr.valueError
    | some s => Except.ok (s, (ndindex s).map (fun idx => (idx, vquadAt quad a b whr fill args idx)))) = _ → _
  cases hb : bcastAll (vquadShapes a b args whr fill) with
  | none => exact ⟨⟨fun _ => h2 hb, fun _ => rfl⟩, fun u res h => by cases h⟩
  | some v =>
    obtain ⟨c1, c2, c3⟩ := h1 v hb
    refine ⟨⟨(fun h => (by cases h)), ?_⟩, ?_⟩
    · rintro ⟨s, hs, t, ht, k, k1, k2, k3⟩
      rcases (c3 k).1 s hs with h | h
      · exact absurd h k1
      · rcases (c3 k).1 t ht with h' | h'
        · exact absurd h' k2
        · exact absurd (h.trans h'.symm) k3
    · intro u res h
      injection h with h
      injection h with h _
      subst h
      exact ⟨c1, c3⟩

theorem bcast_idx (s u idx : List Nat) (hl : s.length ≤ u.length) (h : ∀ k, axis s k = 1 ∨ axis s k = axis u k)
    (hv : ValidIdx u idx) :
    let j := List.zipWith (fun s i => if s = 1 then 0 else i) s idx
    ValidIdx s j ∧ ∀ k, k < s.length → (axis s k = 1 → j[k]? = some 0) ∧ (axis s k ≠ 1 → j[k]? = idx[k]?) := by
  unfold ValidIdx at *
  induction s generalizing u idx with
  | nil => simp
  | cons n s ih =>
    match u, idx, hv, hl, h with
    | m :: u, i :: idx, hv, hl, h =>
      rw [List.forall₂_cons] at hv
      obtain ⟨h1, h2⟩ := ih u idx (by simpa using hl) (fun k => by simpa using h (k + 1)) hv.2
      have h0 := h 0
      simp only [axis_zero] at h0
      refine ⟨?_, ?_⟩
      · rw [List.zipWith_cons_cons, List.forall₂_cons]
        refine ⟨?_, h1⟩
        split
        · omega
        · rcases h0 with h0 | h0
          · omega
          · rw [h0]; exact hv.1
      · intro k hk
        cases k with
        | zero => simp +contextual
        | succ k => simpa using h2 k (by simpa using hk)

/-- **C37** What an argument shows at an index of the common shape (`NArr.at`): its own entry at an index that is valid
for it, and agrees with the common one on every axis where the argument has more than one entry (and is 0 on the axes it
is stretched over; leading axes it does not have are ignored). -/
theorem C37_broadcast (quad : R → R → List R → R × R) (a b : NArr R) (args : List (NArr R)) (whr : NArr Bool)
    (fill : NArr R) (s : List Nat) (res : List (List Nat × (R × R)))
    (h : vquad quad a b args whr fill = .ok (s, res)) (idx : List Nat) (hi : ValidIdx s idx) {α : Type} (x : NArr α)
    (hx : x.rshape ∈ vquadShapes a b args whr fill) :
    ∃ j, x.at idx = x.get j ∧ ValidIdx x.rshape j ∧
      ∀ k, k < x.rshape.length → (axis x.rshape k = 1 → j[k]? = some 0) ∧ (axis x.rshape k ≠ 1 → j[k]? = idx[k]?) := by
  obtain ⟨h1, h2⟩ := (C37_shape quad a b args whr fill).2 s res h
  obtain ⟨h3, h4⟩ := bcast_idx x.rshape s idx (h1 _ hx) (fun k => (h2 k).1 _ hx) hi
  exact ⟨_, rfl, h3, h4⟩

/-- the example of the docstring's shape: limits of shape (2,), an argument of shape (3, 1), mask of shape (2,) -/
example : (match vquad (R := ℚ) (fun a b args => (b - a + args.sum, 1)) ⟨[2], fun i => i.headD 0⟩ ⟨[], fun _ => 5⟩
    [⟨[1, 3], fun i => i.getD 1 0⟩] ⟨[2], fun i => i.headD 0 == 0⟩ ⟨[], fun _ => 7⟩ with
    | .ok (s, r) => (s, r) | .error _ => ([], [])) =
    ([2, 3], [([0, 0], (5, 1)), ([1, 0], (7, 0)), ([0, 1], (6, 1)), ([1, 1], (7, 0)), ([0, 2], (7, 1)), ([1, 2], (7, 0))]) := by
  decide +kernel

end Vquad

end TEflow.Mathext
