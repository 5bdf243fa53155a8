import Mathlib.Tactic
import Verif.Model.BandNest

/-! # C132: multi-band models inside multi-band models -/

set_option linter.unusedSimpArgs false

namespace TEflow.Bandlib

section
variable {R : Type} [Field R] [LinearOrder R] [IsStrictOrderedRing R]

/-! ## Specification: the bands of a tree with the levels they are under -/

/-- a band in a tree: the signs and offsets met from the root to the band, its own the last, and the band -/
structure Occ (R : Type) where
  chain : List (R × R)
  band : Leaf R

/-- the Fermi level measured from the edge of the band: level by level, upwards for conduction (−1), downwards for valence (1) -/
def Occ.depth (o : Occ R) (EF : R) : R := o.chain.foldl (fun e x => if x.1 < 0 then e - x.2 else x.2 - e) EF

/-- the charge of the carriers of the band as seen from outside: −1 if their number grows with the Fermi level outside (`depth` grows with
`EF`), that is if an even number of the levels are of valence type -/
def Occ.charge (o : Occ R) : R := -(o.chain.map fun x => -x.1).prod

mutual
/-- the bands of a tree -/
def Node.occs : Node R → List (Occ R)
  | .band b => [⟨[], b⟩]
  | .multi _ ps => ps.occs
/-- the bands of the parts -/
def Parts.occs : Parts R → List (Occ R)
  | .nil => []
  | .cons b d ps => (b.occs.map fun o => ⟨(b.sign, d) :: o.chain, o.band⟩) ++ ps.occs
end

mutual
/-- all signs below the root are 1 or −1, as `append` makes them -/
def Node.Signed : Node R → Prop
  | .band _ => True
  | .multi _ ps => ps.Signed
/-- the same for the parts -/
def Parts.Signed : Parts R → Prop
  | .nil => True
  | .cons b _ ps => (b.sign = 1 ∨ b.sign = -1) ∧ b.Signed ∧ ps.Signed
end

mutual
/-- every band has a Hall integral (no `LinearBand`) -/
def Node.HasHall : Node R → Prop
  | .band b => b.h.isSome
  | .multi _ ps => ps.HasHall
/-- the same for the parts -/
def Parts.HasHall : Parts R → Prop
  | .nil => True
  | .cons b _ ps => b.HasHall ∧ ps.HasHall
end

/-- the Hall integral of a band -/
def Leaf.hallInt (b : Leaf R) (EF T : R) : R := match b.h with
  | some h => h EF T
  | none => 0

/-! ## Chains -/

theorem shift_eq {q : R} (h : q = 1 ∨ q = -1) (EF d : R) : -1 * q * (EF - d) = if q < 0 then EF - d else d - EF := by
  rcases h with rfl | rfl
  · rw [if_neg (by simp)]; ring
  · rw [if_pos (by simp)]; ring

theorem depth_cons {q d : R} (l : List (R × R)) (b : Leaf R) (h : q = 1 ∨ q = -1) (EF : R) :
    (⟨(q, d) :: l, b⟩ : Occ R).depth EF = (⟨l, b⟩ : Occ R).depth (-1 * q * (EF - d)) := by
  rw [shift_eq h]
  rfl

mutual
theorem chain_signs : ∀ (m : Node R), m.Signed → ∀ o ∈ m.occs, ∀ x ∈ o.chain, x.1 = 1 ∨ x.1 = -1
  | .band b, _, o, ho, x, hx => by
    simp only [Node.occs, List.mem_singleton] at ho
    subst ho
    cases hx
  | .multi _ ps, h, o, ho, x, hx => chain_signs' ps h o ho x hx
theorem chain_signs' : ∀ (ps : Parts R), ps.Signed → ∀ o ∈ ps.occs, ∀ x ∈ o.chain, x.1 = 1 ∨ x.1 = -1
  | .nil, _, o, ho, x, hx => by cases ho
  | .cons b d ps, h, o, ho, x, hx => by
    simp only [Parts.occs, List.mem_append, List.mem_map] at ho
    rcases ho with ⟨o', ho', rfl⟩ | ho
    · rcases List.mem_cons.1 hx with rfl | hx
      · exact h.1
      · exact chain_signs b h.2.1 o' ho' x hx
    · exact chain_signs' ps h.2.2 o ho x hx
end

/-- **C132** What `depth` and `charge` mean: the depth moves with the Fermi level outside if the carriers are negative and against it if
they are positive. -/
theorem C132_charge (m : Node R) (h : m.Signed) (o : Occ R) (ho : o ∈ m.occs) (EF x : R) :
    (o.charge = 1 ∨ o.charge = -1) ∧ o.depth (EF + x) - o.depth EF = -o.charge * x := by
  have hs := chain_signs m h o ho
  obtain ⟨l, b⟩ := o
  clear ho h
  have key : ((⟨l, b⟩ : Occ R).charge = 1 ∨ (⟨l, b⟩ : Occ R).charge = -1) ∧
      ∀ EF x, (⟨l, b⟩ : Occ R).depth (EF + x) - (⟨l, b⟩ : Occ R).depth EF = -(⟨l, b⟩ : Occ R).charge * x := by
    induction l with
    | nil => exact ⟨.inr (by simp [Occ.charge]), fun EF x => by simp [Occ.charge, Occ.depth]⟩
    | cons y l ih =>
      obtain ⟨q, d⟩ := y
      have hq := hs (q, d) (by simp)
      obtain ⟨i1, i2⟩ := ih fun x hx => hs x (by simp [hx])
      have e : (⟨(q, d) :: l, b⟩ : Occ R).charge = -q * (⟨l, b⟩ : Occ R).charge := by
        simp [Occ.charge]
      refine ⟨?_, fun EF x => ?_⟩
      · rw [e]
        rcases hq with rfl | rfl <;> rcases i1 with i | i <;> rw [i] <;> simp
      · rw [depth_cons _ _ hq, depth_cons _ _ hq, e, show -1 * q * (EF + x - d) = -1 * q * (EF - d) + -1 * q * x by ring, i2]
        ring
  exact ⟨key.1, key.2 EF x⟩

/-! ## The totals -/

mutual
theorem node_n : ∀ (m : Node R), m.Signed → ∀ EF T, m.n EF T = (m.occs.map fun o => o.band.n (o.depth EF) T).sum
  | .band b, _, EF, T => by simp [Node.n, Node.occs, Occ.depth]
  | .multi _ ps, h, EF, T => by simpa [Node.n, Node.occs] using parts_n ps h EF T
theorem parts_n : ∀ (ps : Parts R), ps.Signed → ∀ EF T, ps.n EF T = (ps.occs.map fun o => o.band.n (o.depth EF) T).sum
  | .nil, _, EF, T => by simp [Parts.n, Parts.occs]
  | .cons b d ps, h, EF, T => by
    rw [Parts.n, Parts.occs, List.map_append, List.sum_append, parts_n ps h.2.2, node_n b h.2.1, List.map_map]
    congr 3
    funext o
    simp only [Function.comp, depth_cons o.chain o.band h.1]
end

mutual
theorem node_k (i : Nat) : ∀ (m : Node R), m.Signed → ∀ EF T, m.k i EF T =
    (m.occs.map fun o => (o.chain.map Prod.fst).prod ^ i * o.band.k i (o.depth EF) T).sum
  | .band b, _, EF, T => by simp [Node.k, Node.occs, Occ.depth]
  | .multi _ ps, h, EF, T => by simpa [Node.k, Node.occs] using parts_k i ps h EF T
theorem parts_k (i : Nat) : ∀ (ps : Parts R), ps.Signed → ∀ EF T, ps.k i EF T =
    (ps.occs.map fun o => (o.chain.map Prod.fst).prod ^ i * o.band.k i (o.depth EF) T).sum
  | .nil, _, EF, T => by simp [Parts.k, Parts.occs]
  | .cons b d ps, h, EF, T => by
    rw [Parts.k, Parts.occs, List.map_append, List.sum_append, parts_k i ps h.2.2, node_k i b h.2.1, List.map_map,
      ← List.sum_map_mul_left]
    congr 3
    funext o
    simp only [Function.comp, depth_cons o.chain o.band h.1, List.map_cons, List.prod_cons, mul_pow, mul_assoc]
end

mutual
theorem node_h : ∀ (m : Node R), m.Signed → m.HasHall → ∀ EF T,
    m.h EF T = .ok (some (m.occs.map fun o => o.band.sign * o.band.hallInt (o.depth EF) T).sum)
  | .band b, _, hh, EF, T => by
    obtain ⟨f, hf⟩ := Option.isSome_iff_exists.1 hh
    simp [Node.h, Node.occs, Occ.depth, Leaf.ccrh, Leaf.hallInt, hf]
  | .multi _ ps, h, hh, EF, T => by
    have := parts_h ps h hh EF T
    simp [Node.h, Node.occs, this, Except.map]
theorem parts_h : ∀ (ps : Parts R), ps.Signed → ps.HasHall → ∀ EF T,
    ps.h EF T = .ok (ps.occs.map fun o => o.band.sign * o.band.hallInt (o.depth EF) T).sum
  | .nil, _, _, EF, T => by simp [Parts.h, Parts.occs]
  | .cons b d ps, h, hh, EF, T => by
    have h1 := node_h b h.2.1 hh.1 (-1 * b.sign * (EF - d)) T
    have h2 := parts_h ps h.2.2 hh.2 EF T
    simp only [Parts.h, h1, h2, needNum, bind, Except.bind, pure, Except.pure, Parts.occs, List.map_append, List.sum_append, List.map_map]
    congr 4
    funext o
    simp only [Function.comp, depth_cons o.chain o.band h.1]
end

/-- the sign the program gives to a band under `chain`, in terms of its charge -/
theorem prod_charge : ∀ (l : List (R × R)) (b : Leaf R), l ≠ [] →
    (l.map Prod.fst).prod = (-1) ^ (l.length - 1) * (⟨l, b⟩ : Occ R).charge := by
  have aux : ∀ l : List (R × R), (l.map fun x => -x.1).prod = (-1) ^ l.length * (l.map Prod.fst).prod := by
    intro l
    induction l with
    | nil => simp
    | cons x l ih =>
      simp only [List.map_cons, List.prod_cons, ih, List.length_cons, pow_succ]
      ring
  intro l b hl
  obtain ⟨x, l, rfl⟩ := List.exists_cons_of_ne_nil hl
  unfold Occ.charge
  rw [aux]
  simp only [List.length_cons, Nat.add_sub_cancel, pow_succ]
  have : ((-1 : R) ^ l.length) * (-1) ^ l.length = 1 := by rw [← mul_pow]; simp
  linear_combination (-(List.map Prod.fst (x :: l)).prod) * this

/-- **C132** The totals of a nested model, band by band: concentration and conductivity are the sums over all bands at their depths; the
contribution to the Seebeck coefficient has the sign of the carriers only for bands under an odd number of levels (a flat model: one) and the
opposite sign for bands under an even number; the Hall term has the sign of the innermost level. -/
theorem C132_totals (s : R) (ps : Parts R) (h : ps.Signed) (hh : ps.HasHall) (EF T : R) :
    (Node.multi s ps).prop .N EF T = .ok (some (ps.occs.map fun o => o.band.n (o.depth EF) T).sum) ∧
    (Node.multi s ps).prop .C EF T = .ok (some (ps.occs.map fun o => o.band.k 0 (o.depth EF) T).sum) ∧
    (Node.multi s ps).prop .CS EF T = .ok (some (s * 1000000 * kB *
      (ps.occs.map fun o => (if Odd o.chain.length then o.charge else -o.charge) * o.band.k 1 (o.depth EF) T).sum)) ∧
    (Node.multi s ps).prop .K_2 EF T = .ok (some (ps.occs.map fun o => o.band.k 2 (o.depth EF) T).sum) ∧
    (Node.multi s ps).prop .CCRH EF T = .ok (some (ps.occs.map fun o => o.band.sign * o.band.hallInt (o.depth EF) T).sum) := by
  have ne : ∀ ps : Parts R, ∀ o ∈ ps.occs, o.chain ≠ [] := by
    intro ps
    induction ps using Parts.rec (motive_1 := fun _ => True) with
    | band => trivial
    | multi => trivial
    | nil => intro o ho; cases ho
    | cons b d ps _ ih =>
      intro o ho
      simp only [Parts.occs, List.mem_append, List.mem_map] at ho
      rcases ho with ⟨o', _, rfl⟩ | ho
      · simp
      · exact ih o ho
  have sgn := chain_signs' ps h
  have pm : ∀ o ∈ ps.occs, (o.chain.map Prod.fst).prod = if Odd o.chain.length then o.charge else -o.charge := by
    intro o ho
    rw [prod_charge o.chain o.band (ne ps o ho)]
    have hl : 0 < o.chain.length := List.length_pos_iff.2 (ne ps o ho)
    by_cases hodd : Odd o.chain.length
    · rw [if_pos hodd, Even.neg_one_pow (by obtain ⟨k, hk⟩ := hodd; exact ⟨k, by omega⟩), one_mul]
    · rw [if_neg hodd, Odd.neg_one_pow (by
        obtain ⟨k, hk⟩ := Nat.not_odd_iff_even.1 hodd
        exact ⟨k - 1, by omega⟩)]
      ring
  have sq : ∀ o ∈ ps.occs, (o.chain.map Prod.fst).prod ^ 2 = 1 := by
    intro o ho
    have := sgn o ho
    generalize o.chain = l at this ⊢
    induction l with
    | nil => simp
    | cons x l ih =>
      rw [List.map_cons, List.prod_cons, mul_pow, ih fun y hy => this y (by simp [hy])]
      rcases this x (by simp) with e | e <;> rw [e] <;> simp
  have hn := parts_n ps h EF T
  have hk := fun i => parts_k i ps h EF T
  refine ⟨?_, ?_, ?_, ?_, ?_⟩
  · show Except.ok (some (ps.n EF T)) = _
    rw [hn]
  · show Except.ok (some (ps.k 0 EF T)) = _
    rw [hk]
    simp
  · show Except.ok (some (s * 1000000 * kB * ps.k 1 EF T)) = _
    rw [hk]
    congr 4
    refine List.map_congr_left fun o ho => ?_
    rw [pow_one, pm o ho]
  · show Except.ok (some (ps.k 2 EF T)) = _
    rw [hk]
    congr 3
    refine List.map_congr_left fun o ho => ?_
    rw [sq o ho, one_mul]
  · exact node_h (.multi s ps) h hh EF T

theorem snoc_occs (ps : Parts R) (b : Node R) (d : R) :
    (ps.snoc b d).occs = ps.occs ++ b.occs.map fun o => ⟨(b.sign, d) :: o.chain, o.band⟩ := by
  induction ps using Parts.rec (motive_1 := fun _ => True) with
  | band => trivial
  | multi => trivial
  | nil => simp [Parts.snoc, Parts.occs]
  | cons a e ps _ ih => simp [Parts.snoc, Parts.occs, ih]

/-- **C132** `append` adds the bands of the object, with the sign of the type and the offset in front, after those there are; a type that
starts with another letter is refused, and a single band has no `append`. -/
theorem C132_append (s d : R) (ps : Parts R) (b : Node R) (t : List Char) :
    (∀ c r, t = c :: r → c ∈ ['v', 'V', 'c', 'C'] → ∃ q ps' b', q = (if c ∈ ['v', 'V'] then (1 : R) else -1) ∧
      (Node.multi s ps).append b d t = .ok (.multi s ps', b') ∧ b'.sign = q ∧
      (∀ l, b = .band l → b' = .band { l with sign := q }) ∧ (∀ s' qs, b = .multi s' qs → b' = .multi q qs) ∧
      ps'.occs = ps.occs ++ b'.occs.map fun o => ⟨(q, d) :: o.chain, o.band⟩) ∧
    (∀ c r, t = c :: r → c ∉ ['v', 'V', 'c', 'C'] → (Node.multi s ps).append b d t = .error .valueError) ∧
    (∀ l, (Node.band l).append b d t = .error .attributeError) := by
  have hs : ∀ q : R, (b.withSign q).sign = q := by intro q; cases b <;> rfl
  refine ⟨fun c r ht hc => ?_, fun c r ht hc => ?_, fun l => rfl⟩
  · subst ht
    have hq : signOfType (c :: r) = .ok (if c ∈ ['v', 'V'] then (1 : R) else -1) := by
      simp only [List.mem_cons, List.not_mem_nil, or_false] at hc
      rcases hc with rfl | rfl | rfl | rfl <;> simp [signOfType]
    refine ⟨_, ps.snoc (b.withSign (if c ∈ ['v', 'V'] then (1 : R) else -1)) d, b.withSign (if c ∈ ['v', 'V'] then (1 : R) else -1), rfl, ?_, hs _, ?_, ?_, ?_⟩
    · simp only [Node.append, hq]
    · rintro l rfl; rfl
    · rintro s' qs rfl; rfl
    · rw [snoc_occs, hs]
  · subst ht
    have hq : signOfType (R := R) (c :: r) = .error .valueError := by
      simp only [List.mem_cons, List.not_mem_nil, or_false, not_or] at hc
      simp [signOfType, hc]
    simp only [Node.append, hq]

/-- **C132** One multi-band model inside another, as a conduction band at an offset: the offset is added to its own ones, concentration,
conductivity, Lorenz number and Hall coefficient are right, and the Seebeck coefficient has the wrong sign. -/
theorem C132_nested (s d : R) (ps : Parts R) (EF T : R) :
    let inner := Node.multi s ps
    ∃ outer inner', (Node.multi (1 : R) .nil).append inner d ['C'] = .ok (outer, inner') ∧
      (∀ p ∈ [TProp.N, .C, .PF, .CL, .L, .Ke, .CCRH, .RH, .UH], (outer.prop p EF T) = ((Node.multi 1 ps).prop p (EF - d) T)) ∧
      (∀ S, (Node.multi 1 ps).prop .S (EF - d) T = .ok (some S) → outer.prop .S EF T = .ok (some (-S)) ∧
        inner'.prop .S (EF - d) T = .ok (some (-S))) := by
  have e : -1 * (-1 : R) * (EF - d) = EF - d := by ring
  intro inner
  refine ⟨Node.multi 1 (.cons (.multi (-1) ps) d .nil), .multi (-1) ps, by
    simp [Node.append, signOfType, Parts.snoc, Node.withSign, inner], ?_, ?_⟩
  · have h0 : (Node.multi 1 (.cons (.multi (-1) ps) d .nil)).n EF T = (Node.multi 1 ps).n (EF - d) T := by
      simp [Node.n, Parts.n, Node.sign]
    have hk : ∀ i, (Node.multi 1 (.cons (.multi (-1) ps) d .nil)).k i EF T = (-1) ^ i * (Node.multi 1 ps).k i (EF - d) T := by
      intro i
      simp [Node.k, Parts.k, Node.sign]
    have hh : (Node.multi 1 (.cons (.multi (-1) ps) d .nil)).h EF T = (Node.multi 1 ps).h (EF - d) T := by
      simp only [Node.h, Parts.h, Node.sign, e, bind, Except.bind, pure, Except.pure]
      cases ps.h (EF - d) T <;> simp [needNum, Except.map]
    intro p hp
    simp only [Node.prop, Node.src, h0, hk, hh, Node.sign]
    simp only [List.mem_cons, List.not_mem_nil, or_false] at hp
    rcases hp with rfl | rfl | rfl | rfl | rfl | rfl | rfl | rfl | rfl <;>
      simp [Src.prop, bind, Except.bind, pure, Except.pure, Except.map, neg_div]
  · intro S hS
    have hS'' : 1 * S0 * ps.k 1 (EF - d) T / ps.k 0 (EF - d) T = S := Option.some.inj (Except.ok.inj hS)
    constructor
    · show Except.ok (some (1 * S0 * (Parts.cons (.multi (-1) ps) d .nil).k 1 EF T / (Parts.cons (.multi (-1) ps) d .nil).k 0 EF T)) = _
      rw [← hS'']
      simp [Parts.k, Node.sign, Node.k, neg_div]
    · show Except.ok (some (-1 * S0 * ps.k 1 (EF - d) T / ps.k 0 (EF - d) T)) = _
      rw [← hS'']
      simp [Node.sign, Node.k, neg_div]

/-- **C132** As a valence band the energies of the inner model are turned over: it is evaluated at the mirrored Fermi level, with the signs
of Seebeck and Hall coefficient it has there. -/
theorem C132_mirrored (s d : R) (ps : Parts R) (EF T : R) :
    ∃ outer inner', (Node.multi (1 : R) .nil).append (.multi s ps) d ['V'] = .ok (outer, inner') ∧
      ∀ p, outer.prop p EF T = (Node.multi 1 ps).prop p (d - EF) T := by
  have e : -1 * (1 : R) * (EF - d) = d - EF := by ring
  refine ⟨Node.multi 1 (.cons (.multi 1 ps) d .nil), .multi 1 ps, by
    simp [Node.append, signOfType, Parts.snoc, Node.withSign], fun p => ?_⟩
  have h0 : (Node.multi 1 (.cons (.multi 1 ps) d .nil)).n EF T = (Node.multi 1 ps).n (d - EF) T := by
    simp [Node.n, Parts.n, Node.sign]
  have hk : ∀ i, (Node.multi 1 (.cons (.multi 1 ps) d .nil)).k i EF T = (Node.multi 1 ps).k i (d - EF) T := by
    intro i
    simp [Node.k, Parts.k, Node.sign]
  have hh : (Node.multi 1 (.cons (.multi 1 ps) d .nil)).h EF T = (Node.multi 1 ps).h (d - EF) T := by
    simp only [Node.h, Parts.h, Node.sign, e, bind, Except.bind, pure, Except.pure]
    cases ps.h (d - EF) T <;> simp [needNum, Except.map]
  simp only [Node.prop, Node.src, h0, hk, hh, Node.sign]

/-! ## Flat models -/

/-- the parts of a flat model -/
def partsOf (w : Heap R) : List (Nat × R) → Parts R
  | [] => .nil
  | x :: xs => .cons (.band (w x.1)) x.2 (partsOf w xs)

theorem sum_flat (w : Heap R) (f : Nat × R → R) (g : Parts R → R) (g0 : g .nil = 0) (l : List (Nat × R))
    (gc : ∀ x ∈ l, ∀ ps, g (.cons (.band (w x.1)) x.2 ps) = f x + g ps) :
    ∀ acc, sumBands (fun x => .ok (f x)) acc l = .ok (acc + g (partsOf w l)) := by
  induction l with
  | nil => intro acc; simp [sumBands, partsOf, g0]
  | cons x l ih =>
    intro acc
    simp only [sumBands, partsOf]
    rw [ih (fun y hy => gc y (by simp [hy])), gc x (by simp)]
    ring_nf

/-- **C132** A model without nesting is the model of C67–C73. -/
theorem C132_flat (m : Multi R) (w : Heap R) (hm : m.cache = none) (hw : ∀ i ∈ m.ids, (w i).cache = none) (EF T : R) (p : TProp) :
    (Node.multi 1 (partsOf w (m.ids.zip m.deltas))).prop p EF T = m.prop w p (some (EF, T)) := by
  have hl : ∀ x ∈ m.ids.zip m.deltas, (w x.1).cache = none := fun x hx => hw _ (List.of_mem_zip hx).1
  unfold Multi.prop Multi.src
  rw [hm]
  simp only
  obtain ⟨l, el⟩ : ∃ l, l = m.ids.zip m.deltas := ⟨_, rfl⟩
  rw [← el] at hl ⊢
  have hsrc : ∀ x ∈ l, ∀ y, (w x.1).src (some (y, T)) =
      ⟨(w x.1).sign, .ok ((w x.1).n y T), fun i => .ok ((w x.1).k i y T), .ok ((w x.1).ccrh y T), .ok T⟩ := by
    intro x hx y
    unfold Leaf.src
    rw [hl x hx]
  have cong : ∀ (f g : Nat × R → Except PyErr R) (l : List (Nat × R)), (∀ x ∈ l, f x = g x) → ∀ acc, sumBands f acc l = sumBands g acc l := by
    intro f g l
    induction l with
    | nil => intro _ acc; rfl
    | cons x l ih =>
      intro h acc
      simp only [sumBands]
      rw [h x (by simp)]
      cases g x with
      | error => rfl
      | ok v => exact ih (fun y hy => h y (by simp [hy])) _
  have hn : ∀ m : Multi R, m.ids.zip m.deltas = l → m.totN w EF T = .ok ((partsOf w l).n EF T) := by
    intro m e
    unfold Multi.totN
    rw [e, cong _ (fun x => .ok ((w x.1).n (-1 * (w x.1).sign * (EF - x.2)) T)) l (fun x hx => by rw [hsrc x hx]; rfl),
      sum_flat w (fun x => (w x.1).n (-1 * (w x.1).sign * (EF - x.2)) T) (fun ps => ps.n EF T) rfl l (fun _ _ _ => rfl), zero_add]
  have hk : ∀ (m : Multi R) (i : Nat), m.ids.zip m.deltas = l → m.totK w i EF T = .ok ((partsOf w l).k i EF T) := by
    intro m i e
    unfold Multi.totK
    rw [e, cong _ (fun x => .ok ((w x.1).sign ^ i * (w x.1).k i (-1 * (w x.1).sign * (EF - x.2)) T)) l
      (fun x hx => by rw [hsrc x hx]; rfl), sum_flat w (fun x => (w x.1).sign ^ i * (w x.1).k i (-1 * (w x.1).sign * (EF - x.2)) T) (fun ps => ps.k i EF T) rfl l (fun _ _ _ => rfl), zero_add]
  have hh : ∀ m : Multi R, m.ids.zip m.deltas = l → m.totH w EF T = (partsOf w l).h EF T := by
    intro m e
    unfold Multi.totH
    rw [e, cong _ (fun x => needNum (.ok ((w x.1).ccrh (-1 * (w x.1).sign * (EF - x.2)) T))) l (fun x hx => by rw [hsrc x hx]; rfl)]
    clear hn hk cong hsrc hl e el
    have : ∀ acc, sumBands (fun x => needNum (.ok ((w x.1).ccrh (-1 * (w x.1).sign * (EF - x.2)) T))) acc l =
        ((partsOf w l).h EF T).map (acc + ·) := by
      induction l with
      | nil => intro acc; simp [sumBands, partsOf, Parts.h, Except.map]
      | cons x l ih =>
        intro acc
        simp only [sumBands, partsOf, Parts.h, Node.h, Node.sign, bind, Except.bind]
        cases hc : (w x.1).ccrh (-1 * (w x.1).sign * (EF - x.2)) T with
        | none => simp [needNum, Except.map]
        | some v =>
          have e1 : needNum (Except.ok (some v) : Except PyErr (Option R)) = .ok v := rfl
          rw [e1]
          simp only
          rw [ih]
          cases (partsOf w l).h EF T <;> simp [Except.map, pure, Except.pure, add_assoc]
    rw [this]
    cases (partsOf w l).h EF T <;> simp [Except.map]
  rw [hn m el.symm, hh m el.symm]
  simp only [hk m _ el.symm]
  rfl

end

/-- a band with `k_i = EF + i`, concentration 1 and Hall integral 1 -/
def sample (s : ℚ) : Leaf ℚ := { sign := s, n := fun _ _ => 1, k := fun i EF _ => EF + i, h := some fun _ _ => 1 }

/-- a conduction and a valence band, and the same inside another model -/
def samplePair : Parts ℚ := .cons (.band (sample (-1))) 1 (.cons (.band (sample 1)) 0 .nil)

example : samplePair.Signed ∧ samplePair.HasHall := by simp [samplePair, Parts.Signed, Node.Signed, Parts.HasHall, Node.HasHall, sample, Node.sign]

example : (Node.multi 1 samplePair).prop .CS (-2) 300 = .ok (some (1000000 * kB * (2 + 3 : ℚ))) ∧
    (Node.multi 1 (.cons (.multi (-1) samplePair) 0 .nil)).prop .CS (-2) 300 = .ok (some (-(1000000 * kB * (2 + 3 : ℚ)))) := by
  constructor <;> decide +kernel

end TEflow.Bandlib
