import Verif.Props.BandMulti

/-! # C144: electrons and holes are treated alike -/

set_option linter.unusedSimpArgs false

namespace TEflow.Bandlib

section
variable {R : Type} [Field R]

/-! ## Specification -/

/-- the bands of a model with their offsets -/
def bandList (m : Multi R) (w : Heap R) : List (Leaf R × R) := (m.ids.zip m.deltas).map fun x => (w x.1, x.2)

/-- the band reflected at the energy `c`: the same integrals, the other kind of carriers, the edge on the other side -/
def mirror (c : R) (b : Leaf R × R) : Leaf R × R := ({ b.1 with sign := -b.1.sign }, 2 * c - b.2)

/-- how a property changes when electrons and holes change places -/
def parity : TProp → R
  | .N => 1 | .K_0 => 1 | .K_1 => -1 | .K_2 => 1 | .CCRH => -1 | .C => 1 | .CS => -1 | .S => -1
  | .PF => 1 | .CL => 1 | .L => 1 | .Ke => 1 | .U => 1 | .RH => -1 | .UH => -1 | .NH => -1

/-! ## Sums over the bands -/

def val : Except PyErr R → R
  | .ok v => v
  | .error _ => 0

open Classical in
theorem sum_closed (g : Leaf R × R → Except PyErr R) (hg : ∀ x e, g x = .error e → e = .typeError) (w : Heap R) (xs : List (Nat × R)) : ∀ acc,
    sumBands (fun x => g (w x.1, x.2)) acc xs =
      if ∀ b ∈ xs.map (fun x => (w x.1, x.2)), ∃ v, g b = .ok v then .ok (acc + ((xs.map fun x => (w x.1, x.2)).map fun b => val (g b)).sum) else .error .typeError := by
  induction xs with
  | nil => intro acc; simp [sumBands]
  | cons x xs ih =>
    intro acc
    unfold sumBands
    cases h : g (w x.1, x.2) with
    | error e =>
      obtain rfl := hg _ _ h
      rw [if_neg]
      intro hall
      obtain ⟨v, hv⟩ := hall (w x.1, x.2) (by simp)
      rw [h] at hv
      cases hv
    | ok v =>
      simp only [ih, List.map_cons, List.forall_mem_cons, h, List.sum_cons, val]
      simp only [Except.ok.injEq, exists_eq', true_and, add_assoc]

open Classical in
theorem sum_mirror (g g' : Leaf R × R → Except PyErr R) (hg : ∀ x e, g x = .error e → e = .typeError) (hg' : ∀ x e, g' x = .error e → e = .typeError) (s : R) (c : R)
    (w w' : Heap R) (xs xs' : List (Nat × R)) (hp : (xs'.map fun x => (w' x.1, x.2)).Perm ((xs.map fun x => (w x.1, x.2)).map (mirror c)))
    (hs : ∀ b ∈ xs.map (fun x => (w x.1, x.2)), g' (mirror c b) = (g b).map (s * ·)) :
    sumBands (fun x => g' (w' x.1, x.2)) 0 xs' = (sumBands (fun x => g (w x.1, x.2)) 0 xs).map (s * ·) := by
  rw [sum_closed g hg, sum_closed g' hg']
  generalize xs.map (fun x => (w x.1, x.2)) = l at *
  generalize xs'.map (fun x => (w' x.1, x.2)) = l' at *
  have hiff : (∀ b ∈ l', ∃ v, g' b = .ok v) ↔ ∀ b ∈ l, ∃ v, g b = .ok v := by
    constructor
    · intro h b hb
      obtain ⟨v, hv⟩ := h (mirror c b) (hp.mem_iff.2 (List.mem_map_of_mem hb))
      rw [hs b hb] at hv
      cases hx : g b with
      | error e => rw [hx] at hv; cases hv
      | ok u => exact ⟨u, rfl⟩
    · intro h b' hb'
      obtain ⟨b, hb, rfl⟩ := List.mem_map.1 (hp.mem_iff.1 hb')
      obtain ⟨v, hv⟩ := h b hb
      exact ⟨s * v, by rw [hs b hb, hv]; rfl⟩
  have hsum : (l'.map fun b => val (g' b)).sum = s * (l.map fun b => val (g b)).sum := by
    rw [(hp.map _).sum_eq, List.map_map, ← List.sum_map_mul_left]
    congr 1
    refine List.map_congr_left fun b hb => ?_
    simp only [Function.comp, hs b hb]
    cases g b <;> simp [val, Except.map]
  by_cases h : ∀ b ∈ l, ∃ v, g b = .ok v
  · rw [if_pos (hiff.2 h), if_pos h, hsum]
    simp [Except.map]
  · rw [if_neg (fun h' => h (hiff.1 h')), if_neg h]
    rfl

theorem level_mirror (b : Leaf R × R) (c x : R) : shiftEF (mirror c b).1 (mirror c b).2 (c + x) = shiftEF b.1 b.2 (c - x) := by
  unfold shiftEF mirror
  ring

section
variable {m m' : Multi R} {w w' : Heap R} (hf : Fresh m w) (hf' : Fresh m' w') {c : R} (hm : (bandList m' w').Perm ((bandList m w).map (mirror c)))
include hf hf' hm

theorem uncached {b : Leaf R × R} (hb : b ∈ (m.ids.zip m.deltas).map fun x => (w x.1, x.2)) : b.1.cache = none := by
  obtain ⟨x, hx, rfl⟩ := List.mem_map.1 hb
  exact hf.2 x hx

theorem mirror_N (x T : R) : m'.totN w' (c + x) T = m.totN w (c - x) T := by
  have := sum_mirror (fun b => .ok (b.1.n (shiftEF b.1 b.2 (c - x)) T)) (fun b => .ok (b.1.n (shiftEF b.1 b.2 (c + x)) T)) (by simp) (by simp) 1 c w w' _ _ hm (fun b hb => by
    rw [level_mirror]
    simp [Except.map, mirror])
  have e : ∀ (m : Multi R) (w : Heap R), Fresh m w → ∀ y, m.totN w y T = sumBands (fun x => .ok ((w x.1).n (shiftEF (w x.1) x.2 y) T)) 0 (m.ids.zip m.deltas) := by
    intro m w hf y
    unfold Multi.totN
    have h2 := hf.2
    generalize m.ids.zip m.deltas = l at h2
    generalize (0 : R) = acc
    induction l generalizing acc with
    | nil => rfl
    | cons a l ih =>
      unfold sumBands
      rw [leaf_src _ (h2 a (by simp))]
      simp only
      exact ih (fun y hy => h2 y (by simp [hy])) _
  rw [e m' w' hf', e m w hf, this]
  cases sumBands (fun x_1 => Except.ok ((w x_1.1).n (shiftEF (w x_1.1) x_1.2 (c - x)) T)) 0 (m.ids.zip m.deltas) <;> simp [Except.map]

theorem mirror_K (n : Nat) (x T : R) : m'.totK w' n (c + x) T = (m.totK w n (c - x) T).map ((-1) ^ n * ·) := by
  have := sum_mirror (fun b => .ok (b.1.sign ^ n * b.1.k n (shiftEF b.1 b.2 (c - x)) T)) (fun b => .ok (b.1.sign ^ n * b.1.k n (shiftEF b.1 b.2 (c + x)) T))
    (by simp) (by simp) ((-1) ^ n) c w w' _ _ hm (fun b hb => by
    rw [level_mirror]
    simp only [Except.map, mirror, Except.ok.injEq]
    rw [← mul_assoc, ← mul_pow, neg_one_mul])
  have e : ∀ (m : Multi R) (w : Heap R), Fresh m w → ∀ y, m.totK w n y T = sumBands (fun x => .ok ((w x.1).sign ^ n * (w x.1).k n (shiftEF (w x.1) x.2 y) T)) 0 (m.ids.zip m.deltas) := by
    intro m w hf y
    unfold Multi.totK
    have h2 := hf.2
    generalize m.ids.zip m.deltas = l at h2
    generalize (0 : R) = acc
    induction l generalizing acc with
    | nil => rfl
    | cons a l ih =>
      unfold sumBands
      rw [leaf_src _ (h2 a (by simp))]
      simp only [Except.map]
      exact ih (fun y hy => h2 y (by simp [hy])) _
  rw [e m' w' hf', e m w hf, this]

theorem mirror_H (x T : R) : m'.totH w' (c + x) T = (m.totH w (c - x) T).map (-1 * ·) := by
  have herr : ∀ (y : R) (b : Leaf R × R) e, needNum (.ok (b.1.ccrh y T)) = .error e → e = PyErr.typeError := by
    intro y b e h
    cases hb : b.1.ccrh y T with
    | none => rw [hb] at h; exact (Except.error.inj h).symm
    | some v => rw [hb] at h; cases h
  have := sum_mirror (fun b => needNum (.ok (b.1.ccrh (shiftEF b.1 b.2 (c - x)) T))) (fun b => needNum (.ok (b.1.ccrh (shiftEF b.1 b.2 (c + x)) T)))
    (fun b e h => herr _ b e h) (fun b e h => herr _ b e h) (-1) c w w' _ _ hm (fun b hb => by
    rw [level_mirror]
    simp only [mirror, Leaf.ccrh]
    cases b.1.h with
    | none => rfl
    | some h => simp [needNum, Except.map])
  have e : ∀ (m : Multi R) (w : Heap R), Fresh m w → ∀ y, m.totH w y T = sumBands (fun x => needNum (.ok ((w x.1).ccrh (shiftEF (w x.1) x.2 y) T))) 0 (m.ids.zip m.deltas) := by
    intro m w hf y
    unfold Multi.totH
    have h2 := hf.2
    generalize m.ids.zip m.deltas = l at h2
    generalize (0 : R) = acc
    induction l generalizing acc with
    | nil => rfl
    | cons a l ih =>
      unfold sumBands
      rw [leaf_src _ (h2 a (by simp))]
      simp only
      cases needNum (.ok ((w a.1).ccrh (shiftEF (w a.1) a.2 y) T)) with
      | error e => rfl
      | ok v => exact ih (fun y hy => h2 y (by simp [hy])) _
  rw [e m' w' hf', e m w hf, this]

end

/-! ## Theorems -/

/-- **C144** Electrons and holes are treated alike: if a model holds the bands of another one reflected at an energy `c` (in any order), then each of its properties at `c + x` is that
of the other model at `c - x`, up to the sign for `K_1`, `CS`, `S` and the Hall properties; it fails where the other fails.  This holds for whatever integrals the bands have,
exact or by quadrature. -/
theorem C144_mirror (m m' : Multi R) (w w' : Heap R) (hf : Fresh m w) (hf' : Fresh m' w') (c : R) (hm : (bandList m' w').Perm ((bandList m w).map (mirror c))) (x T : R) (p : TProp) :
    m'.prop w' p (some (c + x, T)) = (m.prop w p (some (c - x, T))).map (Option.map (parity p * ·)) := by
  have hN := mirror_N hf hf' hm x T
  have h0 := mirror_K hf hf' hm 0 x T
  have h1 := mirror_K hf hf' hm 1 x T
  have h2 := mirror_K hf hf' hm 2 x T
  have hH := mirror_H hf hf' hm x T
  unfold Multi.prop
  rw [multi_src m' w' hf', multi_src m w hf]
  cases p <;> simp only [Src.prop, hN, h0, h1, h2, hH, parity, bind, Except.bind, pure, Except.pure, needNum] <;>
    generalize m.totN w (c - x) T = vN <;> generalize m.totK w 0 (c - x) T = v0 <;> generalize m.totK w 1 (c - x) T = v1 <;>
    generalize m.totK w 2 (c - x) T = v2 <;> generalize m.totH w (c - x) T = vH <;>
    cases vN <;> cases v0 <;> cases v1 <;> cases v2 <;> cases vH <;>
    simp [Except.map, div_neg, neg_div, mul_neg]

/-- **C144** A model that is its own mirror image about `c` has properties that are even or odd about `c`; -/
theorem C144_symmetric (m : Multi R) (w : Heap R) (hf : Fresh m w) (c : R) (hm : (bandList m w).Perm ((bandList m w).map (mirror c))) (x T : R) (p : TProp) :
    m.prop w p (some (c + x, T)) = (m.prop w p (some (c - x, T))).map (Option.map (parity p * ·)) := C144_mirror m m w w hf hf c hm x T p

/-- **C144** at `c` itself, the middle of its gap, the Seebeck coefficient, the Hall coefficient and the Hall mobility vanish. -/
theorem C144_middle [CharZero R] (m : Multi R) (w : Heap R) (hf : Fresh m w) (c : R) (hm : (bandList m w).Perm ((bandList m w).map (mirror c))) (T : R) (p : TProp)
    (hp : p = .S ∨ p = .K_1 ∨ p = .CS ∨ p = .CCRH ∨ p = .RH ∨ p = .UH) (v : R) (hv : m.prop w p (some (c, T)) = .ok (some v)) : v = 0 := by
  have h := C144_symmetric m w hf c hm 0 T p
  rw [add_zero, sub_zero, hv] at h
  have hpar : (parity p : R) = -1 := by rcases hp with rfl | rfl | rfl | rfl | rfl | rfl <;> rfl
  simp only [Except.map, Option.map, hpar, Except.ok.injEq, Option.some.injEq] at h
  rw [neg_one_mul] at h
  exact self_eq_neg.1 h

end

section
variable {R : Type} [Field R] [LinearOrder R] [IsStrictOrderedRing R]

/-- the sums over the bands of one kind -/
theorem Ksum_mirror {m m' : Multi R} {w w' : Heap R} {c : R} (hm : (bandList m' w').Perm ((bandList m w).map (mirror c)))
    (hs : ∀ x ∈ m.ids.zip m.deltas, (w x.1).sign = 1 ∨ (w x.1).sign = -1) (x T : R) (n : Nat) (side : Bool) :
    Ksum w' (c + x) T n ((m'.ids.zip m'.deltas).filter fun y => isC w' y == side) = (-1) ^ n * Ksum w (c - x) T n ((m.ids.zip m.deltas).filter fun y => isC w y == !side) ∧
    ((m'.ids.zip m'.deltas).filter fun y => isC w' y == side).length = ((m.ids.zip m.deltas).filter fun y => isC w y == !side).length := by
  set q : Bool → Leaf R × R → Bool := fun s b => decide (b.1.sign < 0) == s with hq
  have e : ∀ (m : Multi R) (w : Heap R) (s : Bool), ((m.ids.zip m.deltas).filter fun y => isC w y == s).map (fun x => (w x.1, x.2)) = (bandList m w).filter (q s) := by
    intro m w s
    unfold bandList
    rw [List.filter_map]
    rfl
  have hperm : ((bandList m' w').filter (q side)).Perm (((bandList m w).filter (q !side)).map (mirror c)) := by
    refine (hm.filter _).trans ?_
    rw [List.filter_map]
    refine List.Perm.of_eq (congrArg _ (List.filter_congr fun b hb => ?_))
    obtain ⟨y, hy, rfl⟩ := List.mem_map.1 hb
    have := hs y hy
    simp only [hq, mirror, Function.comp]
    rcases this with h | h <;> rw [h] <;> cases side <;> simp
  have esum : ∀ (m : Multi R) (w : Heap R) (s : Bool) y, Ksum w y T n ((m.ids.zip m.deltas).filter fun z => isC w z == s) =
      (((bandList m w).filter (q s)).map fun b => b.1.sign ^ n * b.1.k n (shiftEF b.1 b.2 y) T).sum := by
    intro m w s y
    rw [← e, List.map_map]
    rfl
  constructor
  · rw [esum, esum, (hperm.map _).sum_eq, List.map_map, ← List.sum_map_mul_left]
    congr 1
    refine List.map_congr_left fun b _ => ?_
    simp only [Function.comp]
    rw [level_mirror]
    simp only [mirror]
    rw [← mul_assoc, ← mul_pow, neg_one_mul]
  · have := hperm.length_eq
    rw [List.length_map, ← e, ← e, List.length_map, List.length_map] at this
    exact this

/-- **C144** The bipolar thermal conductivity is the same in the mirrored model. -/
theorem C144_bipolar (m m' : Multi R) (w w' : Heap R) (hf : Fresh m w) (hf' : Fresh m' w') (c : R) (hm : (bandList m' w').Perm ((bandList m w).map (mirror c)))
    (hs : ∀ x ∈ m.ids.zip m.deltas, (w x.1).sign = 1 ∨ (w x.1).sign = -1) (x T : R) :
    m'.Kbip w' (some (c + x, T)) = m.Kbip w (some (c - x, T)) := by
  have hs' : ∀ x ∈ m'.ids.zip m'.deltas, (w' x.1).sign = 1 ∨ (w' x.1).sign = -1 := by
    intro y hy
    obtain ⟨b, hb, he⟩ := List.mem_map.1 (hm.mem_iff.1 (List.mem_map_of_mem (f := fun x => (w' x.1, x.2)) hy))
    obtain ⟨z, hz, rfl⟩ := List.mem_map.1 hb
    have e : (w' y.1).sign = -(w z.1).sign := by
      have := congrArg (fun b : Leaf R × R => b.1.sign) he
      exact this.symm
    rw [e]
    rcases hs z hz with h | h <;> rw [h] <;> simp
  have c0 := Ksum_mirror hm hs x T 0 true
  have c1 := Ksum_mirror hm hs x T 1 true
  have v0 := Ksum_mirror hm hs x T 0 false
  have v1 := Ksum_mirror hm hs x T 1 false
  simp only [Bool.not_true, Bool.not_false, beq_true, beq_false, pow_zero, one_mul, pow_one, neg_one_mul] at c0 c1 v0 v1
  have hT : ∀ (m : Multi R) (w : Heap R), Fresh m w → ∀ y, (m.src w (some (y, T))).T = .ok T := by
    intro m w hf y
    rw [multi_src m w hf]
  simp only [Multi.Kbip, bipLoop_eq w' _ T _ _ hf'.2 hs', bipLoop_eq w _ T _ _ hf.2 hs, bind, Except.bind, pure, Except.pure, zero_add, hT m' w' hf', hT m w hf]
  rw [c0.1, c1.1, v0.1, v1.1, c0.2, v0.2]
  by_cases h1 : ((m.ids.zip m.deltas).filter fun y => isC w y).length = 0 <;> by_cases h2 : ((m.ids.zip m.deltas).filter fun y => !isC w y).length = 0
  · simp [h1, h2]
  · simp [h1, h2]
  · simp [h1, h2]
  · simp only [h1, h2, if_false, Except.ok.injEq]
    ring

end

/-- a conduction band at 1/2 and the same band for holes at 0 mirror each other about 1/4 -/
example (b : Leaf ℚ) (hb : b.cache = none) (hs : b.sign = -1) : let w : Heap ℚ := fun i => if i = 0 then b else { b with sign := 1 }
    let m : Multi ℚ := ⟨[0, 1], [1 / 2, 0], none⟩
    Fresh m w ∧ (bandList m w).Perm ((bandList m w).map (mirror (1 / 4))) := by
  refine ⟨⟨rfl, ?_⟩, ?_⟩
  · simp [hb]
  · obtain ⟨s, n, k, h, c⟩ := b
    simp only at hs hb
    subst hs hb
    have : bandList (⟨[0, 1], [1 / 2, 0], none⟩ : Multi ℚ) (fun i => if i = 0 then ⟨-1, n, k, h, none⟩ else ⟨1, n, k, h, none⟩) =
        [(⟨-1, n, k, h, none⟩, 1 / 2), (⟨1, n, k, h, none⟩, 0)] := rfl
    simp only [this, List.map_cons, List.map_nil, mirror, neg_neg]
    norm_num
    exact List.Perm.swap _ _ _

end TEflow.Bandlib
