import Mathlib.Tactic
import Mathlib.Data.List.Zip
import Verif.Props.BandMulti

/-! # C71–C73: `guess_btypes`, construction and sharing of `MultiBands` -/

set_option linter.unusedSimpArgs false

namespace TEflow.Bandlib

section
variable {R : Type} [Field R] [LinearOrder R] [IsStrictOrderedRing R]

/-! ## C71 -/

/-- an offset counted as zero -/
def NearZero (d : R) : Prop := |d| < 1 / 1000000
/-- an offset clearly positive / negative -/
def ClearlyPos (d : R) : Prop := 1 / 1000000 ≤ d
def ClearlyNeg (d : R) : Prop := d ≤ -(1 / 1000000)

theorem guessOne_spec (d : R) : (guessOne d = 'X' ↔ NearZero d) ∧ (guessOne d = 'C' ↔ ClearlyPos d) ∧
    (guessOne d = 'V' ↔ ClearlyNeg d) := by
  have hc : (0 : R) < 1 / 1000000 := by norm_num
  unfold guessOne NearZero ClearlyPos ClearlyNeg
  by_cases h : |d| < 1 / 1000000
  · obtain ⟨h1, h2⟩ := abs_lt.1 h
    simp only [if_pos h]
    refine ⟨⟨fun _ => h, fun _ => trivial⟩, ?_, ?_⟩
    · simp only [show ('X' = 'C') = False by decide, false_iff, not_le]; exact h2
    · simp only [show ('X' = 'V') = False by decide, false_iff, not_le]; exact h1
  · simp only [if_neg h]
    rw [not_lt] at h
    by_cases hp : 0 < d
    · rw [abs_of_pos hp] at h
      simp only [if_pos hp]
      refine ⟨?_, by simpa using h, ?_⟩
      · rw [abs_of_pos hp]
        simp only [show ('C' = 'X') = False by decide, false_iff, not_lt]; exact h
      · simp only [show ('C' = 'V') = False by decide, false_iff, not_le]; linarith
    · rw [not_lt] at hp
      rw [abs_of_nonpos hp] at h
      simp only [if_neg (not_lt.2 hp)]
      refine ⟨?_, ?_, ?_⟩
      · rw [abs_of_nonpos hp]
        simp only [show ('V' = 'X') = False by decide, false_iff, not_lt]; exact h
      · simp only [show ('V' = 'C') = False by decide, false_iff, not_le]; linarith
      · simp only [true_iff]; linarith

/-- the list cannot be classified: some offset is near zero, and the others have both signs or there are none -/
def Ambiguous (deltas : List R) : Prop :=
  (∃ d ∈ deltas, NearZero d) ∧ ((∃ d ∈ deltas, ClearlyPos d) ↔ ∃ d ∈ deltas, ClearlyNeg d)

theorem mem_guess (deltas : List R) :
    ('X' ∈ deltas.map guessOne ↔ ∃ d ∈ deltas, NearZero d) ∧ ('C' ∈ deltas.map guessOne ↔ ∃ d ∈ deltas, ClearlyPos d) ∧
    ('V' ∈ deltas.map guessOne ↔ ∃ d ∈ deltas, ClearlyNeg d) := by
  refine ⟨?_, ?_, ?_⟩ <;> rw [List.mem_map] <;> constructor <;> rintro ⟨d, hd, h⟩
  · exact ⟨d, hd, (guessOne_spec d).1.1 h⟩
  · exact ⟨d, hd, (guessOne_spec d).1.2 h⟩
  · exact ⟨d, hd, (guessOne_spec d).2.1.1 h⟩
  · exact ⟨d, hd, (guessOne_spec d).2.1.2 h⟩
  · exact ⟨d, hd, (guessOne_spec d).2.2.1 h⟩
  · exact ⟨d, hd, (guessOne_spec d).2.2.2 h⟩

/-- **C71** `guess_btypes` fails (with `ValueError`) exactly on the ambiguous lists; otherwise it gives one type per offset:
`C` for a clearly positive one, `V` for a clearly negative one, and for one near zero the type all the others share. -/
theorem C71_guess_btypes (deltas : List R) :
    (Ambiguous deltas → guessBtypes deltas = .error .valueError) ∧
    (¬ Ambiguous deltas → ∃ ts, guessBtypes deltas = .ok ts ∧
      List.Forall₂ (fun d t => (ClearlyPos d → t = ['C']) ∧ (ClearlyNeg d → t = ['V']) ∧
        (NearZero d → (t = ['C'] ∧ (∃ e ∈ deltas, ClearlyPos e) ∧ ∀ e ∈ deltas, ¬ ClearlyNeg e) ∨
          (t = ['V'] ∧ (∃ e ∈ deltas, ClearlyNeg e) ∧ ∀ e ∈ deltas, ¬ ClearlyPos e))) deltas ts) := by
  obtain ⟨mX, mC, mV⟩ := mem_guess deltas
  have repl : ∀ (P : R → List Char → Prop) (t : List Char) (l : List R), (∀ d ∈ l, P d t) →
      List.Forall₂ P l (List.replicate l.length t) := by
    intro P t l h
    induction l with
    | nil => exact List.Forall₂.nil
    | cons a l ih =>
      simp only [List.length_cons, List.replicate_succ]
      exact .cons (h a (by simp)) (ih fun d hd => h d (by simp [hd]))
  have excl : ∀ d : R, ClearlyPos d → ¬ ClearlyNeg d := by
    intro d h1 h2
    unfold ClearlyPos at h1
    unfold ClearlyNeg at h2
    linarith
  have hXC : ∀ d : R, NearZero d → ¬ ClearlyPos d ∧ ¬ ClearlyNeg d := by
    intro d h
    have h' := (guessOne_spec d).1.2 h
    exact ⟨fun h2 => by rw [(guessOne_spec d).2.1.2 h2] at h'; exact absurd h' (by decide),
      fun h2 => by rw [(guessOne_spec d).2.2.2 h2] at h'; exact absurd h' (by decide)⟩
  by_cases x : ∃ d ∈ deltas, NearZero d
  · have hx := mX.2 x
    by_cases c : ∃ d ∈ deltas, ClearlyPos d
    · have hc := mC.2 c
      by_cases v : ∃ d ∈ deltas, ClearlyNeg d
      · have hv := mV.2 v
        exact ⟨fun _ => if_pos (.inr ⟨hx, hc, hv⟩), fun h => absurd ⟨x, ⟨fun _ => v, fun _ => c⟩⟩ h⟩
      · have hv := fun h => v (mV.1 h)
        refine ⟨fun h => absurd (h.2.1 c) v, fun _ => ⟨_, ?_, repl _ ['C'] _ fun d hd => ⟨fun _ => rfl,
          fun h => absurd ⟨d, hd, h⟩ v, fun _ => .inl ⟨rfl, c, fun e he h => v ⟨e, he, h⟩⟩⟩⟩⟩
        unfold guessBtypes
        exact (if_neg (by rintro (h | h); exacts [h.2.1 hc, hv h.2.2])).trans (if_pos ⟨hx, hc, hv⟩)
    · have hc := fun h => c (mC.1 h)
      by_cases v : ∃ d ∈ deltas, ClearlyNeg d
      · have hv := mV.2 v
        refine ⟨fun h => absurd (h.2.2 v) c, fun _ => ⟨_, ?_, repl _ ['V'] _ fun d hd => ⟨fun h => absurd ⟨d, hd, h⟩ c,
          fun _ => rfl, fun _ => .inr ⟨rfl, v, fun e he h => c ⟨e, he, h⟩⟩⟩⟩⟩
        unfold guessBtypes
        exact (if_neg (by rintro (h | h); exacts [h.2.2 hv, hc h.2.1])).trans
          ((if_neg fun h => hc h.2.1).trans (if_pos ⟨hx, hv, hc⟩))
      · have hv := fun h => v (mV.1 h)
        exact ⟨fun _ => if_pos (.inl ⟨hx, hc, hv⟩), fun h => absurd ⟨x, ⟨fun h => absurd h c, fun h => absurd h v⟩⟩ h⟩
  · have hx := fun h => x (mX.1 h)
    have hnx : ∀ d ∈ deltas, ¬ NearZero d := fun d hd h => x ⟨d, hd, h⟩
    refine ⟨fun h => absurd h.1 x, fun _ => ⟨(deltas.map guessOne).map fun ch => [ch], ?_, ?_⟩⟩
    · unfold guessBtypes
      exact (if_neg (by rintro (h | h) <;> exact hx h.1)).trans
        ((if_neg fun h => hx h.1).trans (if_neg fun h => hx h.1))
    · rw [List.forall₂_map_right_iff, List.forall₂_map_right_iff, List.forall₂_same]
      intro d hd
      refine ⟨fun h => by rw [(guessOne_spec d).2.1.2 h], fun h => by rw [(guessOne_spec d).2.2.2 h],
        fun h => absurd h (hnx d hd)⟩

example : guessBtypes [0, 1/10, (1:ℚ)/5] = .ok [['C'], ['C'], ['C']] := by decide +kernel
example : guessBtypes [1/10, 1/10, -(1:ℚ)/5] = .ok [['C'], ['C'], ['V']] := by decide +kernel
example : guessBtypes [0, 1/10, -(1:ℚ)/5] = .error .valueError := by decide +kernel
example : guessBtypes [(0:ℚ), 0] = .error .valueError := by decide +kernel

/-! ## C72 -/

omit [IsStrictOrderedRing R] in
/-- a valid type and its carrier sign -/
def TypeSign (t : List Char) (s : R) : Prop :=
  ((∃ r, t = 'c' :: r ∨ t = 'C' :: r) ∧ s = -1) ∨ ((∃ r, t = 'v' :: r ∨ t = 'V' :: r) ∧ s = 1)

omit [IsStrictOrderedRing R] in
theorem signOfType_spec (t : List Char) : (∀ s : R, TypeSign t s → signOfType t = .ok s) ∧
    ((∀ s : R, ¬ TypeSign t s) → signOfType (R := R) t = .error (if t = [] then .indexError else .valueError)) := by
  constructor
  · rintro s (⟨⟨r, rfl | rfl⟩, rfl⟩ | ⟨⟨r, rfl | rfl⟩, rfl⟩) <;> simp [signOfType]
  · intro h
    cases t with
    | nil => rfl
    | cons ch r =>
      have h1 : ¬ (ch = 'v' ∨ ch = 'V') := by
        rintro (rfl | rfl)
        · exact h 1 (.inr ⟨⟨r, .inl rfl⟩, rfl⟩)
        · exact h 1 (.inr ⟨⟨r, .inr rfl⟩, rfl⟩)
      have h2 : ¬ (ch = 'c' ∨ ch = 'C') := by
        rintro (rfl | rfl)
        · exact h (-1) (.inl ⟨⟨r, .inl rfl⟩, rfl⟩)
        · exact h (-1) (.inl ⟨⟨r, .inr rfl⟩, rfl⟩)
      simp only [signOfType, if_neg h1, if_neg h2]
      simp

/-- the heap after giving the listed bands their signs, in order -/
def setSigns (w : Heap R) : List (Nat × R) → Heap R
  | [] => w
  | (i, s) :: xs => setSigns (w.set i { w i with sign := s }) xs

omit [Field R] [LinearOrder R] [IsStrictOrderedRing R] in
/-- other bands keep their sign; a band listed gets the sign of its last entry; nothing but signs changes -/
theorem setSigns_spec (xs : List (Nat × R)) : ∀ (w : Heap R) (i : Nat),
    (i ∉ xs.map Prod.fst → setSigns w xs i = w i) ∧
    (∀ s, (xs.filter fun x => x.1 = i).getLast? = some (i, s) → setSigns w xs i = { w i with sign := s }) := by
  induction xs with
  | nil => intro w i; exact ⟨fun _ => rfl, fun s h => by simp at h⟩
  | cons x xs ih =>
    intro w i
    obtain ⟨j, t⟩ := x
    obtain ⟨h1, h2⟩ := ih (w.set j { w j with sign := t }) i
    simp only [List.map_cons, List.mem_cons, not_or, setSigns]
    refine ⟨fun h => by rw [h1 h.2, Heap.set_other _ _ _ _ h.1], fun s h => ?_⟩
    by_cases hij : j = i
    · subst hij
      by_cases hm : j ∈ xs.map Prod.fst
      · have hne : xs.filter (fun x => x.1 = j) ≠ [] := by
          obtain ⟨x, hx, hxj⟩ := List.mem_map.1 hm
          exact List.ne_nil_of_mem (List.mem_filter.2 ⟨hx, by simpa using hxj⟩)
        have hl : (xs.filter fun x => x.1 = j).getLast? = some (j, s) := by
          rw [← h]
          simp only [List.filter_cons, decide_true, if_true]
          rw [List.getLast?_cons]
          cases hg : (xs.filter fun x => x.1 = j).getLast? with
          | none => exact absurd (List.getLast?_eq_none_iff.1 hg) hne
          | some v => rfl
        rw [h2 s hl, Heap.set_same]
      · have he : xs.filter (fun x => x.1 = j) = [] := by
          rw [List.filter_eq_nil_iff]
          intro x hx hxj
          exact hm (List.mem_map.2 ⟨x, hx, by simpa using hxj⟩)
        simp only [List.filter_cons, decide_true, if_true, he, List.getLast?_singleton, Option.some.injEq, Prod.mk.injEq,
          true_and] at h
        subst h
        rw [h1 hm, Heap.set_same]
    · have hl : (xs.filter fun x => x.1 = i).getLast? = some (i, s) := by
        rw [← h]
        simp only [List.filter_cons, hij, decide_false, Bool.false_eq_true, if_false]
      rw [h2 s hl, Heap.set_other _ _ _ _ (Ne.symm hij)]

omit [IsStrictOrderedRing R] in
theorem append_ok (m : Multi R) (w : Heap R) (i : Nat) (d : R) (t : List Char) (s : R) (h : TypeSign t s) :
    m.append w (some i) d (some t) = (.ok (), { m with ids := m.ids ++ [i], deltas := m.deltas ++ [d] },
      w.set i { w i with sign := s }) := by
  simp only [Multi.append, (signOfType_spec t).1 s h]

omit [IsStrictOrderedRing R] in
theorem appendAll_ok (xs : List (Nat × R × List Char)) (ss : List R) (h : List.Forall₂ (fun x s => TypeSign x.2.2 s) xs ss) :
    ∀ (m : Multi R) (w : Heap R), appendAll m w (xs.map fun x => (some x.1, x.2)) =
      (.ok (), { m with ids := m.ids ++ xs.map (·.1), deltas := m.deltas ++ xs.map (·.2.1) },
        setSigns w ((xs.map (·.1)).zip ss)) := by
  induction h with
  | nil => intro m w; simp [appendAll, setSigns]
  | cons hx _ ih =>
    intro m w
    rename_i x s xs ss _
    obtain ⟨i, d, t⟩ := x
    simp only [List.map_cons, appendAll, append_ok m w i d t s hx]
    rw [ih]
    simp only [List.append_assoc, List.singleton_append, List.zip_cons_cons, setSigns]

/-- the type list in force: the guessed one, a single type for all, or the given one -/
def TypesUsed (n : Nat) (deltas : List R) : Option (List (List Char)) → List (List Char) → Prop
  | none, ts => guessBtypes deltas = .ok ts
  | some l, ts => (l.length = 1 ∧ ∃ t, l = [t] ∧ ts = List.replicate n t) ∨ (l.length ≠ 1 ∧ ts = l)

omit [IsStrictOrderedRing R] in
theorem construct_types (w : Heap R) (bands : List (Option Nat)) (deltas : List R) (bt : Option (List (List Char)))
    (ts : List (List Char)) (hl : bands.length = deltas.length) (h : TypesUsed bands.length deltas bt ts) :
    construct w bands deltas bt = match appendAll ⟨[], [], none⟩ w (bands.zip (deltas.zip ts)) with
      | (.ok (), m, w') => (.ok m, w')
      | (.error e, _, w') => (.error e, w') := by
  unfold construct
  rw [if_neg (not_not.2 hl)]
  cases bt with
  | none =>
    have h' : guessBtypes deltas = .ok ts := h
    simp only [h']
    cases appendAll ⟨[], [], none⟩ w (bands.zip (deltas.zip ts)) with
    | mk r x => cases r <;> rfl
  | some l =>
    rcases h with ⟨-, t, rfl, rfl⟩ | ⟨h1, rfl⟩
    · simp only []
      cases appendAll ⟨[], [], none⟩ w (bands.zip (deltas.zip (List.replicate bands.length t))) with
      | mk r x => cases r <;> rfl
    · match ts with
      | [] => 
        cases hA : appendAll ⟨[], [], none⟩ w (bands.zip (deltas.zip [])) with
        | mk r x => cases r <;> simp only [hA]
      | [t] => simp at h1
      | a :: b :: c =>
        cases hA : appendAll ⟨[], [], none⟩ w (bands.zip (deltas.zip (a :: b :: c))) with
        | mk r x => cases r <;> simp only [hA]

omit [IsStrictOrderedRing R] in
/-- **C72** The model keeps the bands with their offsets, in order, as far as the type list reaches: all of them when the
list has the length of the bands (or length one, or is guessed), only the first `k` when it has `k` entries.  Every band
object gets the sign of its type (that of the last entry if it is listed repeatedly). -/
theorem C72_construct (w : Heap R) (bands : List Nat) (deltas : List R) (bt : Option (List (List Char)))
    (ts : List (List Char)) (ss : List R) (hl : bands.length = deltas.length)
    (hu : TypesUsed bands.length deltas bt ts) (hs : List.Forall₂ TypeSign ts ss) :
    ∃ m w', construct w (bands.map some) deltas bt = (.ok m, w') ∧
      m.ids = bands.take ts.length ∧ m.deltas = deltas.take ts.length ∧ m.cache = none ∧
      w' = setSigns w (bands.zip ss) := by
  have hz : (bands.map some).zip (deltas.zip ts) = (bands.zip (deltas.zip ts)).map fun x => (some x.1, x.2) := by
    rw [List.zip_map_left]
    rfl
  have key : ∀ (bs : List Nat) (ds : List R) (ts : List (List Char)) (ss : List R), bs.length = ds.length →
      List.Forall₂ TypeSign ts ss →
      List.Forall₂ (fun (x : Nat × R × List Char) s => TypeSign x.2.2 s) (bs.zip (ds.zip ts)) (ss.take bs.length) ∧
      (bs.zip (ds.zip ts)).map (·.1) = bs.take ts.length ∧ (bs.zip (ds.zip ts)).map (·.2.1) = ds.take ts.length ∧
      (bs.take ts.length).zip (ss.take bs.length) = bs.zip ss := by
    intro bs
    induction bs with
    | nil =>
      intro ds ts ss hl _
      cases ds with
      | nil => simp
      | cons => simp at hl
    | cons b bs ih =>
      intro ds ts ss hl hs
      cases ds with
      | nil => simp at hl
      | cons d ds =>
        cases hs with
        | nil => simp
        | cons h hs' =>
          obtain ⟨a1, a2, a3, a4⟩ := ih ds _ _ (by simpa using hl) hs'
          refine ⟨?_, ?_, ?_, ?_⟩
          · simp only [List.zip_cons_cons, List.length_cons, List.take_succ_cons]
            exact .cons h a1
          · simp only [List.zip_cons_cons, List.map_cons, a2, List.length_cons, List.take_succ_cons]
          · simp only [List.zip_cons_cons, List.map_cons, a3, List.length_cons, List.take_succ_cons]
          · simp only [List.zip_cons_cons, List.length_cons, List.take_succ_cons, a4]
  obtain ⟨a1, a2, a3, a4⟩ := key bands deltas ts ss hl hs
  have h1 := construct_types w (bands.map some) deltas bt ts (by simpa using hl) (by simpa using hu)
  rw [hz, appendAll_ok _ _ a1] at h1
  refine ⟨_, _, h1, ?_, ?_, rfl, ?_⟩
  · simp only [List.nil_append, a2]
  · simp only [List.nil_append, a3]
  · rw [a2, a4]

omit [IsStrictOrderedRing R] in
/-- **C72** A type list with one entry per band keeps every band; a shorter one (but not of length one) silently drops the
bands behind its end. -/
theorem C72_all_or_dropped (w : Heap R) (bands : List Nat) (deltas : List R) (l : List (List Char)) (ss : List R)
    (hl : bands.length = deltas.length) (hs : List.Forall₂ TypeSign l ss) :
    (l.length = bands.length → ∃ m w', construct w (bands.map some) deltas (some l) = (.ok m, w') ∧ m.ids = bands ∧
      m.deltas = deltas) ∧
    (l.length < bands.length → l.length ≠ 1 → ∃ m w', construct w (bands.map some) deltas (some l) = (.ok m, w') ∧
      m.ids.length = l.length) := by
  constructor
  · intro h
    by_cases h1 : l.length = 1
    · obtain ⟨t, rfl⟩ := List.length_eq_one_iff.1 h1
      obtain ⟨m, w', a, b, c, -⟩ := C72_construct w bands deltas (some [t]) [t] ss hl (.inl ⟨rfl, t, rfl, by
        rw [← h]; rfl⟩) hs
      exact ⟨m, w', a, by rw [b, h, List.take_length], by rw [c, h, hl, List.take_length]⟩
    · obtain ⟨m, w', a, b, c, -⟩ := C72_construct w bands deltas (some l) l ss hl (.inr ⟨h1, rfl⟩) hs
      exact ⟨m, w', a, by rw [b, h, List.take_length], by rw [c, h, hl, List.take_length]⟩
  · intro h h1
    obtain ⟨m, w', a, b, c, -⟩ := C72_construct w bands deltas (some l) l ss hl (.inr ⟨h1, rfl⟩) hs
    exact ⟨m, w', a, by rw [b, List.length_take]; omega⟩

omit [IsStrictOrderedRing R] in
/-- **C72** Different numbers of bands and offsets: `ValueError`, nothing touched. -/
theorem C72_length (w : Heap R) (bands : List (Option Nat)) (deltas : List R) (bt : Option (List (List Char)))
    (h : bands.length ≠ deltas.length) : construct w bands deltas bt = (.error .valueError, w) := by
  unfold construct; rw [if_pos h]

omit [IsStrictOrderedRing R] in
/-- **C72** At the first unknown type (or object that is no band) the construction fails; the bands before it have already
got their signs. -/
theorem C72_unknown_type (w : Heap R) (before : List Nat) (dbefore : List R) (tbefore : List (List Char)) (ss : List R)
    (hs : List.Forall₂ TypeSign tbefore ss) (hb : before.length = tbefore.length) (hd : before.length = dbefore.length)
    (i : Option Nat) (d : R) (t : List Char) (after : List (Option Nat)) (dafter : List R) (tafter : List (List Char))
    (hbad : i = none ∨ ∀ s : R, ¬ TypeSign t s) (hl : after.length = dafter.length) (hlen : (tbefore ++ t :: tafter).length ≠ 1) :
    construct w (before.map some ++ i :: after) (dbefore ++ d :: dafter) (some (tbefore ++ t :: tafter)) =
      (.error (if i ≠ none ∧ t = [] then .indexError else .valueError), setSigns w (before.zip ss)) := by
  rw [construct_types w (before.map some ++ i :: after) (dbefore ++ d :: dafter) (some (tbefore ++ t :: tafter))
    (tbefore ++ t :: tafter) (by simp [hd, hl]) (Or.inr ⟨hlen, rfl⟩)]
  have hz : (before.map some ++ i :: after).zip ((dbefore ++ d :: dafter).zip (tbefore ++ t :: tafter)) =
      (before.zip (dbefore.zip tbefore)).map (fun x => (some x.1, x.2)) ++ (i, d, t) :: after.zip (dafter.zip tafter) := by
    rw [List.zip_append (by rw [← hb, hd]), List.zip_append (by simp [← hb, ← hd]), List.zip_map_left]
    rfl
  rw [hz]
  have split : ∀ (xs : List (Nat × R × List Char)) (ss : List R) (ys : List (Option Nat × R × List Char)),
      List.Forall₂ (fun x s => TypeSign x.2.2 s) xs ss → ∀ (m : Multi R) (w : Heap R),
      ∃ m', appendAll m w (xs.map (fun x => (some x.1, x.2)) ++ ys) = appendAll m' (setSigns w ((xs.map (·.1)).zip ss)) ys := by
    intro xs ss ys h
    induction h with
    | nil => intro m w; exact ⟨m, rfl⟩
    | cons hx _ ih =>
      intro m w
      rename_i x s xs ss _
      obtain ⟨i, d, t⟩ := x
      obtain ⟨m', hm⟩ := ih { m with ids := m.ids ++ [i], deltas := m.deltas ++ [d] } (w.set i { w i with sign := s })
      refine ⟨m', ?_⟩
      simp only [List.map_cons, List.cons_append, appendAll, append_ok m w i d t s hx, List.zip_cons_cons, setSigns]
      exact hm
  have hf : List.Forall₂ (fun (x : Nat × R × List Char) s => TypeSign x.2.2 s) (before.zip (dbefore.zip tbefore)) ss := by
    clear hz hlen hbad
    induction hs generalizing before dbefore with
    | nil => cases before <;> simp at hb ⊢
    | cons h _ ih =>
      cases before with
      | nil => simp at hb
      | cons b before =>
        cases dbefore with
        | nil => simp at hd
        | cons d' dbefore => exact .cons h (ih before dbefore (by simpa using hb) (by simpa using hd))
  obtain ⟨m', hm⟩ := split _ ss ((i, d, t) :: after.zip (dafter.zip tafter)) hf ⟨[], [], none⟩ w
  rw [hm]
  have hfst : (before.zip (dbefore.zip tbefore)).map (·.1) = before := by
    apply List.map_fst_zip
    simp [← hb, ← hd]
  rw [hfst]
  simp only [appendAll]
  cases i with
  | none => simp [Multi.append]
  | some i =>
    have hbad : ∀ s : R, ¬ TypeSign t s := by simpa using hbad
    simp only [Multi.append, (signOfType_spec t).2 hbad]
    by_cases ht : t = [] <;> simp [ht]

end

example : (construct (R := ℚ) demoHeap [some 0, some 1, some 2] [0, 1, 2] (some [['V'], ['c', 'b']])).1.toOption.map (·.ids) =
    some [0, 1] := by decide +kernel
example : (construct (R := ℚ) demoHeap [some 0, some 1, some 2] [0, 1, 2] (some [['V']])).1.toOption.map (·.ids) =
    some [0, 1, 2] := by decide +kernel

/-! ## C73 -/

section
variable {R : Type} [Field R] [LinearOrder R] [IsStrictOrderedRing R]

omit [IsStrictOrderedRing R] in
/-- **C73** Appending stores the carrier sign in the band object: afterwards every model that holds the object sees the new
sign, no other object changes. -/
theorem C73_sign_in_object (m : Multi R) (w : Heap R) (i : Nat) (d : R) (t : List Char) (s : R) (h : TypeSign t s) :
    let r := m.append w (some i) d (some t)
    r.1 = .ok () ∧ r.2.1.ids = m.ids ++ [i] ∧ r.2.1.deltas = m.deltas ++ [d] ∧ r.2.1.cache = m.cache ∧
    r.2.2 i = { w i with sign := s } ∧ ∀ j ≠ i, r.2.2 j = w j := by
  simp only [append_ok m w i d t s h]
  exact ⟨trivial, trivial, trivial, trivial, Heap.set_same _ _ _, fun j hj => Heap.set_other _ _ _ _ hj⟩

/-- **C73** So the same object appended as valence band and then as conduction band counts as a conduction band in both
places, and in another model that holds it. -/
theorem C73_shared_object : ∃ (w : Heap ℚ) (a b : Multi ℚ),
    let r1 := a.append w (some 0) 0 (some ['V'])
    let r2 := r1.2.1.append r1.2.2 (some 0) 1 (some ['C'])
    r2.1 = .ok () ∧ r2.2.1.ids = [0, 0] ∧ (r2.2.2 0).sign = -1 ∧
    b.ids = [0] ∧ b.prop w .CS (some (1, 300)) ≠ b.prop r2.2.2 .CS (some (1, 300)) :=
  ⟨demoHeap, ⟨[], [], none⟩, ⟨[0], [0], none⟩, by decide +kernel⟩

omit [IsStrictOrderedRing R] in
/-- the letter written by `extend` gives the sign back -/
theorem extend_letter [IsStrictOrderedRing R] (b : Leaf R) (h : b.sign = 1 ∨ b.sign = -1) :
    TypeSign [if 0 < b.sign then 'V' else 'C'] b.sign := by
  rcases h with h | h
  · rw [h, if_pos one_pos]; exact .inr ⟨⟨[], .inr rfl⟩, rfl⟩
  · rw [h, if_neg (by norm_num)]; exact .inl ⟨⟨[], .inr rfl⟩, rfl⟩

/-- **C73** Extending by another model appends its bands and offsets and changes no sign. -/
theorem C73_extend (m : Multi R) (w : Heap R) (xs : List (Nat × R)) (h : ∀ x ∈ xs, (w x.1).sign = 1 ∨ (w x.1).sign = -1) :
    extendOther m w xs = (.ok (), { m with ids := m.ids ++ xs.map Prod.fst, deltas := m.deltas ++ xs.map Prod.snd }, w) := by
  induction xs generalizing m with
  | nil => simp [extendOther]
  | cons x xs ih =>
    obtain ⟨i, d⟩ := x
    have hi := h (i, d) (by simp)
    have hw : w.set i { w i with sign := (w i).sign } = w := by
      funext j
      by_cases hj : j = i
      · subst hj; rw [Heap.set_same]
      · rw [Heap.set_other _ _ _ _ hj]
    simp only [extendOther, append_ok m w i d _ _ (extend_letter (w i) hi), hw]
    rw [ih _ fun y hy => h y (by simp [hy])]
    simp only [List.map_cons, List.append_assoc, List.singleton_append]

omit [IsStrictOrderedRing R] in
/-- **C73** Extending a non-empty model by itself never ends: after any number of turns the loop goes on, with one more band
per turn. -/
theorem C73_extend_self (m : Multi R) (w : Heap R) (hl : m.ids.length = m.deltas.length) (hne : m.ids ≠ []) (n : Nat) :
    ∃ m' w', extendSelf n m w = some (n, m', w') ∧ m'.ids.length = m.ids.length + n ∧
      m'.deltas.length = m.deltas.length + n ∧ (extendSelfStep n m' w').isSome := by
  have hpos : 0 < m.ids.length := List.length_pos_of_ne_nil hne
  have step : ∀ (n : Nat) (m' : Multi R) (w' : Heap R), m'.ids.length = m.ids.length + n → m'.deltas.length = m.deltas.length + n →
      ∃ i d s, extendSelfStep n m' w' =
        some (.ok (), { m' with ids := m'.ids ++ [i], deltas := m'.deltas ++ [d] }, w'.set i { w' i with sign := s }) := by
    intro n m' w' h1 h2
    have e1 : m'.ids[n]? = some (m'.ids[n]'(by omega)) := List.getElem?_eq_getElem (by omega)
    have e2 : m'.deltas[n]? = some (m'.deltas[n]'(by omega)) := List.getElem?_eq_getElem (by omega)
    generalize hi : m'.ids[n]'(by omega) = i at e1
    generalize hd : m'.deltas[n]'(by omega) = d at e2
    by_cases hs : 0 < (w' i).sign
    · refine ⟨i, d, 1, ?_⟩
      simp only [extendSelfStep, e1, e2, if_pos hs]
      rw [append_ok m' w' i d ['V'] 1 (.inr ⟨⟨[], .inr rfl⟩, rfl⟩)]
    · refine ⟨i, d, -1, ?_⟩
      simp only [extendSelfStep, e1, e2, if_neg hs]
      rw [append_ok m' w' i d ['C'] (-1) (.inl ⟨⟨[], .inr rfl⟩, rfl⟩)]
  have main : ∃ m' w', extendSelf n m w = some (n, m', w') ∧ m'.ids.length = m.ids.length + n ∧
      m'.deltas.length = m.deltas.length + n := by
    induction n with
    | zero => exact ⟨m, w, rfl, rfl, rfl⟩
    | succ n ih =>
      obtain ⟨m', w', h1, h2, h3⟩ := ih
      obtain ⟨i, d, s, h4⟩ := step n m' w' h2 h3
      refine ⟨{ m' with ids := m'.ids ++ [i], deltas := m'.deltas ++ [d] }, w'.set i { w' i with sign := s },
        by simp only [extendSelf, h1, h4], ?_, ?_⟩
      · simp only [List.length_append, List.length_singleton, h2]; omega
      · simp only [List.length_append, List.length_singleton, h3]; omega
  obtain ⟨m', w', h1, h2, h3⟩ := main
  obtain ⟨i, d, s, h4⟩ := step n m' w' h2 h3
  exact ⟨m', w', h1, h2, h3, by rw [h4]; rfl⟩

end

example : (extendSelf 5 demoMulti demoHeap).map (fun r => r.2.1.ids) = some [0, 1, 0, 1, 0, 1, 0] := by decide +kernel

end TEflow.Bandlib
