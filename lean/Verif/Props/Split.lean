import Mathlib.Algebra.Order.Field.Basic
import Mathlib.Data.Rat.Floor
import Mathlib.Tactic
import Verif.Model.Split
import Verif.Lemmas.Split

/-! # C29, C30: `split_monotonic` -/

namespace TEflow.Mathext

variable {R : Type} [Field R] [LinearOrder R] [IsStrictOrderedRing R]

/-- Specification of one returned piece of the array `x`: it is the slice from `start` up to (not including) `stop`,
it holds at least one step, no step goes against `sign` by more than `eps`, and its first and its last step go by more
than `eps` in the direction `sign`. -/
structure GoodPiece (x : List R) (eps : R) (p : Piece R) : Prop where
  slice : p.interval = (x.take p.stop).drop p.start
  nontrivial : p.start + 2 ≤ p.stop
  inRange : p.stop ≤ x.length
  sign : p.sign = 1 ∨ p.sign = -1
  steps : ∀ i a b, p.start ≤ i → i + 1 < p.stop → x[i]? = some a → x[i + 1]? = some b → -eps ≤ p.sign * (b - a)
  first : ∃ a b, x[p.start]? = some a ∧ x[p.start + 1]? = some b ∧ eps < p.sign * (b - a)
  last : ∃ a b, x[p.stop - 2]? = some a ∧ x[p.stop - 1]? = some b ∧ eps < p.sign * (b - a)

section lemmas

omit [IsStrictOrderedRing R] [LinearOrder R] in
theorem diffs_getElem? (x : List R) (i : Nat) (d : R) :
    (diffs x)[i]? = some d ↔ ∃ a b, x[i]? = some a ∧ x[i + 1]? = some b ∧ d = b - a := by
  induction x generalizing i with
  | nil => simp [diffs]
  | cons a l ih =>
    cases l with
    | nil => simp [diffs]
    | cons b l =>
      rw [diffs]
      cases i with
      | zero => simp [eq_comm]
      | succ i => rw [List.getElem?_cons_succ, ih i]; simp

omit [IsStrictOrderedRing R] in
theorem letters_getElem? (x : List R) (eps : R) (i : Nat) (c : Char) :
    (stepLetters eps x)[i]? = some c ↔
      ∃ a b, x[i]? = some a ∧ x[i + 1]? = some b ∧ c = stepLetter eps (b - a) := by
  rw [stepLetters, List.getElem?_map, Option.map_eq_some_iff]
  constructor
  · rintro ⟨d, hd, rfl⟩
    obtain ⟨a, b, h1, h2, rfl⟩ := (diffs_getElem? x i d).mp hd
    exact ⟨a, b, h1, h2, rfl⟩
  · rintro ⟨a, b, h1, h2, rfl⟩
    exact ⟨b - a, (diffs_getElem? x i _).mpr ⟨a, b, h1, h2, rfl⟩, rfl⟩

omit [IsStrictOrderedRing R] [LinearOrder R] in
theorem diffs_length (x : List R) : (diffs x).length = x.length - 1 := by
  induction x with
  | nil => rfl
  | cons a l ih => cases l with
    | nil => rfl
    | cons b l => rw [diffs, List.length_cons, ih]; simp

/-- sign of a segment letter -/
def letterSign (c : Char) : Int := if c = 'A' then 1 else if c = 'D' then -1 else 0

theorem stepLetter_A {eps d : R} : stepLetter eps d = 'A' ↔ eps < d := by
  unfold stepLetter
  by_cases h1 : eps < d
  · simp [h1]
  · by_cases h2 : d < -eps <;> simp [h1, h2]

theorem stepLetter_D {eps d : R} (h : 0 ≤ eps) : stepLetter eps d = 'D' ↔ eps < -d := by
  unfold stepLetter
  by_cases h1 : eps < d
  · simp only [h1, if_true]
    constructor
    · intro h; exact absurd h (by decide)
    · intro h'; linarith
  · by_cases h2 : d < -eps
    · simp only [h1, h2, if_true, if_false, true_iff]; linarith
    · simp only [h1, h2, if_false]
      constructor
      · intro h; exact absurd h (by decide)
      · intro h'; exact absurd (by linarith) h2

theorem stepLetter_S {eps d : R} (hs : stepLetter eps d = 'S') : -eps ≤ d ∧ d ≤ eps := by
  unfold stepLetter at hs
  split at hs
  · exact absurd hs (by decide)
  · split at hs
    · exact absurd hs (by decide)
    · constructor <;> linarith

theorem stepLetter_cases (eps d : R) : stepLetter eps d = 'A' ∨ stepLetter eps d = 'D' ∨ stepLetter eps d = 'S' := by
  unfold stepLetter; split
  · simp
  · split <;> simp

/-- the piece made of a segment -/
def pieceOfSeg (x : List R) (left right : Nat) (t : Nat × Nat × Char) : Piece R :=
  { interval := (x.take (t.2.1 + right)).drop (t.1 + left), sign := letterSign t.2.2,
    start := t.1 + left, stop := t.2.1 + right }

omit [IsStrictOrderedRing R] in
theorem findGo_pieces (re : Re) (sel : Char → Bool)
    (hre : ∀ b c r, Re.matchAt re ⟨b, c :: r⟩ =
      if sel c then some ((⟨b, c :: r⟩ : Pos).adv (segLen c r + 1)) else none)
    (x : List R) (left right : Nat) (w : List Char) :
    (Re.findGo re w.length ⟨[], w⟩).map (pieceOf x left right) = (segs sel 0 0 w).map (pieceOfSeg x left right) := by
  have h := findGo_segs re sel hre w.length [] w (le_refl _)
  let g : Nat × Nat × Option Char → Piece R := fun m =>
    { interval := (x.take (m.2.1 + right)).drop (m.1 + left),
      sign := signOf m.2.2,
      start := m.1 + left, stop := m.2.1 + right }
  have h2 := congrArg (List.map g) h
  rw [List.map_map, List.map_map] at h2
  have e1 : g ∘ (fun m : Pos × Pos => (m.1.before.length, m.2.before.length, m.1.rest.head?)) = pieceOf x left right := by
    funext m; simp only [Function.comp, g, pieceOf]
  have e2 : g ∘ (fun t : Nat × Nat × Char => (t.1, t.2.1, some t.2.2)) = pieceOfSeg x left right := by
    funext t; simp only [Function.comp, g, pieceOfSeg, letterSign]
    simp [signOf]
  rw [e1, e2] at h2
  exact h2

def selBoth (c : Char) : Bool := c == 'A' || c == 'D'

omit [IsStrictOrderedRing R] in
/-- the segments of the array, with the options read -/
theorem split_both (compile : List Char → Except PyErr Re) (x : List R) (trend ends : List Char) (eps : R)
    (ht : upperFirst trend = some 'B') :
    splitMonotonic compile x trend ends eps =
      (endShift ends).map (fun s => (segs selBoth 0 0 (stepLetters eps x)).map (pieceOfSeg x s.1 s.2)) := by
  unfold splitMonotonic trendPattern
  cases h : endShift ends with
  | error e => rfl
  | ok s =>
    simp only [ht, bind, Except.bind, pure, Except.pure, Except.map]
    rw [findGo_pieces _ selBoth matchAt_both]

omit [IsStrictOrderedRing R] in
theorem split_one (compile : List Char → Except PyErr Re) (x : List R) (trend ends : List Char) (eps : R) (a : Char)
    (haa : a = 'A' ∨ a = 'D') (ht : upperFirst trend = some a) :
    splitMonotonic compile x trend ends eps =
      (endShift ends).map (fun s => (segs (· == a) 0 0 (stepLetters eps x)).map (pieceOfSeg x s.1 s.2)) := by
  unfold splitMonotonic trendPattern
  cases h : endShift ends with
  | error e => rfl
  | ok s =>
    rcases haa with rfl | rfl <;>
    · simp only [ht, bind, Except.bind, pure, Except.pure, Except.map]
      rw [findGo_pieces _ _ (matchAt_one _)]

theorem selBoth_letters (eps : R) (x : List R) : ∀ c ∈ stepLetters eps x, c = 'S' ∨ selBoth c = true := by
  intro c hc
  obtain ⟨d, _, rfl⟩ := List.mem_map.mp hc
  rcases stepLetter_cases eps d with h | h | h <;> rw [h] <;> simp [selBoth]

theorem stepLetter_toward {eps d : R} (h : 0 ≤ eps) {c : Char} (hc : selBoth c = true) (hd : stepLetter eps d = c) :
    eps < (letterSign c : Int) * d := by
  simp only [selBoth, Bool.or_eq_true, beq_iff_eq] at hc
  rcases hc with rfl | rfl
  · simpa [letterSign] using stepLetter_A.mp hd
  · simpa [letterSign] using (stepLetter_D h).mp hd

theorem goodPiece_of_seg (x : List R) (eps : R) (h : 0 ≤ eps) (t : Nat × Nat × Char)
    (ok : SegOk selBoth 0 (stepLetters eps x) t) : GoodPiece x eps (pieceOfSeg x 0 1 t) := by
  have hlt := ok.lt
  have hhi := ok.hi
  have hlen : (stepLetters eps x).length = x.length - 1 := by rw [stepLetters, List.length_map, diffs_length]
  rw [hlen] at hhi
  refine ⟨rfl, by simp [pieceOfSeg]; omega, by simp [pieceOfSeg]; omega, ?_, ?_, ?_, ?_⟩
  · have := ok.sel
    simp only [selBoth, Bool.or_eq_true, beq_iff_eq] at this
    rcases this with h | h <;> simp [pieceOfSeg, letterSign, h]
  · intro i a b h1 h2 ha hb
    simp only [pieceOfSeg, Nat.add_zero] at h1 h2 ⊢
    obtain ⟨c, hc, hin⟩ := ok.inside i h1 (by omega)
    obtain ⟨a', b', ha', hb', rfl⟩ := (letters_getElem? x eps _ c).mp hc
    rw [Nat.sub_zero] at ha' hb'
    rw [ha] at ha'; rw [hb] at hb'
    injection ha' with ha'; injection hb' with hb'; subst ha' hb'
    simp only [inSeg, Bool.or_eq_true, beq_iff_eq] at hin
    rcases hin with h3 | h3
    · have := stepLetter_toward h ok.sel h3; linarith
    · have := stepLetter_S h3
      have hs := ok.sel
      simp only [selBoth, Bool.or_eq_true, beq_iff_eq] at hs
      rcases hs with h | h <;> simp [letterSign, h] <;> linarith [this.1, this.2]
  · obtain ⟨a, b, ha, hb, hc⟩ := (letters_getElem? x eps _ _).mp ok.first
    exact ⟨a, b, by simpa [pieceOfSeg] using ha, by simpa [pieceOfSeg] using hb,
      stepLetter_toward h ok.sel hc.symm⟩
  · obtain ⟨a, b, ha, hb, hc⟩ := (letters_getElem? x eps _ _).mp ok.last
    refine ⟨a, b, ?_, ?_, stepLetter_toward h ok.sel hc.symm⟩
    · simp only [pieceOfSeg]; rw [show t.2.1 + 1 - 2 = t.2.1 - 1 - 0 by omega]; exact ha
    · simp only [pieceOfSeg]; rw [show t.2.1 + 1 - 1 = t.2.1 - 1 - 0 + 1 by omega]; exact hb

end lemmas

/-- **C29** With default options the pieces are good pieces of the array, in order, no two share a step, consecutive
pieces have opposite directions (so no piece could be joined with the next one), and every step of more than `eps`
belongs to exactly one piece, whose direction it has. -/
theorem C29_pieces (compile : List Char → Except PyErr Re) (x : List R) (eps : R) (h : 0 ≤ eps) :
    ∃ ps, splitMonotonic compile x "both".toList "both".toList eps = .ok ps ∧
      (∀ p ∈ ps, GoodPiece x eps p) ∧
      ps.Pairwise (fun p q => p.stop ≤ q.start + 1) ∧
      ps.IsChain (fun p q => q.sign = -p.sign) ∧
      ∀ i a b, x[i]? = some a → x[i + 1]? = some b → eps < |b - a| →
        ∃! p, p ∈ ps ∧ p.start ≤ i ∧ i + 1 < p.stop ∧ eps < p.sign * (b - a) := by
  refine ⟨(segs selBoth 0 0 (stepLetters eps x)).map (pieceOfSeg x 0 1), ?_, ?_, ?_, ?_, ?_⟩
  · rw [split_both _ _ _ _ _ (by decide)]; rfl
  · intro p hp
    obtain ⟨t, ht, rfl⟩ := List.mem_map.mp hp
    exact goodPiece_of_seg x eps h t (segs_ok _ _ _ _ t ht).1
  · rw [List.pairwise_map]
    refine (segs_pairwise selBoth _ 0 0).imp ?_
    intro s t hst; simp [pieceOfSeg]; omega
  · rw [List.isChain_map]
    have hall := fun t ht => (segs_ok selBoth (stepLetters eps x) 0 0 t ht).1.sel
    have := segs_chain selBoth (by decide) (stepLetters eps x) 0 0 (selBoth_letters eps x)
    rw [List.isChain_iff_getElem] at this ⊢
    intro i hi
    have h0 := this i hi
    have h1 := hall _ (List.getElem_mem (l := segs selBoth 0 0 (stepLetters eps x)) (show i < _ by omega))
    have h2 := hall _ (List.getElem_mem (l := segs selBoth 0 0 (stepLetters eps x)) hi)
    simp only [selBoth, Bool.or_eq_true, beq_iff_eq] at h1 h2
    rcases h1 with h1 | h1 <;> rcases h2 with h2 | h2 <;> rw [h1, h2] at h0 <;>
      simp_all [pieceOfSeg, letterSign]
  · intro i a b ha hb habs
    have hl : (stepLetters eps x)[i]? = some (stepLetter eps (b - a)) :=
      (letters_getElem? x eps i _).mpr ⟨a, b, ha, hb, rfl⟩
    have hsel : selBoth (stepLetter eps (b - a)) = true := by
      rcases stepLetter_cases eps (b - a) with h1 | h1 | h1
      · rw [h1]; rfl
      · rw [h1]; rfl
      · have := stepLetter_S h1
        have := abs_le.mpr this
        exact absurd habs (not_lt.mpr this)
    obtain ⟨t, ht, h1, h2⟩ := segs_cover selBoth _ 0 0 i _ (by omega) hl hsel (by decide)
    have hok := (segs_ok _ _ _ _ t ht).1
    refine ⟨pieceOfSeg x 0 1 t, ⟨List.mem_map_of_mem ht, by simp [pieceOfSeg]; omega, by simp [pieceOfSeg]; omega, ?_⟩, ?_⟩
    · obtain ⟨c, hc, hin⟩ := hok.inside i (by omega) (by omega)
      rw [Nat.sub_zero, hl] at hc; injection hc with hc; subst hc
      simp only [inSeg, Bool.or_eq_true, beq_iff_eq] at hin
      rcases hin with h3 | h3
      · exact stepLetter_toward h hok.sel h3
      · rw [h3] at hsel; exact absurd hsel (by decide)
    · rintro q ⟨hq, hq1, hq2, -⟩
      obtain ⟨t', ht', rfl⟩ := List.mem_map.mp hq
      simp only [pieceOfSeg, Nat.add_zero] at hq1 hq2
      congr 1
      by_contra hne
      have hp := segs_pairwise selBoth (stepLetters eps x) 0 0
      rw [List.pairwise_iff_getElem] at hp
      obtain ⟨m, hm, rfl⟩ := List.getElem_of_mem ht
      obtain ⟨m', hm', rfl⟩ := List.getElem_of_mem ht'
      rcases lt_trichotomy m m' with hlt | heq | hgt
      · have := hp m m' hm hm' hlt; omega
      · subst heq; exact hne rfl
      · have := hp m' m hm' hm hgt; omega

/-- one up-piece with a flat part inside, one down-piece, a trailing flat part -/
example : splitMonotonic (fun _ => .error .valueError) ([1, 2, 2, 3, 1, 1] : List ℚ) "both".toList "both".toList (1/100)
    = .ok [⟨[1, 2, 2, 3], 1, 0, 4⟩, ⟨[3, 1], -1, 3, 5⟩] := by decide +kernel

section options

omit [IsStrictOrderedRing R] in
/-- **C30** Asking for ascending (descending) pieces gives exactly the pieces of `'both'` with sign `1` (`-1`), for
every `ends` option (and the same error for an invalid one). -/
theorem C30_trend (compile : List Char → Except PyErr Re) (x : List R) (rest rest' ends : List Char) (eps : R)
    (a : Char) (b : Char) (ha : a = 'a' ∨ a = 'A' ∨ a = 'd' ∨ a = 'D') (hb : b = 'b' ∨ b = 'B') :
    splitMonotonic compile x (a :: rest) ends eps =
      (splitMonotonic compile x (b :: rest') ends eps).map
        (List.filter fun p => p.sign = if a = 'a' ∨ a = 'A' then 1 else -1) := by
  have hb' : upperFirst (b :: rest') = some 'B' := by rcases hb with rfl | rfl <;> simp [upperFirst]
  rw [split_both _ _ _ _ _ hb']
  have key : ∀ c : Char, (c = 'A' ∨ c = 'D') → upperFirst (a :: rest) = some c →
      splitMonotonic compile x (a :: rest) ends eps =
        ((endShift ends).map (fun s => (segs selBoth 0 0 (stepLetters eps x)).map (pieceOfSeg x s.1 s.2))).map
        (List.filter fun p => p.sign = letterSign c) := by
    intro c hc hu
    rw [split_one _ _ _ _ _ c hc hu]
    cases endShift ends with
    | error e => rfl
    | ok s =>
      simp only [Except.map]
      rw [(segs_filter selBoth c (by rcases hc with rfl | rfl <;> rfl)
        (by rcases hc with rfl | rfl <;> decide) (stepLetters eps x)).1 0 0, List.filter_map]
      congr 2
      apply List.filter_congr
      intro t ht
      have h2 := (segs_ok selBoth _ 0 0 t ht).1.sel
      simp only [selBoth, Bool.or_eq_true, beq_iff_eq] at h2
      rcases hc with rfl | rfl <;> rcases h2 with h2 | h2 <;> rw [Function.comp] <;> simp [pieceOfSeg, letterSign, h2]
  rcases ha with rfl | rfl | rfl | rfl
  · rw [key 'A' (by simp) (by simp [upperFirst])]; simp [letterSign]
  · rw [key 'A' (by simp) (by simp [upperFirst])]; simp [letterSign]
  · rw [key 'D' (by simp) (by simp [upperFirst])]; simp [letterSign]
  · rw [key 'D' (by simp) (by simp [upperFirst])]; simp [letterSign]

example : splitMonotonic (fun _ => .error .valueError) ([1, 2, 2, 3, 1, 1] : List ℚ) "Desc".toList "both".toList (1/100)
    = .ok [⟨[3, 1], -1, 3, 5⟩] := by decide +kernel

/-- which end points an `ends` option keeps: (left kept, right kept) -/
def keeps (c : Char) : Option (Bool × Bool) :=
  if c = 'b' ∨ c = 'B' then some (true, true) else if c = 'l' ∨ c = 'L' then some (true, false)
  else if c = 'r' ∨ c = 'R' then some (false, true) else if c = 'n' ∨ c = 'N' then some (false, false) else none

omit [IsStrictOrderedRing R] in
/-- **C30** The `ends` option only drops end points: every piece of the result is the piece found with `ends='both'`
with its first point dropped if the left end is excluded and its last point dropped if the right end is excluded. -/
theorem C30_ends (compile : List Char → Except PyErr Re) (x : List R) (trend rest : List Char) (eps : R) (c : Char)
    (l r : Bool) (hc : keeps c = some (l, r)) :
    splitMonotonic compile x trend (c :: rest) eps =
      (splitMonotonic compile x trend "both".toList eps).map (List.map fun p =>
        { interval := (x.take (if r then p.stop else p.stop - 1)).drop (if l then p.start else p.start + 1),
          sign := p.sign, start := if l then p.start else p.start + 1, stop := if r then p.stop else p.stop - 1 }) := by
  have hb : endShift "both".toList = .ok (0, 1) := by decide
  have he : endShift (c :: rest) = .ok (if l then 0 else 1, if r then 1 else 0) := by
    unfold keeps at hc
    split at hc
    · rename_i h; injection hc with hc; injection hc with h1 h2; subst h1 h2
      rcases h with rfl | rfl <;> simp [endShift, upperFirst]
    · split at hc
      · rename_i h; injection hc with hc; injection hc with h1 h2; subst h1 h2
        rcases h with rfl | rfl <;> simp [endShift, upperFirst]
      · split at hc
        · rename_i h; injection hc with hc; injection hc with h1 h2; subst h1 h2
          rcases h with rfl | rfl <;> simp [endShift, upperFirst]
        · split at hc
          · rename_i h; injection hc with hc; injection hc with h1 h2; subst h1 h2
            rcases h with rfl | rfl <;> simp [endShift, upperFirst]
          · cases hc
  unfold splitMonotonic
  rw [hb, he]
  simp only [bind, Except.bind, pure, Except.pure]
  cases trendPattern compile trend with
  | error e => rfl
  | ok re =>
    simp only [Except.map, List.map_map]
    congr 1
    apply List.map_congr_left
    intro m _
    cases l <;> cases r <;> simp [pieceOf]

example : splitMonotonic (fun _ => .error .valueError) ([1, 2, 2, 3, 1, 1] : List ℚ) "both".toList "None".toList (1/100)
    = .ok [⟨[2, 2], 1, 1, 3⟩, ⟨[], -1, 4, 4⟩] := by decide +kernel

omit [IsStrictOrderedRing R] in
/-- **C30** An invalid option raises `ValueError` whatever the data (the `ends` option is looked at first), and an
empty option string raises `IndexError`. -/
theorem C30_errors (compile : List Char → Except PyErr Re) (x : List R) (trend ends : List Char) (eps : R) :
    (∀ c rest, ends = c :: rest → keeps c = none → splitMonotonic compile x trend ends eps = .error .valueError) ∧
    (ends = [] → splitMonotonic compile x trend ends eps = .error .indexError) ∧
    (∀ c rest c' rest', ends = c :: rest → keeps c ≠ none → trend = c' :: rest' →
      c' ∉ ['a', 'A', 'ẚ', 'd', 'D', 'b', 'B', '#'] → splitMonotonic compile x trend ends eps = .error .valueError) ∧
    (∀ c rest, ends = c :: rest → keeps c ≠ none → trend = [] →
      splitMonotonic compile x trend ends eps = .error .indexError) := by
  have hend : ∀ c rest, keeps c = none → endShift (c :: rest) = .error .valueError := by
    intro c rest h
    unfold keeps at h
    simp only [endShift, upperFirst]
    have hb : ¬(c = 'b' ∨ c = 'B') := by intro h'; simp [h'] at h
    have hl : ¬(c = 'l' ∨ c = 'L') := by intro h'; simp [hb, h'] at h
    have hr : ¬(c = 'r' ∨ c = 'R') := by intro h'; simp [hb, hl, h'] at h
    have hn : ¬(c = 'n' ∨ c = 'N') := by intro h'; simp [hb, hl, hr, h'] at h
    push Not at hb hl hr hn
    by_cases h1 : c = 'a' ∨ c = 'ẚ'
    · simp [h1]
    · by_cases h2 : c = 'd'
      · simp [h2]
      · simp only [h1, h2, hb.1, hl.1, hn.1, hr.1, if_false]
        split <;> simp_all
  have hok : ∀ c rest, keeps c ≠ none → ∃ s, endShift (c :: rest) = .ok s := by
    intro c rest h
    unfold keeps at h
    split at h
    · rename_i h'; rcases h' with rfl | rfl <;> exact ⟨(0, 1), by simp [endShift, upperFirst]⟩
    · split at h
      · rename_i h'; rcases h' with rfl | rfl <;> exact ⟨(0, 0), by simp [endShift, upperFirst]⟩
      · split at h
        · rename_i h'; rcases h' with rfl | rfl <;> exact ⟨(1, 1), by simp [endShift, upperFirst]⟩
        · split at h
          · rename_i h'; rcases h' with rfl | rfl <;> exact ⟨(1, 0), by simp [endShift, upperFirst]⟩
          · exact absurd rfl h
  refine ⟨?_, ?_, ?_, ?_⟩
  · rintro c rest rfl h
    unfold splitMonotonic; rw [hend c rest h]; rfl
  · rintro rfl; rfl
  · rintro c rest c' rest' rfl h rfl h'
    obtain ⟨s, hs⟩ := hok c rest h
    unfold splitMonotonic
    rw [hs]
    simp only [List.mem_cons, List.not_mem_nil, or_false, not_or] at h'
    obtain ⟨h1, h2, h3, h4, h5, h6, h7, h8⟩ := h'
    have : trendPattern compile (c' :: rest') = .error .valueError := by
      simp only [trendPattern, upperFirst, h1, h3, h4, h6, or_self, if_false]
      by_cases hl : c' = 'l'
      · simp [hl]
      · by_cases hn : c' = 'n'
        · simp [hn]
        · by_cases hr : c' = 'r'
          · simp [hr]
          · simp only [hl, hn, hr, if_false]
    rw [this]; rfl
  · rintro c rest rfl h rfl
    obtain ⟨s, hs⟩ := hok c rest h
    unfold splitMonotonic; rw [hs]; rfl

end options

end TEflow.Mathext
