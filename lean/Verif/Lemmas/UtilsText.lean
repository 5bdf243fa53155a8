import Mathlib.Algebra.Order.Floor.Ring
import Mathlib.Tactic.Linarith
import Mathlib.Tactic.FieldSimp
import Mathlib.Tactic.Ring
import Verif.Lemmas.Re
import Verif.Model.Utils

/-! # Lemmas for the text converters of `CfgParser` -/

set_option linter.unusedSimpArgs false
set_option linter.unusedSectionVars false

namespace TEflow.Utils

theorem isSep_colon : isSep ':' = false := by decide

/-- Specification: every character together with the mark "separator without a colon as neighbour". -/
def markFree : Option Char → List Char → List (Char × Bool)
  | _, [] => []
  | prev, c :: r => (c, isSep c && prev != some ':' && r.head? != some ':') :: markFree (some c) r

theorem markFree_map_fst (prev : Option Char) (s : List Char) : (markFree prev s).map Prod.fst = s := by
  induction s generalizing prev with
  | nil => rfl
  | cons c s ih => simp [markFree, ih]

/-- number of leading free separators -/
def freeLen (prev : Option Char) (s : List Char) : Nat := ((markFree prev s).takeWhile (·.2)).length

theorem freeLen_sep (r : List Char) (c : Char) (prev : Option Char) (hc : isSep c = true) (hp : prev ≠ some ':') :
    freeLen prev (c :: r) = (r.takeWhile isSep).length + (if (r.dropWhile isSep).head? = some ':' then 0 else 1) := by
  induction r generalizing c prev with
  | nil => simp [freeLen, markFree, hc, hp]
  | cons d r ih =>
    have hcc : (some c : Option Char) ≠ some ':' := by
      intro h; cases h; rw [isSep_colon] at hc; cases hc
    by_cases hd : isSep d
    · have hdc : d ≠ ':' := by intro h; subst h; rw [isSep_colon] at hd; cases hd
      have h := ih d (some c) hd hcc
      simp only [freeLen] at h ⊢
      rw [List.takeWhile_cons_of_pos hd, List.dropWhile_cons_of_pos hd]
      rw [show markFree prev (c :: d :: r) = (c, true) :: markFree (some c) (d :: r) by
        rw [markFree]; simp [hc, hp, hdc]]
      rw [List.takeWhile_cons_of_pos rfl, List.length_cons, h, List.length_cons]
      omega
    · rw [List.takeWhile_cons_of_neg hd, List.dropWhile_cons_of_neg hd]
      by_cases hdc : d = ':'
      · subst hdc
        simp [freeLen, markFree]
      · simp [freeLen, markFree, hc, hp, hdc, hd]

theorem freeLen_notSep (r : List Char) (c : Char) (prev : Option Char) (hc : isSep c = false) :
    freeLen prev (c :: r) = 0 := by simp [freeLen, markFree, hc]

theorem freeLen_colon (r : List Char) (c : Char) : freeLen (some ':') (c :: r) = 0 := by
  simp [freeLen, markFree]

theorem run_notAhead_colon (s : Pos) :
    Re.run (.notAhead (.chr ':')) s = if s.rest.head? = some ':' then [] else [s] := by
  obtain ⟨b, r⟩ := s
  cases r with
  | nil => simp [Re.run, Re.chr]
  | cons c r =>
    by_cases h : c = ':' <;> simp [Re.run, Re.chr, h]

theorem head?_drop_takeWhile (r : List Char) (p : Char → Bool) (j : Nat) (h : j < (r.takeWhile p).length) :
    ∃ c, (r.drop j).head? = some c ∧ p c = true := by
  induction r generalizing j with
  | nil => simp at h
  | cons d r ih =>
    by_cases hd : p d
    · rw [List.takeWhile_cons_of_pos hd] at h
      cases j with
      | zero => exact ⟨d, by simp, hd⟩
      | succ j => simpa using ih j (by simpa using h)
    · rw [List.takeWhile_cons_of_neg hd] at h; simp at h

theorem drop_takeWhile_length (r : List Char) (p : Char → Bool) : r.drop (r.takeWhile p).length = r.dropWhile p := by
  induction r with
  | nil => rfl
  | cons c r ih =>
    by_cases h : p c
    · rw [List.takeWhile_cons_of_pos h, List.dropWhile_cons_of_pos h]; simpa using ih
    · rw [List.takeWhile_cons_of_neg h, List.dropWhile_cons_of_neg h]; rfl

/-- what `(?<!:)[\s,]+(?!:)` matches: the leading free separators -/
theorem matchAt_seqSep (b : List Char) (c : Char) (r : List Char) :
    Re.matchAt seqSepRe ⟨b, c :: r⟩ =
      if freeLen b.head? (c :: r) = 0 then none
      else some ((⟨b, c :: r⟩ : Pos).adv (freeLen b.head? (c :: r))) := by
  have hnb : Re.run (.notBehind (· == ':')) ⟨b, c :: r⟩ = if b.head? = some ':' then [] else [⟨b, c :: r⟩] := by
    cases b with
    | nil => simp [Re.run]
    | cons d b => by_cases h : d = ':' <;> simp [Re.run, h]
  unfold Re.matchAt seqSepRe
  rw [Re.run, hnb]
  by_cases hb : b.head? = some ':'
  · rw [if_pos hb, hb, freeLen_colon]; simp
  · rw [if_neg hb]
    simp only [List.flatMap_cons, List.flatMap_nil, List.append_nil]
    rw [Re.run, Re.run_plus_cls]
    cases hc : isSep c with
    | false => rw [freeLen_notSep _ _ _ hc]; simp
    | true =>
      rw [freeLen_sep r c b.head? hc hb]
      simp only [if_true]
      rw [show (Re.notAhead (Re.chr ':')).run = fun s => if s.rest.head? = some ':' then [] else [s] from
        funext run_notAhead_colon]
      by_cases hh : (r.dropWhile isSep).head? = some ':'
      · rw [if_pos hh]
        cases hn : (r.takeWhile isSep).length with
        | zero =>
          have : r.dropWhile isSep = r := by rw [← drop_takeWhile_length, hn]; rfl
          rw [this] at hh
          simp [downTo, Pos.adv, hh]
        | succ j =>
          obtain ⟨d, hd1, hd2⟩ := head?_drop_takeWhile r isSep j (by omega)
          have hdc : d ≠ ':' := by intro h; subst h; rw [isSep_colon] at hd2; cases hd2
          have h0 : (List.drop (j + 1) r).head? = some ':' := by
            rw [← hn, drop_takeWhile_length]; exact hh
          rw [downTo_succ, downTo_head j]
          simp only [List.map_cons, List.flatMap_cons, Pos.adv_before_rest, List.drop_succ_cons, h0, if_true, hd1,
            Option.some.injEq, hdc, if_false, List.nil_append]
          simp
      · rw [if_neg hh, downTo_head]
        have h0 : ¬ (List.drop (r.takeWhile isSep).length r).head? = some ':' := by
          rw [drop_takeWhile_length]; exact hh
        simp only [List.map_cons, List.flatMap_cons, Pos.adv_before_rest, List.drop_succ_cons, h0, if_false]
        simp

theorem markFree_drop (k : Nat) (prev : Option Char) (s : List Char) (b : List Char) (hb : b.head? = prev) :
    (markFree prev s).drop k = markFree (((s.take k).reverse ++ b).head?) (s.drop k) := by
  induction k generalizing prev s b with
  | zero => simp [hb]
  | succ k ih =>
    cases s with
    | nil => simp [markFree]
    | cons c s =>
      simp only [markFree, List.drop_succ_cons]
      rw [ih (some c) s (c :: b) rfl]
      simp

theorem toks_map_fst_flush (acc : List (Char × Bool)) : (flush acc).map (·.map Prod.fst) = flush (acc.map Prod.fst) := by
  cases acc <;> simp [flush]

theorem splitGo_seqSep (n : Nat) (r acc' b : List Char) (acc : List (Char × Bool)) (hacc : acc.map Prod.fst = acc')
    (hn : r.length ≤ n) :
    (Re.splitGo seqSepRe n acc' ⟨b, r⟩).filter (fun t => !t.isEmpty) =
      (toks (·.2) acc (markFree b.head? r)).map (·.map Prod.fst) := by
  induction n generalizing r acc acc' b with
  | zero =>
    have : r = [] := by simpa using hn
    subst this
    have := Re.filter_append_flush acc' []
    simp only [List.filter_nil, List.append_nil] at this
    simp only [Re.splitGo, markFree, toks, toks_map_fst_flush, hacc, this]
  | succ n ih =>
    cases r with
    | nil =>
      rw [Re.splitGo_nil]
      have := Re.filter_append_flush acc' []
      simp only [List.filter_nil, List.append_nil] at this
      simp only [markFree, toks, toks_map_fst_flush, hacc, this]
    | cons c r =>
      have hm := matchAt_seqSep b c r
      by_cases h0 : freeLen b.head? (c :: r) = 0
      · rw [if_pos h0] at hm
        rw [Re.splitGo_cons_none _ _ _ _ _ _ hm]
        have hf : (isSep c && b.head? != some ':' && r.head? != some ':') = false := by
          unfold freeLen at h0
          rw [markFree] at h0
          by_contra hcon
          rw [Bool.not_eq_false] at hcon
          rw [hcon, List.takeWhile_cons_of_pos rfl] at h0
          simp at h0
        rw [markFree, toks, hf]
        simp only [Bool.false_eq_true, if_false]
        exact ih r (c :: acc') (c :: b) ((c, false) :: acc) (by simp [hacc]) (by simpa using hn)
      · rw [if_neg h0] at hm
        rw [Re.splitGo_cons_some _ _ _ _ _ _ _ (Nat.pos_of_ne_zero h0) hm, Re.filter_append_flush]
        have hle : ((c :: r).drop (freeLen b.head? (c :: r))).length ≤ n := by
          simp only [List.length_drop]; simp at hn ⊢; omega
        have := ih ((c :: r).drop (freeLen b.head? (c :: r))) [] (((c :: r).take (freeLen b.head? (c :: r))).reverse ++ b) []
          rfl hle
        rw [show (⟨b, c :: r⟩ : Pos).adv (freeLen b.head? (c :: r)) = ⟨((c :: r).take (freeLen b.head? (c :: r))).reverse ++ b,
          (c :: r).drop (freeLen b.head? (c :: r))⟩ from rfl, this]
        rw [← markFree_drop (freeLen b.head? (c :: r)) b.head? (c :: r) b rfl]
        rw [toks_drop_prefix _ _ _ (by rfl)]
        have hs : ∀ x ∈ (markFree b.head? (c :: r)).head?, x.2 = true := by
          intro x hx
          rw [markFree] at hx
          simp only [List.head?_cons, Option.mem_def, Option.some.injEq] at hx
          subst hx
          by_contra hcon
          apply h0
          unfold freeLen
          rw [markFree, List.takeWhile_cons_of_neg hcon]; rfl
        rw [toks_head_sep _ acc _ hs, List.map_append, toks_map_fst_flush, hacc]

/-- the pieces of `parse_seq`: cut at the free separators -/
theorem split_seqSep (text : List Char) :
    (Re.split seqSepRe text).filter (fun t => !t.isEmpty) =
      (toks (·.2) [] (markFree none text)).map (·.map Prod.fst) :=
  splitGo_seqSep _ _ _ _ [] rfl (le_refl _)

theorem parseList_eq_toks (text : List Char) : parseList text = toks isSep [] text := Re.split_plus_cls isSep text

theorem fields_eq_toks (part : List Char) :
    (Re.split fieldRe part).filter (fun t => !t.isEmpty) = toks (fun c => c == ':' || pySpace c) [] part :=
  Re.split_plus_cls _ part

/-- within a text, marks only depend on the neighbours -/
theorem markFree_append (w s : List Char) (prev : Option Char) (c : Char) (hl : w.getLast? = some c)
    (hs : s.head? ≠ some ':') : markFree prev (w ++ s) = markFree prev w ++ markFree (some c) s := by
  induction w generalizing prev with
  | nil => simp at hl
  | cons d w ih =>
    cases w with
    | nil =>
      simp only [List.getLast?_singleton, Option.some.injEq] at hl
      subst hl
      have h1 : (s.head? != some ':') = true := bne_iff_ne.2 hs
      have h2 : ((none : Option Char) != some ':') = true := rfl
      simp [markFree, h1, h2]
    | cons e w =>
      rw [List.cons_append, markFree, ih (some d) (by simpa using hl)]
      simp [markFree]

theorem markFree_seps (s : List Char) (prev : Option Char) (hs : ∀ c ∈ s, isSep c = true) (hp : prev ≠ some ':') :
    markFree prev s = s.map (fun c => (c, true)) := by
  induction s generalizing prev with
  | nil => rfl
  | cons c s ih =>
    have hc := hs c (by simp)
    have hcc : (some c : Option Char) ≠ some ':' := by
      intro h; cases h; rw [isSep_colon] at hc; cases hc
    have hh : s.head? ≠ some ':' := by
      intro h
      have := hs ':' (by simp [List.mem_of_mem_head? h])
      rw [isSep_colon] at this; cases this
    rw [markFree, ih (some c) (fun d hd => hs d (by simp [hd])) hcc]
    simp [hc, hp, hh]

theorem markFree_prev (w : List Char) (p q : Option Char) (c : Char) (hh : w.head? = some c) (hc : isSep c = false) :
    markFree p w = markFree q w := by
  cases w with
  | nil => simp at hh
  | cons d w =>
    simp only [List.head?_cons, Option.some.injEq] at hh; subst hh
    simp [markFree, hc]

theorem map_const_of_all {l : List (Char × Bool)} (h : ∀ x ∈ l, x.2 = false) :
    l = (l.map Prod.fst).map (fun c => (c, false)) := by
  induction l with
  | nil => rfl
  | cons x l ih =>
    simp only [List.map_cons]
    rw [← ih (fun y hy => h y (by simp [hy]))]
    congr 1
    have h1 := h x (by simp)
    obtain ⟨c, b⟩ := x
    simp only at h1; subst h1; rfl

section Ranges
variable {K : Type} [Field K] [LinearOrder K] [IsStrictOrderedRing K] [FloorRing K]

theorem rangeUpGo_eq (n : Nat) (a stop : K) (hn : ⌈stop - a⌉ ≤ n) :
    rangeUpGo n a stop = (List.range ⌈stop - a⌉.toNat).map (fun i : Nat => a + i) := by
  induction n generalizing a with
  | zero =>
    have : ⌈stop - a⌉.toNat = 0 := by omega
    simp [rangeUpGo, this]
  | succ n ih =>
    rw [rangeUpGo]
    by_cases h : a < stop
    · rw [if_pos h]
      have h1 : ⌈stop - (a + 1)⌉ = ⌈stop - a⌉ - 1 := by
        rw [← Int.ceil_sub_one]; congr 1; ring
      have h2 : 0 < ⌈stop - a⌉ := Int.ceil_pos.2 (by linarith)
      rw [ih (a + 1) (by omega), h1]
      have h3 : ⌈stop - a⌉.toNat = (⌈stop - a⌉ - 1).toNat + 1 := by omega
      rw [h3, List.range_succ_eq_map, List.map_cons, List.map_map]
      simp only [Nat.cast_zero, add_zero, Function.comp_def, Nat.cast_succ]
      congr 1
      apply List.map_congr_left
      intro i _
      ring
    · rw [if_neg h]
      have h2 : ⌈stop - a⌉ ≤ 0 := Int.ceil_le.2 (by push_cast; linarith)
      have : ⌈stop - a⌉.toNat = 0 := by omega
      simp [this]

theorem rangeUp_eq (a b : K) :
    rangeUp a b = (List.range ⌈b + 1 / 10000 - a⌉.toNat).map (fun i : Nat => a + i) := by
  unfold rangeUp
  exact rangeUpGo_eq _ _ _ (by omega)

theorem rangeBy_eq (n : Nat) (a s : K) : rangeBy n a s = (List.range n).map (fun i : Nat => a + i * s) := by
  induction n generalizing a with
  | zero => rfl
  | succ n ih =>
    rw [rangeBy, ih, List.range_succ_eq_map, List.map_cons, List.map_map]
    simp only [Nat.cast_zero, zero_mul, add_zero, Function.comp_def, Nat.cast_succ]
    congr 1
    apply List.map_congr_left
    intro i _
    ring

end Ranges

end TEflow.Utils
